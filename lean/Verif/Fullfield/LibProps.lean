import Verif.Fullfield.NormProps
/-! # Data, flat fields and the stack of images -/
namespace SC.Fullfield

open SC.Py

/-! ## Regions in headers -/

theorem tokens_word (c w s : Str) (hw : ∀ x ∈ w, isSep x = false) : tokens c (w ++ s) = tokens (c ++ w) s := by
  induction w generalizing c with
  | nil => simp
  | cons x w ih =>
    have hx := hw x (by simp)
    simp only [List.cons_append, tokens, hx]
    rw [if_neg (by simp), ih _ (fun y hy => hw y (by simp [hy]))]
    simp

theorem tokens_seps (c t s : Str) (ht : ∀ x ∈ t, isSep x = true) (hc : c = []) : tokens c (t ++ s) = tokens [] s := by
  subst hc
  induction t with
  | nil => rfl
  | cons x t ih =>
    simp only [List.cons_append, tokens, ht x (by simp), if_true]
    exact ih fun y hy => ht y (by simp [hy])

/-- A text of words with separators before, between and after them. -/
def joined : List (Str × Str) → Str → Str
  | [], tail => tail
  | (sep, w) :: r, tail => sep ++ w ++ joined r tail

/-- The words of such a text, whatever separators are used. -/
theorem tokens_joined (l : List (Str × Str)) (tail : Str) (ht : ∀ x ∈ tail, isSep x = true)
    (hl : ∀ q ∈ l, (∀ x ∈ q.1, isSep x = true) ∧ q.2 ≠ [] ∧ ∀ x ∈ q.2, isSep x = false)
    (hsep : ∀ q ∈ l.drop 1, q.1 ≠ []) : tokens [] (joined l tail) = l.map Prod.snd := by
  have key : ∀ (l : List (Str × Str)) (c : Str), c ≠ [] →
      (∀ q ∈ l, (∀ x ∈ q.1, isSep x = true) ∧ q.2 ≠ [] ∧ ∀ x ∈ q.2, isSep x = false) → (∀ q ∈ l, q.1 ≠ []) →
      tokens c (joined l tail) = c :: l.map Prod.snd := by
    intro l
    induction l with
    | nil =>
      intro c hc _ _
      unfold joined
      cases tail with
      | nil => simp [tokens, hc]
      | cons x t =>
        simp only [tokens, ht x (by simp), if_true]
        rw [if_neg hc]
        have := tokens_seps [] t [] (fun y hy => ht y (by simp [hy])) rfl
        rw [List.append_nil] at this
        rw [this]
        simp [tokens]
    | cons q r ih =>
      intro c hc h1 h2
      obtain ⟨sep, w⟩ := q
      obtain ⟨hs, hw, hw'⟩ := h1 (sep, w) (by simp)
      have hs0 := h2 (sep, w) (by simp)
      cases sep with
      | nil => exact absurd rfl hs0
      | cons x t =>
        unfold joined
        have hx : isSep x = true := hs x (by simp)
        simp only [List.cons_append, tokens, hx, if_true]
        rw [if_neg hc, List.append_assoc, tokens_seps [] t _ (fun y hy => hs y (by simp [hy])) rfl, tokens_word [] w _ hw', List.nil_append,
          ih w hw (fun q hq => h1 q (by simp [hq])) (fun q hq => h2 q (by simp [hq]))]
        rfl
  cases l with
  | nil =>
    unfold joined
    have := tokens_seps [] tail [] ht rfl
    rw [List.append_nil] at this
    rw [this]
    rfl
  | cons q r =>
    obtain ⟨sep, w⟩ := q
    obtain ⟨hs, hw, hw'⟩ := hl (sep, w) (by simp)
    unfold joined
    rw [List.append_assoc, tokens_seps [] sep _ hs rfl, tokens_word [] w _ hw', List.nil_append,
      key r w hw (fun q hq => hl q (by simp [hq])) (fun q hq => hsep q (by simpa using hq))]
    rfl

/-- Columns come first in the header: `<x0,y0>-<nxxny>` in any notation with these separators. -/
theorem getroi_header (label : Str) (f : File) (s1 s2 s3 s4 tail : Str) (w : Fin 4 → Str) (v : Fin 4 → Nat)
    (hs1 : ∀ x ∈ s1, isSep x = true) (hs2 : s2 ≠ [] ∧ ∀ x ∈ s2, isSep x = true) (hs3 : s3 ≠ [] ∧ ∀ x ∈ s3, isSep x = true)
    (hs4 : s4 ≠ [] ∧ ∀ x ∈ s4, isSep x = true) (ht : ∀ x ∈ tail, isSep x = true)
    (hw : ∀ k, parseInt (w k) = .ok (v k))
    (h : Dict.get? f.header label = some (s1 ++ w 0 ++ (s2 ++ w 1 ++ (s3 ++ w 2 ++ (s4 ++ w 3 ++ tail))))) :
    getroi label f = .ok ⟨v 1, v 0, v 3, v 2⟩ := by
  have hword : ∀ k, w k ≠ [] ∧ ∀ x ∈ w k, isSep x = false := by
    intro k
    have := hw k
    unfold parseInt at this
    split at this
    · next hd =>
      refine ⟨hd.1, fun x hx => ?_⟩
      have hx' := List.all_eq_true.1 hd.2 x hx
      simp only [Bool.and_eq_true, decide_eq_true_eq] at hx'
      have hne : ∀ c : Char, c.toNat < 48 ∨ 57 < c.toNat → x ≠ c := by
        rintro c hc rfl; omega
      have h1 := hne '<' (by decide)
      have h2 := hne '>' (by decide)
      have h3 := hne ',' (by decide)
      have h4 := hne '-' (by decide)
      have h5 := hne 'x' (by decide)
      have h6 := hne ' ' (by decide)
      simp [isSep, h1, h2, h3, h4, h5, h6]
    · cases this
  have hj := tokens_joined [(s1, w 0), (s2, w 1), (s3, w 2), (s4, w 3)] tail ht (by
    intro q hq
    simp only [List.mem_cons, List.not_mem_nil, or_false] at hq
    rcases hq with rfl | rfl | rfl | rfl
    · exact ⟨hs1, hword 0⟩
    · exact ⟨hs2.2, hword 1⟩
    · exact ⟨hs3.2, hword 2⟩
    · exact ⟨hs4.2, hword 3⟩) (by
    intro q hq
    simp only [List.drop_one, List.tail_cons, List.mem_cons, List.not_mem_nil, or_false] at hq
    rcases hq with rfl | rfl | rfl
    · exact hs2.1
    · exact hs3.1
    · exact hs4.1)
  unfold getroi
  rw [h]
  simp only
  have : joined [(s1, w 0), (s2, w 1), (s3, w 2), (s4, w 3)] tail = s1 ++ w 0 ++ (s2 ++ w 1 ++ (s3 ++ w 2 ++ (s4 ++ w 3 ++ tail))) := rfl
  rw [← this, hj]
  simp only [List.map_cons, List.map_nil, parseInts, hw]

example : (getroi ['r'] ⟨[(['r'], ['<', '1', '2', ',', '3', '>', '-', '<', '4', 'x', '5', '>'])], ⟨0, 0, fun _ _ => 0⟩⟩).toOption = some ⟨3, 12, 5, 4⟩ := by
  decide +kernel

/-- Without a region in the header: the whole image. -/
theorem getroi_default (label : Str) (f : File) (h : Dict.get? f.header label = none) :
    getroi label f = .ok ⟨0, 0, f.img.rows, f.img.cols⟩ := by
  unfold getroi; rw [h]

/-! ## Stack values -/

/-- Values that are given are used when there is one for each file, otherwise those in the headers. -/
theorem stackvalues_spec (given : List Key) (n : Nat) : (stackvalues given n).length = n ∧
    (given.length = n → stackvalues given n = given.map some) ∧ (given.length ≠ n → stackvalues given n = List.replicate n none) := by
  unfold stackvalues
  refine ⟨?_, fun h => ?_, fun h => if_pos (Or.inr h)⟩
  · split
    · simp
    · next hc => have := fun hne => hc (Or.inr hne); simpa using not_not.1 this
  · by_cases hg : given = []
    · subst hg; simp at h; subst h; rfl
    · rw [if_neg (by rintro (h1 | h1); exact hg h1; exact h1 h)]

/-! ## Files by stack value -/

/-- The files that have a stack value, with it and their region. -/
def keyed (fs : Str → File) (p : Params) (l : List (Str × Option Key)) : List (Str × Key × Except Err CamRoi) :=
  l.filterMap fun q => (fileKey p (fs q.1) q.2).map fun k => (q.1, k, getroi p.roilabel (fs q.1))

theorem libLoop_fold (add : Lib → Str → Key → CamRoi → Lib) (fs : Str → File) (p : Params) (l : List (Str × Option Key)) (st st' : Lib)
    (h : libLoop add fs p l st = .ok st') (I : List (Str × Option Key) → Lib → Prop) (h0 : I [] st)
    (hskip : ∀ seen q st, I seen st → fileKey p (fs q.1) q.2 = none → I (seen ++ [q]) st)
    (hadd : ∀ seen q st k roi, I seen st → fileKey p (fs q.1) q.2 = some k → getroi p.roilabel (fs q.1) = .ok roi →
      I (seen ++ [q]) (add st q.1 k roi)) : I l st' := by
  have gen : ∀ (l seen : List (Str × Option Key)) (st : Lib), libLoop add fs p l st = .ok st' → I seen st → I (seen ++ l) st' := by
    intro l
    induction l with
    | nil => intro seen st h hi; cases h; simpa using hi
    | cons q r ih =>
      intro seen st h hi
      obtain ⟨f, sv⟩ := q
      simp only [libLoop] at h
      have hcons : seen ++ (f, sv) :: r = (seen ++ [(f, sv)]) ++ r := by simp
      rw [hcons]
      cases hk : fileKey p (fs f) sv with
      | none => rw [hk] at h; exact ih _ _ h (hskip seen (f, sv) st hi hk)
      | some k =>
        rw [hk] at h
        simp only at h
        cases hr : getroi p.roilabel (fs f) with
        | error e => rw [hr] at h; cases h
        | ok roi => rw [hr] at h; exact ih _ _ h (hadd seen (f, sv) st k roi hi hk hr)
  simpa using gen l [] st h h0

theorem chosen_snoc (fs : Str → File) (p : Params) (l : List (Str × Option Key)) (q : Str × Option Key) (k : Key) (roi : CamRoi) :
    chosen fs p (l ++ [q]) k roi = chosen fs p l k roi ++
      if fileKey p (fs q.1) q.2 = some k ∧ (getroi p.roilabel (fs q.1)).toOption = some roi then [q.1] else [] := by
  unfold chosen
  rw [List.filter_append, List.map_append]
  congr 1
  simp only [List.filter_cons, List.filter_nil, decide_eq_true_eq]
  split <;> rfl

/-- The first file with a stack value decides on the region. -/
def firstRoi (fs : Str → File) (p : Params) : List (Str × Option Key) → Option CamRoi
  | [] => none
  | q :: r => if (fileKey p (fs q.1) q.2).isSome then (getroi p.roilabel (fs q.1)).toOption else firstRoi fs p r

theorem firstRoi_snoc (fs : Str → File) (p : Params) (l : List (Str × Option Key)) (q : Str × Option Key)
    (hok : ∀ x ∈ l, (fileKey p (fs x.1) x.2).isSome → ∃ r, getroi p.roilabel (fs x.1) = .ok r) :
    firstRoi fs p (l ++ [q]) = match firstRoi fs p l with
      | some r => some r
      | none => if (fileKey p (fs q.1) q.2).isSome then (getroi p.roilabel (fs q.1)).toOption else none := by
  induction l with
  | nil => simp [firstRoi]
  | cons x l ih =>
    simp only [List.cons_append, firstRoi]
    by_cases hx : (fileKey p (fs x.1) x.2).isSome
    · obtain ⟨r, hr⟩ := hok x (by simp) hx
      simp only [if_pos hx, hr, Except.toOption]
    · simp only [if_neg hx]
      exact ih fun y hy => hok y (by simp [hy])

/-- Data files: those with the stack value and the region of the first file, in their order; a stack value is there
exactly when it has a file. -/
def DataIs (fs : Str → File) (p : Params) (l : List (Str × Option Key)) (st : Lib) : Prop :=
  (∀ x ∈ l, (fileKey p (fs x.1) x.2).isSome → ∃ r, getroi p.roilabel (fs x.1) = .ok r) ∧
  st.roi = firstRoi fs p l ∧ Dict.keys st.flat = Dict.keys st.data ∧ Dict.WF st.data ∧ (∀ k, k ∈ Dict.keys st.data → Dict.get? st.flat k = some []) ∧
  ∀ k, Dict.get? st.data k = match st.roi with
    | none => none
    | some roi => if chosen fs p l k roi = [] then none else some (chosen fs p l k roi)

theorem keys_set_mem (d : Dict Key (List Str)) (k : Key) (v w : List Str) (h : Dict.get? d k = some w) :
    Dict.keys (Dict.set d k v) = Dict.keys d := by
  rw [Dict.keys_set, if_pos]
  rw [← Dict.get?_isSome, h]; rfl

theorem keys_set_new (d : Dict Key (List Str)) (k : Key) (v : List Str) (h : Dict.get? d k = none) :
    Dict.keys (Dict.set d k v) = Dict.keys d ++ [k] := by
  rw [Dict.keys_set, if_neg]
  rwa [← Dict.get?_none]

theorem firstRoi_none (fs : Str → File) (p : Params) (l : List (Str × Option Key))
    (hok : ∀ x ∈ l, (fileKey p (fs x.1) x.2).isSome → ∃ r, getroi p.roilabel (fs x.1) = .ok r) (h : firstRoi fs p l = none) (k : Key)
    (roi : CamRoi) : chosen fs p l k roi = [] := by
  induction l with
  | nil => rfl
  | cons x l ih =>
    simp only [firstRoi] at h
    by_cases hx : (fileKey p (fs x.1) x.2).isSome
    · obtain ⟨r, hr⟩ := hok x (by simp) hx
      rw [if_pos hx, hr] at h
      cases h
    · rw [if_neg hx] at h
      have := ih (fun y hy => hok y (by simp [hy])) h
      unfold chosen at this ⊢
      rw [List.filter_cons_of_neg]
      · exact this
      · intro hc
        simp only [decide_eq_true_eq] at hc
        rw [hc.1] at hx
        exact hx rfl

theorem dataLoop_spec (fs : Str → File) (p : Params) (l : List (Str × Option Key)) (st : Lib)
    (h : libLoop dataAdd fs p l ⟨none, [], []⟩ = .ok st) : DataIs fs p l st := by
  apply libLoop_fold dataAdd fs p l ⟨none, [], []⟩ st h (DataIs fs p)
  · exact ⟨by simp, rfl, rfl, List.nodup_nil, by simp [Dict.keys], fun k => rfl⟩
  · rintro seen q st ⟨h1, h2, h3, h4, h5, h6⟩ hk
    refine ⟨?_, ?_, h3, h4, h5, ?_⟩
    · intro x hx hs
      rcases List.mem_append.1 hx with hx | hx
      · exact h1 x hx hs
      · simp at hx; subst hx; rw [hk] at hs; cases hs
    · rw [firstRoi_snoc fs p seen q h1, h2, hk]
      cases firstRoi fs p seen <;> rfl
    · intro k
      rw [h6 k]
      cases st.roi with
      | none => rfl
      | some roi => simp only [chosen_snoc, hk]; simp
  · rintro seen q st k roi ⟨h1, h2, h3, h4, h5, h6⟩ hk hr
    have hok : ∀ x ∈ seen ++ [q], (fileKey p (fs x.1) x.2).isSome → ∃ r, getroi p.roilabel (fs x.1) = .ok r := by
      intro x hx hs
      rcases List.mem_append.1 hx with hx | hx
      · exact h1 x hx hs
      · simp at hx; subst hx; exact ⟨roi, hr⟩
    have hfirst : firstRoi fs p (seen ++ [q]) = match firstRoi fs p seen with
      | some r => some r
      | none => some roi := by
      rw [firstRoi_snoc fs p seen q h1, hk, hr]; rfl
    unfold dataAdd
    by_cases hroi : st.roi ≠ none ∧ st.roi ≠ some roi
    · rw [if_pos hroi]
      refine ⟨hok, ?_, h3, h4, h5, fun k' => ?_⟩
      · rw [hfirst, h2]
        cases hf : firstRoi fs p seen with
        | none => rw [h2, hf] at hroi; exact absurd rfl hroi.1
        | some r => rfl
      · rw [h6 k']
        cases hs : st.roi with
        | none => rfl
        | some r =>
          have : r ≠ roi := by rintro rfl; exact hroi.2 hs
          simp only [chosen_snoc, hr, Except.toOption, Option.some.injEq, Ne.symm this, and_false, if_false, List.append_nil]
    · rw [if_neg hroi]
      have hnew : firstRoi fs p (seen ++ [q]) = some roi := by
        rw [hfirst]
        cases hf : firstRoi fs p seen with
        | none => rfl
        | some r =>
          simp only [not_and, not_not] at hroi
          rw [h2, hf] at hroi
          exact hroi (by simp)
      -- what was there for the region that is now known
      have hold : ∀ k', Dict.get? st.data k' = if chosen fs p seen k' roi = [] then none else some (chosen fs p seen k' roi) := by
        intro k'
        rw [h6 k']
        cases hs : st.roi with
        | none => rw [if_pos (firstRoi_none fs p seen h1 (by rw [← h2, hs]) k' roi)]
        | some r =>
          have : r = roi := by
            simp only [not_and, not_not] at hroi
            have := hroi (by rw [hs]; simp)
            rw [hs] at this
            cases this; rfl
          subst this; rfl
      have hsnoc : ∀ k', chosen fs p (seen ++ [q]) k' roi = chosen fs p seen k' roi ++ if k = k' then [q.1] else [] := by
        intro k'
        rw [chosen_snoc, hk, hr]
        simp [Except.toOption]
      cases hd : Dict.get? st.data k with
      | some w =>
        simp only
        have hw : w = chosen fs p seen k roi := by
          have := hold k
          rw [hd] at this
          split at this
          · cases this
          · cases this; rfl
        refine ⟨hok, hnew.symm, ?_, Dict.wf_set _ h4 _ _, ?_, fun k' => ?_⟩
        · simp only [append, hd]; rw [h3, keys_set_mem _ _ _ _ hd]
        · intro k' hk'
          simp only [append] at hk'
          rw [keys_set_mem _ _ _ _ hd] at hk'
          exact h5 k' hk'
        · simp only [append, hd, Option.getD_some, hw, Dict.get?_set, hsnoc]
          by_cases hkk : k = k'
          · subst hkk; simp
          · simp only [if_neg hkk, List.append_nil]; exact hold k'
      | none =>
        simp only
        have hnil : chosen fs p seen k roi = [] := by
          by_contra hc
          have := hold k
          rw [hd, if_neg hc] at this
          cases this
        have hfl : Dict.get? st.flat k = none := by rw [Dict.get?_none, h3, ← Dict.get?_none]; exact hd
        refine ⟨hok, hnew.symm, ?_, Dict.wf_set _ h4 _ _, ?_, fun k' => ?_⟩
        · simp only; rw [keys_set_new _ _ _ hd, keys_set_new _ _ _ hfl, h3]
        · intro k' hk'
          simp only at hk' ⊢
          rw [Dict.get?_set]
          split
          · rfl
          · next hne =>
            rw [keys_set_new _ _ _ hd] at hk'
            rcases List.mem_append.1 hk' with hk' | hk'
            · exact h5 k' hk'
            · simp at hk'; exact absurd hk'.symm hne
        · simp only [Dict.get?_set, hsnoc]
          by_cases hkk : k = k'
          · subst hkk; simp [hnil]
          · simp only [if_neg hkk, List.append_nil]; exact hold k'

/-- Flat fields are added to stack values of the data with the same region. -/
def FlatIs (fs : Str → File) (p : Params) (data : Lib) (roi : CamRoi) (l : List (Str × Option Key)) (st : Lib) : Prop :=
  st.roi = some roi ∧ st.data = data.data ∧ Dict.keys st.flat = Dict.keys data.data ∧
  ∀ k, k ∈ Dict.keys data.data → Dict.get? st.flat k = some (chosen fs p l k roi)

theorem flatLoop_spec (fs : Str → File) (p : Params) (l : List (Str × Option Key)) (data st : Lib) (roi : CamRoi)
    (hroi : data.roi = some roi) (hk : Dict.keys data.flat = Dict.keys data.data)
    (hf : ∀ k, k ∈ Dict.keys data.data → Dict.get? data.flat k = some [])
    (h : libLoop flatAdd fs p l data = .ok st) : FlatIs fs p data roi l st := by
  apply libLoop_fold flatAdd fs p l data st h (FlatIs fs p data roi)
  · exact ⟨hroi, rfl, hk, hf⟩
  · rintro seen q st ⟨h1, h2, h3, h4⟩ hk
    refine ⟨h1, h2, h3, fun k hkk => ?_⟩
    rw [h4 k hkk, chosen_snoc, hk]
    simp
  · rintro seen q st k roi' ⟨h1, h2, h3, h4⟩ hk hr
    unfold flatAdd
    by_cases hne : roi' = roi
    · subst hne
      rw [if_neg (by rw [h1]; simp)]
      cases hg : Dict.get? st.flat k with
      | none =>
        refine ⟨rfl, h2, h3, fun k' hk' => ?_⟩
        have hkk : k ≠ k' := by
          rintro rfl
          rw [h4 k hk'] at hg
          cases hg
        rw [chosen_snoc, hk]
        simp only [Option.some.injEq, hkk, false_and, if_false, List.append_nil]
        exact h4 k' hk'
      | some w =>
        refine ⟨rfl, h2, ?_, fun k' hk' => ?_⟩
        · simp only [append]; rw [keys_set_mem _ _ _ _ hg]; exact h3
        · simp only [append, Dict.get?_set, hg, Option.getD_some]
          rw [chosen_snoc, hk, hr]
          by_cases hkk : k = k'
          · subst hkk
            rw [h4 k hk'] at hg
            cases hg
            simp [Except.toOption]
          · simp only [if_neg hkk, Option.some.injEq, hkk, false_and, if_false, List.append_nil]
            exact h4 k' hk'
    · rw [if_pos (by rw [h1]; exact ⟨by simp, by simpa using Ne.symm hne⟩)]
      refine ⟨h1, h2, h3, fun k' hk' => ?_⟩
      rw [h4 k' hk', chosen_snoc, hr]
      simp [Except.toOption, hne]

/-- The data and flat fields of a stack value are the files with this value and the region of the first data file, in
their order; flat fields without data are left out. -/
theorem collect_spec (fs : Str → File) (p : Params) (datafiles flatfiles : List Str) (st : Lib) (roi : CamRoi)
    (h : collectFiles fs p datafiles flatfiles = .ok st) (hd : st.data ≠ [])
    (hroi : st.roi = some roi) :
    firstRoi fs p (datafiles.zip (stackvalues p.datastackvalues datafiles.length)) = some roi ∧
    Dict.WF st.data ∧ Dict.keys st.flat = Dict.keys st.data ∧
    (∀ k, Dict.get? st.data k = if chosen fs p (datafiles.zip (stackvalues p.datastackvalues datafiles.length)) k roi = [] then none
      else some (chosen fs p (datafiles.zip (stackvalues p.datastackvalues datafiles.length)) k roi)) ∧
    ∀ k ∈ Dict.keys st.data, Dict.get? st.flat k = some (chosen fs p (flatfiles.zip (stackvalues p.flatstackvalues flatfiles.length)) k roi) := by
  unfold collectFiles at h
  cases hl : libLoop dataAdd fs p (datafiles.zip (stackvalues p.datastackvalues datafiles.length)) ⟨none, [], []⟩ with
  | error e => rw [hl] at h; cases h
  | ok s1 =>
    rw [hl] at h
    obtain ⟨h1, h2, h3, h4, h5, h6⟩ := dataLoop_spec fs p _ s1 hl
    cases hr : s1.roi with
    | none =>
      exfalso
      apply hd
      -- no data at all
      have hempty : s1.data = [] := by
        cases hs : s1.data with
        | nil => rfl
        | cons a r =>
          have := h6 a.1
          rw [hr, hs] at this
          obtain ⟨a1, a2⟩ := a
          simp [Dict.get?] at this
      have : st.data = s1.data := by
        apply libLoop_fold flatAdd fs p _ s1 st h (fun _ s => s.data = s1.data) rfl (fun _ _ _ hi _ => hi)
        intro seen q s k roi' hi _ _
        unfold flatAdd
        split
        · exact hi
        · cases Dict.get? s.flat k <;> exact hi
      rw [this, hempty]
    | some r =>
      obtain ⟨g1, g2, g3, g4⟩ := flatLoop_spec fs p _ s1 st r hr h3 h5 h
      have hrr : r = roi := by rw [g1] at hroi; cases hroi; rfl
      subst hrr
      refine ⟨by rw [← h2, hr], g2 ▸ h4, by rw [g3, g2], fun k => ?_, fun k hk => g4 k (g2 ▸ hk)⟩
      rw [g2, h6 k, hr]

/-- Numbers given for the data and values of the headers for the flat fields: they are never the same, all flat fields are
lost. -/
theorem flats_lost (fs : Str → File) (p : Params) (datafiles flatfiles : List Str) (st : Lib) (roi : CamRoi)
    (h : collectFiles fs p datafiles flatfiles = .ok st) (hd : st.data ≠ []) (hroi : st.roi = some roi)
    (hdat : p.datastackvalues.length = datafiles.length) (hval : ∀ k ∈ p.datastackvalues, ∃ q, k = .value q)
    (hflat : p.flatstackvalues = []) : ∀ k ∈ Dict.keys st.data, Dict.get? st.flat k = some [] := by
  obtain ⟨-, -, -, h4, h5⟩ := collect_spec fs p datafiles flatfiles st roi h hd hroi
  intro k hk
  rw [h5 k hk]
  have hnum : ∃ q, k = .value q := by
    have : (Dict.get? st.data k).isSome := (Dict.get?_isSome _ _).2 hk
    rw [h4 k] at this
    split at this
    · cases this
    · next hne =>
      obtain ⟨f, hf⟩ := List.exists_mem_of_ne_nil _ hne
      obtain ⟨q, hq, -⟩ := List.mem_map.1 hf
      obtain ⟨hq1, hq2⟩ := List.mem_filter.1 hq
      simp only [decide_eq_true_eq] at hq2
      rw [(stackvalues_spec _ _).2.1 hdat] at hq1
      obtain ⟨f', sv⟩ := q
      have := (List.of_mem_zip hq1).2
      obtain ⟨k', hk', hs⟩ := List.mem_map.1 this
      subst hs
      have : k' = k := by simpa [fileKey] using hq2.1
      exact this ▸ hval k' hk'
  obtain ⟨x, rfl⟩ := hnum
  congr 1
  unfold chosen
  rw [List.map_eq_nil_iff, List.filter_eq_nil_iff]
  intro q hq hc
  simp only [decide_eq_true_eq] at hc
  obtain ⟨f, sv⟩ := q
  have hsv : sv = none := by
    have := (List.of_mem_zip hq).2
    rw [hflat] at this
    unfold stackvalues at this
    rw [if_pos (Or.inl rfl)] at this
    exact List.eq_of_mem_replicate this
  subst hsv
  have := hc.1
  simp only [fileKey, Option.map_eq_some_iff] at this
  obtain ⟨a, -, ha⟩ := this
  cases ha

/-! ## Flat fields before and after -/

/-- The flat fields are divided in two halves by name; a single one is before, and there is none after. -/
theorem split_spec (files : List Str) : ((splitFlat files).1 ++ (splitFlat files).2).Perm files ∧
    (files.length ≠ 1 → (splitFlat files).1.length = files.length / 2) ∧ (files.length = 1 → splitFlat files = (files, [])) ∧
    ∀ a ∈ (splitFlat files).1, ∀ b ∈ (splitFlat files).2, a ≤ b := by
  have hperm := SC.Common.stableSort_perm (key := (id : Str → Str)) files
  have hlen := hperm.length_eq
  unfold splitFlat
  simp only
  by_cases h1 : files.length = 1
  · rw [if_pos (hlen.trans h1)]
    refine ⟨by simpa using hperm, fun h => absurd h1 h, fun _ => ?_, by simp⟩
    obtain ⟨a, rfl⟩ := List.length_eq_one_iff.1 h1
    rfl
  · rw [if_neg (by rw [hlen]; exact h1)]
    refine ⟨by rw [List.take_append_drop]; exact hperm, fun _ => by rw [List.length_take, hlen]; omega, fun h => absurd h h1, ?_⟩
    intro a ha b hb
    have hs := SC.Common.stableSort_sorted (key := (id : Str → Str)) files
    rw [← List.take_append_drop ((SC.Common.stableSort id files).length / 2) (SC.Common.stableSort id files)] at hs
    exact (List.pairwise_append.1 hs).2.2 a ha b hb

example : splitFlat [['c'], ['a'], ['b']] = ([['a']], [['b'], ['c']]) := by decide +kernel

/-! ## Order of the stack -/

theorem argsort_perm (v : List ℚ) : (argsort v).Perm (List.range v.length) := SC.Common.stableSort_perm _ _

/-- The values of the stack increase, each value is that of the images at its place, every stack value is there once. -/
theorem stack_spec (val : Key → ℚ) (fs : Str → File) (p : Params) (datafiles flatfiles : List Str) (s : Stack)
    (h : dataflatlibrary val fs p datafiles flatfiles = .ok s) :
    s.values.Pairwise (· ≤ ·) ∧ s.keyindices.Perm (List.range s.data.length) ∧ s.values.length = s.data.length ∧
    ∀ i, i < s.data.length → ∃ n k, s.keyindices[i]? = some n ∧ (Dict.keys s.data)[n]? = some k ∧ s.values[i]? = some (val k) := by
  unfold dataflatlibrary at h
  cases hc : collectFiles fs p datafiles flatfiles with
  | error e => rw [hc] at h; cases h
  | ok st =>
    rw [hc] at h
    simp only at h
    cases hr : st.roi with
    | none => rw [hr] at h; cases h
    | some roi =>
      rw [hr] at h
      simp only at h
      split at h
      · cases h
      · cases ha : axesvalues roi p with
        | error e => rw [ha] at h; cases h
        | ok rc =>
          obtain ⟨row, col⟩ := rc
          rw [ha] at h
          cases h
          simp only
          have hp := argsort_perm ((Dict.keys st.data).map val)
          have hkl : (Dict.keys st.data).length = st.data.length := by simp [Dict.keys]
          have hlen : ((Dict.keys st.data).map val).length = st.data.length := by simp [Dict.keys]
          rw [hlen] at hp
          refine ⟨?_, hp, by rw [List.length_map, hp.length_eq, List.length_range], fun i hi => ?_⟩
          · rw [List.pairwise_map]
            exact SC.Common.stableSort_sorted (key := fun i => ((Dict.keys st.data).map val)[i]?.getD 0) _
          · have hi' : i < (argsort ((Dict.keys st.data).map val)).length := by rw [hp.length_eq, List.length_range]; exact hi
            have hmem : (argsort ((Dict.keys st.data).map val))[i] < st.data.length := List.mem_range.1 (hp.mem_iff.1 (List.getElem_mem hi'))
            refine ⟨_, (Dict.keys st.data)[(argsort ((Dict.keys st.data).map val))[i]]'(by rw [hkl]; exact hmem), List.getElem?_eq_getElem hi',
              List.getElem?_eq_getElem _, ?_⟩
            rw [List.getElem?_map, List.getElem?_eq_getElem hi']
            have hk : (argsort ((Dict.keys st.data).map val))[i] < (Dict.keys st.data).length := by rw [hkl]; exact hmem
            simp only [Option.map_some, List.getElem?_map, List.getElem?_eq_getElem hk, Option.getD_some]

theorem slices_spec (neglog : ℚ → ℚ) (num : Str → ℚ) (lib : DarkLib) (fs : Str → File) (p : Params) (s : Stack) (idx : List Nat)
    (l : List Slice) (h : slices neglog num lib fs p s idx = .ok l) : l.length = idx.length ∧
    ∀ (i n : Nat), idx[i]? = some n → ∃ key x, (Dict.keys s.data)[n]? = some key ∧ l[i]? = some x ∧ slice neglog num lib fs p s key = .ok x := by
  induction idx generalizing l with
  | nil => cases h; exact ⟨rfl, fun i n hn => by simp at hn⟩
  | cons m r ih =>
    simp only [slices] at h
    cases hk : (Dict.keys s.data)[m]? with
    | none => rw [hk] at h; cases h
    | some key =>
      rw [hk] at h
      simp only at h
      cases hs : slice neglog num lib fs p s key with
      | error e => rw [hs] at h; cases h
      | ok x =>
        cases hr : slices neglog num lib fs p s r with
        | error e => rw [hs, hr] at h; cases h
        | ok t =>
          rw [hs, hr] at h
          cases h
          obtain ⟨i1, i2⟩ := ih t hr
          refine ⟨by simp [i1], fun i n hn => ?_⟩
          cases i with
          | zero =>
            simp only [List.getElem?_cons_zero, Option.some.injEq] at hn
            subst hn
            exact ⟨key, x, hk, rfl, hs⟩
          | succ i => exact i2 i n (by simpa using hn)

/-- The result: at every place of the stack the image of the files with the stack value of that place. -/
theorem execute_spec (neglog : ℚ → ℚ) (num : Str → ℚ) (val : Key → ℚ) (fs : Str → File) (p : Params)
    (darkfiles datafiles flatfiles : List Str) (s : Stack) (l : List Slice)
    (h : execute neglog num val fs p darkfiles datafiles flatfiles = .ok (s, l)) :
    ∃ lib, darklibrary num p (darkfiles.map fs) = .ok lib ∧ dataflatlibrary val fs p datafiles flatfiles = .ok s ∧
      l.length = s.data.length ∧ ∀ i, i < s.data.length → ∃ k x, k ∈ Dict.keys s.data ∧ s.values[i]? = some (val k) ∧ l[i]? = some x ∧
        slice neglog num lib fs p s k = .ok x := by
  unfold execute at h
  cases hd : darklibrary num p (darkfiles.map fs) with
  | error e => rw [hd] at h; cases h
  | ok lib =>
    rw [hd] at h
    simp only at h
    cases hs : dataflatlibrary val fs p datafiles flatfiles with
    | error e => rw [hs] at h; cases h
    | ok s' =>
      rw [hs] at h
      simp only at h
      cases hl : slices neglog num lib fs p s' s'.keyindices with
      | error e => rw [hl] at h; cases h
      | ok l' =>
        rw [hl] at h
        cases h
        obtain ⟨-, h2, -, h4⟩ := stack_spec val fs p datafiles flatfiles s hs
        obtain ⟨i1, i2⟩ := slices_spec neglog num lib fs p s _ l hl
        refine ⟨lib, rfl, rfl, by rw [i1, h2.length_eq, List.length_range], fun i hi => ?_⟩
        obtain ⟨n, k, a1, a2, a3⟩ := h4 i hi
        obtain ⟨k', x, b1, b2, b3⟩ := i2 i n a1
        rw [a2] at b1
        cases b1
        exact ⟨k, x, List.mem_of_getElem? a2, a3, b2, b3⟩

/-- One image: the normalised image of its files, divided by its flat field, or the mean of both, when asked for. -/
theorem slice_spec (neglog : ℚ → ℚ) (num : Str → ℚ) (lib : DarkLib) (fs : Str → File) (p : Params) (s : Stack) (k : Key) (x : Slice)
    (h : slice neglog num lib fs p s k = .ok x) :
    ∃ img, getnormalizedimage num p lib (((Dict.get? s.data k).getD []).map fs) = .ok img ∧
      (p.normalize = false → x.sample = img) ∧
      (p.keepflat = true ∨ p.normalize = true → ∃ a, getnormalizedimage num p lib (((Dict.get? s.flat1 k).getD []).map fs) = .ok a ∧ x.flat1 = some a ∧
        (s.flat2 = none → x.flat2 = none ∧ (p.normalize = true → SameShape x.sample img ∧ ∀ i j, x.sample.px i j = neglog (img.px i j / a.px i j))) ∧
        ∀ d, s.flat2 = some d → ∃ b, getnormalizedimage num p lib (((Dict.get? d k).getD []).map fs) = .ok b ∧ x.flat2 = some b ∧
          (p.normalize = true → SameShape x.sample img ∧ ∀ i j, x.sample.px i j = neglog (img.px i j / ((a.px i j + b.px i j) / 2)))) := by
  have hzip : ∀ (f : ℚ → ℚ → ℚ) (a b c : Img), zipImg f a b = .ok c → SameShape c a ∧ ∀ i j, c.px i j = f (a.px i j) (b.px i j) := by
    intro f a b c hz
    unfold zipImg at hz
    split at hz
    · cases hz; exact ⟨⟨rfl, rfl⟩, fun _ _ => rfl⟩
    · cases hz
  unfold slice at h
  cases hi : getnormalizedimage num p lib (((Dict.get? s.data k).getD []).map fs) with
  | error e => rw [hi] at h; cases h
  | ok img =>
    rw [hi] at h
    simp only at h
    cases hf : sliceFlats (getnormalizedimage num p lib) fs p s k with
    | error e => rw [hf] at h; cases h
    | ok fl =>
      rw [hf] at h
      simp only at h
      have hfl : x.flat1 = fl.1 ∧ x.flat2 = fl.2 ∧ (p.normalize = false → x.sample = img) ∧
          (p.normalize = true → ∃ f, meanFlat fl = .ok f ∧ SameShape x.sample img ∧ ∀ i j, x.sample.px i j = neglog (img.px i j / f.px i j)) := by
        cases hn : p.normalize with
        | false => rw [hn] at h; cases h; exact ⟨rfl, rfl, fun _ => rfl, by simp⟩
        | true =>
          rw [hn, if_pos rfl] at h
          cases hm : meanFlat fl with
          | error e => rw [hm] at h; cases h
          | ok f =>
            rw [hm] at h
            simp only at h
            cases hz : zipImg (fun x y => neglog (x / y)) img f with
            | error e => rw [hz] at h; cases h
            | ok y => rw [hz] at h; cases h; exact ⟨rfl, rfl, by simp, fun _ => ⟨f, rfl, hzip _ _ _ _ hz⟩⟩
      obtain ⟨e1, e2, e3, e4⟩ := hfl
      refine ⟨img, rfl, e3, fun hneed => ?_⟩
      unfold sliceFlats at hf
      rw [if_neg (by rintro ⟨c1, c2⟩; rcases hneed with c | c; rw [c] at c1; cases c1; rw [c] at c2; cases c2)] at hf
      cases ha : getnormalizedimage num p lib (((Dict.get? s.flat1 k).getD []).map fs) with
      | error e => rw [ha] at hf; cases hf
      | ok a =>
        rw [ha] at hf
        simp only at hf
        refine ⟨a, rfl, ?_, fun h2 => ?_, fun d h2 => ?_⟩
        · cases hs : s.flat2 with
          | none => rw [hs] at hf; cases hf; exact e1
          | some d =>
            rw [hs] at hf
            simp only at hf
            cases hb : getnormalizedimage num p lib (((Dict.get? d k).getD []).map fs) with
            | error e => rw [hb] at hf; cases hf
            | ok b => rw [hb] at hf; cases hf; exact e1
        · rw [h2] at hf
          cases hf
          refine ⟨e2, fun hn => ?_⟩
          obtain ⟨f, hm, hx⟩ := e4 hn
          cases hm
          exact hx
        · rw [h2] at hf
          simp only at hf
          cases hb : getnormalizedimage num p lib (((Dict.get? d k).getD []).map fs) with
          | error e => rw [hb] at hf; cases hf
          | ok b =>
            rw [hb] at hf
            cases hf
            refine ⟨b, rfl, e2, fun hn => ?_⟩
            obtain ⟨f, hm, hx⟩ := e4 hn
            have hm' : zipImg (fun x y => (x + y) / 2) a b = .ok f := hm
            obtain ⟨-, hpx⟩ := hzip _ _ _ _ hm'
            exact ⟨hx.1, fun i j => by rw [hx.2, hpx]⟩

theorem get_map (d : Dict Key (List Str)) (g : List Str → List Str) (k : Key) :
    Dict.get? (d.map fun q => (q.1, g q.2)) k = (Dict.get? d k).map g := by
  induction d with
  | nil => rfl
  | cons q r ih =>
    obtain ⟨a, b⟩ := q
    simp only [List.map_cons, Dict.get?]
    split
    · rfl
    · exact ih

/-- The libraries of flat fields: all of them, or the two parts. -/
theorem flatLibs_spec (p : Params) (flat : Dict Key (List Str)) (k : Key) (files : List Str) (h : Dict.get? flat k = some files) :
    (p.flatbeforeafter = false → flatLibs p flat = (flat, none)) ∧
    (p.flatbeforeafter = true → Dict.get? (flatLibs p flat).1 k = some (splitFlat files).1 ∧
      ∃ d, (flatLibs p flat).2 = some d ∧ Dict.get? d k = some (splitFlat files).2) := by
  unfold flatLibs
  constructor
  · intro hb; rw [if_neg (by rw [hb]; simp)]
  · intro hb
    rw [if_pos hb]
    refine ⟨?_, _, rfl, ?_⟩
    · rw [get_map flat (fun l => (splitFlat l).1), h]; rfl
    · rw [get_map flat (fun l => (splitFlat l).2), h]; rfl

/-- Flat fields before and after are asked for and there is one or none: the task raises TypeError, though a missing flat
field after is handled further on. -/
theorem single_flat (neglog : ℚ → ℚ) (num : Str → ℚ) (lib : DarkLib) (fs : Str → File) (p : Params) (s : Stack) (k : Key)
    (flat : Dict Key (List Str)) (files : List Str) (hp : p.flatbeforeafter = true) (hneed : p.keepflat = true ∨ p.normalize = true)
    (hs : s.flat1 = (flatLibs p flat).1 ∧ s.flat2 = (flatLibs p flat).2) (hk : Dict.get? flat k = some files) (hf : files.length ≤ 1) :
    ∀ x, slice neglog num lib fs p s k ≠ .ok x := by
  intro x hx
  obtain ⟨img, -, -, h3⟩ := slice_spec neglog num lib fs p s k x hx
  obtain ⟨a, ha, -, -, h4⟩ := h3 hneed
  obtain ⟨h5, d, h6, h7⟩ := (flatLibs_spec p flat k files hk).2 hp
  obtain ⟨b, hb, -⟩ := h4 d (hs.2.trans h6)
  have hnil : (splitFlat files).2 = [] := by
    match files, hf with
    | [], _ => rfl
    | [a], _ => rfl
  rw [h7, hnil] at hb
  cases hb

/-! ## A stack of three values, two of which are the same number -/

/-- Parameters without region and bins, with flat fields and normalisation. -/
def exParams : Params := ⟨none, (1, 1), ['t'], ['1'], ['n'], ['e'], ['r'], 0, 0, [], [], false, true, true⟩

/-- Files of one pixel by their names. -/
def exFiles : Str → File
  | ['a'] => ⟨[(['e'], ['7', '.', '2'])], ⟨1, 1, fun _ _ => 4⟩⟩
  | ['b'] => ⟨[(['e'], ['7', '.', '1'])], ⟨1, 1, fun _ _ => 6⟩⟩
  | ['c'] => ⟨[(['e'], ['7', '.', '1', '0'])], ⟨1, 1, fun _ _ => 10⟩⟩
  | ['d'] => ⟨[(['e'], ['7', '.', '1'])], ⟨1, 1, fun _ _ => 14⟩⟩
  | ['f'] => ⟨[(['e'], ['7', '.', '1'])], ⟨1, 1, fun _ _ => 20⟩⟩
  | ['g'] => ⟨[(['e'], ['7', '.', '2'])], ⟨1, 1, fun _ _ => 8⟩⟩
  | ['h'] => ⟨[(['e'], ['7', '.', '1', '0'])], ⟨1, 1, fun _ _ => 5⟩⟩
  | _ => ⟨[], ⟨0, 0, fun _ _ => 0⟩⟩

/-- The numbers of texts in the example. -/
def exVal : Key → ℚ
  | .text ['7', '.', '2'] => 36/5
  | .text ['7', '.', '1'] => 71/10
  | .text ['7', '.', '1', '0'] => 71/10
  | _ => 0

/-- 7.1 and 7.10 are two places of the stack; the images at 7.1 are added: (6 + 14) / 2 seconds over 20. -/
example : (execute id (fun _ => 1) exVal exFiles exParams [] [['a'], ['b'], ['c'], ['d']] [['f'], ['g'], ['h']]).toOption.map
    (fun r => (r.1.values, r.2.map fun s => (s.sample.px 0 0, s.flat1.map fun i => i.px 0 0))) =
    some ([71/10, 71/10, 36/5], [(1/2, some 20), (2, some 5), (1/2, some 8)]) := by decide +kernel

/-- A stack value that is one number for two texts is not merged. -/
theorem texts_apart : ∃ (val : Key → ℚ) (fs : Str → File) (p : Params) (datafiles flatfiles : List Str) (s : Stack),
    dataflatlibrary val fs p datafiles flatfiles = .ok s ∧ ∃ (i j : Nat), i < j ∧ j < s.values.length ∧ s.values[i]? = s.values[j]? := by
  refine ⟨exVal, exFiles, exParams, [['b'], ['c']], [], _, rfl, 0, 1, by decide, ?_, ?_⟩
  · decide +kernel
  · decide +kernel

/-- Values for the data, flat fields by their header: no flat field is found and the task raises. -/
example : (collectFiles exFiles { exParams with datastackvalues := [.value (71/10)] } [['b']] [['f']]).toOption.map
    (fun s => (s.data, s.flat)) = some ([(.value (71/10), [['b']])], [(.value (71/10), [])]) := by decide +kernel

example : (execute id (fun _ => 1) exVal exFiles { exParams with datastackvalues := [.value (71/10)] } [] [['b']] [['f']]).toOption.isNone := by
  decide +kernel

/-- One flat field of before and after. -/
example : (execute id (fun _ => 1) exVal exFiles { exParams with flatbeforeafter := true } [] [['b']] [['f']]).toOption.isNone ∧
    (execute id (fun _ => 1) exVal exFiles exParams [] [['b']] [['f']]).toOption.isSome := by decide +kernel

end SC.Fullfield
