import Verif.XasPipe.Xia
/-! # Properties of `parse_xia_esrf` -/
namespace SC.XasPipe

/-- A star stands for any text without a slash. -/
theorem globStar_iff (pre post f : Str) : globStar pre post f = true ↔ ∃ w : Str, '/' ∉ w ∧ f = pre ++ w ++ post := by
  unfold globStar
  simp only [Bool.and_eq_true, List.isPrefixOf_iff_prefix, List.isSuffixOf_iff_suffix, Bool.not_eq_true', List.contains_eq_mem,
    decide_eq_false_iff_not]
  constructor
  · rintro ⟨⟨⟨u, rfl⟩, h2⟩, h3⟩
    rw [List.drop_left] at h2 h3
    obtain ⟨w, rfl⟩ := h2
    refine ⟨w, ?_, by simp⟩
    simpa using h3
  · rintro ⟨w, hw, rfl⟩
    refine ⟨⟨⟨w ++ post, by simp⟩, ?_⟩, ?_⟩
    · rw [List.append_assoc, List.drop_left]; exact ⟨w, rfl⟩
    · rw [List.append_assoc, List.drop_left]
      simpa using hw

/-- All files that are found begin with the data directory and an underscore when that directory is absolute. -/
theorem outMask_absolute (outdir : Str) (add : Bool) (s : XiaScan) (f : Str) (habs : s.ddir.head? = some '/')
    (h : outMask outdir add s f = true) : s.ddir ++ ['_'] <+: f := by
  have hj : ∀ t : Str, joinPath outdir (s.ddir ++ '_' :: s.sname ++ t) = s.ddir ++ '_' :: s.sname ++ t := by
    intro t
    have : (s.ddir ++ '_' :: s.sname ++ t).head? = some '/' := by
      cases hd : s.ddir with
      | nil => rw [hd] at habs; cases habs
      | cons c r => rw [hd] at habs; simpa using habs
    unfold joinPath
    rw [if_pos this]
  unfold outMask at h
  split at h
  · obtain ⟨w, -, rfl⟩ := (globStar_iff _ _ _).1 h
    have e : s.ddir ++ '_' :: s.sname ++ tXiaS1 ++ s.num ++ tLine = s.ddir ++ '_' :: s.sname ++ (tXiaS1 ++ s.num ++ tLine) := by simp
    rw [e, hj]
    exact ⟨s.sname ++ (tXiaS1 ++ s.num ++ tLine) ++ w ++ tEdf, by simp⟩
  · unfold globDigit at h
    simp only [Bool.and_eq_true] at h
    have h1 := List.isPrefixOf_iff_prefix.1 h.1.1
    rw [hj] at h1
    exact List.IsPrefix.trans ⟨s.sname ++ tXia, by simp⟩ h1

theorem sorted_nil : sorted [] = [] := rfl

/-- Two texts one of which is no beginning of the other do not begin the same text. -/
theorem prefix_or (a b f : Str) (h1 : a <+: f) (h2 : b <+: f) : a <+: b ∨ b <+: a := List.prefix_or_prefix_of_prefix h1 h2

/-- With an absolute data directory the sums are not found: all files are in the data directory or in the output directory,
none of which begins like the other one. -/
theorem xia_sum_lost (s : XiaScan) (outdir : Str) (exclude : List Nat) (deadtime willbefitted dts : Bool) (g : List XiaFile)
    (r : List (List XiaFile)) (disk : List Str) (habs : s.ddir.head? = some '/')
    (hd : ∀ f ∈ disk, s.ddir ++ ['/'] <+: f ∨ outdir ++ ['/'] <+: f)
    (h1 : ¬ outdir ++ ['/'] <+: s.ddir ++ ['_']) (h2 : ¬ s.ddir ++ ['_'] <+: outdir ++ ['/'])
    (h3 : 2 ≤ (detNums exclude (g.filter fun f => !(f.det.map exclude.contains).getD false)).length) :
    parseXia [s] outdir exclude deadtime true willbefitted dts (some (g :: r)) disk
      = .ok ([[]], detNums exclude (g.filter fun f => !(f.det.map exclude.contains).getD false)) := by
  have hnone : disk.filter (outMask outdir true s) = [] := by
    rw [List.filter_eq_nil_iff]
    intro f hf hm
    have hp := outMask_absolute outdir true s f habs hm
    rcases hd f hf with h | h
    · have hl : (s.ddir ++ ['_']).length = (s.ddir ++ ['/']).length := by simp
      have := (List.prefix_of_prefix_length_le hp h hl.le).eq_of_length hl
      simp at this
    · rcases prefix_or _ _ _ hp h with h' | h'
      · exact h2 h'
      · exact h1 h'
  simp [parseXia, excludeDets, h3, hnone, sorted_nil, groupFiles]

/-- A single detector with dead time correction raises. -/
theorem xia_single_lost (s : XiaScan) (outdir : Str) (exclude : List Nat) (add willbefitted : Bool) (g : List XiaFile)
    (r : List (List XiaFile)) (disk : List Str) (habs : s.ddir.head? = some '/')
    (hd : ∀ f ∈ disk, s.ddir ++ ['/'] <+: f ∨ outdir ++ ['/'] <+: f)
    (h1 : ¬ outdir ++ ['/'] <+: s.ddir ++ ['_']) (h2 : ¬ s.ddir ++ ['_'] <+: outdir ++ ['/'])
    (h3 : (detNums exclude (g.filter fun f => !(f.det.map exclude.contains).getD false)).length = 1) :
    parseXia [s] outdir exclude true add willbefitted true (some (g :: r)) disk = .error .valueError := by
  have hnone : disk.filter (outMask outdir false s) = [] := by
    rw [List.filter_eq_nil_iff]
    intro f hf hm
    have hp := outMask_absolute outdir false s f habs hm
    rcases hd f hf with h | h
    · have hl : (s.ddir ++ ['_']).length = (s.ddir ++ ['/']).length := by simp
      have := (List.prefix_of_prefix_length_le hp h hl.le).eq_of_length hl
      simp at this
    · rcases prefix_or _ _ _ hp h with h' | h'
      · exact h2 h'
      · exact h1 h'
  simp [parseXia, excludeDets, h3, hnone, sorted_nil, groupFiles]

/-- Slices of equal length of blocks of that length are the blocks. -/
theorem slices_blocks (k : Nat) (hk : 0 < k) (bs : List (List Str)) (hb : ∀ b ∈ bs, b.length = k) (n : Nat) (hn : bs.length ≤ n) :
    slices k n bs.flatten = bs := by
  induction bs generalizing n with
  | nil => cases n <;> simp [slices]
  | cons b r ih =>
    obtain ⟨n, rfl⟩ : ∃ m, n = m + 1 := ⟨n - 1, by simp at hn; omega⟩
    have hl : b.length = k := hb b List.mem_cons_self
    have hne : b ≠ [] := by rintro rfl; simp at hl; omega
    have h0 : (b ++ r.flatten).isEmpty = false := by cases b with
      | nil => exact absurd rfl hne
      | cons c t => rfl
    simp only [List.flatten_cons, slices, h0, Bool.false_eq_true, if_false]
    rw [← hl, List.take_left, List.drop_left, hl, ih (fun b h => hb b (List.mem_cons_of_mem _ h)) n (by simpa using hn)]

/-- Raw files (no correction, no sum): each detector gets its own files, in order, if all detectors have equally many files and the
names of the detectors' files come in the order of the detectors. -/
theorem xia_raw (scans : List XiaScan) (outdir : Str) (dts : Bool) (g : List XiaFile) (r : List (List XiaFile)) (disk : List Str)
    (bs : List (List Str)) (k : Nat) (hk : 0 < k) (hlen : ∀ b ∈ bs, b.length = k)
    (hperm : ((g :: r).flatMap fun g => g.filterMap fun f => if f.det.isSome then some f.path else none).Perm bs.flatten)
    (hsort : bs.flatten.Pairwise (· ≤ ·)) (hdet : bs.length = (detNums [] g).length) (hne : bs ≠ []) :
    parseXia scans outdir [] false false true dts (some (g :: r)) disk = .ok (bs, detNums [] g) := by
  have hex : excludeDets [] (g :: r) = g :: r := by
    have : ∀ l : List XiaFile, (l.filter fun f => !(f.det.map ([] : List Nat).contains).getD false) = l := by
      intro l
      rw [List.filter_eq_self]
      intro f _
      cases f.det <;> rfl
    unfold excludeDets
    simp only [this, List.map_id']
  have hs : rawFiles (g :: r) = bs.flatten := by
    unfold rawFiles sorted
    rw [Common.stableSort_perm_eq id _ bs.flatten hperm (fun _ _ _ _ h => h)]
    exact Common.stableSort_of_sorted id _ hsort
  have hl : bs.flatten.length = bs.length * k := by
    rw [List.length_flatten]
    have : bs.map List.length = List.replicate bs.length k := by
      rw [List.eq_replicate_iff]
      exact ⟨by simp, fun a ha => by obtain ⟨b, hb, rfl⟩ := List.mem_map.1 ha; exact hlen b hb⟩
    rw [this, List.sum_replicate_nat]
  have hb0 : 0 < bs.length := List.length_pos_of_ne_nil hne
  have hd0 : (detNums [] g).length ≠ 0 := by omega
  have hgr : groupFiles false (detNums [] g).length bs.flatten = .ok bs := by
    unfold groupFiles
    have hq : bs.flatten.length / (detNums [] g).length = k := by rw [hl, ← hdet, Nat.mul_div_cancel_left _ hb0]
    simp only [Bool.false_eq_true, if_false, hq, if_neg hk.ne']
    rw [slices_blocks k hk bs hlen _ (by rw [hl]; exact Nat.le_mul_of_pos_right _ hk)]
  unfold parseXia
  simp only [hex]
  simp [hd0, hs, hgr]

/-- ... with different numbers of files detectors get files of others: two files of the first, four of the second
detector. -/
theorem xia_raw_mixed : ∃ (g : List XiaFile) (r : List (List XiaFile)) (l : List (List Str)) (d : List Nat),
    parseXia [] [] [] false false true true (some (g :: r)) [] = .ok (l, d) ∧
    ∃ a ∈ g ++ r.flatten, ∃ b ∈ g ++ r.flatten, a.det ≠ b.det ∧ ∃ k ∈ l, a.path ∈ k ∧ b.path ∈ k :=
  ⟨[⟨['0', '0'], some 0⟩, ⟨['1', '0'], some 1⟩], [[⟨['0', '1'], some 0⟩, ⟨['1', '1'], some 1⟩], [⟨['1', '2'], some 1⟩], [⟨['1', '3'], some 1⟩]],
    [[['0', '0'], ['0', '1'], ['1', '0']], [['1', '1'], ['1', '2'], ['1', '3']]], [0, 1], by rfl,
    ⟨['0', '0'], some 0⟩, by simp, ⟨['1', '0'], some 1⟩, by simp, by simp, [['0', '0'], ['0', '1'], ['1', '0']], by simp, by simp, by simp⟩

/-- No files: no detectors. -/
theorem xia_no_files (scans : List XiaScan) (outdir : Str) (exclude : List Nat) (a b c d : Bool) (disk : List Str) :
    parseXia scans outdir exclude a b c d none disk = .ok ([[]], []) := rfl

/-- The detectors of the result are those of the first group which are not excluded. -/
theorem xia_detectors (scans : List XiaScan) (outdir : Str) (exclude : List Nat) (a b c d : Bool) (g : List XiaFile)
    (r : List (List XiaFile)) (disk : List Str) (l : List (List Str)) (dets : List Nat)
    (h : parseXia scans outdir exclude a b c d (some (g :: r)) disk = .ok (l, dets)) (n : Nat) :
    n ∈ dets ↔ n ∉ exclude ∧ ∃ f ∈ g, f.det = some n := by
  have : dets = detNums exclude (g.filter fun f => !(f.det.map exclude.contains).getD false) := by
    unfold parseXia at h
    simp only [excludeDets, List.map_cons] at h
    repeat' split at h
    all_goals first | cases h; done | (cases h; rfl)
  subst this
  unfold detNums
  simp only [List.mem_filterMap, List.mem_filter, Option.bind_eq_some_iff]
  constructor
  · rintro ⟨f, ⟨hf, -⟩, m, hm, he⟩
    split at he
    · cases he
    · next hx =>
      simp only [Option.some.injEq] at he
      subst he
      exact ⟨by simpa using hx, f, hf, hm⟩
  · rintro ⟨hx, f, hf, hd⟩
    exact ⟨f, ⟨hf, by simp [hd, hx]⟩, n, hd, by simp [hx]⟩

/-! Non-trivial cases. -/
example : parseXia [⟨['/', 'd'], ['s'], ['1']⟩] ['/', 'o'] [] true true true true
    (some [[⟨['/', 'd', '/', '0'], some 0⟩, ⟨['/', 'd', '/', '1'], some 1⟩]]) [['/', 'd', '/', '0'], ['/', 'o', '/', 'x']]
    = .ok ([[]], [0, 1]) :=
  xia_sum_lost _ _ _ _ _ _ _ _ _ rfl (by simp [List.cons_prefix_cons]) (by simp [List.cons_prefix_cons]) (by simp [List.cons_prefix_cons]) (by decide)

example : parseXia [⟨['/', 'd'], ['s'], ['1']⟩] ['/', 'o'] [] true true true true
    (some [[⟨['/', 'd', '/', '0'], some 0⟩]]) [['/', 'd', '/', '0'], ['/', 'o', '/', 'x']] = .error .valueError :=
  xia_single_lost _ _ _ _ _ _ _ _ rfl (by simp [List.cons_prefix_cons]) (by simp [List.cons_prefix_cons]) (by simp [List.cons_prefix_cons]) (by decide)

example : parseXia [] [] [] false false true true (some [[⟨['1', '0'], some 1⟩, ⟨['0', '0'], some 0⟩, ⟨['s'], none⟩],
    [⟨['0', '1'], some 0⟩, ⟨['1', '1'], some 1⟩]]) [] = .ok ([[['0', '0'], ['0', '1']], [['1', '0'], ['1', '1']]], [1, 0]) :=
  xia_raw _ _ _ _ _ _ _ 2 (by decide) (by simp) (by decide) (by decide) rfl (by simp)

example : globStar ['a', '_'] tEdf ['a', '_', '7', '.', 'e', 'd', 'f'] = true := by decide
example : globStar ['a', '_'] tEdf ['a', '_', '/', '.', 'e', 'd', 'f'] = false := by decide

end SC.XasPipe
