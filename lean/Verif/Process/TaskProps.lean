import Verif.Process.Task
import Verif.Process.LookupProps
/-! # C18: the output of a task is all or nothing -/
namespace SC.Process
open SC.Py
open SC.Hashing (Bytes)
open SC.Naming (Str Name Outcome freshLoop matchName NoBrace)

variable {D : Type}

/-! ## specification -/

/-- The complete result. -/
def Cfg.result (cfg : Cfg D) : Cell D := .proc (some cfg.csum) (h5Data cfg.body)

/-! ## lemmas -/

/-- What is at the temporary name. -/
def TempInv (cfg : Cfg D) (st : St D) : Prop :=
  match st.pc with
  | .body r k => matchName cfg.pattern r = false ∧ k ≤ cfg.body.length ∧
      Dict.get? st.procs r = some (.proc (some cfg.csum) (h5Data (cfg.body.take k)))
  | .dead r k => matchName cfg.pattern r = false ∧ k ≤ cfg.body.length ∧
      Dict.get? st.procs r = some (.proc (some cfg.csum) (h5Data (cfg.body.take k)))
  | .zombie r => matchName cfg.pattern r = false
  | .naming r => Dict.get? st.procs r = some cfg.result
  | .toRename r _ => Dict.get? st.procs r = some cfg.result
  | _ => True

theorem h5Data_append (a b : List (Op D)) : h5Data (a ++ b) = h5Data a ++ h5Data b := by
  simp [h5Data]
theorem fileData_append (a b : List (Op D)) : fileData (a ++ b) = fileData a ++ fileData b := by
  simp [fileData]

theorem write_h5 {st : St D} {r : Str} {s : Option Bytes} {l : List D}
    (h : Dict.get? st.procs r = some (.proc s l)) (o : Op D) (n : Str) :
    Dict.get? (write st r o).procs n = if r = n then some (.proc s (l ++ h5Data [o])) else Dict.get? st.procs n := by
  cases o with
  | h5 d => simp only [write, h, h5Data]; rw [Dict.get?_set]; rfl
  | file d =>
    simp only [write]
    split
    · rename_i hn; subst hn; simp [h, h5Data]
    · rfl

theorem take_succ {l : List (Op D)} {k : Nat} {o : Op D} (h : l[k]? = some o) :
    l.take (k + 1) = l.take k ++ [o] := by
  rw [List.take_add_one, h]; rfl

/-- every step keeps the invariant, leaves all other nodes alone and adds only known nodes -/
theorem step_inv {cfg : Cfg D} {st st' : St D} {l : Label D} (hi : TempInv cfg st)
    (h : step cfg st l = some st') :
    TempInv cfg st' ∧
    (∀ n x, Dict.get? st.procs n = some x → st.pc.temp ≠ some n →
      (∀ m, l = .delete m → m ≠ n) → Dict.get? st'.procs n = some x ∧ st'.pc.temp ≠ some n) ∧
    (∀ n x, Dict.get? st'.procs n = some x → matchName cfg.pattern n = true →
      Dict.get? st.procs n = some x ∨ l = .add n x ∨ x = cfg.result) := by
  cases l with
  | go =>
    simp only [step, go] at h
    cases hpc : st.pc with
    | start =>
      simp only [hpc] at h
      split at h <;> (rw [Option.some.injEq] at h; subst h)
      · exact ⟨trivial, fun n x hx _ _ => ⟨hx, by simp [Pc.temp]⟩, fun n x hx _ => .inl hx⟩
      · exact ⟨trivial, fun n x hx _ _ => ⟨hx, by simp [Pc.temp]⟩, fun n x hx _ => .inl hx⟩
    | entering a => simp [hpc] at h
    | body r k =>
      simp only [TempInv, hpc] at hi
      simp only [hpc] at h
      cases hb : cfg.body[k]? with
      | none =>
        simp only [hb, Option.some.injEq] at h; subst h
        refine ⟨?_, fun n x hx ht _ => ⟨hx, ht⟩, fun n x hx _ => .inl hx⟩
        simp only [TempInv, hi.2.2, Cfg.result]
        rw [List.take_of_length_le (List.getElem?_eq_none_iff.1 hb)]
      | some o =>
        simp only [hb, Option.some.injEq] at h; subst h
        have hw := write_h5 hi.2.2 o
        refine ⟨?_, fun n x hx ht _ => ?_, fun n x hx hm => ?_⟩
        · refine ⟨hi.1, ?_, ?_⟩
          · have := (List.getElem?_eq_some_iff.1 hb).1; omega
          · rw [hw, if_pos rfl, take_succ hb, h5Data_append]
        · have hn : r ≠ n := by simpa [Pc.temp] using ht
          refine ⟨?_, by simpa [Pc.temp] using ht⟩
          rw [hw, if_neg hn, hx]
        · rw [hw] at hx
          split at hx
          · rename_i hn; subst hn; rw [hi.1] at hm; cases hm
          · exact .inl hx
    | dead r k =>
      simp only [TempInv, hpc] at hi
      simp only [hpc] at h
      cases hb : cfg.body[k]? with
      | none =>
        simp only [hb, Option.some.injEq] at h; subst h
        exact ⟨trivial, fun n x hx ht _ => ⟨hx, by simp [Pc.temp]⟩, fun n x hx _ => .inl hx⟩
      | some o =>
        simp only [hb, Option.some.injEq] at h; subst h
        have hw := write_h5 hi.2.2 o
        refine ⟨?_, fun n x hx ht _ => ?_, fun n x hx hm => ?_⟩
        · refine ⟨hi.1, ?_, ?_⟩
          · have := (List.getElem?_eq_some_iff.1 hb).1; omega
          · rw [hw, if_pos rfl, take_succ hb, h5Data_append]
        · have hn : r ≠ n := by simpa [Pc.temp] using ht
          refine ⟨?_, by simpa [Pc.temp] using ht⟩
          rw [hw, if_neg hn, hx]
        · rw [hw] at hx
          split at hx
          · rename_i hn; subst hn; rw [hi.1] at hm; cases hm
          · exact .inl hx
    | zombie r =>
      simp only [hpc, Option.some.injEq] at h; subst h
      exact ⟨trivial, fun n x hx ht _ => ⟨hx, by simp [Pc.temp]⟩, fun n x hx _ => .inl hx⟩
    | naming r =>
      simp only [TempInv, hpc] at hi
      simp only [hpc, Option.some.injEq] at h; subst h
      exact ⟨hi, fun n x hx ht _ => ⟨hx, by simpa [Pc.temp] using ht⟩, fun n x hx _ => .inl hx⟩
    | toRename r nm =>
      simp only [TempInv, hpc] at hi
      simp only [hpc, hi] at h
      cases hn : Dict.get? st.procs nm with
      | none =>
        simp only [hn, Option.some.injEq] at h; subst h
        have hg : ∀ n, Dict.get? (Dict.set (Dict.del st.procs r) nm cfg.result) n =
            if nm = n then some cfg.result else if r = n then none else Dict.get? st.procs n := by
          intro n; rw [Dict.get?_set, Dict.get?_del]
        refine ⟨trivial, fun n x hx ht _ => ?_, fun n x hx _ => ?_⟩
        · have h1 : r ≠ n := by simpa [Pc.temp] using ht
          have h2 : nm ≠ n := by rintro rfl; rw [hn] at hx; cases hx
          refine ⟨?_, by simpa [Pc.temp] using ht⟩
          rw [hg, if_neg h2, if_neg h1, hx]
        · rw [hg] at hx
          split at hx
          · exact .inr (.inr (Option.some.inj hx).symm)
          · split at hx
            · cases hx
            · exact .inl hx
      | some y =>
        simp only [hn] at h
        split at h <;> (rw [Option.some.injEq] at h; subst h)
        · refine ⟨trivial, fun n x hx ht _ => ?_, fun n x hx _ => ?_⟩
          · have h1 : r ≠ n := by simpa [Pc.temp] using ht
            refine ⟨?_, by simp [Pc.temp]⟩
            simp only [removeTemp]; rw [Dict.get?_del, if_neg h1, hx]
          · simp only [removeTemp] at hx; rw [Dict.get?_del] at hx
            split at hx
            · cases hx
            · exact .inl hx
        · exact ⟨hi, fun n x hx ht _ => ⟨hx, by simpa [Pc.temp] using ht⟩, fun n x hx _ => .inl hx⟩
    | moving r nm =>
      simp only [hpc] at h
      cases hd : Dict.get? st.dirs [r] with
      | none =>
        simp only [hd, Option.some.injEq] at h; subst h
        exact ⟨trivial, fun n x hx ht _ => ⟨hx, by simp [Pc.temp]⟩, fun n x hx _ => .inl hx⟩
      | some y =>
        simp only [hd, Option.some.injEq] at h; subst h
        exact ⟨trivial, fun n x hx ht _ => ⟨hx, by simp [Pc.temp]⟩, fun n x hx _ => .inl hx⟩
    | default =>
      simp only [hpc, Option.some.injEq] at h; subst h
      exact ⟨trivial, fun n x hx ht _ => ⟨hx, by simp [Pc.temp]⟩, fun n x hx _ => .inl hx⟩
    | failing r =>
      simp only [hpc, Option.some.injEq] at h; subst h
      refine ⟨trivial, fun n x hx ht _ => ?_, fun n x hx _ => ?_⟩
      · have h1 : r ≠ n := by simpa [Pc.temp] using ht
        refine ⟨?_, by simpa [Pc.temp] using ht⟩
        dsimp only; rw [Dict.get?_del, if_neg h1, hx]
      · dsimp only at hx; rw [Dict.get?_del] at hx
        split at hx
        · cases hx
        · exact .inl hx
    | failingDir r =>
      simp only [hpc, Option.some.injEq] at h; subst h
      exact ⟨trivial, fun n x hx ht _ => ⟨hx, by simp [Pc.temp]⟩, fun n x hx _ => .inl hx⟩
    | finished => simp [hpc] at h
    | raised => simp [hpc] at h
  | choose r =>
    simp only [step] at h
    cases hpc : st.pc with
    | entering a =>
      simp only [hpc] at h
      split at h
      · rename_i hf
        simp only [Fits, Bool.and_eq_true, Bool.not_eq_true', Option.isNone_iff_eq_none] at hf
        obtain ⟨⟨⟨hf1, -⟩, hf2⟩, -⟩ := hf
        rw [Option.some.injEq] at h; subst h
        refine ⟨?_, fun n x hx ht _ => ?_, fun n x hx hm => ?_⟩
        · cases a <;>
          · simp only [TempInv, Bool.false_eq_true, if_true, if_false]
            refine ⟨hf1, by omega, ?_⟩
            rw [Dict.get?_set, if_pos rfl]; rfl
        · have hn : r ≠ n := by rintro rfl; rw [hf2] at hx; cases hx
          refine ⟨by dsimp only; rw [Dict.get?_set, if_neg hn, hx], ?_⟩
          cases a <;> simpa [Pc.temp] using hn
        · dsimp only at hx; rw [Dict.get?_set] at hx
          split at hx
          · rename_i hn; subst hn; rw [hf1] at hm; cases hm
          · exact .inl hx
      · cases h
    | _ => simp [hpc] at h
  | chooseFails r =>
    simp only [step] at h
    cases hpc : st.pc with
    | entering a =>
      simp only [hpc] at h
      split at h
      · rename_i hf
        simp only [Fits, Bool.and_eq_true, Bool.not_eq_true', Option.isNone_iff_eq_none] at hf
        obtain ⟨⟨⟨hf1, -⟩, hf2⟩, -⟩ := hf
        rw [Option.some.injEq] at h; subst h
        refine ⟨trivial, fun n x hx ht _ => ?_, fun n x hx hm => ?_⟩
        · have hn : r ≠ n := by rintro rfl; rw [hf2] at hx; cases hx
          exact ⟨by dsimp only; rw [Dict.get?_set, if_neg hn, hx], by simp [Pc.temp]⟩
        · dsimp only at hx; rw [Dict.get?_set] at hx
          split at hx
          · rename_i hn; subst hn; rw [hf1] at hm; cases hm
          · exact .inl hx
      · cases h
    | _ => simp [hpc] at h
  | raises =>
    simp only [step] at h
    cases hpc : st.pc <;> simp only [hpc, Option.some.injEq, reduceCtorEq] at h <;> subst h <;>
      exact ⟨trivial, fun n x hx ht _ => ⟨hx, by simpa [Pc.temp] using ht⟩, fun n x hx _ => .inl hx⟩
  | signal =>
    simp only [step] at h
    have key : ∀ (r : Str) (pc : Pc), st.pc.temp = some r → pc.temp = none → st' = { removeTemp st r with pc := pc } →
        (∀ n x, Dict.get? st.procs n = some x → st.pc.temp ≠ some n →
          (∀ m, (Label.signal : Label D) = .delete m → m ≠ n) → Dict.get? st'.procs n = some x ∧ st'.pc.temp ≠ some n) ∧
        (∀ n x, Dict.get? st'.procs n = some x → matchName cfg.pattern n = true →
          Dict.get? st.procs n = some x ∨ (Label.signal : Label D) = .add n x ∨ x = cfg.result) := by
      rintro r pc h1 h2 rfl
      refine ⟨fun n x hx ht _ => ?_, fun n x hx _ => ?_⟩
      · have hn : r ≠ n := by rw [h1] at ht; simpa using ht
        refine ⟨?_, by simp [h2]⟩
        simp only [removeTemp]; rw [Dict.get?_del, if_neg hn, hx]
      · simp only [removeTemp] at hx; rw [Dict.get?_del] at hx
        split at hx
        · cases hx
        · exact .inl hx
    cases hpc : st.pc with
    | entering a =>
      cases a <;> simp only [hpc, Option.some.injEq, reduceCtorEq] at h
      subst h
      exact ⟨trivial, fun n x hx ht _ => ⟨hx, by simp [Pc.temp]⟩, fun n x hx _ => .inl hx⟩
    | body r k =>
      simp only [hpc, Option.some.injEq] at h
      simp only [TempInv, hpc] at hi
      have := key r (.zombie r) (by rw [hpc]; rfl) rfl h.symm
      refine ⟨?_, hpc ▸ this.1, this.2⟩
      subst h; exact hi.1
    | naming r =>
      simp only [hpc, Option.some.injEq] at h
      have := key r .raised (by rw [hpc]; rfl) rfl h.symm
      refine ⟨?_, hpc ▸ this.1, this.2⟩
      subst h; trivial
    | toRename r nm =>
      simp only [hpc, Option.some.injEq] at h
      have := key r .raised (by rw [hpc]; rfl) rfl h.symm
      refine ⟨?_, hpc ▸ this.1, this.2⟩
      subst h; trivial
    | moving r nm =>
      simp only [hpc, Option.some.injEq] at h
      have := key r .raised (by rw [hpc]; rfl) rfl h.symm
      refine ⟨?_, hpc ▸ this.1, this.2⟩
      subst h; trivial
    | failing r =>
      simp only [hpc, Option.some.injEq] at h
      have := key r .raised (by rw [hpc]; rfl) rfl h.symm
      refine ⟨?_, hpc ▸ this.1, this.2⟩
      subst h; trivial
    | failingDir r =>
      simp only [hpc, Option.some.injEq] at h
      have := key r .raised (by rw [hpc]; rfl) rfl h.symm
      refine ⟨?_, hpc ▸ this.1, this.2⟩
      subst h; trivial
    | default =>
      simp only [hpc, Option.some.injEq] at h; subst h
      exact ⟨hi, fun n x hx ht _ => ⟨hx, by rw [hpc]; simp [Pc.temp]⟩, fun n x hx _ => .inl hx⟩
    | _ => simp [hpc] at h
  | zombieWrites =>
    simp only [step] at h
    cases hpc : st.pc with
    | zombie r =>
      simp only [TempInv, hpc] at hi
      simp only [hpc] at h
      split at h
      · rename_i hf
        rw [Option.isNone_iff_eq_none] at hf
        rw [Option.some.injEq] at h; subst h
        refine ⟨by simp only [TempInv, hpc]; exact hi, fun n x hx ht _ => ?_, fun n x hx hm => ?_⟩
        · have hn : r ≠ n := by rintro rfl; rw [hf] at hx; cases hx
          exact ⟨by dsimp only; rw [Dict.get?_set, if_neg hn, hx], by simp [hpc, Pc.temp]⟩
        · dsimp only at hx; rw [Dict.get?_set] at hx
          split at hx
          · rename_i hn; subst hn; rw [hi] at hm; cases hm
          · exact .inl hx
      · cases h
    | _ => simp [hpc] at h
  | add m y =>
    simp only [step] at h
    split at h
    · rename_i hf
      simp only [Bool.and_eq_true, Option.isNone_iff_eq_none, decide_eq_true_eq] at hf
      rw [Option.some.injEq] at h; subst h
      refine ⟨?_, fun n x hx ht _ => ?_, fun n x hx hm => ?_⟩
      · simp only [TempInv] at hi ⊢
        cases hpc : st.pc <;> simp only [hpc, Pc.temp] at hi hf ⊢ <;> try trivial
        all_goals
          have hne : ∀ r : Str, some r ≠ some m → m ≠ r := fun r h1 h2 => h1 (by rw [h2])
          rw [Dict.get?_set, if_neg (hne _ hf.2)]; exact hi
      · have hn : m ≠ n := by rintro rfl; rw [hf.1] at hx; cases hx
        exact ⟨by dsimp only; rw [Dict.get?_set, if_neg hn, hx], ht⟩
      · dsimp only at hx; rw [Dict.get?_set] at hx
        split at hx
        · rename_i hn; subst hn; rw [Option.some.inj hx]; exact .inr (.inl rfl)
        · exact .inl hx
    · cases h
  | delete m =>
    simp only [step] at h
    split at h
    · rename_i hf
      rw [Option.some.injEq] at h; subst h
      refine ⟨?_, fun n x hx ht hd => ?_, fun n x hx hm => ?_⟩
      · simp only [TempInv] at hi ⊢
        cases hpc : st.pc <;> simp only [hpc, Pc.temp] at hi hf ⊢ <;> try trivial
        all_goals
          have hne : ∀ r : Str, some r ≠ some m → m ≠ r := fun r h1 h2 => h1 (by rw [h2])
          rw [Dict.get?_del, if_neg (hne _ hf)]; exact hi
      · have hn : m ≠ n := hd m rfl
        exact ⟨by dsimp only; rw [Dict.get?_del, if_neg hn, hx], ht⟩
      · dsimp only at hx; rw [Dict.get?_del] at hx
        split at hx
        · cases hx
        · exact .inl hx
    · cases h
  | kill =>
    simp only [step, Option.some.injEq] at h; subst h
    exact ⟨trivial, fun n x hx ht _ => ⟨hx, by simp [Pc.temp]⟩, fun n x hx _ => .inl hx⟩
  | again same =>
    simp only [step] at h
    cases hpc : st.pc <;> simp only [hpc, Option.some.injEq, reduceCtorEq] at h <;> subst h <;>
      exact ⟨trivial, fun n x hx ht _ => ⟨hx, by simp [Pc.temp]⟩, fun n x hx _ => .inl hx⟩

/-! ## every crash point, signal and interference -/

/-- **C18.**  Whatever happens — exceptions at any point, kills, signals, interference by others,
repeated runs — a node that existed and is not the temporary process of the current run is untouched
unless somebody else deletes it. -/
theorem others_untouched {cfg : Cfg D} {st st' : St D} {ls : List (Label D)} (hi : TempInv cfg st)
    (h : steps cfg st ls = some st') {n : Str} {x : Cell D} (hx : Dict.get? st.procs n = some x)
    (ht : st.pc.temp ≠ some n) (hd : Label.delete n ∉ ls) : Dict.get? st'.procs n = some x := by
  induction ls generalizing st with
  | nil => simp only [steps, Option.some.injEq] at h; subst h; exact hx
  | cons l ls ih =>
    simp only [steps] at h
    cases hs : step cfg st l with
    | none => simp [hs] at h
    | some s =>
      simp only [hs] at h
      simp only [List.mem_cons, not_or] at hd
      obtain ⟨h1, h2, -⟩ := step_inv hi hs
      obtain ⟨h3, h4⟩ := h2 n x hx ht (fun m hm hmn => hd.1 (by rw [hm, hmn]))
      exact ih h1 h h3 h4 hd.2

/-- **C18.**  Whatever happens, a node whose name matches the output name of the task was there
before, or somebody else added it, or it is a complete result: no crash point, exception or signal
leaves a partial result where the task or later tasks look for one. -/
theorem no_partial_result {cfg : Cfg D} {st st' : St D} {ls : List (Label D)} (hi : TempInv cfg st)
    (h : steps cfg st ls = some st') {n : Str} {x : Cell D} (hx : Dict.get? st'.procs n = some x)
    (hm : matchName cfg.pattern n = true) :
    Dict.get? st.procs n = some x ∨ .add n x ∈ ls ∨ x = cfg.result := by
  induction ls generalizing st with
  | nil => simp only [steps, Option.some.injEq] at h; subst h; exact .inl hx
  | cons l ls ih =>
    simp only [steps] at h
    cases hs : step cfg st l with
    | none => simp [hs] at h
    | some s =>
      simp only [hs] at h
      obtain ⟨h1, -, h3⟩ := step_inv hi hs
      rcases ih h1 h with h4 | h4 | h4
      · rcases h3 n x h4 hm with h5 | h5 | h5
        · exact .inl h5
        · exact .inr (.inl (by rw [h5]; exact List.mem_cons_self))
        · exact .inr (.inr h5)
      · exact .inr (.inl (List.mem_cons_of_mem _ h4))
      · exact .inr (.inr h4)

/-! ## one undisturbed run -/

theorem pattern_fresh {cfg : Cfg D} (hb : NoBrace cfg.base) (procs : Dict Str (Cell D)) :
    ∃ x s, freshLoop (Dict.keys procs) (procs.length + 1) (Name.new cfg.base) = .found x s ∧
      s ∉ Dict.keys procs ∧ matchName cfg.pattern s = true := by
  have hlen : (Dict.keys procs).length < procs.length + 1 := by simp [Dict.keys]
  rcases Naming.split_or cfg.base with h | ⟨p, d, s, h⟩
  · obtain ⟨k, d', x, -, h1, h2, h3, -⟩ := Naming.fresh_unnumbered_partial h hb (Dict.keys procs) _ hlen
    refine ⟨x, _, h1, h3, ?_⟩
    have hpat : cfg.pattern = (cfg.base ++ ['.']) ++ ['1'] ++ [] := by
      obtain ⟨k0, d0, x0, hk0, g1, g2, g3, -⟩ := Naming.fresh_unnumbered_partial h hb [] 1 (by simp)
      have : k0 = 0 := by simpa using hk0
      subst this
      simp only [freshLoop] at g1
      cases hs : (Name.new cfg.base).str with
      | none => simp [hs] at g1
      | some t =>
        simp only [hs, List.not_mem_nil, if_false, Outcome.found.injEq] at g1
        rw [Cfg.pattern, hs, Option.getD_some, g1.2]
        have hd0 : d0 = ['1'] := g2.unique ⟨by simp, by decide, by decide, by simp, by simp⟩
        rw [hd0]; simp
    have hsplit : Naming.Split cfg.pattern (cfg.base ++ ['.']) ['1'] [] :=
      ⟨hpat, by simp, by decide, by simp, by simp⟩
    exact (Naming.match_numbered hsplit _).2 ⟨d', h2.ne, h2.digits, .inl (by simp)⟩
  · obtain ⟨k, d', x, -, h1, h2, h3, -⟩ := Naming.fresh_numbered_partial h hb (Dict.keys procs) _ hlen
    refine ⟨x, _, h1, h3, ?_⟩
    have hpat : cfg.pattern = cfg.base := by
      obtain ⟨k0, d0, x0, hk0, g1, g2, g3, -⟩ := Naming.fresh_numbered_partial h hb [] 1 (by simp)
      have : k0 = 0 := by simpa using hk0
      subst this
      simp only [freshLoop] at g1
      cases hs : (Name.new cfg.base).str with
      | none => simp [hs] at g1
      | some t =>
        simp only [hs, List.not_mem_nil, if_false, Outcome.found.injEq] at g1
        rw [Cfg.pattern, hs, Option.getD_some, g1.2]
        have hd0 : d0 = d := g2.unique ⟨h.ne, h.digits, by simp, Nat.le_refl _, fun hlt => absurd hlt (by omega)⟩
        rw [hd0, ← h.eq]
    rw [hpat]
    exact (Naming.match_numbered h _).2 ⟨d', h2.ne, h2.digits, .inl rfl⟩

/-- Nothing has changed. -/
def Unchanged (st0 st : St D) : Prop :=
  (∀ n, Dict.get? st.procs n = Dict.get? st0.procs n) ∧ ∀ p, Dict.get? st.dirs p = Dict.get? st0.dirs p

/-- Exactly one process is new: complete, at a free name that matches; and its directory, if any. -/
structure Done (cfg : Cfg D) (st0 st : St D) (r nm : Str) : Prop where
  free : Dict.get? st0.procs nm = none
  fits : matchName cfg.pattern nm = true
  procs : ∀ n, Dict.get? st.procs n = if nm = n then some cfg.result else Dict.get? st0.procs n
  dirs : ∀ p, Dict.get? st.dirs p = if fileData cfg.body ≠ [] ∧ destination cfg st0.dirs r nm = p
    then some (fileData cfg.body) else Dict.get? st0.dirs p
  locked : st.locked = some nm

/-- No signals, nobody else, no failing creation: only exceptions. -/
inductive Calm : Label D → Prop
  | go : Calm .go
  | choose (r : Str) : Calm (.choose r)
  | raises : Calm .raises

/-- while the temporary process exists -/
structure During (cfg : Cfg D) (st0 st : St D) (r : Str) (k : Nat) : Prop where
  le : k ≤ cfg.body.length
  wf : Dict.WF st.procs
  locked : st.locked = none
  noOut : findOutput cfg st0.procs = none
  under : '_' ∉ r
  freeP : Dict.get? st0.procs r = none
  freeD : Dict.get? st0.dirs [r] = none
  differs : matchName cfg.pattern r = false
  procs : ∀ n, Dict.get? st.procs n = if r = n then some (.proc (some cfg.csum) (h5Data (cfg.body.take k)))
    else Dict.get? st0.procs n
  dirs : ∀ p, Dict.get? st.dirs p = if [r] = p then
      (if fileData (cfg.body.take k) = [] then none else some (fileData (cfg.body.take k)))
    else Dict.get? st0.dirs p

/-- invariant of one undisturbed run -/
def RunInv (cfg : Cfg D) (st0 st : St D) : Prop :=
  match st.pc with
  | .start => st = st0
  | .entering a => a = true ∧ findOutput cfg st0.procs = none ∧ st.procs = st0.procs ∧ st.dirs = st0.dirs ∧
      st.locked = none
  | .body r k => During cfg st0 st r k
  | .naming r => During cfg st0 st r cfg.body.length
  | .toRename r nm => During cfg st0 st r cfg.body.length ∧ nm = outputName cfg st.procs none
  | .moving r nm => Dict.get? st0.procs nm = none ∧ matchName cfg.pattern nm = true ∧ '_' ∉ r ∧
      st.locked = some nm ∧ Dict.get? st0.dirs [r] = none ∧
      (∀ n, Dict.get? st.procs n = if nm = n then some cfg.result else Dict.get? st0.procs n) ∧
      (∀ p, Dict.get? st.dirs p = if [r] = p then
        (if fileData cfg.body = [] then none else some (fileData cfg.body)) else Dict.get? st0.dirs p)
  | .default => ∃ r nm, Done cfg st0 st r nm
  | .failing r => ∃ k, During cfg st0 st r k
  | .failingDir r => Dict.get? st0.dirs [r] = none ∧ (∀ n, Dict.get? st.procs n = Dict.get? st0.procs n) ∧
      (∀ p, [r] ≠ p → Dict.get? st.dirs p = Dict.get? st0.dirs p)
  | .finished => Unchanged st0 st ∨ ∃ r nm, Done cfg st0 st r nm
  | .raised => Unchanged st0 st ∨ ∃ r nm, Done cfg st0 st r nm
  | .dead _ _ => False
  | .zombie _ => False

theorem findOutput_none_iff {cfg : Cfg D} {procs : Dict Str (Cell D)} : findOutput cfg procs = none ↔
    ∀ x ∈ procs, matchName cfg.pattern x.1 = true → x.2.hasSum cfg.csum = false := by
  simp only [findOutput, Option.map_eq_none_iff, List.find?_eq_none, Bool.and_eq_true, not_and, Bool.not_eq_true]

theorem findOutput_some {cfg : Cfg D} {procs : Dict Str (Cell D)} {n : Str} (h : findOutput cfg procs = some n) :
    n ∈ Dict.keys procs ∧ matchName cfg.pattern n = true := by
  simp only [findOutput, Option.map_eq_some_iff] at h
  obtain ⟨⟨a, x⟩, h1, rfl⟩ := h
  have h2 := List.find?_some h1
  simp only [Bool.and_eq_true] at h2
  exact ⟨List.mem_map.2 ⟨_, List.mem_of_find?_eq_some h1, rfl⟩, h2.1⟩

theorem outputExists_none {cfg : Cfg D} {procs : Dict Str (Cell D)} (hb : NoBrace cfg.base) :
    outputExists cfg procs none = (findOutput cfg procs).isSome := by
  unfold outputExists outputName
  cases hf : findOutput cfg procs with
  | some n =>
    simp only [Option.isSome_some]
    exact (Dict.get?_isSome _ _).2 (findOutput_some hf).1
  | none =>
    obtain ⟨x, s, h1, h2, -⟩ := pattern_fresh hb procs
    simp only [h1, Option.isSome_none]
    rw [(Dict.get?_none _ _).2 h2]; rfl

theorem During.noOutput {cfg : Cfg D} {st0 st : St D} {r : Str} {k : Nat} (h : During cfg st0 st r k) :
    findOutput cfg st.procs = none := by
  rw [findOutput_none_iff]
  rintro ⟨n, x⟩ hx hm
  have hg := Dict.get?_of_mem h.wf hx
  rw [h.procs] at hg
  split at hg
  · rename_i hn; subst hn; dsimp only at hm; rw [h.differs] at hm; cases hm
  · exact findOutput_none_iff.1 h.noOut (n, x) (Dict.get?_mem hg) hm

theorem write_dirs (st : St D) (r : Str) (o : Op D) (p : List Str) :
    Dict.get? (write st r o).dirs p = if [r] = p then
      (if fileData [o] = [] then Dict.get? st.dirs [r] else some ((Dict.get? st.dirs [r]).getD [] ++ fileData [o]))
      else Dict.get? st.dirs p := by
  cases o with
  | h5 d =>
    have : (write st r (.h5 d)).dirs = st.dirs := by
      simp only [write]; split <;> rfl
    rw [this]
    simp only [fileData, List.filterMap_cons, List.filterMap_nil, if_true]
    split
    · rename_i h; rw [h]
    · rfl
  | file d =>
    simp only [write, fileData, List.filterMap_cons, List.filterMap_nil]
    rw [Dict.get?_set]; simp

theorem write_wf {st : St D} (h : Dict.WF st.procs) (r : Str) (o : Op D) : Dict.WF (write st r o).procs := by
  cases o with
  | h5 d =>
    simp only [write]
    split
    · exact Dict.wf_set _ h _ _
    · exact h
  | file d => exact h

theorem write_locked (st : St D) (r : Str) (o : Op D) : (write st r o).locked = st.locked := by
  cases o with
  | h5 d => simp only [write]; split <;> rfl
  | file d => rfl

theorem During.write {cfg : Cfg D} {st0 st : St D} {r : Str} {k : Nat} {o : Op D} (h : During cfg st0 st r k)
    (ho : cfg.body[k]? = some o) (pc : Pc) : During cfg st0 { write st r o with pc := pc } r (k + 1) := by
  have hr : Dict.get? st.procs r = some (.proc (some cfg.csum) (h5Data (cfg.body.take k))) := by
    rw [h.procs, if_pos rfl]
  have hd : Dict.get? st.dirs [r] = if fileData (cfg.body.take k) = [] then none
      else some (fileData (cfg.body.take k)) := by rw [h.dirs, if_pos rfl]
  refine ⟨?_, write_wf h.wf r o, ?_, h.noOut, h.under, h.freeP, h.freeD, h.differs, ?_, ?_⟩
  · have := (List.getElem?_eq_some_iff.1 ho).1; omega
  · simp only [write_locked, h.locked]
  · intro n
    simp only
    rw [write_h5 hr, take_succ ho, h5Data_append]
    split
    · rfl
    · rename_i hn; rw [h.procs, if_neg hn]
  · intro p
    simp only
    rw [write_dirs, take_succ ho, fileData_append, hd]
    split
    · by_cases h1 : fileData [o] = []
      · simp [h1]
      · by_cases h2 : fileData (cfg.body.take k) = []
        · simp [h1, h2]
        · simp [h1, h2]
    · rename_i hn; rw [h.dirs, if_neg hn]

theorem run_step {cfg : Cfg D} (hb : NoBrace cfg.base) {st0 st st' : St D} (h0 : Dict.WF st0.procs)
    (hl0 : st0.locked = none) {l : Label D} (hc : Calm l) (hi : RunInv cfg st0 st)
    (h : step cfg st l = some st') : RunInv cfg st0 st' := by
  cases hc with
  | go =>
    simp only [step, go] at h
    cases hpc : st.pc with
    | start =>
      simp only [RunInv, hpc] at hi; subst hi
      simp only [hpc] at h
      split at h <;> (rw [Option.some.injEq] at h; subst h)
      · exact .inl ⟨fun n => rfl, fun p => rfl⟩
      · rename_i hcache
        simp only [hl0, outputExists_none hb, Bool.or_eq_true, not_or, Bool.not_eq_true,
          Option.isSome_eq_false_iff, Option.isNone_iff_eq_none] at hcache
        exact ⟨rfl, hcache.2, rfl, rfl, hl0⟩
    | entering a => simp [hpc] at h
    | body r k =>
      simp only [RunInv, hpc] at hi
      simp only [hpc] at h
      cases ho : cfg.body[k]? with
      | some o =>
        simp only [ho, Option.some.injEq] at h; subst h
        exact hi.write ho _
      | none =>
        simp only [ho, Option.some.injEq] at h; subst h
        have hk : k = cfg.body.length := by
          have := List.getElem?_eq_none_iff.1 ho; have := hi.le; omega
        subst hk
        exact ⟨hi.1, hi.2, hi.3, hi.4, hi.5, hi.6, hi.7, hi.8, hi.9, hi.10⟩
    | dead r k => simp [RunInv, hpc] at hi
    | zombie r => simp [RunInv, hpc] at hi
    | naming r =>
      simp only [RunInv, hpc] at hi
      simp only [hpc, Option.some.injEq] at h; subst h
      refine ⟨⟨hi.1, hi.2, hi.3, hi.4, hi.5, hi.6, hi.7, hi.8, hi.9, hi.10⟩, ?_⟩
      simp only [hi.locked]
    | toRename r nm =>
      simp only [RunInv, hpc] at hi
      obtain ⟨hd, hnm⟩ := hi
      obtain ⟨x, s, h1, h2, h3⟩ := pattern_fresh hb st.procs
      have hnm : nm = s := by rw [hnm]; simp only [outputName, hd.noOutput, h1]
      subst hnm
      have hfree : Dict.get? st.procs nm = none := (Dict.get?_none _ _).2 h2
      have hr : Dict.get? st.procs r = some cfg.result := by
        rw [hd.procs, if_pos rfl, List.take_length]; rfl
      have hrn : r ≠ nm := by rintro rfl; rw [hr] at hfree; cases hfree
      simp only [hpc, hfree, hr, Option.some.injEq] at h; subst h
      refine ⟨?_, h3, hd.under, rfl, hd.freeD, ?_, ?_⟩
      · rw [hd.procs, if_neg hrn] at hfree; exact hfree
      · intro n
        dsimp only
        rw [Dict.get?_set, Dict.get?_del, hd.procs]
        split
        · rfl
        · split
          · rename_i hrn; subst hrn; exact hd.freeP.symm
          · rfl
      · intro p; have := hd.dirs p; rw [List.take_length] at this; exact this
    | moving r nm =>
      simp only [RunInv, hpc] at hi
      obtain ⟨i1, i2, i3, i4, i5, i6, i7⟩ := hi
      have hne : [r] ≠ [cfg.entry ++ '_' :: nm] := by
        intro he; apply i3; simp only [List.cons.injEq, and_true] at he; rw [he]; simp
      have hdest : destination cfg st.dirs r nm = destination cfg st0.dirs r nm := by
        unfold destination; rw [i7, if_neg hne]
      have hdr : [r] ≠ destination cfg st0.dirs r nm := by
        unfold destination; split
        · simp
        · exact hne
      have hdirs := i7 [r]; rw [if_pos rfl] at hdirs
      simp only [hpc, hdirs] at h
      by_cases hf : fileData cfg.body = []
      · simp only [hf, if_true, Option.some.injEq] at h; subst h
        refine ⟨r, nm, i1, i2, i6, ?_, i4⟩
        intro p
        have := i7 p
        dsimp only
        rw [this]
        simp only [hf, if_true, ne_eq, not_true_eq_false, false_and, if_false]
        split
        · rename_i hp; rw [← hp, i5]
        · rfl
      · simp only [hf, if_false, Option.some.injEq] at h; subst h
        refine ⟨r, nm, i1, i2, i6, ?_, i4⟩
        intro p
        dsimp only
        rw [hdest, Dict.get?_set, Dict.get?_del]
        by_cases hp : destination cfg st0.dirs r nm = p
        · simp [hp, hf]
        · have hp2 : ¬ (fileData cfg.body ≠ [] ∧ destination cfg st0.dirs r nm = p) := fun h => hp h.2
          rw [if_neg hp, if_neg hp2]
          split
          · rename_i hrp; rw [← hrp, i5]
          · rename_i hrp; rw [i7, if_neg hrp]
    | default =>
      simp only [RunInv, hpc] at hi
      simp only [hpc, Option.some.injEq] at h; subst h
      obtain ⟨r, nm, hd⟩ := hi
      exact .inr ⟨r, nm, hd.1, hd.2, hd.3, hd.4, hd.5⟩
    | failing r =>
      simp only [RunInv, hpc] at hi
      obtain ⟨k, hd⟩ := hi
      simp only [hpc, Option.some.injEq] at h; subst h
      refine ⟨hd.freeD, ?_, ?_⟩
      · intro n
        dsimp only
        rw [Dict.get?_del, hd.procs]
        split
        · rename_i hn; rw [← hn, hd.freeP]
        · rfl
      · intro p hp; dsimp only; rw [hd.dirs, if_neg hp]
    | failingDir r =>
      simp only [RunInv, hpc] at hi
      obtain ⟨i1, i2, i3⟩ := hi
      simp only [hpc, Option.some.injEq] at h; subst h
      refine .inl ⟨i2, ?_⟩
      intro p
      dsimp only
      rw [Dict.get?_del]
      split
      · rename_i hp; rw [← hp, i1]
      · rename_i hp; exact i3 p hp
    | finished => simp [hpc] at h
    | raised => simp [hpc] at h
  | choose r =>
    simp only [step] at h
    cases hpc : st.pc with
    | entering a =>
      simp only [RunInv, hpc] at hi
      obtain ⟨rfl, i2, i3, i4, i5⟩ := hi
      simp only [hpc] at h
      split at h
      · rename_i hf
        simp only [Fits, Bool.and_eq_true, Bool.not_eq_true', Option.isNone_iff_eq_none] at hf
        obtain ⟨⟨⟨hf1, hf4⟩, hf2⟩, hf3⟩ := hf
        rw [Option.some.injEq] at h; subst h
        simp only [RunInv, if_true]
        refine ⟨by omega, Dict.wf_set _ (i3 ▸ h0) _ _, i5, i2, by simpa using hf4, by rw [← i3]; exact hf2,
          by rw [← i4]; exact hf3, hf1, ?_, ?_⟩
        · intro n; dsimp only; rw [Dict.get?_set, i3]; rfl
        · intro p; dsimp only; rw [i4]
          split
          · rename_i hp; rw [← hp, ← i4, hf3]; rfl
          · rfl
      · cases h
    | _ => simp [hpc] at h
  | raises =>
    simp only [step] at h
    cases hpc : st.pc with
    | entering a =>
      simp only [RunInv, hpc] at hi
      obtain ⟨-, -, i3, i4, -⟩ := hi
      simp only [hpc, Option.some.injEq] at h; subst h
      exact .inl ⟨fun n => by dsimp only; rw [i3], fun p => by dsimp only; rw [i4]⟩
    | body r k =>
      simp only [RunInv, hpc] at hi
      simp only [hpc, Option.some.injEq] at h; subst h
      exact ⟨k, hi.1, hi.2, hi.3, hi.4, hi.5, hi.6, hi.7, hi.8, hi.9, hi.10⟩
    | dead r k => simp [RunInv, hpc] at hi
    | zombie r => simp [RunInv, hpc] at hi
    | default =>
      simp only [RunInv, hpc] at hi
      simp only [hpc, Option.some.injEq] at h; subst h
      obtain ⟨r, nm, hd⟩ := hi
      exact .inr ⟨r, nm, hd.1, hd.2, hd.3, hd.4, hd.5⟩
    | _ => simp [hpc] at h

theorem run_inv {cfg : Cfg D} (hb : NoBrace cfg.base) {st0 st st' : St D} (h0 : Dict.WF st0.procs)
    (hl0 : st0.locked = none) {ls : List (Label D)} (hc : ∀ l ∈ ls, Calm l) (hi : RunInv cfg st0 st)
    (h : steps cfg st ls = some st') : RunInv cfg st0 st' := by
  induction ls generalizing st with
  | nil => simp only [steps, Option.some.injEq] at h; subst h; exact hi
  | cons l ls ih =>
    simp only [steps] at h
    cases hs : step cfg st l with
    | none => simp [hs] at h
    | some s =>
      simp only [hs] at h
      exact ih (fun l hl => hc l (List.mem_cons_of_mem _ hl))
        (run_step hb h0 hl0 (hc l List.mem_cons_self) hi hs) h

/-- **C18.**  A run without signals and interference, whatever raises, ends either with everything
as it was, or with exactly one new process, complete and at a name that was free, and its directory. -/
theorem all_or_nothing_partial {cfg : Cfg D} (hb : NoBrace cfg.base) {st0 st : St D} (h0 : Dict.WF st0.procs)
    (hl0 : st0.locked = none) (hs : st0.pc = .start) {ls : List (Label D)} (hc : ∀ l ∈ ls, Calm l)
    (h : steps cfg st0 ls = some st) (he : st.pc = .finished ∨ st.pc = .raised) :
    Unchanged st0 st ∨ ∃ r nm, Done cfg st0 st r nm := by
  have := run_inv hb h0 hl0 hc (st := st0) (by simp only [RunInv, hs]) h
  rcases he with he | he <;> simpa only [RunInv, he] using this

/-- **C18.**  An exception of the body, after any number of writes, leaves the file and the
directory exactly as they were before the run (and `run` returns normally). -/
theorem body_exception {cfg : Cfg D} (hb : NoBrace cfg.base) {st0 st : St D} (h0 : Dict.WF st0.procs)
    (hl0 : st0.locked = none) (hs : st0.pc = .start) {ls : List (Label D)} (hc : ∀ l ∈ ls, Calm l)
    (h : steps cfg st0 ls = some st) {r : Str} {k : Nat} (hpc : st.pc = .body r k) :
    ∃ st', steps cfg st [.raises, .go, .go] = some st' ∧ st'.pc = .finished ∧ Unchanged st0 st' := by
  have hi := run_inv hb h0 hl0 hc (st := st0) (by simp only [RunInv, hs]) h
  have hrun : steps cfg st [.raises, .go, .go] = some
      { st with procs := Dict.del st.procs r, dirs := Dict.del st.dirs [r], pc := .finished } := by
    simp [steps, step, hpc, go]
  refine ⟨_, hrun, rfl, ?_⟩
  simp only [RunInv, hpc] at hi
  refine ⟨fun n => ?_, fun p => ?_⟩
  · dsimp only; rw [Dict.get?_del, hi.procs]
    split
    · rename_i hn; rw [← hn, hi.freeP]
    · rfl
  · dsimp only; rw [Dict.get?_del, hi.dirs]
    split
    · rename_i hn; rw [← hn, hi.freeD]
    · rfl

theorem steps_append (cfg : Cfg D) (st : St D) (a b : List (Label D)) :
    steps cfg st (a ++ b) = (steps cfg st a).bind fun s => steps cfg s b := by
  induction a generalizing st with
  | nil => rfl
  | cons l a ih =>
    simp only [List.cons_append, steps]
    cases step cfg st l with
    | none => rfl
    | some s => exact ih s

theorem steps_two {cfg : Cfg D} {a b c : St D} {l m : Label D} (h1 : step cfg a l = some b)
    (h2 : step cfg b m = some c) : steps cfg a [l, m] = some c := by
  simp only [steps, h1, h2]

/-- the writes of the body -/
theorem body_runs {cfg : Cfg D} {st0 st : St D} {r : Str} {k : Nat} (hd : During cfg st0 st r k)
    (hpc : st.pc = .body r k) : ∃ st', steps cfg st (List.replicate (cfg.body.length - k) .go) = some st' ∧
      st'.pc = .body r cfg.body.length ∧ During cfg st0 st' r cfg.body.length := by
  obtain ⟨m, hm⟩ : ∃ m, m = cfg.body.length - k := ⟨_, rfl⟩
  rw [← hm]
  induction m generalizing st k with
  | zero =>
    have : k = cfg.body.length := by have := hd.le; omega
    subst this
    exact ⟨st, rfl, hpc, hd⟩
  | succ m ih =>
    have hk : k < cfg.body.length := by omega
    have ho := List.getElem?_eq_getElem hk
    have hstep : step cfg st .go = some { write st r cfg.body[k] with pc := .body r (k + 1) } := by
      simp [step, go, hpc, ho]
    obtain ⟨st', h1, h2, h3⟩ := ih (hd.write ho (.body r (k + 1))) rfl (by omega)
    refine ⟨st', ?_, h2, h3⟩
    rw [List.replicate_succ]
    simp only [steps, hstep]
    exact h1

/-- **C18.**  If nothing raises then the result is there at the end: from any point of the body the
run ends with the complete process at its name. -/
theorem success {cfg : Cfg D} (hb : NoBrace cfg.base) {st0 st : St D} (h0 : Dict.WF st0.procs)
    (hl0 : st0.locked = none) (hs : st0.pc = .start) {ls : List (Label D)} (hc : ∀ l ∈ ls, Calm l)
    (h : steps cfg st0 ls = some st) {r : Str} {k : Nat} (hpc : st.pc = .body r k) :
    ∃ st' nm, steps cfg st (List.replicate (cfg.body.length - k) .go ++ [.go, .go, .go, .go, .go]) = some st' ∧
      st'.pc = .finished ∧ Done cfg st0 st' r nm := by
  have hi := run_inv hb h0 hl0 hc (st := st0) (by simp only [RunInv, hs]) h
  simp only [RunInv, hpc] at hi
  obtain ⟨s1, e1, p1, d1⟩ := body_runs hi hpc
  rw [steps_append, e1, Option.bind_some]
  have hrun1 : RunInv cfg st0 s1 := by simp only [RunInv, p1]; exact d1
  -- naming
  have t1 : step cfg s1 .go = some { s1 with pc := .naming r } := by
    simp [step, go, p1]
  have r1 := run_step hb h0 hl0 Calm.go hrun1 t1
  -- asking for the name
  have t2 : step cfg { s1 with pc := .naming r } .go =
      some { s1 with pc := .toRename r (outputName cfg s1.procs s1.locked) } := by simp [step, go]
  have r2 := run_step hb h0 hl0 Calm.go r1 t2
  -- renaming
  obtain ⟨x, s, f1, f2, f3⟩ := pattern_fresh hb s1.procs
  have hnm : outputName cfg s1.procs s1.locked = s := by
    simp only [outputName, d1.locked, d1.noOutput, f1]
  rw [hnm] at t2 r2
  have hr : Dict.get? s1.procs r = some cfg.result := by
    rw [d1.procs, if_pos rfl, List.take_length]; rfl
  have t3 : step cfg { s1 with pc := .toRename r s } .go =
      some { s1 with procs := Dict.set (Dict.del s1.procs r) s cfg.result, locked := some s, pc := .moving r s } := by
    simp [step, go, (Dict.get?_none _ _).2 f2, hr]
  have r3 := run_step hb h0 hl0 Calm.go r2 t3
  -- moving
  obtain ⟨s4, t4, p4⟩ : ∃ s4, step cfg { s1 with procs := Dict.set (Dict.del s1.procs r) s cfg.result, locked := some s, pc := .moving r s } .go = some s4 ∧ s4.pc = .default ∧
        (∀ n, Dict.get? s4.dirs n = if fileData cfg.body ≠ [] ∧ destination cfg st0.dirs r s = n
          then some (fileData cfg.body) else Dict.get? st0.dirs n) ∧
        s4.procs = Dict.set (Dict.del s1.procs r) s cfg.result ∧ s4.locked = some s := by
    have hne : [r] ≠ [cfg.entry ++ '_' :: s] := by
      intro he; apply d1.under; simp only [List.cons.injEq, and_true] at he; rw [he]; simp
    have hdest : destination cfg s1.dirs r s = destination cfg st0.dirs r s := by
      unfold destination; rw [d1.dirs, if_neg hne]
    have hdr : [r] ≠ destination cfg st0.dirs r s := by
      unfold destination; split
      · simp
      · exact hne
    have hdirs := d1.dirs [r]; rw [if_pos rfl, List.take_length] at hdirs
    by_cases hf : fileData cfg.body = []
    · refine ⟨{ s1 with procs := Dict.set (Dict.del s1.procs r) s cfg.result, locked := some s, pc := .default }, ?_, rfl, ?_, rfl, rfl⟩
      · simp [step, go, hdirs, hf]
      · intro p
        dsimp only
        rw [d1.dirs, List.take_length]
        simp only [hf, if_true, ne_eq, not_true_eq_false, false_and, if_false]
        split
        · rename_i hp; rw [← hp, d1.freeD]
        · rfl
    · refine ⟨{ s1 with procs := Dict.set (Dict.del s1.procs r) s cfg.result, dirs := Dict.set (Dict.del s1.dirs [r]) (destination cfg s1.dirs r s) (fileData cfg.body), locked := some s, pc := .default }, ?_, rfl, ?_, rfl, rfl⟩
      · simp [step, go, hdirs, hf]
      · intro p
        dsimp only
        rw [hdest, Dict.get?_set, Dict.get?_del]
        by_cases hp : destination cfg st0.dirs r s = p
        · simp [hp, hf]
        · have hp2 : ¬ (fileData cfg.body ≠ [] ∧ destination cfg st0.dirs r s = p) := fun h => hp h.2
          rw [if_neg hp, if_neg hp2]
          split
          · rename_i hrp; rw [← hrp, d1.freeD]
          · rename_i hrp; rw [d1.dirs, if_neg hrp]
  obtain ⟨p4, p5, p6, p7⟩ := p4
  have t5 : step cfg s4 .go = some { s4 with pc := .finished } := by simp [step, go, p4]
  refine ⟨{ s4 with pc := .finished }, s, ?_, rfl, ?_⟩
  · simp only [steps, t1, t2, t3, t4, t5]
  · simp only [RunInv] at r3
    exact ⟨r3.1, r3.2.1, fun n => by dsimp only; rw [p6]; exact r3.2.2.2.2.2.1 n, p5, p7⟩

/-! ## repeated runs -/

/-- **C18.**  If the file has a process with a matching name and the checksum of the task, then a
run of a new task object does nothing: it finishes in one step and no other step of the task can
happen. -/
theorem answered_not_run {cfg : Cfg D} (hb : NoBrace cfg.base) {st : St D} (hs : st.pc = .start)
    (hl : st.locked = none) {n : Str} {x : Cell D} (hx : Dict.get? st.procs n = some x)
    (hm : matchName cfg.pattern n = true) (hsum : x.hasSum cfg.csum = true) :
    step cfg st .go = some { st with cache := true, pc := .finished } ∧
      ∀ l, Calm l → l ≠ .go → step cfg st l = none := by
  constructor
  · have : outputExists cfg st.procs st.locked = true := by
      rw [hl, outputExists_none hb]
      cases hf : findOutput cfg st.procs with
      | some n => rfl
      | none =>
        have := findOutput_none_iff.1 hf (n, x) (Dict.get?_mem hx) hm
        rw [hsum] at this; cases this
    simp [step, go, hs, this]
  · intro l hc hne
    cases hc with
    | go => exact absurd rfl hne
    | choose r => simp [step, hs]
    | raises => simp [step, hs]

/-- **C18.**  A new task object is skipped only if there is a process with a matching name and exactly
its checksum: the result of another task, or a process without checksum, does not count. -/
theorem skipped_only_if_done {cfg : Cfg D} (hb : NoBrace cfg.base) {st st' : St D} (hs : st.pc = .start)
    (hw : Dict.WF st.procs) (hl : st.locked = none) (hc : st.cache = false)
    (h : step cfg st .go = some st') (he : st'.pc = .finished) :
    ∃ n data, Dict.get? st.procs n = some (.proc (some cfg.csum) data) ∧ matchName cfg.pattern n = true := by
  simp only [step, go, hs, hc, hl, outputExists_none hb, Bool.false_or] at h
  split at h
  · rename_i hf
    obtain ⟨n, hn⟩ := Option.isSome_iff_exists.1 hf
    simp only [findOutput, Option.map_eq_some_iff] at hn
    obtain ⟨⟨a, x⟩, h1, rfl⟩ := hn
    have h2 := List.find?_some h1
    have h3 := Dict.get?_of_mem hw (List.mem_of_find?_eq_some h1)
    simp only [Bool.and_eq_true] at h2
    refine ⟨a, ?_⟩
    cases x with
    | other => simp [Cell.hasSum] at h2
    | proc s data =>
      cases s with
      | none => simp [Cell.hasSum] at h2
      | some s =>
        simp only [Cell.hasSum, decide_eq_true_eq] at h2
        obtain ⟨h2, rfl⟩ := h2
        exact ⟨data, h3, h2⟩
  · rw [Option.some.injEq] at h; subst h; cases he

theorem result_hasSum (cfg : Cfg D) : cfg.result.hasSum cfg.csum = true := by
  simp [Cfg.result, Cell.hasSum]

/-- **C18.**  A second run of the same task, or of an equal one, does not compute again. -/
theorem second_run {cfg : Cfg D} (hb : NoBrace cfg.base) {st0 st : St D} {r nm : Str}
    (hd : Done cfg st0 st r nm) (he : st.pc = .finished ∨ st.pc = .raised) (same : Bool) :
    ∃ st', steps cfg st [.again same, .go] = some st' ∧ st'.pc = .finished ∧ st'.procs = st.procs ∧
      st'.dirs = st.dirs := by
  have hnm : Dict.get? st.procs nm = some cfg.result := by rw [hd.procs, if_pos rfl]
  have h1 : step cfg st (.again same) = some { st with pc := .start, cache := same && st.cache, locked := if same then st.locked else none } := by
    rcases he with he | he <;> simp [step, he]
  cases same with
  | false =>
    have h2 := (answered_not_run hb (st := { st with pc := .start, cache := false && st.cache, locked := if false then st.locked else none }) rfl (by simp) hnm hd.fits (result_hasSum cfg)).1
    exact ⟨_, steps_two h1 h2, rfl, rfl, rfl⟩
  | true =>
    have h2 : step cfg { st with pc := .start, cache := true && st.cache, locked := if true then st.locked else none } .go =
        some { st with pc := .finished, cache := true, locked := st.locked } := by
      simp [step, go, hd.locked, outputExists, outputName, hnm]
    exact ⟨_, steps_two h1 h2, rfl, rfl, rfl⟩

/-! ## deviations -/

/-- **C18 (deviation).**  A kill between renaming the process and moving its directory leaves a
result without its directory, which no later run repairs. -/
theorem killed_before_move {cfg : Cfg D} (hb : NoBrace cfg.base) {st0 st : St D} (h0 : Dict.WF st0.procs)
    (hl0 : st0.locked = none) (hs : st0.pc = .start) {ls : List (Label D)} (hc : ∀ l ∈ ls, Calm l)
    (h : steps cfg st0 ls = some st) {r nm : Str} (hpc : st.pc = .moving r nm) (hf : fileData cfg.body ≠ []) :
    ∃ st', steps cfg st [.kill, .go] = some st' ∧ st'.pc = .finished ∧
      Dict.get? st'.procs nm = some cfg.result ∧ Dict.get? st'.dirs [r] = some (fileData cfg.body) ∧
      Dict.get? st'.dirs (destination cfg st0.dirs r nm) = Dict.get? st0.dirs (destination cfg st0.dirs r nm) := by
  have hi := run_inv hb h0 hl0 hc (st := st0) (by simp only [RunInv, hs]) h
  simp only [RunInv, hpc] at hi
  obtain ⟨i1, i2, i3, i4, i5, i6, i7⟩ := hi
  have hnm : Dict.get? st.procs nm = some cfg.result := by rw [i6, if_pos rfl]
  have h2 := (answered_not_run hb (st := { st with pc := .start, cache := false, locked := none }) rfl rfl hnm i2
    (result_hasSum cfg)).1
  have hne : [r] ≠ destination cfg st0.dirs r nm := by
    unfold destination
    split
    · simp
    · intro he; apply i3; simp only [List.cons.injEq, and_true] at he; rw [he]; simp
  have h1 : step cfg st .kill = some { st with pc := .start, cache := false, locked := none } := rfl
  refine ⟨_, steps_two h1 h2, rfl, hnm, ?_, ?_⟩
  · dsimp only; rw [i7, if_pos rfl, if_neg hf]
  · dsimp only; rw [i7, if_neg hne]

/-- **C18 (deviation).**  A signal at that point deletes the directory: the result stays without. -/
theorem signal_before_move {cfg : Cfg D} (hb : NoBrace cfg.base) {st0 st : St D} (h0 : Dict.WF st0.procs)
    (hl0 : st0.locked = none) (hs : st0.pc = .start) {ls : List (Label D)} (hc : ∀ l ∈ ls, Calm l)
    (h : steps cfg st0 ls = some st) {r nm : Str} (hpc : st.pc = .moving r nm) (hrn : r ≠ nm) :
    ∃ st', steps cfg st [.signal] = some st' ∧ st'.pc = .raised ∧
      Dict.get? st'.procs nm = some cfg.result ∧ ∀ p, Dict.get? st'.dirs p = Dict.get? st0.dirs p := by
  have hi := run_inv hb h0 hl0 hc (st := st0) (by simp only [RunInv, hs]) h
  simp only [RunInv, hpc] at hi
  obtain ⟨i1, i2, i3, i4, i5, i6, i7⟩ := hi
  have h1 : steps cfg st [.signal] = some { removeTemp st r with pc := .raised } := by
    simp only [steps, step, hpc]
  refine ⟨_, h1, rfl, ?_, ?_⟩
  · simp only [removeTemp]; rw [Dict.get?_del, if_neg hrn, i6, if_pos rfl]
  · intro p; simp only [removeTemp]; rw [Dict.get?_del]
    split
    · rename_i hp; rw [← hp, i5]
    · rename_i hp; rw [i7, if_neg hp]

/-- **C18 (deviation).**  An exception or a kill while the temporary process is created leaves it in
the file: nothing removes it. -/
theorem setup_failure {cfg : Cfg D} {st : St D} (hpc : st.pc = .entering true) {r : Str}
    (hf : Fits cfg st r = true) :
    ∃ st', step cfg st (.chooseFails r) = some st' ∧ st'.pc = .raised ∧
      Dict.get? st'.procs r = some (.proc none []) :=
  ⟨{ st with procs := Dict.set st.procs r (.proc none []), pc := .raised }, by simp only [step, hpc, hf, if_true],
    rfl, by dsimp only; rw [Dict.get?_set, if_pos rfl]⟩

/-- **C18 (deviation).**  A signal during the setup: the body runs to its end and `run` returns, but
the result stays under its temporary name and the output is not there. -/
theorem signal_in_setup {cfg : Cfg D} {st : St D} (hpc : st.pc = .entering true) {r : Str} {n : Str}
    (hf : Fits cfg st r = true) (hn : Dict.get? st.procs n = none) (hrn : r ≠ n) :
    ∃ st', steps cfg st (.signal :: .choose r :: List.replicate (cfg.body.length + 1) .go) = some st' ∧
      st'.pc = .finished ∧ Dict.get? st'.procs r = some cfg.result ∧ Dict.get? st'.procs n = none := by
  have key : ∀ m (s : St D), m ≤ cfg.body.length → s.pc = .dead r (cfg.body.length - m) →
      Dict.get? s.procs r = some (.proc (some cfg.csum) (h5Data (cfg.body.take (cfg.body.length - m)))) →
      Dict.get? s.procs n = none →
      ∃ s', steps cfg s (List.replicate (m + 1) .go) = some s' ∧ s'.pc = .finished ∧
        Dict.get? s'.procs r = some cfg.result ∧ Dict.get? s'.procs n = none := by
    intro m
    induction m with
    | zero =>
      intro s _ h1 h2 h3
      refine ⟨{ s with pc := .finished }, ?_, rfl, ?_, h3⟩
      · simp [steps, step, go, h1]
      · dsimp only; rw [h2, Nat.sub_zero, List.take_length]; rfl
    | succ m ih =>
      intro s hm h1 h2 h3
      have hk : cfg.body.length - (m + 1) < cfg.body.length := by omega
      have ho := List.getElem?_eq_getElem hk
      have hstep : step cfg s .go = some { write s r cfg.body[cfg.body.length - (m + 1)] with pc := .dead r (cfg.body.length - (m + 1) + 1) } := by
        simp only [step, go, h1]; rw [ho]
      have e : cfg.body.length - (m + 1) + 1 = cfg.body.length - m := by omega
      rw [List.replicate_succ]
      simp only [steps, hstep]
      refine ih _ (by omega) (by rw [e]) ?_ ?_
      · dsimp only; rw [write_h5 h2, if_pos rfl, ← e, take_succ ho, h5Data_append]
      · dsimp only; rw [write_h5 h2, if_neg hrn, h3]
  have h1 : step cfg st .signal = some { st with pc := .entering false } := by simp [step, hpc]
  have h2 : step cfg { st with pc := .entering false } (.choose r) =
      some { st with procs := Dict.set st.procs r (.proc (some cfg.csum) []), pc := .dead r 0 } := by
    have : Fits cfg { st with pc := .entering false } r = true := hf
    simp [step, this]
  simp only [steps, h1, h2]
  refine key cfg.body.length _ (Nat.le_refl _) (by simp) ?_ ?_
  · dsimp only; rw [Dict.get?_set, if_pos rfl, Nat.sub_self]; rfl
  · dsimp only; rw [Dict.get?_set, if_neg hrn, hn]

/-- **C18 (deviation).**  An exception of `set_default` comes after the result is in place: `run`
raises although the task is done. -/
theorem default_raises {cfg : Cfg D} {st : St D} (hpc : st.pc = .default) :
    ∃ st', step cfg st .raises = some st' ∧ st'.pc = .raised ∧ st'.procs = st.procs ∧ st'.dirs = st.dirs :=
  ⟨{ st with pc := .raised }, by simp only [step, hpc], rfl, rfl, rfl⟩

/-- **C18 (deviation).**  A task object that has seen its output never looks again: after somebody
deletes the output, a run does nothing. -/
theorem stale_cache {cfg : Cfg D} {st : St D} (hpc : st.pc = .finished) (hc : st.cache = true) (n : Str) :
    ∃ st', steps cfg st [.delete n, .again true, .go] = some st' ∧ st'.pc = .finished ∧
      Dict.get? st'.procs n = none := by
  refine ⟨{ st with procs := Dict.del st.procs n, cache := true }, ?_, hpc, ?_⟩
  · simp [steps, step, go, hpc, hc, Pc.temp]
  · dsimp only; rw [Dict.get?_del, if_pos rfl]

/-- **C18 (deviation).**  When the directory of the output already exists, the new directory is put
inside it, under its temporary name. -/
theorem nested_directory (cfg : Cfg D) (dirs : Dict (List Str) (List D)) (r nm : Str) (l : List D)
    (h : Dict.get? dirs [cfg.entry ++ '_' :: nm] = some l) :
    destination cfg dirs r nm = [cfg.entry ++ '_' :: nm, r] := by
  simp [destination, h]

/-- **C18 (deviation).**  The temporary process of a run that was killed is taken for the temporary
process of a new run when the two random names differ in their last number only: the run then writes
into it, with what is already there. -/
theorem leftover_reused : ∃ (file : File) (p : Proc),
    file.at ['e'] "abcd12".toList = some (.proc p) ∧ p.stored = some ['c'] ∧
    findLoop Hashing.toy "abcd77".toList ['c'] (iterProcs file (some ['e']) true) =
      some (some (['e'], "abcd12".toList)) :=
  ⟨[(['e'], [("abcd12".toList, .proc ⟨some ['c'], [], none, 1⟩)])], ⟨some ['c'], [], none, 1⟩, rfl, rfl, by decide⟩

/-! ## test cases -/

/-- a task with two writes, in a file with a result of another task and a partial leftover -/
def cfgX : Cfg Nat := ⟨['p'], ['c'], ['e'], [.h5 1, .file 2, .h5 3]⟩
def stX : St Nat := ⟨[("p.1".toList, .proc (some ['d']) [7]), (['k'], .proc (some ['c']) [1])], [], .start, false, none⟩

example : (steps cfgX stX [.go, .choose ['t'], .go, .go, .go, .go, .go, .go, .go, .go]).map (fun s => (s.procs, s.dirs)) =
    some ([("p.1".toList, .proc (some ['d']) [7]), (['k'], .proc (some ['c']) [1]), ("p.2".toList, .proc (some ['c']) [1, 3])],
      [([['e', '_', 'p', '.', '2']], [2])]) := by decide
example : (steps cfgX stX [.go, .choose ['t'], .go, .go, .raises, .go, .go]).map (fun s => (s.procs, s.dirs)) =
    some (stX.procs, []) := by decide
example : (steps cfgX stX [.go, .choose ['t'], .go, .signal, .zombieWrites, .go]).map (fun s => (s.procs, s.dirs)) =
    some (stX.procs ++ [(['t'], .other)], []) := by decide
example : (steps cfgX stX [.go, .choose ['t'], .go, .go, .go, .go, .go, .add "p.2".toList (.proc (some ['c']) [1, 3]),
    .go, .go]).map (fun s => (s.procs, s.dirs)) =
    some (stX.procs ++ [("p.2".toList, .proc (some ['c']) [1, 3])], []) := by decide
example : TempInv cfgX stX := trivial
example : NoBrace cfgX.base := by unfold NoBrace; decide
example : Dict.WF stX.procs := by unfold Dict.WF; decide

end SC.Process
