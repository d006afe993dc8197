import Verif.TextLog.Model
import Mathlib.Tactic.Ring
/-! # C94: logs, images and stacks of images -/
namespace SC.TextLog

/-- Lines, each with its end. -/
def unlines (ls : List Str) : Str := ls.flatMap fun l => l ++ ['\n']

/-- Text without ends of lines. -/
def NoEnd (l : Str) : Prop := '\n' ∉ l ∧ '\r' ∉ l

theorem splitLines_ne (s : Str) : splitLines s ≠ [] := by
  induction s with
  | nil => simp [splitLines]
  | cons c s ih =>
    simp only [splitLines]
    split
    · split
      · exact ih
      · simp
    · split
      · simp
      · unfold consHead; split <;> simp

theorem consHead_mem {c : Char} {ls : List Str} {l : Str} (h : l ∈ consHead c ls) (hl : ∀ l ∈ ls, NoEnd l) (h1 : c ≠ '\n') (h2 : c ≠ '\r') :
    NoEnd l := by
  cases ls with
  | nil =>
    simp only [consHead, List.mem_singleton] at h
    subst h
    exact ⟨by simp [h1.symm], by simp [h2.symm]⟩
  | cons a ls =>
    simp only [consHead, List.mem_cons] at h
    rcases h with rfl | h
    · have := hl a List.mem_cons_self
      exact ⟨by simp [h1.symm, this.1], by simp [h2.symm, this.2]⟩
    · exact hl l (List.mem_cons_of_mem _ h)

/-- No line contains an end of line. -/
theorem lines_clean (s : Str) : ∀ l ∈ splitLines s, NoEnd l := by
  have hnil : NoEnd [] := ⟨by simp, by simp⟩
  induction s with
  | nil => intro l hl; simp only [splitLines, List.mem_singleton] at hl; subst hl; exact hnil
  | cons c s ih =>
    intro l hl
    simp only [splitLines] at hl
    split at hl
    · split at hl
      · exact ih l hl
      · rcases List.mem_cons.mp hl with rfl | hl
        · exact hnil
        · exact ih l hl
    · rename_i h2
      split at hl
      · rcases List.mem_cons.mp hl with rfl | hl
        · exact hnil
        · exact ih l hl
      · rename_i h1
        exact consHead_mem hl ih h1 h2

theorem split_plain (l rest : Str) (hl : NoEnd l) : splitLines (l ++ rest) = match splitLines rest with
    | [] => [l]
    | a :: as => (l ++ a) :: as := by
  induction l with
  | nil =>
    rw [List.nil_append]
    cases h : splitLines rest with
    | nil => exact absurd h (splitLines_ne rest)
    | cons a as => rfl
  | cons c l ih =>
    have hc1 : c ≠ '\n' := fun e => hl.1 (by simp [e])
    have hc2 : c ≠ '\r' := fun e => hl.2 (by simp [e])
    have := ih ⟨fun h => hl.1 (List.mem_cons_of_mem _ h), fun h => hl.2 (List.mem_cons_of_mem _ h)⟩
    rw [List.cons_append, splitLines]
    simp only [hc1, hc2, if_false]
    rw [this]
    cases h : splitLines rest with
    | nil => exact absurd h (splitLines_ne rest)
    | cons a as => rfl

/-- Lines with any of the three ends are found again. -/
theorem lines_found (sep : Str) (hsep : sep = ['\n'] ∨ sep = ['\r'] ∨ sep = ['\r', '\n']) (ls : List Str) (hne : ls ≠ [])
    (hl : ∀ l ∈ ls, NoEnd l) : splitLines (join sep ls) = ls := by
  induction ls with
  | nil => exact absurd rfl hne
  | cons l ls ih =>
    have h0 := hl l List.mem_cons_self
    cases ls with
    | nil =>
      have := split_plain l [] h0
      simp only [List.append_nil] at this
      simp [join, this, splitLines]
    | cons a as =>
      have ih' := ih (by simp) fun l h => hl l (List.mem_cons_of_mem _ h)
      have hs : splitLines (sep ++ join sep (a :: as)) = [] :: splitLines (join sep (a :: as)) := by
        rcases hsep with rfl | rfl | rfl
        · simp [splitLines]
        · cases hj : join ['\r'] (a :: as) with
          | nil => simp [splitLines]
          | cons d s' =>
            have hd : d ≠ '\n' := by
              intro e
              subst e
              cases a with
              | nil =>
                cases as with
                | nil => simp [join] at hj
                | cons b bs => simp [join] at hj
              | cons x a =>
                have hx : x = '\n' := by cases as <;> simp [join] at hj <;> exact hj.1
                exact (hl (x :: a) (by simp)).1 (by simp [hx])
            rw [List.singleton_append, splitLines]
            simp [hd]
        · simp [splitLines]
      have e : join sep (l :: a :: as) = l ++ (sep ++ join sep (a :: as)) := by simp [join]
      rw [e, split_plain _ _ h0, hs, ih']
      simp

theorem join_unlines (ls : List Str) (h : ls ≠ []) : join ['\n'] ls ++ ['\n'] = unlines ls := by
  induction ls with
  | nil => exact absurd rfl h
  | cons l ls ih =>
    cases ls with
    | nil => simp [join, unlines]
    | cons a as =>
      have := ih (by simp)
      simp only [join, unlines, List.flatMap_cons, List.append_assoc] at this ⊢
      rw [this]

/-- The indented lines of all messages. -/
def allLines (width : Nat) (msgs : List (Str × Nat)) : List Str :=
  msgs.flatMap fun m => (splitLines m.1).map fun l => List.replicate (width * m.2) ' ' ++ l

/-- The file gets all lines after what it had, or only these; the same lines are printed. -/
theorem session_spec (width : Nat) (mode : Mode) (old : Option Str) (msgs : List (Str × Nat)) :
    session width true mode old msgs = (some ((match mode with | .write => [] | .append => old.getD []) ++
      unlines (allLines width msgs)), allLines width msgs) ∧
    session width false mode old msgs = (none, allLines width msgs) := by
  have key : ∀ (f : Option Str) (p : List Str), msgs.foldl (fun st m => log width st m.1 m.2) (f, p) =
      (f.map fun c => c ++ unlines (allLines width msgs), p ++ allLines width msgs) := by
    induction msgs with
    | nil => intro f p; cases f <;> simp [allLines, unlines]
    | cons m msgs ih =>
      intro f p
      rw [List.foldl_cons]
      have e : log width (f, p) m.1 m.2 = (f.map fun c => c ++ unlines ((splitLines m.1).map fun l => List.replicate (width * m.2) ' ' ++ l),
          p ++ (splitLines m.1).map fun l => List.replicate (width * m.2) ' ' ++ l) := by
        unfold log logLines writeLines indent
        simp only
        rw [join_unlines]
        simp [splitLines_ne]
      rw [e, ih]
      cases f <;> simp [allLines, unlines]
  unfold session
  constructor
  · rw [key]; cases mode <;> simp [enter]
  · rw [key]; simp [enter]

/-- No lines still give an empty line in the file. -/
theorem no_lines (c : Str) : writeLines (some c) [] = some (c ++ ['\n']) := rfl

/-- An image is only written over an existing file when that is asked for; other files are unchanged. -/
theorem save_spec {Img : Type} (files : Py.Dict Str Img) (name : Str) (img : Img) (overwrite writes : Bool) :
    ((saveEdf files name img overwrite writes).1 = true ↔ (overwrite = true ∨ Py.Dict.get? files name = none) ∧ writes = true) ∧
    ((saveEdf files name img overwrite writes).1 = true → Py.Dict.get? (saveEdf files name img overwrite writes).2 name = some img) ∧
    (overwrite = false → (Py.Dict.get? files name).isSome → (saveEdf files name img overwrite writes).2 = files) ∧
    (∀ other, other ≠ name → Py.Dict.get? (saveEdf files name img overwrite writes).2 other = Py.Dict.get? files other) := by
  have hf : ∀ other, other ≠ name → Py.Dict.get? (files.filter fun p => p.1 ≠ name) other = Py.Dict.get? files other := by
    intro other ho
    induction files with
    | nil => rfl
    | cons p files ih =>
      by_cases h : p.1 = name
      · simp only [List.filter_cons, h, ne_eq, not_true_eq_false, decide_false, Bool.false_eq_true, if_false] at ih ⊢
        rw [ih]
        simp [Py.Dict.get?, h, ho.symm]
      · simp only [List.filter_cons, h, ne_eq, not_false_eq_true, decide_true, if_true] at ih ⊢
        simp only [Py.Dict.get?] at ih ⊢
        rw [ih]
  unfold saveEdf
  cases hg : Py.Dict.get? files name with
  | none =>
    cases writes
    · simp
    · simp only [if_true]
      refine ⟨by simp, fun _ => by rw [Py.Dict.get?_set]; simp, by simp, fun o ho => by rw [Py.Dict.get?_set, if_neg ho.symm]⟩
  | some v =>
    cases overwrite <;> cases writes
    · simp
    · simp
    · simp only [if_true]
      exact ⟨by simp, by simp, by simp, hf⟩
    · simp only [if_true]
      refine ⟨by simp, fun _ => by rw [Py.Dict.get?_set]; simp, by simp, fun o ho => by rw [Py.Dict.get?_set, if_neg ho.symm]; exact hf o ho⟩

/-- A failure to write loses the old image. -/
theorem save_loses {Img : Type} (files : Py.Dict Str Img) (name : Str) (img : Img) (h : (Py.Dict.get? files name).isSome) :
    (saveEdf files name img true false).1 = false ∧ Py.Dict.get? (saveEdf files name img true false).2 name = none := by
  unfold saveEdf
  cases hg : Py.Dict.get? files name with
  | none => simp [hg] at h
  | some v =>
    refine ⟨rfl, ?_⟩
    simp only [if_true, Bool.false_eq_true, if_false]
    clear hg h
    induction files with
    | nil => rfl
    | cons p files ih =>
      by_cases h : p.1 = name
      · simpa [List.filter_cons, h] using ih
      · simp only [List.filter_cons, h, ne_eq, not_false_eq_true, decide_true, if_true]
        simp only [Py.Dict.get?] at ih ⊢
        simp [h]
        simpa using ih

theorem splitDot_plain (l : Str) (hl : '.' ∉ l) : splitDot l = [l] := by
  induction l with
  | nil => rfl
  | cons c l ih =>
    have hc : c ≠ '.' := fun e => hl (by simp [e])
    simp [splitDot, hc, ih fun h => hl (List.mem_cons_of_mem _ h), consHead]

theorem splitDot_ne (s : Str) : splitDot s ≠ [] := by
  cases s with
  | nil => simp [splitDot]
  | cons c s =>
    simp only [splitDot]
    split
    · simp
    · unfold consHead; split <;> simp

theorem splitDot_last (s ext : Str) (hx : '.' ∉ ext) : splitDot (s ++ '.' :: ext) = splitDot s ++ [ext] := by
  induction s with
  | nil => simp [splitDot, splitDot_plain ext hx]
  | cons c s ih =>
    simp only [List.cons_append, splitDot]
    rw [ih]
    split
    · rfl
    · cases h : splitDot s with
      | nil => exact absurd h (splitDot_ne s)
      | cons a as => rfl

theorem join_splitDot (s : Str) : join ['.'] (splitDot s) = s := by
  induction s with
  | nil => rfl
  | cons c s ih =>
    simp only [splitDot]
    cases h : splitDot s with
    | nil => exact absurd h (splitDot_ne s)
    | cons a as =>
      rw [h] at ih
      split
      · rename_i e
        simp [join, ih, e]
      · cases as with
        | nil => simp only [join] at ih; simp [consHead, join, ih]
        | cons b bs => simp only [join] at ih; simp [consHead, join, ← ih]

theorem basename_of (dir name : Str) (hn : '/' ∉ name) : basename (dir ++ '/' :: name) = name := by
  unfold basename
  rw [List.reverse_append, List.reverse_cons, List.append_assoc, List.takeWhile_append_of_pos]
  · simp
  · intro c hc
    simp only [List.mem_reverse] at hc
    simp only [bne_iff_ne, ne_eq]
    exact fun e => hn (e ▸ hc)

/-- The label is the name of the file without directory and without extension. -/
theorem label_spec (dir stem ext : Str) (h1 : '/' ∉ stem) (h2 : '/' ∉ ext) (h3 : '.' ∉ ext) :
    label (dir ++ '/' :: (stem ++ '.' :: ext)) = stem := by
  unfold label
  rw [basename_of]
  · rw [splitDot_last _ _ h3, List.dropLast_concat, join_splitDot]
  · simp [h1, h2]

/-- Names without extension have no label. -/
theorem label_empty (dir name : Str) (h1 : '/' ∉ name) (h2 : '.' ∉ name) : label (dir ++ '/' :: name) = [] := by
  unfold label
  rw [basename_of _ _ h1, splitDot_plain _ h2]
  rfl

theorem mapM_get {α β : Type} (f : α → Option β) : ∀ (l : List α) (r : List β), l.mapM f = some r →
    r.length = l.length ∧ ∀ (i : Nat) (a : α), l[i]? = some a → ∃ b, f a = some b ∧ r[i]? = some b := by
  intro l
  induction l with
  | nil =>
    intro r h
    simp only [List.mapM_nil] at h
    cases h
    simp
  | cons a l ih =>
    intro r h
    rw [List.mapM_cons] at h
    cases hf : f a with
    | none => rw [hf] at h; cases h
    | some b =>
      rw [hf] at h
      cases hl : l.mapM f with
      | none => rw [hl] at h; cases h
      | some bs =>
        rw [hl] at h
        cases h
        obtain ⟨e, g⟩ := ih bs hl
        refine ⟨by simp [e], ?_⟩
        intro i x hx
        cases i with
        | zero => simp at hx; subst hx; exact ⟨b, hf, rfl⟩
        | succ i => simpa using g i x (by simpa using hx)

/-- The values are the images in the order of the files, all with the same shape. -/
theorem stack_spec {α : Type} (read : Str → Option (List (List α))) (files : List Str) (r : List (List (List α)))
    (h : stack read files = some r) : r ≠ [] ∧ r.length = files.length ∧
    (∀ (i : Nat) (f : Str), files[i]? = some f → ∃ im, read f = some im ∧ r[i]? = some im) ∧
    ∀ a ∈ r, ∀ b ∈ r, a.map List.length = b.map List.length := by
  unfold stack at h
  split at h
  · cases h
  · cases h
  · rename_i im ims hm
    split at h
    · rename_i hall
      cases h
      obtain ⟨e, g⟩ := mapM_get read files _ hm
      refine ⟨by simp, e, g, ?_⟩
      have hs : ∀ a ∈ im :: ims, a.map List.length = im.map List.length := by
        intro a ha
        rcases List.mem_cons.mp ha with rfl | ha
        · rfl
        · simpa using List.all_eq_true.mp hall a ha
      intro a ha b hb
      rw [hs a ha, hs b hb]
    · cases h

example : splitLines "a\r\nb\rc\n".toList = ["a".toList, "b".toList, "c".toList, []] := by decide +kernel
example : (session 4 true .append (some "x\n".toList) [("a\nb".toList, 1)]).1 = some "x\n    a\n    b\n".toList := by decide +kernel
example : label "/data/map.1.edf".toList = "map.1".toList := by decide +kernel
example : stack (fun _ => some [[1, 2]]) ["a".toList, "b".toList] = some [[[1, 2]], [[1, 2]]] := by decide +kernel
example : (saveEdf [("a".toList, 1)] "a".toList 2 true true) = (true, [("a".toList, 2)]) := by decide +kernel

end SC.TextLog
