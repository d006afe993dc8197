import Verif.Process.Lookup
import Verif.Naming.Props
import Verif.Hashing.Props
/-! # C19: process lookup is keyed by the parameters -/
namespace SC.Process
open SC.Py
open SC.Hashing (Bytes Val calchash mergehash Digest NoCollision canon height)
open SC.Naming (Str Name Outcome freshLoop matchName NoBrace)

variable {md5 : Bytes → Bytes}

/-! ## specification -/

/-- The process at an address. -/
def File.at (file : File) (e n : Str) : Option Node := (Dict.get? file e).bind fun x => Dict.get? x n

/-- Names are unique in the file and in its entries. -/
def File.WF (file : File) : Prop := Dict.WF file ∧ ∀ e x, (e, x) ∈ file → Dict.WF x

/-- The entries that a search visits. -/
def InScope (file : File) (here : Option Str) (all : Bool) (e : Str) : Prop :=
  all = false → ∀ h, here = some h → (Dict.get? file h).isSome → e = h

/-- A process of the file in the scope of the search. -/
def Visible (file : File) (here : Option Str) (all : Bool) (e n : Str) (p : Proc) : Prop :=
  file.at e n = some (.proc p) ∧ InScope file here all e

/-- The process answers the request with checksum `c`. -/
def Answers (md5 : Bytes → Bytes) (name : Str) (c : Bytes) (n : Str) (p : Proc) : Prop :=
  (name = [] ∨ matchName name n = true) ∧ p.checksum md5 = some (some c)

/-! ## lemmas -/

theorem mem_procsOf {e : Str} {entry : Entry} {x : Str × Str × Proc} :
    x ∈ procsOf e entry ↔ x.1 = e ∧ (x.2.1, Node.proc x.2.2) ∈ entry := by
  obtain ⟨a, n, p⟩ := x
  simp only [procsOf, List.mem_filterMap]
  constructor
  · rintro ⟨⟨m, node⟩, hm, h⟩
    cases node with
    | proc q => simp only [Option.some.injEq, Prod.mk.injEq] at h; obtain ⟨rfl, rfl, rfl⟩ := h; exact ⟨rfl, hm⟩
    | other => simp at h
  · rintro ⟨rfl, h⟩
    exact ⟨(n, .proc p), h, rfl⟩

theorem at_iff {file : File} (hw : file.WF) {e n : Str} {x : Node} :
    file.at e n = some x ↔ ∃ entry, (e, entry) ∈ file ∧ (n, x) ∈ entry := by
  simp only [File.at, Option.bind_eq_some_iff]
  constructor
  · rintro ⟨entry, h1, h2⟩; exact ⟨entry, Dict.get?_mem h1, Dict.get?_mem h2⟩
  · rintro ⟨entry, h1, h2⟩
    exact ⟨entry, Dict.get?_of_mem hw.1 h1, Dict.get?_of_mem (hw.2 _ _ h1) h2⟩

theorem mem_iterProcs {file : File} (hw : file.WF) {here : Option Str} {all : Bool} {e n : Str} {p : Proc} :
    (e, n, p) ∈ iterProcs file here all ↔ Visible file here all e n p := by
  have hall : (e, n, p) ∈ (file.flatMap fun x => procsOf x.1 x.2) ↔ file.at e n = some (.proc p) := by
    rw [at_iff hw]
    simp only [List.mem_flatMap, mem_procsOf]
    constructor
    · rintro ⟨⟨a, b⟩, h1, h2, h3⟩; dsimp only at h2; subst h2; exact ⟨b, h1, h3⟩
    · rintro ⟨b, h1, h2⟩; exact ⟨(e, b), h1, rfl, h2⟩
  unfold iterProcs Visible InScope
  cases all with
  | true => simp only [if_true, hall]; simp
  | false =>
    cases here with
    | none => simp only [Bool.false_eq_true, if_false, Option.bind_none, hall]; simp
    | some h =>
      simp only [Bool.false_eq_true, if_false, Option.bind_some]
      cases hg : Dict.get? file h with
      | none =>
        simp only [Option.map_none, hall]
        simp [hg]
      | some entry =>
        simp only [Option.map_some, mem_procsOf]
        constructor
        · rintro ⟨rfl, h2⟩
          refine ⟨(at_iff hw).2 ⟨entry, Dict.get?_mem hg, h2⟩, ?_⟩
          intro _ h hh _; exact Option.some.inj hh
        · rintro ⟨h1, h2⟩
          have he : e = h := by simpa [hg] using h2
          subst he
          simp only [File.at, hg, Option.bind_some] at h1
          exact ⟨rfl, Dict.get?_mem h1⟩

theorem nameMatch_iff (name n : Str) : nameMatch name n = true ↔ name = [] ∨ matchName name n = true := by
  unfold nameMatch; split <;> simp [*]

theorem findLoop_some {name : Str} {c : Bytes} {l : List (Str × Str × Proc)} {e n : Str}
    (h : findLoop md5 name c l = some (some (e, n))) : ∃ p, (e, n, p) ∈ l ∧ Answers md5 name c n p := by
  induction l with
  | nil => simp [findLoop] at h
  | cons x l ih =>
    obtain ⟨a, b, p⟩ := x
    simp only [findLoop] at h
    have tail : findLoop md5 name c l = some (some (e, n)) →
        ∃ q, (e, n, q) ∈ (a, b, p) :: l ∧ Answers md5 name c n q := fun h' =>
      let ⟨q, hq, hq'⟩ := ih h'; ⟨q, List.mem_cons_of_mem _ hq, hq'⟩
    split at h
    · rename_i hm
      cases hc : p.checksum md5 with
      | none => simp [hc] at h
      | some y =>
        simp only [hc] at h
        split at h
        · rename_i hy
          simp only [Option.some.injEq, Prod.mk.injEq] at h
          obtain ⟨rfl, rfl⟩ := h
          exact ⟨p, List.mem_cons_self, (nameMatch_iff _ _).1 hm, by rw [hc, hy]⟩
        · exact tail h
    · exact tail h

theorem findLoop_none {name : Str} {c : Bytes} {l : List (Str × Str × Proc)}
    (h : findLoop md5 name c l = some none) : ∀ x ∈ l, ¬ Answers md5 name c x.2.1 x.2.2 := by
  induction l with
  | nil => simp
  | cons x l ih =>
    obtain ⟨a, b, p⟩ := x
    simp only [findLoop] at h
    intro y hy ⟨hm, hc⟩
    rcases List.mem_cons.1 hy with rfl | hy
    · rw [if_pos ((nameMatch_iff _ _).2 hm)] at h
      simp [hc] at h
    · split at h
      · cases hc' : p.checksum md5 with
        | none => simp [hc'] at h
        | some z =>
          simp only [hc'] at h
          split at h
          · simp at h
          · exact ih h y hy ⟨hm, hc⟩
      · exact ih h y hy ⟨hm, hc⟩

/-- a list in which exactly one element answers, and no element raises -/
theorem findLoop_unique {name : Str} {c : Bytes} {l : List (Str × Str × Proc)} {e n : Str} {p : Proc}
    (hm : (e, n, p) ∈ l) (ha : Answers md5 name c n p)
    (hr : ∀ x ∈ l, nameMatch name x.2.1 = true → x.2.2.checksum md5 ≠ none)
    (hu : ∀ x ∈ l, Answers md5 name c x.2.1 x.2.2 → x.1 = e ∧ x.2.1 = n) :
    findLoop md5 name c l = some (some (e, n)) := by
  induction l with
  | nil => simp at hm
  | cons x l ih =>
    obtain ⟨a, b, q⟩ := x
    simp only [findLoop]
    split
    · rename_i hb
      cases hc : q.checksum md5 with
      | none => exact absurd hc (hr _ List.mem_cons_self hb)
      | some y =>
        simp only
        split
        · rename_i hy
          obtain ⟨h1, h2⟩ := hu _ List.mem_cons_self ⟨(nameMatch_iff _ _).1 hb, by rw [hc, hy]⟩
          dsimp only at h1 h2
          rw [h1, h2]
        · rename_i hy
          refine ih ?_ (fun x hx => hr x (List.mem_cons_of_mem _ hx)) (fun x hx => hu x (List.mem_cons_of_mem _ hx))
          rcases List.mem_cons.1 hm with h | h
          · simp only [Prod.mk.injEq] at h; obtain ⟨-, -, rfl⟩ := h
            rw [ha.2, Option.some.injEq] at hc
            exact absurd hc.symm hy
          · exact h
    · rename_i hb
      refine ih ?_ (fun x hx => hr x (List.mem_cons_of_mem _ hx)) (fun x hx => hu x (List.mem_cons_of_mem _ hx))
      rcases List.mem_cons.1 hm with h | h
      · simp only [Prod.mk.injEq] at h; obtain ⟨-, rfl, rfl⟩ := h
        exact absurd ((nameMatch_iff _ _).2 ha.1) hb
      · exact h

theorem findLoop_total {name : Str} {c : Bytes} {l : List (Str × Str × Proc)}
    (h : findLoop md5 name c l = some none) :
    ∀ x ∈ l, nameMatch name x.2.1 = true → x.2.2.checksum md5 ≠ none := by
  induction l with
  | nil => simp
  | cons x l ih =>
    obtain ⟨a, b, p⟩ := x
    simp only [findLoop] at h
    intro y hy hm
    split at h
    · cases hc : p.checksum md5 with
      | none => simp [hc] at h
      | some z =>
        simp only [hc] at h
        split at h
        · simp at h
        · rcases List.mem_cons.1 hy with rfl | hy
          · simp [hc]
          · exact ih h y hy hm
    · rcases List.mem_cons.1 hy with rfl | hy
      · exact absurd hm (by assumption)
      · exact ih h y hy hm

theorem at_set (file : File) (e : Str) (entry : Entry) (e' n' : Str) :
    File.at (Dict.set file e entry) e' n' = if e = e' then Dict.get? entry n' else file.at e' n' := by
  unfold File.at
  rw [Dict.get?_set]
  split <;> rfl

theorem match_self (name : Str) : matchName name name = true := by
  rcases Naming.split_or name with h | ⟨p, d, s, h⟩
  · exact (Naming.match_unnumbered h _).2 (.inl rfl)
  · exact (Naming.match_numbered h _).2 ⟨d, h.ne, h.digits, .inl h.eq⟩

theorem newEntry_wf : Dict.WF newEntry := by simp [newEntry, Dict.WF, Dict.keys]

theorem getEntry_wf {file : File} (hw : file.WF) (e : Str) : Dict.WF (getEntry file e) := by
  unfold getEntry
  cases h : Dict.get? file e with
  | none => exact newEntry_wf
  | some x => exact hw.2 _ _ (Dict.get?_mem h)

theorem wf_setEntry {file : File} (hw : file.WF) (e : Str) {entry : Entry} (he : Dict.WF entry) :
    File.WF (Dict.set file e entry) := by
  have h1 : Dict.WF (Dict.set file e entry) := Dict.wf_set file hw.1 e entry
  refine ⟨h1, ?_⟩
  intro a x ha
  have hg := Dict.get?_of_mem h1 ha
  rw [Dict.get?_set] at hg
  split at hg
  · rw [← Option.some.inj hg]; exact he
  · exact hw.2 _ _ (Dict.get?_mem hg)

/-- whatever the search for a name returns did not exist -/
theorem freshLoop_fresh {existing : List Str} {fuel : Nat} {x y : Name} {s : Str}
    (h : freshLoop existing fuel x = .found y s) : s ∉ existing := by
  induction fuel generalizing x with
  | zero => simp [freshLoop] at h
  | succ f ih =>
    simp only [freshLoop] at h
    cases hx : x.str with
    | none => simp [hx] at h
    | some t =>
      simp only [hx] at h
      split at h
      · exact ih h
      · simp only [Outcome.found.injEq] at h; rw [← h.2]; assumption

theorem place_at {entry : Entry} {name n : Str} {ni : Bool} {fuel : Nat}
    (h : place entry name ni fuel = .at n) : Dict.get? entry n = none ∧ (ni = true → n = name) := by
  unfold place at h
  cases hg : Dict.get? entry name with
  | none => simp only [hg, Place.at.injEq] at h; subst h; exact ⟨hg, fun _ => rfl⟩
  | some node =>
    simp only [hg] at h
    cases ni with
    | true => simp at h
    | false =>
      cases node with
      | other => simp at h
      | proc p =>
        dsimp only at h
        cases hf : freshLoop (Dict.keys entry) fuel (Name.new name) with
        | found x s =>
          simp only [hf, Place.at.injEq] at h; subst h
          exact ⟨(Dict.get?_none _ _).2 (freshLoop_fresh hf), by simp⟩
        | raised => simp [hf] at h
        | running => simp [hf] at h

theorem place_match {entry : Entry} {name n : Str} {ni : Bool} {fuel : Nat} (hb : NoBrace name)
    (hf : (Dict.keys entry).length < fuel) (h : place entry name ni fuel = .at n) :
    matchName name n = true := by
  unfold place at h
  cases hg : Dict.get? entry name with
  | none => simp only [hg, Place.at.injEq] at h; subst h; exact match_self _
  | some node =>
    simp only [hg] at h
    cases ni with
    | true => simp at h
    | false =>
      cases node with
      | other => simp at h
      | proc p =>
        obtain ⟨x, r, h1, -, h3⟩ := Naming.fresh_matches_partial hb (Dict.keys entry) fuel hf
        simp only [h1, Place.at.injEq] at h; subst h; exact h3

theorem newProc_some {rt : Val → Val} {params : Val} {deps : List Dep} {p : Proc}
    (h : newProc md5 rt params deps = some p) : p.deps = deps.map Dep.linked ∧
      p.config = some (rt params) ∧ p.index = sequenceIndex deps ∧
      p.checksum md5 = ((calchash md5 0 (rt params)).bind (calcChecksum md5 (deps.map Dep.linked))).map some := by
  unfold newProc at h
  simp only [Proc.checksum] at h
  cases hc : (calchash md5 0 (rt params)).bind (calcChecksum md5 (deps.map Dep.linked)) with
  | none => simp [hc] at h
  | some c =>
    simp only [hc, Option.map_some, Option.some.injEq] at h; subst h
    exact ⟨rfl, rfl, rfl, rfl⟩

/-- A link to a dependency has the checksum of the dependency. -/
def Linked (deps : List Dep) : Prop := ∀ d ∈ deps, d.linked = d.own

theorem linked_map {deps : List Dep} (h : Linked deps) : deps.map Dep.linked = deps.map Dep.own :=
  List.map_congr_left h

theorem requestChecksum_of_newProc {rt : Val → Val} {params : Val} {deps : List Dep} {p : Proc}
    (hl : Linked deps) (hr : calchash md5 0 (rt params) = calchash md5 0 params)
    (h : newProc md5 rt params deps = some p) :
    p.checksum md5 = (requestChecksum md5 deps params).map some := by
  rw [(newProc_some h).2.2.2, hr, linked_map hl]; rfl

/-! ## the property -/

/-- **C19.**  The process found is a process of the file, within the entries asked for, with a
matching name and exactly the checksum of the request. -/
theorem find_sound {file : File} (hw : file.WF) {here : Option Str} {name : Str} {params : Val}
    {deps : List Dep} {all : Bool} {e n : Str}
    (h : findProcess md5 file here name params deps all = some (some (e, n))) :
    ∃ p c, Visible file here all e n p ∧ requestChecksum md5 deps params = some c ∧
      Answers md5 name c n p := by
  simp only [findProcess, Option.bind_eq_some_iff] at h
  obtain ⟨c, hc, h⟩ := h
  obtain ⟨p, hp, ha⟩ := findLoop_some h
  exact ⟨p, c, (mem_iterProcs hw).1 hp, hc, ha⟩

/-- **C19.**  If nothing is found then there is no such process. -/
theorem find_complete {file : File} (hw : file.WF) {here : Option Str} {name : Str} {params : Val}
    {deps : List Dep} {all : Bool}
    (h : findProcess md5 file here name params deps all = some none) :
    ∃ c, requestChecksum md5 deps params = some c ∧
      ∀ e n p, Visible file here all e n p → ¬ Answers md5 name c n p := by
  simp only [findProcess, Option.bind_eq_some_iff] at h
  obtain ⟨c, hc, h⟩ := h
  exact ⟨c, hc, fun e n p hv => findLoop_none h (e, n, p) ((mem_iterProcs hw).2 hv)⟩

/-- The process was there before. -/
def Reused (md5 : Bytes → Bytes) (file : File) (here : Option Str) (name : Str) (params : Val)
    (deps : List Dep) (all : Bool) (file' : File) (e n : Str) : Prop :=
  file' = file ∧ ∃ p c, Visible file here all e n p ∧ requestChecksum md5 deps params = some c ∧
    Answers md5 name c n p

/-- The process is new: nothing answered the request, the address was free, the new process has the
parameters and dependencies of the request and their checksum, and nothing else changes except that
the entry may be new. -/
def Created (md5 : Bytes → Bytes) (rt : Val → Val) (file : File) (here : Option Str) (name : Str)
    (params : Val) (deps : List Dep) (all : Bool) (file' : File) (e n : Str) : Prop :=
  (∃ c, requestChecksum md5 deps params = some c ∧
    ∀ e n p, Visible file here all e n p → ¬ Answers md5 name c n p) ∧
  file.at e n = none ∧
  (∃ p, file'.at e n = some (.proc p) ∧ p.config = some (rt params) ∧ p.deps = deps.map Dep.linked ∧
    p.checksum md5 = ((calchash md5 0 (rt params)).bind (calcChecksum md5 (deps.map Dep.linked))).map some) ∧
  (∀ e' n', (e', n') ≠ (e, n) → (e' = e → (Dict.get? file e).isSome) → file'.at e' n' = file.at e' n') ∧
  (∀ h, here = some h → e = h) ∧ (here = none → Dict.get? file e = none)

/-- **C19.**  A request returns a process that was there before only if its name matches and its
checksum is the checksum of the request; otherwise it creates one at a free address and leaves all
other processes as they are. -/
theorem nxprocess_spec {rt : Val → Val} {file : File} (hw : file.WF) {here : Option Str} {name : Str}
    {params : Val} {deps : List Dep} {all ni : Bool} {fuel : Nat} {file' : File} {e n : Str}
    (h : nxprocess md5 rt file here name params deps all ni fuel = .ok file' e n) :
    File.WF file' ∧ (Reused md5 file here name params deps all file' e n ∨
      Created md5 rt file here name params deps all file' e n) := by
  unfold nxprocess at h
  cases hf : findProcess md5 file here name params deps all with
  | none => simp [hf] at h
  | some r =>
    cases r with
    | some en =>
      obtain ⟨a, b⟩ := en
      simp only [hf, Result.ok.injEq] at h
      obtain ⟨rfl, rfl, rfl⟩ := h
      exact ⟨hw, .inl ⟨rfl, find_sound hw hf⟩⟩
    | none =>
      simp only [hf] at h
      cases hn : nxentry file here fuel with
      | raised => simp [hn] at h
      | running => simp [hn] at h
      | found x e1 =>
        simp only [hn] at h
        cases hp : place (getEntry file e1) name ni fuel with
        | already => simp [hp] at h
        | raised => simp [hp] at h
        | running => simp [hp] at h
        | «at» n1 =>
          simp only [hp] at h
          cases hq : newProc md5 rt params deps with
          | none => simp [hq] at h
          | some p =>
            simp only [hq, Result.ok.injEq] at h
            obtain ⟨rfl, rfl, rfl⟩ := h
            obtain ⟨hfree, -⟩ := place_at hp
            obtain ⟨q1, q2, q3, q4⟩ := newProc_some hq
            refine ⟨wf_setEntry hw _ (Dict.wf_set _ (getEntry_wf hw _) _ _), .inr ⟨find_complete hw hf, ?_, ⟨p, ?_, q2, q1, q4⟩, ?_, ?_, ?_⟩⟩
            · unfold File.at
              cases hg : Dict.get? file e1 with
              | none => rfl
              | some entry => simpa [getEntry, hg] using hfree
            · rw [at_set, if_pos rfl, Dict.get?_set, if_pos rfl]
            · intro e' n' hne hex
              rw [at_set]
              split
              · rename_i he; subst he
                have hnn : n1 ≠ n' := fun hc => hne (by rw [hc])
                rw [Dict.get?_set, if_neg hnn]
                obtain ⟨entry, hg⟩ := Option.isSome_iff_exists.1 (hex rfl)
                simp [getEntry, hg, File.at]
              · rfl
            · intro h hh; subst hh; simp only [nxentry, Outcome.found.injEq] at hn; exact hn.2.symm
            · intro hh; subst hh
              simp only [nxentry, nextEntryName] at hn
              cases hl : (Dict.keys file).getLast? with
              | none =>
                have : file = [] := by
                  rw [List.getLast?_eq_none_iff] at hl
                  cases file with
                  | nil => rfl
                  | cons a l => simp [Dict.keys] at hl
                subst this; rfl
              | some last =>
                simp only [hl] at hn
                exact (Dict.get?_none _ _).2 (freshLoop_fresh hn)

/-- **C19.**  The name of the process matches the name asked for; with `noincrement` a new process
has exactly this name. -/
theorem nxprocess_name {rt : Val → Val} {file : File} (hw : file.WF) {here : Option Str} {name : Str}
    {params : Val} {deps : List Dep} {all ni : Bool} {fuel : Nat} {file' : File} {e n : Str}
    (hb : NoBrace name) (hne : name ≠ []) (hf : (Dict.keys (getEntry file e)).length < fuel)
    (h : nxprocess md5 rt file here name params deps all ni fuel = .ok file' e n) :
    matchName name n = true ∧ (ni = true → file' = file ∨ n = name) := by
  unfold nxprocess at h
  cases hf' : findProcess md5 file here name params deps all with
  | none => simp [hf'] at h
  | some r =>
    cases r with
    | some en =>
      obtain ⟨a, b⟩ := en
      simp only [hf', Result.ok.injEq] at h
      obtain ⟨rfl, rfl, rfl⟩ := h
      obtain ⟨p, c, -, -, ha⟩ := find_sound hw hf'
      exact ⟨ha.1.resolve_left hne, fun _ => .inl rfl⟩
    | none =>
      simp only [hf'] at h
      cases hn : nxentry file here fuel with
      | raised => simp [hn] at h
      | running => simp [hn] at h
      | found x e1 =>
        simp only [hn] at h
        cases hp : place (getEntry file e1) name ni fuel with
        | already => simp [hp] at h
        | raised => simp [hp] at h
        | running => simp [hp] at h
        | «at» n1 =>
          simp only [hp] at h
          cases hq : newProc md5 rt params deps with
          | none => simp [hq] at h
          | some p =>
            simp only [hq, Result.ok.injEq] at h
            obtain ⟨rfl, rfl, rfl⟩ := h
            exact ⟨place_match hb hf hp, fun hni => .inr ((place_at hp).2 hni)⟩

/-- **C19.**  A request ends: with enough rounds, names without braces, parameters that can be
hashed before and after storing, and processes whose checksum can be read, the result is a process,
or `AlreadyExists` because the name is used by another kind of node (or by any node, with
`noincrement`). -/
theorem nxprocess_total {rt : Val → Val} {file : File} {here : Option Str} {name : Str} {params : Val}
    {deps : List Dep} {all ni : Bool} {fuel : Nat} (hw : file.WF) (hb : NoBrace name)
    (hbe : ∀ e ∈ Dict.keys file, NoBrace e)
    (hp : height params ≤ 100) (hr : height (rt params) ≤ 100)
    (hc : ∀ e n p, file.at e n = some (.proc p) → p.checksum md5 ≠ none)
    (hf : file.length < fuel) (hfe : ∀ e x, (e, x) ∈ file → x.length < fuel) (hf1 : 1 < fuel) :
    (∃ file' e n, nxprocess md5 rt file here name params deps all ni fuel = .ok file' e n) ∨
    (∃ file' e, nxprocess md5 rt file here name params deps all ni fuel = .already file' ∧
      ∃ x, file'.at e name = some x ∧ (ni = false → x = .other)) := by
  obtain ⟨h1, e1⟩ := Option.isSome_iff_exists.1 ((Hashing.calchash_isSome (md5 := md5) params).2 hp)
  obtain ⟨h2, e2⟩ := Option.isSome_iff_exists.1 ((Hashing.calchash_isSome (md5 := md5) (rt params)).2 hr)
  have hm : ∀ (l : List Bytes) (h : Bytes), ∃ c, calcChecksum md5 l h = some c := by
    intro l h
    unfold calcChecksum
    rw [Hashing.mergehash_spec]
    match l with
    | [] => exact ⟨_, rfl⟩
    | [a] => exact ⟨_, rfl⟩
    | a :: b :: l => exact ⟨_, rfl⟩
  obtain ⟨c, hcs⟩ := hm (deps.map Dep.own) h1
  have htot : ∀ l : List (Str × Str × Proc), (∀ x ∈ l, x.2.2.checksum md5 ≠ none) →
      findLoop md5 name c l ≠ none := by
    intro l hl
    induction l with
    | nil => simp [findLoop]
    | cons x l ih =>
      obtain ⟨a, b, p⟩ := x
      simp only [findLoop]
      have hx := hl _ List.mem_cons_self
      split
      · cases hpc : p.checksum md5 with
        | none => exact absurd hpc hx
        | some y =>
          simp only
          split
          · simp
          · exact ih fun x hx => hl x (List.mem_cons_of_mem _ hx)
      · exact ih fun x hx => hl x (List.mem_cons_of_mem _ hx)
  have hfind : findProcess md5 file here name params deps all =
      findLoop md5 name c (iterProcs file here all) := by
    simp [findProcess, requestChecksum, e1, hcs]
  have hl := htot (iterProcs file here all) (fun x hx =>
    hc x.1 x.2.1 x.2.2 ((mem_iterProcs hw).1 hx).1)
  unfold nxprocess
  rw [hfind]
  cases hr' : findLoop md5 name c (iterProcs file here all) with
  | none => exact absurd hr' hl
  | some r =>
    cases r with
    | some en => exact .inl ⟨file, en.1, en.2, rfl⟩
    | none =>
      have hentry : ∃ x e, nxentry file here fuel = .found x e := by
        unfold nxentry nextEntryName
        cases here with
        | some e => exact ⟨_, _, rfl⟩
        | none =>
          cases hlast : (Dict.keys file).getLast? with
          | none => exact ⟨_, _, rfl⟩
          | some last =>
            have hmem : last ∈ Dict.keys file := List.mem_of_getLast? hlast
            obtain ⟨x, r, h1, -, -⟩ := Naming.fresh_matches_partial (hbe last hmem) (Dict.keys file) fuel
              (by simpa [Dict.keys] using hf)
            exact ⟨x, r, h1⟩
      obtain ⟨x, e, hentry⟩ := hentry
      simp only [hentry]
      obtain ⟨p, hp'⟩ : ∃ p, newProc md5 rt params deps = some p := by
        obtain ⟨c2, h3⟩ := hm (deps.map Dep.linked) h2
        unfold newProc
        simp only [Proc.checksum, e2, Option.bind_some, h3, Option.map_some]
        exact ⟨_, rfl⟩
      have hlen : (Dict.keys (getEntry file e)).length < fuel := by
        unfold getEntry
        cases hg : Dict.get? file e with
        | none => simpa [newEntry, Dict.keys] using hf1
        | some y => simpa [Dict.keys] using hfe e y (Dict.get?_mem hg)
      unfold place
      cases hg : Dict.get? (getEntry file e) name with
      | none => simp only [hp']; exact .inl ⟨_, _, _, rfl⟩
      | some node =>
        have hat : File.at (Dict.set file e (getEntry file e)) e name = some node := by
          rw [at_set, if_pos rfl, hg]
        cases ni with
        | true => exact .inr ⟨_, e, rfl, node, hat, by simp⟩
        | false =>
          cases node with
          | other => exact .inr ⟨_, e, rfl, .other, hat, fun _ => rfl⟩
          | proc q =>
            obtain ⟨y, r, h1, -, -⟩ := Naming.fresh_matches_partial hb (Dict.keys (getEntry file e)) fuel hlen
            simp only [h1, hp']
            exact .inl ⟨_, _, _, rfl⟩

/-- **C19.**  Asking again returns the same process and changes nothing, also for parameters that
are only equal in content (equal hash, see C38), when links keep the checksum of the dependencies
and stored parameters keep their hash.  The file is asked from the same place. -/
theorem nxprocess_again_partial {rt : Val → Val} {file : File} (hw : file.WF) {here : Option Str} {name : Str}
    {params params' : Val} {deps deps' : List Dep} {all ni ni' : Bool} {fuel fuel' : Nat} {file' : File}
    {e n : Str} (hb : NoBrace name) (hf : (Dict.keys (getEntry file e)).length < fuel)
    (hl : Linked deps) (hr : calchash md5 0 (rt params) = calchash md5 0 params)
    (hp : calchash md5 0 params' = calchash md5 0 params) (hd : deps'.map Dep.own = deps.map Dep.own)
    (h : nxprocess md5 rt file here name params deps all ni fuel = .ok file' e n) :
    nxprocess md5 rt file' here name params' deps' all ni' fuel' = .ok file' e n := by
  have hreq : requestChecksum md5 deps' params' = requestChecksum md5 deps params := by
    simp [requestChecksum, hp, hd]
  have hfind : ∀ f, findProcess md5 f here name params' deps' all = findProcess md5 f here name params deps all := by
    intro f; simp [findProcess, hreq]
  have hspec := nxprocess_spec hw h
  unfold nxprocess at h
  cases hf' : findProcess md5 file here name params deps all with
  | none => simp [hf'] at h
  | some r =>
    cases r with
    | some en =>
      obtain ⟨a, b⟩ := en
      simp only [hf', Result.ok.injEq] at h
      obtain ⟨rfl, rfl, rfl⟩ := h
      simp only [nxprocess, hfind, hf']
    | none =>
      have hno := find_complete hw hf'
      obtain ⟨c, hc, hno⟩ := hno
      have htot : ∀ x ∈ iterProcs file here all, nameMatch name x.2.1 = true → x.2.2.checksum md5 ≠ none := by
        simp only [findProcess, Option.bind_eq_some_iff] at hf'
        obtain ⟨c', -, hl⟩ := hf'
        exact findLoop_total hl
      simp only [hf'] at h
      cases hn : nxentry file here fuel with
      | raised => simp [hn] at h
      | running => simp [hn] at h
      | found x e1 =>
        simp only [hn] at h
        cases hpl : place (getEntry file e1) name ni fuel with
        | already => simp [hpl] at h
        | raised => simp [hpl] at h
        | running => simp [hpl] at h
        | «at» n1 =>
          simp only [hpl] at h
          cases hq : newProc md5 rt params deps with
          | none => simp [hq] at h
          | some p =>
            simp only [hq, Result.ok.injEq] at h
            obtain ⟨rfl, rfl, rfl⟩ := h
            have hwf := hspec.1
            have hpc : p.checksum md5 = some (some c) := by
              rw [requestChecksum_of_newProc hl hr hq, hc]; rfl
            have hm : Answers md5 name c n1 p := ⟨.inr (place_match hb hf hpl), hpc⟩
            have hhere : ∀ h, here = some h → e1 = h := by
              intro h hh; subst hh; simp only [nxentry, Outcome.found.injEq] at hn; exact hn.2.symm
            have hscope : InScope (Dict.set file e1 (Dict.set (getEntry file e1) n1 (.proc p))) here all e1 :=
              fun _ h hh _ => hhere h hh
            have hat : File.at (Dict.set file e1 (Dict.set (getEntry file e1) n1 (.proc p))) e1 n1 = some (.proc p) := by
              rw [at_set, if_pos rfl, Dict.get?_set, if_pos rfl]
            have key : ∀ e' n' q, Visible (Dict.set file e1 (Dict.set (getEntry file e1) n1 (.proc p))) here all e' n' q →
                (e' = e1 ∧ n' = n1 ∧ q = p) ∨ Visible file here all e' n' q := by
              rintro e' n' q ⟨v1, v2⟩
              by_cases hen : e' = e1 ∧ n' = n1
              · obtain ⟨rfl, rfl⟩ := hen
                rw [hat] at v1
                simp only [Option.some.injEq, Node.proc.injEq] at v1
                exact .inl ⟨rfl, rfl, v1.symm⟩
              · right
                rw [at_set] at v1
                split at v1
                · rename_i he; subst he
                  have hnn : n1 ≠ n' := fun hc => hen ⟨rfl, hc.symm⟩
                  rw [Dict.get?_set, if_neg hnn] at v1
                  cases hg : Dict.get? file e1 with
                  | none =>
                    simp only [getEntry, hg, Option.getD_none, newEntry, Dict.get?] at v1
                    split at v1 <;> simp at v1
                  | some entry =>
                    simp only [getEntry, hg, Option.getD_some] at v1
                    refine ⟨by simp [File.at, hg, v1], fun _ h hh _ => hhere h hh⟩
                · rename_i he
                  refine ⟨v1, fun ha h hh hs => ?_⟩
                  have := hhere h hh; subst this
                  have := v2 ha e1 hh (by rw [Dict.get?_set, if_pos rfl]; rfl)
                  exact this
            have hloop : findLoop md5 name c (iterProcs (Dict.set file e1 (Dict.set (getEntry file e1) n1 (.proc p))) here all) =
                some (some (e1, n1)) := by
              refine findLoop_unique ((mem_iterProcs hwf).2 ⟨hat, hscope⟩) hm ?_ ?_
              · rintro ⟨e', n', q⟩ hx hmx
                rcases key e' n' q ((mem_iterProcs hwf).1 hx) with ⟨-, -, rfl⟩ | hv
                · dsimp only; rw [hpc]; simp
                · exact htot _ ((mem_iterProcs hw).2 hv) hmx
              · rintro ⟨e', n', q⟩ hx ha
                rcases key e' n' q ((mem_iterProcs hwf).1 hx) with ⟨h1, h2, -⟩ | hv
                · exact ⟨h1, h2⟩
                · exact absurd ha (hno e' n' q hv)
            have : findProcess md5 (Dict.set file e1 (Dict.set (getEntry file e1) n1 (.proc p))) here name params' deps' all =
                some (some (e1, n1)) := by
              rw [hfind]; simp only [findProcess, hc, Option.bind_some]; exact hloop
            simp only [nxprocess, this]

/-- **C19.**  The order of the items of a parameter dictionary does not matter. -/
theorem request_dict_order (deps : List Dep) (c : Bytes) (items items' : List (Val × Val))
    (h : items.Perm items') (hk : (items.map fun p => calchash md5 0 p.1).Nodup) :
    requestChecksum md5 deps (.dict false c (items.map (·.1)) (items.map (·.2))) =
      requestChecksum md5 deps (.dict false c (items'.map (·.1)) (items'.map (·.2))) := by
  rw [requestChecksum, requestChecksum, Hashing.calchash_dict_order 0 (by omega) c items items' h hk]

/-- **C19.**  Without collisions of the hash function, a process that was created for one request
answers another only if the dependencies have the same checksums in the same order and the
parameters the same hash: for requests with dependencies ... -/
theorem answer_inj_deps (hdig : Digest md5) {rt : Val → Val} {params params' : Val} {deps deps' : List Dep}
    {p : Proc} {name n : Str} {c : Bytes} (hn : deps ≠ []) (hn' : deps' ≠ []) (hl : Linked deps)
    (hr : calchash md5 0 (rt params) = calchash md5 0 params)
    (hq : newProc md5 rt params deps = some p) (hc : requestChecksum md5 deps' params' = some c)
    (ha : Answers md5 name c n p)
    (hcol : ∀ h h', calchash md5 0 params = some h → calchash md5 0 params' = some h' →
      NoCollision md5 (canon md5 (.seq "tuple".toList ((deps.map Dep.own ++ [h]).map .str)))
        (canon md5 (.seq "tuple".toList ((deps'.map Dep.own ++ [h']).map .str)))) :
    deps.map Dep.own = deps'.map Dep.own ∧ calchash md5 0 params = calchash md5 0 params' := by
  have h1 := requestChecksum_of_newProc hl hr hq
  rw [ha.2] at h1
  obtain ⟨c1, h2, h3⟩ := Option.map_eq_some_iff.1 h1.symm
  rw [Option.some.injEq] at h3
  subst h3
  simp only [requestChecksum, Option.bind_eq_some_iff] at h2 hc
  obtain ⟨g, hg, h2⟩ := h2
  obtain ⟨g', hg', hc⟩ := hc
  have hlen : ∀ (d : List Dep) (x : Bytes), d ≠ [] → 2 ≤ (d.map Dep.own ++ [x]).length := by
    intro d x hd
    cases d with
    | nil => exact absurd rfl hd
    | cons a l => simp
  have := Hashing.mergehash_inj hdig _ _ (hlen deps g hn) (hlen deps' g' hn') (hcol g g' hg hg') (h2.trans hc.symm)
  obtain ⟨h4, h5⟩ := List.append_inj' this rfl
  simp only [List.cons.injEq, and_true] at h5
  exact ⟨h4, by rw [hg, hg', h5]⟩

/-- ... and for requests without. -/
theorem answer_inj_nodeps {rt : Val → Val} {params params' : Val} {p : Proc} {name n : Str} {c : Bytes}
    (hr : calchash md5 0 (rt params) = calchash md5 0 params)
    (hq : newProc md5 rt params [] = some p) (hc : requestChecksum md5 [] params' = some c)
    (ha : Answers md5 name c n p) : calchash md5 0 params = calchash md5 0 params' := by
  have h1 := requestChecksum_of_newProc (by intro d hd; simp at hd) hr hq
  rw [ha.2] at h1
  obtain ⟨c1, h2, h3⟩ := Option.map_eq_some_iff.1 h1.symm
  rw [Option.some.injEq] at h3
  subst h3
  simp only [requestChecksum, Option.bind_eq_some_iff, calcChecksum, List.map_nil, List.nil_append, mergehash,
    List.length_cons, List.length_nil] at h2 hc
  obtain ⟨g, hg, h2⟩ := h2
  obtain ⟨g', hg', hc⟩ := hc
  simp at h2 hc
  rw [hg, hg', h2, hc]

theorem le_foldl_max (l : List Nat) (a : Nat) : a ≤ l.foldl max a ∧ ∀ x ∈ l, x ≤ l.foldl max a := by
  induction l generalizing a with
  | nil => simp
  | cons b l ih =>
    obtain ⟨h1, h2⟩ := ih (max a b)
    refine ⟨by simp only [List.foldl_cons]; omega, fun x hx => ?_⟩
    simp only [List.foldl_cons]
    rcases List.mem_cons.1 hx with rfl | hx
    · omega
    · exact h2 x hx

/-- **C19.**  A new process comes after everything it depends on, and the first has index 1. -/
theorem index_after_deps {rt : Val → Val} {params : Val} {deps : List Dep} {p : Proc}
    (h : newProc md5 rt params deps = some p) : (∀ d ∈ deps, ∀ i, d.index = some i → i < p.index) ∧
      (deps.filterMap Dep.index = [] → p.index = 1) := by
  rw [(newProc_some h).2.2.1]
  refine ⟨fun d hd i hi => ?_, fun h => by simp [sequenceIndex, h]⟩
  have := (le_foldl_max (deps.filterMap Dep.index) 0).2 i (List.mem_filterMap.2 ⟨d, hd, hi⟩)
  unfold sequenceIndex; omega

/-! ## deviations -/

/-- **C19 (deviation).**  A request with a dependency and a request without one whose parameters are
the two hashes always have the same checksum: dependencies and parameters are not kept apart. -/
theorem deps_params_collide (d : Dep) (params : Val) (h : Bytes) (hp : calchash md5 0 params = some h) :
    requestChecksum md5 [d] params = requestChecksum md5 [] (.seq "tuple".toList [.str d.own, .str h]) := by
  have e : (calchash md5 0 (.seq "tuple".toList [.str d.own, .str h])).isSome := by
    rw [Hashing.calchash_isSome]; simp [height, height.heights]
  obtain ⟨c, hc⟩ := Option.isSome_iff_exists.1 e
  simp only [requestChecksum, hp, hc, calcChecksum, mergehash, Option.bind_some, List.map_cons, List.map_nil,
    List.cons_append, List.nil_append, List.length_cons, List.length_nil]
  rfl

/-- **C19 (deviation).**  A parameter dictionary with one item is confused with the list of its key
and value (see C38). -/
theorem dict_list_request (deps : List Dep) (c c' : Bytes) (k v : Val) :
    requestChecksum md5 deps (.dict false c [k] [v]) = requestChecksum md5 deps (.seq c' [k, v]) := by
  rw [requestChecksum, requestChecksum, Hashing.dict_list_collide 0 (by omega)]

/-- **C19 (deviation).**  When storing changes the hash of the parameters, the process created is
not found again: every request creates one more. -/
theorem unstable_not_found {rt : Val → Val} {params : Val} {p : Proc} {name n : Str} {c : Bytes}
    (hr : calchash md5 0 (rt params) ≠ calchash md5 0 params)
    (hq : newProc md5 rt params [] = some p) (hc : requestChecksum md5 [] params = some c) :
    ¬ Answers md5 name c n p := by
  rintro ⟨-, ha⟩
  apply hr
  rw [(newProc_some hq).2.2.2] at ha
  obtain ⟨c1, h2, h3⟩ := Option.map_eq_some_iff.1 ha
  rw [Option.some.injEq] at h3
  subst h3
  simp only [requestChecksum, Option.bind_eq_some_iff, calcChecksum, List.map_nil, List.nil_append, mergehash,
    List.length_cons, List.length_nil] at h2 hc
  obtain ⟨g, hg, h2⟩ := h2
  obtain ⟨g', hg', hc⟩ := hc
  simp at h2 hc
  rw [hg, hg', h2, hc]

/-- **C19 (deviation).**  A request without `searchallentries` for an entry that does not exist
looks in all entries: it returns a process of another entry. -/
theorem missing_entry_searches_all (name n e e' : Str) (p : Proc) (params : Val) (deps : List Dep)
    (c : Bytes) (hc : requestChecksum md5 deps params = some c) (ha : Answers md5 name c n p) (hee : e ≠ e') :
    findProcess md5 [(e, [(n, .proc p)])] (some e') name params deps false = some (some (e, n)) := by
  have hg : Dict.get? ([(e, [(n, .proc p)])] : File) e' = none := by simp [Dict.get?, hee]
  simp [findProcess, hc, iterProcs, hg, procsOf, findLoop, (nameMatch_iff name n).2 ha.1, ha.2]

/-! ## test cases -/

/-- two requests in an empty file, then the first one again with another order of the dictionary -/
def pA : Val := .dict false [] [.none, .str ['x']] [.str ['x'], .none]
def pB : Val := .dict false [] [.str ['x'], .none] [.none, .str ['x']]
def pC : Val := .str ['y']

def outcome : Result → Option (List (Str × List Str) × Str × Str)
  | .ok f e n => some (f.map fun x => (x.1, Dict.keys x.2), e, n)
  | _ => none

def fileOf : Result → File
  | .ok f _ _ => f
  | _ => []

/-- a file after a request for `pA` -/
def file1 : File := fileOf (nxprocess Hashing.toy id [] none ['p'] pA [] true false 5)
/-- ... and one for `pC` -/
def file2 : File := fileOf (nxprocess Hashing.toy id file1 (some "entry0001".toList) ['p'] pC [] true false 5)

example : outcome (nxprocess Hashing.toy id file1 (some "entry0001".toList) ['p'] pC [] true false 5) =
    some ([("entry0001".toList, ["start_time".toList, ['p'], ['p', '.', '1']])], "entry0001".toList, ['p', '.', '1']) := by
  decide
example : outcome (nxprocess Hashing.toy id file2 (some "entry0001".toList) ['p'] pB [] true false 5) =
    some ([("entry0001".toList, ["start_time".toList, ['p'], ['p', '.', '1']])], "entry0001".toList, ['p']) := by
  decide
example : outcome (nxprocess Hashing.toy id file2 none ['q'] pC [] true false 5) =
    some ([("entry0001".toList, ["start_time".toList, ['p'], ['p', '.', '1']]),
      ("entry0002".toList, ["start_time".toList, ['q']])], "entry0002".toList, ['q']) := by
  decide
example : requestChecksum Hashing.toy [] pA = requestChecksum Hashing.toy [] pB := by decide
example : sequenceIndex [⟨[], [], some 3⟩, ⟨[], [], none⟩, ⟨[], [], some 1⟩] = 4 := by decide
example : outcome (nxprocess Hashing.toy id file2 (some "entry0001".toList) "start_time".toList pC [] true false 5) = none := by
  decide

end SC.Process
