import Verif.EdfHead.Spec
import Verif.Axis.Props
import Mathlib.Data.List.Basic
import Mathlib.Algebra.BigOperators.Group.List.Basic
import Mathlib.Tactic.Ring
import Mathlib.Tactic.FieldSimp
/-! # C76: the axes of an image from its EDF header -/
namespace SC.EdfHead
open SC.Scan (Str)
open SC.Py (Dict)

theorem readDir_described {c : Cfg} {h : Header} {label : Option Str} {m : Str} {s e : Rat} {n : Int}
    (hd : Described c h label m s e n) (d : Dir) : readDir c h label d = .ok ⟨some m, some s, some e, some n⟩ := by
  obtain ⟨l, ts, te, tn, rfl, h1, h2, h3, h4, h5, h6, h7⟩ := hd.ex
  unfold readDir tMot tStart tEnd tNbp
  simp only [h1, h2, h3, h4, h5, h6, h7]

theorem readDir_undescribed {c : Cfg} {h : Header} {label : Option Str} (hd : Undescribed h label) (d : Dir) :
    readDir c h label d = .ok d := by
  unfold readDir
  cases label with
  | none => rfl
  | some l =>
    have := hd l rfl
    unfold tMot
    simp only [this]

/-- The values kept for motors. -/
theorem readFloats_get (c : Cfg) (h : Header) (l : List (Str × Option Str)) (v : Str)
    (hl : ∀ x ∈ l, x.1 = v → x.2 = some v) (vals out : Dict Str (Option Rat))
    (hv : ∀ q, Dict.get? vals v = some q → (h v = none ∧ q = none) ∨ (h v ≠ none ∧ q = some (position c h v)))
    (ho : readFloats c h l vals = .ok out) :
    (∀ q, Dict.get? out v = some q → (h v = none ∧ q = none) ∨ (h v ≠ none ∧ q = some (position c h v))) ∧
    ((Dict.get? vals v ≠ none ∨ ∃ x ∈ l, x.1 = v) → Dict.get? out v ≠ none) := by
  induction l generalizing vals with
  | nil =>
    unfold readFloats at ho
    simp only [Except.ok.injEq] at ho
    subst ho
    refine ⟨hv, ?_⟩
    rintro (h1 | ⟨x, hx, _⟩)
    · exact h1
    · simp at hx
  | cons x r ih =>
    obtain ⟨k, lab⟩ := x
    unfold readFloats at ho
    cases hr : readFloat c h k lab vals with
    | error e => simp [hr] at ho
    | ok vals' =>
      simp only [hr] at ho
      have hl' : ∀ x ∈ r, x.1 = v → x.2 = some v := fun x hx => hl x (by simp [hx])
      unfold readFloat at hr
      have key : (∀ q, Dict.get? vals' v = some q → (h v = none ∧ q = none) ∨ (h v ≠ none ∧ q = some (position c h v))) ∧
          ((Dict.get? vals v ≠ none ∨ k = v) → Dict.get? vals' v ≠ none) := by
        by_cases hk : k = v
        · have hlab := hl (k, lab) (by simp) hk
          simp only at hlab
          subst hk
          subst hlab
          simp only at hr
          cases hh : h k with
          | none =>
            simp only [hh, Except.ok.injEq] at hr
            subst hr
            cases hg : Dict.get? vals k with
            | none => simp [Dict.get?_set]
            | some q =>
              simp only [Option.isSome_some, if_true]
              refine ⟨?_, by simp [hg]⟩
              intro q' hq'
              have := hv q' hq'
              rw [hh] at this
              simpa using this
          | some t =>
            cases hf : c.float t with
            | none => simp [hh, hf] at hr
            | some q =>
              simp only [hh, hf, Except.ok.injEq] at hr
              subst hr
              simp [Dict.get?_set, position, hh, hf]
        · have same : Dict.get? vals' v = Dict.get? vals v := by
            cases lab with
            | none =>
              simp only [Except.ok.injEq] at hr
              rw [hr]
            | some l0 =>
              cases hh : h l0 with
              | none =>
                simp only [hh, Except.ok.injEq] at hr
                subst hr
                split
                · rfl
                · rw [Dict.get?_set, if_neg hk]
              | some t =>
                cases hf : c.float t with
                | none => simp [hh, hf] at hr
                | some q =>
                  simp only [hh, hf, Except.ok.injEq] at hr
                  subst hr
                  rw [Dict.get?_set, if_neg hk]
          rw [same]
          refine ⟨hv, ?_⟩
          rintro (h1 | h1)
          · exact h1
          · exact absurd h1 hk
      obtain ⟨i1, i2⟩ := ih hl' vals' key.1 ho
      refine ⟨i1, ?_⟩
      rintro (h1 | ⟨x, hx, hxv⟩)
      · exact i2 (Or.inl (key.2 (Or.inl h1)))
      · rcases List.mem_cons.1 hx with rfl | hx
        · exact i2 (Or.inl (key.2 (Or.inr hxv)))
        · exact i2 (Or.inr ⟨x, hx, hxv⟩)

theorem get?_mem {α : Type} (d : Dict Str α) (k : Str) (v : α) (h : Dict.get? d k = some v) : (k, v) ∈ d := by
  induction d with
  | nil => simp [Dict.get?] at h
  | cons x r ih =>
    obtain ⟨a, b⟩ := x
    unfold Dict.get? at h
    split at h
    · rename_i hk
      simp only [Option.some.injEq] at h
      subst hk; subst h
      simp
    · exact List.mem_cons_of_mem _ (ih h)

/-- For a compensating motor the value kept is its position, NaN when the header does not have it. -/
theorem vals_partner {c : Cfg} {h : Header} (hs : Separate c) {out : Dict Str (Option Rat)}
    (ho : readFloats c h (floatLabels c) [] = .ok out) {m v : Str} (hv : v ∈ partners c m) :
    Dict.get? out v = some (if h v = none then none else some (position c h v)) := by
  unfold partners at hv
  cases hp : Dict.get? c.compensation m with
  | none => simp [hp] at hv
  | some l =>
    simp only [hp, Option.getD_some] at hv
    have hm := get?_mem _ _ _ hp
    have hl : ∀ x ∈ floatLabels c, x.1 = v → x.2 = some v := by
      intro x hx hxv
      unfold floatLabels at hx
      rcases List.mem_append.1 hx with hx | hx
      · have := hs x hx _ hm
        rw [hxv] at this
        exact absurd hv this
      · obtain ⟨y, _, hy2⟩ := List.mem_flatMap.1 hx
        obtain ⟨z, _, rfl⟩ := List.mem_map.1 hy2
        simp only at hxv
        rw [hxv]
    obtain ⟨h1, h2⟩ := readFloats_get c h (floatLabels c) v hl [] out (by simp [Dict.get?]) ho
    have hne := h2 (Or.inr ⟨(v, some v), by
      unfold floatLabels
      refine List.mem_append_right _ (List.mem_flatMap.2 ⟨_, hm, ?_⟩)
      exact List.mem_map.2 ⟨v, hv, rfl⟩, rfl⟩)
    cases hg : Dict.get? out v with
    | none => exact absurd hg hne
    | some q =>
      rcases h1 q hg with ⟨a, rfl⟩ | ⟨a, rfl⟩
      · simp [a]
      · simp [a]

theorem compensate_eq (c : Cfg) (h : Header) (vals : Dict Str (Option Rat)) (l : List Str)
    (hv : ∀ v ∈ l, Dict.get? vals v = some (if h v = none then none else some (position c h v))) (s e : Rat) (m : Str) :
    compensate c vals l (s, e, m) =
      (s + (l.map (position c h)).sum, e + (l.map (position c h)).sum,
        (fun x => (Dict.get? c.namemap x).getD x)^[(l.filter fun v => (h v).isSome).length] m) := by
  induction l generalizing s e m with
  | nil => simp [compensate]
  | cons v r ih =>
    have h1 := hv v (by simp)
    have h2 : ∀ v ∈ r, Dict.get? vals v = some (if h v = none then none else some (position c h v)) := fun v hh => hv v (by simp [hh])
    unfold compensate
    cases hh : h v with
    | none =>
      have hp : position c h v = 0 := by unfold position; simp [hh]
      rw [hh] at h1
      simp only [if_true] at h1
      simp only [h1]
      rw [ih h2]
      simp [hp, hh]
    | some t =>
      rw [hh] at h1
      simp only [reduceCtorEq, if_false] at h1
      simp only [h1]
      rw [ih h2]
      simp only [List.map_cons, List.sum_cons, List.filter_cons, hh, Option.isSome_some, if_true, List.length_cons,
        Function.iterate_succ, Function.comp, add_assoc]

theorem centres_zapscan (s e : Rat) (n : Nat) (hn : 0 < n) :
    ∃ a, SC.Axis.zapscan s e n = some a ∧ a.values = centres s e n ∧ a.size = n := by
  obtain ⟨a, h1, h2, h3, h4, _⟩ := SC.Axis.zapscan_spec s e n hn
  refine ⟨a, h1, ?_, h2⟩
  rw [h4, h3]
  unfold SC.Axis.prog centres
  apply List.map_congr_left
  intro i _
  ring

theorem points_ascan (s e : Rat) (n : Nat) : ∃ a, SC.Axis.ascan s e n = some a ∧ a.values = points s e n ∧ a.size = n + 1 := by
  rcases Nat.eq_zero_or_pos n with rfl | hn
  · exact ⟨_, rfl, by simp [points, SC.Axis.linspace], rfl⟩
  · obtain ⟨a, h1, h2, h3, _⟩ := SC.Axis.ascan_spec s e n hn
    exact ⟨a, h1, h3, h2⟩

/-- The parts of a result. -/
theorem parse_parts {c : Cfg} {h : Header} {dims : Option (Option Int × Option Int)} {r : Result} (hr : parse c h dims = .ok r) :
    ∃ (df ds df' ds' : Dir) (vals : Dict Str (Option Rat)),
      readDir c h c.fastlabel (title c h).fast = .ok df ∧ readDir c h c.slowlabel (title c h).slow = .ok ds ∧
      readFloats c h (floatLabels c) [] = .ok vals ∧
      extractAxis c h vals false (dims.bind (·.1)) ds = .ok (r.slow, ds') ∧
      extractAxis c h vals true (dims.bind (·.2)) df = .ok (r.fast, df') ∧
      r.out = ⟨(title c h).name, df', ds', vals⟩ ∧ r.name = (title c h).name.getD tZapimage := by
  have ht : (title c h).vals = [] := by
    unfold title ofCommand
    split
    · rfl
    · split
      · rfl
      · split <;> rfl
  unfold parse at hr
  simp only [ht] at hr
  cases h1 : readDir c h c.fastlabel (title c h).fast with
  | error e => simp [h1] at hr
  | ok df =>
    cases h2 : readDir c h c.slowlabel (title c h).slow with
    | error e => simp [h1, h2] at hr
    | ok ds =>
      cases h3 : readFloats c h (floatLabels c) [] with
      | error e => simp [h1, h2, h3] at hr
      | ok vals =>
        cases h4 : extractAxis c h vals false (dims.bind (·.1)) ds with
        | error e => simp [h1, h2, h3, h4] at hr
        | ok p =>
          obtain ⟨slow, ds'⟩ := p
          cases h5 : extractAxis c h vals true (dims.bind (·.2)) df with
          | error e => simp [h1, h2, h3, h4, h5] at hr
          | ok q =>
            obtain ⟨fast, df'⟩ := q
            simp only [h1, h2, h3, h4, h5, Except.ok.injEq] at hr
            subst hr
            exact ⟨df, ds, df', ds', vals, rfl, rfl, rfl, h4, h5, rfl, rfl⟩

/-- A complete direction, fast. -/
theorem extract_fast {c : Cfg} {h : Header} (hs : Separate c) {vals : Dict Str (Option Rat)}
    (ho : readFloats c h (floatLabels c) [] = .ok vals) (nd : Option Int) (m : Str) (s e : Rat) (n : Nat) (hn : 0 < n)
    {a : Named} {d' : Dir} (hr : extractAxis c h vals true nd ⟨some m, some s, some e, some (n : Int)⟩ = .ok (a, d')) :
    a.name = some (axisName c h m) ∧
    a.ax.values = centres (s * c.unit (some m) + offset c h m) (e * c.unit (some m) + offset c h m) n := by
  have hc := compensate_eq c h vals (partners c m) (fun v hv => vals_partner hs ho hv) (s * c.unit (some m)) (e * c.unit (some m)) m
  unfold extractAxis at hr
  unfold partners at hc
  simp only [hc, if_true] at hr
  obtain ⟨b, h1, h2, _⟩ := centres_zapscan (s * c.unit (some m) + offset c h m) (e * c.unit (some m) + offset c h m) n hn
  unfold offset partners at h1
  rw [h1] at hr
  simp only [Except.ok.injEq, Prod.mk.injEq] at hr
  obtain ⟨hr, _⟩ := hr
  subst hr
  exact ⟨rfl, h2⟩

/-- A complete direction, slow. -/
theorem extract_slow {c : Cfg} {h : Header} (hs : Separate c) {vals : Dict Str (Option Rat)}
    (ho : readFloats c h (floatLabels c) [] = .ok vals) (nd : Option Int) (m : Str) (s e : Rat) (n : Nat)
    {a : Named} {d' : Dir} (hr : extractAxis c h vals false nd ⟨some m, some s, some e, some (n : Int)⟩ = .ok (a, d')) :
    a.name = some (axisName c h m) ∧
    a.ax.values = points (s * c.unit (some m) + offset c h m) (e * c.unit (some m) + offset c h m) n := by
  have hc := compensate_eq c h vals (partners c m) (fun v hv => vals_partner hs ho hv) (s * c.unit (some m)) (e * c.unit (some m)) m
  unfold extractAxis at hr
  unfold partners at hc
  simp only [hc, Bool.false_eq_true, if_false] at hr
  obtain ⟨b, h1, h2, _⟩ := points_ascan (s * c.unit (some m) + offset c h m) (e * c.unit (some m) + offset c h m) n
  unfold offset partners at h1
  rw [h1] at hr
  simp only [Except.ok.injEq, Prod.mk.injEq] at hr
  obtain ⟨hr, _⟩ := hr
  subst hr
  exact ⟨rfl, h2⟩

/-- **C76.** When the header describes the fast direction, the fast axis has the centres of its pixels,
shifted by the positions of the compensating motors, whatever the command in the header. -/
theorem fast_header {c : Cfg} {h : Header} {dims : Option (Option Int × Option Int)} {r : Result}
    (hr : parse c h dims = .ok r) (hs : Separate c) {m : Str} {s e : Rat} {n : Nat} (hn : 0 < n)
    (hd : Described c h c.fastlabel m s e n) :
    r.fast.name = some (axisName c h m) ∧
    r.fast.ax.values = centres (s * c.unit (some m) + offset c h m) (e * c.unit (some m) + offset c h m) n := by
  obtain ⟨df, ds, df', ds', vals, h1, h2, h3, h4, h5, _⟩ := parse_parts hr
  rw [readDir_described hd] at h1
  simp only [Except.ok.injEq] at h1
  subst h1
  exact extract_fast hs h3 _ m s e n hn h5

/-- **C76.** When the header describes the slow direction, the slow axis has the points of its steps,
shifted by the positions of the compensating motors. -/
theorem slow_header {c : Cfg} {h : Header} {dims : Option (Option Int × Option Int)} {r : Result}
    (hr : parse c h dims = .ok r) (hs : Separate c) {m : Str} {s e : Rat} {n : Nat}
    (hd : Described c h c.slowlabel m s e n) :
    r.slow.name = some (axisName c h m) ∧
    r.slow.ax.values = points (s * c.unit (some m) + offset c h m) (e * c.unit (some m) + offset c h m) n := by
  obtain ⟨df, ds, df', ds', vals, h1, h2, h3, h4, h5, _⟩ := parse_parts hr
  rw [readDir_described hd] at h2
  simp only [Except.ok.injEq] at h2
  subst h2
  exact extract_slow hs h3 _ m s e n h4

/-- What the command says about a direction. -/
def cmdFast (c : Cfg) (h : Header) : Dir := (title c h).fast
def cmdSlow (c : Cfg) (h : Header) : Dir := (title c h).slow

/-- **C76.** When the header does not name the fast motor, the fast axis is that of the command. -/
theorem fast_command {c : Cfg} {h : Header} {dims : Option (Option Int × Option Int)} {r : Result}
    (hr : parse c h dims = .ok r) (hs : Separate c) {m : Str} {s e : Rat} {n : Nat} (hn : 0 < n)
    (hu : Undescribed h c.fastlabel) (hd : cmdFast c h = ⟨some m, some s, some e, some (n : Int)⟩) :
    r.fast.name = some (axisName c h m) ∧
    r.fast.ax.values = centres (s * c.unit (some m) + offset c h m) (e * c.unit (some m) + offset c h m) n := by
  obtain ⟨df, ds, df', ds', vals, h1, h2, h3, h4, h5, _⟩ := parse_parts hr
  rw [readDir_undescribed hu] at h1
  simp only [Except.ok.injEq] at h1
  subst h1
  unfold cmdFast at hd
  rw [hd] at h5
  exact extract_fast hs h3 _ m s e n hn h5

/-- **C76.** The same for the slow axis. -/
theorem slow_command {c : Cfg} {h : Header} {dims : Option (Option Int × Option Int)} {r : Result}
    (hr : parse c h dims = .ok r) (hs : Separate c) {m : Str} {s e : Rat} {n : Nat}
    (hu : Undescribed h c.slowlabel) (hd : cmdSlow c h = ⟨some m, some s, some e, some (n : Int)⟩) :
    r.slow.name = some (axisName c h m) ∧
    r.slow.ax.values = points (s * c.unit (some m) + offset c h m) (e * c.unit (some m) + offset c h m) n := by
  obtain ⟨df, ds, df', ds', vals, h1, h2, h3, h4, h5, _⟩ := parse_parts hr
  rw [readDir_undescribed hu] at h2
  simp only [Except.ok.injEq] at h2
  subst h2
  unfold cmdSlow at hd
  rw [hd] at h4
  exact extract_slow hs h3 _ m s e n h4

/-- The number of pixels in the image: the default when it is given, otherwise that of the header. -/
def Pixels (c : Cfg) (h : Header) (key : Str) (nd : Option Int) (n : Nat) : Prop :=
  nd = some (n : Int) ∨ (nd = none ∧ ∃ t, h key = some t ∧ c.int t = some (n : Int))

theorem default_fast {c : Cfg} {h : Header} {nd : Option Int} {n : Nat} (hn : 0 < n) (hp : Pixels c h tDim1 nd n) :
    ∃ a, defaultAxis c h true nd = .ok a ∧ a.name = some tFast ∧
      a.ax.values = (List.range n).map fun (i : Nat) => (i : Rat) + 1 / 2 := by
  obtain ⟨k, rfl⟩ : ∃ k, n = k + 1 := ⟨n - 1, by omega⟩
  have hk : ((k + 1 : Nat) : Int) - 1 = (k : Int) := by push_cast; ring
  obtain ⟨b, h1, h2, _⟩ := points_ascan (1 / 2) ((k : Rat) + 1 / 2) k
  unfold SC.Axis.ascan at h1
  have hv : points (1 / 2) ((k : Rat) + 1 / 2) k = (List.range (k + 1)).map fun (i : Nat) => (i : Rat) + 1 / 2 := by
    unfold points
    apply List.map_congr_left
    intro i hi
    rcases Nat.eq_zero_or_pos k with rfl | hk0
    · have : i = 0 := by simpa using hi
      subst this; simp
    · have : (k : Rat) ≠ 0 := by positivity
      field_simp
      ring
  refine ⟨⟨some tFast, b⟩, ?_, rfl, by rw [h2, hv]⟩
  unfold defaultAxis
  rcases hp with hp | ⟨hp, t, h3, h4⟩
  · subst hp
    have : ((k + 1 : Nat) : Int) = Int.ofNat (k + 1) := rfl
    simp only [this, if_true]
    rw [← this, hk]
    simp only [Int.cast_natCast]
    rw [h1]
  · subst hp
    simp only [h3, h4, if_true]
    rw [hk]
    simp only [Int.cast_natCast]
    rw [h1]

theorem default_slow {c : Cfg} {h : Header} {nd : Option Int} {n : Nat} (hn : 0 < n) (hp : Pixels c h tDim2 nd n) :
    ∃ a, defaultAxis c h false nd = .ok a ∧ a.name = some tSlow ∧
      a.ax.values = (List.range n).map fun (i : Nat) => (i : Rat) := by
  obtain ⟨k, rfl⟩ : ∃ k, n = k + 1 := ⟨n - 1, by omega⟩
  have hk : ((k + 1 : Nat) : Int) - 1 = (k : Int) := by push_cast; ring
  obtain ⟨b, h1, h2, _⟩ := points_ascan 0 (k : Rat) k
  unfold SC.Axis.ascan at h1
  have hv : points 0 (k : Rat) k = (List.range (k + 1)).map fun (i : Nat) => (i : Rat) := by
    unfold points
    apply List.map_congr_left
    intro i hi
    rcases Nat.eq_zero_or_pos k with rfl | hk0
    · have : i = 0 := by simpa using hi
      subst this; simp
    · have : (k : Rat) ≠ 0 := by positivity
      field_simp
      ring
  refine ⟨⟨some tSlow, b⟩, ?_, rfl, by rw [h2, hv]⟩
  unfold defaultAxis
  rcases hp with hp | ⟨hp, t, h3, h4⟩
  · subst hp
    have : ((k + 1 : Nat) : Int) = Int.ofNat (k + 1) := rfl
    simp only [this, Bool.false_eq_true, if_false]
    rw [← this, hk]
    simp only [Int.cast_natCast]
    rw [h1]
  · subst hp
    simp only [h3, h4, Bool.false_eq_true, if_false]
    rw [hk]
    simp only [Int.cast_natCast]
    rw [h1]

/-- A direction with something missing. -/
def Incomplete (d : Dir) : Prop := d.start = none ∨ d.stop = none ∨ d.n = none

theorem extract_default {c : Cfg} {h : Header} {vals : Dict Str (Option Rat)} {fast : Bool} {nd : Option Int} {d d' : Dir}
    {a : Named} (hi : Incomplete d) (hr : extractAxis c h vals fast nd d = .ok (a, d')) : defaultAxis c h fast nd = .ok a := by
  obtain ⟨mot, s, e, n⟩ := d
  unfold extractAxis at hr
  simp only [Incomplete] at hi
  have key : ∀ d0 : Dir, (match defaultAxis c h fast nd with
      | .error e => (.error e : Except Err (Named × Dir))
      | .ok a => .ok (a, d0)) = .ok (a, d') → defaultAxis c h fast nd = .ok a := by
    intro d0 hh
    cases hda : defaultAxis c h fast nd with
    | error e => simp [hda] at hh
    | ok b =>
      simp only [hda, Except.ok.injEq, Prod.mk.injEq] at hh
      rw [hh.1]
  cases s with
  | none => exact key _ hr
  | some s => cases e with
    | none => exact key _ hr
    | some e => cases n with
      | none => exact key _ hr
      | some n => simp at hi

/-- **C76.** When nothing describes the fast direction, the fast axis numbers the centres of the pixels. -/
theorem fast_default {c : Cfg} {h : Header} {dims : Option (Option Int × Option Int)} {r : Result}
    (hr : parse c h dims = .ok r) (hu : Undescribed h c.fastlabel) (hd : Incomplete (cmdFast c h)) {n : Nat} (hn : 0 < n)
    (hp : Pixels c h ['D', 'i', 'm', '_', '1'] (dims.bind (·.2)) n) :
    r.fast.name = some tFast ∧ r.fast.ax.values = (List.range n).map fun (i : Nat) => (i : Rat) + 1 / 2 := by
  obtain ⟨df, ds, df', ds', vals, h1, h2, h3, h4, h5, _⟩ := parse_parts hr
  rw [readDir_undescribed hu] at h1
  simp only [Except.ok.injEq] at h1
  subst h1
  have h6 := extract_default hd h5
  obtain ⟨a, h7, h8⟩ := default_fast hn hp
  rw [h7] at h6
  simp only [Except.ok.injEq] at h6
  rw [← h6]; exact h8

/-- **C76.** When nothing describes the slow direction, the slow axis numbers the lines. -/
theorem slow_default {c : Cfg} {h : Header} {dims : Option (Option Int × Option Int)} {r : Result}
    (hr : parse c h dims = .ok r) (hu : Undescribed h c.slowlabel) (hd : Incomplete (cmdSlow c h)) {n : Nat} (hn : 0 < n)
    (hp : Pixels c h ['D', 'i', 'm', '_', '2'] (dims.bind (·.1)) n) :
    r.slow.name = some tSlow ∧ r.slow.ax.values = (List.range n).map fun (i : Nat) => (i : Rat) := by
  obtain ⟨df, ds, df', ds', vals, h1, h2, h3, h4, h5, _⟩ := parse_parts hr
  rw [readDir_undescribed hu] at h2
  simp only [Except.ok.injEq] at h2
  subst h2
  have h6 := extract_default hd h4
  obtain ⟨a, h7, h8⟩ := default_slow hn hp
  rw [h7] at h6
  simp only [Except.ok.injEq] at h6
  rw [← h6]; exact h8

/-- The kind of scan is that of the command, and that of an image when the header has no command. -/
theorem name_result {c : Cfg} {h : Header} {dims : Option (Option Int × Option Int)} {r : Result}
    (hr : parse c h dims = .ok r) :
    (∀ l cmd : Str, c.speclabel = some l → h l = some cmd → SC.Scan.parse cmd = none → r.name = tUnknown) ∧
    ((∀ l, c.speclabel = some l → h l = none) → r.name = tZapimage) := by
  obtain ⟨df, ds, df', ds', vals, _, _, _, _, _, _, h7⟩ := parse_parts hr
  rw [h7]
  unfold title
  constructor
  · intro l cmd h1 h2 h3
    simp [h1, h2, h3, ofCommand]
  · intro hh
    cases hsp : c.speclabel with
    | none => rfl
    | some l => simp [hh l hsp]

/-- Other values: NaN when the header does not have them. -/
theorem vals_result {c : Cfg} {h : Header} {dims : Option (Option Int × Option Int)} {r : Result}
    (hr : parse c h dims = .ok r) (hs : Separate c) {m v : Str} (hv : v ∈ partners c m) :
    Dict.get? r.out.vals v = some (if h v = none then none else some (position c h v)) := by
  obtain ⟨df, ds, df', ds', vals, h1, h2, h3, h4, h5, h6, _⟩ := parse_parts hr
  rw [h6]
  exact vals_partner hs h3 hv

end SC.EdfHead
