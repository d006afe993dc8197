import Verif.Xrmc.Loops
import Verif.Naming.Lemmas
import Mathlib.Algebra.Group.End
import Mathlib.GroupTheory.Perm.Basic
import Mathlib.Data.Fintype.Perm
import Mathlib.Data.List.Chain
/-! # C87: the loops of an xrmc simulation -/
namespace SC.Xrmc

variable {C G : Type} [Monoid G]

/-! ## Specification -/

/-- What the moves of a list of files do with device `d`. -/
def shift (act : C → G) (d : Nat) (ts : List (Transform C)) : G :=
  ts.foldl (fun g t => if d = t.device then moved act t.cmds g else g) 1

/-- Where device `d` has to be at a grid point: every loop is stepped as often as its index says, the outer
loops first. -/
def position (act : C → G) (d : Nat) : List (Axis C) → List Nat → G
  | ax :: axs, i :: is => position act d axs is * shift act d ax.transforms ^ i
  | _, _ => 1

/-- The retour of a loop undoes all its steps. -/
def Undo (act : C → G) (ax : Axis C) : Prop :=
  ∀ d, shift act d ax.rtransforms * shift act d ax.transforms ^ ax.nsteps = 1

/-- The index is on the grid. -/
def OnGrid : List Nat → List Nat → Prop
  | [], [] => True
  | n :: ns, i :: is => i ≤ n ∧ OnGrid ns is
  | _, _ => False

instance decOnGrid : (ns is : List Nat) → Decidable (OnGrid ns is)
  | [], [] => isTrue trivial
  | n :: ns, i :: is => by
    have := decOnGrid ns is
    unfold OnGrid
    infer_instance
  | [], _ :: _ => isFalse (fun h => h)
  | _ :: _, [] => isFalse (fun h => h)

/-! ## Moves -/

theorem moved_mul (act : C → G) (cmds : List C) (g : G) : moved act cmds g = moved act cmds 1 * g := by
  unfold moved
  induction cmds generalizing g with
  | nil => simp
  | cons c cs ih => simp only [List.foldl_cons]; rw [ih, ih (act c * 1)]; simp [mul_assoc]

theorem shift_foldl (act : C → G) (d : Nat) (ts : List (Transform C)) (g : G) :
    ts.foldl (fun g t => if d = t.device then moved act t.cmds g else g) g = shift act d ts * g := by
  unfold shift
  induction ts generalizing g with
  | nil => simp
  | cons t ts ih =>
    simp only [List.foldl_cons]
    rw [ih, ih (if d = t.device then _ else _)]
    split
    · rw [moved_mul act t.cmds g, mul_assoc]
    · simp

/-- Loading files in a row. -/
theorem exec_loads (act : C → G) (ts : List (Transform C)) (ls : List (Line C)) (s : Nat → G) :
    exec act (ts.map Line.load ++ ls) s = exec act ls (fun d => shift act d ts * s d) := by
  induction ts generalizing s with
  | nil => simp [shift]
  | cons t ts ih =>
    simp only [List.map_cons, List.cons_append, exec]
    rw [ih]
    congr 1
    funext d
    rw [← shift_foldl act d (t :: ts) (s d)]
    simp only [List.foldl_cons]
    rw [shift_foldl]

theorem exec_runs (act : C → G) (dets : List Nat) (x : Str) (ls : List (Line C)) (s : Nat → G) :
    exec act (dets.map (fun k => Line.run k x) ++ ls) s = dets.map (fun k => (k, x, s)) ++ exec act ls s := by
  induction dets with
  | nil => simp
  | cons k ks ih => simp only [List.map_cons, List.cons_append, exec]; rw [ih]

theorem shift_append (act : C → G) (d : Nat) (a b : List (Transform C)) :
    shift act d (a ++ b) = shift act d b * shift act d a := by
  conv_lhs => unfold shift
  rw [List.foldl_append, shift_foldl]
  rfl

/-! ## The order of the grid points -/

/-- The next index: an inner loop that is at its end starts again when an outer loop steps. -/
def Succ : List Nat → List Nat → List Nat → Prop
  | n :: ns, i :: is, j :: js => (i = j ∧ Succ ns is js) ∨ (j = i + 1 ∧ is = ns ∧ js = ns.map fun _ => 0)
  | _, _, _ => False

theorem product_head (ns : List Nat) : ∃ r, product ns = (ns.map fun _ => 0) :: r := by
  induction ns with
  | nil => exact ⟨[], rfl⟩
  | cons n ns ih =>
    obtain ⟨r, hr⟩ := ih
    unfold product
    rw [List.range_succ_eq_map, List.flatMap_cons, hr]
    exact ⟨_, rfl⟩

theorem product_last (ns : List Nat) : (product ns).getLast? = some ns := by
  induction ns with
  | nil => rfl
  | cons n ns ih =>
    unfold product
    rw [List.range_succ, List.flatMap_append, List.getLast?_append]
    simp [ih]

theorem product_chain (ns : List Nat) : List.IsChain (Succ ns) (product ns) := by
  induction ns with
  | nil => exact List.IsChain.singleton _
  | cons n ns ih =>
    unfold product
    obtain ⟨r, hr⟩ := product_head ns
    have one : ∀ i, List.IsChain (Succ (n :: ns)) ((product ns).map (i :: ·)) := by
      intro i
      rw [List.isChain_map]
      exact ih.imp (fun a b h => Or.inl ⟨rfl, h⟩)
    have all : ∀ m, List.IsChain (Succ (n :: ns)) ((List.range (m + 1)).flatMap fun i => (product ns).map (i :: ·)) ∧
        ((List.range (m + 1)).flatMap fun i => (product ns).map (i :: ·)).getLast? = some (m :: ns) := by
      intro m
      induction m with
      | zero =>
        refine ⟨?_, ?_⟩
        · simpa using one 0
        · simp [product_last]
      | succ m ihm =>
        rw [List.range_succ, List.flatMap_append]
        simp only [List.flatMap_cons, List.flatMap_nil, List.append_nil]
        refine ⟨?_, ?_⟩
        · rw [List.isChain_append]
          refine ⟨ihm.1, one _, ?_⟩
          intro x hx y hy
          rw [ihm.2] at hx
          rw [hr] at hy
          simp only [List.map_cons, List.head?_cons, Option.mem_def, Option.some.injEq] at hx hy
          subst hx; subst hy
          exact Or.inr ⟨rfl, rfl, rfl⟩
        · rw [List.getLast?_append]; simp [product_last]
    exact (all n).1

/-! ## One step -/

/-- From the end of all loops to their start. -/
theorem wrap (act : C → G) (d : Nat) (axs : List (Axis C)) (hu : ∀ ax ∈ axs, Undo act ax) (g : G) :
    shift act d (stepsOf axs ((axs.map (·.nsteps)).map Int.ofNat) (((axs.map (·.nsteps)).map fun _ => 0).map Int.ofNat)).reverse.flatten
      * (position act d axs (axs.map (·.nsteps)) * g) = g := by
  induction axs generalizing g with
  | nil => simp [stepsOf, position, shift]
  | cons ax axs ih =>
    have ih' := ih (fun a h => hu a (List.mem_cons_of_mem _ h))
    have h0 := hu ax (List.mem_cons_self) d
    simp only [List.map_cons, stepsOf, position]
    have hnot : ¬ Int.ofNat ax.nsteps < Int.ofNat 0 := by simp
    rw [if_neg hnot]
    by_cases hz : ax.nsteps = 0
    · rw [hz, if_neg (by simp)]
      simpa using ih' g
    · rw [if_pos (by simpa using Nat.pos_of_ne_zero hz)]
      rw [List.reverse_cons, List.flatten_append, shift_append]
      simp only [List.flatten_cons, List.flatten_nil, List.append_nil]
      rw [mul_assoc, mul_assoc, ih', ← mul_assoc, h0, one_mul]

theorem position_zero (act : C → G) (d : Nat) (axs : List (Axis C)) :
    position act d axs ((axs.map (·.nsteps)).map fun _ => 0) = 1 := by
  induction axs with
  | nil => rfl
  | cons ax axs ih => simp only [List.map_cons, position, pow_zero, mul_one]; exact ih

theorem step (act : C → G) (d : Nat) (axs : List (Axis C)) (hu : ∀ ax ∈ axs, Undo act ax) (is js : List Nat)
    (h : Succ (axs.map (·.nsteps)) is js) (g : G) :
    shift act d (stepsOf axs (is.map Int.ofNat) (js.map Int.ofNat)).reverse.flatten * (position act d axs is * g) =
      position act d axs js * g := by
  induction axs generalizing is js g with
  | nil => exact h.elim
  | cons ax axs ih =>
    match is, js, h with
    | i :: is, j :: js, Or.inl ⟨e, h⟩ =>
      subst e
      simp only [List.map_cons, stepsOf, position, lt_irrefl, if_false]
      rw [mul_assoc, mul_assoc]
      exact ih (fun a h => hu a (List.mem_cons_of_mem _ h)) is js h _
    | i :: is, j :: js, Or.inr ⟨e, h1, h2⟩ =>
      subst e; subst h1; subst h2
      simp only [List.map_cons, stepsOf, position]
      rw [if_pos (by simp only [Int.ofNat_eq_natCast]; omega)]
      rw [List.reverse_cons, List.flatten_append, shift_append]
      simp only [List.flatten_cons, List.flatten_nil, List.append_nil]
      rw [mul_assoc, mul_assoc]
      have := wrap act d axs (fun a h => hu a (List.mem_cons_of_mem _ h)) (shift act d ax.transforms ^ i * g)
      rw [this]
      have h0 := position_zero act d axs
      rw [h0, one_mul, pow_succ', mul_assoc]

theorem follow (act : C → G) (axs : List (Axis C)) (hu : ∀ ax ∈ axs, Undo act ax) (dets : List Nat) (s0 : Nat → G)
    (rest : List (List Nat)) (prev : List Nat) (h : List.IsChain (Succ (axs.map (·.nsteps))) (prev :: rest)) :
    exec act (bodyRest (axs.map (·.nsteps)) dets (loopStepsFrom axs (prev.map Int.ofNat) rest))
        (fun d => position act d axs prev * s0 d) =
      rest.flatMap fun idx => dets.map fun k => (k, suffix (axs.map (·.nsteps)) idx, fun d => position act d axs idx * s0 d) := by
  induction rest generalizing prev with
  | nil => rfl
  | cons idx rest ih =>
    rw [List.isChain_cons_cons] at h
    have ih' := ih idx h.2
    unfold bodyRest at ih' ⊢
    simp only [loopStepsFrom, List.flatMap_cons]
    rw [List.append_assoc, exec_loads, exec_runs]
    have e : (fun d => shift act d (stepsOf axs (prev.map Int.ofNat) (idx.map Int.ofNat)).reverse.flatten *
        (position act d axs prev * s0 d)) = fun d => position act d axs idx * s0 d := by
      funext d
      exact step act d axs hu prev idx h.1 _
    rw [e, ih']

/-- **C87.** Every detector runs exactly once at every grid point, in the order of the nested loops, with
every device at the position that belongs to that grid point: the moves and retours loaded on the way
accumulate to `index` steps of every loop. -/
theorem body_runs (act : C → G) (axs : List (Axis C)) (hu : ∀ ax ∈ axs, Undo act ax) (dets : List Nat) (s0 : Nat → G) :
    exec act (body axs dets) s0 = (product (axs.map (·.nsteps))).flatMap fun idx =>
      dets.map fun k => (k, suffix (axs.map (·.nsteps)) idx, fun d => position act d axs idx * s0 d) := by
  cases dets with
  | nil => simp [body, exec]
  | cons k0 ks =>
    cases axs with
    | nil =>
      have := exec_runs act (k0 :: ks) [] [] s0
      simp only [List.append_nil, exec] at this
      simp only [body, List.map_nil, product, List.flatMap_cons, List.flatMap_nil, List.append_nil, position, one_mul, suffix]
      exact this
    | cons ax axs =>
      obtain ⟨r, hr⟩ := product_head ((ax :: axs).map (·.nsteps))
      have hc := product_chain ((ax :: axs).map (·.nsteps))
      rw [hr] at hc
      have hf := follow act (ax :: axs) hu (k0 :: ks) s0 r _ hc
      have h0 : (fun d => position act d (ax :: axs) (((ax :: axs).map (·.nsteps)).map fun _ => 0) * s0 d) = s0 := by
        funext d; rw [position_zero, one_mul]
      rw [h0] at hf
      have hb : body (ax :: axs) (k0 :: ks) = (k0 :: ks).map (fun k => Line.run k (suffix ((ax :: axs).map (·.nsteps)) (((ax :: axs).map (·.nsteps)).map fun _ => 0))) ++
          bodyRest ((ax :: axs).map (·.nsteps)) (k0 :: ks) (loopStepsFrom (ax :: axs) ((((ax :: axs).map (·.nsteps)).map fun _ => 0).map Int.ofNat) r) := by
        unfold body loopSteps
        rw [hr]
        rfl
      rw [hb, exec_runs, hf, hr, List.flatMap_cons]
      rw [h0]

/-! ## When the retour undoes the steps -/

theorem shift_absent (act : C → G) (d : Nat) (ts : List (Transform C)) (h : ∀ t ∈ ts, d ≠ t.device) : shift act d ts = 1 := by
  unfold shift
  induction ts with
  | nil => rfl
  | cons t ts ih =>
    simp only [List.foldl_cons, if_neg (h t List.mem_cons_self)]
    exact ih (fun t ht => h t (List.mem_cons_of_mem _ ht))

theorem shift_cons (act : C → G) (d : Nat) (t : Transform C) (ts : List (Transform C)) :
    shift act d (t :: ts) = shift act d ts * (if d = t.device then moved act t.cmds 1 else 1) := by
  conv_lhs => unfold shift
  simp only [List.foldl_cons]
  rw [shift_foldl]

theorem undo_list (act : C → G) (back : Nat → C → C) (n : Nat) (law : ∀ c, act (back n c) * act c ^ n = 1) (d : Nat)
    (devices : List Nat) (hn : devices.Nodup) (steps : List C) :
    shift act d ((List.zipWith (fun d s => { device := d, cmds := s : Transform C }) devices (steps.map ([·]))).map (Transform.retour back n)) *
      shift act d (List.zipWith (fun d s => { device := d, cmds := s : Transform C }) devices (steps.map ([·]))) ^ n = 1 := by
  induction devices generalizing steps with
  | nil => simp [shift]
  | cons e es ih =>
    cases steps with
    | nil => simp [shift]
    | cons c cs =>
      rw [List.nodup_cons] at hn
      simp only [List.map_cons, List.zipWith_cons_cons]
      rw [shift_cons, shift_cons]
      by_cases hd : d = e
      · subst hd
        have a : ∀ t ∈ List.zipWith (fun d s => { device := d, cmds := s : Transform C }) es (cs.map ([·])), d ≠ t.device := by
          intro t ht
          obtain ⟨k, hk, rfl⟩ := List.mem_iff_getElem.1 ht
          simp only [List.getElem_zipWith]
          intro h
          exact hn.1 (h ▸ List.getElem_mem _)
        have b : ∀ t ∈ (List.zipWith (fun d s => { device := d, cmds := s : Transform C }) es (cs.map ([·]))).map (Transform.retour back n), d ≠ t.device := by
          intro t ht
          obtain ⟨u, hu, rfl⟩ := List.mem_map.1 ht
          exact a u hu
        rw [shift_absent act d _ a, shift_absent act d _ b]
        simp [Transform.retour, moved, law]
      · have hd' : ¬ d = (Transform.retour back n { device := e, cmds := [c] : Transform C }).device := hd
        rw [if_neg hd', if_neg hd, mul_one, mul_one]
        exact ih hn.2 cs

/-- **C87.** The retour undoes the steps of a loop with one move per device, provided the retour of every
move undoes it. -/
theorem mkAxis_undo (act : C → G) (back : Nat → C → C) (n : Nat) (law : ∀ c, act (back n c) * act c ^ n = 1)
    (devices : List Nat) (hn : devices.Nodup) (steps : List C) :
    Undo act (mkAxis back devices (steps.map ([·])) n) := by
  intro d
  exact undo_list act back n law d devices hn steps

/-! ## Names -/

theorem product_onGrid (ns is : List Nat) : is ∈ product ns ↔ OnGrid ns is := by
  induction ns generalizing is with
  | nil => cases is <;> simp [product, OnGrid]
  | cons n ns ih =>
    cases is with
    | nil => simp [product, OnGrid]
    | cons i is =>
      simp only [product, OnGrid, ← ih, List.mem_flatMap, List.mem_map, List.mem_range, List.cons.injEq]
      constructor
      · rintro ⟨a, ha, b, hb, rfl, rfl⟩
        exact ⟨by omega, hb⟩
      · rintro ⟨a, b⟩
        exact ⟨i, by omega, is, b, rfl, rfl⟩

theorem product_nodup (ns : List Nat) : (product ns).Nodup := by
  induction ns with
  | nil => simp [product]
  | cons n ns ih =>
    unfold product
    rw [List.nodup_flatMap]
    refine ⟨fun i _ => ih.map (fun a b h => by simpa using h), ?_⟩
    refine List.nodup_range.imp ?_
    intro a b hab x hx hy
    simp only [List.mem_map] at hx hy
    obtain ⟨u, _, rfl⟩ := hx
    obtain ⟨v, _, e⟩ := hy
    simp only [List.cons.injEq] at e
    exact hab e.1.symm

theorem product_length (ns : List Nat) : (product ns).length = (ns.map (· + 1)).prod := by
  induction ns with
  | nil => rfl
  | cons n ns ih => simp [product, ih, List.length_flatMap]

theorem pad_length (n i : Nat) (h : i ≤ n) :
    (Naming.pad (max (Nat.toDigits 10 n).length 1) i).length = (Nat.toDigits 10 n).length := by
  have h1 : (Nat.toDigits 10 i).length ≤ (Nat.toDigits 10 n).length := by
    have hp : 0 < (Nat.toDigits 10 n).length := Nat.length_toDigits_pos
    rw [Nat.length_toDigits_le_iff (by decide) hp]
    have := (Nat.length_toDigits_le_iff (b := 10) (n := n) (by decide) hp).1 le_rfl
    omega
  have hp : 0 < (Nat.toDigits 10 n).length := Nat.length_toDigits_pos
  unfold Naming.pad
  rw [List.length_append, List.length_replicate]
  omega

/-- **C87.** The suffixes of a simulation all have the same length. -/
theorem suffix_length (ns is : List Nat) (h : OnGrid ns is) :
    (suffix ns is).length = (ns.map fun n => (Nat.toDigits 10 n).length + 1).sum := by
  induction ns generalizing is with
  | nil => cases is <;> first | rfl | exact h.elim
  | cons n ns ih =>
    cases is with
    | nil => exact h.elim
    | cons i is =>
      simp only [suffix, List.length_cons, List.length_append, List.map_cons, List.sum_cons]
      rw [pad_length n i h.1, ih is h.2]
      omega

/-- **C87.** Different grid points have different suffixes. -/
theorem suffix_inj (ns is js : List Nat) (hi : OnGrid ns is) (hj : OnGrid ns js) (h : suffix ns is = suffix ns js) : is = js := by
  induction ns generalizing is js with
  | nil => cases is <;> cases js <;> first | rfl | exact hi.elim | exact hj.elim
  | cons n ns ih =>
    cases is with
    | nil => exact hi.elim
    | cons i is =>
      cases js with
      | nil => exact hj.elim
      | cons j js =>
        simp only [suffix, List.cons.injEq, true_and] at h
        have hl := List.append_inj h (by rw [pad_length n i hi.1, pad_length n j hj.1])
        rw [Naming.pad_inj hl.1, ih is js hi.2 hj.2 hl.2]

theorem outputSuffixes_eq (axs : List (Axis C)) :
    outputSuffixes axs = (product (axs.map (·.nsteps))).map (suffix (axs.map (·.nsteps))) := by
  cases axs with
  | nil => rfl
  | cons ax axs =>
    have : ∀ (l : List (List Nat)) (prev : List Int),
        (loopStepsFrom (ax :: axs) prev l).map (fun p => suffix ((ax :: axs).map (·.nsteps)) p.1) =
          l.map (suffix ((ax :: axs).map (·.nsteps))) := by
      intro l
      induction l with
      | nil => intro _; rfl
      | cons a l ih => intro prev; simp only [loopStepsFrom, List.map_cons]; rw [← List.map_cons, ih]
    exact this _ _

/-- **C87.** No result is overwritten: the listed outputs are all different and as many as there are grid
points. -/
theorem outputs_distinct (axs : List (Axis C)) :
    (outputSuffixes axs).Nodup ∧ (outputSuffixes axs).length = (axs.map (·.nsteps + 1)).prod := by
  rw [outputSuffixes_eq]
  refine ⟨?_, by simp [product_length, Function.comp_def]⟩
  refine List.Nodup.map_on ?_ (product_nodup _)
  intro x hx y hy hxy
  exact suffix_inj _ x y ((product_onGrid _ x).1 hx) ((product_onGrid _ y).1 hy) hxy

/-- **C87.** The listed outputs are those written by each detector, in the same order. -/
theorem outputs_written (act : C → G) (axs : List (Axis C)) (hu : ∀ ax ∈ axs, Undo act ax) (dets : List Nat)
    (hn : dets.Nodup) (k : Nat) (hk : k ∈ dets) (s0 : Nat → G) :
    ((exec act (body axs dets) s0).filter (fun r => r.1 = k)).map (fun r => r.2.1) = outputSuffixes axs := by
  rw [body_runs act axs hu, outputSuffixes_eq]
  have one : ∀ (x : Str) (s : Nat → G), ((dets.map fun k => (k, x, s)).filter (fun r => r.1 = k)).map (fun r => r.2.1) = [x] := by
    intro x s
    clear hu
    induction dets with
    | nil => cases hk
    | cons e es ih =>
      rw [List.nodup_cons] at hn
      by_cases he : e = k
      · subst he
        have : (es.map fun k => (k, x, s)).filter (fun r => r.1 = e) = [] := by
          rw [List.filter_eq_nil_iff]
          intro r hr
          obtain ⟨f, hf, rfl⟩ := List.mem_map.1 hr
          simp only [decide_eq_true_eq]
          intro h
          exact hn.1 (h ▸ hf)
        rw [List.map_cons, List.filter_cons_of_pos (by simp), this]
        rfl
      · rw [List.map_cons, List.filter_cons_of_neg (by simpa using he)]
        exact ih hn.2 ((List.mem_cons.1 hk).resolve_left (fun h => he h.symm))
  induction product (axs.map (·.nsteps)) with
  | nil => rfl
  | cons a l ih => rw [List.flatMap_cons, List.filter_append, List.map_append, one, ih]; rfl

/-! ## Examples -/

/-- Two loops of 2 and 1 steps about different axes (permutations of three things that do not commute). -/
def exLoops : List (Axis (Equiv.Perm (Fin 3))) :=
  [mkAxis (fun n c => (c ^ n)⁻¹) [0] [[Equiv.swap 0 1]] 2, mkAxis (fun n c => (c ^ n)⁻¹) [0, 1] [[Equiv.swap 1 2], [Equiv.swap 0 2]] 1]

example : ∀ ax ∈ exLoops, Undo (fun c => c) ax := by
  intro ax h
  simp only [exLoops, List.mem_cons, List.not_mem_nil, or_false] at h
  rcases h with rfl | rfl
  · exact mkAxis_undo (fun c => c) _ 2 (by intro c; simp) [0] (by decide) [Equiv.swap 0 1]
  · exact mkAxis_undo (fun c => c) _ 1 (by intro c; simp) [0, 1] (by decide) [Equiv.swap 1 2, Equiv.swap 0 2]

example : outputSuffixes exLoops = ["_0_0".toList, "_0_1".toList, "_1_0".toList, "_1_1".toList, "_2_0".toList, "_2_1".toList] := by
  decide +kernel

example : suffix [10, 2] [3, 1] = "_03_1".toList := by decide

/-- **C87, deviation.** The moves of a retour are in the order of the step and not reversed: with two moves
per step that do not commute the device does not return. -/
theorem retour_order : ¬ Undo (fun c : Equiv.Perm (Fin 3) => c)
    (mkAxis (fun n c => (c ^ n)⁻¹) [0] [[Equiv.swap 0 1, Equiv.swap 1 2]] 1) := by
  intro h
  exact absurd (h 0) (by decide)

/-- **C87, deviation.** A device listed twice in a loop does not return either when its moves do not
commute. -/
theorem device_twice : ¬ Undo (fun c : Equiv.Perm (Fin 3) => c)
    (mkAxis (fun n c => (c ^ n)⁻¹) [0, 0] [[Equiv.swap 0 1], [Equiv.swap 1 2]] 1) := by
  intro h
  exact absurd (h 0) (by decide)

end SC.Xrmc
