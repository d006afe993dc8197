import Verif.Linop.ClipLemmas
import Mathlib.Tactic.NormNum
import Mathlib.Algebra.Order.Ring.Rat
/-! # C13: operator algebra -/
namespace SC.Linop
open F

variable {K : Type} [Field K] [LinearOrder K]

/-- Operators as built by the constructors and products: slopes and offsets are finite and slopes
are not zero; `Identity` never sits in a longer chain. -/
def Atom.Good : Atom K → Prop
  | .linear m b => ∃ k c, m = .fin k ∧ b = .fin c ∧ k ≠ 0
  | _ => True

def Good (a : Op K) : Prop :=
  a ≠ [] ∧ (∀ t ∈ a, t.Good) ∧ (a.length ≠ 1 → ∀ t ∈ a, t ≠ .id)

theorem eval_append (a b : Op K) (x : F K) : eval (a ++ b) x = eval a (eval b x) := by
  induction a with
  | nil => rfl
  | cons t a ih => simp [eval, ih]

section
variable [IsStrictOrderedRing K]

/-- Chains without `Identity`. -/
def Plain (a : Op K) : Prop := (∀ t ∈ a, t.Good) ∧ ∀ t ∈ a, t ≠ .id

theorem mulAtom_plain (a : Atom K) (ha : a.Good) (hid : a ≠ .id) (r : Op K) (hr : Plain r) :
    Plain (mulAtom a r) ∧ mulAtom a r ≠ [] ∧ ∀ x, eval (mulAtom a r) x = a.eval (eval r x) := by
  induction r generalizing a with
  | nil =>
    cases a <;> first
      | exact absurd rfl hid
      | exact ⟨⟨by simp [mulAtom]; exact ha, by simp [mulAtom]⟩, by simp [mulAtom], fun x => by simp [mulAtom, eval]⟩
  | cons t rt ih =>
    obtain ⟨hg, hids⟩ := hr
    have htg := hg t (by simp)
    have hti := hids t (by simp)
    have hrt : Plain rt := ⟨fun t' h => hg t' (by simp [h]), fun t' h => hids t' (by simp [h])⟩
    have dflt : mulAtom a (t :: rt) = a :: t :: rt → Plain (mulAtom a (t :: rt)) ∧ mulAtom a (t :: rt) ≠ [] ∧
        ∀ x, eval (mulAtom a (t :: rt)) x = a.eval (eval (t :: rt) x) := by
      intro e
      rw [e]
      refine ⟨⟨?_, ?_⟩, by simp, fun x => rfl⟩
      · intro t' h'
        rcases List.mem_cons.mp h' with rfl | h'
        · exact ha
        · exact hg t' h'
      · intro t' h'
        rcases List.mem_cons.mp h' with rfl | h'
        · exact hid
        · exact hids t' h'
    have head : ∀ (h : Atom K), h.Good → h ≠ .id → mulAtom a (t :: rt) = h :: rt →
        (∀ x, h.eval x = a.eval (t.eval x)) → Plain (mulAtom a (t :: rt)) ∧ mulAtom a (t :: rt) ≠ [] ∧
        ∀ x, eval (mulAtom a (t :: rt)) x = a.eval (eval (t :: rt) x) := by
      intro h h1 h2 e h3
      rw [e]
      refine ⟨⟨?_, ?_⟩, by simp, fun x => by simp [eval, h3]⟩
      · intro t' h'
        rcases List.mem_cons.mp h' with rfl | h'
        · exact h1
        · exact hrt.1 t' h'
      · intro t' h'
        rcases List.mem_cons.mp h' with rfl | h'
        · exact h2
        · exact hrt.2 t' h'
    cases a with
    | id => exact absurd rfl hid
    | lambda f g =>
      apply dflt
      cases t <;> first | exact absurd rfl hti | rfl
    | linear m b =>
      cases t with
      | id => exact absurd rfl hti
      | lambda f g => exact dflt rfl
      | clip lo hi => exact dflt rfl
      | nclip lo hi => exact dflt rfl
      | linear m' b' =>
        obtain ⟨k, c, rfl, rfl, hk⟩ := ha
        obtain ⟨k', c', rfl, rfl, hk'⟩ := htg
        apply head (.linear (.fin (k * k')) (.fin (c' * k + c))) ⟨_, _, rfl, rfl, mul_ne_zero hk hk'⟩ (by simp) rfl
        intro x
        exact (linear_comp k k' c c' x).symm
    | clip lo hi =>
      cases t with
      | id => exact absurd rfl hti
      | lambda f g => exact dflt rfl
      | nclip lo' hi' => exact dflt rfl
      | clip lo' hi' =>
        cases hc : combine lo hi lo' hi' with
        | none => exact dflt (by simp only [mulAtom, hc])
        | some c =>
          exact head (.clip c.1 c.2) trivial (by simp) (by simp only [mulAtom, hc])
            (fun x => clip_combine hc x)
      | linear m b =>
        obtain ⟨k, c, rfl, rfl, hk⟩ := htg
        obtain ⟨⟨h1, h2⟩, h3, h4⟩ := ih (.clip (commuteLimits (fin k) (fin c) lo hi).1
          (commuteLimits (fin k) (fin c) lo hi).2) trivial (by simp) hrt
        have e : mulAtom (.clip lo hi) (.linear (.fin k) (.fin c) :: rt) = .linear (.fin k) (.fin c) ::
          mulAtom (.clip (commuteLimits (fin k) (fin c) lo hi).1 (commuteLimits (fin k) (fin c) lo hi).2) rt := rfl
        rw [e]
        refine ⟨⟨?_, ?_⟩, by simp, ?_⟩
        · intro t' h'
          rcases List.mem_cons.mp h' with rfl | h'
          · exact ⟨k, c, rfl, rfl, hk⟩
          · exact h1 t' h'
        · intro t' h'
          rcases List.mem_cons.mp h' with rfl | h'
          · simp
          · exact h2 t' h'
        · intro x
          simp only [eval, h4]
          exact clip_commute hk lo hi (eval rt x)
    | nclip lo hi =>
      cases t with
      | id => exact absurd rfl hti
      | lambda f g => exact dflt rfl
      | clip lo' hi' => exact dflt rfl
      | nclip lo' hi' =>
        cases hc : combine lo hi lo' hi' with
        | none => exact dflt (by simp only [mulAtom, hc])
        | some c =>
          exact head (.nclip c.1 c.2) trivial (by simp) (by simp only [mulAtom, hc])
            (fun x => nclip_combine hc x)
      | linear m b =>
        obtain ⟨k, c, rfl, rfl, hk⟩ := htg
        obtain ⟨⟨h1, h2⟩, h3, h4⟩ := ih (.nclip (commuteLimits (fin k) (fin c) lo hi).1
          (commuteLimits (fin k) (fin c) lo hi).2) trivial (by simp) hrt
        have e : mulAtom (.nclip lo hi) (.linear (.fin k) (.fin c) :: rt) = .linear (.fin k) (.fin c) ::
          mulAtom (.nclip (commuteLimits (fin k) (fin c) lo hi).1 (commuteLimits (fin k) (fin c) lo hi).2) rt := rfl
        rw [e]
        refine ⟨⟨?_, ?_⟩, by simp, ?_⟩
        · intro t' h'
          rcases List.mem_cons.mp h' with rfl | h'
          · exact ⟨k, c, rfl, rfl, hk⟩
          · exact h1 t' h'
        · intro t' h'
          rcases List.mem_cons.mp h' with rfl | h'
          · simp
          · exact h2 t' h'
        · intro x
          simp only [eval, h4]
          exact nclip_commute hk lo hi (eval rt x)

theorem mul_plain (a : Op K) (ha : Plain a) (hne : a ≠ []) (r : Op K) (hr : Plain r) :
    Plain (mul a r) ∧ mul a r ≠ [] ∧ ∀ x, eval (mul a r) x = eval a (eval r x) := by
  induction a with
  | nil => exact absurd rfl hne
  | cons t a ih =>
    cases a with
    | nil =>
      exact mulAtom_plain t (ha.1 t (by simp)) (ha.2 t (by simp)) r hr
    | cons t' a =>
      obtain ⟨h1, h2, h3⟩ := ih ⟨fun s h => ha.1 s (by simp [h]), fun s h => ha.2 s (by simp [h])⟩ (by simp)
      have e : mul (t :: t' :: a) r = t :: mul (t' :: a) r := rfl
      rw [e]
      refine ⟨⟨?_, ?_⟩, by simp, fun x => by simp [eval, h3]⟩
      · intro s hs
        rcases List.mem_cons.mp hs with rfl | hs
        · exact ha.1 _ (by simp)
        · exact h1.1 s hs
      · intro s hs
        rcases List.mem_cons.mp hs with rfl | hs
        · exact ha.2 _ (by simp)
        · exact h1.2 s hs

theorem good_cases {a : Op K} (h : Good a) : a = [.id] ∨ (Plain a ∧ a ≠ []) := by
  obtain ⟨h1, h2, h3⟩ := h
  by_cases hl : a.length = 1
  · obtain ⟨t, rfl⟩ := List.length_eq_one_iff.mp hl
    cases t <;> first
      | exact Or.inl rfl
      | exact Or.inr ⟨⟨h2, by simp⟩, by simp⟩
  · exact Or.inr ⟨⟨h2, h3 hl⟩, h1⟩

theorem good_plain {a : Op K} (h : Plain a) (hne : a ≠ []) : Good a := ⟨hne, h.1, fun _ => h.2⟩

theorem good_id : Good ([.id] : Op K) := ⟨by simp, by simp [Atom.Good], by simp⟩

theorem mul_id_right (a : Op K) (ha : Plain a) (hne : a ≠ []) : mul a [.id] = a := by
  induction a with
  | nil => exact absurd rfl hne
  | cons t a ih =>
    cases a with
    | nil =>
      have := ha.2 t (by simp)
      cases t <;> first | rfl
    | cons t' a =>
      have := ih ⟨fun s h => ha.1 s (by simp [h]), fun s h => ha.2 s (by simp [h])⟩ (by simp)
      show t :: mul (t' :: a) [.id] = _
      rw [this]

/-- **C13** (partial: slopes must be non-zero, see `mul_zero_slope`).  The product of operators,
simplified by the code, acts as the composition: on every argument, finite, infinite or NaN. -/
theorem mul_eval_partial (a r : Op K) (ha : Good a) (hr : Good r) :
    Good (mul a r) ∧ ∀ x, eval (mul a r) x = eval a (eval r x) := by
  rcases good_cases ha with rfl | ⟨pa, hna⟩
  · have e : mul [.id] r = r := by
      obtain ⟨t, u, rfl⟩ := List.exists_cons_of_ne_nil hr.1
      rfl
    rw [e]
    exact ⟨hr, fun x => rfl⟩
  · rcases good_cases hr with rfl | ⟨pr, hnr⟩
    · rw [mul_id_right a pa hna]
      exact ⟨ha, fun x => rfl⟩
    · obtain ⟨h1, h2, h3⟩ := mul_plain a pa hna r pr
      exact ⟨good_plain h1 h2, h3⟩

/-- **C13** (partial, as above).  A product of any number of operators, in any grouping of the
factors to the right, acts as the composition of the factors. -/
theorem product_eval_partial (l : List (Op K)) (hl : ∀ a ∈ l, Good a) :
    ∀ x, eval (l.foldr mul [.id]) x = l.foldr (fun a y => eval a y) x := by
  have : Good (l.foldr mul [.id]) ∧ ∀ x, eval (l.foldr mul [.id]) x = l.foldr (fun a y => eval a y) x := by
    induction l with
    | nil => exact ⟨good_id, fun x => rfl⟩
    | cons a l ih =>
      obtain ⟨h1, h2⟩ := ih (fun b h => hl b (by simp [h]))
      obtain ⟨h3, h4⟩ := mul_eval_partial a _ (hl a (by simp)) h1
      exact ⟨h3, fun x => by simp [h4, h2]⟩
  exact this.2

/-- **C13** (partial, as above).  ... and in a product grouped to the left. -/
theorem product_eval_left_partial (l : List (Op K)) (hl : ∀ a ∈ l, Good a) (x : F K) :
    eval (l.foldl mul [.id]) x = l.foldr (fun a y => eval a y) x := by
  have : ∀ (l : List (Op K)) (b : Op K), Good b → (∀ a ∈ l, Good a) →
      eval (l.foldl mul b) x = eval b (l.foldr (fun a y => eval a y) x) := by
    intro l
    induction l with
    | nil => intro b _ _; rfl
    | cons a l ih =>
      intro b hb hl
      obtain ⟨h3, h4⟩ := mul_eval_partial b a hb (hl a (by simp))
      simp only [List.foldl_cons, List.foldr_cons]
      rw [ih _ h3 (fun c h => hl c (by simp [h])), h4]
  rw [this l _ good_id hl]; rfl

example : Good ([.clip (some (.fin 0)) (some (.fin 10)), .linear (.fin (-2)) (.fin 3)] : Op Rat) := by
  refine ⟨by simp, ?_, by simp⟩
  simp [Atom.Good]

example : mul ([.clip (some (.fin 0)) (some (.fin 10))] : Op Rat) [.linear (.fin (-2)) (.fin 4)] =
    [.linear (.fin (-2)) (.fin 4), .clip (some (.fin (-3))) (some (.fin 2))] := by
  norm_num [mul, mulAtom, commuteLimits, movedLimit, validLimit, F.lt, F.sub, F.neg, F.add, F.div]

/-- **C13** (partial: exponents ≥ 1 of an operator without `_opright`; see `pow_zero_wrong` and
`pow_drops_right`).  `A ** n` is `n`-fold application. -/
theorem pow_eval_partial (m b : K) (hm : m ≠ 0) (n : Nat) (hn : 1 ≤ n) (x : F K) :
    eval (pow (.fin m) (.fin b) n) x = (eval [.linear (.fin m) (.fin b)])^[n] x := by
  have hgood : Good ([.linear (.fin m) (.fin b)] : Op K) :=
    good_plain ⟨by simp [Atom.Good, hm], by simp⟩ (by simp)
  have : ∀ n, Good (pow (.fin m) (.fin b) (n + 1)) ∧
      ∀ x, eval (pow (.fin m) (.fin b) (n + 1)) x = (eval [.linear (.fin m) (.fin b)])^[n + 1] x := by
    intro n
    induction n with
    | zero => exact ⟨hgood, fun x => rfl⟩
    | succ n ih =>
      obtain ⟨h1, h2⟩ := mul_eval_partial _ _ ih.1 hgood
      refine ⟨h1, fun x => ?_⟩
      show eval (mul (pow (.fin m) (.fin b) (n + 1)) [.linear (.fin m) (.fin b)]) x = _
      rw [h2, ih.2]
      exact (Function.iterate_succ_apply _ _ _).symm
  obtain ⟨k, rfl⟩ : ∃ k, n = k + 1 := ⟨n - 1, by omega⟩
  exact (this k).2 x

/-! ## inverses -/

/-- `Lambda` operators must be given an inverse that undoes them and keeps NaN. -/
def Atom.Inv : Atom K → Prop
  | .lambda f g => (∀ x, f (g x) = x) ∧ (∀ x, g (f x) = x) ∧ f .nan = .nan ∧ g .nan = .nan
  | _ => True

theorem inverse_linear {k c : K} (hk : k ≠ 0) (x : F K) :
    (Atom.inverse (.linear (.fin k) (.fin c))).eval x = linv k c x := by
  rcases lt_or_gt_of_ne hk with h | h
  · have h' : (k⁻¹ : K) < 0 := inv_neg''.mpr h
    cases x <;> simp [Atom.inverse, Atom.eval, F.div, F.neg, linv, F.sub, hk, F.add, F.mul, signInf, h', not_lt_of_gt, h]
    field_simp
  · have h' : 0 < (k⁻¹ : K) := inv_pos.mpr h
    cases x <;> simp [Atom.inverse, Atom.eval, F.div, F.neg, linv, F.sub, hk, F.add, F.mul, signInf, h', not_lt_of_gt, h]
    field_simp

theorem inverse_good {a : Atom K} (h : a.Good) : a.inverse.Good := by
  cases a with
  | linear m b =>
    obtain ⟨k, c, rfl, rfl, hk⟩ := h
    exact ⟨k⁻¹, -c / k, by simp [F.div, hk], by simp [F.div, F.neg, hk], inv_ne_zero hk⟩
  | _ => trivial

theorem inverse_eval (a : Op K) (ha : Good a) :
    Good (inverse a) ∧ ∀ x, eval (inverse a) x = a.foldl (fun y t => t.inverse.eval y) x := by
  rcases good_cases ha with rfl | ⟨pa, hna⟩
  · exact ⟨good_id, fun x => rfl⟩
  · have : Plain (inverse a) ∧ inverse a ≠ [] ∧
        ∀ x, eval (inverse a) x = a.foldl (fun y t => t.inverse.eval y) x := by
      clear ha
      induction a with
      | nil => exact absurd rfl hna
      | cons t a ih =>
        have hti : Plain [t.inverse] := by
          refine ⟨?_, ?_⟩
          · intro s hs
            rw [List.mem_singleton] at hs
            subst hs
            exact inverse_good (pa.1 t (by simp))
          · intro s hs
            rw [List.mem_singleton] at hs
            subst hs
            have := pa.2 t (by simp)
            cases t <;> simp_all [Atom.inverse]
        cases a with
        | nil => exact ⟨hti, by simp [inverse], fun x => rfl⟩
        | cons t' a =>
          obtain ⟨h1, h2, h3⟩ := ih ⟨fun s h => pa.1 s (by simp [h]), fun s h => pa.2 s (by simp [h])⟩ (by simp)
          obtain ⟨g1, g2, g3⟩ := mul_plain _ h1 h2 _ hti
          have e : inverse (t :: t' :: a) = mul (inverse (t' :: a)) [t.inverse] := rfl
          rw [e]
          refine ⟨g1, g2, fun x => ?_⟩
          rw [g3, h3]; rfl
    exact ⟨good_plain this.1 this.2.1, this.2.2⟩

/-- `x` passes unclipped through the chain. -/
def Unclipped : Op K → F K → Prop
  | [], _ => True
  | a :: r, x => Unclipped r x ∧
    match a with
    | .clip lo hi => evalNclip lo hi (eval r x) = eval r x ∧ evalClip lo hi (eval r x) = eval r x
    | .nclip lo hi => evalNclip lo hi (eval r x) = eval r x
    | _ => True

/-- **C13** (partial: non-zero slopes).  The inverse returns the argument, whenever no clipping
took place. -/
theorem inverse_apply_partial (a : Op K) (ha : Good a) (hinv : ∀ t ∈ a, t.Inv) (x : F K)
    (hu : Unclipped a x) : eval (inverse a) (eval a x) = x := by
  rw [(inverse_eval a ha).2]
  have hg := ha.2.1
  clear ha
  induction a with
  | nil => rfl
  | cons t a ih =>
    simp only [List.foldl_cons, eval]
    have hstep : t.inverse.eval (t.eval (eval a x)) = eval a x := by
      have hu2 := hu.2
      cases t with
      | id => rfl
      | lambda f g => exact (hinv (.lambda f g) (by simp)).2.1 _
      | clip lo hi => simp only at hu2; simp only [Atom.eval, Atom.inverse, hu2.2, hu2.1]
      | nclip lo hi => simp only at hu2; simp only [Atom.eval, Atom.inverse, hu2]
      | linear m b =>
        obtain ⟨k, c, rfl, rfl, hk⟩ := hg (.linear m b) (by simp)
        rw [inverse_linear hk]
        show linv k c (lin k c (eval a x)) = _
        by_cases hx : eval a x = nan
        · rw [hx]; simp
        · exact linv_lin hk hx
    rw [hstep]
    exact ih (fun t' h => hinv t' (by simp [h])) hu.1 (fun t' h => hg t' (by simp [h]))

/-- **C13** (partial: non-zero slopes).  Whatever number the inverse returns is a solution: the
operator maps it to the argument of the inverse. -/
theorem inverse_sound_partial (a : Op K) (ha : Good a) (hinv : ∀ t ∈ a, t.Inv) (y : F K)
    (hy : eval (inverse a) y ≠ .nan) : eval a (eval (inverse a) y) = y := by
  rw [(inverse_eval a ha).2] at hy ⊢
  have hg := ha.2.1
  clear ha
  induction a generalizing y with
  | nil => rfl
  | cons t a ih =>
    simp only [List.foldl_cons, eval] at hy ⊢
    rw [ih (fun t' h => hinv t' (by simp [h])) _ hy (fun t' h => hg t' (by simp [h]))]
    -- the inverse of one operator did not give NaN, because NaN is kept by the others
    have hnan : ∀ (a : Op K), (∀ t ∈ a, t.Inv) → (∀ t ∈ a, t.Good) →
        a.foldl (fun y t => t.inverse.eval y) (nan : F K) = nan := by
      intro a
      induction a with
      | nil => intros; rfl
      | cons s a ih2 =>
        intro h1 h2
        simp only [List.foldl_cons]
        have : s.inverse.eval (nan : F K) = nan := by
          cases s with
          | id => rfl
          | lambda f g => exact (h1 (.lambda f g) (by simp)).2.2.2
          | clip lo hi => exact evalNclip_nan lo hi
          | nclip lo hi => exact evalNclip_nan lo hi
          | linear m b =>
            obtain ⟨k, c, rfl, rfl, hk⟩ := h2 (.linear m b) (by simp)
            rw [inverse_linear hk]; simp
        rw [this]
        exact ih2 (fun t' h => h1 t' (by simp [h])) (fun t' h => h2 t' (by simp [h]))
    have hne : t.inverse.eval y ≠ nan := by
      intro h
      rw [h] at hy
      exact hy (hnan a (fun t' h => hinv t' (by simp [h])) (fun t' h => hg t' (by simp [h])))
    cases t with
    | id => rfl
    | lambda f g => exact (hinv (.lambda f g) (by simp)).1 _
    | clip lo hi =>
      have hy' : y ≠ nan := by rintro rfl; exact hne (evalNclip_nan lo hi)
      simp only [Atom.inverse, Atom.eval] at hne ⊢
      rw [nclip_val lo hi hy'] at hne ⊢
      by_cases hc : lower lo ≤ y.val ∧ y.val ≤ upper hi
      · rw [if_pos hc]
        obtain ⟨e1, e2⟩ := clip_val (le_trans hc.1 hc.2) hy'
        apply val_inj e1 hy'
        rw [e2, max_eq_right hc.1, min_eq_right hc.2]
      · rw [if_neg hc] at hne; exact absurd rfl hne
    | nclip lo hi =>
      have hy' : y ≠ nan := by rintro rfl; exact hne (evalNclip_nan lo hi)
      simp only [Atom.inverse, Atom.eval] at hne ⊢
      rw [nclip_val lo hi hy'] at hne ⊢
      by_cases hc : lower lo ≤ y.val ∧ y.val ≤ upper hi
      · rw [if_pos hc, nclip_val lo hi hy', if_pos hc]
      · rw [if_neg hc] at hne; exact absurd rfl hne
    | linear m b =>
      obtain ⟨k, c, rfl, rfl, hk⟩ := hg (.linear m b) (by simp)
      rw [inverse_linear hk] at hne ⊢
      have hy' : y ≠ nan := by rintro rfl; simp at hne
      exact lin_linv hk hy'

end

/-! ## deviations -/

/-- Simplifying a product with a linear operator of slope zero changes its value: clipping the
constant 5 to `[1, 2]` gives 2, the simplified product gives NaN. -/
theorem mul_zero_slope :
    eval ([.clip (some (.fin 1)) (some (.fin 2))] : Op Rat) (eval [.linear (.fin 0) (.fin 5)] (.fin 7)) = .fin 2 ∧
    eval (mul ([.clip (some (.fin 1)) (some (.fin 2))] : Op Rat) [.linear (.fin 0) (.fin 5)]) (.fin 7) = .nan := by
  constructor
  · norm_num [eval, Atom.eval, evalClip, validLimits, validLimit, F.add, F.mul, below, above, F.lt, F.le]
  · norm_num [mul, mulAtom, commuteLimits, movedLimit, eval, Atom.eval, evalClip, validLimits, validLimit,
      F.add, F.mul, F.sub, F.neg, F.div, below, above, F.lt, F.le, signInf]

/-- `A ** 0` is the constant 1, not the identity. -/
theorem pow_zero_wrong : eval (pow (.fin 3) (.fin 2) 0 : Op Rat) (.fin 7) = .fin 1 := by
  norm_num [pow, eval, Atom.eval, F.add, F.mul]

/-- A power ignores the operators to the right: `(L * Clip(0, 1)) ** 1` no longer clips. -/
theorem pow_drops_right :
    eval (mul ([.linear (.fin 3) (.fin 2)] : Op Rat) [.clip (some (.fin 0)) (some (.fin 1))]) (.fin 7) = .fin 5 ∧
    eval (pow (.fin 3) (.fin 2) 1 : Op Rat) (.fin 7) = .fin 23 := by
  constructor
  · norm_num [mul, mulAtom, eval, Atom.eval, evalClip, validLimits, validLimit, F.add, F.mul, below, above, F.lt, F.le]
  · norm_num [pow, eval, Atom.eval, F.add, F.mul]

/-- The inverse of the inverse of `Clip` is `NaNClip`. -/
theorem inverse_inverse_clip :
    eval (inverse (inverse ([.clip (some (.fin 0)) (some (.fin 1))] : Op Rat))) (.fin 7) = .nan ∧
    eval ([.clip (some (.fin 0)) (some (.fin 1))] : Op Rat) (.fin 7) = .fin 1 := by
  constructor
  · norm_num [inverse, Atom.inverse, eval, Atom.eval, evalNclip, validLimit, below, above, F.lt]
  · norm_num [eval, Atom.eval, evalClip, validLimits, validLimit, below, above, F.lt, F.le]

end SC.Linop
