import Verif.Diode.ChargeProps
import Verif.Fit.Props
/-! # C55: calibrating a diode -/
namespace SC.Diode
open SC.Linop (F)
open SC.Lut (Lut)

variable {K : Type} [Field K] [LinearOrder K] [IsStrictOrderedRing K]

/-! ## The charge after a calibration -/

theorem charge_again (d : Diode K) {e : List K} {w : Option (List K)} {lines : List (K × K)}
    (hr : reshape e w = .ok lines) (hne : e ≠ []) :
    charge d e (some (lines.map Prod.snd)) = charge d e w := by
  obtain ⟨h1, h2⟩ := reshape_spec hr hne
  have := reshape_again lines h2
  rw [h1] at this
  simp only [charge, this, hr]

theorem setParameter_spec {d d' : Diode K} {opt : CalibOption} {e : List K} {x : K}
    (h : setParameter d opt e x = .ok d') :
    d'.simple = d.simple ∧ ∀ lines, detectionRates d' lines = detectionRates d lines := by
  cases opt with
  | thickness =>
    simp only [setParameter] at h
    cases h; exact ⟨rfl, fun _ => rfl⟩
  | optics =>
    simp only [setParameter] at h
    cases ho : setOptic e [x] d.optics with
    | error err => rw [ho] at h; cases h
    | ok os => rw [ho] at h; cases h; exact ⟨rfl, fun _ => rfl⟩
  | solidangle => simp only [setParameter] at h; cases h
  | other => simp only [setParameter] at h; cases h

/-- Every answer of the search for a thickness or a transmission. -/
theorem search_ok {d d' : Diode K} {e : List K} {target cs : K} {lines : List (K × K)}
    {opt : CalibOption} {solve : (K → Except Err K) → K → Except Err (Option K)}
    (h : ((detectionRates d lines).bind fun rates =>
          (parameter d opt e).bind fun xorg =>
            (solve (objective d opt e lines rates target) xorg).bind fun x =>
              (setParameter d opt e (x.getD xorg)).bind fun d' =>
                (csOf d' lines rates).map fun cs => (d', cs)) = .ok (d', cs)) :
    ∃ rates xorg x, detectionRates d lines = .ok rates ∧ parameter d opt e = .ok xorg ∧
      solve (objective d opt e lines rates target) xorg = .ok x ∧
      setParameter d opt e (x.getD xorg) = .ok d' ∧ csOf d' lines rates = .ok cs := by
  cases h1 : detectionRates d lines with
  | error err => rw [h1] at h; cases h
  | ok rates =>
    rw [h1] at h
    simp only [Except.bind] at h
    cases h2 : parameter d opt e with
    | error err => rw [h2] at h; cases h
    | ok xorg =>
      rw [h2] at h
      simp only at h
      cases h3 : solve (objective d opt e lines rates target) xorg with
      | error err => rw [h3] at h; cases h
      | ok x =>
        rw [h3] at h
        simp only at h
        cases h4 : setParameter d opt e (x.getD xorg) with
        | error err => rw [h4] at h; cases h
        | ok d'' =>
          rw [h4] at h
          simp only at h
          cases h5 : csOf d'' lines rates with
          | error err => rw [h5] at h; cases h
          | ok c =>
            rw [h5] at h
            cases h
            exact ⟨rates, xorg, x, rfl, rfl, h3, h4, h5⟩

theorem calib_eq {d : Diode K} (hs : d.simple = false) {e : List K} {target : K} {w : Option (List K)}
    {lines : List (K × K)} (hr : reshape e w = .ok lines)
    {opt : CalibOption} (hopt : opt = .thickness ∨ opt = .optics)
    (solve : (K → Except Err K) → K → Except Err (Option K)) :
    calibrateCharge d e target w opt solve = ((detectionRates d lines).bind fun rates =>
          (parameter d opt e).bind fun xorg =>
            (solve (objective d opt e lines rates target) xorg).bind fun x =>
              (setParameter d opt e (x.getD xorg)).bind fun d' =>
                (csOf d' lines rates).map fun cs => (d', cs)) := by
  unfold calibrateCharge
  rw [hr]
  rcases hopt with rfl | rfl <;> rw [Except.bind, hs, if_neg Bool.false_ne_true]

theorem calib_eq_solid {d : Diode K} (hs : d.simple = false) {e : List K} {target : K} {w : Option (List K)}
    {lines : List (K × K)} (hr : reshape e w = .ok lines) (hne : e ≠ [])
    (solve : (K → Except Err K) → K → Except Err (Option K)) :
    calibrateCharge d e target w .solidangle solve = ((charge d e w).bind fun cs =>
          (divE target cs).bind fun r =>
            (charge { d with solidangle := d.solidangle * r } e w).map
              fun cs' => ({ d with solidangle := d.solidangle * r }, cs')) := by
  unfold calibrateCharge
  rw [hr]
  rw [Except.bind, hs, if_neg Bool.false_ne_true]
  simp only [charge_again _ hr hne]

/-- **C55.**  Whatever is calibrated and however the search ends, the charge reported by a calibration is
the charge the diode has afterwards. -/
theorem calib_consistent {d d' : Diode K} {e : List K} (hne : e ≠ []) {target cs : K} {w : Option (List K)}
    {opt : CalibOption} {solve : (K → Except Err K) → K → Except Err (Option K)}
    (h : calibrateCharge d e target w opt solve = .ok (d', cs)) : charge d' e w = .ok cs := by
  cases hr : reshape e w with
  | error err => rw [calibrateCharge, hr] at h; cases h
  | ok lines =>
    have h' := h
    rw [calibrateCharge, hr] at h
    simp only [Except.bind] at h
    split at h
    · split at h
      · cases h
      · split at h
        · cases h
        · rename_i t _
          rw [charge_again _ hr hne] at h
          cases hc : charge { d with lut := t } e w with
          | error err => rw [hc] at h; cases h
          | ok c => rw [hc] at h; cases h; exact hc
    · rename_i hs
      have key : ∀ {d'' : Diode K} {rates}, d''.simple = d.simple → detectionRates d lines = .ok rates →
          (∀ lines, detectionRates d'' lines = detectionRates d lines) → charge d'' e w = csOf d'' lines rates := by
        intro d'' rates hs' h1 h2
        have : isSimple d'' = false := by simp [isSimple, hs', hs]
        rw [(charge_eq this hr hne).1, h2, h1]; rfl
      cases opt with
      | other => cases h
      | solidangle =>
        simp only [charge_again _ hr hne] at h
        cases hc : charge d e w with
        | error err => rw [hc] at h; cases h
        | ok c =>
          rw [hc] at h
          simp only at h
          cases hd : divE target c with
          | error err => rw [hd] at h; cases h
          | ok r =>
            rw [hd] at h
            simp only at h
            cases hc' : charge { d with solidangle := d.solidangle * r } e w with
            | error err => rw [hc'] at h; cases h
            | ok c' => rw [hc'] at h; cases h; exact hc'
      | thickness =>
        rw [calib_eq (by simpa using hs) hr (by simp)] at h'
        obtain ⟨rates, xorg, x, h1, -, -, h4, h5⟩ := search_ok h'
        obtain ⟨a, b⟩ := setParameter_spec h4
        rw [key a h1 b, h5]
      | optics =>
        rw [calib_eq (by simpa using hs) hr (by simp)] at h'
        obtain ⟨rates, xorg, x, h1, -, -, h4, h5⟩ := search_ok h'
        obtain ⟨a, b⟩ := setParameter_spec h4
        rw [key a h1 b, h5]

/-- The solver finds roots only. -/
def Sound (solve : (K → Except Err K) → K → Except Err (Option K)) : Prop :=
  ∀ f x0 x, solve f x0 = .ok (some x) → f x = .ok 0

/-- The solver always converges. -/
def Converges (solve : (K → Except Err K) → K → Except Err (Option K)) : Prop :=
  ∀ f x0 r, solve f x0 = .ok r → r ≠ none

/-- **C55.**  When the search for a thickness or a transmission finds a root, the diode has afterwards the
charge asked for. -/
theorem calib_search {d d' : Diode K} (hs : d.simple = false) {e : List K} (hne : e ≠ []) {target cs : K}
    {w : Option (List K)} {opt : CalibOption} (hopt : opt = .thickness ∨ opt = .optics)
    {solve : (K → Except Err K) → K → Except Err (Option K)} (hsol : Sound solve) (hcon : Converges solve)
    (h : calibrateCharge d e target w opt solve = .ok (d', cs)) : charge d' e w = .ok target := by
  have hc := calib_consistent hne h
  cases hr : reshape e w with
  | error err => rw [calibrateCharge, hr] at h; cases h
  | ok lines =>
    rw [calib_eq hs hr hopt] at h
    have : ∃ rates xorg x, detectionRates d lines = .ok rates ∧ parameter d opt e = .ok xorg ∧
      solve (objective d opt e lines rates target) xorg = .ok x ∧
      setParameter d opt e (x.getD xorg) = .ok d' ∧ csOf d' lines rates = .ok cs := search_ok h
    obtain ⟨rates, xorg, x, -, -, h3, h4, h5⟩ := this
    obtain ⟨x, rfl⟩ := Option.ne_none_iff_exists'.mp (hcon _ _ _ h3)
    have h0 := hsol _ _ _ h3
    simp only [Option.getD_some] at h4
    simp only [objective, h4, Except.bind, h5, Except.map, Except.ok.injEq] at h0
    have : target - cs = 0 := pow_eq_zero_iff (two_ne_zero) |>.mp h0
    rw [hc, sub_eq_zero.mp this]

/-- **C55.**  When the search for a thickness does not converge the diode is what it was. -/
theorem calib_no_root {d d' : Diode K} (hs : d.simple = false) {e : List K} {target cs : K}
    {w : Option (List K)} {solve : (K → Except Err K) → K → Except Err (Option K)}
    (hsol : ∀ f x0, solve f x0 = .ok none)
    (h : calibrateCharge d e target w .thickness solve = .ok (d', cs)) : d' = d := by
  cases hr : reshape e w with
  | error err => rw [calibrateCharge, hr] at h; cases h
  | ok lines =>
    rw [calib_eq hs hr (by simp)] at h
    obtain ⟨rates, xorg, x, -, h2, h3, h4, -⟩ := search_ok h
    rw [hsol] at h3
    cases h3
    simp only [parameter, Except.ok.injEq] at h2
    subst h2
    simp only [setParameter, Option.getD_none, Except.ok.injEq] at h4
    rw [← h4]

/-- **C55.**  The solid angle of a diode with a secondary target is calibrated in one step. -/
theorem calib_solidangle {d : Diode K} {g : Target K} (hg : d.target = some g) (hs : d.simple = false)
    (ho : OpticsOk d) {e : List K} {w : Option (List K)} {lines : List (K × K)} (hr : reshape e w = .ok lines)
    (hne : e ≠ []) (h0 : Reaches d lines) {c : K} (hc : charge d e w = .ok c) (hc0 : c ≠ 0) (target : K)
    (solve : (K → Except Err K) → K → Except Err (Option K)) :
    calibrateCharge d e target w .solidangle solve
      = .ok ({ d with solidangle := d.solidangle * (target / c) }, target) := by
  have hs' : isSimple d = false := by simp [isSimple, hs]
  have val : ∀ s : K, charge { d with solidangle := s } e w = .ok (s * ((g.spectrum lines).map
      fun l => l.2 * pairs d l.1).sum / (lines.map fun l => l.2 * reaching d l.1).sum) := by
    intro s
    obtain ⟨h1, h2⟩ := charge_eq (d := { d with solidangle := s }) hs' hr hne
    have hd : detectionRates { d with solidangle := s } lines
        = .ok ((g.spectrum lines).map Prod.fst, (g.spectrum lines).map fun l => s * l.2) := by
      simp only [detectionRates, h2, Except.map, hg]
    rw [h1, hd]
    have := csOf_ok (d := { d with solidangle := s }) ho lines
      ((g.spectrum lines).map Prod.fst, (g.spectrum lines).map fun l => s * l.2)
      (sumProduct_target { d with solidangle := s } (g.spectrum lines) s) ((reaches_iff d lines).mp h0)
    refine this.trans ?_
    congr 2
    rw [← sum_scale]
    congr 1
    apply List.map_congr_left
    intro l _
    simp only [pairs]
    ring
  have hc1 := val d.solidangle
  rw [show ({ d with solidangle := d.solidangle } : Diode K) = d from rfl, hc, Except.ok.injEq] at hc1
  rw [calib_eq_solid hs hr hne]
  simp only [Except.bind, hc, divE_ok hc0, val, Except.map]
  congr 2
  have h0' := (reaches_iff d lines).mp h0
  rw [mul_right_comm, mul_div_right_comm, ← hc1, mul_div_cancel₀ _ hc0]

/-- **C55**, failing: a diode without secondary target has no solid angle in its charge, so that this
calibration changes nothing: the charge is the old one and not the one asked for. -/
theorem calib_solidangle_direct {d : Diode K} (hg : d.target = none) (hs : d.simple = false)
    {e : List K} {w : Option (List K)} (hne : e ≠ []) {c : K}
    (hc : charge d e w = .ok c) (hc0 : c ≠ 0) (target : K)
    (solve : (K → Except Err K) → K → Except Err (Option K)) :
    calibrateCharge d e target w .solidangle solve
      = .ok ({ d with solidangle := d.solidangle * (target / c) }, c) := by
  cases hr : reshape e w with
  | error err => simp [charge, hr, Except.bind] at hc
  | ok lines =>
    have hs' : isSimple d = false := by simp [isSimple, hs]
    have val : charge { d with solidangle := d.solidangle * (target / c) } e w = .ok c := by
      rw [← hc, (charge_eq hs' hr hne).1, (charge_eq (d := { d with solidangle := d.solidangle * (target / c) }) hs' hr hne).1]
      have : detectionRates { d with solidangle := d.solidangle * (target / c) } lines = detectionRates d lines := by
        simp only [detectionRates, hg]
      rw [this]
      rfl
    rw [calib_eq_solid hs hr hne]
    simp only [Except.bind, hc, divE_ok hc0, val, Except.map]

/-- **C55.**  A table of charges, with as many energies as source lines: each of the `n` lines gets the whole
charge, so that the charge of the diode becomes `n` times the one asked for. -/
theorem calib_table {d : Diode K} (hs : d.simple = true) (hf : Filled d.lut) {e : List K} (hnd : e.Nodup)
    {w : Option (List K)} {lines : List (K × K)} (hr : reshape e w = .ok lines) (hne : e ≠ [])
    (hw : ∀ l ∈ lines, l.2 ≠ 0) (target : K) (opt : CalibOption)
    (solve : (K → Except Err K) → K → Except Err (Option K)) :
    ∃ d', calibrateCharge d e target w opt solve = .ok (d', (e.length : K) * target) := by
  obtain ⟨h1, h2⟩ := reshape_spec hr hne
  have hlen : lines.length = e.length := by rw [← h1, List.length_map]
  obtain ⟨t', g1, -, g3, g4⟩ := filled_replace d.lut hf e (lines.map fun l => target / l.2) (by simp [hlen]) hne hnd
  have hcs : ∀ (sub : List (K × K)), (∀ l ∈ sub, Lut.call t' l.1 = some (target / l.2) ∧ l.2 ≠ 0) →
      csLut t' sub = .ok ((sub.length : K) * target) := by
    intro sub
    unfold csLut
    induction sub with
    | nil => intro _; simp [Except.map, pure, Except.pure]
    | cons a sub ih =>
      intro h
      have iha := ih fun l hl => h l (by simp [hl])
      obtain ⟨c1, c2⟩ := h a (by simp)
      have c3 : lutTerm t' a = .ok target := by
        simp only [lutTerm, c1, div_mul_cancel₀ _ c2]
      rw [List.mapM_cons, c3]
      cases hm : sub.mapM (lutTerm t') with
      | error err => rw [hm] at iha; cases iha
      | ok r =>
        rw [hm] at iha
        simp only [Except.map, Except.ok.injEq] at iha
        simp only [bind, Except.bind, pure, Except.pure, Except.map, List.sum_cons, iha, List.length_cons]
        congr 1
        push_cast
        ring
  have hall : ∀ l ∈ lines, Lut.call t' l.1 = some (target / l.2) ∧ l.2 ≠ 0 := by
    intro l hl
    obtain ⟨i, hi, rfl⟩ := List.mem_iff_getElem.mp hl
    refine ⟨?_, hw _ hl⟩
    have hi' : i < e.length := by omega
    have := g4 i hi'
    have he : e[i] = (lines[i]).1 := by simp [← h1]
    rw [he] at this
    rw [this]
    simp [List.getD_eq_getElem?_getD, hi]
  refine ⟨{ d with lut := t' }, ?_⟩
  have hany : lines.any (fun l => decide (l.2 = 0)) = false := by
    rw [List.any_eq_false]
    intro l hl
    simp [hw l hl]
  have hch : charge { d with lut := t' } e w = .ok ((e.length : K) * target) := by
    have hs' : isSimple { d with lut := t' } = true := by simp [isSimple, hs, g3]
    simp only [charge, hr, Except.bind, hs', if_true]
    rw [hcs lines hall, hlen]
  unfold calibrateCharge
  rw [hr]
  rw [Except.bind, if_pos hs, hany, if_neg Bool.false_ne_true, g1]
  simp only [charge_again _ hr hne, hch, Except.map]

/-- **C55**, failing: a transmission cannot be calibrated with several source lines. -/
theorem calib_optics_lines {d : Diode K} (hs : d.simple = false) {e : List K} {w : Option (List K)}
    {lines : List (K × K)} (hr : reshape e w = .ok lines) (hl : 2 ≤ e.length) (target : K)
    (solve : (K → Except Err K) → K → Except Err (Option K)) :
    ∃ err, calibrateCharge d e target w .optics solve = .error err := by
  have hne : e ≠ [] := by rintro rfl; simp at hl
  obtain ⟨-, ha⟩ := charge_eq (d := d) (by simp [isSimple, hs]) hr hne
  have hd : ∃ rates, detectionRates d lines = .ok rates := by
    unfold detectionRates; rw [ha]; exact ⟨_, rfl⟩
  obtain ⟨rates, hd⟩ := hd
  have hp : ∃ err, parameter d .optics e = .error err := by
    match e, hl with
    | a :: b :: e, _ =>
      simp only [parameter]
      cases calibOptic ((a :: b :: e).headD 0) d.optics with
      | error err => exact ⟨_, rfl⟩
      | ok v => exact ⟨_, rfl⟩
  obtain ⟨err, hp⟩ := hp
  refine ⟨err, ?_⟩
  rw [calib_eq hs hr (by simp)]
  simp only [Except.bind, hd, hp]

/-- **C55**, failing: with `bound` the bisection is given a square, which does not change its sign: unless an
end of the interval is a root, ValueError is raised. -/
theorem calib_bound {d : Diode K} {opt : CalibOption} {e : List K} {lines : List (K × K)}
    {rates : List K × List K} {target a b : K} {da db : Diode K} {ca cb : K}
    (ha : setParameter d opt e a = .ok da) (hb : setParameter d opt e b = .ok db)
    (hca : csOf da lines rates = .ok ca) (hcb : csOf db lines rates = .ok cb)
    (h1 : ca ≠ target) (h2 : cb ≠ target) (next : K → Except Err K) :
    bisect (objective d opt e lines rates target) a b next = .error .valueError := by
  have e1 : target - ca ≠ 0 := fun h => h1 (sub_eq_zero.mp h).symm
  have e2 : target - cb ≠ 0 := fun h => h2 (sub_eq_zero.mp h).symm
  have p1 : 0 < (target - ca) ^ 2 := by positivity
  have p2 : 0 < (target - cb) ^ 2 := by positivity
  simp only [bisect, objective, ha, hb, hca, hcb, Except.bind, Except.map, if_neg p1.ne', if_neg p2.ne',
    if_pos (mul_pos p1 p2)]

/-- Storing a transmission in the first element that has a table. -/
theorem setOptic_spec (E x : K) (os : List (Optic K)) (hl : ∃ t, Optic.lut t ∈ os)
    (hf : ∀ t, Optic.lut t ∈ os → Filled t) :
    ∃ os', setOptic [E] [x] os = .ok os' ∧ calibOptic E os' = .ok x ∧
      (∀ o ∈ os', ∀ e, ∃ v, opticTrans o e = .ok v) ∧
      ∃ T rest, calibOptic E os = .ok T ∧ (os.map (opticOf E)).prod = T * rest ∧
        (os'.map (opticOf E)).prod = x * rest := by
  have okAll : ∀ os : List (Optic K), (∀ t, Optic.lut t ∈ os → Filled t) → ∀ o ∈ os, ∀ e, ∃ v, opticTrans o e = .ok v := by
    intro os hf o ho e
    cases o with
    | filter T => exact ⟨_, rfl⟩
    | lut t =>
      obtain ⟨v, hv⟩ := filled_call t (hf t ho) e
      exact ⟨v, by simp only [opticTrans, hv]⟩
  induction os with
  | nil => obtain ⟨t, ht⟩ := hl; cases ht
  | cons o os ih =>
    cases o with
    | filter T =>
      obtain ⟨t, ht⟩ := hl
      simp only [List.mem_cons, reduceCtorEq, false_or] at ht
      obtain ⟨os', h1, h2, h3, T', rest, h4, h5, h6⟩ := ih ⟨t, ht⟩ fun t ht => hf t (by simp [ht])
      refine ⟨.filter T :: os', by simp only [setOptic, h1, Except.map], h2, ?_, T', T E * rest, h4, ?_, ?_⟩
      · intro o ho e
        rcases List.mem_cons.mp ho with rfl | ho
        · exact ⟨_, rfl⟩
        · exact h3 o ho e
      · simp only [List.map_cons, List.prod_cons, h5, opticOf]; ring
      · simp only [List.map_cons, List.prod_cons, h6, opticOf]; ring
    | lut t =>
      obtain ⟨t', g1, g2, -, g4⟩ := filled_replace t (hf t (by simp)) [E] [x] rfl (by simp) (by simp)
      have hx : Lut.call t' E = some x := by simpa using g4 0 (by simp)
      obtain ⟨v, hv⟩ := filled_call t (hf t (by simp)) E
      refine ⟨.lut t' :: os, by simp only [setOptic, g1], by simp only [calibOptic, opticTrans, hx], ?_, v,
        (os.map (opticOf E)).prod, by simp only [calibOptic, opticTrans, hv], ?_, ?_⟩
      · apply okAll
        intro t'' ht
        rcases List.mem_cons.mp ht with h | h
        · cases h; exact g2
        · exact hf t'' (by simp [h])
      · simp only [List.map_cons, List.prod_cons, opticOf, hv, Option.getD_some]
      · simp only [List.map_cons, List.prod_cons, opticOf, hx, Option.getD_some]

/-- **C55.**  For one source line and an element with a table there is a transmission that gives the charge
asked for: the old one times the ratio of the old and the new charge.  Once stored it is read back, and the
diode has this charge. -/
theorem calib_optics_exists {d : Diode K} (hs : d.simple = false) (hl : ∃ t, Optic.lut t ∈ d.optics)
    (hf : ∀ t, Optic.lut t ∈ d.optics → Filled t) {E : K} {w : Option (List K)} {lines : List (K × K)}
    (hr : reshape [E] w = .ok lines) (h0 : Reaches d lines) {c : K} (hc : charge d [E] w = .ok c) (hc0 : c ≠ 0)
    {target : K} (ht : target ≠ 0) :
    ∃ T d', calibOptic E d.optics = .ok T ∧ setParameter d .optics [E] (T * (c / target)) = .ok d' ∧
      calibOptic E d'.optics = .ok (T * (c / target)) ∧ charge d' [E] w = .ok target := by
  have hs' : isSimple d = false := by simp [isSimple, hs]
  have ho : OpticsOk d := by
    intro o ho e
    cases o with
    | filter T => exact ⟨_, rfl⟩
    | lut t =>
      obtain ⟨v, hv⟩ := filled_call t (hf t ho) e
      exact ⟨v, by simp only [opticTrans, hv]⟩
  obtain ⟨-, -, -, -, T, -, h4, -⟩ := setOptic_spec E 0 d.optics hl hf
  obtain ⟨os', h1, h2, h3, T', rest, h4', h5, h6⟩ := setOptic_spec E (T * (c / target)) d.optics hl hf
  rw [h4] at h4'
  cases h4'
  refine ⟨T, { d with optics := os' }, h4, by simp only [setParameter, h1, Except.map], h2, ?_⟩
  obtain ⟨l1, l2⟩ := reshape_spec hr (by simp)
  obtain ⟨l, rfl⟩ : ∃ l, lines = [l] := List.length_eq_one_iff.mp (by simpa using congrArg List.length l1)
  obtain ⟨E', u⟩ := l
  simp only [List.map_cons, List.map_nil, List.cons.injEq, and_true, List.sum_cons, List.sum_nil, add_zero] at l1 l2
  subst l1 l2
  have h0' := (reaches_iff d _).mp h0
  simp only [List.map_cons, List.map_nil, List.sum_cons, List.sum_nil, add_zero, one_mul] at h0'
  have hre : reaching { d with optics := os' } E' = reaching d E' * (c / target) := by
    simp only [reaching, h5, h6]
    ring
  have hre0 : reaching { d with optics := os' } E' ≠ 0 := by
    rw [hre]; exact mul_ne_zero h0' (div_ne_zero hc0 ht)
  rw [(charge_eq hs' hr (by simp)).1] at hc
  rw [(charge_eq (d := { d with optics := os' }) hs' hr (by simp)).1]
  rw [show detectionRates { d with optics := os' } = detectionRates d from rfl]
  cases hd : detectionRates d [(E', 1)] with
  | error err => rw [hd] at hc; cases hc
  | ok rates =>
    rw [hd] at hc
    simp only [Except.bind] at hc ⊢
    cases hp : sumProduct rates.2 (rates.1.map (chargePerDiode d)) with
    | error err => simp only [csOf, mapM_lines ho, Except.bind, hp] at hc; cases hc
    | ok sv =>
      have e1 := csOf_ok ho [(E', 1)] rates hp (by simpa using h0')
      rw [hc, Except.ok.injEq] at e1
      have e2 := csOf_ok (d := { d with optics := os' }) h3 [(E', 1)] rates (s := sv) hp (by simpa using hre0)
      rw [e2]
      simp only [List.map_cons, List.map_nil, List.sum_cons, List.sum_nil, add_zero, one_mul] at e1 ⊢
      rw [hre, Except.ok.injEq, ← div_div, ← e1]
      field_simp

/-! ## The fit -/

theorem misfit_shift (m c : K) (x y : List K) :
    Fit.misfit m 0 (x.zip (y.map fun a => a - c)) = Fit.misfit m c (x.zip y) := by
  unfold Fit.misfit
  rw [List.zip_map_right, List.map_map]
  congr 1
  apply List.map_congr_left
  intro p _
  simp only [Function.comp_apply, Prod.map, id]
  ring

/-- The misfit is convex. -/
theorem misfit_convex (pts : List (K × K)) (m b m' b' t : K) (h0 : 0 ≤ t) (h1 : t ≤ 1) :
    Fit.misfit ((1 - t) * m + t * m') ((1 - t) * b + t * b') pts
      ≤ (1 - t) * Fit.misfit m b pts + t * Fit.misfit m' b' pts := by
  induction pts with
  | nil => simp [Fit.misfit]
  | cons p pts ih =>
    unfold Fit.misfit at ih ⊢
    simp only [List.map_cons, List.sum_cons]
    have : (1 - t) * (p.2 - (m * p.1 + b)) ^ 2 + t * (p.2 - (m' * p.1 + b')) ^ 2
        - (p.2 - (((1 - t) * m + t * m') * p.1 + ((1 - t) * b + t * b'))) ^ 2
        = t * (1 - t) * ((p.2 - (m * p.1 + b)) - (p.2 - (m' * p.1 + b'))) ^ 2 := by ring
    have p0 : 0 ≤ t * (1 - t) * ((p.2 - (m * p.1 + b)) - (p.2 - (m' * p.1 + b'))) ^ 2 :=
      mul_nonneg (mul_nonneg h0 (sub_nonneg.mpr h1)) (sq_nonneg _)
    linarith

/-- **C55.**  The slope and the dark current fitted are those of the best line with a dark current that is
not negative. -/
theorem fit_dark (dark : K) (x y : List K) (hl : x.length = y.length) (hs : Fit.Spread x) :
    ∃ S D, fitCurrent dark false x y = .ok (S, D) ∧ 0 ≤ D ∧
      ∀ m b, 0 ≤ b → Fit.misfit S D (x.zip y) ≤ Fit.misfit m b (x.zip y) := by
  obtain ⟨m0, b0, e1, e2⟩ := (Fit.linfit2_spec x y hl).1 hs
  have hlen : 2 ≤ x.length := by
    obtain ⟨a, ha, b, hb, hab⟩ := hs
    match x, ha, hb with
    | [c], ha, hb => simp at ha hb; exact absurd (ha.trans hb.symm) hab
    | _ :: _ :: _, _, _ => simp
  have hnz : ∃ a ∈ x, a ≠ 0 := by
    obtain ⟨a, ha, b, hb, hab⟩ := hs
    by_cases h : a = 0
    · exact ⟨b, hb, fun h' => hab (h.trans h'.symm)⟩
    · exact ⟨a, ha, h⟩
  have hfit : fitCurrent dark false x y
      = if b0 < 0 then (linfitZero x y).map (fun m => (m, 0)) else .ok (m0, b0) := by
    simp only [fitCurrent, show ¬ x.length < 1 by omega, if_false, Bool.false_or,
      show (x.length == 1) = false by simp; omega, Bool.false_eq_true, linfit, e1, Except.bind]
  by_cases hb : b0 < 0
  · obtain ⟨m1, f1, f2⟩ := (Fit.linfit_zero_spec x y hl).1 hnz
    refine ⟨m1, 0, by rw [hfit, if_pos hb, linfitZero, f1]; rfl, le_refl _, ?_⟩
    intro m b hb0
    have hd : 0 < b - b0 := by linarith
    have t0 : 0 ≤ b / (b - b0) := div_nonneg hb0 hd.le
    have t1 : b / (b - b0) ≤ 1 := (div_le_one hd).mpr (by linarith)
    have cv := misfit_convex (x.zip y) m b m0 b0 (b / (b - b0)) t0 t1
    have hz : (1 - b / (b - b0)) * b + b / (b - b0) * b0 = 0 := by field_simp; ring
    rw [hz] at cv
    have c1 := (f2 ((1 - b / (b - b0)) * m + b / (b - b0) * m0)).1
    have c2 := (e2 m b).1
    have c3 : b / (b - b0) * Fit.misfit m0 b0 (x.zip y) ≤ b / (b - b0) * Fit.misfit m b (x.zip y) :=
      mul_le_mul_of_nonneg_left c2 t0
    calc Fit.misfit m1 0 (x.zip y) ≤ _ := c1
      _ ≤ _ := cv
      _ ≤ (1 - b / (b - b0)) * Fit.misfit m b (x.zip y) + b / (b - b0) * Fit.misfit m b (x.zip y) := by linarith
      _ = Fit.misfit m b (x.zip y) := by ring
  · exact ⟨m0, b0, by rw [hfit, if_neg hb], not_lt.mp hb, fun m b _ => (e2 m b).1⟩

/-- **C55.**  With a fixed dark current (also for one point) the slope is that of the best line with this
dark current, which is kept. -/
theorem fit_fixed_dark (dark : K) (x y : List K) (hl : x.length = y.length) (hx : ∃ a ∈ x, a ≠ 0)
    (fix : Bool) (hfix : fix = true ∨ x.length = 1) :
    ∃ S, fitCurrent dark fix x y = .ok (S, dark) ∧
      ∀ m, Fit.misfit S dark (x.zip y) ≤ Fit.misfit m dark (x.zip y) := by
  have hc : (fix || x.length == 1) = true := by rcases hfix with h | h <;> simp [h]
  have hlen : ¬ x.length < 1 := by
    obtain ⟨a, ha, -⟩ := hx
    have := List.length_pos_of_mem ha
    omega
  by_cases h1 : x.length = 1
  · obtain ⟨a, rfl⟩ := List.length_eq_one_iff.mp h1
    obtain ⟨b, rfl⟩ := List.length_eq_one_iff.mp (hl.symm.trans h1)
    have ha : a ≠ 0 := by simpa using hx
    refine ⟨(b - dark) / a, ?_, ?_⟩
    · simp [fitCurrent, ha, Except.map]
    · intro m
      simp only [Fit.misfit, List.zip_cons_cons, List.zip_nil_right, List.map_cons, List.map_nil, List.sum_cons,
        List.sum_nil, add_zero]
      rw [div_mul_cancel₀ _ ha]
      have : b - (b - dark + dark) = 0 := by ring
      rw [this, zero_pow two_ne_zero]
      exact sq_nonneg _
  · obtain ⟨m1, f1, f2⟩ := (Fit.linfit_zero_spec x (y.map fun a => a - dark) (by simpa using hl)).1 hx
    refine ⟨m1, ?_, ?_⟩
    · simp only [fitCurrent, hlen, if_false, hc, if_true, h1, linfitZero, f1, Except.map]
    · intro m
      have := (f2 m).1
      rwa [misfit_shift, misfit_shift] at this

theorem fit_exact (dark S D : K) (x : List K) (hs : Fit.Spread x) (hD : 0 ≤ D) :
    fitCurrent dark false x (x.map fun a => currentOf S D a) = .ok (S, D) := by
  have hlen : 2 ≤ x.length := by
    obtain ⟨a, ha, b, hb, hab⟩ := hs
    match x, ha, hb with
    | [c], ha, hb => simp at ha hb; exact absurd (ha.trans hb.symm) hab
    | _ :: _ :: _, _, _ => simp
  have e : (x.map fun a => currentOf S D a) = x.map fun a => S * a + D :=
    List.map_congr_left fun a _ => by simp only [currentOf]; ring
  simp only [fitCurrent, show ¬ x.length < 1 by omega, if_false, Bool.false_or,
    show (x.length == 1) = false by simp; omega, Bool.false_eq_true, linfit, e, Fit.linfit2_exact x S D hs,
    Except.bind, if_neg (not_lt.mpr hD)]

/-- A flux within the limits given to a calibration. -/
def Within (lo : K) (hi : Option K) (f : K) : Prop := lo ≤ f ∧ ∀ h, hi = some h → f ≤ h

omit [Field K] [IsStrictOrderedRing K] in
theorem inRange_iff (lo : K) (hi : Option K) (f : K) : inRange lo hi f = true ↔ Within lo hi f := by
  cases hi <;> simp [inRange, Within]

/-- **C55.**  A diode with a secondary target calibrated by its solid angle against a second diode which
measures the flux at the sample: it takes over the dark current and the charge per photon with which
the currents were made, and gives the fluxes back.  Points outside of the limits may be anything, the
others need two different fluxes. -/
theorem calib_end_to_end {d : Diode K} {g : Target K} (hg : d.target = some g) (hs : d.simple = false)
    (ho : OpticsOk d) {e : List K} {w : Option (List K)} {lines : List (K × K)} (hr : reshape e w = .ok lines)
    (hne : e ≠ []) (h0 : Reaches d lines) {c : K} (hc : charge d e w = .ok c) (hc0 : c ≠ 0)
    (solve : (K → Except Err K) → K → Except Err (Option K))
    (S D lo : K) (hi : Option K) (flux y : List K) (hl : flux.length = y.length) (hD : 0 ≤ D) (hS : S ≠ 0)
    (hy : ∀ p ∈ flux.zip y, Within lo hi p.1 → p.2 = currentOf S D p.1)
    (hf : ∃ a ∈ flux, ∃ b ∈ flux, a ≠ b ∧ Within lo hi a ∧ Within lo hi b) :
    ∃ d', calibrate d (.current y) flux e w .solidangle false lo hi solve = .ok (d', S) ∧
      d'.dark = D ∧ charge d' e w = .ok S ∧
      ∀ f, applyE (opCurrentToFlux d' e w) (currentOf S D f) = .ok (.fin f) := by
  have hcal := calib_solidangle (d := { d with dark := D }) hg hs ho hr hne h0 (c := c) hc hc0 S solve
  refine ⟨_, ?_, rfl, calib_consistent hne hcal, ?_⟩
  · have s1 : ((flux.zip y).filter fun p => inRange lo hi p.1).map Prod.snd
        = (((flux.zip y).filter fun p => inRange lo hi p.1).map Prod.fst).map (currentOf S D) := by
      rw [List.map_map]
      apply List.map_congr_left
      intro p hp
      obtain ⟨h1, h2⟩ := List.mem_filter.mp hp
      exact hy p h1 ((inRange_iff lo hi p.1).mp h2)
    have s2 : Fit.Spread (((flux.zip y).filter fun p => inRange lo hi p.1).map Prod.fst) := by
      obtain ⟨a, ha, b, hb, hab, wa, wb⟩ := hf
      have mem : ∀ a ∈ flux, Within lo hi a → a ∈ ((flux.zip y).filter fun p => inRange lo hi p.1).map Prod.fst := by
        intro a ha wa
        rw [← List.map_fst_zip (l₁ := flux) (l₂ := y) (by omega)] at ha
        obtain ⟨p, hp, rfl⟩ := List.mem_map.mp ha
        exact List.mem_map.mpr ⟨p, List.mem_filter.mpr ⟨hp, (inRange_iff lo hi p.1).mpr wa⟩, rfl⟩
      exact ⟨a, mem a ha wa, b, mem b hb wb, hab⟩
    simp only [calibrate, currents, Except.bind, hl, ne_eq, not_true_eq_false, if_false, s1]
    rw [fit_exact _ S D _ s2 hD]
    exact hcal
  · intro f
    rw [iToF (calib_consistent hne hcal) hS, applyE_linear]
    congr 2
    simp only [currentOf]
    field_simp
    ring

/-! ## Examples -/

/-- A solver for the examples: the Newton step that is exact for the thickness below. -/
def exampleSolve : (ℚ → Except Err ℚ) → ℚ → Except Err (Option ℚ) :=
  fun f x0 => (f x0).bind fun v => if v = 0 then .ok (some x0) else
    (f (x0 / 2)).bind fun v => if v = 0 then .ok (some (x0 / 2)) else .ok none

theorem exampleSolve_sound : Sound exampleSolve := by
  intro f x0 x h
  unfold exampleSolve at h
  cases h1 : f x0 with
  | error err => rw [h1] at h; cases h
  | ok v =>
    rw [h1] at h
    simp only [Except.bind] at h
    split at h
    · rename_i hv
      cases h
      rw [h1, hv]
    · cases h2 : f (x0 / 2) with
      | error err => rw [h2] at h; cases h
      | ok v2 =>
        rw [h2] at h
        simp only at h
        split at h
        · rename_i hv
          cases h
          rw [h2, hv]
        · cases h

/-- The diode of exampleDiode with a transmission that depends on the thickness. -/
def exampleThick : Diode ℚ := { exampleDiode with trans := fun x _ => 1 - x / 2 }

/-- A root found, and no root: the old thickness. -/
example : (calibrateCharge exampleThick [6] (1 / 4) none .thickness exampleSolve).map
      (fun p => (p.1.thickness, p.2)) = .ok (1 / 2, 1 / 4) ∧
    (calibrateCharge exampleThick [6] (1 / 5) none .thickness exampleSolve).map
      (fun p => (p.1.thickness, p.2)) = .ok (1, 1 / 2) := by
  constructor <;> decide +kernel

/-- The same, with an exception when there is no root. -/
def exampleStrict (f : ℚ → Except Err ℚ) (x0 : ℚ) : Except Err (Option ℚ) :=
  match exampleSolve f x0 with
  | .ok (some x) => .ok (some x)
  | _ => .error .valueError

theorem exampleStrict_sound : Sound exampleStrict ∧ Converges exampleStrict := by
  constructor
  · intro f x0 x h
    unfold exampleStrict at h
    split at h
    · rename_i hx
      cases h
      exact exampleSolve_sound _ _ _ hx
    · cases h
  · intro f x0 r h
    unfold exampleStrict at h
    split at h
    · cases h; simp
    · cases h

example (p : Diode ℚ × ℚ) (h : calibrateCharge exampleThick [6] (1 / 4) none .thickness exampleStrict = .ok p) :
    charge p.1 [6] none = .ok (1 / 4) ∧ charge p.1 [6] none = .ok p.2 :=
  ⟨calib_search rfl (by simp) (Or.inl rfl) exampleStrict_sound.1 exampleStrict_sound.2 h, calib_consistent (by simp) h⟩

/-- There is such a `p`. -/
example : (calibrateCharge exampleThick [6] (1 / 4) none .thickness exampleStrict).map
      (fun p => (p.1.thickness, p.2)) = .ok (1 / 2, 1 / 4) := by decide +kernel

theorem exampleTarget_charge : charge exampleTarget [6, 7] (some [1, 3]) = .ok (23 / 96) := by decide +kernel

example := calib_solidangle (d := exampleTarget) (g := ⟨_, _⟩) rfl rfl exampleTarget_ok (e := [6, 7]) (w := some [1, 3])
  (lines := [(6, 1 / 4), (7, 3 / 4)]) (by decide +kernel) (by simp)
  (by norm_num [Reaches, sampleFlux, reaching, exampleTarget, exampleDiode, opticOf, Lut.call, Lut.clear, Lut.isempty])
  exampleTarget_charge (by norm_num) 3 exampleSolve

example : calibrateCharge exampleDiode [6] 3 none .solidangle exampleSolve
    = .ok ({ exampleDiode with solidangle := 1 * (3 / (1 / 2)) }, 1 / 2) :=
  calib_solidangle_direct rfl rfl (by simp) exampleDiode_charge (by norm_num) 3 exampleSolve

example : ∃ d', calibrateCharge { exampleDiode with simple := true } [6, 7] 3 (some [1, 3]) .optics exampleSolve
    = .ok (d', 6) := by
  have := calib_table (d := { exampleDiode with simple := true }) rfl ⟨0, [], by simp, rfl⟩ (e := [6, 7]) (by decide)
    (w := some [1, 3]) (lines := [(6, 1 / 4), (7, 3 / 4)]) (by decide +kernel) (by simp) (by simp) 3 .optics exampleSolve
  norm_num at this
  exact this

example := calib_optics_exists (d := exampleTarget) rfl ⟨Lut.clear 1, by simp [exampleTarget]⟩
  (by
    intro t ht
    have : t = Lut.clear 1 := by simpa [exampleTarget] using ht
    exact this ▸ ⟨1, [], by simp, rfl⟩)
  (E := 6) (w := none) (lines := [(6, 1)]) (by decide +kernel)
  (by norm_num [Reaches, sampleFlux, reaching, exampleTarget, exampleDiode, opticOf, Lut.call, Lut.clear, Lut.isempty])
  (c := 5 / 24) (by decide +kernel) (by norm_num) (target := 3) (by norm_num)

example := calib_optics_lines (d := exampleTarget) rfl (e := [6, 7]) (w := some [1, 3])
  (lines := [(6, 1 / 4), (7, 3 / 4)]) (by decide +kernel) (by simp) 3 exampleSolve

example : bisect (objective exampleThick .thickness [6] [(6, 1)] ([6], [1 / 2]) (1 / 4)) 0 2 (fun _ => .ok 1)
    = .error .valueError :=
  calib_bound (ca := 0) (cb := 1) rfl rfl (by decide +kernel) (by decide +kernel) (by norm_num) (by norm_num) _

example : fitCurrent (1 : ℚ) false [1, 2] [1, 3] = .ok (7 / 5, 0) ∧ fitCurrent (1 : ℚ) false [1, 2] [4, 5] = .ok (1, 3) ∧
    fitCurrent (1 : ℚ) true [1, 2] [4, 5] = .ok (11 / 5, 1) ∧ fitCurrent (1 : ℚ) false [2] [5] = .ok (2, 1) := by
  decide +kernel

example := calib_end_to_end (d := exampleTarget) (g := ⟨_, _⟩) rfl rfl exampleTarget_ok (e := [6, 7]) (w := some [1, 3])
  (lines := [(6, 1 / 4), (7, 3 / 4)]) (by decide +kernel) (by simp)
  (by norm_num [Reaches, sampleFlux, reaching, exampleTarget, exampleDiode, opticOf, Lut.call, Lut.clear, Lut.isempty])
  exampleTarget_charge (by norm_num) exampleSolve 2 1 5 (some 7) [1, 6, 7, 8] [100, 13, 15, -3] rfl (by norm_num)
  (by norm_num) (by norm_num [Within, currentOf])
  ⟨6, by decide, 7, by decide, by norm_num [Within], by norm_num [Within], by norm_num [Within]⟩

end SC.Diode
