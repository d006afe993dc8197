import Verif.Xrmc.Frames
import Verif.Xrmc.LoopProps
import Verif.Quadric.Props
import Mathlib.LinearAlgebra.Matrix.NonsingularInverse
/-! # C87: the reference frames of an xrmc simulation -/
namespace SC.Xrmc
open Matrix

/-! ## Rotations -/

theorem trans_add (a b : V3) : trans a * trans b = trans ⟨a.x + b.x, a.y + b.y, a.z + b.z⟩ := by
  ext i j
  fin_cases i <;> fin_cases j <;> simp [trans, Matrix.mul_apply, Fin.sum_univ_four, add_comm]

theorem trans_zero : trans ⟨0, 0, 0⟩ = 1 := by
  ext i j
  fin_cases i <;> fin_cases j <;> simp [trans]

theorem trans_neg (a : V3) : trans ⟨-a.x, -a.y, -a.z⟩ * trans a = 1 := by
  rw [trans_add]
  simp only [neg_add_cancel]
  exact trans_zero

theorem rot_one (u : V3) : rot u 1 0 = 1 := by
  ext i j
  fin_cases i <;> fin_cases j <;> simp [rot]

/-- Rotations about the same unit axis add up. -/
theorem rot_mul (u : V3) (hu : u.x * u.x + u.y * u.y + u.z * u.z = 1) (c s c' s' : ℝ) :
    rot u c s * rot u c' s' = rot u (c * c' - s * s') (s * c' + c * s') := by
  obtain ⟨x, y, z⟩ := u
  simp only at hu
  ext i j
  fin_cases i <;> fin_cases j <;> simp [rot, Matrix.mul_apply, Fin.sum_univ_four]
  · linear_combination (-(s * s') + (1 - c) * (1 - c') * x * x) * hu
  · linear_combination ((1 - c) * (1 - c') * x * y) * hu
  · linear_combination ((1 - c) * (1 - c') * x * z) * hu
  · linear_combination ((1 - c) * (1 - c') * y * x) * hu
  · linear_combination (-(s * s') + (1 - c) * (1 - c') * y * y) * hu
  · linear_combination ((1 - c) * (1 - c') * y * z) * hu
  · linear_combination ((1 - c) * (1 - c') * z * x) * hu
  · linear_combination ((1 - c) * (1 - c') * z * y) * hu
  · linear_combination (-(s * s') + (1 - c) * (1 - c') * z * z) * hu

/-- The rotation matrix of the class: about the unit vector along the axis, by the angle divided by the
length of the given axis vector, in the opposite direction. -/
theorem rotationMatrix_eq (p u : V3) (a q : ℝ) (hq : 0 < q) (hu : u.x * u.x + u.y * u.y + u.z * u.z = q * q) :
    rotationMatrix p u a = trans (xyz p) *
      (rot ⟨-u.x / q, u.z / q, u.y / q⟩ (Real.cos (radians (-a) / q)) (Real.sin (radians (-a) / q)) *
        trans ⟨p.x, -p.z, -p.y⟩) := by
  obtain ⟨x, y, z⟩ := u
  simp only at hu
  simp only [rotationMatrix, xyz]
  generalize radians (-a) = r
  have hq0 : q ≠ 0 := hq.ne'
  split
  · rename_i hr
    rw [hr, zero_div, Real.cos_zero, Real.sin_zero, rot_one, one_mul, trans_add]
    simp only [neg_add_cancel, add_neg_cancel]
    exact trans_zero.symm
  · rename_i hr
    rw [neg_neg]
    have hs : -x * -x + z * z + y * y = q * q := by linarith
    rw [hs]
    refine congrArg (trans _ * ·) (congrArg (· * trans _) ?_)
    have hn : -x * (r / (q * q)) * (-x * (r / (q * q))) + z * (r / (q * q)) * (z * (r / (q * q))) +
        y * (r / (q * q)) * (y * (r / (q * q))) = (r / q) * (r / q) := by
      field_simp
      linear_combination hu
    have hne : r / q ≠ 0 := div_ne_zero hr hq0
    unfold fromRotvec
    simp only
    rw [hn, Real.sqrt_mul_self_eq_abs]
    rw [if_neg (by simpa using hne)]
    rcases lt_or_gt_of_ne hne with h | h
    · rw [abs_of_neg h, Real.cos_neg, Real.sin_neg]
      have e1 : ∀ w : ℝ, w * (r / (q * q)) / -(r / q) = -(w / q) := by
        intro w; field_simp
      rw [e1, e1, e1]
      ext i j
      fin_cases i <;> fin_cases j <;> simp [rot] <;> ring
    · rw [abs_of_pos h]
      have e1 : ∀ w : ℝ, w * (r / (q * q)) / (r / q) = w / q := by
        intro w; field_simp
      rw [e1, e1, e1]

/-- **C87.** Rotations about the same axis add up, whatever the length of the axis vector. -/
theorem rotation_add (p u : V3) (hu : u.x * u.x + u.y * u.y + u.z * u.z ≠ 0) (a b : ℝ) :
    rotationMatrix p u a * rotationMatrix p u b = rotationMatrix p u (a + b) := by
  have hp : 0 < u.x * u.x + u.y * u.y + u.z * u.z :=
    lt_of_le_of_ne (by nlinarith [mul_self_nonneg u.x, mul_self_nonneg u.y, mul_self_nonneg u.z]) (Ne.symm hu)
  have hq := Real.sqrt_pos.2 hp
  have hh := (Real.mul_self_sqrt hp.le).symm
  generalize Real.sqrt _ = q at hq hh
  rw [rotationMatrix_eq p u a q hq hh, rotationMatrix_eq p u b q hq hh, rotationMatrix_eq p u (a + b) q hq hh]
  have hr : radians (-(a + b)) / q = radians (-a) / q + radians (-b) / q := by unfold radians; ring
  rw [hr, Real.cos_add, Real.sin_add]
  have h1 : (⟨-u.x / q, u.z / q, u.y / q⟩ : V3).x * (⟨-u.x / q, u.z / q, u.y / q⟩ : V3).x +
      (⟨-u.x / q, u.z / q, u.y / q⟩ : V3).y * (⟨-u.x / q, u.z / q, u.y / q⟩ : V3).y +
      (⟨-u.x / q, u.z / q, u.y / q⟩ : V3).z * (⟨-u.x / q, u.z / q, u.y / q⟩ : V3).z = 1 := by
    simp only
    field_simp
    linear_combination hh
  rw [← rot_mul _ h1]
  have h2 : trans ⟨p.x, -p.z, -p.y⟩ * trans (xyz p) = 1 := by
    have := trans_neg (xyz p)
    simpa [xyz] using this
  generalize trans (xyz p) = T at *
  generalize trans ⟨p.x, -p.z, -p.y⟩ = T' at *
  generalize rot _ _ _ = R
  generalize rot _ _ _ = R'
  calc T * (R * T') * (T * (R' * T')) = T * (R * ((T' * T) * (R' * T'))) := by simp only [Matrix.mul_assoc]
    _ = T * (R * R' * T') := by rw [h2, Matrix.one_mul, Matrix.mul_assoc]

theorem rotation_zero (p u : V3) : rotationMatrix p u 0 = 1 := by
  simp [rotationMatrix, radians]

/-- **C87.** A rotation followed by its opposite. -/
theorem rotation_neg (p u : V3) (hu : u.x * u.x + u.y * u.y + u.z * u.z ≠ 0) (a : ℝ) :
    rotationMatrix p u (-a) * rotationMatrix p u a = 1 := by
  rw [rotation_add p u hu, neg_add_cancel, rotation_zero]

theorem translation_add (v w : V3) : translationMatrix v * translationMatrix w = translationMatrix ⟨v.x + w.x, v.y + w.y, v.z + w.z⟩ := by
  unfold translationMatrix
  rw [trans_add]
  simp only [xyz]
  rw [neg_add]

theorem translation_zero : translationMatrix ⟨0, 0, 0⟩ = 1 := by
  unfold translationMatrix xyz
  simp only [neg_zero]
  exact trans_zero

/-- A move whose axis is not zero. -/
def Move.Proper : Move → Prop
  | .rotate _ u _ => u.x * u.x + u.y * u.y + u.z * u.z ≠ 0
  | .translate _ => True

/-- **C87.** The retour of a move undoes `n` of these moves. -/
theorem retour_undoes (m : Move) (h : m.Proper) (n : Nat) : (m.retour n).matrix * m.matrix ^ n = 1 := by
  cases m with
  | rotate p u a =>
    have pw : ∀ k : Nat, rotationMatrix p u a ^ k = rotationMatrix p u (k * a) := by
      intro k
      induction k with
      | zero => rw [pow_zero, Nat.cast_zero, zero_mul, rotation_zero]
      | succ k ih => rw [pow_succ, ih, rotation_add p u h, Nat.cast_succ, add_mul, one_mul]
    simp only [Move.retour, Move.matrix]
    rw [pw, rotation_add p u h, neg_mul, neg_add_cancel, rotation_zero]
  | translate v =>
    have pw : ∀ k : Nat, translationMatrix v ^ k = translationMatrix ⟨k * v.x, k * v.y, k * v.z⟩ := by
      intro k
      induction k with
      | zero => rw [pow_zero, Nat.cast_zero, zero_mul, zero_mul, zero_mul, translation_zero]
      | succ k ih => rw [pow_succ, ih, translation_add, Nat.cast_succ]; simp only [add_mul, one_mul]
    simp only [Move.retour, Move.matrix]
    rw [pw, translation_add]
    simp only [neg_mul, neg_add_cancel]
    exact translation_zero

/-! ## Loops of rotations -/

/-- The arguments of add_rotationloop (xrmc.py:779-799) for a device and its quadrics, `two` for a device that
is not the sample. -/
noncomputable def rotationLoop (quadrics device : Nat) (two : Bool) (p u : V3) (a : ℝ) (n : Nat) : Axis Move :=
  if two then mkAxis Move.retour [quadrics, device] [[.rotate p u a], [.rotate p u a]] n
  else mkAxis Move.retour [quadrics] [[.rotate p u a]] n

/-- **C87.** The retour of a rotation loop brings the device and its quadrics back. -/
theorem rotationLoop_undo (quadrics device : Nat) (h : quadrics ≠ device) (two : Bool) (p u : V3)
    (hu : u.x * u.x + u.y * u.y + u.z * u.z ≠ 0) (a : ℝ) (n : Nat) :
    Undo Move.matrix (rotationLoop quadrics device two p u a n) := by
  have r := retour_undoes (.rotate p u a) hu n
  intro d
  unfold rotationLoop
  cases two
  · simp only [Bool.false_eq_true, if_false, mkAxis, List.zipWith_cons_cons, List.zipWith_nil_left, List.map_cons, List.map_nil,
      shift, List.foldl_cons, List.foldl_nil, Transform.retour, moved, mul_one]
    split
    · exact r
    · simp
  · simp only [if_true, mkAxis, List.zipWith_cons_cons, List.zipWith_nil_left, List.map_cons, List.map_nil,
      shift, List.foldl_cons, List.foldl_nil, Transform.retour, moved, mul_one]
    by_cases h1 : d = quadrics
    · subst h1
      simp only [if_true, if_neg h]
      exact r
    · by_cases h2 : d = device
      · simp only [h2, if_true, if_neg (Ne.symm h), mul_one]
        exact r
      · simp only [if_neg h1, if_neg h2]
        simp

/-- **C87.** The quadrics and the device of a loop stay together: they are moved by the same matrix. -/
theorem rotationLoop_together (quadrics device : Nat) (h : quadrics ≠ device) (p u : V3) (a : ℝ) (n : Nat) :
    shift Move.matrix quadrics (rotationLoop quadrics device true p u a n).transforms = rotationMatrix p u a ∧
    shift Move.matrix device (rotationLoop quadrics device true p u a n).transforms = rotationMatrix p u a := by
  simp only [rotationLoop, if_true, mkAxis, List.zipWith_cons_cons, List.zipWith_nil_left, shift, List.foldl_cons, List.foldl_nil,
    moved, mul_one, if_neg h, if_neg (Ne.symm h), Move.matrix, and_self]

/-- Two nested loops: the detector about two axes with the sample fixed. -/
example : ∀ ax ∈ [rotationLoop 0 1 true ⟨0, 0, 0⟩ ⟨0, 1, 0⟩ 10 3, rotationLoop 0 1 true ⟨0, 0, 0⟩ ⟨0, 0, 1⟩ 5 2], Undo Move.matrix ax := by
  intro ax h
  simp only [List.mem_cons, List.not_mem_nil, or_false] at h
  rcases h with rfl | rfl
  · exact rotationLoop_undo 0 1 (by decide) true _ _ (by norm_num) 10 3
  · exact rotationLoop_undo 0 1 (by decide) true _ _ (by norm_num) 5 2

/-! ## The frame of a device -/

theorem base_base : base * base = 1 := by
  ext i j
  fin_cases i <;> fin_cases j <;> simp [base, Matrix.mul_apply, Fin.sum_univ_four]

theorem unitY : (⟨0, 1, 0⟩ : V3).x * (⟨0, 1, 0⟩ : V3).x + (⟨0, 1, 0⟩ : V3).y * (⟨0, 1, 0⟩ : V3).y + (⟨0, 1, 0⟩ : V3).z * (⟨0, 1, 0⟩ : V3).z ≠ 0 := by
  norm_num

theorem unitZ : (⟨0, 0, 1⟩ : V3).x * (⟨0, 0, 1⟩ : V3).x + (⟨0, 0, 1⟩ : V3).y * (⟨0, 0, 1⟩ : V3).y + (⟨0, 0, 1⟩ : V3).z * (⟨0, 0, 1⟩ : V3).z ≠ 0 := by
  norm_num

/-- **C87.** The frames of a device are each other's inverse. -/
theorem frames_inverse (d : Device) : xrmcToUser d * userToXrmc d = 1 ∧ userToXrmc d * xrmcToUser d = 1 := by
  have h : xrmcToUser d * userToXrmc d = 1 := by
    have h2 := rotation_neg ⟨0, 0, 0⟩ ⟨0, 1, 0⟩ unitY d.polar
    have h3 := rotation_neg ⟨0, 0, 0⟩ ⟨0, 0, 1⟩ unitZ d.azimuth
    have h1 : translationMatrix ⟨-d.hoffset, -d.voffset, -d.radius⟩ * translationMatrix ⟨d.hoffset, d.voffset, d.radius⟩ = 1 := by
      rw [translation_add]
      simp only [neg_add_cancel]
      exact translation_zero
    have h0 := base_base
    unfold xrmcToUser userToXrmc
    simp only
    generalize rotationMatrix ⟨0, 0, 0⟩ ⟨0, 1, 0⟩ d.polar = P at *
    generalize rotationMatrix ⟨0, 0, 0⟩ ⟨0, 1, 0⟩ (-d.polar) = P' at *
    generalize rotationMatrix ⟨0, 0, 0⟩ ⟨0, 0, 1⟩ d.azimuth = Z at *
    generalize rotationMatrix ⟨0, 0, 0⟩ ⟨0, 0, 1⟩ (-d.azimuth) = Z' at *
    generalize translationMatrix _ = T at *
    generalize translationMatrix _ = T' at *
    calc base * (T * P' * Z') * (Z * (P * T' * base)) = base * (T * (P' * ((Z' * Z) * (P * (T' * base))))) := by
          simp only [Matrix.mul_assoc]
      _ = base * (T * ((P' * P) * (T' * base))) := by rw [h3, Matrix.one_mul, ← Matrix.mul_assoc P' P]
      _ = base * ((T * T') * base) := by rw [h2, Matrix.one_mul, ← Matrix.mul_assoc T T']
      _ = 1 := by rw [h1, Matrix.one_mul, h0]
  exact ⟨h, mul_eq_one_comm.1 h⟩

theorem rotY (a : ℝ) : rotationMatrix ⟨0, 0, 0⟩ ⟨0, 1, 0⟩ a =
    !![Real.cos (radians a), Real.sin (radians a), 0, 0; -Real.sin (radians a), Real.cos (radians a), 0, 0; 0, 0, 1, 0; 0, 0, 0, 1] := by
  rw [rotationMatrix_eq _ _ a 1 one_pos (by norm_num)]
  have e : radians (-a) = -radians a := by unfold radians; ring
  rw [e]
  simp only [xyz, neg_zero, div_one, trans_zero, Matrix.one_mul, Matrix.mul_one, Real.cos_neg, Real.sin_neg]
  ext i j
  fin_cases i <;> fin_cases j <;> simp [rot]

theorem rotZ (a : ℝ) : rotationMatrix ⟨0, 0, 0⟩ ⟨0, 0, 1⟩ a =
    !![Real.cos (radians a), 0, -Real.sin (radians a), 0; 0, 1, 0, 0; Real.sin (radians a), 0, Real.cos (radians a), 0; 0, 0, 0, 1] := by
  rw [rotationMatrix_eq _ _ a 1 one_pos (by norm_num)]
  have e : radians (-a) = -radians a := by unfold radians; ring
  rw [e]
  simp only [xyz, neg_zero, div_one, trans_zero, Matrix.one_mul, Matrix.mul_one, Real.cos_neg, Real.sin_neg]
  ext i j
  fin_cases i <;> fin_cases j <;> simp [rot]

/-- The place of a device with spherical coordinates in the user frame (xrmc.py:671-672), in the xrmc frame. -/
noncomputable def spherical (r polar azimuth : ℝ) : V3 :=
  xyz ⟨r * Real.sin (radians polar) * Real.cos (radians azimuth), r * Real.sin (radians polar) * Real.sin (radians azimuth),
    r * Real.cos (radians polar)⟩

/-- **C87.** The change of frame of the quadrics takes the documented place of the device to the origin. -/
theorem quadricFrame_origin (d : Device) (hh : d.hoffset = 0) (hv : d.voffset = 0) :
    quadricFrame d *ᵥ ![(spherical d.radius d.polar d.azimuth).x, (spherical d.radius d.polar d.azimuth).y,
      (spherical d.radius d.polar d.azimuth).z, 1] = ![0, 0, 0, 1] := by
  unfold quadricFrame
  simp only [rotY, rotZ, hh, hv, neg_zero, spherical, xyz]
  have h1 := Real.sin_sq_add_cos_sq (radians d.polar)
  have h2 := Real.sin_sq_add_cos_sq (radians d.azimuth)
  generalize Real.sin (radians d.polar) = sp at *
  generalize Real.cos (radians d.polar) = cp at *
  generalize Real.sin (radians d.azimuth) = sa at *
  generalize Real.cos (radians d.azimuth) = ca at *
  generalize d.radius = r
  rw [← Matrix.mulVec_mulVec, ← Matrix.mulVec_mulVec]
  ext i
  fin_cases i <;> simp [translationMatrix, trans, xyz, Matrix.mulVec, dotProduct, Fin.sum_univ_four]
  · linear_combination (-(r * sp * cp)) * h2
  · linear_combination (r * sp * sp) * h2 + r * h1
  · ring

/-- **C87, deviation.** The frame of the device itself has the origin of the device at the place with the
opposite angles. -/
theorem userToXrmc_origin (d : Device) (hh : d.hoffset = 0) (hv : d.voffset = 0) :
    userToXrmc d *ᵥ ![0, 0, 0, 1] = ![(spherical d.radius (-d.polar) (-d.azimuth)).x,
      (spherical d.radius (-d.polar) (-d.azimuth)).y, (spherical d.radius (-d.polar) (-d.azimuth)).z, 1] := by
  have e : ∀ a, radians (-a) = -radians a := by intro a; unfold radians; ring
  unfold userToXrmc
  simp only [rotY, rotZ, hh, hv, spherical, xyz, e, Real.sin_neg, Real.cos_neg]
  generalize Real.sin (radians d.polar) = sp at *
  generalize Real.cos (radians d.polar) = cp at *
  generalize Real.sin (radians d.azimuth) = sa at *
  generalize Real.cos (radians d.azimuth) = ca at *
  generalize d.radius = r
  rw [← Matrix.mulVec_mulVec, ← Matrix.mulVec_mulVec, ← Matrix.mulVec_mulVec]
  ext i
  fin_cases i <;> simp [translationMatrix, trans, xyz, base, Matrix.mulVec, dotProduct, Fin.sum_univ_four] <;> ring

/-- **C87, deviation.** So the two frames of a device do not belong together: for a device at polar angle 90
the quadrics are not at the origin of the device. -/
theorem frames_disagree : ∃ d : Device, quadricFrame d *ᵥ (userToXrmc d *ᵥ ![0, 0, 0, 1]) ≠ ![0, 0, 0, 1] := by
  refine ⟨⟨1, 90, 0, 0, 0⟩, ?_⟩
  have e90 : radians 90 = Real.pi / 2 := by unfold radians; ring
  have e0 : radians 0 = 0 := by simp [radians]
  have em : ∀ a, radians (-a) = -radians a := by intro a; unfold radians; ring
  rw [userToXrmc_origin _ rfl rfl]
  unfold quadricFrame
  simp only [rotY, rotZ, spherical, xyz, em, e90, e0, Real.sin_neg, Real.cos_neg, Real.sin_zero, Real.cos_zero, Real.sin_pi_div_two,
    Real.cos_pi_div_two, neg_zero]
  rw [← Matrix.mulVec_mulVec, ← Matrix.mulVec_mulVec]
  intro h
  have := congrFun h 1
  simp [translationMatrix, trans, xyz, Matrix.mulVec, dotProduct, Fin.sum_univ_four] at this

/-- **C87.** With the opposite angles they do: the change of frame of the quadrics is the inverse of that
placement. -/
theorem quadricFrame_inverse (d : Device) :
    quadricFrame d * (userToXrmc { d with polar := -d.polar, azimuth := -d.azimuth } * base) = 1 := by
  have h2 := rotation_add ⟨0, 0, 0⟩ ⟨0, 1, 0⟩ unitY d.polar (-d.polar)
  have h3 := rotation_add ⟨0, 0, 0⟩ ⟨0, 0, 1⟩ unitZ d.azimuth (-d.azimuth)
  rw [add_neg_cancel, rotation_zero] at h2 h3
  have h1 : translationMatrix ⟨-d.hoffset, -d.voffset, -d.radius⟩ * translationMatrix ⟨d.hoffset, d.voffset, d.radius⟩ = 1 := by
    rw [translation_add]
    simp only [neg_add_cancel]
    exact translation_zero
  have h0 := base_base
  unfold quadricFrame userToXrmc
  simp only
  generalize rotationMatrix ⟨0, 0, 0⟩ ⟨0, 1, 0⟩ d.polar = P at *
  generalize rotationMatrix ⟨0, 0, 0⟩ ⟨0, 1, 0⟩ (-d.polar) = P' at *
  generalize rotationMatrix ⟨0, 0, 0⟩ ⟨0, 0, 1⟩ d.azimuth = Z at *
  generalize rotationMatrix ⟨0, 0, 0⟩ ⟨0, 0, 1⟩ (-d.azimuth) = Z' at *
  generalize translationMatrix _ = T at *
  generalize translationMatrix _ = T' at *
  calc T * (P * Z) * (Z' * (P' * T' * base) * base) = T * (P * ((Z * Z') * (P' * (T' * (base * base))))) := by
        simp only [Matrix.mul_assoc]
    _ = T * ((P * P') * T') := by rw [h3, h0, Matrix.one_mul, Matrix.mul_one, ← Matrix.mul_assoc P P']
    _ = 1 := by rw [h2, Matrix.one_mul, h1]

/-- **C87.** The rotation matrix in the xrmc frame is the rotation in the user frame by the opposite angle
(right-hand rule) in other coordinates. -/
theorem rotation_direction (u : V3) (hu : u.x * u.x + u.y * u.y + u.z * u.z = 1) (a : ℝ) :
    rotationMatrix ⟨0, 0, 0⟩ u a = base * (rot u (Real.cos (radians (-a))) (Real.sin (radians (-a))) * base) := by
  rw [rotationMatrix_eq _ _ a 1 one_pos (by rw [hu, one_mul])]
  simp only [xyz, neg_zero, div_one, trans_zero, Matrix.one_mul, Matrix.mul_one]
  ext i j
  fin_cases i <;> fin_cases j <;> simp [rot, base, Matrix.mul_apply, Fin.sum_univ_four] <;> ring

/-- **C87, deviation.** The length of the axis vector divides the angle: an axis that is not normalized
rotates by another angle. -/
theorem rotation_axis_length (p u : V3) (hu : u.x * u.x + u.y * u.y + u.z * u.z = 1) (k : ℝ) (hk : 0 < k) (a : ℝ) :
    rotationMatrix p ⟨k * u.x, k * u.y, k * u.z⟩ a = rotationMatrix p u (a / k) := by
  rw [rotationMatrix_eq p ⟨k * u.x, k * u.y, k * u.z⟩ a k hk (by simp only; linear_combination k * k * hu),
    rotationMatrix_eq p u (a / k) 1 one_pos (by rw [hu, one_mul])]
  have h0 : k ≠ 0 := hk.ne'
  have e : radians (-a) / k = radians (-(a / k)) / 1 := by unfold radians; field_simp
  rw [e]
  have e1 : -(k * u.x) / k = -u.x / 1 := by field_simp
  have e2 : k * u.z / k = u.z / 1 := by field_simp
  have e3 : k * u.y / k = u.y / 1 := by field_simp
  simp only [e1, e2, e3]

/-! ## Quadrics of fixed devices -/

variable {K : Type} [Field K]

/-- The symmetric matrix that xrmc makes of ten numbers: `A0*x^2 + 2*A1*x*y + ...` (xrmc.py:1721). -/
def symmetric : List K → Matrix (Fin 4) (Fin 4) K
  | [a0, a1, a2, a3, a4, a5, a6, a7, a8, a9] => !![a0, a1, a2, a3; a1, a4, a5, a6; a2, a5, a7, a8; a3, a6, a8, a9]
  | _ => 0

theorem symmetric_lower (A : Matrix (Fin 4) (Fin 4) K) (h : Aᵀ = A) : symmetric (lower A) = A := by
  have e : ∀ i j, A i j = A j i := fun i j => by conv_lhs => rw [← h]; exact Matrix.transpose_apply A i j
  ext i j
  fin_cases i <;> fin_cases j <;> simp [symmetric, lower] <;> exact e _ _

theorem frame_symm {n : Nat} (A C : Matrix (Fin n) (Fin n) K) (h : Aᵀ = A) : (Quadric.changeOfFrame A C)ᵀ = Quadric.changeOfFrame A C := by
  unfold Quadric.changeOfFrame
  rw [Matrix.transpose_mul, Matrix.transpose_mul, Matrix.transpose_transpose, h, Matrix.mul_assoc]

/-- **C87.** The ten numbers written for a plane or an ellipsoid of a fixed device describe the surface moved
by the frame: their form at a point is that of the surface at the point in the old frame. -/
theorem transformed_value (k : Kind) (hk : k = .plane ∨ k = .ellipsoid) (a b c u v w : K) (C : Matrix (Fin 4) (Fin 4) K) :
    ∃ l, transformedQuadric k [a, b, c, u, v, w] C = some l ∧ ∀ x : Fin 4 → K,
      x ⬝ᵥ (symmetric l *ᵥ x) = (C *ᵥ x) ⬝ᵥ ((match k with
        | .plane => Quadric.plane ![a, b, c] ![u, v, w]
        | _ => Quadric.ellipsoid ![a, b, c] ![u, v, w]) *ᵥ (C *ᵥ x)) := by
  rcases hk with rfl | rfl
  · refine ⟨_, rfl, fun x => ?_⟩
    have hs : (Quadric.plane ![a, b, c] ![u, v, w])ᵀ = Quadric.plane ![a, b, c] ![u, v, w] :=
      Matrix.ext fun i j => Quadric.plane_symm _ _ i j
    rw [symmetric_lower _ (frame_symm _ C hs), Quadric.changeOfFrame_value]
  · refine ⟨_, rfl, fun x => ?_⟩
    have hs : (Quadric.ellipsoid ![a, b, c] ![u, v, w])ᵀ = Quadric.ellipsoid ![a, b, c] ![u, v, w] :=
      Matrix.ext fun i j => Quadric.quadsum1_symm _ _ _ i j
    rw [symmetric_lower _ (frame_symm _ C hs), Quadric.changeOfFrame_value]

/-- **C87, deviation.** A general quadric is put in one half of the matrix only: turned by 90 degrees, the
surface `xy = 0` gets all numbers zero. -/
theorem quadric_lost : transformedQuadric .quadric [0, 1, 0, 0, 0, 0, 0, 0, 0, 0]
    (!![0, -1, 0, 0; 1, 0, 0, 0; 0, 0, 1, 0; 0, 0, 0, 1] : Matrix (Fin 4) (Fin 4) ℚ) = some [0, 0, 0, 0, 0, 0, 0, 0, 0, 0] := by
  simp [transformedQuadric, lower, fill, Quadric.changeOfFrame, Matrix.mul_apply, Fin.sum_univ_four]

/-- **C87, deviation.** A cylinder of a fixed device always fails. -/
theorem cylinder_fails (axis : Fin 3) (params : List K) (C : Matrix (Fin 4) (Fin 4) K) :
    transformedQuadric (.cylinder axis) params C = none := by
  cases axis; rfl

/-! ## Layers -/

/-- **C87.** Layers with positive thickness have their thickness, come after the surface and after each other
in order, and are separated by the spacing. -/
theorem layers_ordered (spacing surface : ℚ) (ts : List ℚ) (h : ∀ t ∈ ts, 0 < t) :
    (layers spacing surface ts).map (fun l => l.2 - l.1) = ts ∧
    (∀ l ∈ layers spacing surface ts, surface + |spacing| ≤ l.1) ∧
    (layers spacing surface ts).Pairwise (fun l m => l.2 + |spacing| ≤ m.1) := by
  induction ts generalizing surface with
  | nil => simp [layers]
  | cons t ts ih =>
    have ht := h t List.mem_cons_self
    obtain ⟨i1, i2, i3⟩ := ih (surface + 1 * |spacing| + t) (fun t ht => h t (List.mem_cons_of_mem _ ht))
    have hs := abs_nonneg spacing
    simp only [layers, if_neg ht.ne', if_pos ht]
    refine ⟨?_, ?_, ?_⟩
    · rw [List.map_cons, i1]; simp
    · intro l hl
      rcases List.mem_cons.1 hl with rfl | hl
      · simp
      · have := i2 l hl
        linarith
    · rw [List.pairwise_cons]
      exact ⟨i2, i3⟩

example : layers (1/10) 0 [1, 2] = [(1/10, 11/10), (6/5, 16/5)] := by norm_num [layers]

/-- **C87, deviation.** After a layer with positive thickness one with negative thickness lies inside it. -/
theorem layers_overlap : layers (1/10) 0 [1, -1/2] = [(1/10, 11/10), (1, 1/2)] := by norm_num [layers]

/-- **C87.** A point on the beam axis is on the inner side of both planes of a layer exactly when it is
between them. -/
theorem layer_inside (ta tb sgn y : ℚ) (hs : sgn = 1 ∨ sgn = -1) :
    (Quadric.value (Quadric.plane ![0, ta, 0] ![0, -sgn, 0]) ![0, y, 0] < 0 ∧
      Quadric.value (Quadric.plane ![0, tb, 0] ![0, sgn, 0]) ![0, y, 0] < 0) ↔ (sgn * ta < sgn * y ∧ sgn * y < sgn * tb) := by
  rw [Quadric.plane_value, Quadric.plane_value]
  simp [Fin.sum_univ_three]
  rcases hs with rfl | rfl
  · simp only [one_mul]; constructor <;> rintro ⟨a, b⟩ <;> constructor <;> linarith
  · simp only [neg_mul, one_mul]; constructor <;> rintro ⟨a, b⟩ <;> constructor <;> linarith

end SC.Xrmc
