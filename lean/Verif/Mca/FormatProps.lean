import Verif.Mca.Spec
import Verif.Scan.CmdProps
import Verif.Axis.Props
import Verif.Naming.Lemmas
import Mathlib.Tactic.NormNum
import Mathlib.Data.List.TakeWhile
import Mathlib.Tactic.FieldSimp
import Mathlib.Tactic.Linarith
import Mathlib.Tactic.Positivity
/-! # C43: numbers written with `%.<P>g` -/
namespace SC.Mca
open SC.Axis (roundEven roundEven_near)
open SC.Scan (IsNumber IsSign IsNat natVal natVal_repr natVal_append floatOf_eq)

theorem roundEven_bounds (q : Rat) : q - 1 / 2 ≤ roundEven q ∧ (roundEven q : Rat) ≤ q + 1 / 2 := by
  have := abs_le.mp (roundEven_near q)
  constructor <;> linarith [this.1, this.2]

/-- No integer is closer. -/
theorem roundEven_nearest (q : Rat) (n : Int) : |(roundEven q : Rat) - q| ≤ |(n : Rat) - q| := by
  by_cases h : n = roundEven q
  · rw [h]
  · have h1 : (1 : Rat) ≤ |(n : Rat) - roundEven q| := by
      have : (1 : Int) ≤ |n - roundEven q| := Int.one_le_abs (sub_ne_zero.mpr h)
      exact_mod_cast this
    have h2 := roundEven_near q
    have h3 : |(n : Rat) - roundEven q| ≤ |(n : Rat) - q| + |(roundEven q : Rat) - q| := by
      rw [abs_sub_comm (roundEven q : Rat) q]
      exact abs_sub_le _ _ _
    linarith

theorem signif_spec (P : Nat) (hP : 1 ≤ P) (q : Rat) (hq : 0 < q) :
    10 ^ (P - 1) ≤ (signif P q).1 ∧ (signif P q).1 < 10 ^ P ∧
    Nearest P q ((signif P q).1 * (10 : Rat) ^ ((signif P q).2 - P + 1)) := by
  have hlo := Int.zpow_log_le_self (R := Rat) (b := 10) (by norm_num) hq
  have hhi := Int.lt_zpow_succ_log_self (R := Rat) (b := 10) (by norm_num) q
  obtain ⟨e, he⟩ : ∃ e, e = Int.log 10 q := ⟨_, rfl⟩
  rw [← he] at hlo hhi
  push_cast at hlo hhi
  obtain ⟨s, hs⟩ : ∃ s, s = q * (10 : Rat) ^ ((P : Int) - 1 - e) := ⟨_, rfl⟩
  have t0 : (10 : Rat) ≠ 0 := by norm_num
  have hpow : (10 : Rat) ^ e * (10 : Rat) ^ ((P : Int) - 1 - e) = (10 : Rat) ^ (P - 1) := by
    rw [← zpow_add₀ t0, ← zpow_natCast]
    congr 1
    omega
  have hpow1 : (10 : Rat) ^ (e + 1) * (10 : Rat) ^ ((P : Int) - 1 - e) = (10 : Rat) ^ P := by
    rw [← zpow_add₀ t0, ← zpow_natCast]
    congr 1
    omega
  have hpos : (0 : Rat) < (10 : Rat) ^ ((P : Int) - 1 - e) := zpow_pos (by norm_num) _
  have s1 : (10 : Rat) ^ (P - 1) ≤ s := by
    rw [hs, ← hpow]
    exact mul_le_mul_of_nonneg_right hlo hpos.le
  have s2 : s < (10 : Rat) ^ P := by
    rw [hs, ← hpow1]
    exact mul_lt_mul_of_pos_right hhi hpos
  obtain ⟨b1, b2⟩ := roundEven_bounds s
  obtain ⟨n, hn⟩ : ∃ n, n = roundEven s := ⟨_, rfl⟩
  rw [← hn] at b1 b2
  have n1 : (10 : Int) ^ (P - 1) ≤ n := by
    have : ((10 : Int) ^ (P - 1) : Rat) - 1 / 2 ≤ n := by push_cast; linarith
    have h2 : ((10 : Int) ^ (P - 1) - 1 : Int) < n := by
      have : (((10 : Int) ^ (P - 1) - 1 : Int) : Rat) < n := by push_cast; push_cast at this; linarith
      exact_mod_cast this
    omega
  have n2 : n ≤ (10 : Int) ^ P := by
    have h2 : n < ((10 : Int) ^ P + 1 : Int) := by
      have : (n : Rat) < (((10 : Int) ^ P + 1 : Int) : Rat) := by push_cast; linarith
      exact_mod_cast this
    omega
  have npos : 0 < n := lt_of_lt_of_le (by positivity) n1
  have hnt : ((n.toNat : Nat) : Int) = n := Int.toNat_of_nonneg npos.le
  have hntq : ((n.toNat : Nat) : Rat) = n := by exact_mod_cast congrArg (Int.cast : Int → Rat) hnt
  -- the value in both cases
  have hval : ((signif P q).1 : Rat) * (10 : Rat) ^ ((signif P q).2 - P + 1) = n * (10 : Rat) ^ (e - P + 1) ∧
      10 ^ (P - 1) ≤ (signif P q).1 ∧ (signif P q).1 < 10 ^ P := by
    have hdef : signif P q = if n.toNat = 10 ^ P then (10 ^ (P - 1), e + 1) else (n.toNat, e) := by
      simp only [signif, ← he, ← hs, ← hn]
    rw [hdef]
    split
    · rename_i h
      refine ⟨?_, le_refl _, ?_⟩
      · have hn' : (n : Rat) = (10 : Rat) ^ P := by
          rw [← hntq, h]
          push_cast
          rfl
        rw [hn']
        push_cast
        rw [← zpow_natCast, ← zpow_natCast, ← zpow_add₀ t0, ← zpow_add₀ t0]
        congr 1
        omega
      · exact Nat.pow_lt_pow_right (by norm_num) (by omega)
    · rename_i h
      refine ⟨by rw [hntq], ?_, ?_⟩
      · have : ((10 ^ (P - 1) : Nat) : Int) ≤ (n.toNat : Int) := by rw [hnt]; push_cast; exact n1
        exact_mod_cast this
      · have : (n.toNat : Int) ≤ ((10 ^ P : Nat) : Int) := by rw [hnt]; push_cast; exact n2
        have : n.toNat ≤ 10 ^ P := by exact_mod_cast this
        omega
  refine ⟨hval.2.1, hval.2.2, ?_, ?_⟩
  · exact ⟨(signif P q).1, (signif P q).2 - P + 1, by
      rw [abs_of_nonneg (by positivity)]
      exact_mod_cast hval.2.2, by push_cast; rfl⟩
  · rw [hval.1]
    -- distance in units of the last digit
    have hu : (0 : Rat) < (10 : Rat) ^ (e - P + 1) := zpow_pos (by norm_num) _
    have hq' : q = s * (10 : Rat) ^ (e - P + 1) := by
      rw [hs, mul_assoc, ← zpow_add₀ t0]
      rw [show (P : Int) - 1 - e + (e - P + 1) = 0 by ring, zpow_zero, mul_one]
    have hdist : ∀ k : Int, |(n : Rat) * (10 : Rat) ^ (e - P + 1) - q| ≤ |(k : Rat) * (10 : Rat) ^ (e - P + 1) - q| := by
      intro k
      rw [hq', ← sub_mul, ← sub_mul, abs_mul, abs_mul]
      apply mul_le_mul_of_nonneg_right _ (abs_nonneg _)
      rw [hn]
      exact roundEven_nearest s k
    rintro r' ⟨k, j, hk, rfl⟩
    by_cases hj : e - P + 1 ≤ j
    · have := hdist (k * 10 ^ (j - (e - P + 1)).toNat)
      have hz : ((k * 10 ^ (j - (e - P + 1)).toNat : Int) : Rat) * (10 : Rat) ^ (e - P + 1) = k * (10 : Rat) ^ j := by
        push_cast
        rw [mul_assoc, ← zpow_natCast, Int.toNat_of_nonneg (by omega), ← zpow_add₀ t0]
        congr 2
        ring
      rwa [hz] at this
    · have := hdist (10 ^ (P - 1))
      have hz : (((10 : Int) ^ (P - 1) : Int) : Rat) * (10 : Rat) ^ (e - P + 1) = (10 : Rat) ^ e := by
        push_cast
        rw [← zpow_natCast, ← zpow_add₀ t0]
        congr 1
        omega
      rw [hz] at this
      refine this.trans ?_
      have hk' : (k : Rat) ≤ (10 : Rat) ^ P := by
        have : k ≤ (10 : Int) ^ P := (le_abs_self k).trans hk.le
        exact_mod_cast this
      have hle : (k : Rat) * (10 : Rat) ^ j ≤ (10 : Rat) ^ e := by
        calc (k : Rat) * (10 : Rat) ^ j ≤ (10 : Rat) ^ P * (10 : Rat) ^ j :=
              mul_le_mul_of_nonneg_right hk' (zpow_pos (by norm_num) _).le
          _ = (10 : Rat) ^ ((P : Int) + j) := by rw [zpow_add₀ t0, zpow_natCast]
          _ ≤ (10 : Rat) ^ e := zpow_le_zpow_right₀ (by norm_num) (by omega)
      rw [abs_of_nonpos (by linarith), abs_of_nonpos (by linarith)]
      linarith

/-! ## the text -/

theorem stripZeros_spec (f : Str) : ∃ n, f = stripZeros f ++ List.replicate n '0' := by
  have h := List.takeWhile_append_dropWhile (p := (· == '0')) (l := f.reverse)
  refine ⟨(f.reverse.takeWhile (· == '0')).length, ?_⟩
  have hz : f.reverse.takeWhile (· == '0') = List.replicate (f.reverse.takeWhile (· == '0')).length '0' := by
    rw [List.eq_replicate_iff]
    refine ⟨rfl, fun c hc => ?_⟩
    simpa using List.mem_takeWhile_imp hc
  have := congrArg List.reverse h
  rw [List.reverse_append, List.reverse_reverse] at this
  conv_lhs => rw [← this]
  rw [stripZeros]
  congr 1
  rw [hz]
  simp

theorem natVal_zeros (n : Nat) : natVal (List.replicate n '0') = 0 := by
  induction n with
  | zero => rfl
  | succ n ih =>
    have : List.replicate (n + 1) '0' = ['0'] ++ List.replicate n '0' := rfl
    rw [this, natVal_append, ih]
    simp [natVal, SC.Scan.digitVal]

theorem isNumber_withFrac (sg w f : Str) (hs : IsSign sg) (hw0 : w ≠ []) (hw : ∀ c ∈ w, c.isDigit = true)
    (hf : ∀ c ∈ f, c.isDigit = true) :
    IsNumber (sg ++ withFrac w f)
      ((if sg = ['-'] then -1 else 1) * ((natVal w : Rat) + (natVal f : Rat) / (10 : Rat) ^ f.length)) := by
  obtain ⟨n, hn⟩ := stripZeros_spec f
  have hsub : ∀ c ∈ stripZeros f, c.isDigit = true := fun c hc => hf c (by rw [hn]; exact List.mem_append_left _ hc)
  have hval : (natVal f : Rat) / (10 : Rat) ^ f.length = (natVal (stripZeros f) : Rat) / (10 : Rat) ^ (stripZeros f).length := by
    conv_lhs => rw [hn]
    rw [natVal_append, natVal_zeros, List.length_append, List.length_replicate, pow_add]
    push_cast
    rw [add_zero, mul_div_mul_right _ _ (by positivity)]
  refine ⟨sg, w, stripZeros f, hs, hw, hsub, ?_, by rw [hval]⟩
  unfold withFrac
  split
  · exact .inl ⟨‹_›, hw0, rfl⟩
  · exact .inr ⟨‹_›, by rw [List.append_assoc]⟩

theorem toDigits_length (P m : Nat) (hP : 1 ≤ P) (h1 : 10 ^ (P - 1) ≤ m) (h2 : m < 10 ^ P) :
    (Nat.toDigits 10 m).length = P := by
  have a := (Nat.length_toDigits_le_iff (b := 10) (n := m) (k := P) (by norm_num) (by omega)).mpr h2
  by_contra hne
  by_cases hP1 : P = 1
  · have := @Nat.length_toDigits_pos 10 m
    omega
  · have := (Nat.length_toDigits_le_iff (b := 10) (n := m) (k := P - 1) (by norm_num) (by omega)).mp (by omega)
    omega

theorem natVal_pad (w n : Nat) : IsNat (SC.Naming.pad w n) ∧ natVal (SC.Naming.pad w n) = n := by
  obtain ⟨⟨h1, h2⟩, h3⟩ := natVal_repr n
  refine ⟨⟨by simp [SC.Naming.pad, h1], ?_⟩, ?_⟩
  · intro c hc
    rw [SC.Naming.pad, List.mem_append] at hc
    rcases hc with hc | hc
    · rw [List.eq_of_mem_replicate hc]
      rfl
    · exact h2 c hc
  · rw [SC.Naming.pad, natVal_append, natVal_zeros, h3]
    simp

theorem fmtPos_spec (P : Nat) (hP : 1 ≤ P) (q : Rat) (hq : 0 < q) (sg : Str) (hs : IsSign sg) :
    IsFloat (sg ++ fmtPos P q)
      ((if sg = ['-'] then -1 else 1) * ((signif P q).1 * (10 : Rat) ^ ((signif P q).2 - P + 1))) := by
  obtain ⟨h1, h2, -⟩ := signif_spec P hP q hq
  obtain ⟨⟨m, e⟩, hme⟩ : ∃ x, x = signif P q := ⟨_, rfl⟩
  rw [← hme] at h1 h2 ⊢
  simp only at h1 h2 ⊢
  have hlen := toDigits_length P m hP h1 h2
  obtain ⟨⟨d1, d2⟩, d3⟩ := natVal_repr m
  have t0 : (10 : Rat) ≠ 0 := by norm_num
  obtain ⟨ds, hds⟩ : ∃ ds, ds = Nat.toDigits 10 m := ⟨_, rfl⟩
  rw [← hds] at hlen d1 d2 d3
  have hsplit : ∀ k, k ≤ P → (natVal (ds.take k) : Rat) + (natVal (ds.drop k) : Rat) / (10 : Rat) ^ (ds.drop k).length
      = m / (10 : Rat) ^ (P - k) := by
    intro k hk
    have := natVal_append (ds.take k) (ds.drop k)
    rw [List.take_append_drop, d3] at this
    have hl : (ds.drop k).length = P - k := by rw [List.length_drop, hlen]
    rw [hl] at this ⊢
    rw [this]
    push_cast
    field_simp
  have hdef : fmtPos P q = if -4 ≤ e ∧ e < P then
      if 0 ≤ e then withFrac (ds.take (e.toNat + 1)) (ds.drop (e.toNat + 1))
      else withFrac ['0'] (List.replicate ((-e).toNat - 1) '0' ++ ds)
      else withFrac (ds.take 1) (ds.drop 1) ++ 'e' :: (if e < 0 then '-' else '+') :: SC.Naming.pad 2 e.natAbs := by
    simp only [fmtPos, ← hme, ← hds]
  rw [hdef]
  have hval : ∀ k : Nat, (k : Int) = P - 1 - e → (m : Rat) / (10 : Rat) ^ k = m * (10 : Rat) ^ (e - P + 1) := by
    intro k hk
    rw [← zpow_natCast, hk, div_eq_mul_inv, ← zpow_neg]
    congr 2
    ring
  split
  · split
    · rename_i hr h0
      have hk : e.toNat + 1 ≤ P := by omega
      have := isNumber_withFrac sg (ds.take (e.toNat + 1)) (ds.drop (e.toNat + 1)) hs
        (by
          intro h
          have := congrArg List.length h
          rw [List.length_take, hlen, List.length_nil] at this
          omega)
        (fun c hc => d2 c (List.mem_of_mem_take hc)) (fun c hc => d2 c (List.mem_of_mem_drop hc))
      rw [hsplit _ hk, hval _ (by omega)] at this
      exact ⟨_, _, this, .inl ⟨rfl, rfl⟩⟩
    · rename_i hr h0
      have hdig : ∀ c ∈ List.replicate ((-e).toNat - 1) '0' ++ ds, c.isDigit = true := by
        intro c hc
        rw [List.mem_append] at hc
        rcases hc with hc | hc
        · rw [List.eq_of_mem_replicate hc]
          rfl
        · exact d2 c hc
      have := isNumber_withFrac sg ['0'] (List.replicate ((-e).toNat - 1) '0' ++ ds) hs (by simp) (by simp) hdig
      have hz : (natVal ['0'] : Rat) + (natVal (List.replicate ((-e).toNat - 1) '0' ++ ds) : Rat)
          / (10 : Rat) ^ (List.replicate ((-e).toNat - 1) '0' ++ ds).length = m * (10 : Rat) ^ (e - P + 1) := by
        rw [natVal_append, natVal_zeros, d3, List.length_append, List.length_replicate, hlen,
          ← hval ((-e).toNat - 1 + P) (by omega)]
        simp [natVal, SC.Scan.digitVal]
      rw [hz] at this
      exact ⟨_, _, this, .inl ⟨rfl, rfl⟩⟩
  · have := isNumber_withFrac sg (ds.take 1) (ds.drop 1) hs
        (by
          intro h
          have := congrArg List.length h
          rw [List.length_take, hlen, List.length_nil] at this
          omega)
        (fun c hc => d2 c (List.mem_of_mem_take hc)) (fun c hc => d2 c (List.mem_of_mem_drop hc))
    rw [hsplit _ hP] at this
    obtain ⟨p1, p2⟩ := natVal_pad 2 e.natAbs
    refine ⟨_, _, this, .inr ⟨[if e < 0 then '-' else '+'], _, ?_, p1, ?_, ?_⟩⟩
    · split
      · exact .inr (.inr rfl)
      · exact .inr (.inl rfl)
    · simp
    · have hexp : (if [if e < 0 then '-' else '+'] = ['-'] then -(natVal (SC.Naming.pad 2 e.natAbs) : Int)
          else natVal (SC.Naming.pad 2 e.natAbs)) = e := by
        rw [p2]
        by_cases he : e < 0
        · simp only [he, if_true]; omega
        · simp only [he, if_false]; rw [if_neg (by decide)]; omega
      rw [hexp, mul_assoc]
      congr 1
      rw [← zpow_natCast, div_mul_eq_mul_div, mul_div_assoc, ← zpow_sub₀ t0]
      congr 2
      omega

theorem nearest_neg {P : Nat} {q r : Rat} (h : Nearest P q r) : Nearest P (-q) (-r) := by
  obtain ⟨⟨k, j, hk, hr⟩, h2⟩ := h
  refine ⟨⟨-k, j, by rwa [abs_neg], by rw [hr]; push_cast; ring⟩, ?_⟩
  rintro r' ⟨k', j', hk', hr'⟩
  have := h2 (-r') ⟨-k', j', by rwa [abs_neg], by rw [hr']; push_cast; ring⟩
  rw [show -r - -q = -(r - q) by ring, abs_neg]
  rwa [show -r' - q = -(r' - -q) by ring, abs_neg] at this

/-- **C43.**  `"%.<P>g" % q` is the notation of a number with `P` significant digits than which none
is closer to `q`. -/
theorem fmtG_spec (P : Nat) (hP : 1 ≤ P) (q : Rat) : ∃ r, IsFloat (fmtG P q) r ∧ Nearest P q r := by
  unfold fmtG
  split
  · rename_i h
    subst h
    refine ⟨0, ⟨['0'], 0, ⟨[], ['0'], [], .inl rfl, by simp, by simp, .inl ⟨rfl, by simp, rfl⟩, ?_⟩, .inl ⟨rfl, rfl⟩⟩, ?_, ?_⟩
    · simp [natVal, SC.Scan.digitVal]
    · exact ⟨0, 0, by simp, by simp⟩
    · intro r' _
      simp
  · split
    · rename_i h0 h
      have h' : 0 < -q := by linarith
      have a := fmtPos_spec P hP (-q) h' ['-'] (.inr (.inr rfl))
      have b := nearest_neg (signif_spec P hP (-q) h').2.2
      rw [neg_neg] at b
      refine ⟨_, a, ?_⟩
      simpa using b
    · rename_i h0 h
      have h' : 0 < q := lt_of_le_of_ne (not_lt.mp h) (Ne.symm h0)
      have a := fmtPos_spec P hP q h' [] (.inl rfl)
      refine ⟨_, a, ?_⟩
      simpa using (signif_spec P hP q h').2.2

/-- **C43.**  Numbers that have `P` digits are written exactly. -/
theorem fmtG_exact (P : Nat) (hP : 1 ≤ P) (q : Rat) (hq : HasDigits P q) : IsFloat (fmtG P q) q := by
  obtain ⟨r, h1, -, h2⟩ := fmtG_spec P hP q
  have := h2 q hq
  rw [sub_self, abs_zero] at this
  have := abs_eq_zero.mp (le_antisymm this (abs_nonneg _))
  rw [sub_eq_zero] at this
  rwa [this] at h1

/-- Whole numbers below `10 ^ P` have `P` digits. -/
theorem hasDigits_int (P : Nat) (n : Int) (h : |n| < 10 ^ P) : HasDigits P n := ⟨n, 0, h, by simp⟩

/-- A text is the notation of one number. -/
theorem isFloat_unique {t : Str} {q r : Rat} (hq : IsFloat t q) (hr : IsFloat t r) : q = r := by
  have noE : ∀ {m : Str} {q0 : Rat}, IsNumber m q0 → ∀ c ∈ m, (c != 'e') = true := by
    rintro m q0 ⟨sg, w, f, hs, hw, hf, ht, -⟩ c hc
    have hsg : ∀ c ∈ sg, (c != 'e') = true := by
      rcases hs with rfl | rfl | rfl <;> simp
    have hd : ∀ c : Char, c.isDigit = true → (c != 'e') = true := by
      intro c h
      simpa using SC.Scan.digit_ne h (by decide : 'e'.isDigit = false)
    rcases ht with ⟨-, -, rfl⟩ | ⟨-, rfl⟩
    · rcases List.mem_append.mp hc with h | h
      · exact hsg c h
      · exact hd c (hw c h)
    · rcases List.mem_append.mp hc with h | h
      · rcases List.mem_append.mp h with h | h
        · exact hsg c h
        · exact hd c (hw c h)
      · rcases List.mem_cons.mp h with rfl | h
        · rfl
        · exact hd c (hf c h)
  have key : ∀ {m : Str} {q0 : Rat} (e : Str), IsNumber m q0 → (m ++ 'e' :: e).takeWhile (· != 'e') = m ∧
      (m ++ 'e' :: e).dropWhile (· != 'e') = 'e' :: e := by
    intro m q0 e hm
    have h := noE hm
    constructor
    · rw [List.takeWhile_append_of_pos h]
      simp
    · rw [List.dropWhile_append_of_pos h]
      simp
  have key0 : ∀ {m : Str} {q0 : Rat}, IsNumber m q0 → m.dropWhile (· != 'e') = [] := by
    intro m q0 hm
    exact List.dropWhile_eq_nil_iff.2 (noE hm)
  obtain ⟨m, q0, hm, h | ⟨sg, ex, hs, hx, rfl, rfl⟩⟩ := hq
  · obtain ⟨rfl, rfl⟩ := h
    obtain ⟨m', q1, hm', h | ⟨sg, ex, hs, hx, ht, rfl⟩⟩ := hr
    · obtain ⟨rfl, rfl⟩ := h
      rw [← floatOf_eq hm, ← floatOf_eq hm']
    · have a := key0 hm
      rw [ht, (key _ hm').2] at a
      cases a
  · obtain ⟨m', q1, hm', h | ⟨sg', ex', hs', hx', ht, rfl⟩⟩ := hr
    · obtain ⟨h1, rfl⟩ := h
      have a := key0 hm'
      rw [← h1, (key _ hm).2] at a
      cases a
    · have a := (key (sg ++ ex) hm).1
      have b := (key (sg ++ ex) hm).2
      rw [ht, (key _ hm').1] at a
      rw [ht, (key _ hm').2] at b
      subst a
      have hb : sg' ++ ex' = sg ++ ex := by simpa using b
      have hne : ∀ {x : Str}, IsNat x → ∀ c ∈ x.head?, c.isDigit = true := by
        rintro x ⟨-, h⟩ c hc
        exact h c (List.mem_of_mem_head? hc)
      have hsg : sg' = sg ∧ ex' = ex := by
        have hd1 := hne hx
        have hd2 := hne hx'
        rcases hs with rfl | rfl | rfl <;> rcases hs' with rfl | rfl | rfl <;>
          simp only [List.nil_append, List.cons_append, List.cons.injEq, true_and, reduceCtorEq, false_and] at hb ⊢ <;>
          first
          | exact hb
          | (exfalso; subst hb; simp at hd1 hd2)
          | (exfalso; subst hb; simp at hd1)
          | (exfalso; subst hb; simp at hd2)
          | (exfalso; rw [← hb] at hd1; simp at hd1)
          | (exfalso; exact absurd hb.1 (by decide))
      obtain ⟨rfl, rfl⟩ := hsg
      rw [← floatOf_eq hm, ← floatOf_eq hm']

end SC.Mca
