import Verif.Spec.Rounded

/-! # Rounding to doubles -/

namespace Flory

open Spec

theorem floor_le_roundEven (x : ℝ) : ⌊x⌋ ≤ roundEven x := by
  unfold roundEven; split_ifs <;> omega

theorem roundEven_le_floor (x : ℝ) : roundEven x ≤ ⌊x⌋ + 1 := by
  unfold roundEven; split_ifs <;> omega

theorem roundEven_int (n : ℤ) : roundEven n = n := by
  unfold roundEven; simp

theorem roundEven_mono {x y : ℝ} (h : x ≤ y) : roundEven x ≤ roundEven y := by
  have hf : ⌊x⌋ ≤ ⌊y⌋ := Int.floor_mono h
  rcases lt_or_eq_of_le hf with h1 | h1
  · have := roundEven_le_floor x
    have := floor_le_roundEven y
    omega
  · have e : Int.fract x ≤ Int.fract y := by
      unfold Int.fract; rw [h1]; linarith
    unfold roundEven
    rw [h1]
    split_ifs <;> first | omega | (exfalso; linarith)

theorem roundEven_neg (x : ℝ) : roundEven (-x) = -roundEven x := by
  by_cases h : Int.fract x = 0
  · have hx : x = (⌊x⌋ : ℝ) := by
      have := Int.floor_add_fract x; rw [h, add_zero] at this; exact this.symm
    rw [hx, roundEven_int, show -((⌊x⌋ : ℤ) : ℝ) = ((-⌊x⌋ : ℤ) : ℝ) by push_cast; rfl, roundEven_int]
  · have h1 : Int.fract (-x) = 1 - Int.fract x := Int.fract_neg h
    have h2 : ⌊-x⌋ = -⌊x⌋ - 1 := by
      have a1 := Int.floor_add_fract (-x)
      have a2 := Int.floor_add_fract x
      rw [h1] at a1
      have : ((⌊-x⌋ : ℤ) : ℝ) = ((-⌊x⌋ - 1 : ℤ) : ℝ) := by push_cast; linarith
      exact_mod_cast this
    unfold roundEven
    rw [h1, h2]
    have hp : Even (-⌊x⌋ - 1) ↔ ¬ Even ⌊x⌋ := by
      rw [Int.even_sub_one, even_neg]
    split_ifs <;> first | omega | (exfalso; linarith) | (exfalso; tauto)

theorem abs_roundEven_sub_le (x : ℝ) : |(roundEven x : ℝ) - x| ≤ 1 / 2 := by
  have a := Int.floor_add_fract x
  have h0 := Int.fract_nonneg x
  have h1 := Int.fract_lt_one x
  unfold roundEven
  rw [abs_le]
  split_ifs <;> push_cast <;> constructor <;> linarith

theorem roundEven_eq {x : ℝ} {n : ℤ} (h : |x - n| < 1 / 2) : roundEven x = n := by
  have h1 := abs_roundEven_sub_le x
  have h2 : |((roundEven x - n : ℤ) : ℝ)| < 1 := by
    have : ((roundEven x - n : ℤ) : ℝ) = ((roundEven x : ℝ) - x) + (x - n) := by push_cast; ring
    rw [this]
    exact (abs_add_le _ _).trans_lt (by linarith)
  have h3 : |roundEven x - n| < 1 := by exact_mod_cast h2
  have := Int.abs_lt_one_iff.mp h3
  omega

theorem roundEven_tie {n : ℤ} (h : Even n) : roundEven (n + 1 / 2) = n := by
  have hf : ⌊(n : ℝ) + 1 / 2⌋ = n := by rw [Int.floor_eq_iff]; constructor <;> linarith
  have hr : Int.fract ((n : ℝ) + 1 / 2) = 1 / 2 := by unfold Int.fract; rw [hf]; ring
  unfold roundEven
  rw [hr, hf]
  simp [h]

theorem double_zero : double 0 = 0 := by simp [double]

theorem double_neg (x : ℝ) : double (-x) = -double x := by
  unfold double
  by_cases h : x = 0
  · simp [h]
  · rw [if_neg (by simpa using h), if_neg h, abs_neg, neg_div, roundEven_neg]
    push_cast; ring

theorem pow_cast (k : ℕ) : ((2 : ℝ) ^ k) = (2 : ℝ) ^ (k : ℤ) := by simp

/-- Rounding of a number in scientific notation. -/
theorem double_scale {y : ℝ} (h0 : 2 ^ 52 ≤ y) (h1 : y < 2 ^ 53) (e : ℤ) :
    double (y * 2 ^ e) = roundEven y * 2 ^ e := by
  have hp : (0 : ℝ) < 2 ^ e := by positivity
  have hy : 0 < y := lt_of_lt_of_le (by positivity) h0
  have hlog : Int.log 2 |y * 2 ^ e| = e + 52 := by
    rw [abs_of_pos (by positivity)]
    have a1 : e + 52 ≤ Int.log 2 (y * 2 ^ e) := by
      rw [← Int.zpow_le_iff_le_log (by norm_num) (by positivity)]
      push_cast
      rw [zpow_add₀ (by norm_num), mul_comm]
      have : (2 : ℝ) ^ (52 : ℤ) = 2 ^ 52 := by norm_cast
      rw [this]
      exact mul_le_mul_of_nonneg_right h0 hp.le
    have a2 : Int.log 2 (y * 2 ^ e) < e + 53 := by
      rw [← Int.lt_zpow_iff_log_lt (by norm_num) (by positivity)]
      push_cast
      rw [zpow_add₀ (by norm_num), mul_comm]
      have : (2 : ℝ) ^ (53 : ℤ) = 2 ^ 53 := by norm_cast
      rw [this]
      exact mul_lt_mul_of_pos_left h1 hp
    omega
  unfold double
  rw [if_neg (by positivity), hlog, add_sub_cancel_right, mul_div_cancel_right₀ _ hp.ne']

/-- Every positive number in scientific notation. -/
theorem exists_scale {x : ℝ} (hx : 0 < x) : ∃ (y : ℝ) (e : ℤ), 2 ^ 52 ≤ y ∧ y < 2 ^ 53 ∧ x = y * 2 ^ e ∧
    e = Int.log 2 x - 52 := by
  set e := Int.log 2 x - 52 with he
  have hp : (0 : ℝ) < 2 ^ e := by positivity
  refine ⟨x / 2 ^ e, e, ?_, ?_, (div_mul_cancel₀ _ hp.ne').symm, rfl⟩
  · rw [le_div_iff₀ hp]
    have h := Int.zpow_log_le_self (b := 2) (by norm_num) hx
    have : ((2 : ℕ) : ℝ) ^ Int.log 2 x = 2 ^ 52 * 2 ^ e := by
      rw [show Int.log 2 x = 52 + e by omega, zpow_add₀ (by norm_num)]
      norm_cast
    rwa [this] at h
  · rw [div_lt_iff₀ hp]
    have h := Int.lt_zpow_succ_log_self (b := 2) (by norm_num) x
    have : ((2 : ℕ) : ℝ) ^ (Int.log 2 x + 1) = 2 ^ 53 * 2 ^ e := by
      rw [show Int.log 2 x + 1 = 53 + e by omega, zpow_add₀ (by norm_num)]
      norm_cast
    rwa [this] at h

theorem roundEven_ge {y : ℝ} (h : 2 ^ 52 ≤ y) : 2 ^ 52 ≤ roundEven y := by
  have := roundEven_mono (x := ((2 ^ 52 : ℤ) : ℝ)) (y := y) (by norm_num at h ⊢; exact h)
  rwa [roundEven_int] at this

theorem roundEven_le {y : ℝ} (h : y ≤ 2 ^ 53) : roundEven y ≤ 2 ^ 53 := by
  have := roundEven_mono (x := y) (y := ((2 ^ 53 : ℤ) : ℝ)) (by norm_num at h ⊢; exact h)
  rwa [roundEven_int] at this

theorem double_pos {x : ℝ} (hx : 0 < x) : 0 < double x := by
  obtain ⟨y, e, h0, h1, rfl, -⟩ := exists_scale hx
  rw [double_scale h0 h1]
  have : (0 : ℝ) < roundEven y := by
    have := roundEven_ge h0
    exact_mod_cast lt_of_lt_of_le (by positivity) this
  positivity

theorem double_err_pos {x : ℝ} (hx : 0 < x) : |double x - x| ≤ 2⁻¹ ^ 53 * |x| := by
  obtain ⟨y, e, h0, h1, rfl, -⟩ := exists_scale hx
  have hp : (0 : ℝ) < 2 ^ e := by positivity
  rw [double_scale h0 h1, ← sub_mul, abs_mul, abs_of_pos hp, abs_of_pos hx]
  have h := abs_roundEven_sub_le y
  have h2 : (1 : ℝ) / 2 ≤ 2⁻¹ ^ 53 * y := by
    have : (2 : ℝ)⁻¹ ^ 53 * 2 ^ 52 ≤ 2⁻¹ ^ 53 * y := mul_le_mul_of_nonneg_left h0 (by positivity)
    refine le_trans (by norm_num) this
  calc |(roundEven y : ℝ) - y| * 2 ^ e ≤ 2⁻¹ ^ 53 * y * 2 ^ e :=
        mul_le_mul_of_nonneg_right (h.trans h2) hp.le
    _ = _ := by ring

theorem double_err (x : ℝ) : |double x - x| ≤ 2⁻¹ ^ 53 * |x| := by
  rcases lt_trichotomy x 0 with h | rfl | h
  · have := double_err_pos (x := -x) (by linarith)
    rw [double_neg, abs_neg, show -double x - -x = -(double x - x) by ring, abs_neg] at this
    exact this
  · simp [double_zero]
  · exact double_err_pos h

theorem double_mono_pos {x y : ℝ} (hx : 0 < x) (h : x ≤ y) : double x ≤ double y := by
  have hl : Int.log 2 x ≤ Int.log 2 y := Int.log_mono_right hx h
  obtain ⟨a, e, a0, a1, rfl, he⟩ := exists_scale hx
  obtain ⟨b, e', b0, b1, rfl, he'⟩ := exists_scale (hx.trans_le h)
  rw [double_scale a0 a1, double_scale b0 b1]
  rcases lt_or_eq_of_le (show e ≤ e' by omega) with hlt | rfl
  · have ha : (roundEven a : ℝ) ≤ 2 ^ 53 := by exact_mod_cast roundEven_le a1.le
    have hb : (2 : ℝ) ^ 52 ≤ roundEven b := by exact_mod_cast roundEven_ge b0
    have hpow : (2 : ℝ) * 2 ^ e ≤ 2 ^ e' := by
      rw [← zpow_one_add₀ (by norm_num)]
      exact zpow_le_zpow_right₀ (by norm_num) (by omega)
    calc (roundEven a : ℝ) * 2 ^ e ≤ 2 ^ 53 * 2 ^ e := mul_le_mul_of_nonneg_right ha (by positivity)
      _ = 2 ^ 52 * (2 * 2 ^ e) := by ring
      _ ≤ 2 ^ 52 * 2 ^ e' := mul_le_mul_of_nonneg_left hpow (by positivity)
      _ ≤ _ := mul_le_mul_of_nonneg_right hb (by positivity)
  · have hp : (0 : ℝ) < 2 ^ e := by positivity
    have hab : a ≤ b := le_of_mul_le_mul_right h hp
    exact mul_le_mul_of_nonneg_right (by exact_mod_cast roundEven_mono hab) hp.le

theorem double_mono : Monotone double := by
  intro x y h
  rcases lt_trichotomy 0 x with hx | rfl | hx
  · exact double_mono_pos hx h
  · rw [double_zero]
    rcases lt_or_eq_of_le h with h | rfl
    · exact (double_pos h).le
    · rw [double_zero]
  · rcases lt_or_ge y 0 with hy | hy
    · have := double_mono_pos (x := -y) (y := -x) (by linarith) (by linarith)
      rw [double_neg, double_neg] at this
      linarith
    · have h1 : double x ≤ 0 := by
        have := double_pos (x := -x) (by linarith)
        rw [double_neg] at this; linarith
      have h2 : 0 ≤ double y := by
        rcases lt_or_eq_of_le hy with h | rfl
        · exact (double_pos h).le
        · rw [double_zero]
      linarith

/-- Multiples of a power of two by 53-bit integers are doubles. -/
theorem double_int {k : ℤ} (h0 : 2 ^ 52 ≤ k) (h1 : k ≤ 2 ^ 53) (e : ℤ) :
    double (k * 2 ^ e) = k * 2 ^ e := by
  rcases lt_or_eq_of_le h1 with h | rfl
  · rw [double_scale (by exact_mod_cast h0) (by exact_mod_cast h), roundEven_int]
  · have : (((2 ^ 53 : ℤ) : ℝ)) * 2 ^ e = ((2 ^ 52 : ℤ) : ℝ) * 2 ^ (1 + e) := by
      rw [zpow_one_add₀ (by norm_num)]; push_cast; ring
    rw [this, double_scale (by norm_num) (by norm_num), roundEven_int]

theorem double_idem (x : ℝ) : double (double x) = double x := by
  have key : ∀ x, 0 < x → double (double x) = double x := by
    intro x hx
    obtain ⟨y, e, h0, h1, rfl, -⟩ := exists_scale hx
    rw [double_scale h0 h1]
    exact double_int (roundEven_ge h0) (roundEven_le h1.le) e
  rcases lt_trichotomy x 0 with h | rfl | h
  · have := key (-x) (by linarith)
    rw [double_neg, double_neg] at this
    linarith
  · simp [double_zero]
  · exact key x h

theorem double_one : double 1 = 1 := by
  have h := double_int (k := 2 ^ 52) le_rfl (by norm_num) (-52)
  have e : ((2 ^ 52 : ℤ) : ℝ) * 2 ^ (-52 : ℤ) = 1 := by norm_num
  rwa [e] at h

/-- Doubles round with relative error `2⁻⁵³`. -/
theorem double_rounds : Rounds double (2⁻¹ ^ 53) :=
  ⟨by positivity, by norm_num, double_err, double_mono, double_idem, double_one⟩

end Flory
