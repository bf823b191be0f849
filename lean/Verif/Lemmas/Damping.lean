import Verif.Lemmas.Overshoot
import Verif.Spec.Damping
import Mathlib.Analysis.Polynomial.Basic
import Mathlib.LinearAlgebra.Matrix.Charpoly.Coeff
import Mathlib.LinearAlgebra.Matrix.PosDef
import Mathlib.LinearAlgebra.Matrix.SchurComplement
import Mathlib.LinearAlgebra.Matrix.ToLinearEquiv
import Mathlib.Analysis.Matrix.PosDef
import Mathlib.Topology.Order.IntermediateValue

/-! # Signs of the rates of modes -/

set_option linter.unusedSectionVars false

namespace Flory

open Spec Finset Matrix

variable {S : ℕ}

/-- If the determinant is negative after a shift of the rates, there is a negative rate. -/
theorem exists_negative_mode {chis : Mat S S ℝ} {kap : ℝ} {d : Vec S ℝ} {t : ℝ} (ht : 0 ≤ t)
    (h : (responseMat chis kap d + t • (1 : Matrix (Fin S) (Fin S) ℝ)).det < 0) :
    ∃ (μ : ℝ) (u : Fin S → ℂ), μ < 0 ∧ FieldMode chis kap d μ u := by
  set R := responseMat chis kap d with hR
  have hev : ∀ x : ℝ, (-R).charpoly.eval x = (R + x • (1 : Matrix (Fin S) (Fin S) ℝ)).det := by
    intro x
    rw [Matrix.eval_charpoly, sub_neg_eq_add, add_comm, Matrix.scalar_apply, ← Matrix.smul_one_eq_diagonal]
  have hS : S ≠ 0 := by
    rintro rfl
    rw [Matrix.det_isEmpty] at h
    linarith
  have hdeg : 0 < (-R).charpoly.degree := by
    rw [Matrix.charpoly_degree_eq_dim, Fintype.card_fin]
    exact_mod_cast Nat.pos_of_ne_zero hS
  have htop := Polynomial.tendsto_atTop_of_leadingCoeff_nonneg _ hdeg
    (by rw [(Matrix.charpoly_monic _).leadingCoeff]; exact zero_le_one)
  obtain ⟨x₁, hx₁, hx₁'⟩ := ((htop.eventually_ge_atTop 0).and (Filter.eventually_ge_atTop t)).exists
  obtain ⟨x, ⟨hx, -⟩, hx0⟩ : ∃ x ∈ Set.Icc t x₁, (-R).charpoly.eval x = 0 :=
    intermediate_value_Icc hx₁' (Polynomial.continuous _).continuousOn ⟨by rw [hev]; exact h.le, hx₁⟩
  have hxt : x ≠ t := by
    rintro rfl
    rw [hev] at hx0
    linarith
  have hxpos : 0 < x := lt_of_le_of_lt ht (lt_of_le_of_ne hx (Ne.symm hxt))
  rw [hev, ← Matrix.exists_mulVec_eq_zero_iff] at hx0
  obtain ⟨u, hu, hu0⟩ := hx0
  refine ⟨-x, fun r => (u r : ℂ), by linarith, fun h0 => hu (funext fun r => ?_), fun r => ?_⟩
  · simpa using congrFun h0 r
  · have h1 := congrFun hu0 r
    rw [Matrix.add_mulVec, Matrix.smul_mulVec, Matrix.one_mulVec, Pi.add_apply, hR,
      responseMat_mulVec] at h1
    simp only [Pi.smul_apply, smul_eq_mul, Pi.zero_apply] at h1
    have h2 := congrArg (Complex.ofReal) h1
    push_cast at h2 ⊢
    linear_combination h2

/-- A symmetric matrix with one negative direction has negative determinant. -/
theorem det_neg_of_one_negative {n : ℕ} {A : Matrix (Fin n) (Fin n) ℝ} (hA : A.IsSymm) {z₀ : Fin n → ℝ}
    (hq : z₀ ⬝ᵥ A *ᵥ z₀ < 0) (hpos : ∀ y ≠ 0, y ⬝ᵥ A *ᵥ z₀ = 0 → 0 < y ⬝ᵥ A *ᵥ y) : A.det < 0 := by
  set q := z₀ ⬝ᵥ A *ᵥ z₀ with hqdef
  set b := A *ᵥ z₀ with hb
  set s : ℝ := -2 / q with hs
  have hsq : s * q = -2 := by rw [hs, div_mul_cancel₀ _ hq.ne]
  set A' := A + s • Matrix.vecMulVec b b with hA'
  have hfac : A' = A * (1 + Matrix.vecMulVec (s • z₀) b) := by
    rw [mul_add, mul_one, hA', Matrix.mul_vecMulVec, Matrix.mulVec_smul, Matrix.smul_vecMulVec]
  have hdet : A'.det = A.det * (-1) := by
    rw [hfac, Matrix.det_mul]
    congr 1
    rw [Matrix.vecMulVec_eq Unit, Matrix.det_one_add_replicateCol_mul_replicateRow, dotProduct_smul,
      dotProduct_comm, ← hqdef, smul_eq_mul, hsq]
    norm_num
  have hsymm : ∀ x y : Fin n → ℝ, x ⬝ᵥ A *ᵥ y = y ⬝ᵥ A *ᵥ x := by
    intro x y
    rw [Matrix.dotProduct_mulVec, ← Matrix.mulVec_transpose, hA.eq, dotProduct_comm]
  have hpd : A'.PosDef := by
    refine Matrix.PosDef.of_dotProduct_mulVec_pos ?_ ?_
    · rw [Matrix.IsHermitian, Matrix.conjTranspose_eq_transpose_of_trivial, hA', Matrix.transpose_add,
        Matrix.transpose_smul, hA.eq, Matrix.transpose_vecMulVec]
    · intro x hx
      rw [star_trivial, hA', Matrix.add_mulVec, dotProduct_add, Matrix.smul_mulVec, dotProduct_smul,
        Matrix.vecMulVec_mulVec]
      set p := x ⬝ᵥ b with hp
      have h1 : x ⬝ᵥ MulOpposite.op (b ⬝ᵥ x) • b = p ^ 2 := by
        rw [op_smul_eq_smul, dotProduct_smul, smul_eq_mul, dotProduct_comm b x, sq]
      rw [h1, smul_eq_mul]
      set y := x - (p / q) • z₀ with hy
      have hy0 : y ⬝ᵥ A *ᵥ z₀ = 0 := by
        rw [hy, sub_dotProduct, smul_dotProduct, ← hqdef, ← hb, ← hp, smul_eq_mul, div_mul_cancel₀ _ hq.ne,
          sub_self]
      have hyy : y ⬝ᵥ A *ᵥ y = x ⬝ᵥ A *ᵥ x - p ^ 2 / q := by
        conv_lhs => rw [hy, Matrix.mulVec_sub, dotProduct_sub, Matrix.mulVec_smul, dotProduct_smul]
        rw [← hy, hy0, smul_zero, sub_zero, hy, sub_dotProduct, smul_dotProduct, hsymm z₀ x, ← hb, ← hp,
          smul_eq_mul]
        ring
      have hsp : s * p ^ 2 = -2 * p ^ 2 / q := by rw [hs]; ring
      have hpq : p ^ 2 / q ≤ 0 := div_nonpos_of_nonneg_of_nonpos (sq_nonneg _) hq.le
      have hsp' : -2 * p ^ 2 / q = -2 * (p ^ 2 / q) := by ring
      rw [hsp, hsp']
      by_cases hyz : y = 0
      · have hp0 : p ≠ 0 := by
          intro hp0
          rw [hy, hp0, zero_div, zero_smul, sub_zero] at hyz
          exact hx hyz
        have : p ^ 2 / q < 0 := div_neg_of_pos_of_neg (by positivity) hq
        rw [hyz, zero_dotProduct] at hyy
        linarith
      · have := hpos y hyz hy0
        linarith
  have := hpd.det_pos
  linarith

/-- The projection onto changes that conserve the volume. -/
noncomputable def meanFree (S : ℕ) : Matrix (Fin S) (Fin S) ℝ := 1 - (S : ℝ)⁻¹ • Matrix.of fun _ _ => 1

/-- The Hessian of the free energy. -/
noncomputable def hessMat (chis : Mat S S ℝ) (d : Vec S ℝ) : Matrix (Fin S) (Fin S) ℝ :=
  Matrix.diagonal (fun r => (d r)⁻¹) + Matrix.of chis

/-- The symmetric part of the response that decides about the sign of its determinant. -/
noncomputable def symMat (chis : Mat S S ℝ) (kap : ℝ) (d : Vec S ℝ) : Matrix (Fin S) (Fin S) ℝ :=
  meanFree S * hessMat chis d * meanFree S + (kap / S) • Matrix.of fun _ _ => 1

theorem ones_mul_ones : (Matrix.of fun _ _ => 1 : Matrix (Fin S) (Fin S) ℝ) * (Matrix.of fun _ _ => 1) =
    (S : ℝ) • Matrix.of fun _ _ => 1 := by
  ext r s
  simp [Matrix.mul_apply]

theorem ones_mul_meanFree [NeZero S] : (Matrix.of fun _ _ => 1 : Matrix (Fin S) (Fin S) ℝ) * meanFree S = 0 := by
  have hS : (S : ℝ) ≠ 0 := by exact_mod_cast NeZero.ne S
  rw [meanFree, mul_sub, mul_one, Matrix.mul_smul, ones_mul_ones, smul_smul, inv_mul_cancel₀ hS, one_smul,
    sub_self]

theorem responseMat_eq [NeZero S] (chis : Mat S S ℝ) (kap : ℝ) {d : Vec S ℝ} (hd : ∀ r, d r ≠ 0) :
    responseMat chis kap d =
      (meanFree S * hessMat chis d + (kap / S) • Matrix.of fun _ _ => 1) * Matrix.diagonal d := by
  have hS : (S : ℝ) ≠ 0 := by exact_mod_cast NeZero.ne S
  ext r s
  rw [Matrix.mul_diagonal]
  simp only [meanFree, hessMat, Matrix.add_apply, Matrix.smul_apply, Matrix.of_apply, sub_mul, one_mul,
    Matrix.sub_apply, Matrix.smul_mul, Matrix.mul_apply, smul_eq_mul, mul_one, responseMat,
    Matrix.diagonal_apply]
  have h1 : ∀ q : Fin S, (if q = s then (1 : ℝ) else 0) + chis q s * d s =
      ((if q = s then (d q)⁻¹ else 0) + chis q s) * d s := by
    intro q
    rw [add_mul]
    split_ifs with h
    · rw [h, inv_mul_cancel₀ (hd s)]
    · rw [zero_mul]
  simp only [h1, ← sum_mul]
  field_simp

theorem det_responseMat_eq [NeZero S] (chis : Mat S S ℝ) {kap : ℝ} (hkap : kap ≠ 0) {d : Vec S ℝ}
    (hd : ∀ r, d r ≠ 0) : (responseMat chis kap d).det = (symMat chis kap d).det * ∏ r, d r := by
  have hS : (S : ℝ) ≠ 0 := by exact_mod_cast NeZero.ne S
  rw [responseMat_eq chis kap hd, Matrix.det_mul, Matrix.det_diagonal]
  congr 1
  set J : Matrix (Fin S) (Fin S) ℝ := Matrix.of fun _ _ => 1 with hJ
  set P := meanFree S with hP
  set H := hessMat chis d with hH
  have hJP : J * P = 0 := ones_mul_meanFree
  have hJJ : J * J = (S : ℝ) • J := ones_mul_ones
  have hPJ : P + (S : ℝ)⁻¹ • J = 1 := by rw [hP, meanFree, sub_add_cancel]
  have h1 : P * H + (kap / S) • J = (1 + ((kap * S)⁻¹ • (P * H)) * J) * symMat chis kap d := by
    rw [symMat, ← hP, ← hH, ← hJ, add_mul, one_mul, mul_assoc (_ • _), mul_add J, Matrix.mul_smul, hJJ,
      show J * (P * H * P) = (J * P) * H * P by simp only [mul_assoc], hJP, zero_mul, zero_mul, zero_add,
      smul_smul, Matrix.mul_smul, Matrix.smul_mul, smul_smul]
    have h2 : kap / S * S * (kap * S)⁻¹ = (S : ℝ)⁻¹ := by field_simp
    rw [h2]
    calc P * H + (kap / S) • J = P * H * (P + (S : ℝ)⁻¹ • J) + (kap / S) • J := by rw [hPJ, mul_one]
      _ = _ := by rw [mul_add, Matrix.mul_smul]; abel
  rw [h1, Matrix.det_mul, Matrix.det_one_add_mul_comm, Matrix.mul_smul, ← mul_assoc, hJP, zero_mul, smul_zero,
    add_zero, Matrix.det_one, one_mul]

/-- The volume-conserving part of a change. -/
noncomputable def centred (y : Vec S ℝ) : Vec S ℝ := fun r => y r - (∑ s, y s) / S

theorem meanFree_mulVec (y : Vec S ℝ) : meanFree S *ᵥ y = centred y := by
  funext r
  rw [meanFree, Matrix.sub_mulVec, Matrix.one_mulVec, Matrix.smul_mulVec]
  simp [Matrix.mulVec, dotProduct, centred, div_eq_inv_mul]

theorem meanFree_transpose : (meanFree S)ᵀ = meanFree S := by
  ext r s
  simp [meanFree, Matrix.one_apply, eq_comm]

theorem sum_centred [NeZero S] (y : Vec S ℝ) : ∑ r, centred y r = 0 := by
  have hS : (S : ℝ) ≠ 0 := by exact_mod_cast NeZero.ne S
  simp only [centred, sum_sub_distrib, sum_const, card_univ, Fintype.card_fin, nsmul_eq_mul]
  field_simp
  ring

theorem centred_of_sum {z : Vec S ℝ} (hz : ∑ r, z r = 0) : centred z = z := by
  funext r
  rw [centred, hz, zero_div, sub_zero]

theorem dot_hessMat (chis : Mat S S ℝ) (d y z : Vec S ℝ) :
    y ⬝ᵥ hessMat chis d *ᵥ z = crossCurvature chis d y z := by
  rw [hessMat, Matrix.add_mulVec]
  refine sum_congr rfl fun r _ => ?_
  rw [Pi.add_apply, Matrix.mulVec_diagonal, div_eq_inv_mul]
  rfl

theorem crossCurvature_self (chis : Mat S S ℝ) (d z : Vec S ℝ) :
    crossCurvature chis d z z = curvature chis d z := by
  simp only [crossCurvature, curvature, mul_add, sum_add_distrib, mul_sum]
  congr 1
  · exact sum_congr rfl fun r _ => by ring
  · exact sum_congr rfl fun r _ => sum_congr rfl fun s _ => by ring

theorem dot_symMat (chis : Mat S S ℝ) (kap : ℝ) (d y z : Vec S ℝ) :
    y ⬝ᵥ symMat chis kap d *ᵥ z =
      crossCurvature chis d (centred y) (centred z) + kap / S * ((∑ r, y r) * ∑ r, z r) := by
  rw [symMat, Matrix.add_mulVec, dotProduct_add, ← Matrix.mulVec_mulVec, ← Matrix.mulVec_mulVec,
    meanFree_mulVec z, Matrix.dotProduct_mulVec y (meanFree S), ← Matrix.mulVec_transpose, meanFree_transpose,
    meanFree_mulVec, dot_hessMat]
  congr 1
  rw [Matrix.smul_mulVec, dotProduct_smul, smul_eq_mul]
  congr 1
  simp only [dotProduct, Matrix.mulVec, Matrix.of_apply, one_mul, ← sum_mul]

theorem symMat_symm {chis : Mat S S ℝ} (hsym : ∀ r s, chis r s = chis s r) (kap : ℝ) (d : Vec S ℝ) :
    (symMat chis kap d).IsSymm := by
  have h1 : (hessMat chis d)ᵀ = hessMat chis d := by
    ext r s
    simp only [hessMat, Matrix.transpose_apply, Matrix.add_apply, Matrix.of_apply, Matrix.diagonal_apply]
    rw [hsym s r]
    by_cases h : r = s
    · rw [h]
    · rw [if_neg h, if_neg (Ne.symm h)]
  rw [Matrix.IsSymm, symMat, Matrix.transpose_add, Matrix.transpose_mul, Matrix.transpose_mul, h1,
    meanFree_transpose, Matrix.transpose_smul, mul_assoc]
  rfl

/-- With one unstable direction there is a mode that grows. -/
theorem exists_mode_of_unstable [NeZero S] {chis : Mat S S ℝ} (hsym : ∀ r s, chis r s = chis s r) {kap : ℝ}
    (hkap : 0 < kap) {d : Vec S ℝ} (hd : ∀ r, 0 < d r) (h : OneUnstable chis d) :
    ∃ (μ : ℝ) (u : Fin S → ℂ), μ < 0 ∧ FieldMode chis kap d μ u := by
  have hS : (0 : ℝ) < S := by exact_mod_cast Nat.pos_of_ne_zero (NeZero.ne S)
  obtain ⟨z₀, hz, hneg, hpos⟩ := h
  refine exists_negative_mode le_rfl ?_
  rw [zero_smul, add_zero, det_responseMat_eq chis hkap.ne' fun r => (hd r).ne']
  refine mul_neg_of_neg_of_pos ?_ (prod_pos fun r _ => hd r)
  refine det_neg_of_one_negative (symMat_symm hsym kap d) (z₀ := z₀) ?_ fun y hy hy0 => ?_
  · rw [dot_symMat, centred_of_sum hz, crossCurvature_self, hz, zero_mul, mul_zero, add_zero]
    exact hneg
  · rw [dot_symMat, centred_of_sum hz, hz, mul_zero, mul_zero, add_zero] at hy0
    rw [dot_symMat, crossCurvature_self]
    by_cases hc : centred y = 0
    · have hsum : ∑ r, y r ≠ 0 := by
        intro h0
        rw [centred_of_sum h0] at hc
        exact hy hc
      have h1 : curvature chis d (centred y) = 0 := by rw [hc]; simp [curvature]
      rw [h1, zero_add]
      exact mul_pos (div_pos hkap hS) (mul_self_pos.mpr hsum)
    · have h1 := hpos _ (sum_centred y) hc hy0
      exact add_pos_of_pos_of_nonneg h1 (mul_nonneg (div_pos hkap hS).le (mul_self_nonneg _))

/-- Work of a change `z` of the amounts against the response of the fields. -/
theorem dot_response [NeZero S] (chis : Mat S S ℝ) (kap : ℝ) {d : Vec S ℝ} (hd : ∀ r, d r ≠ 0) (u : Vec S ℝ) :
    ∑ r, d r * u r * (responseMat chis kap d *ᵥ u) r =
      curvature chis d (centred fun r => d r * u r) +
        (∑ r, d r * u r) / S * ∑ r, centred (fun r => d r * u r) r * (1 / d r + ∑ s, chis r s) +
        kap / S * (∑ r, d r * u r) ^ 2 := by
  set z : Vec S ℝ := fun r => d r * u r with hz
  set σ := ∑ r, z r with hσ
  have h1 : (responseMat chis kap d) *ᵥ u =
      (meanFree S * hessMat chis d + (kap / S) • Matrix.of fun _ _ => 1) *ᵥ z := by
    rw [responseMat_eq chis kap hd, ← Matrix.mulVec_mulVec]
    congr 1
    funext r
    rw [Matrix.mulVec_diagonal]
  have h2 : ∑ r, z r * (responseMat chis kap d *ᵥ u) r = z ⬝ᵥ (responseMat chis kap d *ᵥ u) := rfl
  rw [h2, h1, Matrix.add_mulVec, dotProduct_add, ← Matrix.mulVec_mulVec, Matrix.dotProduct_mulVec z (meanFree S),
    ← Matrix.mulVec_transpose, meanFree_transpose, meanFree_mulVec]
  have h3 : z = centred z + (σ / S) • (fun _ => 1 : Vec S ℝ) := by
    funext r
    simp [centred, hσ]
  have h4 : centred z ⬝ᵥ hessMat chis d *ᵥ z = curvature chis d (centred z) +
      σ / S * ∑ r, centred z r * (1 / d r + ∑ s, chis r s) := by
    conv_lhs => rw [h3, ← h3]
    conv_lhs => enter [2, 2]; rw [h3]
    rw [Matrix.mulVec_add, dotProduct_add, dot_hessMat, crossCurvature_self, Matrix.mulVec_smul, dotProduct_smul,
      dot_hessMat, smul_eq_mul]
    simp [crossCurvature]
  rw [h4]
  congr 1
  rw [Matrix.smul_mulVec, dotProduct_smul, smul_eq_mul]
  congr 1
  simp only [dotProduct, Matrix.mulVec, Matrix.of_apply, one_mul, ← sum_mul, sq]
  rfl

/-- If the coefficient outweighs the unevenness, changes work against the response. -/
theorem dot_response_pos [NeZero S] {chis : Mat S S ℝ} {kap : ℝ} {d : Vec S ℝ} (hd : ∀ r, 0 < d r) {α c : ℝ}
    (hα : 0 < α) (hst : StableBy α chis d) (hkap : unevenness chis d c < 4 * α * S * kap) {u : Vec S ℝ}
    (hu : u ≠ 0) : 0 < ∑ r, d r * u r * (responseMat chis kap d *ᵥ u) r := by
  have hS : (0 : ℝ) < S := by exact_mod_cast Nat.pos_of_ne_zero (NeZero.ne S)
  rw [dot_response chis kap fun r => (hd r).ne']
  set z : Vec S ℝ := fun r => d r * u r with hz
  set σ := ∑ r, z r with hσ
  set y := centred z with hy
  have hc := hst y (sum_centred z)
  have hlin : ∑ r, y r * (1 / d r + ∑ s, chis r s) = ∑ r, y r * (1 / d r + ∑ s, chis r s - c) := by
    simp only [mul_sub, sum_sub_distrib, ← sum_mul, sum_centred z, hy, zero_mul, sub_zero]
  rw [hlin]
  set h : Vec S ℝ := fun r => 1 / d r + ∑ s, chis r s - c with hh
  have hsq : 0 ≤ ∑ r, α / d r * (y r + σ / (2 * α * S) * (d r * h r)) ^ 2 :=
    sum_nonneg fun r _ => mul_nonneg (div_pos hα (hd r)).le (sq_nonneg _)
  have hex : ∑ r, α / d r * (y r + σ / (2 * α * S) * (d r * h r)) ^ 2 =
      α * ∑ r, y r ^ 2 / d r + σ / S * ∑ r, y r * h r + σ ^ 2 / (4 * α * S ^ 2) * unevenness chis d c := by
    rw [unevenness, mul_sum, mul_sum, mul_sum, ← sum_add_distrib, ← sum_add_distrib]
    refine sum_congr rfl fun r _ => ?_
    have := (hd r).ne'
    rw [show 1 / d r + ∑ s, chis r s - c = h r from rfl]
    field_simp
    ring
  by_cases hσ0 : σ = 0
  · have hzne : z ≠ 0 := by
      intro h0
      refine hu (funext fun r => ?_)
      have := congrFun h0 r
      exact (mul_eq_zero.mp this).resolve_left (hd r).ne'
    obtain ⟨r, hr⟩ := Function.ne_iff.mp hzne
    have hyz : y = z := centred_of_sum hσ0
    have hpos : 0 < ∑ r, y r ^ 2 / d r := by
      rw [hyz]
      refine sum_pos' (fun r _ => div_nonneg (sq_nonneg _) (hd r).le) ⟨r, mem_univ r, ?_⟩
      exact div_pos (sq_pos_of_ne_zero hr) (hd r)
    rw [hσ0, zero_div, zero_mul, add_zero, sq, mul_zero, mul_zero, add_zero]
    nlinarith [mul_pos hα hpos]
  · have h1 : 0 < kap / S - unevenness chis d c / (4 * α * S ^ 2) := by
      rw [sub_pos, div_lt_div_iff₀ (by positivity) hS]
      nlinarith
    have h2 : 0 < σ ^ 2 := by positivity
    have h3 : σ ^ 2 / (4 * α * S ^ 2) * unevenness chis d c = σ ^ 2 * (unevenness chis d c / (4 * α * S ^ 2)) := by
      ring
    nlinarith [mul_pos h2 h1]

theorem responseMat_map (chis : Mat S S ℝ) (kap : ℝ) (d : Vec S ℝ) (r s : Fin S) :
    responseMat (fun r s => (chis r s : ℂ)) kap (fun s => (d s : ℂ)) r s = (responseMat chis kap d r s : ℝ) := by
  have h1 : ∀ q : Fin S, ((if q = s then 1 else 0 : ℝ) : ℂ) = if q = s then 1 else 0 := fun q => by
    split_ifs <;> simp
  simp only [responseMat, Matrix.of_apply]
  push_cast
  simp only [h1]

/-- A condition for all rates to have positive real part. -/
theorem mode_re_pos {chis : Mat S S ℝ} {kap : ℝ} {d : Vec S ℝ} (hd : ∀ r, 0 < d r)
    (hpos : ∀ u : Vec S ℝ, u ≠ 0 → 0 < ∑ r, d r * u r * (responseMat chis kap d *ᵥ u) r) {μ : ℂ}
    {u : Fin S → ℂ} (h : FieldMode chis kap d μ u) : 0 < μ.re := by
  obtain ⟨hu, hm⟩ := h
  set R := responseMat chis kap d with hR
  set p : Vec S ℝ := fun r => (u r).re with hp
  set q : Vec S ℝ := fun r => (u r).im with hq
  have hsum : ∀ r, ∑ s, (R r s : ℂ) * u s = μ * u r := by
    intro r
    exact Eq.trans (sum_congr rfl fun s _ => congrArg (· * u s) (responseMat_map chis kap d r s).symm)
      ((responseMat_mulVec (fun r s => (chis r s : ℂ)) kap (fun s => (d s : ℂ)) u r).trans (hm r))
  have hre : ∀ r, (R *ᵥ p) r = μ.re * p r - μ.im * q r := by
    intro r
    have := congrArg Complex.re (hsum r)
    simp only [Complex.re_sum, Complex.re_ofReal_mul] at this
    rw [Complex.mul_re] at this
    exact this
  have him : ∀ r, (R *ᵥ q) r = μ.re * q r + μ.im * p r := by
    intro r
    have := congrArg Complex.im (hsum r)
    simp only [Complex.im_sum, Complex.im_ofReal_mul] at this
    rw [Complex.mul_im] at this
    exact this
  have hnn : ∀ v : Vec S ℝ, 0 ≤ ∑ r, d r * v r * (R *ᵥ v) r := by
    intro v
    by_cases hv : v = 0
    · simp [hv]
    · exact (hpos v hv).le
  have htot : ∑ r, d r * p r * (R *ᵥ p) r + ∑ r, d r * q r * (R *ᵥ q) r =
      μ.re * ∑ r, d r * (p r ^ 2 + q r ^ 2) := by
    rw [← sum_add_distrib, mul_sum]
    refine sum_congr rfl fun r _ => ?_
    rw [hre, him]; ring
  have hlt : 0 < ∑ r, d r * p r * (R *ᵥ p) r + ∑ r, d r * q r * (R *ᵥ q) r := by
    by_cases hp0 : p = 0
    · have hq0 : q ≠ 0 := by
        intro hq0
        exact hu (funext fun r => Complex.ext (congrFun hp0 r) (congrFun hq0 r))
      exact add_pos_of_nonneg_of_pos (hnn p) (hpos q hq0)
    · exact add_pos_of_pos_of_nonneg (hpos p hp0) (hnn q)
  rw [htot] at hlt
  exact pos_of_mul_pos_left hlt
    (sum_nonneg fun r _ => mul_nonneg (hd r).le (add_nonneg (sq_nonneg _) (sq_nonneg _)))

/-- Rates with positive real part are damped by all small step sizes. -/
theorem norm_lt_one_of_re {a : ℝ} (ha : 0 < a) {μ : ℂ} (h : a * Complex.normSq μ < 2 * μ.re) :
    ‖1 - (a : ℂ) * μ‖ < 1 := by
  have h1 : ‖1 - (a : ℂ) * μ‖ ^ 2 = 1 - a * (2 * μ.re - a * Complex.normSq μ) := by
    rw [Complex.sq_norm, Complex.normSq_apply, Complex.normSq_apply]
    simp
    ring
  have h2 : ‖1 - (a : ℂ) * μ‖ ^ 2 < 1 := by rw [h1]; nlinarith
  nlinarith [norm_nonneg (1 - (a : ℂ) * μ)]

/-- Rates with negative real part are amplified by all step sizes. -/
theorem one_lt_norm_of_re {a : ℝ} (ha : 0 < a) {μ : ℂ} (h : μ.re < 0) : 1 < ‖1 - (a : ℂ) * μ‖ := by
  have h1 := Complex.abs_re_le_norm (1 - (a : ℂ) * μ)
  simp only [Complex.sub_re, Complex.one_re, Complex.re_ofReal_mul] at h1
  nlinarith [le_abs_self (1 - a * μ.re), mul_pos_of_neg_of_neg (neg_neg_of_pos ha) h]

/-- One step size damps finitely many rates. -/
theorem exists_step (s : Finset ℂ) (h : ∀ μ ∈ s, 0 < μ.re) :
    ∃ a₀ > 0, ∀ a : ℝ, 0 < a → a ≤ a₀ → ∀ μ ∈ s, ‖1 - (a : ℂ) * μ‖ < 1 := by
  classical
  induction s using Finset.induction_on with
  | empty => exact ⟨1, one_pos, fun a _ _ μ hμ => absurd hμ (notMem_empty μ)⟩
  | insert x s hx ih =>
    obtain ⟨b, hb, hb'⟩ := ih fun μ hμ => h μ (mem_insert_of_mem hμ)
    have hx0 := h x (mem_insert_self x s)
    have hn : 0 < Complex.normSq x := by
      rw [Complex.normSq_pos]
      rintro rfl
      simp at hx0
    refine ⟨min b (x.re / Complex.normSq x), lt_min hb (div_pos hx0 hn), fun a ha hab μ hμ => ?_⟩
    rcases mem_insert.mp hμ with rfl | hμ
    · refine norm_lt_one_of_re ha ?_
      have := (le_div_iff₀ hn).mp (hab.trans (min_le_right _ _))
      linarith
    · exact hb' a ha (hab.trans (min_le_left _ _)) μ hμ

end Flory
