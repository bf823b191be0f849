import Verif.Lemmas.MergeLeave

/-! # The form that decreases in a mixture with two features -/

set_option linter.unusedSectionVars false

namespace Flory

open Spec

/-- A solution `W` of `W K + Kᵀ W = 2 tr K` for a two by two matrix. -/
noncomputable def binaryForm (k : Mat 2 2 ℝ) (Δ : ℝ) : Mat 2 2 ℝ :=
  ![![1 + (k 1 1 ^ 2 + k 1 0 ^ 2) / Δ, -(k 1 1 * k 0 1 + k 1 0 * k 0 0) / Δ],
    ![-(k 1 1 * k 0 1 + k 1 0 * k 0 0) / Δ, 1 + (k 0 1 ^ 2 + k 0 0 ^ 2) / Δ]]

theorem binaryForm_quad (k : Mat 2 2 ℝ) {Δ : ℝ} (hΔ : Δ ≠ 0) (u : Vec 2 ℝ) :
    quad (binaryForm k Δ) u = u 0 ^ 2 + u 1 ^ 2 +
      ((k 1 1 * u 0 - k 0 1 * u 1) ^ 2 + (k 0 0 * u 1 - k 1 0 * u 0) ^ 2) / Δ := by
  simp only [quad, binaryForm, Fin.sum_univ_two, Matrix.cons_val_zero, Matrix.cons_val_one]
  field_simp
  ring

theorem binaryForm_lyapunov (k : Mat 2 2 ℝ) {Δ : ℝ} (hΔ : Δ = k 0 0 * k 1 1 - k 0 1 * k 1 0) (h0 : Δ ≠ 0)
    (u v : Vec 2 ℝ) (hv : ∀ r, v r = k r 0 * u 0 + k r 1 * u 1) :
    bil (binaryForm k Δ) u v + bil (binaryForm k Δ) v u = 2 * (k 0 0 + k 1 1) * (u 0 ^ 2 + u 1 ^ 2) := by
  simp only [bil, binaryForm, Fin.sum_univ_two, Matrix.cons_val_zero, Matrix.cons_val_one, hv]
  field_simp
  rw [hΔ]
  ring

/-- Coefficients of the response of a mixture with two features. -/
noncomputable def binaryResponse (chis : Mat 2 2 ℝ) (kap : ℝ) (d : Vec 2 ℝ) : Mat 2 2 ℝ :=
  ![![(1 + chis 0 0 * d 0 - chis 1 0 * d 0 + kap * d 0) / 2,
      (chis 0 1 * d 1 - 1 - chis 1 1 * d 1 + kap * d 1) / 2],
    ![(-(1 + chis 0 0 * d 0 - chis 1 0 * d 0) + kap * d 0) / 2,
      (-(chis 0 1 * d 1 - 1 - chis 1 1 * d 1) + kap * d 1) / 2]]

theorem response_two (chis : Mat 2 2 ℝ) (kap : ℝ) (d u : Vec 2 ℝ) (r : Fin 2) :
    response chis kap d u r = binaryResponse chis kap d r 0 * u 0 + binaryResponse chis kap d r 1 * u 1 := by
  fin_cases r <;>
  · simp only [response, binaryResponse, Fin.sum_univ_two, Fin.zero_eta, Fin.mk_one, Fin.isValue,
      Matrix.cons_val_zero, Matrix.cons_val_one, Nat.cast_ofNat]
    ring

variable {chis : Mat 2 2 ℝ} {kap : ℝ} {d : Vec 2 ℝ}

theorem binary_det (hsym : chis 1 0 = chis 0 1) (h0 : 0 < d 0) (h1 : 0 < d 1) :
    binaryResponse chis kap d 0 0 * binaryResponse chis kap d 1 1 -
      binaryResponse chis kap d 0 1 * binaryResponse chis kap d 1 0 =
      d 0 * d 1 * kap * exchangeCurvature chis d / 2 := by
  simp only [binaryResponse, exchangeCurvature, Matrix.cons_val_zero, Matrix.cons_val_one, hsym]
  field_simp
  ring

theorem binary_forms (hsym : chis 1 0 = chis 0 1) (h0 : 0 < d 0) (h1 : 0 < d 1) {shift : ℝ}
    (hshift : ∀ r s, 0 < chis r s + shift)
    (hkap : kap = (∑ r, ∑ s, chis r s) + shift * 2 * 2) :
    (0 < exchangeCurvature chis d → ∃ W : Mat 2 2 ℝ, (∀ u, u ≠ 0 → 0 < quad W u) ∧
      ∀ u, u ≠ 0 → 0 < bil W u (response chis kap d u) + bil W (response chis kap d u) u) ∧
    (exchangeCurvature chis d < 0 → ∃ W : Mat 2 2 ℝ, (∃ u, quad W u < 0) ∧
      ∀ u, u ≠ 0 → 0 < bil W u (response chis kap d u) + bil W (response chis kap d u) u) := by
  have s00 := hshift 0 0
  have s01 := hshift 0 1
  have s11 := hshift 1 1
  have hk : kap = chis 0 0 + chis 1 1 + 2 * chis 0 1 + 4 * shift := by
    rw [hkap, Fin.sum_univ_two, Fin.sum_univ_two, Fin.sum_univ_two, hsym]; ring
  have hkpos : 0 < kap := by linarith
  set k := binaryResponse chis kap d with hkdef
  set Δ := k 0 0 * k 1 1 - k 0 1 * k 1 0 with hΔ
  have hdet : Δ = d 0 * d 1 * kap * exchangeCurvature chis d / 2 := binary_det hsym h0 h1
  have hτ : 0 < k 0 0 + k 1 1 := by
    have e1 : k 0 0 + k 1 1 = 1 + d 0 * ((chis 0 0 - chis 0 1 + kap) / 2) +
        d 1 * ((chis 1 1 - chis 0 1 + kap) / 2) := by
      simp only [hkdef, binaryResponse, Matrix.cons_val_zero, Matrix.cons_val_one, hsym]
      ring
    have e2 : 0 < d 0 * ((chis 0 0 - chis 0 1 + kap) / 2) := mul_pos h0 (by linarith)
    have e3 : 0 < d 1 * ((chis 1 1 - chis 0 1 + kap) / 2) := mul_pos h1 (by linarith)
    linarith
  have hlyap : Δ ≠ 0 → ∀ u, u ≠ 0 → 0 < bil (binaryForm k Δ) u (response chis kap d u) +
      bil (binaryForm k Δ) (response chis kap d u) u := by
    intro h u hu
    rw [binaryForm_lyapunov k hΔ h u _ (response_two chis kap d u)]
    have := sumSq_pos hu
    rw [sumSq, Fin.sum_univ_two] at this
    positivity
  constructor
  · intro hpos
    have hΔ0 : 0 < Δ := by rw [hdet]; positivity
    refine ⟨binaryForm k Δ, fun u hu => ?_, hlyap hΔ0.ne'⟩
    have := sumSq_pos hu
    rw [sumSq, Fin.sum_univ_two] at this
    rw [binaryForm_quad k hΔ0.ne']
    positivity
  · intro hneg
    have hΔ0 : Δ < 0 := by
      rw [hdet]
      have : 0 < d 0 * d 1 * kap := by positivity
      nlinarith
    refine ⟨binaryForm k Δ, ?_, hlyap hΔ0.ne⟩
    by_contra hcon
    push Not at hcon
    have a0 := hcon ![1, 0]
    have a1 := hcon ![0, 1]
    rw [binaryForm_quad k hΔ0.ne] at a0 a1
    simp only [Matrix.cons_val_zero, Matrix.cons_val_one] at a0 a1
    have e0 : (k 1 1 ^ 2 + k 1 0 ^ 2 + (k 0 1 ^ 2 + k 0 0 ^ 2)) / Δ ≥ -2 := by
      rw [add_div]
      have b0 : (k 1 1 * 1 - k 0 1 * 0) ^ 2 + (k 0 0 * 0 - k 1 0 * 1) ^ 2 = k 1 1 ^ 2 + k 1 0 ^ 2 := by ring
      have b1 : (k 1 1 * 0 - k 0 1 * 1) ^ 2 + (k 0 0 * 1 - k 1 0 * 0) ^ 2 = k 0 1 ^ 2 + k 0 0 ^ 2 := by ring
      rw [b0] at a0
      rw [b1] at a1
      linarith
    rw [ge_iff_le, le_div_iff_of_neg hΔ0] at e0
    nlinarith [sq_nonneg (k 0 1 - k 1 0), hτ]

end Flory
