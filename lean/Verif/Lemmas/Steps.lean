import Verif.Spec.Steps
import Mathlib.Tactic.Positivity
import Mathlib.Algebra.Order.Floor.Semiring

/-! # Numbers of steps -/

namespace Flory

open Spec

/-- A quantity that shrinks by a factor `θ` in each step falls below a tolerance after a number of steps that is
logarithmic in the tolerance. -/
theorem exists_logSteps {D θ : ℝ} (hD : 0 < D) (hθ0 : 0 ≤ θ) (hθ1 : θ < 1) :
    ∃ K > 0, ∀ tol > 0, ∃ n : ℕ, θ ^ n < tol / D ∧ LogSteps K tol (2 * (n + 1)) := by
  set t := max θ (1 / 2) with ht
  have ht0 : 0 < t := by positivity
  have ht1 : t < 1 := max_lt hθ1 (by norm_num)
  have hlam : 0 < -Real.log t := by linarith [Real.log_neg ht0 ht1]
  set lam := -Real.log t with hlamdef
  have hlD : 0 ≤ Real.log (1 + D) := Real.log_nonneg (by linarith)
  refine ⟨4 + 2 * Real.log (1 + D) / lam + 2 / lam, by positivity, fun tol htol => ?_⟩
  have hDt : 0 < D / tol := by positivity
  have h1t : 0 < 1 / tol := by positivity
  set n := ⌊Real.log (1 + D / tol) / lam⌋₊ + 1 with hn
  have hlow : Real.log (1 + D / tol) / lam < n := by
    rw [hn]
    exact_mod_cast Nat.lt_floor_add_one _
  have hup : (n : ℝ) ≤ Real.log (1 + D / tol) / lam + 1 := by
    rw [hn]
    push_cast
    linarith [Nat.floor_le (div_nonneg (Real.log_nonneg (by linarith : 1 ≤ 1 + D / tol)) hlam.le)]
  refine ⟨n, (pow_le_pow_left₀ hθ0 (le_max_left θ (1 / 2)) n).trans_lt ?_, by omega, ?_⟩
  · rw [div_lt_iff₀ hlam] at hlow
    have h1 : Real.log (D / tol) < Real.log (1 + D / tol) := Real.log_lt_log hDt (by linarith)
    have h2 : Real.log (t ^ n) < Real.log (tol / D) := by
      rw [Real.log_pow]
      have h3 : Real.log (tol / D) = -Real.log (D / tol) := by rw [← Real.log_inv, inv_div]
      have h4 : (n : ℝ) * Real.log t = -(n * lam) := by rw [hlamdef]; ring
      rw [h3, h4]
      linarith
    exact (Real.log_lt_log_iff (by positivity) (by positivity)).mp h2
  · have h1 : Real.log (1 + D / tol) ≤ Real.log (1 + D) + Real.log (1 + 1 / tol) := by
      rw [← Real.log_mul (by positivity) (by positivity)]
      refine Real.log_le_log (by positivity) ?_
      have : (1 + D) * (1 + 1 / tol) = 1 + D / tol + D + 1 / tol := by ring
      linarith
    have h2 := div_le_div_of_nonneg_right h1 hlam.le
    have hL : 0 ≤ Real.log (1 + 1 / tol) := Real.log_nonneg (by linarith)
    have h3 : 0 ≤ Real.log (1 + D) / lam * Real.log (1 + 1 / tol) := by positivity
    have e1 : (4 + 2 * Real.log (1 + D) / lam + 2 / lam) * (1 + Real.log (1 + 1 / tol)) =
        4 + 4 * Real.log (1 + 1 / tol) + 2 * ((Real.log (1 + D) + Real.log (1 + 1 / tol)) / lam) +
          2 * (Real.log (1 + D) / lam * Real.log (1 + 1 / tol)) + 2 / lam := by ring
    rw [e1]
    push_cast
    have : 0 ≤ 2 / lam := by positivity
    linarith

/-- A fixed number of further steps does not matter. -/
theorem logSteps_add {K tol : ℝ} {N N' : ℕ} (h : LogSteps K tol N) (htol : 0 < tol) (c : ℕ) (h0 : 0 < N')
    (hN : N' ≤ N + c) : LogSteps (K + c) tol N' := by
  have : 0 < 1 / tol := by positivity
  have hL : 0 ≤ Real.log (1 + 1 / tol) := Real.log_nonneg (by linarith)
  have h1 : (N' : ℝ) ≤ N + c := by exact_mod_cast hN
  have h2 : 0 ≤ (c : ℝ) * Real.log (1 + 1 / tol) := by positivity
  refine ⟨h0, ?_⟩
  have h3 := h.2
  rw [add_mul]
  linarith

end Flory
