import Verif.Lemmas.Stability
import Mathlib.Topology.Algebra.Order.LiminfLimsup
import Mathlib.Topology.MetricSpace.ProperSpace
import Mathlib.Analysis.Normed.Group.Constructions

/-! # Quadratic forms that decrease along `u ↦ u - a K u` -/

set_option linter.unusedSectionVars false

namespace Flory

open Spec Topology

variable {n : ℕ}

/-- Bilinear form of a matrix. -/
def bil (W : Mat n n ℝ) (u v : Vec n ℝ) : ℝ := ∑ r, ∑ s, u r * W r s * v s

theorem quad_eq_bil (W : Mat n n ℝ) (u : Vec n ℝ) : quad W u = bil W u u := rfl

theorem bil_smul_left (W : Mat n n ℝ) (c : ℝ) (u v : Vec n ℝ) : bil W (c • u) v = c * bil W u v := by
  simp only [bil, Finset.mul_sum, Pi.smul_apply, smul_eq_mul]
  exact Finset.sum_congr rfl fun r _ => Finset.sum_congr rfl fun s _ => by ring

theorem bil_smul_right (W : Mat n n ℝ) (c : ℝ) (u v : Vec n ℝ) : bil W u (c • v) = c * bil W u v := by
  simp only [bil, Finset.mul_sum, Pi.smul_apply, smul_eq_mul]
  exact Finset.sum_congr rfl fun r _ => Finset.sum_congr rfl fun s _ => by ring

theorem quad_sub_smul (W : Mat n n ℝ) (a : ℝ) (u v : Vec n ℝ) :
    quad W (u - a • v) = quad W u - a * (bil W u v + bil W v u) + a ^ 2 * quad W v := by
  simp only [quad_eq_bil, bil, Finset.mul_sum, Pi.sub_apply, Pi.smul_apply, smul_eq_mul,
    ← Finset.sum_add_distrib, ← Finset.sum_sub_distrib]
  exact Finset.sum_congr rfl fun r _ => Finset.sum_congr rfl fun s _ => by ring

theorem continuous_bil (W : Mat n n ℝ) : Continuous fun p : Vec n ℝ × Vec n ℝ => bil W p.1 p.2 := by
  unfold bil
  fun_prop

theorem continuous_quad (W : Mat n n ℝ) : Continuous fun u : Vec n ℝ => quad W u :=
  (continuous_bil W).comp (continuous_id.prodMk continuous_id)

/-- The sum of squares. -/
def sumSq (u : Vec n ℝ) : ℝ := ∑ r, u r ^ 2

theorem sumSq_nonneg (u : Vec n ℝ) : 0 ≤ sumSq u := Finset.sum_nonneg fun _ _ => sq_nonneg _

theorem sumSq_smul (c : ℝ) (u : Vec n ℝ) : sumSq (c • u) = c ^ 2 * sumSq u := by
  simp only [sumSq, Finset.mul_sum, Pi.smul_apply, smul_eq_mul]
  exact Finset.sum_congr rfl fun r _ => by ring

theorem sumSq_pos {u : Vec n ℝ} (h : u ≠ 0) : 0 < sumSq u := by
  obtain ⟨r, hr⟩ := Function.ne_iff.mp h
  exact Finset.sum_pos' (fun _ _ => sq_nonneg _) ⟨r, Finset.mem_univ _, by
    have : u r ≠ 0 := hr
    positivity⟩

theorem sq_le_sumSq (u : Vec n ℝ) (r : Fin n) : u r ^ 2 ≤ sumSq u :=
  Finset.single_le_sum (f := fun r => u r ^ 2) (fun _ _ => sq_nonneg _) (Finset.mem_univ r)

theorem continuous_sumSq : Continuous fun u : Vec n ℝ => sumSq u := by
  unfold sumSq
  fun_prop

theorem isCompact_unitSq : IsCompact {u : Vec n ℝ | sumSq u = 1} := by
  refine Metric.isCompact_of_isClosed_isBounded (isClosed_eq continuous_sumSq continuous_const) ?_
  refine (Metric.isBounded_closedBall (x := (0 : Vec n ℝ)) (r := 1)).subset fun u hu => ?_
  rw [Metric.mem_closedBall, dist_zero_right, pi_norm_le_iff_of_nonneg zero_le_one]
  intro r
  have h1 := sq_le_sumSq u r
  have h2 : sumSq u = 1 := hu
  rw [h2] at h1
  rw [Real.norm_eq_abs]
  exact abs_le_one_iff_mul_self_le_one.mpr (by nlinarith)

/-- A vector is a multiple of one on the unit sphere. -/
theorem exists_unit {u : Vec n ℝ} (h : u ≠ 0) : ∃ (c : ℝ) (v : Vec n ℝ), sumSq v = 1 ∧ u = c • v := by
  have hs := sumSq_pos h
  have hr := Real.sqrt_pos.mpr hs
  refine ⟨√(sumSq u), (√(sumSq u))⁻¹ • u, ?_, ?_⟩
  · rw [sumSq_smul, inv_pow, Real.sq_sqrt hs.le, inv_mul_cancel₀ hs.ne']
  · rw [smul_smul, mul_inv_cancel₀ hr.ne', one_smul]

theorem quad_smul (W : Mat n n ℝ) (c : ℝ) (u : Vec n ℝ) : quad W (c • u) = c ^ 2 * quad W u := by
  rw [quad_eq_bil, bil_smul_left, bil_smul_right, quad_eq_bil]; ring

theorem quad_zero (W : Mat n n ℝ) : quad W 0 = 0 := by simp [quad_eq_bil, bil]

/-- A quadratic form is bounded by a multiple of the sum of squares. -/
theorem exists_quad_le (W : Mat n n ℝ) : ∃ L > 0, ∀ u : Vec n ℝ, |quad W u| ≤ L * sumSq u := by
  obtain ⟨L, hL⟩ := (isCompact_unitSq (n := n)).exists_bound_of_continuousOn (continuous_quad W).continuousOn
  refine ⟨max L 1, by positivity, fun u => ?_⟩
  by_cases h : u = 0
  · subst h; rw [quad_zero]; simp [sumSq]
  · obtain ⟨c, v, hv, rfl⟩ := exists_unit h
    rw [quad_smul, sumSq_smul, hv, abs_mul, abs_of_nonneg (sq_nonneg c), mul_one, mul_comm]
    exact mul_le_mul_of_nonneg_right ((hL v hv).trans (le_max_left _ _)) (sq_nonneg c)

/-- A continuous function that is homogeneous of degree two and positive is bounded below. -/
theorem exists_coercive {q : Vec n ℝ → ℝ} (hq : Continuous q)
    (hs : ∀ (c : ℝ) (u : Vec n ℝ), q (c • u) = c ^ 2 * q u) (hpos : ∀ u, u ≠ 0 → 0 < q u) :
    ∃ c > 0, ∀ u, c * sumSq u ≤ q u := by
  by_cases hne : ({u : Vec n ℝ | sumSq u = 1}).Nonempty
  · obtain ⟨v, hv, hmin⟩ := isCompact_unitSq.exists_isMinOn hne hq.continuousOn
    have hv0 : v ≠ 0 := by
      rintro rfl
      have : sumSq (0 : Vec n ℝ) = 1 := hv
      simp [sumSq] at this
    refine ⟨q v, hpos v hv0, fun u => ?_⟩
    by_cases h : u = 0
    · subst h
      have := hs 0 0
      simp only [smul_zero, ne_eq, OfNat.ofNat_ne_zero, not_false_eq_true, zero_pow, zero_mul] at this
      rw [this]; simp [sumSq]
    · obtain ⟨c, w, hw, rfl⟩ := exists_unit h
      rw [hs, sumSq_smul, hw, mul_one, mul_comm]
      exact mul_le_mul_of_nonneg_left (hmin hw) (sq_nonneg c)
  · refine ⟨1, one_pos, fun u => ?_⟩
    have h : u = 0 := by
      by_contra h
      obtain ⟨c, w, hw, -⟩ := exists_unit h
      exact hne ⟨w, hw⟩
    subst h
    have := hs 0 0
    simp only [smul_zero, ne_eq, OfNat.ofNat_ne_zero, not_false_eq_true, zero_pow, zero_mul] at this
    rw [this]; simp [sumSq]

/-- If the form decreases along `-K d₀ u` to first order then it decreases in a step of any small length
with any nearby `d`, uniformly. -/
theorem exists_decrease (W : Mat n n ℝ) {k : ℕ} (R : Vec k ℝ → Vec n ℝ → Vec n ℝ)
    (hlin : ∀ (d : Vec k ℝ) (c : ℝ) (u : Vec n ℝ), R d (c • u) = c • R d u)
    (hcont : Continuous fun p : Vec k ℝ × Vec n ℝ => R p.1 p.2) (d₀ : Vec k ℝ)
    (hpos : ∀ u, u ≠ 0 → 0 < bil W u (R d₀ u) + bil W (R d₀ u) u) :
    ∃ ε > 0, ∃ a₀ > 0, ∃ c > 0, ∀ d, (∀ r, |d r - d₀ r| ≤ ε) → ∀ a, 0 ≤ a → a ≤ a₀ → ∀ u,
      quad W (u - a • R d u) ≤ quad W u - a * c * sumSq u := by
  let F : (ℝ × ℝ × Vec k ℝ) × Vec n ℝ → ℝ := fun z =>
    bil W z.2 (R z.1.2.2 z.2) + bil W (R z.1.2.2 z.2) z.2 - z.1.1 * quad W (R z.1.2.2 z.2) - z.1.2.1
  have hR : Continuous fun z : (ℝ × ℝ × Vec k ℝ) × Vec n ℝ => R z.1.2.2 z.2 :=
    hcont.comp (by fun_prop : Continuous fun z : (ℝ × ℝ × Vec k ℝ) × Vec n ℝ => (z.1.2.2, z.2))
  have hF : Continuous F := by
    refine (((?_ : Continuous _).add ?_).sub (Continuous.mul (by fun_prop) ?_)).sub (by fun_prop)
    · exact (continuous_bil W).comp (continuous_snd.prodMk hR)
    · exact (continuous_bil W).comp (hR.prodMk continuous_snd)
    · exact (continuous_quad W).comp hR
  have hev := (isCompact_unitSq (n := n)).eventually_forall_of_forall_eventually
    (x₀ := ((0 : ℝ), (0 : ℝ), d₀)) (P := fun x u => 0 < F (x, u)) (fun u hu => by
      have hu0 : u ≠ 0 := by
        rintro rfl
        have : sumSq (0 : Vec n ℝ) = 1 := hu
        simp [sumSq] at this
      have : 0 < F (((0 : ℝ), (0 : ℝ), d₀), u) := by
        simpa [F] using hpos u hu0
      exact hF.continuousAt.eventually (lt_mem_nhds this))
  obtain ⟨δ, hδ, hball⟩ := Metric.eventually_nhds_iff.mp hev
  refine ⟨δ / 2, by positivity, δ / 2, by positivity, δ / 2, by positivity, fun d hd a ha ha' u => ?_⟩
  by_cases hu : u = 0
  · subst hu
    have : R d 0 = 0 := by simpa using hlin d 0 0
    rw [this]; simp [quad_zero, sumSq]
  obtain ⟨c, v, hv, rfl⟩ := exists_unit hu
  have hdist : dist ((a, δ / 2, d) : ℝ × ℝ × Vec k ℝ) ((0 : ℝ), (0 : ℝ), d₀) < δ := by
    simp only [Prod.dist_eq, Real.dist_eq, sub_zero]
    refine max_lt ?_ (max_lt ?_ ?_)
    · rw [abs_of_nonneg ha]; linarith
    · rw [abs_of_pos (by positivity)]; linarith
    · refine lt_of_le_of_lt ((dist_pi_le_iff (r := δ / 2) (by positivity)).mpr fun r => ?_) (by linarith)
      rw [Real.dist_eq]; exact hd r
  have h1 : 0 < F ((a, δ / 2, d), v) := hball hdist v hv
  have h2 : 0 < bil W v (R d v) + bil W (R d v) v - a * quad W (R d v) - δ / 2 := h1
  rw [hlin, quad_sub_smul, sumSq_smul, hv, quad_smul, quad_smul, bil_smul_left, bil_smul_right,
    bil_smul_left, bil_smul_right]
  have h3 : 0 ≤ a * c ^ 2 * (bil W v (R d v) + bil W (R d v) v - a * quad W (R d v) - δ / 2) := by positivity
  nlinarith [h3]

end Flory
