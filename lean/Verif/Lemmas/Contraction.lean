import Verif.Lemmas.MergeLeave
import Mathlib.Analysis.Normed.Algebra.GelfandFormula
import Mathlib.Analysis.Matrix.Normed
import Mathlib.LinearAlgebra.Eigenspace.Matrix
import Mathlib.LinearAlgebra.Eigenspace.Minpoly
import Mathlib.Analysis.Complex.Basic
import Mathlib.Algebra.Order.Chebyshev

/-! # Quadratic forms that contract under a matrix with small eigenvalues -/

set_option linter.unusedSectionVars false

namespace Flory

open Spec Topology

variable {n : ℕ}

/-- If a positive form decreases strictly in a step it contracts uniformly, also in nearby steps. -/
theorem exists_contract (W : Mat n n ℝ) {k : ℕ} (R : Vec k ℝ → Vec n ℝ → Vec n ℝ)
    (hlin : ∀ (d : Vec k ℝ) (c : ℝ) (u : Vec n ℝ), R d (c • u) = c • R d u)
    (hcont : Continuous fun p : Vec k ℝ × Vec n ℝ => R p.1 p.2) (d₀ : Vec k ℝ) (a : ℝ)
    (hlt : ∀ u, u ≠ 0 → quad W (u - a • R d₀ u) < quad W u) :
    ∃ ε > 0, ∃ q, 0 < q ∧ q < 1 ∧ ∀ d, (∀ r, |d r - d₀ r| ≤ ε) → ∀ u,
      quad W (u - a • R d u) ≤ q ^ 2 * quad W u := by
  let F : (ℝ × Vec k ℝ) × Vec n ℝ → ℝ := fun z =>
    (1 - z.1.1) * quad W z.2 - quad W (z.2 - a • R z.1.2 z.2)
  have hR : Continuous fun z : (ℝ × Vec k ℝ) × Vec n ℝ => R z.1.2 z.2 :=
    hcont.comp (by fun_prop : Continuous fun z : (ℝ × Vec k ℝ) × Vec n ℝ => (z.1.2, z.2))
  have hF : Continuous F :=
    ((by fun_prop : Continuous fun z : (ℝ × Vec k ℝ) × Vec n ℝ => 1 - z.1.1).mul
      ((continuous_quad W).comp continuous_snd)).sub
      ((continuous_quad W).comp (continuous_snd.sub (hR.const_smul a)))
  have hev := (isCompact_unitSq (n := n)).eventually_forall_of_forall_eventually
    (x₀ := ((0 : ℝ), d₀)) (P := fun x u => 0 < F (x, u)) (fun u hu => by
      have hu0 : u ≠ 0 := by
        rintro rfl
        have : sumSq (0 : Vec n ℝ) = 1 := hu
        simp [sumSq] at this
      have : 0 < F (((0 : ℝ), d₀), u) := by
        have := hlt u hu0
        show 0 < (1 - 0) * quad W u - quad W (u - a • R d₀ u)
        linarith
      exact hF.continuousAt.eventually (lt_mem_nhds this))
  obtain ⟨δ, hδ, hball⟩ := Metric.eventually_nhds_iff.mp hev
  set θ := min (δ / 2) (1 / 2) with hθ
  have hθ0 : 0 < θ := by positivity
  have hθ1 : θ ≤ 1 / 2 := min_le_right _ _
  have hq2 : √(1 - θ) ^ 2 = 1 - θ := Real.sq_sqrt (by linarith)
  have hq0 : 0 < √(1 - θ) := Real.sqrt_pos.mpr (by linarith)
  refine ⟨δ / 2, by positivity, √(1 - θ), hq0, by nlinarith, fun d hd u => ?_⟩
  rw [hq2]
  by_cases hu : u = 0
  · subst hu
    have : R d 0 = 0 := by simpa using hlin d 0 0
    rw [this]; simp [quad_zero]
  obtain ⟨c, v, hv, rfl⟩ := exists_unit hu
  have hdist : dist ((θ, d) : ℝ × Vec k ℝ) ((0 : ℝ), d₀) < δ := by
    simp only [Prod.dist_eq, Real.dist_eq, sub_zero]
    refine max_lt ?_ ?_
    · rw [abs_of_pos hθ0]; linarith [min_le_left (δ / 2) (1 / 2 : ℝ)]
    · refine lt_of_le_of_lt ((dist_pi_le_iff (r := δ / 2) (by positivity)).mpr fun r => ?_) (by linarith)
      rw [Real.dist_eq]; exact hd r
  have h1 : 0 < (1 - θ) * quad W v - quad W (v - a • R d v) := hball hdist v hv
  rw [hlin, smul_comm a c, ← smul_sub, quad_smul, quad_smul]
  nlinarith [sq_nonneg c, mul_nonneg (sq_nonneg c) h1.le]

open scoped Matrix.Norms.Operator in
/-- The powers of a matrix whose eigenvalues are inside the unit circle tend to zero. -/
theorem tendsto_pow_of_spectrum (A : Matrix (Fin n) (Fin n) ℝ)
    (h : ∀ (μ : ℂ) (v : Fin n → ℂ), v ≠ 0 → (A.map Complex.ofReal).mulVec v = μ • v → ‖μ‖ < 1)
    {η : ℝ} (hη : 0 < η) : ∃ N : ℕ, ∀ i j, |(A ^ N) i j| < η := by
  rcases Nat.eq_zero_or_pos n with rfl | hn
  · exact ⟨0, fun i => i.elim0⟩
  have : Nonempty (Fin n) := ⟨⟨0, hn⟩⟩
  set B : Matrix (Fin n) (Fin n) ℂ := A.map Complex.ofReal with hB
  have hs : ∀ k ∈ spectrum ℂ B, ‖k‖₊ < (1 : NNReal) := by
    intro k hk
    rw [← Matrix.spectrum_toLin', ← Module.End.hasEigenvalue_iff_mem_spectrum] at hk
    obtain ⟨v, hv⟩ := hk.exists_hasEigenvector
    have := h k v hv.2 (by simpa using hv.apply_eq_smul)
    exact_mod_cast this
  have hr : spectralRadius ℂ B < (1 : NNReal) := spectrum.spectralRadius_lt_of_forall_lt B hs
  have ht := spectrum.pow_nnnorm_pow_one_div_tendsto_nhds_spectralRadius B
  obtain ⟨k, hk, hk0⟩ := ((ht.eventually (gt_mem_nhds hr)).and (Filter.eventually_gt_atTop 0)).exists
  have hlt : ‖B ^ k‖ < 1 := by
    have h1 : ((‖B ^ k‖₊ : ENNReal)) < 1 := by
      by_contra hcon
      have : (1 : ENNReal) ≤ (‖B ^ k‖₊ : ENNReal) ^ (1 / (k : ℝ)) :=
        ENNReal.one_le_rpow (not_lt.mp hcon) (by positivity)
      exact absurd hk (not_lt.mpr (by simpa using this))
    exact_mod_cast h1
  have hp : Filter.Tendsto (fun m : ℕ => (B ^ k) ^ m) Filter.atTop (𝓝 0) :=
    tendsto_pow_atTop_nhds_zero_of_norm_lt_one hlt
  have he : ∀ i j, ∀ᶠ m : ℕ in Filter.atTop, ‖((B ^ k) ^ m) i j‖ < η := by
    intro i j
    have h2 : Filter.Tendsto (fun m : ℕ => ((B ^ k) ^ m) i j) Filter.atTop (𝓝 0) := by
      have hc : Continuous fun X : Matrix (Fin n) (Fin n) ℂ => X i j := by fun_prop
      exact hc.continuousAt.tendsto.comp hp
    have h3 := h2.norm
    rw [norm_zero] at h3
    exact h3.eventually (gt_mem_nhds hη)
  obtain ⟨m, hm⟩ := (Filter.eventually_all.mpr fun i => Filter.eventually_all.mpr fun j => he i j).exists
  refine ⟨k * m, fun i j => ?_⟩
  have h4 : (B ^ k) ^ m = (A ^ (k * m)).map Complex.ofReal := by
    rw [← pow_mul, hB]
    exact ((Complex.ofRealHom.mapMatrix (m := Fin n)).map_pow A (k * m)).symm
  have h5 := hm i j
  rw [h4] at h5
  simpa using h5

theorem sumSq_mulVec_le (A : Matrix (Fin n) (Fin n) ℝ) (u : Vec n ℝ) :
    sumSq (A.mulVec u) ≤ (∑ i, ∑ j, A i j ^ 2) * sumSq u := by
  unfold sumSq
  rw [Finset.sum_mul]
  refine Finset.sum_le_sum fun i _ => ?_
  simp only [Matrix.mulVec, dotProduct]
  exact Finset.sum_mul_sq_le_sq_mul_sq _ _ _

/-- A positive quadratic form that decreases under a matrix whose eigenvalues are inside the unit circle. -/
theorem exists_form_of_spectrum (A : Matrix (Fin n) (Fin n) ℝ)
    (h : ∀ (μ : ℂ) (v : Fin n → ℂ), v ≠ 0 → (A.map Complex.ofReal).mulVec v = μ • v → ‖μ‖ < 1) :
    ∃ W : Mat n n ℝ, (∀ u, u ≠ 0 → 0 < quad W u) ∧ ∀ u, u ≠ 0 → quad W (A.mulVec u) < quad W u := by
  have hη : (0 : ℝ) < 1 / (n * n + 1 : ℕ) := by positivity
  obtain ⟨N, hN⟩ := tendsto_pow_of_spectrum A h hη
  have hsmall : ∑ i, ∑ j, (A ^ N) i j ^ 2 < 1 := by
    have h1 : ∀ i j, (A ^ N) i j ^ 2 ≤ 1 / (n * n + 1 : ℕ) := by
      intro i j
      have h2 := hN i j
      have h3 : (1 : ℝ) / (n * n + 1 : ℕ) ≤ 1 := by
        rw [div_le_one (by positivity)]
        exact_mod_cast Nat.le_add_left 1 _
      rw [← sq_abs]
      nlinarith [abs_nonneg ((A ^ N) i j)]
    calc _ ≤ ∑ _i : Fin n, ∑ _j : Fin n, (1 : ℝ) / (n * n + 1 : ℕ) :=
          Finset.sum_le_sum fun i _ => Finset.sum_le_sum fun j _ => h1 i j
      _ = (n * n : ℕ) / (n * n + 1 : ℕ) := by simp; ring
      _ < 1 := by
        rw [div_lt_one (by positivity)]
        exact_mod_cast Nat.lt_succ_self _
  have hquad : ∀ u : Vec n ℝ, quad (fun r s => ∑ k ∈ Finset.range N, ∑ i, (A ^ k) i r * (A ^ k) i s) u =
      ∑ k ∈ Finset.range N, sumSq ((A ^ k).mulVec u) := by
    intro u
    unfold quad sumSq
    simp only [Finset.mul_sum, Finset.sum_mul]
    rw [Finset.sum_congr rfl fun r _ => Finset.sum_comm, Finset.sum_comm]
    refine Finset.sum_congr rfl fun k _ => ?_
    rw [Finset.sum_congr rfl fun r _ => Finset.sum_comm, Finset.sum_comm]
    refine Finset.sum_congr rfl fun i _ => ?_
    simp only [Matrix.mulVec, dotProduct]
    rw [sq, Finset.sum_mul_sum]
    exact Finset.sum_congr rfl fun r _ => Finset.sum_congr rfl fun s _ => by ring
  have hlt : ∀ u : Vec n ℝ, u ≠ 0 → sumSq ((A ^ N).mulVec u) < sumSq u := fun u hu =>
    lt_of_le_of_lt (sumSq_mulVec_le _ u) (by nlinarith [sumSq_pos hu])
  refine ⟨fun r s => ∑ k ∈ Finset.range N, ∑ i, (A ^ k) i r * (A ^ k) i s, fun u hu => ?_, fun u hu => ?_⟩
  · rw [hquad]
    have h1 := hlt u hu
    rcases Nat.eq_zero_or_pos N with h0 | h0
    · rw [h0, pow_zero, Matrix.one_mulVec] at h1
      exact absurd h1 (lt_irrefl _)
    · refine Finset.sum_pos' (fun k _ => sumSq_nonneg _) ⟨0, Finset.mem_range.mpr h0, ?_⟩
      rw [pow_zero, Matrix.one_mulVec]
      exact sumSq_pos hu
  · rw [hquad, hquad]
    have h1 : ∀ k, sumSq ((A ^ k).mulVec (A.mulVec u)) = sumSq ((A ^ (k + 1)).mulVec u) := fun k => by
      rw [Matrix.mulVec_mulVec, ← pow_succ]
    rw [Finset.sum_congr rfl fun k _ => h1 k]
    have h2 := Finset.sum_range_succ' (fun k => sumSq ((A ^ k).mulVec u)) N
    have h3 := Finset.sum_range_succ (fun k => sumSq ((A ^ k).mulVec u)) N
    have h4 := hlt u hu
    rw [pow_zero, Matrix.one_mulVec] at h2
    linarith

theorem quad_eq_dotProduct (W : Matrix (Fin n) (Fin n) ℝ) (u : Vec n ℝ) :
    quad (fun r s => W r s) u = dotProduct u (W.mulVec u) := by
  simp only [quad, dotProduct, Matrix.mulVec, Finset.mul_sum]
  exact Finset.sum_congr rfl fun r _ => Finset.sum_congr rfl fun s _ => by ring

theorem quad_conj (A W : Matrix (Fin n) (Fin n) ℝ) (u : Vec n ℝ) :
    dotProduct u ((A.transpose * (W * A)).mulVec u) = dotProduct (A.mulVec u) (W.mulVec (A.mulVec u)) := by
  rw [← Matrix.mulVec_mulVec, ← Matrix.mulVec_mulVec, Matrix.dotProduct_mulVec, Matrix.vecMul_transpose]

/-- A matrix with an eigenvalue outside the unit circle makes a form that is negative somewhere grow. -/
theorem exists_form_of_unstable (A : Matrix (Fin n) (Fin n) ℝ) {μ : ℂ} {v : Fin n → ℂ} (hv : v ≠ 0)
    (hA : (A.map Complex.ofReal).mulVec v = μ • v) (hμ : 1 < ‖μ‖) :
    ∃ W : Mat n n ℝ, ∃ g > 1, (∃ u, quad W u < 0) ∧ ∀ u, u ≠ 0 → quad W (A.mulVec u) < g * quad W u := by
  let L : Module.End ℝ (Matrix (Fin n) (Fin n) ℝ) :=
    (LinearMap.mulLeft ℝ A.transpose) * (LinearMap.mulRight ℝ A)
  have hfin : (spectrum ℝ L).Finite := Module.End.finite_spectrum L
  have hμ2 : 1 < ‖μ‖ ^ 2 := by nlinarith
  obtain ⟨g, hg, hgs⟩ := ((Set.Ioo_infinite hμ2).sdiff hfin).nonempty
  have hunit : IsUnit (algebraMap ℝ (Module.End ℝ (Matrix (Fin n) (Fin n) ℝ)) g - L) :=
    spectrum.notMem_iff.mp hgs
  obtain ⟨V, hV⟩ := ((Module.End.isUnit_iff _).mp hunit).2 1
  let W : Mat n n ℝ := fun r s => V r s
  have hWV : ∀ u, quad W u = dotProduct u (V.mulVec u) := fun u => quad_eq_dotProduct V u
  have hstein : ∀ u : Vec n ℝ, quad W (A.mulVec u) = g * quad W u - sumSq u := by
    intro u
    have h1 : g • V - A.transpose * (V * A) = 1 := by
      simpa [L, Algebra.algebraMap_eq_smul_one] using hV
    have h3 : A.transpose * (V * A) = g • V - 1 := by rw [← h1]; abel
    rw [hWV, hWV, ← quad_conj, h3, Matrix.sub_mulVec, Matrix.smul_mulVec, Matrix.one_mulVec, dotProduct_sub,
      dotProduct_smul]
    simp only [sumSq, dotProduct, smul_eq_mul, sq]
  refine ⟨W, g, hg.1, ?_, fun u hu => by rw [hstein]; linarith [sumSq_pos hu]⟩
  set x : Vec n ℝ := fun i => (v i).re with hx
  set y : Vec n ℝ := fun i => (v i).im with hy
  have hAx : A.mulVec x = μ.re • x - μ.im • y := by
    funext i
    have := congrArg Complex.re (congrFun hA i)
    simpa [Matrix.mulVec, dotProduct, hx, hy] using this
  have hAy : A.mulVec y = μ.im • x - (-μ.re) • y := by
    funext i
    have := congrArg Complex.im (congrFun hA i)
    simp [Matrix.mulVec, dotProduct] at this
    simp [Matrix.mulVec, dotProduct, hx, hy, this]
    ring
  have h1 := hstein x
  have h2 := hstein y
  rw [hAx, quad_sub_smul, bil_smul_left, bil_smul_right, quad_smul] at h1
  rw [hAy, quad_sub_smul, bil_smul_left, bil_smul_right, quad_smul] at h2
  have hpos : 0 < sumSq x + sumSq y := by
    have : x ≠ 0 ∨ y ≠ 0 := by
      by_contra hc
      push Not at hc
      apply hv
      funext i
      exact Complex.ext (congrFun hc.1 i) (congrFun hc.2 i)
    rcases this with h | h
    · have := sumSq_pos h; have := sumSq_nonneg y; linarith
    · have := sumSq_pos h; have := sumSq_nonneg x; linarith
  have hn : ‖μ‖ ^ 2 = μ.re ^ 2 + μ.im ^ 2 := by rw [Complex.sq_norm, Complex.normSq_apply]; ring
  have h3 : (‖μ‖ ^ 2 - g) * (quad W x + quad W y) = -(sumSq x + sumSq y) := by rw [hn]; linarith
  by_contra hc
  push Not at hc
  have h4 := mul_nonneg (sub_nonneg.mpr hg.2.le) (add_nonneg (hc x) (hc y))
  linarith

/-- Growth of a form in a step persists in nearby steps. -/
theorem exists_growth (W : Mat n n ℝ) {k : ℕ} (R : Vec k ℝ → Vec n ℝ → Vec n ℝ)
    (hlin : ∀ (d : Vec k ℝ) (c : ℝ) (u : Vec n ℝ), R d (c • u) = c • R d u)
    (hcont : Continuous fun p : Vec k ℝ × Vec n ℝ => R p.1 p.2) (d₀ : Vec k ℝ) (a g : ℝ)
    (hlt : ∀ u, u ≠ 0 → quad W (u - a • R d₀ u) < g * quad W u) :
    ∃ ε > 0, ∀ d, (∀ r, |d r - d₀ r| ≤ ε) → ∀ u, quad W (u - a • R d u) ≤ g * quad W u := by
  let F : Vec k ℝ × Vec n ℝ → ℝ := fun z => g * quad W z.2 - quad W (z.2 - a • R z.1 z.2)
  have hF : Continuous F := (((continuous_quad W).comp continuous_snd).const_mul g).sub
      ((continuous_quad W).comp (continuous_snd.sub (hcont.const_smul a)))
  have hev := (isCompact_unitSq (n := n)).eventually_forall_of_forall_eventually
    (x₀ := d₀) (P := fun x u => 0 < F (x, u)) (fun u hu => by
      have hu0 : u ≠ 0 := by
        rintro rfl
        have : sumSq (0 : Vec n ℝ) = 1 := hu
        simp [sumSq] at this
      have : 0 < F (d₀, u) := sub_pos.mpr (hlt u hu0)
      exact hF.continuousAt.eventually (lt_mem_nhds this))
  obtain ⟨δ, hδ, hball⟩ := Metric.eventually_nhds_iff.mp hev
  refine ⟨δ / 2, by positivity, fun d hd u => ?_⟩
  by_cases hu : u = 0
  · subst hu
    have : R d 0 = 0 := by simpa using hlin d 0 0
    rw [this]; simp [quad_zero]
  obtain ⟨c, v, hv, rfl⟩ := exists_unit hu
  have hdist : dist d d₀ < δ := by
    refine lt_of_le_of_lt ((dist_pi_le_iff (r := δ / 2) (by positivity)).mpr fun r => ?_) (by linarith)
    rw [Real.dist_eq]; exact hd r
  have h1 : 0 < g * quad W v - quad W (v - a • R d v) := hball hdist v hv
  rw [hlin, smul_comm a c, ← smul_sub, quad_smul, quad_smul]
  nlinarith [sq_nonneg c, mul_nonneg (sq_nonneg c) h1.le]

end Flory
