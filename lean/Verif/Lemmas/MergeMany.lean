import Verif.Lemmas.MergeLeave
import Mathlib.LinearAlgebra.Pi
import Mathlib.Algebra.Order.Archimedean.Basic

/-! # The form that decreases in a mixture with many features and a large incompressibility coefficient -/

set_option linter.unusedSectionVars false

namespace Flory

open Spec

variable {S : ℕ}

/-- A form that is positive where `t` vanishes becomes positive when enough of `t ^ 2` is added. -/
theorem exists_finsler {Q t : Vec S ℝ → ℝ} (hQ : Continuous Q) (ht : Continuous t)
    (hQs : ∀ (c : ℝ) u, Q (c • u) = c ^ 2 * Q u) (hts : ∀ (c : ℝ) u, t (c • u) = c * t u)
    (h : ∀ u, u ≠ 0 → t u = 0 → 0 < Q u) : ∃ k₀ : ℝ, ∀ k, k₀ ≤ k → ∀ u, u ≠ 0 → 0 < Q u + k * t u ^ 2 := by
  obtain ⟨n, hn⟩ := (isCompact_unitSq (n := S)).elim_directed_cover
    (fun n : ℕ => {u : Vec S ℝ | 0 < Q u + n * t u ^ 2})
    (fun n => isOpen_lt continuous_const (hQ.add (continuous_const.mul (ht.pow 2))))
    (fun u hu => by
      have hu0 : u ≠ 0 := by
        rintro rfl
        have : sumSq (0 : Vec S ℝ) = 1 := hu
        simp [sumSq] at this
      by_cases h0 : t u = 0
      · exact Set.mem_iUnion.mpr ⟨0, by simpa [h0] using h u hu0 h0⟩
      · have hp : 0 < t u ^ 2 := by positivity
        obtain ⟨n, hn⟩ := exists_nat_gt (-Q u / t u ^ 2)
        refine Set.mem_iUnion.mpr ⟨n, ?_⟩
        rw [div_lt_iff₀ hp] at hn
        show 0 < Q u + n * t u ^ 2
        linarith)
    (by
      intro a b
      refine ⟨max a b, fun u hu => ?_, fun u hu => ?_⟩ <;>
      · have h1 : 0 < Q u + (_ : ℕ) * t u ^ 2 := hu
        show 0 < Q u + ((max a b : ℕ) : ℝ) * t u ^ 2
        refine lt_of_lt_of_le h1 ?_
        have : (0 : ℝ) ≤ t u ^ 2 := sq_nonneg _
        gcongr
        first | exact le_max_left a b | exact le_max_right a b)
  refine ⟨n, fun k hk u hu => ?_⟩
  obtain ⟨c, v, hv, rfl⟩ := exists_unit hu
  have hc : c ≠ 0 := by rintro rfl; simp at hu
  have h1 : 0 < Q v + n * t v ^ 2 := hn hv
  have h2 : 0 < Q v + k * t v ^ 2 := by nlinarith [sq_nonneg (t v)]
  rw [hQs, hts]
  have h3 : c ^ 2 * Q v + k * (c * t v) ^ 2 = c ^ 2 * (Q v + k * t v ^ 2) := by ring
  rw [h3]
  positivity

variable (chis : Mat S S ℝ) (d : Vec S ℝ)

/-- The load-weighted sum. -/
def loadSum : Vec S ℝ →ₗ[ℝ] ℝ where
  toFun u := ∑ r, d r * u r
  map_add' u v := by simp only [Pi.add_apply, mul_add, Finset.sum_add_distrib]
  map_smul' c u := by
    simp only [Pi.smul_apply, smul_eq_mul, RingHom.id_apply, Finset.mul_sum]
    exact Finset.sum_congr rfl fun r _ => by ring

/-- Deviations from the load-weighted mean, times the loads. -/
noncomputable def loadDeviation : Vec S ℝ →ₗ[ℝ] Vec S ℝ where
  toFun u r := d r * (u r - loadSum d u / ∑ s, d s)
  map_add' u v := by
    funext r
    simp only [map_add, Pi.add_apply]
    ring
  map_smul' c u := by
    funext r
    simp only [map_smul, Pi.smul_apply, smul_eq_mul, RingHom.id_apply]
    ring

/-- The interaction. -/
def chiMap : Vec S ℝ →ₗ[ℝ] Vec S ℝ where
  toFun z r := ∑ s, chis r s * z s
  map_add' u v := by
    funext r
    simp only [Pi.add_apply, mul_add, Finset.sum_add_distrib]
  map_smul' c u := by
    funext r
    simp only [Pi.smul_apply, smul_eq_mul, RingHom.id_apply, Finset.mul_sum]
    exact Finset.sum_congr rfl fun s _ => by ring

/-- `u + χ z`, where `z` are the deviations. -/
noncomputable def gradMap : Vec S ℝ →ₗ[ℝ] Vec S ℝ := LinearMap.id + (chiMap chis).comp (loadDeviation d)

/-- The linear map of the decreasing form. -/
noncomputable def formMap : Vec S ℝ →ₗ[ℝ] Vec S ℝ :=
  (loadDeviation d).comp (gradMap chis d) + (loadSum d).smulRight d

/-- The matrix of the decreasing form. -/
noncomputable def formMatrix : Mat S S ℝ := fun r s => formMap chis d (fun j => if s = j then 1 else 0) r

theorem bil_formMatrix (u v : Vec S ℝ) : bil (formMatrix chis d) u v = ∑ r, u r * formMap chis d v r := by
  unfold bil formMatrix
  refine Finset.sum_congr rfl fun r _ => ?_
  rw [LinearMap.pi_apply_eq_sum_univ (formMap chis d) v, Finset.sum_apply, Finset.mul_sum]
  exact Finset.sum_congr rfl fun s _ => by simp only [Pi.smul_apply, smul_eq_mul]; ring

variable {chis d}

theorem sum_loadDeviation (hd : 0 < ∑ r, d r) (u : Vec S ℝ) : ∑ r, loadDeviation d u r = 0 := by
  show ∑ r, d r * (u r - loadSum d u / ∑ s, d s) = 0
  simp only [mul_sub, Finset.sum_sub_distrib, ← Finset.sum_mul]
  rw [mul_div_cancel₀ _ hd.ne']
  exact sub_self _

/-- The loadDeviation map is symmetric. -/
theorem loadDeviation_symm (u v : Vec S ℝ) : ∑ r, u r * loadDeviation d v r = ∑ r, loadDeviation d u r * v r := by
  show ∑ r, u r * (d r * (v r - loadSum d v / ∑ s, d s)) = ∑ r, d r * (u r - loadSum d u / ∑ s, d s) * v r
  have h1 : ∑ r, u r * (d r * (v r - loadSum d v / ∑ s, d s)) =
      ∑ r, d r * u r * v r - (∑ r, d r * u r) * (loadSum d v / ∑ s, d s) := by
    rw [Finset.sum_mul, ← Finset.sum_sub_distrib]
    exact Finset.sum_congr rfl fun r _ => by ring
  have h2 : ∑ r, d r * (u r - loadSum d u / ∑ s, d s) * v r =
      ∑ r, d r * u r * v r - (∑ r, d r * v r) * (loadSum d u / ∑ s, d s) := by
    rw [Finset.sum_mul, ← Finset.sum_sub_distrib]
    exact Finset.sum_congr rfl fun r _ => by ring
  rw [h1, h2]
  show _ - loadSum d u * _ = _ - loadSum d v * _
  ring

theorem chiMap_symm (hsym : ∀ r s, chis r s = chis s r) (u v : Vec S ℝ) :
    ∑ r, u r * chiMap chis v r = ∑ r, chiMap chis u r * v r := by
  show ∑ r, u r * ∑ s, chis r s * v s = ∑ r, (∑ s, chis r s * u s) * v r
  simp only [Finset.mul_sum, Finset.sum_mul]
  rw [Finset.sum_comm]
  refine Finset.sum_congr rfl fun r _ => Finset.sum_congr rfl fun s _ => ?_
  rw [hsym s r]; ring

theorem formMap_apply (u : Vec S ℝ) (r : Fin S) :
    formMap chis d u r = loadDeviation d (gradMap chis d u) r + loadSum d u * d r := rfl

theorem gradMap_apply (u : Vec S ℝ) (r : Fin S) :
    gradMap chis d u r = u r + chiMap chis (loadDeviation d u) r := rfl

theorem formMap_symm (hsym : ∀ r s, chis r s = chis s r) (u v : Vec S ℝ) :
    ∑ r, u r * formMap chis d v r = ∑ r, formMap chis d u r * v r := by
  have key : ∀ u v : Vec S ℝ, ∑ r, u r * formMap chis d v r = ∑ r, loadDeviation d u r * v r +
      ∑ r, loadDeviation d u r * chiMap chis (loadDeviation d v) r + loadSum d v * loadSum d u := by
    intro u v
    simp only [formMap_apply, mul_add, Finset.sum_add_distrib]
    rw [loadDeviation_symm u (gradMap chis d v)]
    simp only [gradMap_apply, mul_add, Finset.sum_add_distrib]
    congr 1
    show _ = loadSum d v * ∑ r, d r * u r
    rw [Finset.mul_sum]
    exact Finset.sum_congr rfl fun r _ => by ring
  have h : ∑ r, formMap chis d u r * v r = ∑ r, v r * formMap chis d u r :=
    Finset.sum_congr rfl fun r _ => mul_comm _ _
  rw [h, key, key, chiMap_symm hsym, ← loadDeviation_symm u v]
  have e1 : ∑ r, u r * loadDeviation d v r = ∑ r, loadDeviation d v r * u r :=
    Finset.sum_congr rfl fun r _ => mul_comm _ _
  have e2 : ∑ r, chiMap chis (loadDeviation d u) r * loadDeviation d v r =
      ∑ r, loadDeviation d v r * chiMap chis (loadDeviation d u) r :=
    Finset.sum_congr rfl fun r _ => mul_comm _ _
  rw [e1, e2]
  ring

theorem quad_formMatrix (hd : ∀ r, 0 < d r) (hδ : 0 < ∑ r, d r) (u : Vec S ℝ) :
    quad (formMatrix chis d) u = curvature chis d (loadDeviation d u) + loadSum d u ^ 2 := by
  rw [quad_eq_bil, bil_formMatrix]
  simp only [formMap_apply, mul_add, Finset.sum_add_distrib]
  rw [loadDeviation_symm u (gradMap chis d u)]
  simp only [gradMap_apply, mul_add, Finset.sum_add_distrib]
  unfold curvature
  have h1 : ∑ r, loadDeviation d u r * u r = ∑ r, loadDeviation d u r ^ 2 / d r := by
    have e1 : ∀ r, loadDeviation d u r * u r = loadDeviation d u r ^ 2 / d r +
        loadSum d u / (∑ s, d s) * loadDeviation d u r := by
      intro r
      have : loadDeviation d u r = d r * (u r - loadSum d u / ∑ s, d s) := rfl
      have hne := (hd r).ne'
      rw [this]
      field_simp
      ring
    rw [Finset.sum_congr rfl fun r _ => e1 r, Finset.sum_add_distrib, ← Finset.mul_sum, sum_loadDeviation hδ,
      mul_zero, add_zero]
  have h2 : ∑ r, loadDeviation d u r * chiMap chis (loadDeviation d u) r =
      ∑ r, ∑ s, chis r s * loadDeviation d u r * loadDeviation d u s := by
    refine Finset.sum_congr rfl fun r _ => ?_
    show loadDeviation d u r * ∑ s, chis r s * loadDeviation d u s = _
    rw [Finset.mul_sum]
    exact Finset.sum_congr rfl fun s _ => by ring
  have h3 : ∑ r, u r * (loadSum d u * d r) = loadSum d u ^ 2 := by
    rw [sq]
    conv_rhs => arg 2; rw [show loadSum d u = ∑ r, d r * u r from rfl]
    rw [Finset.mul_sum]
    exact Finset.sum_congr rfl fun r _ => by ring
  rw [h1, h2, h3]

/-- What a pass would do to the difference without the incompressibility coefficient. -/
noncomputable def bareForm (chis : Mat S S ℝ) (d u : Vec S ℝ) : ℝ :=
  ∑ r, formMap chis d u r * ((u r + ∑ s, chis r s * (d s * u s)) -
    (∑ q, (u q + ∑ s, chis q s * (d s * u s))) / S)

theorem form_response (hδ : 0 < ∑ r, d r) (hsym : ∀ r s, chis r s = chis s r) (kap : ℝ) (u : Vec S ℝ) :
    bil (formMatrix chis d) u (response chis kap d u) + bil (formMatrix chis d) (response chis kap d u) u =
      2 * (bareForm chis d u + kap * ((∑ r, d r) / S) * loadSum d u ^ 2) := by
  rw [bil_formMatrix, bil_formMatrix, formMap_symm hsym]
  have e0 : ∑ r, response chis kap d u r * formMap chis d u r =
      ∑ r, formMap chis d u r * response chis kap d u r := Finset.sum_congr rfl fun r _ => mul_comm _ _
  rw [e0, ← two_mul]
  congr 1
  have h1 : ∑ r, formMap chis d u r = loadSum d u * ∑ r, d r := by
    simp only [formMap_apply, Finset.sum_add_distrib, sum_loadDeviation hδ, zero_add, ← Finset.mul_sum]
  have h2 : ∑ r, formMap chis d u r * response chis kap d u r = bareForm chis d u +
      (∑ r, formMap chis d u r) * (kap / S * loadSum d u) := by
    unfold bareForm
    rw [Finset.sum_mul, ← Finset.sum_add_distrib]
    refine Finset.sum_congr rfl fun r _ => ?_
    rw [← mul_add]
    rfl
  rw [h2, h1]
  ring

theorem bareForm_pos (hd : ∀ r, 0 < d r) (hδ : 0 < ∑ r, d r)
    (hreg : ∀ z : Vec S ℝ, ∑ r, z r = 0 → (∃ c, ∀ r, z r / d r + ∑ s, chis r s * z s = c) → z = 0)
    {u : Vec S ℝ} (hu : u ≠ 0) (ht : loadSum d u = 0) : 0 < bareForm chis d u := by
  have hz : ∀ s, d s * u s = loadDeviation d u s := by
    intro s
    show d s * u s = d s * (u s - loadSum d u / ∑ s, d s)
    rw [ht, zero_div, sub_zero]
  have hy : ∀ r, u r + ∑ s, chis r s * (d s * u s) = gradMap chis d u r := by
    intro r
    rw [gradMap_apply]
    simp only [hz]
    rfl
  have hf : ∀ r, formMap chis d u r = loadDeviation d (gradMap chis d u) r := by
    intro r
    rw [formMap_apply, ht, zero_mul, add_zero]
  set g := gradMap chis d u with hg
  set σ := loadSum d g / ∑ s, d s with hσ
  have hdev : ∀ r, loadDeviation d g r = d r * (g r - σ) := fun r => rfl
  have hval : bareForm chis d u = ∑ r, d r * (g r - σ) ^ 2 := by
    unfold bareForm
    simp only [hy, hf, mul_sub, Finset.sum_sub_distrib, ← Finset.sum_mul, sum_loadDeviation hδ, zero_mul, sub_zero]
    have e1 : ∀ r, loadDeviation d g r * g r = d r * (g r - σ) ^ 2 + σ * loadDeviation d g r := by
      intro r; rw [hdev]; ring
    rw [Finset.sum_congr rfl fun r _ => e1 r, Finset.sum_add_distrib, ← Finset.mul_sum, sum_loadDeviation hδ,
      mul_zero, add_zero]
  rw [hval]
  by_contra hcon
  have hzero : ∑ r, d r * (g r - σ) ^ 2 = 0 :=
    le_antisymm (not_lt.mp hcon) (Finset.sum_nonneg fun r _ => mul_nonneg (hd r).le (sq_nonneg _))
  have hall : ∀ r, g r = σ := by
    intro r
    have h1 := (Finset.sum_eq_zero_iff_of_nonneg fun r _ => mul_nonneg (hd r).le (sq_nonneg (g r - σ))).mp
      hzero r (Finset.mem_univ r)
    have h2 := (mul_eq_zero.mp h1).resolve_left (hd r).ne'
    have h3 : g r - σ = 0 := by simpa using h2
    linarith
  have h0 := hreg (loadDeviation d u) (sum_loadDeviation hδ u) ⟨σ, fun r => by
    rw [← hall r, ← hz r, mul_div_cancel_left₀ _ (hd r).ne']
    rfl⟩
  refine hu (funext fun r => ?_)
  have := congrFun h0 r
  rw [← hz r] at this
  simpa [(hd r).ne'] using this

theorem many_forms (hd : ∀ r, 0 < d r) (hδ : 0 < ∑ r, d r) (hsym : ∀ r s, chis r s = chis s r)
    (hreg : ∀ z : Vec S ℝ, ∑ r, z r = 0 → (∃ c, ∀ r, z r / d r + ∑ s, chis r s * z s = c) → z = 0) :
    ∃ k₀ : ℝ, ∀ kap, k₀ ≤ kap → ∀ u, u ≠ 0 → 0 < bil (formMatrix chis d) u (response chis kap d u) +
      bil (formMatrix chis d) (response chis kap d u) u := by
  have hS : (0 : ℝ) < S := by
    rcases Nat.eq_zero_or_pos S with rfl | h
    · simp at hδ
    · exact_mod_cast h
  have hcf : Continuous (formMap chis d) := LinearMap.continuous_of_finiteDimensional _
  have hcl : Continuous (loadSum d) := LinearMap.continuous_of_finiteDimensional _
  obtain ⟨k₀, hk⟩ := exists_finsler (Q := bareForm chis d) (t := loadSum d)
    (by
      unfold bareForm
      refine continuous_finsetSum _ fun r _ => ((continuous_apply r).comp hcf).mul ?_
      fun_prop)
    hcl
    (fun c u => by
      unfold bareForm
      rw [Finset.mul_sum, map_smul]
      refine Finset.sum_congr rfl fun r _ => ?_
      have h1 : ∀ q, (c • u) q + ∑ s, chis q s * (d s * (c • u) s) =
          c * (u q + ∑ s, chis q s * (d s * u s)) := by
        intro q
        rw [mul_add, Finset.mul_sum]
        simp only [Pi.smul_apply, smul_eq_mul]
        congr 1
        exact Finset.sum_congr rfl fun s _ => by ring
      simp only [h1, ← Finset.mul_sum]
      simp only [Pi.smul_apply, smul_eq_mul]
      ring)
    (fun c u => by rw [map_smul, smul_eq_mul])
    (fun u hu ht => bareForm_pos hd hδ hreg hu ht)
  refine ⟨k₀ / ((∑ r, d r) / S), fun kap hkap u hu => ?_⟩
  have hc : 0 < (∑ r, d r) / (S : ℝ) := div_pos hδ hS
  rw [form_response hδ hsym]
  have := hk (kap * ((∑ r, d r) / S)) (by rwa [div_le_iff₀ hc] at hkap) u hu
  linarith

theorem form_pos (hd : ∀ r, 0 < d r) (hδ : 0 < ∑ r, d r)
    (hst : ∀ z : Vec S ℝ, ∑ r, z r = 0 → z ≠ 0 → 0 < curvature chis d z) {u : Vec S ℝ} (hu : u ≠ 0) :
    0 < quad (formMatrix chis d) u := by
  rw [quad_formMatrix hd hδ]
  by_cases hz : loadDeviation d u = 0
  · have h0 : curvature chis d 0 = 0 := by simp [curvature]
    rw [hz, h0, zero_add]
    have hne : loadSum d u ≠ 0 := by
      intro ht
      refine hu (funext fun r => ?_)
      have := congrFun hz r
      have h2 : loadDeviation d u r = d r * (u r - loadSum d u / ∑ s, d s) := rfl
      rw [h2, ht, zero_div, sub_zero] at this
      simpa [(hd r).ne'] using this
    positivity
  · have := hst _ (sum_loadDeviation hδ u) hz
    positivity

theorem form_neg (hd : ∀ r, 0 < d r) (hδ : 0 < ∑ r, d r) {z : Vec S ℝ} (hz : ∑ r, z r = 0)
    (hneg : curvature chis d z < 0) : ∃ u, quad (formMatrix chis d) u < 0 := by
  have ht : loadSum d (fun r => z r / d r) = 0 := by
    show ∑ r, d r * (z r / d r) = 0
    rw [← hz]
    exact Finset.sum_congr rfl fun r _ => by rw [mul_div_cancel₀ _ (hd r).ne']
  refine ⟨fun r => z r / d r, ?_⟩
  have hdev : loadDeviation d (fun r => z r / d r) = z := by
    funext r
    show d r * (z r / d r - loadSum d (fun r => z r / d r) / ∑ s, d s) = z r
    rw [ht, zero_div, sub_zero, mul_div_cancel₀ _ (hd r).ne']
  rw [quad_formMatrix hd hδ, hdev, ht]
  simpa using hneg

/-- A positive second variation is not degenerate. -/
theorem regular_of_stable (hst : ∀ z : Vec S ℝ, ∑ r, z r = 0 → z ≠ 0 → 0 < curvature chis d z)
    (z : Vec S ℝ) (hz : ∑ r, z r = 0) (hc : ∃ c, ∀ r, z r / d r + ∑ s, chis r s * z s = c) : z = 0 := by
  by_contra hne
  obtain ⟨c, hc⟩ := hc
  have h1 := hst z hz hne
  have h2 : curvature chis d z = ∑ r, z r * (z r / d r + ∑ s, chis r s * z s) := by
    unfold curvature
    rw [← Finset.sum_add_distrib]
    refine Finset.sum_congr rfl fun r _ => ?_
    rw [mul_add, Finset.mul_sum]
    congr 1
    · ring
    · exact Finset.sum_congr rfl fun s _ => by ring
  simp only [h2, hc, ← Finset.sum_mul, hz, zero_mul, lt_irrefl] at h1

end Flory
