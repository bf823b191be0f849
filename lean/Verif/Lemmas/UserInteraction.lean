import Verif.Spec.UserInteraction
import Verif.Lemmas.GasEntropy
import Verif.Lemmas.Balance

/-! # Passes with interactions of any class -/

set_option linter.unusedSectionVars false

namespace Flory

open Spec

variable {G : Type} {C S M : ℕ} [NeZero M]
variable {ia : InteractionI S M ℝ} {en : EntropyI C S M ℝ} {es : EnsembleI C M ℝ}
  {rng : Rng G ℝ} {p : Params ℝ} {tries : ℤ} {count : ℕ} {s : State C S M ℝ G}
  {t : Trace C S M ℝ G} {sizes : Vec C ℝ} {feat : Fin C → Fin S} {a : Vec C ℝ → Vec C ℝ}

namespace IterFacts

/-- Field, volume and constraint forces in a living compartment, for any interaction. -/
theorem general_identity (h : IterFacts ia en es rng p tries count s t)
    (hen : IsIdealGas en sizes feat) (hes : Scales es a) {m : Fin M} (hm : t.masks m = 1)
    {i : Fin C} (hl : sizes i ≠ 0) (ha : 0 < a t.Qs i) :
    (Real.log (t.phisComp i m) + 1) / sizes i - ∑ j, t.phisComp j m / sizes j
      + t.potential (feat i) m + ia.volumeDerivative t.potential t.phisFeat m
      - ∑ r, t.potential r m * t.phisFeat r m =
      (Real.log (a t.Qs i) + 1) / sizes i + t.omegaDiff (feat i) m + t.localEnergy m
        + consShift t (feat i) m := by
  have hlog : Real.log (t.phisComp i m) =
      Real.log (a t.Qs i) - t.omegasOld (feat i) m * sizes i := by
    rw [h.phis_eq hen hes, hm, mul_one, Real.log_mul ha.ne' (Real.exp_pos _).ne', Real.log_exp]
    ring
  unfold consShift
  rw [hlog, h.localEnergy, hen.volumeDerivative, h.incomp_eq hes, hm, ← h.sum_phisFeat hen,
    h.omegaDiff, hm]
  simp only [add_mul, Finset.sum_add_distrib, ← Finset.mul_sum]
  field_simp
  ring

theorem general_omega_diff (h : IterFacts ia en es rng p tries count s t) (r q : Fin S)
    (m n : Fin M) : |t.omegaDiff r m - t.omegaDiff q n| ≤
      S * t.maxAbsOmegaDiff + |ia.incompCoef t.phisFeat| * t.maxAbsIncomp := by
  have h1 := h.omegaDiff_le r m
  have h2 := h.omegaDiff_le q n
  have h3 := h.neg_omegaDiff_le r m
  have h4 := h.neg_omegaDiff_le q n
  rw [abs_le]
  constructor <;> nlinarith

theorem general_local_diff (h : IterFacts ia en es rng p tries count s t) {m n : Fin M}
    (hm : t.masks m = 1) (hn : t.masks n = 1) :
    |t.localEnergy m - t.localEnergy n| ≤ 2 * t.maxAbsJsDiff := by
  have h1 := h.JsDiff m
  have h2 := h.JsDiff n
  rw [hm, mul_one] at h1
  rw [hn, mul_one] at h2
  have e : t.localEnergy m - t.localEnergy n = t.JsDiff n - t.JsDiff m := by rw [h1, h2]; ring
  rw [e]
  have := abs_sub (t.JsDiff n) (t.JsDiff m)
  have := h.JsDiff_le m
  have := h.JsDiff_le n
  linarith

theorem general_Qs_pos (h : IterFacts ia en es rng p tries count s t)
    (hen : IsIdealGas en sizes feat) (hthr : 0 ≤ p.killThreshold) (i : Fin C) : 0 < t.Qs i := by
  rw [h.Qs_eq hen]
  obtain ⟨m, hm⟩ : ∃ m, t.masks m = 1 := by
    by_contra hc
    push Not at hc
    refine h.nValid_ne ?_
    rw [h.nValid]
    exact Finset.sum_eq_zero fun m _ => (h.mask_cases m).resolve_left (hc m)
  exact Q_pos (h.JsOld_nonneg hthr) (lt_of_le_of_lt hthr (h.JsOld_gt hm)) fun m => Real.exp_pos _

end IterFacts

theorem features_gradient {f : Vec S ℝ → ℝ} {g : Vec S ℝ} {feat : Fin C → Fin S} {x : Vec C ℝ}
    (h : IsGradientAt f g (features feat x)) :
    IsGradientAt (fun y => f (features feat y)) (fun i => g (feat i)) x := by
  unfold IsGradientAt at *
  have hL : HasFDerivAt (fun y : Vec C ℝ => features feat y)
      (ContinuousLinearMap.pi fun r => dot fun i => if feat i = r then 1 else 0) x := by
    have e : (fun y : Vec C ℝ => features feat y) =
        (ContinuousLinearMap.pi fun r => dot fun i => if feat i = r then (1 : ℝ) else 0) := by
      funext y r
      simp [features]
    rw [e]
    exact ContinuousLinearMap.hasFDerivAt _
  refine (h.comp x hL).congr_fderiv ?_
  ext v
  simp only [ContinuousLinearMap.comp_apply, dot_apply, ContinuousLinearMap.pi_apply, ite_mul,
    one_mul, zero_mul]
  simp only [Finset.mul_sum, mul_ite, mul_zero]
  rw [Finset.sum_comm]
  simp

theorem densityPotential_eq {f : Vec S ℝ → ℝ} {g : Vec S ℝ} {feat : Fin C → Fin S} {sizes x : Vec C ℝ}
    (hx : ∀ i, 0 < x i) (h : IsGradientAt f g (features feat x)) (i : Fin C) :
    densityPotential (freeDensity f sizes feat) x i =
      (Real.log (x i) + 1) / sizes i - ∑ j, x j / sizes j + g (feat i) + f (features feat x)
        - ∑ r, g r * features feat x r := by
  have hg : IsGradientAt (freeDensity f sizes feat)
      (fun i => (Real.log (x i) + 1) / sizes i + g (feat i)) x :=
    IsGradientAt.add (gasEnergy_gradient (l := sizes) hx) (features_gradient h)
  unfold densityPotential
  rw [show fderiv ℝ (freeDensity f sizes feat) x = _ from HasFDerivAt.fderiv hg]
  have hs : ∑ r, g r * features feat x r = ∑ j, g (feat j) * x j := by
    unfold features
    simp only [Finset.mul_sum, mul_ite, mul_zero]
    rw [Finset.sum_comm]
    simp
  rw [hs]
  unfold freeDensity
  simp only [dot_apply, Pi.single_apply, mul_ite, mul_one, mul_zero, Finset.sum_ite_eq',
    Finset.mem_univ, if_true, add_mul, Finset.sum_add_distrib]
  have : ∑ j, (Real.log (x j) + 1) / sizes j * x j =
      ∑ j, x j * Real.log (x j) / sizes j + ∑ j, x j / sizes j := by
    rw [← Finset.sum_add_distrib]
    exact Finset.sum_congr rfl fun j _ => by ring
  rw [this]
  ring

end Flory
