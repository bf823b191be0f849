import Verif.Spec.Simplex
import Mathlib.Probability.Distributions.Beta
import Mathlib.Probability.Distributions.Uniform
import Mathlib.MeasureTheory.Measure.Lebesgue.EqHaar
import Mathlib.MeasureTheory.Measure.Prod

/-!
# Breaking a stick with beta distributed fractions gives the uniform distribution on the simplex
-/

set_option linter.unusedSectionVars false

namespace Flory.Simplex

open MeasureTheory ProbabilityTheory Spec
open scoped ENNReal Nat

/-- Each draw is the fraction taken from what is left. -/
def breakStick : (n : ℕ) → (Fin n → ℝ) → Fin n → ℝ
  | 0, x => x
  | n + 1, x => Fin.cons (x 0) ((1 - x 0) • breakStick n fun k => x k.succ)

theorem measurable_cons {n : ℕ} : Measurable fun p : ℝ × (Fin n → ℝ) => (Fin.cons p.1 p.2 : Fin (n + 1) → ℝ) := by
  rw [measurable_pi_iff]
  intro i
  refine Fin.cases ?_ (fun j => ?_) i
  · simpa using measurable_fst
  · simp only [Fin.cons_succ]
    exact (measurable_pi_apply j).comp measurable_snd

theorem measurable_breakStick (n : ℕ) : Measurable (breakStick n) := by
  induction n with
  | zero => exact measurable_id
  | succ n ih =>
    have h0 : Measurable fun x : Fin (n + 1) → ℝ => x 0 := measurable_pi_apply 0
    have ht : Measurable fun (x : Fin (n + 1) → ℝ) (k : Fin n) => x k.succ :=
      measurable_pi_iff.mpr fun k => measurable_pi_apply k.succ
    exact measurable_cons.comp (h0.prodMk ((measurable_const.sub h0).smul (ih.comp ht)))

theorem measurableSet_corner (n : ℕ) : MeasurableSet (corner n) := by
  have e : corner n = (⋂ d, {y : Fin n → ℝ | 0 ≤ y d}) ∩ {y | ∑ d, y d ≤ 1} := by
    ext y; simp [corner]
  rw [e]
  exact (MeasurableSet.iInter fun d => measurableSet_le measurable_const (measurable_pi_apply d)).inter
    (measurableSet_le (Finset.measurable_sum _ fun d _ => measurable_pi_apply d) measurable_const)

theorem mem_corner_cons {n : ℕ} {t : ℝ} (h0 : 0 ≤ t) (h1 : t < 1) (y : Fin n → ℝ) :
    (Fin.cons t ((1 - t) • y) : Fin (n + 1) → ℝ) ∈ corner (n + 1) ↔ y ∈ corner n := by
  have h : 0 < 1 - t := by linarith
  simp only [corner, Set.mem_ofPred_eq, Fin.sum_univ_succ, Fin.forall_fin_succ, Fin.cons_zero, Fin.cons_succ,
    Pi.smul_apply, smul_eq_mul, ← Finset.mul_sum]
  constructor
  · rintro ⟨⟨-, h2⟩, h3⟩
    exact ⟨fun d => nonneg_of_mul_nonneg_right (h2 d) h, by
      by_contra hc
      have := mul_lt_mul_of_pos_left (not_le.mp hc) h
      linarith⟩
  · rintro ⟨h2, h3⟩
    exact ⟨⟨h0, fun d => mul_nonneg h.le (h2 d)⟩, by
      have := mul_le_mul_of_nonneg_left h3 h.le
      linarith⟩

theorem betaPDF_one (n : ℕ) {t : ℝ} (h0 : 0 < t) (h1 : t < 1) :
    betaPDF 1 ((n + 1 : ℕ) : ℝ) t = ENNReal.ofReal ((n + 1) * (1 - t) ^ n) := by
  rw [betaPDF_of_pos_lt_one h0 h1]
  congr 1
  have e : ((n + 1 : ℕ) : ℝ) - 1 = (n : ℝ) := by push_cast; ring
  have e2 : (1 : ℝ) + ((n + 1 : ℕ) : ℝ) = ((n + 1 : ℕ) : ℝ) + 1 := by ring
  rw [e, Real.rpow_natCast, sub_self, Real.rpow_zero]
  simp only [beta, e2, Real.Gamma_one, Real.Gamma_nat_eq_factorial]
  rw [show ((n + 1 : ℕ) : ℝ) = (n : ℝ) + 1 by push_cast; ring, Real.Gamma_nat_eq_factorial, Nat.factorial_succ]
  have : (n ! : ℝ) ≠ 0 := Nat.cast_ne_zero.mpr (Nat.factorial_ne_zero n)
  push_cast
  field_simp

/-- Scaling of the remaining fractions. -/
theorem lintegral_scale {n : ℕ} {r : ℝ} (hr : 0 < r) {g : (Fin n → ℝ) → ℝ≥0∞} (hg : Measurable g) :
    ENNReal.ofReal (r ^ n) * ∫⁻ y, g (r • y) = ∫⁻ y, g y := by
  have h := Measure.map_addHaar_smul (volume : Measure (Fin n → ℝ)) hr.ne'
  have h2 : ∫⁻ y, g (r • y) = ∫⁻ y, g y ∂(Measure.map (r • ·) (volume : Measure (Fin n → ℝ))) :=
    (lintegral_map hg (measurable_const_smul r)).symm
  rw [h2, h, lintegral_smul_measure, smul_eq_mul, ← mul_assoc]
  have hp : 0 < r ^ n := pow_pos hr n
  rw [Module.finrank_fin_fun, abs_of_pos (inv_pos.mpr hp), ← ENNReal.ofReal_mul hp.le, mul_inv_cancel₀ hp.ne',
    ENNReal.ofReal_one, one_mul]

/-- The law of the draws. -/
noncomputable def law (n : ℕ) : Measure (Fin n → ℝ) :=
  Measure.pi fun d : Fin n => betaMeasure 1 ((n - d : ℕ) : ℝ)

theorem prob (n : ℕ) (d : Fin n) : IsProbabilityMeasure (betaMeasure 1 ((n - d : ℕ) : ℝ)) :=
  isProbabilityMeasureBeta one_pos (Nat.cast_pos.mpr (by have := d.2; omega))

instance law_prob (n : ℕ) : IsProbabilityMeasure (law n) := by
  have := prob n
  exact Measure.pi.instIsProbabilityMeasure _

theorem symm_cons {n : ℕ} (p : ℝ × (Fin n → ℝ)) :
    (MeasurableEquiv.piFinSuccAbove (fun _ : Fin (n + 1) => ℝ) 0).symm p = Fin.cons p.1 p.2 := by
  simp [MeasurableEquiv.piFinSuccAbove_symm_apply, Fin.insertNthEquiv]

theorem lintegral_law (n : ℕ) {f : (Fin n → ℝ) → ℝ≥0∞} (hf : Measurable f) :
    ∫⁻ x, f (breakStick n x) ∂(law n) = (n ! : ℝ≥0∞) * ∫⁻ y in corner n, f y := by
  induction n with
  | zero =>
    have e : (corner 0 : Set (Fin 0 → ℝ)) = Set.univ := by
      ext y; simp [corner]
    rw [e, Measure.restrict_univ, Nat.factorial_zero, Nat.cast_one, one_mul]
    have : law 0 = (volume : Measure (Fin 0 → ℝ)) := by
      rw [law, volume_pi]
      congr 1
      funext d
      exact d.elim0
    rw [this]
    rfl
  | succ n ih =>
    have := prob (n + 1)
    set b := betaMeasure 1 ((n + 1 : ℕ) : ℝ) with hb
    have hbp : IsProbabilityMeasure b := prob (n + 1) 0
    have hprod : MeasurePreserving (MeasurableEquiv.piFinSuccAbove (fun _ : Fin (n + 1) => ℝ) 0)
        (law (n + 1)) (b.prod (law n)) := by
      have h := measurePreserving_piFinSuccAbove
        (fun d : Fin (n + 1) => betaMeasure 1 ((n + 1 - d : ℕ) : ℝ)) 0
      have e : (fun j : Fin n => betaMeasure 1 ((n + 1 - ((0 : Fin (n + 1)).succAbove j : ℕ) : ℕ) : ℝ)) =
          fun d : Fin n => betaMeasure 1 ((n - d : ℕ) : ℝ) := by
        funext d
        rw [Fin.succAbove_zero, Fin.val_succ]
        congr 2
        omega
      rw [e] at h
      exact h
    have h1 : ∫⁻ x, f (breakStick (n + 1) x) ∂(law (n + 1)) =
        ∫⁻ p, f (breakStick (n + 1) (Fin.cons p.1 p.2)) ∂(b.prod (law n)) := by
      have h := hprod.symm.lintegral_comp (hf.comp (measurable_breakStick (n + 1)))
      simp only [Function.comp_apply, symm_cons] at h
      exact h.symm
    have h2 : ∀ (t : ℝ) (z : Fin n → ℝ), breakStick (n + 1) (Fin.cons t z) =
        Fin.cons t ((1 - t) • breakStick n z) := fun t z => by simp [breakStick]
    have hm1 : Measurable fun p : ℝ × (Fin n → ℝ) => f (breakStick (n + 1) (Fin.cons p.1 p.2)) :=
      hf.comp ((measurable_breakStick _).comp measurable_cons)
    have hm2 : Measurable fun p : ℝ × (Fin n → ℝ) => f (Fin.cons p.1 ((1 - p.1) • p.2)) :=
      hf.comp (measurable_cons.comp
        (measurable_fst.prodMk ((measurable_const.sub measurable_fst).smul measurable_snd)))
    rw [h1, lintegral_prod _ hm1.aemeasurable]
    simp only [h2]
    have h3 : ∀ t : ℝ, ∫⁻ z, f (Fin.cons t ((1 - t) • breakStick n z)) ∂(law n) =
        (n ! : ℝ≥0∞) * ∫⁻ y in corner n, f (Fin.cons t ((1 - t) • y)) := fun t =>
      ih (f := fun y => f (Fin.cons t ((1 - t) • y))) (hm2.comp measurable_prodMk_left)
    simp only [h3]
    have hm3 : Measurable fun t : ℝ => (n ! : ℝ≥0∞) * ∫⁻ y in corner n, f (Fin.cons t ((1 - t) • y)) :=
      Measurable.const_mul (Measurable.lintegral_prod_right' (f := fun p : ℝ × (Fin n → ℝ) =>
        f (Fin.cons p.1 ((1 - p.1) • p.2))) hm2) _
    have hpdf : Measurable (betaPDF 1 ((n + 1 : ℕ) : ℝ)) := (measurable_betaPDFReal _ _).ennreal_ofReal
    rw [hb, betaMeasure, lintegral_withDensity_eq_lintegral_mul _ hpdf hm3]
    -- the right hand side slice by slice
    set F := (corner (n + 1)).indicator f with hF
    have hFm : Measurable F := hf.indicator (measurableSet_corner _)
    have h4 : ∫⁻ y in corner (n + 1), f y = ∫⁻ t : ℝ, ∫⁻ u : Fin n → ℝ, F (Fin.cons t u) := by
      rw [← lintegral_indicator (measurableSet_corner _), ← hF]
      have h := (volume_preserving_piFinSuccAbove (fun _ : Fin (n + 1) => ℝ) 0).symm.lintegral_comp hFm
      simp only [symm_cons] at h
      rw [← h]
      exact lintegral_prod (fun p : ℝ × (Fin n → ℝ) => F (Fin.cons p.1 p.2))
        (hFm.comp measurable_cons).aemeasurable
    have hm4 : Measurable fun t : ℝ => ∫⁻ u : Fin n → ℝ, F (Fin.cons t u) :=
      Measurable.lintegral_prod_right' (f := fun p : ℝ × (Fin n → ℝ) => F (Fin.cons p.1 p.2))
        (hFm.comp measurable_cons)
    rw [h4, ← lintegral_const_mul _ hm4]
    have hne : ∀ᵐ t : ℝ, t ≠ 0 ∧ t ≠ 1 := by
      have a0 : ∀ᵐ t : ℝ, t ≠ 0 := by simp [ae_iff]
      have a1 : ∀ᵐ t : ℝ, t ≠ 1 := by simp [ae_iff]
      filter_upwards [a0, a1] with t h0 h1 using ⟨h0, h1⟩
    refine lintegral_congr_ae ?_
    filter_upwards [hne] with t ⟨ht0, ht1⟩
    simp only [Pi.mul_apply]
    by_cases ht : 0 < t ∧ t < 1
    · obtain ⟨h0, h1⟩ := ht
      have hr : 0 < 1 - t := by linarith
      have hmt : Measurable fun u : Fin n → ℝ => F (Fin.cons t u) :=
        (hFm.comp measurable_cons).comp measurable_prodMk_left
      rw [betaPDF_one n h0 h1, ← lintegral_scale hr hmt]
      have e1 : ∫⁻ y in corner n, f (Fin.cons t ((1 - t) • y)) =
          ∫⁻ y : Fin n → ℝ, F (Fin.cons t ((1 - t) • y)) := by
        rw [← lintegral_indicator (measurableSet_corner _)]
        refine lintegral_congr fun y => ?_
        by_cases hy : y ∈ corner n
        · rw [hF, Set.indicator_of_mem hy, Set.indicator_of_mem ((mem_corner_cons h0.le h1 y).mpr hy)]
        · rw [hF, Set.indicator_of_notMem hy,
            Set.indicator_of_notMem fun h => hy ((mem_corner_cons h0.le h1 y).mp h)]
      rw [e1, Nat.factorial_succ, ENNReal.ofReal_mul (by positivity)]
      have e2 : ENNReal.ofReal ((n : ℝ) + 1) = ((n + 1 : ℕ) : ℝ≥0∞) := by
        rw [← Nat.cast_succ, ENNReal.ofReal_natCast]
      rw [e2]
      push_cast
      ring
    · have e1 : betaPDF 1 ((n + 1 : ℕ) : ℝ) t = 0 := by
        rcases not_and_or.mp ht with h | h
        · exact betaPDF_eq_zero_of_nonpos (not_lt.mp h)
        · exact betaPDF_eq_zero_of_one_le (not_lt.mp h)
      have e2 : ∀ u : Fin n → ℝ, F (Fin.cons t u) = 0 := fun u => by
        refine Set.indicator_of_notMem (fun hmem => ht ?_) _
        obtain ⟨m1, m2⟩ := hmem
        have p0 : 0 ≤ t := by simpa using m1 0
        rw [Fin.sum_univ_succ] at m2
        simp only [Fin.cons_zero, Fin.cons_succ] at m2
        have p1 : 0 ≤ ∑ d, u d := Finset.sum_nonneg fun d _ => by simpa using m1 d.succ
        exact ⟨lt_of_le_of_ne p0 (Ne.symm ht0), lt_of_le_of_ne (by linarith) ht1⟩
      rw [e1]
      simp [e2]

/-- The law of the broken stick is uniform. -/
theorem map_law (n : ℕ) : (law n).map (breakStick n) = ProbabilityTheory.cond volume (corner n) := by
  have key : ∀ s, MeasurableSet s → (law n).map (breakStick n) s =
      (n ! : ℝ≥0∞) * volume (corner n ∩ s) := fun s hs => by
    have h := lintegral_law n (f := s.indicator 1) (measurable_one.indicator hs)
    rw [← lintegral_map (measurable_one.indicator hs) (measurable_breakStick n), lintegral_indicator_one hs,
      lintegral_indicator_one hs, Measure.restrict_apply hs, Set.inter_comm] at h
    exact h
  have hprob : IsProbabilityMeasure ((law n).map (breakStick n)) :=
    Measure.isProbabilityMeasure_map (measurable_breakStick n).aemeasurable
  have h1 : (n ! : ℝ≥0∞) * volume (corner n) = 1 := by
    have h := key Set.univ MeasurableSet.univ
    rw [Set.inter_univ] at h
    rw [← h]
    exact measure_univ
  refine Measure.ext fun s hs => ?_
  rw [key s hs, ProbabilityTheory.cond_apply (measurableSet_corner n)]
  congr 1
  exact ENNReal.eq_inv_of_mul_eq_one_left h1

end Flory.Simplex
