import Verif.Lemmas.Merging
import Verif.Lemmas.MergeMany
import Verif.Lemmas.SeparatedLinear
import Verif.Spec.Selection
import Mathlib.Analysis.Calculus.ContDiff.RCLike
import Mathlib.Analysis.SpecialFunctions.ExpDeriv

/-! # A pass of the grand canonical ensemble as a map of the fields of one compartment -/

set_option linter.unusedSectionVars false

namespace Flory

open Spec Finset

variable {G : Type} {C S M : ℕ}

/-- Fractions of a compartment with fields `w` in contact with a reservoir. -/
noncomputable def fieldPhi (l mus : Vec C ℝ) (feat : Fin C → Fin S) (w : Vec S ℝ) (i : Fin C) : ℝ :=
  l i * Real.exp (l i * mus i) * Real.exp (-w (feat i) * l i)

/-- Interaction with the fractions `phi`. -/
def fieldPot (chis : Mat S S ℝ) (feat : Fin C → Fin S) (phi : Vec C ℝ) (r : Fin S) : ℝ :=
  ∑ j, chis r (feat j) * phi j

/-- Pressure of a compartment. -/
noncomputable def fieldXi (chis : Mat S S ℝ) (coef : ℝ) (feat : Fin C → Fin S) (w : Vec S ℝ) (phi : Vec C ℝ) : ℝ :=
  (coef * (∑ i, phi i - 1) + ∑ r, (w r - fieldPot chis feat phi r)) / S

/-- Change that the fields aim at. -/
noncomputable def fieldGap (chis : Mat S S ℝ) (coef : ℝ) (feat : Fin C → Fin S) (w : Vec S ℝ) (phi : Vec C ℝ)
    (r : Fin S) : ℝ := fieldPot chis feat phi r + fieldXi chis coef feat w phi - w r

/-- Energy of a compartment. -/
noncomputable def fieldEnergy (chis : Mat S S ℝ) (coef : ℝ) (l : Vec C ℝ) (feat : Fin C → Fin S) (w : Vec S ℝ)
    (phi : Vec C ℝ) : ℝ :=
  -(1 / 2 * ∑ i, ∑ j, chis (feat i) (feat j) * phi i * phi j) - ∑ i, phi i / l i -
    fieldXi chis coef feat w phi

section Fixed

variable {chis : Mat S S ℝ} {feat : Fin C → Fin S} {l mus phi : Vec C ℝ} {c coef : ℝ}

/-- The grand potential per volume is the constant of the balance. -/
theorem grandPotential_eq (h : ReservoirPhase chis feat l mus phi c) :
    grandPotential chis feat l mus phi = c := by
  set W := ∑ j, ∑ k, chis (feat j) (feat k) * phi j * phi k with hW
  have h1 : ∀ i, phi i * (mus i + (1 + Real.log (l i)) / l i) = phi i * Real.log (phi i) / l i + phi i / l i +
      ∑ j, chis (feat i) (feat j) * phi i * phi j - phi i * (1 / 2 * W + ∑ j, phi j / l j + c) := by
    intro i
    have h2 := h.balance i
    unfold chemPot at h2
    have e : mus i + (1 + Real.log (l i)) / l i = (Real.log (phi i) + 1) / l i +
      ∑ j, chis (feat i) (feat j) * phi j - 1 / 2 * W - ∑ j, phi j / l j - c := by linarith
    have e2 : ∑ j, chis (feat i) (feat j) * phi i * phi j = phi i * ∑ j, chis (feat i) (feat j) * phi j := by
      rw [mul_sum]
      exact sum_congr rfl fun j _ => by ring
    rw [e, e2]
    ring
  unfold grandPotential freeEnergy
  simp only [h1, sum_sub_distrib, sum_add_distrib, ← sum_mul, h.incompressible, ← hW]
  ring

theorem fieldPhi_fixed (hl : ∀ i, 0 < l i) (h : ReservoirPhase chis feat l mus phi c) (i : Fin C) :
    fieldPhi l mus feat (fun r => equilibriumField chis feat l phi r - c) i = phi i := by
  have h1 := h.balance i
  have hli := hl i
  have e1 : l i * Real.exp (l i * mus i) = Real.exp (Real.log (l i) + l i * mus i) := by
    rw [Real.exp_add, Real.exp_log hli]
  unfold fieldPhi
  rw [e1, ← Real.exp_add, ← Real.exp_log (h.pos i)]
  congr 1
  unfold chemPot at h1
  unfold equilibriumField
  beta_reduce at h1 ⊢
  have hm : mus i = _ := eq_sub_of_add_eq (eq_sub_of_add_eq h1.symm)
  rw [hm]
  field_simp
  ring

theorem fieldXi_fixed [NeZero S] (h : ReservoirPhase chis feat l mus phi c) :
    fieldXi chis coef feat (fun r => equilibriumField chis feat l phi r - c) phi =
      -(1 / 2 * ∑ i, ∑ j, chis (feat i) (feat j) * phi i * phi j) - ∑ i, phi i / l i - c := by
  have hS : (S : ℝ) ≠ 0 := by exact_mod_cast NeZero.ne S
  unfold fieldXi
  have e : ∀ r, equilibriumField chis feat l phi r - c - fieldPot chis feat phi r =
      -(1 / 2 * ∑ i, ∑ j, chis (feat i) (feat j) * phi i * phi j) - ∑ i, phi i / l i - c := fun r => by
    unfold equilibriumField fieldPot
    ring
  rw [h.incompressible, sub_self, mul_zero, zero_add, sum_congr rfl fun r _ => e r, sum_const, card_univ,
    Fintype.card_fin, nsmul_eq_mul, mul_div_cancel_left₀ _ hS]

theorem fieldGap_fixed [NeZero S] (h : ReservoirPhase chis feat l mus phi c) (r : Fin S) :
    fieldGap chis coef feat (fun r => equilibriumField chis feat l phi r - c) phi r = 0 := by
  unfold fieldGap
  rw [fieldXi_fixed h]
  unfold equilibriumField fieldPot
  ring

theorem fieldEnergy_fixed [NeZero S] (h : ReservoirPhase chis feat l mus phi c) :
    fieldEnergy chis coef l feat (fun r => equilibriumField chis feat l phi r - c) phi = c := by
  unfold fieldEnergy
  rw [fieldXi_fixed h]
  ring

/-- How far fractions, errors and energy of a compartment with fields `w` are from those of a phase. -/
structure FieldNear (chis : Mat S S ℝ) (coef : ℝ) (l mus : Vec C ℝ) (feat : Fin C → Fin S) (phi : Vec C ℝ)
    (c : ℝ) (w : Vec S ℝ) (b : ℝ) : Prop where
  phi : ∀ i, |fieldPhi l mus feat w i - phi i| ≤ b
  incomp : |∑ i, fieldPhi l mus feat w i - 1| ≤ b
  gap : ∀ r, |fieldGap chis coef feat w (fieldPhi l mus feat w) r| ≤ b
  energy : |fieldEnergy chis coef l feat w (fieldPhi l mus feat w) - c| ≤ b

theorem exists_fieldNear [NeZero S] (hl : ∀ i, 0 < l i) (h : ReservoirPhase chis feat l mus phi c) (coef : ℝ) :
    ∃ A > 0, ∃ δ > 0, ∀ (w : Vec S ℝ) (U : ℝ), 0 ≤ U → U ≤ δ →
      (∀ r, |w r - (equilibriumField chis feat l phi r - c)| ≤ U) →
      FieldNear chis coef l mus feat phi c w (A * U) := by
  let F : Vec S ℝ → Vec C ℝ × ℝ × Vec S ℝ × ℝ := fun w => (fieldPhi l mus feat w,
    ∑ i, fieldPhi l mus feat w i, fieldGap chis coef feat w (fieldPhi l mus feat w),
    fieldEnergy chis coef l feat w (fieldPhi l mus feat w))
  have hphi : ∀ i, ContDiff ℝ 1 fun w : Vec S ℝ => fieldPhi l mus feat w i := fun i => by
    unfold fieldPhi
    fun_prop
  have hxi : ContDiff ℝ 1 fun w : Vec S ℝ => fieldXi chis coef feat w (fieldPhi l mus feat w) := by
    unfold fieldXi fieldPot
    fun_prop
  have hF : ContDiff ℝ 1 F := by
    refine ContDiff.prodMk (contDiff_pi.mpr hphi) (ContDiff.prodMk (by fun_prop) (ContDiff.prodMk ?_ ?_))
    · refine contDiff_pi.mpr fun r => ?_
      unfold fieldGap fieldPot
      fun_prop
    · unfold fieldEnergy
      fun_prop
  set w₀ : Vec S ℝ := fun r => equilibriumField chis feat l phi r - c with hw₀
  obtain ⟨K, t, ht, hK⟩ := hF.locallyLipschitz w₀
  obtain ⟨δ, hδ, hball⟩ := Metric.mem_nhds_iff.mp ht
  refine ⟨K + 1, by positivity, δ / 2, by positivity, fun w U hU0 hU hw => ?_⟩
  have hdist : dist w w₀ ≤ U := (dist_pi_le_iff hU0).mpr fun r => by rw [Real.dist_eq]; exact hw r
  have hwt : w ∈ t := hball (by rw [Metric.mem_ball]; linarith)
  have h0t : w₀ ∈ t := hball (Metric.mem_ball_self hδ)
  have hd : dist (F w) (F w₀) ≤ (K + 1) * U := by
    refine (hK.dist_le_mul w hwt w₀ h0t).trans ?_
    have h1 : (0 : ℝ) ≤ K := K.2
    nlinarith
  have hbU : 0 ≤ (K + 1) * U := by positivity
  have e1 : fieldPhi l mus feat w₀ = phi := funext fun i => fieldPhi_fixed hl h i
  rw [Prod.dist_eq, max_le_iff, Prod.dist_eq, max_le_iff, Prod.dist_eq, max_le_iff] at hd
  obtain ⟨h1, h2, h3, h4⟩ := hd
  refine ⟨fun i => ?_, ?_, fun r => ?_, ?_⟩
  · have := (dist_pi_le_iff hbU).mp h1 i
    rwa [Real.dist_eq, show (F w₀).1 i = phi i from congrFun e1 i] at this
  · rw [Real.dist_eq] at h2
    have e2 : (F w₀).2.1 = 1 := by
      show ∑ i, fieldPhi l mus feat w₀ i = 1
      rw [e1, h.incompressible]
    rwa [e2] at h2
  · have := (dist_pi_le_iff hbU).mp h3 r
    rw [Real.dist_eq] at this
    have e2 : (F w₀).2.2.1 r = 0 := by
      show fieldGap chis coef feat w₀ (fieldPhi l mus feat w₀) r = 0
      rw [e1]
      exact fieldGap_fixed h r
    rwa [e2, sub_zero] at this
  · rw [Real.dist_eq] at h4
    have e2 : (F w₀).2.2.2 = c := by
      show fieldEnergy chis coef l feat w₀ (fieldPhi l mus feat w₀) = c
      rw [e1]
      exact fieldEnergy_fixed h
    rwa [e2] at h4

/-- The change of the fields is linear in the distance from those of the phase, with intermediate loads. -/
theorem fieldGap_response [NeZero S] (hl : ∀ i, 0 < l i) (h : ReservoirPhase chis feat l mus phi c) (w : Vec S ℝ) :
    ∃ psi : Vec C ℝ, (∀ i, min (fieldPhi l mus feat w i) (phi i) ≤ psi i ∧
        psi i ≤ max (fieldPhi l mus feat w i) (phi i)) ∧
      ∀ r, fieldGap chis coef feat w (fieldPhi l mus feat w) r = -response chis coef (loads l feat psi)
          (fun q => w q - (equilibriumField chis feat l phi q - c)) r := by
  set w₀ : Vec S ℝ := fun r => equilibriumField chis feat l phi r - c with hw₀
  have e1 : ∀ i, fieldPhi l mus feat w₀ i = phi i := fun i => fieldPhi_fixed hl h i
  have key : ∀ i, ∃ d, min (-w (feat i) * l i) (-w₀ (feat i) * l i) ≤ d ∧
      d ≤ max (-w (feat i) * l i) (-w₀ (feat i) * l i) ∧
      Real.exp (-w (feat i) * l i) - Real.exp (-w₀ (feat i) * l i) =
        Real.exp d * (-w (feat i) * l i - -w₀ (feat i) * l i) := fun i => exp_slope _ _
  choose d k1 k2 k3 using key
  have ha : ∀ i, 0 ≤ l i * Real.exp (l i * mus i) := fun i => (mul_pos (hl i) (Real.exp_pos _)).le
  set psi : Vec C ℝ := fun i => l i * Real.exp (l i * mus i) * Real.exp (d i) with hpsi
  have h2 : ∀ i, fieldPhi l mus feat w i - phi i = -(l i * psi i * (w (feat i) - w₀ (feat i))) := fun i => by
    rw [← e1 i]
    unfold fieldPhi
    rw [← mul_sub, k3]
    simp only [hpsi]
    ring
  refine ⟨psi, fun i => ?_, fun r => ?_⟩
  · rw [← e1 i]
    unfold fieldPhi
    rw [← mul_min_of_nonneg _ _ (ha i), ← mul_max_of_nonneg _ _ (ha i),
      ← Real.exp_monotone.map_min, ← Real.exp_monotone.map_max]
    exact ⟨mul_le_mul_of_nonneg_left (Real.exp_le_exp.mpr (k1 i)) (ha i),
      mul_le_mul_of_nonneg_left (Real.exp_le_exp.mpr (k2 i)) (ha i)⟩
  · set u : Vec S ℝ := fun q => w q - w₀ q with hu
    have hpot : ∀ q, fieldPot chis feat (fieldPhi l mus feat w) q - fieldPot chis feat phi q =
        -∑ s, chis q s * (loads l feat psi s * u s) := by
      intro q
      have e1 : ∑ s, chis q s * (loads l feat psi s * u s) =
          ∑ i, chis q (feat i) * u (feat i) * (l i * psi i) := by
        rw [← sum_loads l feat psi fun s => chis q s * u s]
        exact Finset.sum_congr rfl fun s _ => by ring
      unfold fieldPot
      rw [← Finset.sum_sub_distrib, e1, ← Finset.sum_neg_distrib]
      refine Finset.sum_congr rfl fun j _ => ?_
      rw [← mul_sub, h2 j]
      simp only [hu]
      ring
    have hsum : ∑ i, fieldPhi l mus feat w i - ∑ i, phi i = -∑ s, loads l feat psi s * u s := by
      have e1 : ∑ s, loads l feat psi s * u s = ∑ i, u (feat i) * (l i * psi i) := by
        rw [← sum_loads l feat psi u]
        exact Finset.sum_congr rfl fun s _ => by ring
      rw [← Finset.sum_sub_distrib, e1, ← Finset.sum_neg_distrib]
      refine Finset.sum_congr rfl fun j _ => ?_
      rw [h2 j]
      simp only [hu]
      ring
    have h0 := fieldGap_fixed (coef := coef) h r
    rw [← hw₀] at h0
    rw [← sub_zero (fieldGap chis coef feat w (fieldPhi l mus feat w) r), ← h0]
    have hx : fieldXi chis coef feat w (fieldPhi l mus feat w) - fieldXi chis coef feat w₀ phi =
        (coef * (∑ i, fieldPhi l mus feat w i - ∑ i, phi i) + ∑ q, (u q -
          (fieldPot chis feat (fieldPhi l mus feat w) q - fieldPot chis feat phi q))) / S := by
      unfold fieldXi
      rw [← sub_div]
      congr 1
      simp only [hu, sum_sub_distrib]
      ring
    have e3 : fieldGap chis coef feat w (fieldPhi l mus feat w) r - fieldGap chis coef feat w₀ phi r =
        (fieldPot chis feat (fieldPhi l mus feat w) r - fieldPot chis feat phi r) +
        (fieldXi chis coef feat w (fieldPhi l mus feat w) - fieldXi chis coef feat w₀ phi) - u r := by
      unfold fieldGap
      simp only [hu]
      ring
    rw [e3, hx, hsum]
    simp only [hpot, sub_neg_eq_add]
    unfold response
    ring

end Fixed

section Pass

variable [NeZero M] {ia : FHCompiled S ℝ} {en : EntropyI C S M ℝ} {rng : Rng G ℝ}
  {p : Params ℝ} {tries : ℤ} {count : ℕ} {s : State C S M ℝ G} {t : Trace C S M ℝ G}
  {l mus : Vec C ℝ} {feat : Fin C → Fin S}

/-- A pass without revivals. -/
theorem IterFacts.exhausted {ia : InteractionI S M ℝ} {es : EnsembleI C M ℝ}
    (h : IterFacts ia en es rng p tries count s t) (ht : tries ≤ count) :
    (∀ m, t.masks m = if p.killThreshold < s.Js m then 1 else 0) ∧ (∀ m, t.JsOld m = s.Js m * t.masks m) ∧
      t.omegasOld = s.omegas ∧ t.reviveCount = count := by
  have hr := reviveBlock_exhausted (rng := rng) (p := p) (Js := s.Js) (om := s.omegas) (g := s.g) ht
  refine ⟨fun m => by rw [h.mask_eq, hr], fun m => by rw [h.JsOld, hr], by rw [h.omegasOld, hr],
    by rw [h.reviveCount, hr]⟩

variable (h : IterFacts (ia.toI M) en ((GrandC.fromChemicalPotential mus l).toI M) rng p tries count s t)
  (hen : IsIdealGas en l feat) (hc : ∀ k ∈ s.cons, k.Trivial) {m : Fin M} (hm : t.masks m = 1)
include h hen hm

theorem IterFacts.fieldPhi : (fun i => t.phisComp i m) = fieldPhi l mus feat fun r => t.omegasOld r m := by
  funext i
  rw [h.phis_eq hen (GrandC.scales _), hm, mul_one]
  rfl

include hc

theorem IterFacts.fieldXi : t.xi m = fieldXi ia.chis ia.coef feat (fun r => t.omegasOld r m)
    (Flory.fieldPhi l mus feat fun r => t.omegasOld r m) := by
  rw [h.xi_trivial (GrandC.scales _) hc hm, ← h.fieldPhi hen hm]
  unfold Flory.fieldXi fieldPot
  simp only [h.potential_feat hen]

theorem IterFacts.fieldGap (r : Fin S) : t.omegaDiff r m = fieldGap ia.chis ia.coef feat
    (fun r => t.omegasOld r m) (Flory.fieldPhi l mus feat fun r => t.omegasOld r m) r := by
  rw [h.omegaDiff, hm, mul_one, (h.cons_trivial hc).1, add_zero, h.fieldXi hen hc hm, h.potential_feat hen]
  unfold Flory.fieldGap fieldPot
  rw [← h.fieldPhi hen hm]

theorem IterFacts.fieldEnergy : t.localEnergy m = fieldEnergy ia.chis ia.coef l feat
    (fun r => t.omegasOld r m) (Flory.fieldPhi l mus feat fun r => t.omegasOld r m) := by
  rw [h.localEnergy_eq hen (GrandC.scales _) hm, (h.cons_trivial hc).2, h.fieldXi hen hc hm]
  simp only [(h.cons_trivial hc).1, zero_mul, sum_const_zero, sub_zero, add_zero]
  unfold Flory.fieldEnergy liftChis
  rw [← h.fieldPhi hen hm]

end Pass

end Flory
