import Verif.Spec.Extended
import Verif.Lemmas.Balance
import Verif.Props.Equilibrium
import Mathlib.Analysis.SpecialFunctions.Log.Deriv
import Mathlib.Analysis.SpecialFunctions.ExpDeriv

/-! # The iteration and the documented extended free energy -/

set_option linter.unusedSectionVars false

namespace Flory

open Spec

variable {G : Type} {C S M : ℕ} [NeZero M]

section Deriv

variable {chis : Mat S S ℝ} {feat : Fin C → Fin S} {l phiMeans : Vec C ℝ} {J : Vec M ℝ}
  {pf w : Mat S M ℝ} {xi : Vec M ℝ}

theorem hasDerivAt_lin (a b : ℝ) : HasDerivAt (fun x : ℝ => a + x * b) b 0 := by
  simpa using ((hasDerivAt_id (0 : ℝ)).mul_const b).const_add a

theorem partitionFn_deriv (dJ : Vec M ℝ) (dw : Mat S M ℝ) (i : Fin C) :
    HasDerivAt (fun x : ℝ => partitionFn feat l (fun m => J m + x * dJ m)
        (fun r m => w r m + x * dw r m) i)
      (∑ m, (dJ m - J m * (dw (feat i) m * l i)) * Real.exp (-w (feat i) m * l i)) 0 := by
  unfold partitionFn
  refine HasDerivAt.fun_sum fun m _ => ?_
  have h1 := hasDerivAt_lin (J m) (dJ m)
  have h2 := (((hasDerivAt_lin (w (feat i) m) (dw (feat i) m)).neg).mul_const (l i)).exp
  have h3 := h1.mul h2
  refine h3.congr_deriv ?_
  simp only [zero_mul, add_zero, Pi.neg_apply]
  ring

/-- The derivative of the extended free energy along any direction. -/
theorem extendedEnergy_deriv (hQ : ∀ i, partitionFn feat l J w i ≠ 0) (dJ : Vec M ℝ)
    (dpf dw : Mat S M ℝ) (dxi : Vec M ℝ) :
    HasDerivAt (fun x : ℝ => extendedEnergy chis feat l phiMeans (fun m => J m + x * dJ m)
        (fun r m => pf r m + x * dpf r m) (fun r m => w r m + x * dw r m) (fun m => xi m + x * dxi m))
      ((∑ m, (dJ m * (1 / 2 * (∑ r, ∑ q, chis r q * pf r m * pf q m) - (∑ r, w r m * pf r m)
          + xi m * ((∑ r, pf r m) - 1))
        + J m * (1 / 2 * (∑ r, ∑ q, (chis r q * dpf r m * pf q m + chis r q * pf r m * dpf q m))
          - (∑ r, (dw r m * pf r m + w r m * dpf r m))
          + (dxi m * ((∑ r, pf r m) - 1) + xi m * ∑ r, dpf r m))))
        - ∑ i, phiMeans i / l i * ((∑ m, (dJ m - J m * (dw (feat i) m * l i)) *
            Real.exp (-w (feat i) m * l i)) / partitionFn feat l J w i)) 0 := by
  unfold extendedEnergy
  refine HasDerivAt.sub (HasDerivAt.fun_sum fun m _ => ?_) (HasDerivAt.fun_sum fun i _ => ?_)
  · have hJ := hasDerivAt_lin (J m) (dJ m)
    have hp := fun r => hasDerivAt_lin (pf r m) (dpf r m)
    have hw := fun r => hasDerivAt_lin (w r m) (dw r m)
    have hx := hasDerivAt_lin (xi m) (dxi m)
    have h1 : HasDerivAt (fun x : ℝ => ∑ r, ∑ q, chis r q * (pf r m + x * dpf r m) *
        (pf q m + x * dpf q m))
        (∑ r, ∑ q, (chis r q * dpf r m * pf q m + chis r q * pf r m * dpf q m)) 0 := by
      refine HasDerivAt.fun_sum fun r _ => HasDerivAt.fun_sum fun q _ => ?_
      refine (((hp r).const_mul (chis r q)).mul (hp q)).congr_deriv ?_
      simp
    have h2 : HasDerivAt (fun x : ℝ => ∑ r, (w r m + x * dw r m) * (pf r m + x * dpf r m))
        (∑ r, (dw r m * pf r m + w r m * dpf r m)) 0 := by
      refine HasDerivAt.fun_sum fun r _ => ?_
      refine ((hw r).mul (hp r)).congr_deriv ?_
      simp
    have h3 : HasDerivAt (fun x : ℝ => (xi m + x * dxi m) * ((∑ r, (pf r m + x * dpf r m)) - 1))
        (dxi m * ((∑ r, pf r m) - 1) + xi m * ∑ r, dpf r m) 0 := by
      have h4 : HasDerivAt (fun x : ℝ => (∑ r, (pf r m + x * dpf r m)) - 1) (∑ r, dpf r m) 0 :=
        (HasDerivAt.fun_sum fun r _ => hp r).sub_const 1
      refine (hx.mul h4).congr_deriv ?_
      simp
    refine (hJ.mul (((h1.const_mul (1 / 2)).sub h2).add h3)).congr_deriv ?_
    simp
  · have h := partitionFn_deriv (feat := feat) (l := l) (J := J) (w := w) dJ dw i
    have h0 : partitionFn feat l (fun m => J m + 0 * dJ m) (fun r m => w r m + 0 * dw r m) i ≠ 0 := by
      simpa using hQ i
    refine ((h.log h0).const_mul (phiMeans i / l i)).congr_deriv ?_
    simp

end Deriv

section Pass

variable {ia : FHCompiled S ℝ} {en : EntropyI C S M ℝ} {es : CanonicalC C ℝ}
  {rng : Rng G ℝ} {p : Params ℝ} {tries : ℤ} {count : ℕ} {s : State C S M ℝ G}
  {t : Trace C S M ℝ G} {l : Vec C ℝ} {feat : Fin C → Fin S}

/-- Relative volumes of the compartments in a pass (they add up to one). -/
noncomputable def relVolume (t : Trace C S M ℝ G) (m : Fin M) : ℝ := t.JsOld m / ∑ k, t.JsOld k

namespace IterFacts

theorem relVolume_sum (h : IterFacts (ia.toI M) en (es.toI M) rng p tries count s t)
    (hthr : 0 ≤ p.killThreshold) : ∑ m, relVolume t m = 1 := by
  unfold relVolume
  rw [← Finset.sum_div]
  refine div_self (ne_of_gt ?_)
  obtain ⟨m, hm, -⟩ := h.exists_Js_ge_one
  exact sum_Js_pos (h.JsOld_nonneg hthr) (lt_of_le_of_lt hthr (h.JsOld_gt hm))

theorem partitionFn_eq (h : IterFacts (ia.toI M) en (es.toI M) rng p tries count s t)
    (hen : IsIdealGas en l feat) (i : Fin C) :
    partitionFn feat l (relVolume t) t.omegasOld i = t.Qs i := by
  rw [h.Qs_eq hen]
  unfold partitionFn relVolume
  rw [Finset.sum_div]
  exact Finset.sum_congr rfl fun m _ => by ring

theorem relVolume_mask (h : IterFacts (ia.toI M) en (es.toI M) rng p tries count s t) (m : Fin M) :
    relVolume t m * t.masks m = relVolume t m := by
  unfold relVolume
  rw [div_mul_eq_mul_div, h.JsOld_mask]

theorem relVolume_mean (h : IterFacts (ia.toI M) en (es.toI M) rng p tries count s t)
    (hthr : 0 ≤ p.killThreshold) (hen : IsIdealGas en l feat) (i : Fin C) :
    ∑ m, relVolume t m * t.phisComp i m = es.phiMeans i := by
  have hQ := (h.Qs_pos hen hthr i).ne'
  have e : ∀ m, relVolume t m * t.phisComp i m = es.phiMeans i / t.Qs i *
      (relVolume t m * Real.exp (-t.omegasOld (feat i) m * l i)) := by
    intro m
    rw [h.phis_eq hen es.scales, ← h.relVolume_mask]
    have := h.mask_mul m
    linear_combination (relVolume t m * (es.phiMeans i / t.Qs i) *
      Real.exp (-t.omegasOld (feat i) m * l i)) * this
  simp only [e]
  rw [← Finset.mul_sum]
  have := h.partitionFn_eq hen i
  unfold partitionFn at this
  rw [this]
  field_simp

theorem log_term (h : IterFacts (ia.toI M) en (es.toI M) rng p tries count s t)
    (hthr : 0 ≤ p.killThreshold) (hen : IsIdealGas en l feat) (hl : ∀ i, l i ≠ 0) (i : Fin C)
    (m : Fin M) : relVolume t m * (t.phisComp i m * Real.log (t.phisComp i m) / l i) =
      relVolume t m * t.phisComp i m * ((Real.log (es.phiMeans i) - Real.log (t.Qs i)) / l i)
      - relVolume t m * (t.omegasOld (feat i) m * t.phisComp i m) := by
  have hQ := (h.Qs_pos hen hthr i).ne'
  rcases h.mask_cases m with hm | hm
  · by_cases hp : es.phiMeans i = 0
    · have : t.phisComp i m = 0 := by rw [h.phis_eq hen es.scales, hp]; simp
      simp [this]
    · have e : Real.log (t.phisComp i m) = Real.log (es.phiMeans i) - Real.log (t.Qs i)
          - t.omegasOld (feat i) m * l i := by
        rw [h.phis_eq hen es.scales, hm, mul_one, Real.log_mul (div_ne_zero hp hQ)
          (Real.exp_pos _).ne', Real.log_div hp hQ, Real.log_exp]
        ring
      rw [e]
      have := hl i
      field_simp
  · have : relVolume t m = 0 := by rw [← h.relVolume_mask, hm, mul_zero]
    simp [this]

theorem interaction_feat (h : IterFacts (ia.toI M) en (es.toI M) rng p tries count s t)
    (hen : IsIdealGas en l feat) (m : Fin M) :
    ∑ r, ∑ q, ia.chis r q * t.phisFeat r m * t.phisFeat q m =
      ∑ i, ∑ j, liftChis ia.chis feat i j * t.phisComp i m * t.phisComp j m := by
  have e : ∀ r, ∑ q, ia.chis r q * t.phisFeat r m * t.phisFeat q m =
      (∑ j, ia.chis r (feat j) * t.phisComp j m) * t.phisFeat r m := by
    intro r
    rw [← h.sum_mul_phisFeat hen (fun q => ia.chis r q) m, Finset.sum_mul]
    exact Finset.sum_congr rfl fun q _ => by ring
  simp only [e]
  rw [h.sum_mul_phisFeat hen (fun r => ∑ j, ia.chis r (feat j) * t.phisComp j m) m]
  refine Finset.sum_congr rfl fun i _ => ?_
  rw [Finset.sum_mul]
  exact Finset.sum_congr rfl fun j _ => by unfold liftChis; ring

end IterFacts

/-- **C60**. In every pass the documented extended free energy, evaluated at the relative volumes,
fractions, fields and multipliers of the pass, differs from the mean Flory-Huggins free energy of the
compartments only by a constant that depends on the mean fractions and sizes, and by the
incompressibility term.  The relative volumes add up to one and reproduce the mean fractions. -/
theorem C60_extended_energy (hthr : 0 ≤ p.killThreshold) (hen : IsIdealGas en l feat)
    (hl : ∀ i, l i ≠ 0)
    (h : iterate (ia.toI M) en (es.toI M) rng p tries count s = .ok t) :
    ∑ m, relVolume t m = 1 ∧ (∀ i, ∑ m, relVolume t m * t.phisComp i m = es.phiMeans i) ∧
    ∑ m, relVolume t m * freeEnergy (liftChis ia.chis feat) l (fun i => t.phisComp i m) =
      extendedEnergy ia.chis feat l es.phiMeans (relVolume t) t.phisFeat t.omegasOld t.xi
        + ∑ i, es.phiMeans i * Real.log (es.phiMeans i) / l i
        - ∑ m, relVolume t m * (t.xi m * ((∑ i, t.phisComp i m) - 1)) := by
  have hf := iterate_facts h
  have hmean := hf.relVolume_mean hthr hen
  refine ⟨hf.relVolume_sum hthr, hmean, ?_⟩
  have e1 : ∀ m, relVolume t m * freeEnergy (liftChis ia.chis feat) l (fun i => t.phisComp i m) =
      relVolume t m * (1 / 2 * (∑ r, ∑ q, ia.chis r q * t.phisFeat r m * t.phisFeat q m)
        - (∑ r, t.omegasOld r m * t.phisFeat r m) + t.xi m * ((∑ r, t.phisFeat r m) - 1))
      + (∑ i, relVolume t m * t.phisComp i m *
          ((Real.log (es.phiMeans i) - Real.log (t.Qs i)) / l i))
      - relVolume t m * (t.xi m * ((∑ i, t.phisComp i m) - 1)) := by
    intro m
    unfold freeEnergy
    rw [mul_add, Finset.mul_sum, Finset.sum_congr rfl fun i _ => hf.log_term hthr hen hl i m,
      Finset.sum_sub_distrib, hf.interaction_feat hen, hf.sum_phisFeat hen,
      hf.sum_mul_phisFeat hen (fun r => t.omegasOld r m), ← Finset.mul_sum]
    ring
  have e2 : ∑ m, ∑ i, relVolume t m * t.phisComp i m *
      ((Real.log (es.phiMeans i) - Real.log (t.Qs i)) / l i) =
      (∑ i, es.phiMeans i * Real.log (es.phiMeans i) / l i)
        - ∑ i, es.phiMeans i / l i * Real.log (t.Qs i) := by
    rw [Finset.sum_comm, ← Finset.sum_sub_distrib]
    refine Finset.sum_congr rfl fun i _ => ?_
    rw [← Finset.sum_mul, hmean]
    ring
  rw [Finset.sum_congr rfl fun m _ => e1 m, Finset.sum_sub_distrib, Finset.sum_add_distrib, e2]
  unfold extendedEnergy
  simp only [hf.partitionFn_eq hen]
  ring

/-- **C60**, at incompressible states: equality up to the constant. -/
theorem C60_incompressible (hthr : 0 ≤ p.killThreshold) (hen : IsIdealGas en l feat)
    (hl : ∀ i, l i ≠ 0)
    (h : iterate (ia.toI M) en (es.toI M) rng p tries count s = .ok t)
    (h0 : t.maxAbsIncomp = 0) :
    ∑ m, relVolume t m * freeEnergy (liftChis ia.chis feat) l (fun i => t.phisComp i m) =
      extendedEnergy ia.chis feat l es.phiMeans (relVolume t) t.phisFeat t.omegasOld t.xi
        + ∑ i, es.phiMeans i * Real.log (es.phiMeans i) / l i := by
  have hf := iterate_facts h
  rw [(C60_extended_energy hthr hen hl h).2.2, sub_eq_self]
  refine Finset.sum_eq_zero fun m _ => ?_
  have h1 : t.incomp m = 0 := abs_nonpos_iff.mp (by have := hf.incomp_le m; rwa [h0] at this)
  have h2 := hf.incomp_eq es.scales m
  rw [h1] at h2
  rw [← hf.relVolume_mask]
  linear_combination (-(relVolume t m * t.xi m)) * h2

end Pass

section Gradient

variable {ia : FHCompiled S ℝ} {en : EntropyI C S M ℝ} {es : CanonicalC C ℝ}
  {rng : Rng G ℝ} {p : Params ℝ} {tries : ℤ} {count : ℕ} {s : State C S M ℝ G}
  {t : Trace C S M ℝ G} {l : Vec C ℝ} {feat : Fin C → Fin S}

theorem IterFacts.consPot_zero (h : IterFacts (ia.toI M) en (es.toI M) rng p tries count s t)
    (hc : ∀ c ∈ s.cons, c.Trivial) (r : Fin S) (m : Fin M) :
    consPot t.consPrep r m = 0 ∧ consVd t.consPrep m = 0 := by
  unfold consPot consVd
  rw [h.consPrep, List.map_map, List.map_map]
  constructor <;>
  · refine List.sum_eq_zero fun x hx => ?_
    obtain ⟨c, hcm, rfl⟩ := List.mem_map.mp hx
    have := hc c hcm
    cases c with
    | no c =>
      obtain ⟨h1, h2⟩ := this
      simp [Cons.prepare, NoC.prepare, Cons.potential, Cons.volumeDerivative, h1, h2]
    | loc A c => exact this.elim
    | glob A c => exact this.elim

/-- **C64**. In a pass without dead compartments and without constraints, the derivative of the
documented extended free energy along any direction is given by the errors the pass computes: the
fractions are conjugate to the field errors, the multipliers to the incompressibility, the volumes to
the local energies (plus field errors), and the fields to nothing (the fractions are self-consistent). -/
theorem C64_gradient (hthr : 0 ≤ p.killThreshold) (hen : IsIdealGas en l feat) (hl : ∀ i, l i ≠ 0)
    (hsym : ∀ r q, ia.chis r q = ia.chis q r)
    (h : iterate (ia.toI M) en (es.toI M) rng p tries count s = .ok t)
    (halive : ∀ m, p.killThreshold < s.Js m) (hcons : ∀ c ∈ s.cons, c.Trivial)
    (dJ : Vec M ℝ) (dpf dw : Mat S M ℝ) (dxi : Vec M ℝ) :
    HasDerivAt (fun x : ℝ => extendedEnergy ia.chis feat l es.phiMeans
        (fun m => relVolume t m + x * dJ m) (fun r m => t.phisFeat r m + x * dpf r m)
        (fun r m => t.omegasOld r m + x * dw r m) (fun m => t.xi m + x * dxi m))
      (∑ m, (dJ m * (t.localEnergy m + ∑ r, t.omegaDiff r m * t.phisFeat r m)
        + relVolume t m * ((∑ r, dpf r m * t.omegaDiff r m) + dxi m * t.incomp m))) 0 := by
  have hf := iterate_facts h
  have hrv := reviveBlock_all_alive (rng := rng) (p := p) (tries := tries) (Js := s.Js)
    (om := s.omegas) (g := s.g) (count := count) halive
  have hmk : ∀ m, t.masks m = 1 := fun m => by rw [hf.mask_eq, hrv, if_pos (halive m)]
  have hQ : ∀ i, partitionFn feat l (relVolume t) t.omegasOld i ≠ 0 := fun i => by
    rw [hf.partitionFn_eq hen]; exact (hf.Qs_pos hen hthr i).ne'
  have hcp := hf.consPot_zero hcons
  have hod : ∀ r m, t.omegaDiff r m = t.potential r m + t.xi m - t.omegasOld r m := by
    intro r m
    rw [hf.omegaDiff, hmk, (hcp r m).1]
    ring
  refine (extendedEnergy_deriv hQ dJ dpf dw dxi).congr_deriv ?_
  have hexp : ∀ i m, es.phiMeans i / l i * (Real.exp (-t.omegasOld (feat i) m * l i) / t.Qs i) =
      t.phisComp i m / l i := by
    intro i m
    rw [hf.phis_eq hen es.scales, hmk]
    ring
  have eQ : ∑ i, es.phiMeans i / l i * ((∑ m, (dJ m - relVolume t m * (dw (feat i) m * l i)) *
      Real.exp (-t.omegasOld (feat i) m * l i)) /
        partitionFn feat l (relVolume t) t.omegasOld i) =
      ∑ m, (dJ m * (∑ i, t.phisComp i m / l i)
        - relVolume t m * ∑ r, dw r m * t.phisFeat r m) := by
    have : ∀ m, dJ m * (∑ i, t.phisComp i m / l i) - relVolume t m * ∑ r, dw r m * t.phisFeat r m =
        ∑ i, (dJ m - relVolume t m * (dw (feat i) m * l i)) * (t.phisComp i m / l i) := by
      intro m
      rw [hf.sum_mul_phisFeat hen (fun r => dw r m), Finset.mul_sum, Finset.mul_sum,
        ← Finset.sum_sub_distrib]
      refine Finset.sum_congr rfl fun i _ => ?_
      have := hl i
      field_simp
    simp only [this]
    rw [Finset.sum_comm]
    refine Finset.sum_congr rfl fun i _ => ?_
    rw [hf.partitionFn_eq hen, Finset.sum_div, Finset.mul_sum]
    refine Finset.sum_congr rfl fun m _ => ?_
    rw [← hexp]
    ring
  rw [eQ, ← Finset.sum_sub_distrib]
  refine Finset.sum_congr rfl fun m _ => ?_
  have hpot : ∀ r, t.potential r m = ∑ q, ia.chis r q * t.phisFeat q m := fun r => by
    rw [hf.potential_feat hen, hf.sum_mul_phisFeat hen (fun q => ia.chis r q) m]
  have e1 : ∑ r, ∑ q, (ia.chis r q * dpf r m * t.phisFeat q m
      + ia.chis r q * t.phisFeat r m * dpf q m) = 2 * ∑ r, dpf r m * t.potential r m := by
    simp only [Finset.sum_add_distrib]
    rw [Finset.sum_comm (f := fun r q => ia.chis r q * t.phisFeat r m * dpf q m), two_mul]
    congr 1 <;>
    · refine Finset.sum_congr rfl fun r _ => ?_
      rw [hpot, Finset.mul_sum]
      exact Finset.sum_congr rfl fun q _ => by first | ring1 | (rw [hsym r q]; ring1)
  have e2 : ∑ r, t.omegaDiff r m * t.phisFeat r m =
      (∑ r, ∑ q, ia.chis r q * t.phisFeat r m * t.phisFeat q m)
        + t.xi m * (∑ r, t.phisFeat r m) - ∑ r, t.omegasOld r m * t.phisFeat r m := by
    rw [Finset.mul_sum, ← Finset.sum_add_distrib, ← Finset.sum_sub_distrib]
    refine Finset.sum_congr rfl fun r _ => ?_
    have : ∑ q, ia.chis r q * t.phisFeat r m * t.phisFeat q m = t.potential r m * t.phisFeat r m := by
      rw [hpot, Finset.sum_mul]
      exact Finset.sum_congr rfl fun q _ => by ring
    rw [this, hod]
    ring
  have e3 : ∑ r, dpf r m * t.omegaDiff r m = (∑ r, dpf r m * t.potential r m)
      + t.xi m * (∑ r, dpf r m) - ∑ r, t.omegasOld r m * dpf r m := by
    rw [Finset.mul_sum, ← Finset.sum_add_distrib, ← Finset.sum_sub_distrib]
    exact Finset.sum_congr rfl fun r _ => by rw [hod]; ring
  have e4 : t.localEnergy m = -(1 / 2 * ∑ r, ∑ q, ia.chis r q * t.phisFeat r m * t.phisFeat q m)
      - ∑ i, t.phisComp i m / l i - t.xi m := by
    rw [hf.localEnergy_eq hen es.scales (hmk m), hf.interaction_feat hen]
    have : ∑ r, consPot t.consPrep r m * t.phisFeat r m = 0 :=
      Finset.sum_eq_zero fun r _ => by rw [(hcp r m).1, zero_mul]
    rw [this]
    by_cases hS : S = 0
    · subst hS
      have : consVd t.consPrep m = 0 := by
        unfold consVd
        rw [hf.consPrep, List.map_map]
        refine List.sum_eq_zero fun x hx => ?_
        obtain ⟨c, hcm, rfl⟩ := List.mem_map.mp hx
        have := hcons c hcm
        cases c with
        | no c => simp [Cons.prepare, NoC.prepare, Cons.volumeDerivative, this.2]
        | loc A c => exact this.elim
        | glob A c => exact this.elim
      rw [this]; ring
    · rw [(hcp ⟨0, Nat.pos_of_ne_zero hS⟩ m).2]; ring
  have e5 : t.incomp m = (∑ r, t.phisFeat r m) - 1 := by
    rw [hf.incomp_eq es.scales, hmk, hf.sum_phisFeat hen, mul_one]
  rw [e1, e2, e3, e4, e5, Finset.sum_add_distrib]
  ring

/-- **C64**. The errors of a pass (without dead compartments and constraints) vanish exactly at the
stationary points of the documented extended free energy (under `Σ J = 1`). -/
theorem C64_stationary_iff (hthr : 0 ≤ p.killThreshold) (hen : IsIdealGas en l feat)
    (hl : ∀ i, l i ≠ 0) (hsym : ∀ r q, ia.chis r q = ia.chis q r)
    (h : iterate (ia.toI M) en (es.toI M) rng p tries count s = .ok t)
    (halive : ∀ m, p.killThreshold < s.Js m) (hvol : ∑ m, s.Js m = (M : ℝ))
    (hcons : ∀ c ∈ s.cons, c.Trivial) :
    (∀ (dJ : Vec M ℝ) (dpf dw : Mat S M ℝ) (dxi : Vec M ℝ), ∑ m, dJ m = 0 →
      HasDerivAt (fun x : ℝ => extendedEnergy ia.chis feat l es.phiMeans
        (fun m => relVolume t m + x * dJ m) (fun r m => t.phisFeat r m + x * dpf r m)
        (fun r m => t.omegasOld r m + x * dw r m) (fun m => t.xi m + x * dxi m)) 0 0) ↔
    t.maxAbsIncomp = 0 ∧ t.maxAbsOmegaDiff = 0 ∧ t.maxAbsJsDiff = 0 := by
  have hf := iterate_facts h
  have hrv := reviveBlock_all_alive (rng := rng) (p := p) (tries := tries) (Js := s.Js)
    (om := s.omegas) (g := s.g) (count := count) halive
  have hmk : ∀ m, t.masks m = 1 := fun m => by rw [hf.mask_eq, hrv, if_pos (halive m)]
  have hJ : ∀ m, 0 < relVolume t m := fun m => by
    have h1 : ∀ k, 0 < t.JsOld k := fun k => lt_of_le_of_lt hthr (hf.JsOld_gt (hmk k))
    exact div_pos (h1 m) (Finset.sum_pos (fun k _ => h1 k) Finset.univ_nonempty)
  have hJ' : t.JsOld = s.Js := funext fun m => by rw [hf.JsOld, hrv, hmk, mul_one]
  have hD := C64_gradient hthr hen hl hsym h halive hcons
  constructor
  · intro hz
    have key : ∀ (dJ : Vec M ℝ) (dpf : Mat S M ℝ) (dxi : Vec M ℝ), ∑ m, dJ m = 0 →
        ∑ m, (dJ m * (t.localEnergy m + ∑ r, t.omegaDiff r m * t.phisFeat r m)
        + relVolume t m * ((∑ r, dpf r m * t.omegaDiff r m) + dxi m * t.incomp m)) = 0 :=
      fun dJ dpf dxi hs => (hD dJ dpf (fun _ _ => 0) dxi).unique (hz dJ dpf (fun _ _ => 0) dxi hs)
    have hinc : ∀ m, t.incomp m = 0 := by
      intro m
      have := key (fun _ => 0) (fun _ _ => 0) (fun k => t.incomp k) (by simp)
      simp only [zero_mul, zero_add, Finset.sum_const_zero] at this
      have h2 := (Finset.sum_eq_zero_iff_of_nonneg fun k _ =>
        mul_nonneg (hJ k).le (mul_self_nonneg (t.incomp k))).mp this m (Finset.mem_univ _)
      exact mul_self_eq_zero.mp ((mul_eq_zero.mp h2).resolve_left (hJ m).ne')
    have hod : ∀ r m, t.omegaDiff r m = 0 := by
      intro r m
      have := key (fun _ => 0) (fun r k => t.omegaDiff r k) (fun _ => 0) (by simp)
      simp only [zero_mul, zero_add, add_zero] at this
      have h2 := (Finset.sum_eq_zero_iff_of_nonneg fun k _ =>
        mul_nonneg (hJ k).le (Finset.sum_nonneg fun r _ => mul_self_nonneg (t.omegaDiff r k))).mp this m
          (Finset.mem_univ _)
      have h3 := (mul_eq_zero.mp h2).resolve_left (hJ m).ne'
      exact mul_self_eq_zero.mp ((Finset.sum_eq_zero_iff_of_nonneg fun r _ =>
        mul_self_nonneg (t.omegaDiff r m)).mp h3 r (Finset.mem_univ _))
    have hjd : ∀ m, t.JsDiff m = 0 := by
      have hjs : ∀ m, t.JsDiff m = t.localEnergyMean - t.localEnergy m := fun m => by
        rw [hf.JsDiff, hmk, mul_one]
      set c := (∑ m, t.JsDiff m) / (M : ℝ) with hc
      have hM : (M : ℝ) ≠ 0 := by exact_mod_cast NeZero.ne M
      have hsum : ∑ m, (t.JsDiff m - c) = 0 := by
        rw [Finset.sum_sub_distrib, Finset.sum_const, Finset.card_univ, Fintype.card_fin,
          nsmul_eq_mul, hc]
        field_simp
        ring
      have h1 := key (fun m => t.JsDiff m - c) (fun _ _ => 0) (fun _ => 0) hsum
      simp only [hod, zero_mul, Finset.sum_const_zero, add_zero, mul_zero] at h1
      have h2 : ∑ m, (t.JsDiff m - c) * (t.JsDiff m - c) = 0 := by
        have e : ∀ m, (t.JsDiff m - c) * (t.JsDiff m - c) =
            (t.localEnergyMean - c) * (t.JsDiff m - c) - (t.JsDiff m - c) * t.localEnergy m := by
          intro m
          have := hjs m
          linear_combination (t.JsDiff m - c) * this
        simp only [e]
        rw [Finset.sum_sub_distrib, ← Finset.mul_sum, hsum, h1]
        ring
      have h3 : ∀ m, t.JsDiff m = c := fun m => by
        have := (Finset.sum_eq_zero_iff_of_nonneg fun k _ =>
          mul_self_nonneg (t.JsDiff k - c)).mp h2 m (Finset.mem_univ _)
        linarith [mul_self_eq_zero.mp this]
      have h4 := hf.sum_JsDiff_mul (by rw [hJ', hvol, hf.nValid]; simp [hmk])
      simp only [h3] at h4
      rw [← Finset.mul_sum, hJ', hvol] at h4
      intro m
      rw [h3]
      exact (mul_eq_zero.mp h4).resolve_right hM
    refine ⟨?_, ?_, ?_⟩
    · rw [hf.maxAbsIncomp]
      exact npMax_eq_of _ _ (fun m => by simp [hinc]) ⟨0, by simp [hinc]⟩
    · rw [hf.maxAbsOmegaDiff]
      rcases (rowsMax_spec t.omegaDiff).2.2 with e | ⟨r, m, e⟩
      · exact e
      · rw [e, hod]
    · rw [hf.maxAbsJsDiff]
      exact npMax_eq_of _ _ (fun m => by simp [hjd]) ⟨0, by simp [hjd]⟩
  · rintro ⟨h1, h2, h3⟩ dJ dpf dw dxi hs
    have hinc : ∀ m, t.incomp m = 0 := fun m =>
      abs_nonpos_iff.mp (by have := hf.incomp_le m; rwa [h1] at this)
    have hjd : ∀ m, t.JsDiff m = 0 := fun m =>
      abs_nonpos_iff.mp (by have := hf.JsDiff_le m; rwa [h3] at this)
    have hod : ∀ r m, t.omegaDiff r m = 0 := by
      intro r m
      have hS : S ≠ 0 := fun h0 => by subst h0; exact r.elim0
      have hsum := hf.sum_omegaDiff m hS
      rw [hinc] at hsum
      simp only [mul_zero, zero_mul] at hsum
      have hle : ∀ r, t.omegaDiff r m ≤ 0 := fun r => by
        have := hf.omegaDiff_le r m
        rwa [h2] at this
      exact (Finset.sum_eq_zero_iff_of_nonpos fun r _ => hle r).mp hsum r (Finset.mem_univ _)
    have hloc : ∀ m, t.localEnergy m = t.localEnergyMean := fun m => by
      have := hf.JsDiff m
      rw [hjd, hmk, mul_one] at this
      linarith
    refine (hD dJ dpf dw dxi).congr_deriv ?_
    simp only [hinc, hod, hloc, zero_mul, mul_zero, Finset.sum_const_zero, add_zero]
    rw [← Finset.sum_mul, hs, zero_mul]

end Gradient

-- C60: a pass with a dead compartment and a constraint.
example : ∃ t, iterate (Demo.fh.toI 3) (Demo.gas.toI 3) (Demo.canonical.toI 3) (rngZero ℝ) Demo.params
    0 0 (Demo.state Demo.allCons) = .ok t ∧ ∑ m, relVolume t m * freeEnergy
      (liftChis Demo.fh.chis id) Demo.gas.sizes (fun i => t.phisComp i m) =
      extendedEnergy Demo.fh.chis id Demo.gas.sizes Demo.canonical.phiMeans (relVolume t) t.phisFeat
        t.omegasOld t.xi + ∑ i, Demo.canonical.phiMeans i * Real.log (Demo.canonical.phiMeans i) /
          Demo.gas.sizes i - ∑ m, relVolume t m * (t.xi m * ((∑ i, t.phisComp i m) - 1)) := by
  obtain ⟨t, ht⟩ := Demo.iterate_canonical 0 Demo.allCons Demo.allCons_proper
  exact ⟨t, ht, (C60_extended_energy (by simp [Demo.params]) Demo.gas.isIdealGas
    (by intro i; fin_cases i <;> simp [Demo.gas]) ht).2.2⟩

-- C64 at a state with two different phases where all errors vanish.
example : ∃ t, iterate (Demo.coexFH.toI 2) ((⟨fun _ => 1⟩ : IdealC 2).toI 2) (Demo.coexEns.toI 2)
    (rngZero ℝ) Demo.params 32 0 { Demo.coexState with cons := [] } = .ok t ∧
    HasDerivAt (fun x : ℝ => extendedEnergy Demo.coexFH.chis id (fun _ => 1) Demo.coexEns.phiMeans
      (fun m => relVolume t m + x * ![1, -1] m) (fun r m => t.phisFeat r m + x * ![![1, 2], ![3, 4]] r m)
      t.omegasOld t.xi) 0 0 := by
  have hen : IsIdealGas Demo.coexEnv.en (fun _ => (1 : ℝ)) id :=
    (⟨fun _ => 1⟩ : IdealC 2).isIdealGas (M := 2)
  obtain ⟨t, h, -⟩ := iterate_ok (ia := Demo.coexFH.toI 2) (es := Demo.coexEns.toI 2)
    (p := Demo.params) (tries := 32) (count := 0) (s := { Demo.coexState with cons := [] })
    (rngZero_ok ℝ) hen Demo.coexEns.total (by simp [Demo.params]) (by simp [Demo.params])
    (by simp [Demo.params]) (by simp) (Or.inl ⟨0, by simp [Demo.params, Demo.coexState]⟩)
  obtain ⟨A, hA⟩ := Demo.coexistence.fixed (thr := Demo.params.killThreshold) (c := 7)
    (st := { Demo.coexState with cons := [] }) (by simp [Demo.params]) (by simp)
    (by intro m; fin_cases m <;> simp [Demo.params, Demo.coexState]) (fun _ _ => rfl) (by simp)
  obtain ⟨h1, -⟩ := fixed_pass hen Demo.coexEns.scales h hA
  refine ⟨t, h, ?_⟩
  have := (C64_stationary_iff (by simp [Demo.params]) hen (by simp)
    (by intro r q; fin_cases r <;> fin_cases q <;> simp [Demo.coexFH, FHCompiled.new]) h hA.alive
    Demo.coexistence.volumes (by simp)).mpr ⟨h1.incomp, h1.omegaDiff, h1.jsDiff⟩
    ![1, -1] ![![1, 2], ![3, 4]] (fun _ _ => 0) (fun _ => 0) (by simp [Fin.sum_univ_two])
  simpa only [mul_zero, add_zero] using this

end Flory
