import Verif.Lemmas.Lyapunov
import Verif.Spec.Merge
import Verif.Lemmas.Peace
import Mathlib.Analysis.Calculus.MeanValue
import Mathlib.Analysis.SpecialFunctions.ExpDeriv

/-! # How the difference between two compartments changes in a pass -/

set_option linter.unusedSectionVars false

namespace Flory

open Spec

variable {G : Type} {C S M : ℕ}

theorem sum_loads (l : Vec C ℝ) (feat : Fin C → Fin S) (phi : Vec C ℝ) (f : Fin S → ℝ) :
    ∑ r, f r * loads l feat phi r = ∑ i, f (feat i) * (l i * phi i) := by
  simp only [loads, Finset.mul_sum]
  rw [Finset.sum_comm]
  simp

/-- The linear operator that a pass applies to the difference `u` of the fields of two compartments. -/
noncomputable def response (chis : Mat S S ℝ) (kap : ℝ) (d u : Vec S ℝ) (r : Fin S) : ℝ :=
  (u r + ∑ s, chis r s * (d s * u s)) - (∑ q, (u q + ∑ s, chis q s * (d s * u s))) / S
    + kap / S * ∑ s, d s * u s

theorem response_smul (chis : Mat S S ℝ) (kap : ℝ) (d : Vec S ℝ) (c : ℝ) (u : Vec S ℝ) :
    response chis kap d (c • u) = c • response chis kap d u := by
  funext r
  have h1 : ∀ q, (c • u) q + ∑ s, chis q s * (d s * (c • u) s) = c * (u q + ∑ s, chis q s * (d s * u s)) := by
    intro q
    rw [mul_add, Finset.mul_sum]
    simp only [Pi.smul_apply, smul_eq_mul]
    congr 1
    exact Finset.sum_congr rfl fun s _ => by ring
  have h2 : ∑ s, d s * (c • u) s = c * ∑ s, d s * u s := by
    rw [Finset.mul_sum]
    exact Finset.sum_congr rfl fun s _ => by simp only [Pi.smul_apply, smul_eq_mul]; ring
  show response chis kap d (c • u) r = c * response chis kap d u r
  unfold response
  simp only [h1, h2, ← Finset.mul_sum]
  ring

theorem continuous_response (chis : Mat S S ℝ) (kap : ℝ) :
    Continuous fun p : Vec S ℝ × Vec S ℝ => response chis kap p.1 p.2 := by
  refine continuous_pi fun r => ?_
  unfold response
  fun_prop

theorem exp_slope (x y : ℝ) : ∃ c, min x y ≤ c ∧ c ≤ max x y ∧
    Real.exp x - Real.exp y = Real.exp c * (x - y) := by
  have key : ∀ x y : ℝ, x < y → ∃ c, x ≤ c ∧ c ≤ y ∧ Real.exp x - Real.exp y = Real.exp c * (x - y) := by
    intro x y h
    obtain ⟨c, hc, he⟩ := exists_hasDerivAt_eq_slope Real.exp Real.exp h Real.continuous_exp.continuousOn
      fun z _ => Real.hasDerivAt_exp z
    refine ⟨c, hc.1.le, hc.2.le, ?_⟩
    rw [he]
    have : y - x ≠ 0 := (sub_pos.mpr h).ne'
    field_simp
    ring
  rcases lt_trichotomy x y with h | h | h
  · obtain ⟨c, h1, h2, h3⟩ := key x y h
    exact ⟨c, (min_le_left _ _).trans h1, h2.trans (le_max_right _ _), h3⟩
  · subst h; exact ⟨x, by simp, by simp, by simp⟩
  · obtain ⟨c, h1, h2, h3⟩ := key y x h
    exact ⟨c, (min_le_right _ _).trans h1, h2.trans (le_max_left _ _), by linarith⟩

variable [NeZero M] {ia : FHCompiled S ℝ} {en : EntropyI C S M ℝ} {es : EnsembleI C M ℝ} {rng : Rng G ℝ}
  {p : Params ℝ} {tries : ℤ} {count : ℕ} {s : State C S M ℝ G} {t : Trace C S M ℝ G}
  {l : Vec C ℝ} {feat : Fin C → Fin S} {a : Vec C ℝ → Vec C ℝ}

theorem IterFacts.cons_trivial {ia : InteractionI S M ℝ} (h : IterFacts ia en es rng p tries count s t)
    (hc : ∀ c ∈ s.cons, c.Trivial) :
    (∀ r m, consPot t.consPrep r m = 0) ∧ (∀ m, consVd t.consPrep m = 0) := by
  unfold consPot consVd
  rw [h.consPrep]
  simp only [List.map_map]
  constructor <;> intros <;>
  · refine List.sum_eq_zero fun x hx => ?_
    obtain ⟨c, hcm, rfl⟩ := List.mem_map.mp hx
    have := hc c hcm
    cases c with
    | no c =>
      obtain ⟨h1, h2⟩ := this
      simp [Cons.prepare, NoC.prepare, Cons.potential, Cons.volumeDerivative, h1, h2]
    | loc A c => exact this.elim
    | glob A c => exact this.elim

/-- Fractions of two living compartments differ by the load of an intermediate composition. -/
theorem IterFacts.phis_slope (h : IterFacts (ia.toI M) en es rng p tries count s t)
    (hen : IsIdealGas en l feat) (hes : Scales es a) (ha : ∀ i, 0 ≤ a t.Qs i)
    {m n : Fin M} (hm : t.masks m = 1) (hn : t.masks n = 1) :
    ∃ psi : Vec C ℝ, (∀ i, min (t.phisComp i m) (t.phisComp i n) ≤ psi i ∧
        psi i ≤ max (t.phisComp i m) (t.phisComp i n)) ∧
      ∀ i, t.phisComp i m - t.phisComp i n =
        -(l i * psi i * (t.omegasOld (feat i) m - t.omegasOld (feat i) n)) := by
  have key : ∀ i, ∃ c, min (-t.omegasOld (feat i) m * l i) (-t.omegasOld (feat i) n * l i) ≤ c ∧
      c ≤ max (-t.omegasOld (feat i) m * l i) (-t.omegasOld (feat i) n * l i) ∧
      Real.exp (-t.omegasOld (feat i) m * l i) - Real.exp (-t.omegasOld (feat i) n * l i) =
        Real.exp c * (-t.omegasOld (feat i) m * l i - -t.omegasOld (feat i) n * l i) := fun i =>
    exp_slope _ _
  choose c h1 h2 h3 using key
  refine ⟨fun i => a t.Qs i * Real.exp (c i), fun i => ?_, fun i => ?_⟩
  · rw [h.phis_eq hen hes, h.phis_eq hen hes, hm, hn, mul_one, mul_one,
      ← mul_min_of_nonneg _ _ (ha i), ← mul_max_of_nonneg _ _ (ha i),
      ← Real.exp_monotone.map_min, ← Real.exp_monotone.map_max]
    exact ⟨mul_le_mul_of_nonneg_left (Real.exp_le_exp.mpr (h1 i)) (ha i),
      mul_le_mul_of_nonneg_left (Real.exp_le_exp.mpr (h2 i)) (ha i)⟩
  · rw [h.phis_eq hen hes, h.phis_eq hen hes, hm, hn, mul_one, mul_one, ← mul_sub, h3]
    ring

theorem IterFacts.xi_trivial (h : IterFacts (ia.toI M) en es rng p tries count s t) (hes : Scales es a)
    (hc : ∀ c ∈ s.cons, c.Trivial) {m : Fin M} (hm : t.masks m = 1) :
    t.xi m = (ia.coef * (∑ i, t.phisComp i m - 1) + ∑ r, (t.omegasOld r m - t.potential r m)) / S := by
  rw [h.xi, h.incomp_eq hes, hm]
  simp only [(h.cons_trivial hc).1, Finset.sum_const_zero, sub_zero, mul_one]
  rfl

/-- The difference between the fields of two living compartments after a pass, without constraints. -/
theorem IterFacts.difference (h : IterFacts (ia.toI M) en es rng p tries count s t)
    (hen : IsIdealGas en l feat) (hes : Scales es a) (ha : ∀ i, 0 ≤ a t.Qs i)
    (hc : ∀ c ∈ s.cons, c.Trivial) {m n : Fin M} (hm : t.masks m = 1) (hn : t.masks n = 1) :
    ∃ psi : Vec C ℝ, (∀ i, min (t.phisComp i m) (t.phisComp i n) ≤ psi i ∧
        psi i ≤ max (t.phisComp i m) (t.phisComp i n)) ∧
      ∀ r, t.omegas r m - t.omegas r n = (t.omegasOld r m - t.omegasOld r n) -
        t.factor * p.acceptanceOmega * response ia.chis ia.coef (loads l feat psi)
          (fun q => t.omegasOld q m - t.omegasOld q n) r := by
  obtain ⟨psi, h1, h2⟩ := h.phis_slope hen hes ha hm hn
  refine ⟨psi, h1, fun r => ?_⟩
  set u : Vec S ℝ := fun q => t.omegasOld q m - t.omegasOld q n with hu
  have hpot : ∀ q, t.potential q m - t.potential q n = -∑ s, ia.chis q s * (loads l feat psi s * u s) := by
    intro q
    have e1 : ∑ s, ia.chis q s * (loads l feat psi s * u s) =
        ∑ i, ia.chis q (feat i) * u (feat i) * (l i * psi i) := by
      rw [← sum_loads l feat psi fun s => ia.chis q s * u s]
      exact Finset.sum_congr rfl fun s _ => by ring
    rw [h.potential_feat hen, h.potential_feat hen, ← Finset.sum_sub_distrib, e1, ← Finset.sum_neg_distrib]
    refine Finset.sum_congr rfl fun j _ => ?_
    rw [← mul_sub, h2 j]
    simp only [hu]
    ring
  have hsum : ∑ i, t.phisComp i m - ∑ i, t.phisComp i n = -∑ s, loads l feat psi s * u s := by
    have e1 : ∑ s, loads l feat psi s * u s = ∑ i, u (feat i) * (l i * psi i) := by
      rw [← sum_loads l feat psi u]
      exact Finset.sum_congr rfl fun s _ => by ring
    rw [← Finset.sum_sub_distrib, e1, ← Finset.sum_neg_distrib]
    refine Finset.sum_congr rfl fun j _ => ?_
    rw [h2 j]
    simp only [hu]
    ring
  have hxi : t.xi m - t.xi n = (∑ q, (u q + ∑ s, ia.chis q s * (loads l feat psi s * u s))) / S -
      ia.coef / S * ∑ s, loads l feat psi s * u s := by
    have e2 : ∑ q, (u q + ∑ s, ia.chis q s * (loads l feat psi s * u s)) =
        ∑ q, (t.omegasOld q m - t.potential q m) - ∑ q, (t.omegasOld q n - t.potential q n) := by
      rw [← Finset.sum_sub_distrib]
      refine Finset.sum_congr rfl fun q _ => ?_
      have := hpot q
      simp only [hu] at this ⊢
      linarith
    rw [h.xi_trivial hes hc hm, h.xi_trivial hes hc hn, e2, ← sub_div, mul_comm_div, ← mul_div_assoc,
      ← sub_div]
    congr 1
    linear_combination ia.coef * hsum
  rw [h.omegas, h.omegas, h.omegaDiff, h.omegaDiff, hm, hn, (h.cons_trivial hc).1, (h.cons_trivial hc).1]
  unfold response
  have hp := hpot r
  simp only [hu] at hp hxi ⊢
  linear_combination t.factor * p.acceptanceOmega * hp + t.factor * p.acceptanceOmega * hxi

end Flory
