import Verif.Spec.Scheme
import Verif.Props.Extended

/-! # One pass performs the documented iteration scheme (C65) -/

set_option linter.unusedSectionVars false

namespace Flory

open Spec

variable {G : Type} {C S M : ℕ} [NeZero M]
variable {ia : FHCompiled S ℝ} {en : EntropyI C S M ℝ} {es : CanonicalC C ℝ}
  {rng : Rng G ℝ} {p : Params ℝ} {tries : ℤ} {count : ℕ} {s : State C S M ℝ G}
  {t : Trace C S M ℝ G} {l : Vec C ℝ} {feat : Fin C → Fin S}

/-- Relative volumes of the living compartments of a state. -/
noncomputable def livingVolume (thr : ℝ) (J : Vec M ℝ) (m : Fin M) : ℝ :=
  (if thr < J m then J m else 0) / ∑ k, if thr < J k then J k else 0

/-- C65: a pass without constraints and revivals.  With `φ` the documented fractions of the current
fields and volumes, there is a step size `θ ∈ (0, 1]`, equal to one unless some volume would change by
more than the bound, such that in every living compartment the fields move by the fraction `θ p` towards
the documented output, and the volumes by `θ β` times the difference between the documented `η_m` and its
average over the living compartments (after restoring the average volume one). -/
theorem C65_documented_scheme (hb : 0 < p.JsStepUpperBound) (hen : IsIdealGas en l feat)
    (h : iterate (ia.toI M) en (es.toI M) rng p tries count s = .ok t)
    (hrev : (∀ m, p.killThreshold < s.Js m) ∨ tries ≤ count) (hcons : ∀ c ∈ s.cons, c.Trivial) :
    let alive : Finset (Fin M) := Finset.univ.filter fun m => p.killThreshold < s.Js m
    let J := livingVolume p.killThreshold s.Js
    let phi := schemePhi feat l es.phiMeans J s.omegas
    let eta := schemeEta ia.chis ia.coef feat l s.omegas phi
    let etaMean := ∑ m, eta m * (if m ∈ alive then s.Js m else 0) / alive.card
    ∃ θ : ℝ, 0 < θ ∧ θ ≤ 1 ∧
      ((∀ m ∈ alive, |eta m - etaMean| * p.acceptanceJs ≤ p.JsStepUpperBound) → θ = 1) ∧
      ∀ m ∈ alive,
        (∀ i, t.phisComp i m = phi i m) ∧
        (∀ r, t.omegas r m = s.omegas r m + θ * p.acceptanceOmega *
          (schemeField ia.chis ia.coef feat s.omegas phi r m - s.omegas r m)) ∧
        t.Js m = s.Js m + (1 - (∑ k ∈ alive, s.Js k) / alive.card) + θ * p.acceptanceJs *
          (eta m - (∑ k ∈ alive, eta k) / alive.card) := by
  have hf := iterate_facts h
  have hrv : reviveBlock rng p tries s.Js s.omegas s.g count = ⟨s.Js, s.omegas, s.g, count⟩ := by
    rcases hrev with hrev | hrev
    · exact reviveBlock_all_alive hrev
    · exact reviveBlock_exhausted hrev
  have hmk : ∀ m, t.masks m = if p.killThreshold < s.Js m then 1 else 0 := fun m => by
    rw [hf.mask_eq, hrv]
  have hom : t.omegasOld = s.omegas := by rw [hf.omegasOld, hrv]
  have hJo : ∀ m, t.JsOld m = if p.killThreshold < s.Js m then s.Js m else 0 := fun m => by
    rw [hf.JsOld, hrv, hmk]; split <;> simp
  have hrel : relVolume t = livingVolume p.killThreshold s.Js := by
    funext m
    unfold relVolume livingVolume
    simp only [hJo]
  intro alive J phi eta etaMean
  have hcard : t.nValid = (alive.card : ℝ) := by
    rw [hf.nValid, Finset.card_filter]
    push_cast
    exact Finset.sum_congr rfl fun m _ => hmk m
  have hm1 : ∀ m ∈ alive, t.masks m = 1 := fun m hm => by
    rw [hmk, if_pos (Finset.mem_filter.mp hm).2]
  have hm0 : ∀ m, m ∉ alive → t.masks m = 0 := fun m hm => by
    rw [hmk, if_neg fun hc => hm (Finset.mem_filter.mpr ⟨Finset.mem_univ m, hc⟩)]
  have hphi : ∀ m ∈ alive, ∀ i, t.phisComp i m = phi i m := fun m hm i => by
    rw [hf.phis_eq hen es.scales, hm1 m hm, mul_one, ← hf.partitionFn_eq hen, hrel, hom]
    rfl
  have hpot : ∀ m ∈ alive, ∀ r, t.potential r m = ∑ j, ia.chis r (feat j) * phi j m :=
    fun m hm r => by
      rw [hf.potential_feat hen]
      exact Finset.sum_congr rfl fun j _ => by rw [hphi m hm]
  have hinc : ∀ m ∈ alive, t.incomp m = (∑ i, phi i m) - 1 := fun m hm => by
    rw [hf.incomp_eq es.scales, hm1 m hm, mul_one]
    exact congrArg (· - 1) (Finset.sum_congr rfl fun j _ => hphi m hm j)
  have hxi : ∀ m ∈ alive, t.xi m = schemeXi ia.chis ia.coef feat s.omegas phi m := fun m hm => by
    rw [hf.xi, hm1 m hm, hinc m hm, hom]
    have : ∑ r, consPot t.consPrep r m = 0 :=
      Finset.sum_eq_zero fun r _ => (hf.consPot_zero hcons r m).1
    rw [this]
    have e : ∑ r, (s.omegas r m - t.potential r m) =
        ∑ r, (s.omegas r m - ∑ j, ia.chis r (feat j) * phi j m) :=
      Finset.sum_congr rfl fun r _ => by rw [hpot m hm]
    rw [e]
    show (ia.coef * _ + _ - 0) * 1 / (S : ℝ) = _
    unfold schemeXi
    ring
  have hfield : ∀ m ∈ alive, ∀ r, t.omegaDiff r m =
      schemeField ia.chis ia.coef feat s.omegas phi r m - s.omegas r m := fun m hm r => by
    rw [hf.omegaDiff, hm1 m hm, hpot m hm, hxi m hm, (hf.consPot_zero hcons r m).1, hom]
    unfold schemeField
    ring
  have heta : ∀ m ∈ alive, t.localEnergy m = -eta m := fun m hm => by
    have h2 : consVd t.consPrep m = 0 := by
      unfold consVd
      rw [hf.consPrep, List.map_map]
      refine List.sum_eq_zero fun x hx => ?_
      obtain ⟨c, hcm, rfl⟩ := List.mem_map.mp hx
      have := hcons c hcm
      cases c with
      | no c => simp [Cons.prepare, NoC.prepare, Cons.volumeDerivative, this.2]
      | loc A c => exact this.elim
      | glob A c => exact this.elim
    have h3 : ∑ r, consPot t.consPrep r m * t.phisFeat r m = 0 :=
      Finset.sum_eq_zero fun r _ => by rw [(hf.consPot_zero hcons r m).1, zero_mul]
    rw [hf.localEnergy_eq hen es.scales (hm1 m hm), h2, h3, hxi m hm]
    show _ = -schemeEta ia.chis ia.coef feat l s.omegas phi m
    unfold schemeEta schemeField liftChis
    simp only [hphi m hm, add_mul, Finset.sum_add_distrib, ← Finset.mul_sum, Finset.sum_mul]
    have e : ∑ i, ∑ j, ia.chis (feat i) (feat j) * phi j m * phi i m =
        ∑ i, ∑ j, ia.chis (feat i) (feat j) * phi i m * phi j m :=
      Finset.sum_congr rfl fun i _ => Finset.sum_congr rfl fun j _ => by ring
    rw [e]
    ring
  have hJalive : ∀ m, m ∈ alive → t.JsOld m = s.Js m := fun m hm => by
    rw [hJo, if_pos (Finset.mem_filter.mp hm).2]
  have hmean : t.localEnergyMean = -etaMean := by
    rw [hf.localEnergyMean, hcard]
    show _ = -∑ m, _
    rw [Finset.sum_div, ← Finset.sum_neg_distrib]
    refine Finset.sum_congr rfl fun m _ => ?_
    by_cases hm : m ∈ alive
    · rw [heta m hm, hJalive m hm, if_pos hm]; ring
    · rw [hf.JsOld_dead (hm0 m hm), if_neg hm]; ring
  have hdiff : ∀ m ∈ alive, t.JsDiff m = eta m - etaMean := fun m hm => by
    rw [hf.JsDiff, hmean, heta m hm, hm1 m hm]; ring
  have hdead : ∀ m, m ∉ alive → t.JsDiff m = 0 := fun m hm => by
    rw [hf.JsDiff, hm0 m hm, mul_zero]
  have hsplit : ∀ f : Fin M → ℝ, (∀ m, m ∉ alive → f m = 0) → ∑ m, f m = ∑ m ∈ alive, f m :=
    fun f h0 => (Finset.sum_subset (Finset.subset_univ alive) fun m _ hm => h0 m hm).symm
  obtain ⟨hθ0, hθ1⟩ := hf.factor_le_one hb
  refine ⟨t.factor, hθ0, hθ1, fun hall => ?_, fun m hm => ⟨hphi m hm, fun r => ?_, ?_⟩⟩
  · obtain ⟨m, hmm⟩ := npMax_mem fun m => |t.JsDiff m|
    have hle : t.maxAbsJsDiff * p.acceptanceJs ≤ p.JsStepUpperBound := by
      rw [hf.maxAbsJsDiff, hmm]
      by_cases hm : m ∈ alive
      · rw [hdiff m hm]; exact hall m hm
      · rw [hdead m hm]; simpa using hb.le
    rw [hf.factor, max_eq_right hle]
    exact div_self hb.ne'
  · rw [hf.omegas, hm1 m hm, mul_one, hfield m hm, hom]
  · have hne : (alive.card : ℝ) ≠ 0 := by rw [← hcard]; exact hf.nValid_ne
    have s1 : ∑ k, t.JsOld k = ∑ k ∈ alive, s.Js k := by
      rw [hsplit _ fun m hm => hf.JsOld_dead (hm0 m hm)]
      exact Finset.sum_congr rfl fun k hk => hJalive k hk
    have s2 : ∑ k, t.factor * p.acceptanceJs * t.JsDiff k =
        t.factor * p.acceptanceJs * ((∑ k ∈ alive, eta k) - alive.card * etaMean) := by
      rw [← Finset.mul_sum, hsplit _ hdead, Finset.sum_congr rfl fun k hk => hdiff k hk,
        Finset.sum_sub_distrib, Finset.sum_const, nsmul_eq_mul]
    rw [hf.Js_eq, hm1 m hm, mul_one, s1, s2, hJalive m hm, hdiff m hm, hcard]
    field_simp
    ring

-- C65: a pass of the demo with two living compartments and a dead one.
example : ∃ t, iterate (Demo.fh.toI 3) (Demo.gas.toI 3) (Demo.canonical.toI 3) (rngZero ℝ) Demo.params
    0 0 (Demo.state []) = .ok t ∧
    ∃ θ : ℝ, 0 < θ ∧ θ ≤ 1 ∧ ∀ r, t.omegas r 1 = (Demo.state []).omegas r 1 + θ * (2 / 1000) *
      (schemeField Demo.chis Demo.fh.coef id (Demo.state []).omegas (schemePhi id Demo.gas.sizes
        Demo.canonical.phiMeans (livingVolume 0 (Demo.state []).Js) (Demo.state []).omegas) r 1
        - (Demo.state []).omegas r 1) := by
  obtain ⟨t, ht⟩ := Demo.iterate_canonical 0 [] (by simp)
  obtain ⟨θ, h0, h1, -, h2⟩ := C65_documented_scheme (by simp [Demo.params])
    Demo.gas.isIdealGas ht (Or.inr (by simp)) (by simp [Demo.state])
  exact ⟨t, ht, θ, h0, h1, (h2 1 (by simp [Demo.params, Demo.state])).2.1⟩

end Flory
