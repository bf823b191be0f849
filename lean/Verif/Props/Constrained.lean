import Verif.Lemmas.Constrained

/-! # Equilibria under linear constraints, and the same phases from both ensembles -/

set_option linter.unusedSectionVars false

namespace Flory

open Spec

section Constrained

variable {G : Type} {C S M : ℕ} [NeZero M]
variable {e : RunEnv C S M ℝ G} {ia : FHCompiled S ℝ} {sc : Vec C ℝ → Fin C → ℝ}
  {l mus mu : Vec C ℝ} {feat : Fin C → Fin S} {c : ℝ} {phi : Mat C M ℝ}

theorem Spec.Constrained.boltz {chis : Mat S S ℝ} {J : Vec M ℝ} {ks : List (Cons S M ℝ)}
    {om : Mat S M ℝ} (hl : ∀ i, l i ≠ 0) (hco : Constrained chis feat l ks mu J phi)
    (hom : ∀ r m, om r m = equilibriumField chis feat l (fun j => phi j m) r + totalForce ks r m + c)
    (i : Fin C) (m : Fin M) :
    phi i m = Real.exp ((mu i + c) * l i - 1) * Real.exp (-om (feat i) m * l i) := by
  rw [← Real.exp_add, hom, ← hco.balance i m]
  unfold chemPot equilibriumField
  rw [eq_comm, ← Real.exp_log (hco.pos i m)]
  congr 1
  have := hl i
  beta_reduce
  field_simp
  ring

/-- **C93**, canonical ensemble. A state with the volumes, fields and multipliers of phases in
equilibrium under linear constraints is a fixed point: a run returns exactly these phases with zero
errors and satisfied constraints, at the first check. -/
theorem C93_stationary_canonical {es : CanonicalC C ℝ} (hthr : 0 ≤ e.params.killThreshold)
    (hia : e.ia = ia.toI M) (hen : IsIdealGas e.en l feat) (hes : e.es = es.toI M) (hl : ∀ i, l i ≠ 0)
    {maxSteps : ℚ} {tol : ℝ} {interval b : ℤ}
    {st : State C S M ℝ G} {f : RunState C S M ℝ G} {ph : Phases M C ℝ} {d : Diagnostics ℝ}
    (halive : ∀ m, e.params.killThreshold < st.Js m)
    (hco : Constrained ia.chis feat l st.cons mu st.Js phi)
    (hmean : ∀ i, ∑ m, st.Js m * phi i m = M * es.phiMeans i)
    (hom : ∀ r m, st.omegas r m = equilibriumField ia.chis feat l (fun j => phi j m) r
      + totalForce st.cons r m + c)
    (h : runImpl e maxSteps tol interval st b = (f, .ok (ph, d))) :
    ph.volumes = st.Js ∧ (∀ m i, ph.fractions m i = phi i m) ∧ f.st.Js = st.Js ∧
      f.st.omegas = st.omegas ∧ d.maxAbsIncomp = 0 ∧ d.maxAbsOmegaDiff = 0 ∧ d.maxAbsJsDiff = 0 ∧
      d.maxConstraintResidue = 0 ∧ d.reviveCountLeft = b ∧
      (0 < tol → 0 < maxSteps → 0 < interval → (d.steps : ℤ) ≤ interval) := by
  have hb := hco.boltz hl hom
  exact run_held (f := fun Qs i => es.phiMeans i / Qs i) hthr hia hen (hes ▸ es.scales)
    ⟨halive, hco.volumes, hb, hco.incompressible,
      scale_of_mean (fun m => hthr.trans_lt (halive m)) hb hmean, hom, hco.holds⟩ h

/-- A state with the volumes, fields and multipliers of phases in equilibrium with a reservoir under
constraints is a fixed point. -/
theorem Spec.Constrained.held {chis : Mat S S ℝ} {thr : ℝ} {st : State C S M ℝ G} (hl : ∀ i, 0 < l i)
    (halive : ∀ m, thr < st.Js m)
    (hco : Constrained chis feat l st.cons (fun i => mus i + (1 + Real.log (l i)) / l i + c) st.Js phi)
    (hom : ∀ r m, st.omegas r m = equilibriumField chis feat l (fun j => phi j m) r
      + totalForce st.cons r m - c) :
    Held chis feat l (fun _ i => (GrandC.fromChemicalPotential mus l).scaledActivity i) thr
      (fun i => Real.exp ((mus i + (1 + Real.log (l i)) / l i + c + -c) * l i - 1)) (-c) phi st := by
  have hb := hco.boltz (om := st.omegas) (c := -c) (fun i => (hl i).ne') fun r m => by
    rw [hom, sub_eq_add_neg]
  refine ⟨halive, hco.volumes, hb, hco.incompressible, fun i => ?_,
    fun r m => by rw [hom, sub_eq_add_neg], hco.holds⟩
  have hi := hl i
  show l i * Real.exp (l i * mus i) = _
  have e1 : l i * Real.exp (l i * mus i) = Real.exp (Real.log (l i) + l i * mus i) := by
    rw [Real.exp_add, Real.exp_log hi]
  rw [e1]
  congr 1
  field_simp
  ring

/-- **C93**, grand canonical ensemble. The same in contact with a reservoir with chemical potentials
`mus`. -/
theorem C93_stationary_grand (hthr : 0 ≤ e.params.killThreshold)
    (hia : e.ia = ia.toI M) (hen : IsIdealGas e.en l feat)
    (hes : e.es = (GrandC.fromChemicalPotential mus l).toI M) (hl : ∀ i, 0 < l i)
    {maxSteps : ℚ} {tol : ℝ} {interval b : ℤ}
    {st : State C S M ℝ G} {f : RunState C S M ℝ G} {ph : Phases M C ℝ} {d : Diagnostics ℝ}
    (halive : ∀ m, e.params.killThreshold < st.Js m)
    (hco : Constrained ia.chis feat l st.cons
      (fun i => mus i + (1 + Real.log (l i)) / l i + c) st.Js phi)
    (hom : ∀ r m, st.omegas r m = equilibriumField ia.chis feat l (fun j => phi j m) r
      + totalForce st.cons r m - c)
    (h : runImpl e maxSteps tol interval st b = (f, .ok (ph, d))) :
    ph.volumes = st.Js ∧ (∀ m i, ph.fractions m i = phi i m) ∧ f.st.Js = st.Js ∧
      f.st.omegas = st.omegas ∧ d.maxAbsIncomp = 0 ∧ d.maxAbsOmegaDiff = 0 ∧ d.maxAbsJsDiff = 0 ∧
      d.maxConstraintResidue = 0 ∧ d.reviveCountLeft = b ∧
      (0 < tol → 0 < maxSteps → 0 < interval → (d.steps : ℤ) ≤ interval) :=
  run_held hthr hia hen (hes ▸ GrandC.scales _) (hco.held hl halive hom) h

/-- A pass without dead compartments that reports no errors: balance, constraints and fields. -/
theorem zero_errors_held {rng : Rng G ℝ} {en : EntropyI C S M ℝ} {es : EnsembleI C M ℝ} {p : Params ℝ}
    {tries : ℤ} {count : ℕ} {s : State C S M ℝ G} {t : Trace C S M ℝ G}
    (hen : IsIdealGas en l feat) (hes : Scales es sc) (hl : ∀ i, l i ≠ 0) (hsc : ∀ i, 0 < sc t.Qs i)
    (h : iterate (ia.toI M) en es rng p tries count s = .ok t)
    (halive : ∀ m, p.killThreshold < s.Js m) (hvol : ∑ m, s.Js m = (M : ℝ))
    (hcons : ∀ k ∈ s.cons, Inert k) (h1 : t.maxAbsIncomp = 0)
    (h2 : t.maxAbsOmegaDiff = 0) (h3 : t.maxAbsJsDiff = 0) (h4 : t.maxConstraintResidue = 0) :
    Constrained ia.chis feat l s.cons
      (fun i => (Real.log (sc t.Qs i) + 1) / l i + t.localEnergyMean) s.Js t.phisComp ∧
    (∀ r m, s.omegas r m = equilibriumField ia.chis feat l (fun j => t.phisComp j m) r
      + totalForce s.cons r m - t.localEnergyMean) ∧ (∀ m, t.masks m = 1) ∧ t.JsOld = s.Js := by
  have hf := iterate_facts h
  have hM : (M : ℝ) ≠ 0 := by exact_mod_cast NeZero.ne M
  have hrv := reviveBlock_all_alive (rng := rng) (p := p) (tries := tries) (Js := s.Js)
    (om := s.omegas) (g := s.g) (count := count) halive
  have hmk : ∀ m, t.masks m = 1 := fun m => by rw [hf.mask_eq, hrv, if_pos (halive m)]
  have hJ : t.JsOld = s.Js := funext fun m => by rw [hf.JsOld, hrv, hmk, mul_one]
  have hom : t.omegasOld = s.omegas := by rw [hf.omegasOld, hrv]
  have hinc : ∀ m, t.incomp m = 0 := fun m =>
    abs_nonpos_iff.mp (by have := hf.incomp_le m; rwa [h1] at this)
  have hod : ∀ r m, t.omegaDiff r m = 0 := fun r m => by
    have hS : S ≠ 0 := fun h0 => by subst h0; exact r.elim0
    have hsum := hf.sum_omegaDiff m hS
    rw [hinc] at hsum
    simp only [mul_zero, zero_mul] at hsum
    have hle : ∀ r, t.omegaDiff r m ≤ 0 := fun r => by
      have := hf.omegaDiff_le r m
      rwa [h2] at this
    exact (Finset.sum_eq_zero_iff_of_nonpos fun r _ => hle r).mp hsum r (Finset.mem_univ _)
  have hloc : ∀ m, t.localEnergy m = t.localEnergyMean := fun m => by
    have hjd : t.JsDiff m = 0 :=
      abs_nonpos_iff.mp (by have := hf.JsDiff_le m; rwa [h3] at this)
    have := hf.JsDiff m
    rw [hjd, hmk, mul_one] at this
    linarith
  have hpf : t.phisFeat = sumFeat feat t.phisComp := funext fun r => funext fun m => by
    rw [hf.phisFeat_eq hen]; rfl
  have hholds : ∀ k ∈ s.cons, HoldsFor (sumFeat feat t.phisComp) s.Js k := by
    intro k hk
    refine HoldsFor.of_prepare hmk (by rw [hvol]; exact hM) ?_
      (((evolveCons_spec hf.cons).2 0 le_rfl).mp h4.le |>.2 _ ?_)
    · rintro c rfl
      exact hcons _ hk
    · rw [hf.consPrep, hpf, hJ]
      exact List.mem_map_of_mem hk
  obtain ⟨-, -, hshift⟩ := hf.consShift_holds hmk hpf hJ hholds
  refine ⟨⟨hvol, fun i m => ?_, fun m => ?_, hholds, fun i m => ?_⟩, fun r m => ?_, hmk, hJ⟩
  · rw [hf.phis_eq hen hes, hmk, mul_one]
    exact mul_pos (hsc i) (Real.exp_pos _)
  · have := hf.incomp_eq hes m
    rw [hinc, hmk, mul_one] at this
    linarith
  · have hid : chemPot (fun i j => ia.chis (feat i) (feat j)) l (fun j => t.phisComp j m) i = _ :=
      hf.chemPot_identity hen hes (hmk m) (hl i) (hsc i)
    rw [hid, hod, hloc, hshift]
    ring
  · have hcs := hshift r m
    have hle := hf.localEnergy_eq hen hes (hmk m)
    have hw := hf.omegaDiff r m
    rw [hod, hf.potential_feat hen, hom, hmk, mul_one] at hw
    unfold consShift at hcs
    unfold liftChis at hle
    unfold equilibriumField
    rw [← hloc m, hle]
    beta_reduce
    linarith

/-- **C93**, converse, canonical ensemble. If a pass without dead compartments, started from volumes
with mean one, reports no errors and satisfied constraints, then its fractions are in equilibrium under
the constraints, with the prescribed mean composition. -/
theorem C93_zero_errors_canonical {es : CanonicalC C ℝ} {rng : Rng G ℝ} {en : EntropyI C S M ℝ}
    {p : Params ℝ} {tries : ℤ} {count : ℕ} {s : State C S M ℝ G} {t : Trace C S M ℝ G}
    (hthr : 0 ≤ p.killThreshold) (hen : IsIdealGas en l feat) (hl : ∀ i, l i ≠ 0)
    (hphi : ∀ i, 0 < es.phiMeans i)
    (h : iterate (ia.toI M) en (es.toI M) rng p tries count s = .ok t)
    (halive : ∀ m, p.killThreshold < s.Js m) (hvol : ∑ m, s.Js m = (M : ℝ))
    (hcons : ∀ k ∈ s.cons, Inert k) (h1 : t.maxAbsIncomp = 0)
    (h2 : t.maxAbsOmegaDiff = 0) (h3 : t.maxAbsJsDiff = 0) (h4 : t.maxConstraintResidue = 0) :
    (∃ mu, Constrained ia.chis feat l s.cons mu s.Js t.phisComp) ∧
    (∀ i, ∑ m, s.Js m * t.phisComp i m = M * es.phiMeans i) ∧
    ∃ c, ∀ r m, s.omegas r m = equilibriumField ia.chis feat l (fun j => t.phisComp j m) r
      + totalForce s.cons r m - c := by
  have hf := iterate_facts h
  have hes : Scales (es.toI M) fun Qs i => es.phiMeans i / Qs i := es.scales
  have hM : (M : ℝ) ≠ 0 := by exact_mod_cast NeZero.ne M
  have hQ := hf.Qs_pos hen hthr
  obtain ⟨k1, k2, hmk, hJ⟩ := zero_errors_held hen hes hl (fun i => div_pos (hphi i) (hQ i)) h halive
    hvol hcons h1 h2 h3 h4
  refine ⟨⟨_, k1⟩, fun i => ?_, _, k2⟩
  have hq := hf.Qs_eq hen i
  rw [hJ, hvol, eq_div_iff hM] at hq
  have e1 : ∀ m, s.Js m * t.phisComp i m = es.phiMeans i / t.Qs i *
      (Real.exp (-t.omegasOld (feat i) m * l i) * s.Js m) := by
    intro m
    rw [hf.phis_eq hen hes, hmk]
    ring
  simp only [e1]
  rw [← Finset.mul_sum, ← hq]
  have := (hQ i).ne'
  field_simp

/-- **C93**, converse, grand canonical ensemble. -/
theorem C93_zero_errors_grand {rng : Rng G ℝ} {en : EntropyI C S M ℝ}
    {p : Params ℝ} {tries : ℤ} {count : ℕ} {s : State C S M ℝ G} {t : Trace C S M ℝ G}
    (hen : IsIdealGas en l feat) (hl : ∀ i, 0 < l i)
    (h : iterate (ia.toI M) en ((GrandC.fromChemicalPotential mus l).toI M) rng p tries count s = .ok t)
    (halive : ∀ m, p.killThreshold < s.Js m) (hvol : ∑ m, s.Js m = (M : ℝ))
    (hcons : ∀ k ∈ s.cons, Inert k) (h1 : t.maxAbsIncomp = 0)
    (h2 : t.maxAbsOmegaDiff = 0) (h3 : t.maxAbsJsDiff = 0) (h4 : t.maxConstraintResidue = 0) :
    ∃ c, Constrained ia.chis feat l s.cons
        (fun i => mus i + (1 + Real.log (l i)) / l i + c) s.Js t.phisComp ∧
      ∀ r m, s.omegas r m = equilibriumField ia.chis feat l (fun j => t.phisComp j m) r
        + totalForce s.cons r m - c := by
  have hes : Scales ((GrandC.fromChemicalPotential mus l).toI M) fun _ i =>
    (GrandC.fromChemicalPotential mus l).scaledActivity i := GrandC.scales _
  have hsc : ∀ i, 0 < (GrandC.fromChemicalPotential mus l).scaledActivity i := fun i =>
    mul_pos (hl i) (Real.exp_pos _)
  obtain ⟨k1, k2, -, -⟩ := zero_errors_held hen hes (fun i => (hl i).ne') hsc h halive
    hvol hcons h1 h2 h3 h4
  refine ⟨_, ?_, k2⟩
  convert k1 using 2 with i
  have hi := hl i
  show _ = (Real.log (l i * Real.exp (l i * mus i)) + 1) / l i + _
  rw [Real.log_mul hi.ne' (Real.exp_pos _).ne', Real.log_exp]
  field_simp
  ring

/-- Global constraints act alike in all compartments. -/
theorem Spec.totalForce_const {ks : List (Cons S M ℝ)} (h : ∀ k ∈ ks, k.NotLocal) (r : Fin S)
    (m n : Fin M) : totalForce ks r m = totalForce ks r n := by
  unfold totalForce
  congr 1
  refine List.map_congr_left fun k hk => ?_
  have := h k hk
  cases k with
  | no c => rfl
  | loc A c => exact this.elim
  | glob A c => rfl

theorem Cons.NotLocal.inert {k : Cons S M ℝ} (h : k.NotLocal) : Inert k := by
  cases k with
  | no c => exact h
  | loc A c => trivial
  | glob A c => trivial

/-- Under global constraints alone, phases in equilibrium coexist with their mean composition. -/
theorem Spec.Constrained.coexistence {chis : Mat S S ℝ} {J : Vec M ℝ} {ks : List (Cons S M ℝ)}
    (hco : Constrained chis feat l ks mu J phi) (hk : ∀ k ∈ ks, k.NotLocal) :
    Coexistence chis feat l (fun i => (∑ m, J m * phi i m) / M) J phi := by
  have hM : (M : ℝ) ≠ 0 := by exact_mod_cast NeZero.ne M
  refine ⟨hco.volumes, hco.pos, hco.incompressible, fun i => by rw [mul_div_cancel₀ _ hM],
    fun i => mu i - totalForce ks (feat i) 0, fun i m => ?_⟩
  have h1 := hco.balance i m
  rw [totalForce_const hk (feat i) m 0] at h1
  exact eq_sub_of_add_eq h1

/-- A composition that meets the targets of determining constraints is the only one. -/
theorem Spec.Determines.unique {A : ℕ} {Cs : Mat A S ℝ} (hd : Determines feat Cs) {x y : Vec C ℝ}
    (hs : ∑ i, x i = ∑ i, y i) (hc : ∀ a, ∑ i, Cs a (feat i) * x i = ∑ i, Cs a (feat i) * y i) :
    x = y := by
  obtain ⟨lam, c, hv⟩ := hd fun i => x i - y i
  have h0 : ∑ i, (x i - y i) * (x i - y i) = 0 := by
    have e : ∀ i, (x i - y i) * (x i - y i) =
        ∑ a, lam a * (Cs a (feat i) * x i - Cs a (feat i) * y i) + c * (x i - y i) := fun i => by
      have e2 : (x i - y i) * (x i - y i) = (∑ a, lam a * Cs a (feat i) + c) * (x i - y i) := by
        rw [← hv i]
      rw [e2, add_mul, Finset.sum_mul]
      congr 1
      exact Finset.sum_congr rfl fun a _ => by ring
    simp only [e]
    rw [Finset.sum_add_distrib, Finset.sum_comm, ← Finset.mul_sum, Finset.sum_sub_distrib, hs, sub_self,
      mul_zero, add_zero]
    refine Finset.sum_eq_zero fun a _ => ?_
    rw [← Finset.mul_sum, Finset.sum_sub_distrib, hc, sub_self, mul_zero]
  funext i
  have := (Finset.sum_eq_zero_iff_of_nonneg fun i _ => mul_self_nonneg (x i - y i)).mp h0 i
    (Finset.mem_univ _)
  exact sub_eq_zero.mp (mul_self_eq_zero.mp this)

/-- Sums over features. -/
theorem sum_features (v : Vec S ℝ) (x : Vec C ℝ) :
    ∑ r, v r * (∑ i, if feat i = r then x i else 0) = ∑ i, v (feat i) * x i := by
  simp only [Finset.mul_sum]
  rw [Finset.sum_comm]
  refine Finset.sum_congr rfl fun i _ => ?_
  simp

/-- The mean composition meets the target of a global constraint that holds. -/
theorem Spec.HoldsFor.mean {A : ℕ} {g : GlobalC A S M ℝ} {J : Vec M ℝ} (hvol : ∑ m, J m = (M : ℝ)) :
    HoldsFor (fun r m => ∑ i, if feat i = r then phi i m else 0) J (.glob A g) ↔
      ∀ a, ∑ i, g.Cs a (feat i) * ((∑ m, J m * phi i m) / M) = g.Ts a := by
  have hM : (M : ℝ) ≠ 0 := by exact_mod_cast NeZero.ne M
  have key : ∀ a, ∑ m, (∑ r, g.Cs a r * (∑ i, if feat i = r then phi i m else 0) - g.Ts a) * J m =
      M * (∑ i, g.Cs a (feat i) * ((∑ m, J m * phi i m) / M) - g.Ts a) := by
    intro a
    have e : ∀ m, ∑ r, g.Cs a r * (∑ i, if feat i = r then phi i m else 0) =
      ∑ i, g.Cs a (feat i) * phi i m := fun m => sum_features (fun r => g.Cs a r) fun i => phi i m
    simp only [e, sub_mul]
    rw [Finset.sum_sub_distrib, ← Finset.mul_sum, hvol, mul_sub, mul_comm (M : ℝ) (g.Ts a),
      Finset.mul_sum]
    congr 1
    simp only [Finset.sum_mul]
    rw [Finset.sum_comm]
    refine Finset.sum_congr rfl fun i _ => ?_
    rw [mul_left_comm, mul_div_cancel₀ _ hM, Finset.mul_sum]
    exact Finset.sum_congr rfl fun m _ => by ring
  show (∀ a, _ = 0) ↔ _
  refine forall_congr' fun a => ?_
  rw [key, mul_eq_zero, or_iff_right hM, sub_eq_zero]

/-- **C93**, from the canonical to the grand canonical ensemble. Phases that coexist at mean composition
`phiMeans`; constraints on the mean that determine the composition and have these targets. For any
chemical potentials of the reservoir there are multipliers with which a run of the grand canonical
ensemble under the constraints returns exactly these phases in these volumes. -/
theorem C93_canonical_to_grand {A : ℕ} {phiMeans : Vec C ℝ} {J : Vec M ℝ} {Cs : Mat A S ℝ} {Ts : Vec A ℝ}
    (hl : ∀ i, 0 < l i) (hco : Coexistence ia.chis feat l phiMeans J phi) (hd : Determines feat Cs)
    (hT : ∀ a, ∑ i, Cs a (feat i) * phiMeans i = Ts a) (mus : Vec C ℝ) :
    ∃ (lam : Vec A ℝ) (c : ℝ), ∀ {e : RunEnv C S M ℝ G} {maxSteps : ℚ} {tol : ℝ} {interval b : ℤ}
      {st : State C S M ℝ G} {g : GlobalC A S M ℝ} {f : RunState C S M ℝ G} {ph : Phases M C ℝ}
      {d : Diagnostics ℝ}, 0 ≤ e.params.killThreshold → e.ia = ia.toI M → IsIdealGas e.en l feat →
      e.es = (GrandC.fromChemicalPotential mus l).toI M → (∀ m, e.params.killThreshold < J m) →
      st.Js = J → st.cons = [.glob A g] → g.Cs = Cs → g.Ts = Ts → g.multiplier = lam →
      (∀ r m, st.omegas r m = equilibriumField ia.chis feat l (fun j => phi j m) r
        + ∑ a, lam a * (Cs a r - Ts a) - c) →
      runImpl e maxSteps tol interval st b = (f, .ok (ph, d)) →
      ph.volumes = J ∧ (∀ m i, ph.fractions m i = phi i m) ∧ d.maxAbsIncomp = 0 ∧
        d.maxAbsOmegaDiff = 0 ∧ d.maxAbsJsDiff = 0 ∧ d.maxConstraintResidue = 0 ∧
        (0 < tol → 0 < maxSteps → 0 < interval → (d.steps : ℤ) ≤ interval) := by
  have hM : (M : ℝ) ≠ 0 := by exact_mod_cast NeZero.ne M
  obtain ⟨mu, hmu⟩ := hco.balance
  obtain ⟨lam, c', hv⟩ := hd fun i => mus i + (1 + Real.log (l i)) / l i - mu i
  refine ⟨lam, -c' - ∑ a, lam a * Ts a, ?_⟩
  intro e maxSteps tol interval b st g f ph d hthr hia hen hes halive hJ hk hCs hTs hlam hom hr
  subst hJ hCs hTs hlam
  have hW : ∀ r m, totalForce st.cons r m = ∑ a, g.multiplier a * (g.Cs a r - g.Ts a) := fun r m => by
    rw [hk]
    simp [totalForce, force]
  have hC : Constrained ia.chis feat l st.cons (fun i => mus i + (1 + Real.log (l i)) / l i
      + (-c' - ∑ a, g.multiplier a * g.Ts a)) st.Js phi := by
    refine ⟨hco.volumes, hco.pos, hco.incompressible, fun k hkm => ?_, fun i m => ?_⟩
    · rw [hk, List.mem_singleton] at hkm
      subst hkm
      refine (HoldsFor.mean hco.volumes).mpr fun a => ?_
      rw [← hT a]
      exact Finset.sum_congr rfl fun i _ => by rw [hco.mean, mul_div_cancel_left₀ _ hM]
    · rw [hmu, hW]
      have := hv i
      simp only [mul_sub, Finset.sum_sub_distrib]
      linarith
  obtain ⟨a1, a2, -, -, a3, a4, a5, a6, -, a7⟩ := C93_stationary_grand hthr hia hen hes hl halive hC
    (fun r m => by rw [hom, hW]) hr
  exact ⟨a1, a2, a3, a4, a5, a6, a7⟩

/-- **C93**, from the grand canonical to the canonical ensemble. If a pass of the grand canonical
ensemble under constraints on the mean reports no errors and satisfied constraints, its phases coexist.
If the constraints determine the composition, the mean composition is the one with these targets, so a
run of the canonical ensemble at this composition, started from the fields of these phases, returns
exactly the same phases in the same volumes. -/
theorem C93_grand_to_canonical {A : ℕ} {phiMeans : Vec C ℝ} {rng : Rng G ℝ} {en : EntropyI C S M ℝ}
    {p : Params ℝ} {tries : ℤ} {count : ℕ} {s : State C S M ℝ G} {t : Trace C S M ℝ G}
    {g : GlobalC A S M ℝ} (hthr : 0 ≤ p.killThreshold) (hen : IsIdealGas en l feat) (hl : ∀ i, 0 < l i)
    (h : iterate (ia.toI M) en ((GrandC.fromChemicalPotential mus l).toI M) rng p tries count s = .ok t)
    (halive : ∀ m, p.killThreshold < s.Js m) (hvol : ∑ m, s.Js m = (M : ℝ))
    (hcons : ∀ k ∈ s.cons, k.NotLocal) (h1 : t.maxAbsIncomp = 0)
    (h2 : t.maxAbsOmegaDiff = 0) (h3 : t.maxAbsJsDiff = 0) (h4 : t.maxConstraintResidue = 0)
    (hg : .glob A g ∈ s.cons) (hd : Determines feat g.Cs) (hx : ∑ i, phiMeans i = 1)
    (hT : ∀ a, ∑ i, g.Cs a (feat i) * phiMeans i = g.Ts a) :
    Coexistence ia.chis feat l phiMeans s.Js t.phisComp ∧
    ∀ {e : RunEnv C S M ℝ G} {maxSteps : ℚ} {tol : ℝ} {interval b : ℤ} {st : State C S M ℝ G}
      {f : RunState C S M ℝ G} {ph : Phases M C ℝ} {d : Diagnostics ℝ} {c : ℝ}, e.params = p →
      e.ia = ia.toI M → e.en = en → e.es = (⟨phiMeans⟩ : CanonicalC C ℝ).toI M → st.Js = s.Js →
      (∀ r m, st.omegas r m = equilibriumField ia.chis feat l (fun j => t.phisComp j m) r + c) →
      (∀ k ∈ st.cons, k.Trivial) → runImpl e maxSteps tol interval st b = (f, .ok (ph, d)) →
      ph.volumes = s.Js ∧ (∀ m i, ph.fractions m i = t.phisComp i m) ∧ d.maxAbsIncomp = 0 ∧
        d.maxAbsOmegaDiff = 0 ∧ d.maxAbsJsDiff = 0 := by
  have hM : (M : ℝ) ≠ 0 := by exact_mod_cast NeZero.ne M
  obtain ⟨c, hco, -⟩ := C93_zero_errors_grand hen hl h halive hvol (fun k hk => (hcons k hk).inert)
    h1 h2 h3 h4
  have hcx := hco.coexistence hcons
  have hsum : ∑ i, (∑ m, s.Js m * t.phisComp i m) / M = 1 := by
    rw [← Finset.sum_div, Finset.sum_comm]
    simp only [← Finset.mul_sum, hco.incompressible, mul_one]
    rw [hvol, div_self hM]
  have hmean : (fun i => (∑ m, s.Js m * t.phisComp i m) / M) = phiMeans :=
    hd.unique (hsum.trans hx.symm) fun a => by
      rw [hT]
      exact (HoldsFor.mean hvol).mp (hco.holds _ hg) a
  rw [hmean] at hcx
  refine ⟨hcx, ?_⟩
  intro e maxSteps tol interval b st f ph d c ep hia een ees hJ hom htr hr
  subst ep een
  rw [← hJ] at hcx halive ⊢
  obtain ⟨a1, a2, -, -, a3, a4, a5, -⟩ := C63_equilibrium_stationary hthr hia hen ees
    (fun i => (hl i).ne') halive hcx hom (fun k hk => (htr k hk).fulfilled) hr
  exact ⟨a1, a2, a3, a4, a5⟩

end Constrained

namespace Demo

/-- Two kinds of ions and a solvent that the first kind avoids. -/
noncomputable def donnanFH : FHCompiled 3 ℝ :=
  FHCompiled.new ![![0, 0, 4 * Real.log 3], ![0, 0, 0], ![4 * Real.log 3, 0, 0]] 1

/-- A dilute and a concentrated phase, each with as many positive as negative ions. -/
noncomputable def donnanPhi : Mat 3 2 ℝ := ![![1 / 8, 3 / 8], ![1 / 8, 3 / 8], ![3 / 4, 1 / 4]]

/-- Mean fractions for volumes 1/2 and 3/2. -/
noncomputable def donnanEns : CanonicalC 3 ℝ := ⟨![5 / 16, 5 / 16, 3 / 8]⟩

/-- Charge neutrality of every compartment, with the electric potentials of the two phases as
multipliers. -/
noncomputable def donnanC : LocalC 1 3 2 ℝ :=
  { LocalC.new ![![1, -1, 0]] ![0] 1 1 with
    multiplier := ![![-(3 / 2 * Real.log 3), -(1 / 2 * Real.log 3)]] }

/-- The state of the equilibrium. -/
noncomputable def donnanState : State 3 3 2 ℝ Unit where
  omegas := fun r m => equilibriumField donnanFH.chis id (fun _ => 1) (fun j => donnanPhi j m) r
    + totalForce [.no NoC.new, .loc 1 donnanC] r m + 7
  Js := ![1 / 2, 3 / 2]
  phisComp := fun _ _ => 0
  phisFeat := fun _ _ => 0
  cons := [.no NoC.new, .loc 1 donnanC]
  g := ()

noncomputable def donnanEnv : RunEnv 3 3 2 ℝ Unit :=
  ⟨donnanFH.toI 2, (⟨fun _ => 1⟩ : IdealC 3).toI 2, donnanEns.toI 2, rngZero ℝ, params, "standard", id⟩

theorem donnan_constrained : Constrained donnanFH.chis id (fun _ => 1) donnanState.cons
    ![9 / 8 * Real.log 3 - 3 * Real.log 2, 9 / 8 * Real.log 3 - 3 * Real.log 2,
      9 / 8 * Real.log 3 - 2 * Real.log 2] donnanState.Js donnanPhi where
  volumes := by simp [donnanState, Fin.sum_univ_two]; norm_num
  pos := by intro i m; fin_cases i <;> fin_cases m <;> simp [donnanPhi]
  incompressible := by
    intro m; fin_cases m <;> simp [donnanPhi, Fin.sum_univ_three] <;> norm_num
  holds := by
    intro k hk
    simp only [donnanState, List.mem_cons, List.not_mem_nil, or_false] at hk
    rcases hk with rfl | rfl
    · simp [HoldsFor, NoC.new]
    · intro a m
      fin_cases a
      fin_cases m <;> simp [donnanC, LocalC.new, donnanPhi, Fin.sum_univ_three]
  balance := by
    have e1 : Real.log (1 / 8) = - (3 * Real.log 2) := by
      rw [show (1 / 8 : ℝ) = (2 ^ 3)⁻¹ by norm_num, Real.log_inv, Real.log_pow]
      norm_num
    have e2 : Real.log (3 / 8) = Real.log 3 - 3 * Real.log 2 := by
      rw [Real.log_div (by norm_num) (by norm_num), show (8 : ℝ) = 2 ^ 3 by norm_num, Real.log_pow]
      norm_num
    have e3 : Real.log (1 / 4) = - (2 * Real.log 2) := by
      rw [show (1 / 4 : ℝ) = (2 ^ 2)⁻¹ by norm_num, Real.log_inv, Real.log_pow]
      norm_num
    have e4 : Real.log (3 / 4) = Real.log 3 - 2 * Real.log 2 := by
      rw [Real.log_div (by norm_num) (by norm_num), show (4 : ℝ) = 2 ^ 2 by norm_num, Real.log_pow]
      norm_num
    have hW : ∀ r m, totalForce donnanState.cons r m = donnanC.multiplier 0 m * donnanC.Cs 0 r := by
      intro r m
      simp [donnanState, totalForce, force, donnanC, LocalC.new]
    intro i m
    rw [hW]
    unfold chemPot
    simp only [id, Fin.sum_univ_three, donnanFH, FHCompiled.new, donnanPhi, donnanC, LocalC.new]
    fin_cases i <;> fin_cases m <;>
      simp only [Fin.zero_eta, Fin.mk_one, Fin.reduceFinMk, Fin.isValue, Matrix.cons_val_zero,
        Matrix.cons_val_one, Matrix.cons_val, Matrix.cons_val', Matrix.cons_val_fin_one,
        e1, e2, e3, e4] <;> ring

end Demo

-- C93: phases with different electric potentials (a Donnan equilibrium).
example : ∃ f ph d, runImpl Demo.donnanEnv 1000000 (1 / 100000) 10000 Demo.donnanState 32 =
    (f, .ok (ph, d)) ∧ ph.fractions 0 0 = 1 / 8 ∧ ph.fractions 1 0 = 3 / 8 ∧ d.maxAbsJsDiff = 0 ∧
    d.maxConstraintResidue = 0 := by
  have hen : IsIdealGas Demo.donnanEnv.en (fun _ => (1 : ℝ)) id :=
    (⟨fun _ => 1⟩ : IdealC 3).isIdealGas (M := 2)
  have halive : ∀ m, Demo.donnanEnv.params.killThreshold < Demo.donnanState.Js m := by
    intro m; fin_cases m <;> simp [Demo.donnanEnv, Demo.params, Demo.donnanState]
  obtain ⟨f, ph, d, h⟩ := run_ok (e := Demo.donnanEnv) (maxSteps := 1000000) (interval := 10000)
    (tol := 1 / 100000) (rngZero_ok ℝ) hen Demo.donnanEns.total
    (by simp [Demo.donnanEnv, Demo.params]) (by simp [Demo.donnanEnv, Demo.params])
    (by simp [Demo.donnanEnv, Demo.params]) (by simp [Demo.donnanEnv, Demo.params]) rfl (by norm_num)
    (by norm_num) Demo.donnanState 32 (by simp [Demo.donnanState, Cons.Proper])
    (Or.inl ⟨0, halive 0⟩)
  obtain ⟨-, a2, -, -, -, -, a7, a8, -⟩ := C93_stationary_canonical (e := Demo.donnanEnv)
    (ia := Demo.donnanFH) (es := Demo.donnanEns) (c := 7) (by simp [Demo.donnanEnv, Demo.params]) rfl hen
    rfl (by simp) halive Demo.donnan_constrained
    (by
      intro i
      fin_cases i <;> simp [Demo.donnanPhi, Demo.donnanEns, Demo.donnanState, Fin.sum_univ_two] <;>
        norm_num)
    (fun _ _ => rfl) h
  refine ⟨f, ph, d, h, ?_, ?_, a7, a8⟩
  · rw [a2]; simp [Demo.donnanPhi]
  · rw [a2]; simp [Demo.donnanPhi]

-- C93: a pass without errors in this state, as the converse needs.
example : ∃ t, iterate (Demo.donnanFH.toI 2) ((⟨fun _ => 1⟩ : IdealC 3).toI 2) (Demo.donnanEns.toI 2)
    (rngZero ℝ) Demo.params 32 0 Demo.donnanState = .ok t ∧ t.maxAbsIncomp = 0 ∧ t.maxAbsOmegaDiff = 0 ∧
    t.maxAbsJsDiff = 0 ∧ t.maxConstraintResidue = 0 ∧ (∀ k ∈ Demo.donnanState.cons, Inert k) := by
  have hen : IsIdealGas ((⟨fun _ => 1⟩ : IdealC 3).toI 2) (fun _ => (1 : ℝ)) id :=
    (⟨fun _ => 1⟩ : IdealC 3).isIdealGas (M := 2)
  have halive : ∀ m, Demo.params.killThreshold < Demo.donnanState.Js m := by
    intro m; fin_cases m <;> simp [Demo.params, Demo.donnanState]
  obtain ⟨t, h, -⟩ := iterate_ok (ia := Demo.donnanFH.toI 2) (es := Demo.donnanEns.toI 2)
    (p := Demo.params) (tries := 32) (count := 0) (s := Demo.donnanState)
    (rngZero_ok ℝ) hen Demo.donnanEns.total (by simp [Demo.params]) (by simp [Demo.params])
    (by simp [Demo.params]) (by simp [Demo.donnanState, Cons.Proper]) (Or.inl ⟨0, halive 0⟩)
  have hb := Demo.donnan_constrained.boltz (om := Demo.donnanState.omegas) (c := 7) (by simp)
    fun _ _ => rfl
  obtain ⟨h1, -⟩ := held_pass hen Demo.donnanEns.scales h
    ⟨halive, Demo.donnan_constrained.volumes, hb, Demo.donnan_constrained.incompressible,
      scale_of_mean (fun m => by fin_cases m <;> simp [Demo.donnanState]) hb (by
        intro i
        fin_cases i <;> simp [Demo.donnanPhi, Demo.donnanEns, Demo.donnanState, Fin.sum_univ_two] <;>
          norm_num), fun _ _ => rfl, Demo.donnan_constrained.holds⟩
  exact ⟨t, h, h1.incomp, h1.omegaDiff, h1.jsDiff, h1.residue, by
    simp [Demo.donnanState, Inert, NoC.new]⟩

namespace Demo

/-- The mean of the first component determines the composition of a binary mixture. -/
theorem determines_first : Determines (id : Fin 2 → Fin 2) (![![1, 0]] : Mat 1 2 ℝ) := fun v =>
  ⟨![v 0 - v 1], v 1, fun i => by fin_cases i <;> simp⟩

/-- The mixture in contact with a reservoir with chemical potentials `mus`. -/
noncomputable def reservoirEnv (mus : Vec 2 ℝ) : RunEnv 2 2 2 ℝ Unit :=
  ⟨coexFH.toI 2, (⟨fun _ => 1⟩ : IdealC 2).toI 2,
    (GrandC.fromChemicalPotential mus fun _ => 1).toI 2, rngZero ℝ, params, "standard", id⟩

end Demo

-- C93: the canonical phases from a reservoir with any chemical potentials, under one constraint.
example (mus : Vec 2 ℝ) : ∃ st f ph d,
    runImpl (Demo.reservoirEnv mus) 1000000 (1 / 100000) 10000 st 32 = (f, .ok (ph, d)) ∧
    ph.volumes 0 = 1 / 2 ∧ ph.fractions 0 0 = 1 / 4 ∧ ph.fractions 1 0 = 3 / 4 ∧
    d.maxConstraintResidue = 0 := by
  have hen : IsIdealGas (Demo.reservoirEnv mus).en (fun _ => (1 : ℝ)) id :=
    (⟨fun _ => 1⟩ : IdealC 2).isIdealGas (M := 2)
  obtain ⟨lam, c, hrun⟩ := C93_canonical_to_grand (G := Unit) (ia := Demo.coexFH) (Ts := ![5 / 8])
    (by simp) Demo.coexistence Demo.determines_first
    (by intro a; fin_cases a; simp [Demo.coexEns, Fin.sum_univ_two]) mus
  let st : State 2 2 2 ℝ Unit :=
    ⟨fun r m => equilibriumField Demo.coexFH.chis id (fun _ => 1) (fun j => Demo.coexPhi j m) r
        + ∑ a, lam a * ((![![1, 0]] : Mat 1 2 ℝ) a r - (![5 / 8] : Vec 1 ℝ) a) - c, ![1 / 2, 3 / 2],
      fun _ _ => 0, fun _ _ => 0,
      [.glob 1 { GlobalC.new ![![1, 0]] ![5 / 8] 1 1 with multiplier := lam }], ()⟩
  have halive : ∀ m, (Demo.reservoirEnv mus).params.killThreshold < (![1 / 2, 3 / 2] : Vec 2 ℝ) m := by
    intro m; fin_cases m <;> simp [Demo.reservoirEnv, Demo.params]
  obtain ⟨f, ph, d, h⟩ := run_ok (e := Demo.reservoirEnv mus) (maxSteps := 1000000) (interval := 10000)
    (tol := 1 / 100000) (rngZero_ok ℝ) hen (GrandC.total _)
    (by simp [Demo.reservoirEnv, Demo.params]) (by simp [Demo.reservoirEnv, Demo.params])
    (by simp [Demo.reservoirEnv, Demo.params]) (by simp [Demo.reservoirEnv, Demo.params]) rfl
    (by norm_num) (by norm_num) st 32 (by simp [st, Cons.Proper]) (Or.inl ⟨0, halive 0⟩)
  obtain ⟨a1, a2, -, -, -, a6, -⟩ := hrun (by simp [Demo.reservoirEnv, Demo.params]) rfl hen rfl halive
    rfl rfl rfl rfl rfl (fun _ _ => rfl) h
  refine ⟨st, f, ph, d, h, by rw [a1]; rfl, ?_, ?_, a6⟩
  · rw [a2]; simp [Demo.coexPhi]
  · rw [a2]; simp [Demo.coexPhi]

namespace Demo

/-- The binary mixture held at its mean composition against a reservoir that favours the first
component. -/
noncomputable def heldState : State 2 2 2 ℝ Unit where
  omegas := fun r m => equilibriumField coexFH.chis id (fun _ => 1) (fun j => coexPhi j m) r
    + totalForce [.glob 1 { GlobalC.new ![![1, 0]] ![5 / 8] 1 1 with multiplier := ![1] }] r m
    - (coexLevel - 5 / 8)
  Js := ![1 / 2, 3 / 2]
  phisComp := fun _ _ => 0
  phisFeat := fun _ _ => 0
  cons := [.glob 1 { GlobalC.new ![![1, 0]] ![5 / 8] 1 1 with multiplier := ![1] }]
  g := ()

theorem held_constrained : Constrained coexFH.chis id (fun _ => 1) heldState.cons
    (fun i => (![1, 0] : Vec 2 ℝ) i + (1 + Real.log 1) / 1 + (coexLevel - 5 / 8)) heldState.Js
    coexPhi where
  volumes := coexistence.volumes
  pos := coexistence.pos
  incompressible := coexistence.incompressible
  holds := by
    intro k hk
    simp only [heldState, List.mem_singleton] at hk
    subst hk
    intro a
    simp [GlobalC.new, coexPhi, heldState, Fin.sum_univ_two]
    norm_num
  balance := by
    intro i m
    have := (coexReservoir (J := ![1 / 2, 3 / 2]) coexistence.volumes).balance i m
    rw [this]
    fin_cases i <;> simp [totalForce, force, heldState, GlobalC.new] <;> ring

end Demo

-- C93: a pass of the grand canonical ensemble under this constraint without errors.
example : ∃ t, iterate (Demo.coexFH.toI 2) ((⟨fun _ => 1⟩ : IdealC 2).toI 2)
    ((GrandC.fromChemicalPotential ![1, 0] fun _ => 1).toI 2)
    (rngZero ℝ) Demo.params 32 0 Demo.heldState = .ok t ∧ t.maxAbsIncomp = 0 ∧ t.maxAbsOmegaDiff = 0 ∧
    t.maxAbsJsDiff = 0 ∧ t.maxConstraintResidue = 0 ∧ (∀ k ∈ Demo.heldState.cons, k.NotLocal) ∧
    (∀ a, ∑ i, (![![1, 0]] : Mat 1 2 ℝ) a i * Demo.coexEns.phiMeans i = (![5 / 8] : Vec 1 ℝ) a) := by
  have hen : IsIdealGas ((⟨fun _ => 1⟩ : IdealC 2).toI 2) (fun _ => (1 : ℝ)) id :=
    (⟨fun _ => 1⟩ : IdealC 2).isIdealGas (M := 2)
  have halive : ∀ m, Demo.params.killThreshold < Demo.heldState.Js m := by
    intro m; fin_cases m <;> simp [Demo.params, Demo.heldState]
  obtain ⟨t, h, -⟩ := iterate_ok (ia := Demo.coexFH.toI 2)
    (es := (GrandC.fromChemicalPotential ![1, 0] fun _ => 1).toI 2)
    (p := Demo.params) (tries := 32) (count := 0) (s := Demo.heldState)
    (rngZero_ok ℝ) hen (GrandC.total _) (by simp [Demo.params]) (by simp [Demo.params])
    (by simp [Demo.params]) (by simp [Demo.heldState, Cons.Proper]) (Or.inl ⟨0, halive 0⟩)
  obtain ⟨h1, -⟩ := held_pass hen (GrandC.scales _) h
    (Demo.held_constrained.held (by simp) halive fun _ _ => rfl)
  refine ⟨t, h, h1.incomp, h1.omegaDiff, h1.jsDiff, h1.residue, ?_, ?_⟩
  · simp [Demo.heldState, Cons.NotLocal]
  · intro a
    fin_cases a
    simp [Demo.coexEns, Fin.sum_univ_two]

end Flory
