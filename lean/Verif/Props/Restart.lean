import Verif.Spec.Restart
import Verif.Lemmas.Resume
import Verif.Props.Initial
import Verif.Props.Equilibrium
import Mathlib.Analysis.Complex.ExponentialBounds

/-!
# C101: starting from given volume fractions
-/

set_option linter.unusedSectionVars false

namespace Flory

open Spec

section First

variable {G : Type} {C S M : ℕ} [NeZero M] {e : RunEnv C S M ℝ G} {ia : FHCompiled S ℝ} {es : CanonicalC C ℝ}
  {l : Vec C ℝ} {feat : Fin C → Fin S}

theorem steps_one {interval : ℤ} (h : 0 < interval) : stepsTracker 1 interval = .ok 1 ∧ stepsInner 1 1 = .ok 1 := by
  have hq : (0 : ℚ) < interval := by exact_mod_cast h
  have h1 : (1 : ℚ) ≤ interval := by exact_mod_cast h
  have hc : ⌈(1 : ℚ) / interval⌉ = 1 := by
    rw [Int.ceil_eq_iff]
    constructor
    · have : (0 : ℚ) < 1 / interval := by positivity
      simpa using this
    · rw [div_le_iff₀ hq]; simpa using h1
  refine ⟨by rw [stepsTracker, if_neg h.ne', hc], ?_⟩
  simp [stepsInner]

/-- No compartment dies in the first step if the volumes change little. -/
theorem IterFacts.alive_of_bound {en : EntropyI C S M ℝ} {ei : EnsembleI C M ℝ} {ii : InteractionI S M ℝ}
    {rng : Rng G ℝ} {p : Params ℝ} {tries : ℤ} {count : ℕ} {s : State C S M ℝ G} {t : Trace C S M ℝ G}
    (h : IterFacts ii en ei rng p tries count s t) (hb : 0 < p.JsStepUpperBound) (ha : 0 ≤ p.acceptanceJs)
    (hthr : p.killThreshold + 2 * p.JsStepUpperBound < 1) (hm : ∀ m, t.masks m = 1) (hJ : ∀ m, t.JsOld m = 1)
    (m : Fin M) : p.killThreshold < t.Js m := by
  have hM : (0 : ℝ) < M := by exact_mod_cast Nat.pos_of_ne_zero (NeZero.ne M)
  have hn : t.nValid = M := by rw [h.nValid]; simp [hm]
  have hs : ∑ k, t.factor * p.acceptanceJs * t.JsDiff k ≤ M * p.JsStepUpperBound := by
    refine (Finset.sum_le_sum fun k _ => (le_abs_self _).trans (h.step_le hb ha k)).trans (le_of_eq ?_)
    simp
  have hl := (abs_le.mp (h.step_le hb ha m)).1
  rw [h.Js m]
  simp only [hm, hJ, mul_one, Finset.sum_add_distrib, hn]
  have : (∑ k : Fin M, (1 : ℝ) + ∑ k, t.factor * p.acceptanceJs * t.JsDiff k) / M ≤ 1 + p.JsStepUpperBound := by
    rw [div_le_iff₀ hM]
    simp only [Finset.sum_const, Finset.card_univ, Fintype.card_fin, nsmul_eq_mul, mul_one]
    linarith
  linarith

/-- The fractions after a run of one step. -/
theorem run_one (hthr : 0 ≤ e.params.killThreshold) (hb : 0 < e.params.JsStepUpperBound)
    (ha : 0 ≤ e.params.acceptanceJs) (hthr1 : e.params.killThreshold + 2 * e.params.JsStepUpperBound < 1)
    (hen : IsIdealGas e.en l feat) (hes : e.es = es.toI M) {tol : ℝ} {interval b : ℤ} (hint : 0 < interval)
    {st : State C S M ℝ G} {rs : RunState C S M ℝ G} {ph : Phases M C ℝ} {d : Diagnostics ℝ}
    (hJ : ∀ m, st.Js m = 1) (h : runImpl e 1 tol interval st b = (rs, .ok (ph, d))) (m : Fin M) (i : Fin C) :
    ph.fractions m i = es.phiMeans i * Real.exp (-st.omegas (feat i) m * l i) /
      ((∑ n, Real.exp (-st.omegas (feat i) n * l i)) / M) := by
  obtain ⟨tr, inner, ts, t, cp, a1, a2, hf⟩ := run_facts hthr h
  obtain ⟨s1, s2⟩ := steps_one hint
  obtain rfl : tr = 1 := Except.ok.inj (a1.symm.trans s1)
  obtain rfl : inner = 1 := Except.ok.inj (a2.symm.trans s2)
  have hlen : ts = [] := by
    have := hf.count
    rw [← List.length_eq_zero_iff]
    simp at this
    simpa using this
  subst hlen
  have hpass : iterate e.ia e.en e.es e.rng e.params b 0 st = .ok t := by
    have hc := hf.chain
    cases hc with
    | cons h1 h2 =>
      cases h1 with
      | one h => exact h
      | more h1 h2 => cases h1
  have hI := iterate_facts hpass
  have hall : ∀ m, e.params.killThreshold < st.Js m := fun m => by rw [hJ]; linarith
  have hrev := reviveBlock_all_alive (rng := e.rng) (tries := b) (om := st.omegas) (g := st.g) (count := 0) hall
  have hmask : ∀ m, t.masks m = 1 := fun m => by
    rw [hI.mask_eq, hrev]; exact if_pos (hall m)
  have hJo : ∀ m, t.JsOld m = 1 := fun m => by
    rw [hI.JsOld, hrev, hmask, mul_one]; exact hJ m
  have hom : t.omegasOld = st.omegas := by rw [hI.omegasOld, hrev]
  have hal := hI.alive_of_bound hb ha hthr1 hmask hJo
  obtain ⟨li, n, hc⟩ := reviveByCopy_all_alive (rng := e.rng) (T := t.phisComp) (g := t.g) hthr hal
  obtain rfl := Except.ok.inj (hf.copy.symm.trans hc)
  rw [hf.fractions]
  show t.phisComp i m = _
  rw [hI.phis_eq hen (hes ▸ es.scales), hI.Qs_eq hen, hmask, hom]
  simp only [hJo, mul_one, Finset.sum_const, Finset.card_univ, Fintype.card_fin, nsmul_eq_mul]
  ring

end First

section Compositions

variable {C S M : ℕ} [NeZero M] {chis : Mat S S ℝ} {l x : Vec C ℝ} {feat : Fin C → Fin S} {phi : Mat C M ℝ}

theorem chis_featureFractions (r : Fin S) (m : Fin M) :
    ∑ s, chis r s * featureFractions feat phi s m = ∑ j, chis r (feat j) * phi j m := by
  simp only [featureFractions, Finset.sum_filter, Finset.mul_sum, mul_ite, mul_zero]
  rw [Finset.sum_comm]
  refine Finset.sum_congr rfl fun j _ => ?_
  simp

/-- When the normalised Boltzmann factors reproduce the fractions. -/
theorem boltzmann_iff (hl : ∀ i, 0 < l i) (hphi : ∀ i m, 0 < phi i m) :
    (∀ m i, phi i m = x i * boltzmann chis feat l (featureFractions feat phi) i m /
      ((∑ n, boltzmann chis feat l (featureFractions feat phi) i n) / M)) ↔
    (∀ i, ∑ m, phi i m = M * x i) ∧
      ∃ mu : Vec C ℝ, ∀ i m, Real.log (phi i m) / l i + ∑ j, chis (feat i) (feat j) * phi j m = mu i := by
  have hM : (0 : ℝ) < M := by exact_mod_cast Nat.pos_of_ne_zero (NeZero.ne M)
  have hB : ∀ i m, boltzmann chis feat l (featureFractions feat phi) i m =
      Real.exp (-(∑ j, chis (feat i) (feat j) * phi j m) * l i) := fun i m => by
    unfold boltzmann; rw [chis_featureFractions]
  set B := boltzmann chis feat l (featureFractions feat phi) with hBdef
  have hpos : ∀ i, 0 < ∑ n, B i n := fun i =>
    Finset.sum_pos (fun n _ => by rw [hB]; exact Real.exp_pos _) Finset.univ_nonempty
  constructor
  · intro h
    refine ⟨fun i => ?_, fun i => Real.log (x i / ((∑ n, B i n) / M)) / l i, fun i m => ?_⟩
    · rw [Finset.sum_congr rfl fun m _ => h m i, ← Finset.sum_div, ← Finset.mul_sum]
      have := hpos i
      field_simp
    · have hx : 0 < x i / ((∑ n, B i n) / M) := by
        have h1 := hphi i m
        rw [h m i, mul_div_right_comm] at h1
        exact pos_of_mul_pos_left h1 (by rw [hB]; exact (Real.exp_pos _).le)
      have h1 : Real.log (phi i m) = Real.log (x i / ((∑ n, B i n) / M)) +
          -(∑ j, chis (feat i) (feat j) * phi j m) * l i := by
        conv_lhs => rw [h m i, mul_div_right_comm]
        rw [Real.log_mul hx.ne' (by rw [hB]; exact (Real.exp_pos _).ne')]
        conv_lhs => rw [hB i m, Real.log_exp]
      rw [h1]
      have := (hl i).ne'
      field_simp
      ring
  · rintro ⟨h1, mu, h2⟩ m i
    have h3 : ∀ m, phi i m = Real.exp (mu i * l i) * B i m := fun m => by
      rw [hB, ← Real.exp_add, ← h2 i m]
      have := (hl i).ne'
      rw [add_mul, div_mul_cancel₀ _ this, neg_mul, add_neg_cancel_right, Real.exp_log (hphi i m)]
    have h4 := h1 i
    rw [Finset.sum_congr rfl fun m _ => h3 m, ← Finset.mul_sum] at h4
    have := (hpos i).ne'
    rw [h3 m]
    field_simp
    linear_combination B i m * h4

/-- For coexisting phases the pressures decide. -/
theorem coexistence_pressure (hco : Coexistence chis feat l x (fun _ => 1) phi) :
    ((∀ i, ∑ m, phi i m = M * x i) ∧
      ∃ mu : Vec C ℝ, ∀ i m, Real.log (phi i m) / l i + ∑ j, chis (feat i) (feat j) * phi j m = mu i) ↔
    ∀ m n, phasePressure chis feat l (fun j => phi j m) = phasePressure chis feat l fun j => phi j n := by
  obtain ⟨nu, hnu⟩ := hco.balance
  have key : ∀ i m, Real.log (phi i m) / l i + ∑ j, chis (feat i) (feat j) * phi j m =
      nu i - 1 / l i - phasePressure chis feat l fun j => phi j m := fun i m => by
    rw [← hnu i m]
    unfold chemPot phasePressure
    ring
  constructor
  · rintro ⟨-, mu, h⟩ m n
    have hC : C ≠ 0 := by
      rintro rfl
      have := hco.incompressible m
      simp at this
    have h1 := (key ⟨0, Nat.pos_of_ne_zero hC⟩ m).symm.trans (h _ m)
    have h2 := (key ⟨0, Nat.pos_of_ne_zero hC⟩ n).symm.trans (h _ n)
    linarith
  · intro h
    refine ⟨fun i => by simpa using hco.mean i, fun i => nu i - 1 / l i -
      phasePressure chis feat l fun j => phi j 0, fun i m => ?_⟩
    rw [key, h m 0]

end Compositions

section Finder

variable {G : Type} {f : Finder G} {ia : FHCompiled f.numFeat ℝ} {feat : Fin f.numComp → Fin f.numFeat}
  {l x : Vec f.numComp ℝ}

/-- **C101**, the first step: after `reinitialize_from_phis(p)` a run of one step returns the mean
composition, distributed over the compartments in proportion to the Boltzmann factors of the interaction with
the fractions `p`. -/
theorem C101_first_step (hf : MixtureFinder f ia feat l x) {p : NDArr ℝ}
    (hp : p.shape = [f.numFeat, f.numPart]) {env : FinderEnv G} {tol : Option ℝ} {interval : Option ℤ}
    (hint : 0 < interval.getD f.interval) {g : Finder G} {r : RunOut}
    (h : (f.reinitPhis p).1.run env (some 1) tol interval = (g, .ok r)) :
    ∃ ph d, r = ⟨f.numPart, f.numComp, ph, d⟩ ∧ ∀ m i, ph.fractions m i =
      x i * boltzmann ia.chis feat l (p.toMat f.numFeat f.numPart) i m /
        ((∑ n, boltzmann ia.chis feat l (p.toMat f.numFeat f.numPart) i n) / f.numPart) := by
  obtain ⟨-, ⟨⟨cs, hr⟩, -, -⟩⟩ := (C78_phis f hf.interaction p).1 hp
  rw [hr] at h
  obtain ⟨q, hM, rs, ph, d, hq, hrun, -, rfl⟩ := run_inv h
  obtain ⟨h1, h2, h3, h4⟩ := parts_eq.mp hq
  obtain ⟨en, hen, hgas⟩ := hf.entropy
  refine ⟨ph, d, rfl, fun m i => ?_⟩
  have e2 : q.en = en := by
    have : f.entropy = ⟨_, _, q.en⟩ := h2
    rw [hen] at this
    simpa using this.symm
  have e3 : q.es = .canonical ⟨x⟩ := by
    have : f.ensemble = ⟨_, q.es⟩ := h3
    rw [hf.ensemble] at this
    simpa using this.symm
  exact run_one (e := Finder.runEnv env _ q) (es := ⟨x⟩) (feat := feat) (l := l) hf.kill hf.bound hf.accept
    hf.kill_bound (by show IsIdealGas (q.en.toI _) l feat; rw [e2]; exact hgas)
    (by show q.es.toI _ = _; rw [e3]; rfl) hint (fun _ => rfl) hrun m i

/-- **C101**, which fractions are respected: a run of one step after `reinitialize_from_phis` returns the
positive fractions `phi` that were given exactly if their mean over the compartments is the prescribed one
and `ln φ_i / l_i + Σ_j χ_ij φ_j` is the same in all compartments. -/
theorem C101_respected (hf : MixtureFinder f ia feat l x) (hl : ∀ i, 0 < l i)
    {phi : Mat f.numComp f.numPart ℝ} (hphi : ∀ i m, 0 < phi i m) {p : NDArr ℝ}
    (hp : p.shape = [f.numFeat, f.numPart])
    (hpv : ∀ s m, p.toMat f.numFeat f.numPart s m = featureFractions feat phi s m) {env : FinderEnv G}
    {tol : Option ℝ} {interval : Option ℤ} (hint : 0 < interval.getD f.interval) {g : Finder G} {r : RunOut}
    (h : (f.reinitPhis p).1.run env (some 1) tol interval = (g, .ok r)) :
    ∃ ph d, r = ⟨f.numPart, f.numComp, ph, d⟩ ∧ ((∀ m i, ph.fractions m i = phi i m) ↔
      (∀ i, ∑ m, phi i m = f.numPart * x i) ∧ ∃ mu : Vec f.numComp ℝ, ∀ i m,
        Real.log (phi i m) / l i + ∑ j, ia.chis (feat i) (feat j) * phi j m = mu i) := by
  obtain ⟨ph, d, hr, hfr⟩ := C101_first_step hf hp hint h
  obtain ⟨-, hM, -⟩ := run_inv h
  have : NeZero f.numPart := by
    obtain ⟨-, ⟨⟨cs, hr⟩, -, -⟩⟩ := (C78_phis f hf.interaction p).1 hp
    rw [hr] at hM
    exact hM
  have hpe : p.toMat f.numFeat f.numPart = featureFractions feat phi := funext fun s => funext fun m => hpv s m
  rw [hpe] at hfr
  refine ⟨ph, d, hr, ?_⟩
  rw [← boltzmann_iff hl hphi]
  refine forall_congr' fun m => forall_congr' fun i => ?_
  rw [hfr m i]
  exact eq_comm

/-- **C101**, coexisting phases of equal volumes are respected exactly if they have the same pressure. -/
theorem C101_coexisting (hf : MixtureFinder f ia feat l x) (hl : ∀ i, 0 < l i)
    {phi : Mat f.numComp f.numPart ℝ} (hco : Coexistence ia.chis feat l x (fun _ => 1) phi) {p : NDArr ℝ}
    (hp : p.shape = [f.numFeat, f.numPart])
    (hpv : ∀ s m, p.toMat f.numFeat f.numPart s m = featureFractions feat phi s m) {env : FinderEnv G}
    {tol : Option ℝ} {interval : Option ℤ} (hint : 0 < interval.getD f.interval) {g : Finder G} {r : RunOut}
    (h : (f.reinitPhis p).1.run env (some 1) tol interval = (g, .ok r)) :
    ∃ ph d, r = ⟨f.numPart, f.numComp, ph, d⟩ ∧ ((∀ m i, ph.fractions m i = phi i m) ↔
      ∀ m n, phasePressure ia.chis feat l (fun j => phi j m) =
        phasePressure ia.chis feat l fun j => phi j n) := by
  obtain ⟨ph, d, hr, hiff⟩ := C101_respected hf hl hco.pos hp hpv hint h
  obtain ⟨-, hM, -⟩ := run_inv h
  have : NeZero f.numPart := by
    obtain ⟨-, ⟨⟨cs, hr⟩, -, -⟩⟩ := (C78_phis f hf.interaction p).1 hp
    rw [hr] at hM
    exact hM
  exact ⟨ph, d, hr, hiff.trans (coexistence_pressure hco)⟩

/-- **C101**, phases of equal pressure stay: without constraints, a run of any length after
`reinitialize_from_phis` with coexisting phases of equal volumes and pressures returns these phases, with
errors zero, at its first check. -/
theorem C101_kept (hf : MixtureFinder f ia feat l x) (hl : ∀ i, 0 < l i) (hcons : f.constraints = [])
    {phi : Mat f.numComp f.numPart ℝ} (hco : Coexistence ia.chis feat l x (fun _ => 1) phi)
    (hpr : ∀ m n, phasePressure ia.chis feat l (fun j => phi j m) = phasePressure ia.chis feat l fun j => phi j n)
    {p : NDArr ℝ} (hp : p.shape = [f.numFeat, f.numPart])
    (hpv : ∀ s m, p.toMat f.numFeat f.numPart s m = featureFractions feat phi s m) {env : FinderEnv G}
    {ms : Option ℚ} {tol : Option ℝ} {interval : Option ℤ} {g : Finder G} {r : RunOut}
    (h : (f.reinitPhis p).1.run env ms tol interval = (g, .ok r)) :
    ∃ ph d, r = ⟨f.numPart, f.numComp, ph, d⟩ ∧ (∀ m i, ph.fractions m i = phi i m) ∧ (∀ m, ph.volumes m = 1) ∧
      d.maxAbsIncomp = 0 ∧ d.maxAbsOmegaDiff = 0 ∧ d.maxAbsJsDiff = 0 ∧ d.maxConstraintResidue = 0 ∧
      (0 < tol.getD f.tolerance → 0 < ms.getD f.maxSteps → 0 < interval.getD f.interval →
        (d.steps : ℤ) ≤ interval.getD f.interval) := by
  obtain ⟨-, ⟨⟨cs, hr⟩, henf, -⟩⟩ := (C78_phis f hf.interaction p).1 hp
  have hcs : cs = [] := by
    have h1 : (f.reinitPhis p).1.constraints = [] := by
      have hu : Finder.unpackInteraction f.interaction f.numFeat = some ia := unpackInteraction_eq.mpr hf.interaction
      have hc : f.checkField p = .ok (p.toMat f.numFeat f.numPart) := by simp [Finder.checkField, hp]
      unfold Finder.reinitPhis
      rw [hc]
      dsimp only
      rw [hu]
      simp [Finder.reinitConstraint, Finder.resetRevive, hcons]
    rw [hr] at h1
    exact h1
  subst hcs
  rw [hr] at h
  obtain ⟨q, hM, rs, ph, d, hq, hrun, -, rfl⟩ := run_inv h
  obtain ⟨h1, h2, h3, h4⟩ := parts_eq.mp hq
  obtain ⟨en, hen, hgas⟩ := hf.entropy
  have : NeZero f.numPart := hM
  have e1 : q.ia = ia := by
    have : f.interaction = ⟨_, q.ia⟩ := h1
    rw [hf.interaction] at this
    simpa using this.symm
  have e2 : q.en = en := by
    have : f.entropy = ⟨_, _, q.en⟩ := h2
    rw [hen] at this
    simpa using this.symm
  have e3 : q.es = .canonical ⟨x⟩ := by
    have : f.ensemble = ⟨_, q.es⟩ := h3
    rw [hf.ensemble] at this
    simpa using this.symm
  have e4 : q.cons = [] := by
    have : ([] : List (PackedCons f.numPart)) = q.cons.map _ := h4
    simpa using this.symm
  have hpe : p.toMat f.numFeat f.numPart = featureFractions feat phi := funext fun s => funext fun m => hpv s m
  have key := C63_equilibrium_stationary (e := Finder.runEnv env _ q) (ia := ia) (es := ⟨x⟩) (feat := feat) (l := l)
    (phi := phi) (c := -phasePressure ia.chis feat l fun j => phi j 0) hf.kill (by show q.ia.toI _ = _; rw [e1])
    (by show IsIdealGas (q.en.toI _) l feat; rw [e2]; exact hgas) (by show q.es.toI _ = _; rw [e3]; rfl)
    (fun i => (hl i).ne') (fun m => by
      show f.params.killThreshold < 1
      have := hf.kill_bound
      have := hf.bound
      linarith) hco
    (fun r m => by
      show ∑ s, ia.chis r s * p.toMat f.numFeat f.numPart s m = _
      rw [hpe, chis_featureFractions, ← hpr m 0]
      unfold equilibriumField phasePressure
      ring)
    (fun k hk => by
      have : k ∈ q.cons := hk
      rw [e4] at this
      cases this) hrun
  exact ⟨ph, d, rfl, key.2.1, fun m => by rw [key.1]; rfl, key.2.2.2.2.1, key.2.2.2.2.2.1, key.2.2.2.2.2.2.1,
    key.2.2.2.2.2.2.2.1, key.2.2.2.2.2.2.2.2.2⟩

end Finder

/-- **C101**, symmetric mixtures: phases that differ only by permutations of components which leave sizes and
interactions unchanged have the same pressure. -/
theorem C101_symmetric {C S : ℕ} {chis : Mat S S ℝ} {feat : Fin C → Fin S} {l phi psi : Vec C ℝ}
    (σ : Equiv.Perm (Fin C)) (hl : ∀ i, l (σ i) = l i)
    (hchi : ∀ i j, chis (feat (σ i)) (feat (σ j)) = chis (feat i) (feat j)) (h : ∀ i, psi (σ i) = phi i) :
    phasePressure chis feat l psi = phasePressure chis feat l phi := by
  unfold phasePressure
  rw [← Equiv.sum_comp σ (fun j => psi j / l j),
    ← Equiv.sum_comp σ (fun j => ∑ k, chis (feat j) (feat k) * psi j * psi k)]
  simp only [h, hl]
  congr 3
  refine Finset.sum_congr rfl fun j _ => ?_
  rw [← Equiv.sum_comp σ (fun k => chis (feat (σ j)) (feat k) * phi j * psi k)]
  simp only [h, hchi]

namespace Demo

/-- A finder with two compartments for a binary mixture. -/
noncomputable def restartFinder (ia : FHCompiled 2 ℝ) (l x : Vec 2 ℝ) : Finder Unit where
  numComp := 2
  numFeat := 2
  numPart := 2
  maxSteps := 1000000
  criterion := "standard"
  tolerance := 1 / 100000
  interval := 10000
  randomStd := 5
  params := params
  maxRevive := 16
  kwargs := []
  interaction := ⟨2, ia⟩
  entropy := ⟨2, 2, .ideal ⟨l⟩⟩
  ensemble := ⟨2, .canonical ⟨x⟩⟩
  constraints := []
  omegas := fun _ _ => 0
  Js := fun _ => 1
  phisFeat := fun _ _ => 0
  phisComp := fun _ _ => 0
  reviveLeft := 32
  g := ()
  diagnostics := none

theorem restart_mixture (ia : FHCompiled 2 ℝ) (l x : Vec 2 ℝ) :
    MixtureFinder (restartFinder ia l x) ia id l x where
  interaction := rfl
  entropy := ⟨.ideal ⟨l⟩, rfl, (⟨l⟩ : IdealC 2).isIdealGas (M := 2)⟩
  ensemble := rfl
  kill := by norm_num [restartFinder, params]
  accept := by norm_num [restartFinder, params]
  bound := by norm_num [restartFinder, params]
  kill_bound := by norm_num [restartFinder, params]

theorem restart_run (ia : FHCompiled 2 ℝ) (l x : Vec 2 ℝ) (p : Mat 2 2 ℝ) {ms : ℚ} (hms : 0 < ms) :
    ∃ g r, ((restartFinder ia l x).reinitPhis (NDArr.ofMat p)).1.run fenv (some ms) none none = (g, .ok r) := by
  set f := restartFinder ia l x with hf
  have hp : (NDArr.ofMat p).shape = [f.numFeat, f.numPart] := rfl
  have hc : f.checkField (NDArr.ofMat p) = .ok ((NDArr.ofMat p).toMat f.numFeat f.numPart) := by
    simp [Finder.checkField, hp]
  have hu : Finder.unpackInteraction f.interaction f.numFeat = some ia := unpackInteraction_eq.mpr rfl
  have hr : ∃ om, (f.reinitPhis (NDArr.ofMat p)).1 = { f with omegas := om } := by
    refine ⟨ia.potential ((NDArr.ofMat p).toMat 2 2), ?_⟩
    unfold Finder.reinitPhis
    rw [hc]
    dsimp only
    rw [hu]
    rfl
  obtain ⟨om, hr⟩ := hr
  rw [hr]
  have : NeZero ({ f with omegas := om } : Finder Unit).numPart := ⟨two_ne_zero⟩
  have hpar : ({ f with omegas := om } : Finder Unit).parts = some ⟨ia, .ideal ⟨l⟩, .canonical ⟨x⟩, []⟩ :=
    parts_eq.mpr ⟨rfl, rfl, rfl, rfl⟩
  rw [run_some hpar]
  have hen : IsIdealGas (Finder.runEnv fenv ({ f with omegas := om } : Finder Unit)
      (⟨ia, .ideal ⟨l⟩, .canonical ⟨x⟩, []⟩ : Finder.Parts 2 2 2)).en l id := (⟨l⟩ : IdealC 2).isIdealGas (M := 2)
  obtain ⟨rs, ph, d, h⟩ := run_ok (e := Finder.runEnv fenv ({ f with omegas := om } : Finder Unit)
      (⟨ia, .ideal ⟨l⟩, .canonical ⟨x⟩, []⟩ : Finder.Parts 2 2 2)) (maxSteps := ms) (interval := 10000)
    (tol := 1 / 100000) (rngZero_ok ℝ) hen (⟨x⟩ : CanonicalC 2 ℝ).total
    (by simp [Finder.runEnv, hf, restartFinder, params]) (by simp [Finder.runEnv, hf, restartFinder, params])
    (by simp [Finder.runEnv, hf, restartFinder, params]) (by simp [Finder.runEnv, hf, restartFinder, params]) rfl hms
    (by norm_num) (({ f with omegas := om } : Finder Unit).state []) 32 (fun c hc => by cases hc)
    (Or.inl ⟨(0 : Fin 2), (zero_lt_one : (0 : ℝ) < 1)⟩)
  exact ⟨_, _, congrArg (Finder.finish ({ f with omegas := om } : Finder Unit)) h⟩

/-- Inverse size of the second component of an asymmetric mixture. -/
noncomputable def asymInv : ℝ := (3 * Real.log 2 - 2) / (5 * (Real.log 3 - Real.log 2) - 2)

/-- An asymmetric binary mixture. -/
noncomputable def asymFH : FHCompiled 2 ℝ :=
  FHCompiled.new ![![0, 2 * (Real.log 2 + asymInv * (Real.log 3 - Real.log 2))],
    ![2 * (Real.log 2 + asymInv * (Real.log 3 - Real.log 2)), 0]] 1

/-- Its coexisting phases (columns). -/
noncomputable def asymPhi : Mat 2 2 ℝ := ![![1 / 4, 1 / 2], ![3 / 4, 1 / 2]]

theorem log_bounds : 2 / 3 < Real.log 2 ∧ Real.log 2 < 7 / 10 ∧ 2 / 5 < Real.log 3 - Real.log 2 ∧
    Real.log 3 - Real.log 2 < 9 / 22 := by
  have h1 := Real.log_two_gt_d9
  have h2 := Real.log_two_lt_d9
  have e : Real.log 3 - Real.log 2 = Real.log (3 / 2) := (Real.log_div (by norm_num) (by norm_num)).symm
  have h3 := Real.exp_one_lt_d9
  have h4 := Real.exp_one_gt_d9
  refine ⟨by linarith, by linarith, ?_, ?_⟩
  · rw [e, Real.lt_log_iff_exp_lt (by norm_num)]
    refine lt_of_pow_lt_pow_left₀ 5 (by norm_num) ?_
    rw [← Real.exp_nat_mul, show ((5 : ℕ) : ℝ) * (2 / 5) = (2 : ℕ) * 1 by norm_num, Real.exp_nat_mul]
    calc Real.exp 1 ^ 2 < 2.7182818286 ^ 2 := pow_lt_pow_left₀ h3 (Real.exp_pos 1).le two_ne_zero
      _ < (3 / 2) ^ 5 := by norm_num
  · rw [e, Real.log_lt_iff_lt_exp (by norm_num)]
    refine lt_of_pow_lt_pow_left₀ 22 (Real.exp_pos _).le ?_
    rw [← Real.exp_nat_mul, show ((22 : ℕ) : ℝ) * (9 / 22) = (9 : ℕ) * 1 by norm_num, Real.exp_nat_mul]
    calc ((3 : ℝ) / 2) ^ 22 < 2.7182818283 ^ 9 := by norm_num
      _ < Real.exp 1 ^ 9 := pow_lt_pow_left₀ h4 (by norm_num) (by norm_num)

theorem asymInv_eq : asymInv * (5 * (Real.log 3 - Real.log 2) - 2) = 3 * Real.log 2 - 2 :=
  div_mul_cancel₀ _ (by have := log_bounds; linarith [this.2.2.1] : 5 * (Real.log 3 - Real.log 2) - 2 ≠ 0)

theorem asymInv_gt : 17 / 10 < asymInv := by
  obtain ⟨-, -, h3, h4⟩ := log_bounds
  have h1 := Real.log_two_gt_d9
  rw [asymInv, lt_div_iff₀ (by linarith)]
  linarith

/-- The phases of the asymmetric mixture coexist in equal volumes. -/
theorem asym_coexistence : Coexistence asymFH.chis id ![1, asymInv⁻¹] ![3 / 8, 5 / 8] (fun _ => 1) asymPhi where
  volumes := by simp
  pos := by intro i m; fin_cases i <;> fin_cases m <;> simp [asymPhi]
  incompressible := by
    intro m; fin_cases m <;> simp [asymPhi, Fin.sum_univ_two] <;> norm_num
  mean := by
    intro i; fin_cases i <;> simp [asymPhi, Fin.sum_univ_two] <;> norm_num
  balance := by
    have e1 : Real.log (1 / 4) = - (2 * Real.log 2) := by
      rw [show (1 / 4 : ℝ) = (2 ^ 2)⁻¹ by norm_num, Real.log_inv, Real.log_pow]
      norm_num
    have e2 : Real.log (3 / 4) = Real.log 3 - 2 * Real.log 2 := by
      rw [Real.log_div (by norm_num) (by norm_num), show (4 : ℝ) = 2 ^ 2 by norm_num, Real.log_pow]
      norm_num
    have e3 : Real.log (1 / 2) = - Real.log 2 := by rw [one_div, Real.log_inv]
    have he := asymInv_eq
    refine ⟨fun i => chemPot (fun i j => asymFH.chis (id i) (id j)) ![1, asymInv⁻¹] (fun j => asymPhi j 1) i,
      fun i m => ?_⟩
    unfold chemPot
    simp only [id, Fin.sum_univ_two, asymFH, FHCompiled.new, asymPhi]
    fin_cases i <;> fin_cases m <;>
      simp only [Fin.zero_eta, Fin.mk_one, Fin.isValue, Matrix.cons_val_zero, Matrix.cons_val_one,
        Matrix.cons_val', Matrix.cons_val_fin_one, e1, e2, e3, div_inv_eq_mul]
    · linear_combination (1 / 8 : ℝ) * he
    · linear_combination (1 / 8 : ℝ) * he

theorem asym_pressure : phasePressure asymFH.chis id ![1, asymInv⁻¹] (fun j => asymPhi j 0) ≠
    phasePressure asymFH.chis id ![1, asymInv⁻¹] fun j => asymPhi j 1 := by
  obtain ⟨h1, h2, h3, h4⟩ := log_bounds
  have h5 := asymInv_gt
  unfold phasePressure
  simp only [id, Fin.sum_univ_two, asymFH, FHCompiled.new, asymPhi, Matrix.cons_val_zero, Matrix.cons_val_one,
    Matrix.cons_val', Matrix.cons_val_fin_one, div_inv_eq_mul]
  intro h
  nlinarith [mul_lt_mul_of_pos_left h4 (by linarith : (0:ℝ) < asymInv)]

theorem restart_fractions (phi : Mat 2 2 ℝ) (s : Fin 2) (m : Fin 2) :
    (NDArr.ofMat phi).toMat 2 2 s m = featureFractions id phi s m := by
  have h1 : (NDArr.ofMat phi).toMat 2 2 s m = phi s m := by
    fin_cases s <;> fin_cases m <;> simp [NDArr.ofMat, NDArr.toMat]
  rw [h1]
  simp [featureFractions, Finset.sum_filter]

theorem even_coexistence : Coexistence coexFH.chis id (fun _ => 1) ![1 / 2, 1 / 2] (fun _ => 1) coexPhi where
  volumes := by simp
  pos := coexistence.pos
  incompressible := coexistence.incompressible
  mean := by
    intro i; fin_cases i <;> simp [coexPhi, Fin.sum_univ_two] <;> norm_num
  balance := coexistence.balance

theorem even_pressure (m n : Fin 2) : phasePressure coexFH.chis id (fun _ => 1) (fun j => coexPhi j m) =
    phasePressure coexFH.chis id (fun _ => 1) fun j => coexPhi j n := by
  have h : phasePressure coexFH.chis id (fun _ => 1) (fun j => coexPhi j 1) =
      phasePressure coexFH.chis id (fun _ => 1) fun j => coexPhi j 0 := by
    refine C101_symmetric (Equiv.swap 0 1) (fun _ => rfl) (fun i j => ?_) fun i => ?_
    · fin_cases i <;> fin_cases j <;> simp [coexFH, FHCompiled.new]
    · fin_cases i <;> simp [coexPhi]
  fin_cases m <;> fin_cases n
  · rfl
  · exact h.symm
  · exact h
  · rfl

end Demo

/-- **C101**, asymmetric mixtures: there are phases that coexist in equal volumes, but a run of one step after
`reinitialize_from_phis` with exactly these phases returns different ones. -/
theorem C101_not_respected : ∃ (f : Finder Unit) (ia : FHCompiled f.numFeat ℝ) (feat : Fin f.numComp → Fin f.numFeat)
    (l x : Vec f.numComp ℝ) (phi : Mat f.numComp f.numPart ℝ) (p : NDArr ℝ), MixtureFinder f ia feat l x ∧
      (∀ i, 0 < l i) ∧ (∀ r s, ia.chis r s = ia.chis s r) ∧ Coexistence ia.chis feat l x (fun _ => 1) phi ∧
      p.shape = [f.numFeat, f.numPart] ∧
      (∀ s m, p.toMat f.numFeat f.numPart s m = featureFractions feat phi s m) ∧
      ∃ g ph d, (f.reinitPhis p).1.run Demo.fenv (some 1) none none = (g, .ok ⟨f.numPart, f.numComp, ph, d⟩) ∧
        ∃ m i, ph.fractions m i ≠ phi i m := by
  have hl : ∀ i, 0 < (![1, Demo.asymInv⁻¹] : Vec 2 ℝ) i := fun i => by
    have := Demo.asymInv_gt
    fin_cases i
    · simp
    · simp; linarith
  obtain ⟨g, r, h⟩ := Demo.restart_run Demo.asymFH ![1, Demo.asymInv⁻¹] ![3 / 8, 5 / 8] Demo.asymPhi
    (ms := 1) one_pos
  have hm := Demo.restart_mixture Demo.asymFH ![1, Demo.asymInv⁻¹] ![3 / 8, 5 / 8]
  obtain ⟨ph, d, hr, hiff⟩ := C101_coexisting hm hl Demo.asym_coexistence (p := NDArr.ofMat Demo.asymPhi) rfl
    (Demo.restart_fractions Demo.asymPhi) (by norm_num [Demo.restartFinder]) h
  refine ⟨Demo.restartFinder Demo.asymFH ![1, Demo.asymInv⁻¹] ![3 / 8, 5 / 8], Demo.asymFH, id,
    ![1, Demo.asymInv⁻¹], ![3 / 8, 5 / 8], Demo.asymPhi, NDArr.ofMat Demo.asymPhi, hm, hl, ?_,
    Demo.asym_coexistence, rfl, Demo.restart_fractions Demo.asymPhi, g, ph, d, by rw [h, hr], ?_⟩
  · show ∀ r s : Fin 2, _
    intro r s
    fin_cases r <;> fin_cases s <;> rfl
  · by_contra hc
    push Not at hc
    exact Demo.asym_pressure (hiff.mp hc (0 : Fin 2) (1 : Fin 2))

-- C101: the phases of the symmetric mixture are respected, and stay in runs of any length.
example : ∃ g ph d, ((Demo.restartFinder Demo.coexFH (fun _ => 1) ![1 / 2, 1 / 2]).reinitPhis
      (NDArr.ofMat Demo.coexPhi)).1.run Demo.fenv (some 1000000) none none = (g, .ok ⟨2, 2, ph, d⟩) ∧
    ph.fractions 0 0 = 1 / 4 ∧ ph.fractions 1 0 = 3 / 4 ∧ ph.volumes 0 = 1 ∧ d.maxAbsJsDiff = 0 ∧
    (d.steps : ℤ) ≤ 10000 := by
  obtain ⟨g, r, h⟩ := Demo.restart_run Demo.coexFH (fun _ => 1) ![1 / 2, 1 / 2] Demo.coexPhi
    (ms := 1000000) (by norm_num)
  obtain ⟨ph, d, rfl, k1, k2, -, -, k3, -, k4⟩ := C101_kept
    (Demo.restart_mixture Demo.coexFH (fun _ => 1) ![1 / 2, 1 / 2]) (fun _ => one_pos) rfl
    Demo.even_coexistence Demo.even_pressure (p := NDArr.ofMat Demo.coexPhi) rfl
    (Demo.restart_fractions Demo.coexPhi) h
  refine ⟨g, ph, d, h, ?_, ?_, k2 (0 : Fin 2), k3, k4 ?_ ?_ ?_⟩
  · exact (k1 (0 : Fin 2) (0 : Fin 2)).trans rfl
  · exact (k1 (1 : Fin 2) (0 : Fin 2)).trans rfl
  · norm_num [Demo.restartFinder]
  · norm_num
  · norm_num [Demo.restartFinder]

-- C101: one step from other fractions of the asymmetric mixture.
example : ∃ g r ph d, ((Demo.restartFinder Demo.asymFH ![1, 2] ![1 / 4, 3 / 4]).reinitPhis
      (NDArr.ofMat Demo.asymPhi)).1.run Demo.fenv (some 1) none none = (g, .ok r) ∧ r = ⟨2, 2, ph, d⟩ ∧
    ∑ m, ph.fractions m 0 = 1 / 2 := by
  obtain ⟨g, r, h⟩ := Demo.restart_run Demo.asymFH ![1, 2] ![1 / 4, 3 / 4] Demo.asymPhi (ms := 1) one_pos
  obtain ⟨ph, d, hr, hfr⟩ := C101_first_step (Demo.restart_mixture Demo.asymFH ![1, 2] ![1 / 4, 3 / 4])
    (p := NDArr.ofMat Demo.asymPhi) rfl (by norm_num [Demo.restartFinder]) h
  refine ⟨g, r, ph, d, h, hr, ?_⟩
  have hfr : ∀ m : Fin 2, ph.fractions m (0 : Fin 2) = 1 / 4 * boltzmann Demo.asymFH.chis id ![1, 2]
      ((NDArr.ofMat Demo.asymPhi).toMat 2 2) 0 m / ((∑ n, boltzmann Demo.asymFH.chis id ![1, 2]
      ((NDArr.ofMat Demo.asymPhi).toMat 2 2) 0 n) / (2 : ℕ)) := fun m => hfr m (0 : Fin 2)
  rw [Finset.sum_congr rfl fun m _ => hfr m, ← Finset.sum_div, ← Finset.mul_sum]
  have hpos : 0 < ∑ n, boltzmann Demo.asymFH.chis id ![1, 2] ((NDArr.ofMat Demo.asymPhi).toMat 2 2) 0 n :=
    Finset.sum_pos (fun n _ => Real.exp_pos _) Finset.univ_nonempty
  field_simp
  norm_num

end Flory
