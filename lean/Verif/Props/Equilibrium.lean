import Verif.Lemmas.Equilibrium
import Verif.Props.Run
import Mathlib.Tactic.FinCases

/-! # Equilibria and fixed points -/

set_option linter.unusedSectionVars false

namespace Flory

open Spec

section Fixed

variable {G : Type} {C S M : ℕ} [NeZero M]
variable {e : RunEnv C S M ℝ G} {ia : FHCompiled S ℝ} {es : CanonicalC C ℝ} {sc : Vec C ℝ → Fin C → ℝ}
  {l : Vec C ℝ} {feat : Fin C → Fin S} {A : Vec C ℝ} {c : ℝ} {phi : Mat C M ℝ}

theorem AtRest.trans {s : State C S M ℝ G} {t t' : Trace C S M ℝ G} {k : ℕ}
    (h : AtRest phi k s t) (h' : AtRest phi t.reviveCount t.state t') : AtRest phi k s t' :=
  ⟨h'.phisComp, h'.Js.trans h.Js, h'.JsOld.trans h.Js, h'.omegas.trans h.omegas, h'.incomp,
    h'.omegaDiff, h'.jsDiff, h'.residue, h'.reviveCount.trans h.reviveCount⟩

theorem Spec.Passes.fixed (hia : e.ia = ia.toI M)
    (hen : IsIdealGas e.en l feat) (hes : Scales e.es sc) {b : ℤ} {n count : ℕ}
    {s : State C S M ℝ G} {t : Trace C S M ℝ G} (h : Passes e b n count s t)
    (hs : Fixed ia.chis feat l sc e.params.killThreshold A c phi s) :
    AtRest phi count s t ∧
      Fixed ia.chis feat l sc e.params.killThreshold A c phi t.state := by
  induction h with
  | one h =>
    rw [hia] at h
    exact fixed_pass hen hes h hs
  | more h1 h2 ih =>
    obtain ⟨i1, i2⟩ := ih hs
    rw [hia] at h2
    obtain ⟨j1, j2⟩ := fixed_pass hen hes h2 i2
    exact ⟨i1.trans j1, j2⟩

theorem Spec.Chain.fixed (hia : e.ia = ia.toI M)
    (hen : IsIdealGas e.en l feat) (hes : Scales e.es sc) {b b' : ℤ} {inner : ℕ}
    {ts : List (Trace C S M ℝ G)} {s s' : State C S M ℝ G} (h : Chain e inner ts s b s' b')
    (hs : Fixed ia.chis feat l sc e.params.killThreshold A c phi s) :
    b' = b ∧ ∀ t ∈ ts, AtRest phi 0 s t := by
  induction h with
  | nil => simp
  | cons h1 h2 ih =>
    obtain ⟨i1, i2⟩ := h1.fixed hia hen hes hs
    obtain ⟨j1, j2⟩ := ih i2
    refine ⟨by rw [j1, i1.reviveCount]; simp, fun t' ht' => ?_⟩
    rcases List.mem_cons.mp ht' with rfl | ht'
    · exact i1
    · have := j2 t' ht'
      rw [← i1.reviveCount] at this
      exact i1.trans this

theorem run_fixed (hthr : 0 ≤ e.params.killThreshold) (hia : e.ia = ia.toI M)
    (hen : IsIdealGas e.en l feat) (hes : Scales e.es sc) {maxSteps : ℚ} {tol : ℝ} {interval b : ℤ}
    {st : State C S M ℝ G} {f : RunState C S M ℝ G} {ph : Phases M C ℝ} {d : Diagnostics ℝ}
    (hs : Fixed ia.chis feat l sc e.params.killThreshold A c phi st)
    (h : runImpl e maxSteps tol interval st b = (f, .ok (ph, d))) :
    ph.volumes = st.Js ∧ (∀ m i, ph.fractions m i = phi i m) ∧ f.st.Js = st.Js ∧
      f.st.omegas = st.omegas ∧ d.maxAbsIncomp = 0 ∧ d.maxAbsOmegaDiff = 0 ∧ d.maxAbsJsDiff = 0 ∧
      d.maxConstraintResidue = 0 ∧ d.reviveCountLeft = b ∧
      (0 < tol → 0 < maxSteps → 0 < interval → (d.steps : ℤ) ≤ interval) := by
  obtain ⟨tr, inner, ts, t, cp, a1, a2, hf⟩ := run_facts hthr h
  obtain ⟨k1, k2⟩ := hf.chain.fixed hia hen hes hs
  have ht := k2 t (by simp)
  have hal : ∀ m, e.params.killThreshold < t.Js m := by rw [ht.Js]; exact hs.alive
  obtain ⟨li, n, hc⟩ := reviveByCopy_all_alive (rng := e.rng) (T := t.phisComp) (g := t.g) hthr hal
  obtain rfl := Except.ok.inj (hf.copy.symm.trans hc)
  refine ⟨?_, fun m i => ?_, ?_, ?_, ?_, ?_, ?_, ?_, ?_, fun htol h1 h2 => ?_⟩
  · rw [hf.volumes]; exact ht.Js
  · rw [hf.fractions]
    show t.phisComp i m = _
    rw [ht.phisComp]
  · rw [hf.arrays]; exact ht.Js
  · rw [hf.arrays]; exact ht.omegas
  · rw [hf.diag]; exact ht.incomp
  · rw [hf.diag]; exact ht.omegaDiff
  · rw [hf.diag]; exact ht.jsDiff
  · rw [hf.diag]; exact ht.residue
  · rw [hf.diag]; exact k1
  · have hts : ts = [] := by
      rw [List.eq_nil_iff_forall_not_mem]
      intro t' ht'
      have hr := k2 t' (by simp [ht'])
      refine hf.notMet t' ht' ⟨by rw [hr.Js, hr.JsOld], ?_, ?_, ?_, ?_⟩
      · rw [hr.incomp]; exact htol
      · rw [hr.omegaDiff]; exact htol
      · rw [hr.jsDiff]; exact htol
      · rw [hr.residue]; exact htol
    obtain ⟨k, hk, hk1, hk2⟩ := stepsTracker_pos h1 h2
    obtain ⟨inner', hi1, hi2, hi3, -, -⟩ := stepsInner_spec h1 h2 hk hk2
    obtain rfl := Except.ok.inj (a1.symm.trans hk1)
    obtain rfl := Except.ok.inj (a2.symm.trans hi1)
    rw [hf.diag, hts]
    simpa using hi3

/-- A state with the volumes and fields of phases in equilibrium is a fixed point. -/
theorem Spec.Coexistence.fixed {chis : Mat S S ℝ} {phiMeans : Vec C ℝ} {thr : ℝ}
    {st : State C S M ℝ G} (hthr : 0 ≤ thr) (hl : ∀ i, l i ≠ 0) (halive : ∀ m, thr < st.Js m)
    (hco : Coexistence chis feat l phiMeans st.Js phi)
    (hom : ∀ r m, st.omegas r m = equilibriumField chis feat l (fun j => phi j m) r + c)
    (hcons : ∀ k ∈ st.cons, Fulfilled (fun r m => ∑ i, if feat i = r then phi i m else 0) st.Js k) :
    ∃ A, Fixed chis feat l (fun Qs i => phiMeans i / Qs i) thr A c phi st := by
  obtain ⟨mu, hmu⟩ := hco.balance
  have hb : ∀ i m, phi i m = Real.exp ((mu i + c) * l i - 1) * Real.exp (-st.omegas (feat i) m * l i) := ?_
  · exact ⟨fun i => Real.exp ((mu i + c) * l i - 1), halive, hco.volumes, hb,
      hco.incompressible, scale_of_mean (fun m => hthr.trans_lt (halive m)) hb hco.mean, hom, hcons⟩
  intro i m
  have h1 := hmu i m
  rw [← Real.exp_add, hom, ← h1]
  unfold chemPot equilibriumField
  rw [eq_comm, ← Real.exp_log (hco.pos i m)]
  congr 1
  have := hl i
  beta_reduce
  field_simp
  ring

/-- **C63**. A state whose volumes and fields are those of phases in equilibrium (equal chemical
potentials, incompressible, prescribed mean composition, constraints fulfilled) is a fixed point: a
run returns exactly these phases with zero errors, at the first check. -/
theorem C63_equilibrium_stationary (hthr : 0 ≤ e.params.killThreshold) (hia : e.ia = ia.toI M)
    (hen : IsIdealGas e.en l feat) (hes : e.es = es.toI M) (hl : ∀ i, l i ≠ 0)
    {maxSteps : ℚ} {tol : ℝ} {interval b : ℤ}
    {st : State C S M ℝ G} {f : RunState C S M ℝ G} {ph : Phases M C ℝ} {d : Diagnostics ℝ}
    (halive : ∀ m, e.params.killThreshold < st.Js m)
    (hco : Coexistence ia.chis feat l es.phiMeans st.Js phi)
    (hom : ∀ r m, st.omegas r m = equilibriumField ia.chis feat l (fun j => phi j m) r + c)
    (hcons : ∀ k ∈ st.cons, Fulfilled (fun r m => ∑ i, if feat i = r then phi i m else 0) st.Js k)
    (h : runImpl e maxSteps tol interval st b = (f, .ok (ph, d))) :
    ph.volumes = st.Js ∧ (∀ m i, ph.fractions m i = phi i m) ∧ f.st.Js = st.Js ∧
      f.st.omegas = st.omegas ∧ d.maxAbsIncomp = 0 ∧ d.maxAbsOmegaDiff = 0 ∧ d.maxAbsJsDiff = 0 ∧
      d.maxConstraintResidue = 0 ∧ d.reviveCountLeft = b ∧
      (0 < tol → 0 < maxSteps → 0 < interval → (d.steps : ℤ) ≤ interval) := by
  obtain ⟨A, hA⟩ := hco.fixed hthr hl halive hom hcons
  exact run_fixed hthr hia hen (hes ▸ es.scales) hA h

/-- **C61**. From equal volumes and the fields of the homogeneous mixture at `φ̄` (up to a constant), a
run (in particular one pass) returns the homogeneous mixture in every compartment with zero errors and
changes neither volumes nor fields. -/
theorem C61_homogeneous_stationary (hthr : 0 ≤ e.params.killThreshold)
    (hthr1 : e.params.killThreshold < 1) (hia : e.ia = ia.toI M)
    (hen : IsIdealGas e.en l feat) (hes : e.es = es.toI M) (hsum : ∑ i, es.phiMeans i = 1)
    {maxSteps : ℚ} {tol : ℝ} {interval b : ℤ}
    {st : State C S M ℝ G} {f : RunState C S M ℝ G} {ph : Phases M C ℝ} {d : Diagnostics ℝ}
    (hJ : ∀ m, st.Js m = 1)
    (hom : ∀ r m, st.omegas r m = ∑ j, ia.chis r (feat j) * es.phiMeans j + c)
    (hcons : ∀ k ∈ st.cons,
      Fulfilled (fun r _ => ∑ i, if feat i = r then es.phiMeans i else 0) st.Js k)
    (h : runImpl e maxSteps tol interval st b = (f, .ok (ph, d))) :
    (∀ m, ph.volumes m = 1) ∧ (∀ m i, ph.fractions m i = es.phiMeans i) ∧ f.st.Js = st.Js ∧
      f.st.omegas = st.omegas ∧ d.maxAbsIncomp = 0 ∧ d.maxAbsOmegaDiff = 0 ∧ d.maxAbsJsDiff = 0 ∧
      d.maxConstraintResidue = 0 ∧ d.reviveCountLeft = b ∧
      (0 < tol → 0 < maxSteps → 0 < interval → (d.steps : ℤ) ≤ interval) := by
  set c' := c + 1 / 2 * (∑ j, ∑ k, ia.chis (feat j) (feat k) * es.phiMeans j * es.phiMeans k)
    + ∑ j, es.phiMeans j / l j with hc'
  have hb : ∀ (i : Fin C) (m : Fin M), es.phiMeans i =
      es.phiMeans i * Real.exp ((∑ j, ia.chis (feat i) (feat j) * es.phiMeans j + c) * l i) *
        Real.exp (-st.omegas (feat i) m * l i) := fun i m => by
    rw [mul_assoc, ← Real.exp_add, hom, neg_mul, add_neg_cancel, Real.exp_zero, mul_one]
  have hr := run_fixed
    (A := fun i => es.phiMeans i * Real.exp ((∑ j, ia.chis (feat i) (feat j) * es.phiMeans j + c) * l i))
    (c := c') (phi := fun i _ => es.phiMeans i) hthr hia hen (hes ▸ es.scales)
    ⟨fun m => by rw [hJ]; exact hthr1, by simp [hJ], hb, fun _ => hsum,
      scale_of_mean (fun m => by rw [hJ]; exact one_pos) hb (fun i => by simp [hJ]),
      fun r m => ?_, hcons⟩ h
  · obtain ⟨h1, h2⟩ := hr
    exact ⟨fun m => by rw [h1, hJ], h2⟩
  · rw [hom, hc']
    unfold equilibriumField
    ring

/-- A pass without dead compartments and constraints that reports no errors has phases in balance. -/
theorem zero_errors {rng : Rng G ℝ} {en : EntropyI C S M ℝ} {es : EnsembleI C M ℝ} {p : Params ℝ}
    {tries : ℤ} {count : ℕ} {s : State C S M ℝ G} {t : Trace C S M ℝ G}
    (hen : IsIdealGas en l feat) (hes : Scales es sc) (hl : ∀ i, l i ≠ 0) (hsc : ∀ i, 0 < sc t.Qs i)
    (h : iterate (ia.toI M) en es rng p tries count s = .ok t)
    (halive : ∀ m, p.killThreshold < s.Js m)
    (hcons : ∀ k ∈ s.cons, k.Trivial) (h1 : t.maxAbsIncomp = 0)
    (h2 : t.maxAbsOmegaDiff = 0) (h3 : t.maxAbsJsDiff = 0) :
    (∀ m, t.masks m = 1) ∧ t.JsOld = s.Js ∧ t.omegasOld = s.omegas ∧ (∀ i m, 0 < t.phisComp i m) ∧
    (∀ m, ∑ i, t.phisComp i m = 1) ∧
    (∀ i m, chemPot (fun i j => ia.chis (feat i) (feat j)) l (fun j => t.phisComp j m) i =
      (Real.log (sc t.Qs i) + 1) / l i + t.localEnergyMean) ∧ ∀ r m, t.omegaDiff r m = 0 := by
  have hf := iterate_facts h
  have hrv := reviveBlock_all_alive (rng := rng) (p := p) (tries := tries) (Js := s.Js)
    (om := s.omegas) (g := s.g) (count := count) halive
  have hmk : ∀ m, t.masks m = 1 := fun m => by rw [hf.mask_eq, hrv, if_pos (halive m)]
  have hJ : t.JsOld = s.Js := funext fun m => by rw [hf.JsOld, hrv, hmk, mul_one]
  have hom : t.omegasOld = s.omegas := by rw [hf.omegasOld, hrv]
  have hinc : ∀ m, t.incomp m = 0 := fun m =>
    abs_nonpos_iff.mp (by have := hf.incomp_le m; rwa [h1] at this)
  have hjd : ∀ m, t.JsDiff m = 0 := fun m =>
    abs_nonpos_iff.mp (by have := hf.JsDiff_le m; rwa [h3] at this)
  have hod : ∀ r m, t.omegaDiff r m = 0 := fun r m => by
    have hS : S ≠ 0 := fun h0 => by subst h0; exact r.elim0
    have hsum := hf.sum_omegaDiff m hS
    rw [hinc] at hsum
    simp only [mul_zero, zero_mul] at hsum
    have hle : ∀ r, t.omegaDiff r m ≤ 0 := fun r => by
      have := hf.omegaDiff_le r m
      rwa [h2] at this
    exact (Finset.sum_eq_zero_iff_of_nonpos fun r _ => hle r).mp hsum r (Finset.mem_univ _)
  refine ⟨hmk, hJ, hom, fun i m => ?_, fun m => ?_, fun i m => ?_, hod⟩
  · rw [hf.phis_eq hen hes, hmk, mul_one]
    exact mul_pos (hsc i) (Real.exp_pos _)
  · have := hf.incomp_eq hes m
    rw [hinc, hmk, mul_one] at this
    linarith
  · have hid := hf.chemPot_identity hen hes (hmk m) (hl i) (hsc i)
    have hloc : t.localEnergy m = t.localEnergyMean := by
      have := hf.JsDiff m
      rw [hjd, hmk, mul_one] at this
      linarith
    have hid' : chemPot (fun i j => ia.chis (feat i) (feat j)) l (fun j => t.phisComp j m) i = _ := hid
    rw [hid', hod, hloc, hf.consShift_zero hcons]
    ring

/-- **C63**, converse. If a pass without dead compartments, started from volumes with mean one and
without constraints, reports no errors, then its fractions are phases in equilibrium with the
prescribed mean composition. -/
theorem C63_zero_errors_equilibrium {rng : Rng G ℝ} {en : EntropyI C S M ℝ} {p : Params ℝ} {tries : ℤ}
    {count : ℕ} {s : State C S M ℝ G} {t : Trace C S M ℝ G} (hthr : 0 ≤ p.killThreshold)
    (hen : IsIdealGas en l feat) (hl : ∀ i, l i ≠ 0) (hphi : ∀ i, 0 < es.phiMeans i)
    (h : iterate (ia.toI M) en (es.toI M) rng p tries count s = .ok t)
    (halive : ∀ m, p.killThreshold < s.Js m) (hvol : ∑ m, s.Js m = (M : ℝ))
    (hcons : ∀ k ∈ s.cons, k.Trivial) (h1 : t.maxAbsIncomp = 0)
    (h2 : t.maxAbsOmegaDiff = 0) (h3 : t.maxAbsJsDiff = 0) :
    Coexistence ia.chis feat l es.phiMeans s.Js t.phisComp := by
  have hf := iterate_facts h
  have hes : Scales (es.toI M) fun Qs i => es.phiMeans i / Qs i := es.scales
  have hM : (M : ℝ) ≠ 0 := by exact_mod_cast NeZero.ne M
  have hQ := hf.Qs_pos hen hthr
  obtain ⟨hmk, hJ, -, k1, k2, k3, -⟩ := zero_errors hen hes hl (fun i => div_pos (hphi i) (hQ i)) h halive
    hcons h1 h2 h3
  refine ⟨hvol, k1, k2, fun i => ?_, _, k3⟩
  have hq := hf.Qs_eq hen i
  rw [hJ, hvol, eq_div_iff hM] at hq
  have e1 : ∀ m, s.Js m * t.phisComp i m = es.phiMeans i / t.Qs i *
      (Real.exp (-t.omegasOld (feat i) m * l i) * s.Js m) := by
    intro m
    rw [hf.phis_eq hen hes, hmk]
    ring
  simp only [e1]
  rw [← Finset.mul_sum, ← hq]
  have := (hQ i).ne'
  field_simp

end Fixed

namespace Demo

/-- Symmetric binary mixture with `χ = 2 ln 3`: compositions 1/4 and 3/4 coexist. -/
noncomputable def coexFH : FHCompiled 2 ℝ :=
  FHCompiled.new ![![0, 2 * Real.log 3], ![2 * Real.log 3, 0]] 1

/-- The coexisting compositions (columns). -/
noncomputable def coexPhi : Mat 2 2 ℝ := ![![1 / 4, 3 / 4], ![3 / 4, 1 / 4]]

/-- Mean fractions for volumes 1/2 and 3/2. -/
noncomputable def coexEns : CanonicalC 2 ℝ := ⟨![5 / 8, 3 / 8]⟩

theorem coexistence : Coexistence coexFH.chis id (fun _ => 1) coexEns.phiMeans
    (![1 / 2, 3 / 2] : Vec 2 ℝ) coexPhi where
  volumes := by simp only [Fin.sum_univ_two, Matrix.cons_val_zero, Matrix.cons_val_one]; norm_num
  pos := by intro i m; fin_cases i <;> fin_cases m <;> simp [coexPhi]
  incompressible := by
    intro m; fin_cases m <;> simp [coexPhi, Fin.sum_univ_two] <;> norm_num
  mean := by
    intro i; fin_cases i <;> simp [coexPhi, coexEns, Fin.sum_univ_two] <;> norm_num
  balance := by
    have e1 : Real.log (1 / 4) = - (2 * Real.log 2) := by
      rw [show (1 / 4 : ℝ) = (2 ^ 2)⁻¹ by norm_num, Real.log_inv, Real.log_pow]
      norm_num
    have e2 : Real.log (3 / 4) = Real.log 3 - 2 * Real.log 2 := by
      rw [Real.log_div (by norm_num) (by norm_num), show (4 : ℝ) = 2 ^ 2 by norm_num, Real.log_pow]
      norm_num
    refine ⟨fun _ => -(2 * Real.log 2) + 3 / 2 * Real.log 3 - 3 / 8 * Real.log 3, fun i m => ?_⟩
    unfold chemPot
    simp only [id, Fin.sum_univ_two, coexFH, FHCompiled.new, coexPhi]
    fin_cases i <;> fin_cases m <;>
      simp only [Fin.zero_eta, Fin.mk_one, Fin.isValue, Matrix.cons_val_zero, Matrix.cons_val_one,
        Matrix.cons_val', Matrix.cons_val_fin_one, e1, e2] <;> ring

/-- The mixture in two compartments. -/
noncomputable def coexEnv : RunEnv 2 2 2 ℝ Unit :=
  ⟨coexFH.toI 2, (⟨fun _ => 1⟩ : IdealC 2).toI 2, coexEns.toI 2, rngZero ℝ, params, "standard", id⟩

/-- The equilibrium state, with a global constraint on the mean of the first component. -/
noncomputable def coexState : State 2 2 2 ℝ Unit where
  omegas := fun r m => equilibriumField coexFH.chis id (fun _ => 1) (fun j => coexPhi j m) r + 7
  Js := ![1 / 2, 3 / 2]
  phisComp := fun _ _ => 0
  phisFeat := fun _ _ => 0
  cons := [.no NoC.new, .glob 1 (GlobalC.new ![![1, 0]] ![5 / 8] 1 1)]
  g := ()

end Demo

-- C63: two different phases in unequal volumes.
example : ∃ f ph d, runImpl Demo.coexEnv 1000000 (1 / 100000) 10000 Demo.coexState 32 =
    (f, .ok (ph, d)) ∧ ph.fractions 0 0 = 1 / 4 ∧ ph.fractions 1 0 = 3 / 4 ∧ d.maxAbsJsDiff = 0 ∧
    (d.steps : ℤ) ≤ 10000 := by
  have hen : IsIdealGas Demo.coexEnv.en (fun _ => (1 : ℝ)) id :=
    (⟨fun _ => 1⟩ : IdealC 2).isIdealGas (M := 2)
  obtain ⟨f, ph, d, h⟩ := run_ok (e := Demo.coexEnv) (maxSteps := 1000000) (interval := 10000)
    (tol := 1 / 100000) (rngZero_ok ℝ) hen Demo.coexEns.total
    (by simp [Demo.coexEnv, Demo.params]) (by simp [Demo.coexEnv, Demo.params])
    (by simp [Demo.coexEnv, Demo.params]) (by simp [Demo.coexEnv, Demo.params]) rfl (by norm_num)
    (by norm_num) Demo.coexState 32 (by simp [Demo.coexState, Cons.Proper])
    (Or.inl ⟨0, by simp [Demo.coexEnv, Demo.params, Demo.coexState]⟩)
  have := C63_equilibrium_stationary (e := Demo.coexEnv) (ia := Demo.coexFH) (es := Demo.coexEns)
    (c := 7) (by simp [Demo.coexEnv, Demo.params]) rfl hen rfl (by simp)
    (by intro m; fin_cases m <;> simp [Demo.coexEnv, Demo.params, Demo.coexState])
    Demo.coexistence (fun _ _ => rfl)
    (by
      intro k hk
      simp only [Demo.coexState, List.mem_cons, List.not_mem_nil, or_false] at hk
      rcases hk with rfl | rfl
      · simp [Fulfilled, NoC.new]
      · refine ⟨fun a => rfl, fun a => ?_⟩
        simp [GlobalC.new, Fin.sum_univ_two, Demo.coexPhi, Demo.coexState]
        norm_num) h
  refine ⟨f, ph, d, h, ?_, ?_, this.2.2.2.2.2.2.1, this.2.2.2.2.2.2.2.2.2 (by norm_num) (by norm_num)
    (by norm_num)⟩
  · rw [this.2.1]; simp [Demo.coexPhi]
  · rw [this.2.1]; simp [Demo.coexPhi]

-- C63, converse: a pass with two phases and without errors.
example : ∃ t, iterate (Demo.coexFH.toI 2) ((⟨fun _ => 1⟩ : IdealC 2).toI 2) (Demo.coexEns.toI 2)
    (rngZero ℝ) Demo.params 32 0 { Demo.coexState with cons := [] } = .ok t ∧ t.maxAbsIncomp = 0 ∧
    t.maxAbsOmegaDiff = 0 ∧ t.maxAbsJsDiff = 0 := by
  have hen : IsIdealGas Demo.coexEnv.en (fun _ => (1 : ℝ)) id :=
    (⟨fun _ => 1⟩ : IdealC 2).isIdealGas (M := 2)
  obtain ⟨t, h, -⟩ := iterate_ok (ia := Demo.coexFH.toI 2) (es := Demo.coexEns.toI 2)
    (p := Demo.params) (tries := 32) (count := 0) (s := { Demo.coexState with cons := [] })
    (rngZero_ok ℝ) hen Demo.coexEns.total (by simp [Demo.params]) (by simp [Demo.params])
    (by simp [Demo.params]) (by simp) (Or.inl ⟨0, by simp [Demo.params, Demo.coexState]⟩)
  obtain ⟨A, hA⟩ := Demo.coexistence.fixed (thr := Demo.params.killThreshold) (c := 7)
    (st := { Demo.coexState with cons := [] }) (by simp [Demo.params]) (by simp)
    (by intro m; fin_cases m <;> simp [Demo.params, Demo.coexState]) (fun _ _ => rfl) (by simp)
  obtain ⟨h1, -⟩ := fixed_pass hen Demo.coexEns.scales h hA
  exact ⟨t, h, h1.incomp, h1.omegaDiff, h1.jsDiff⟩

-- C61: the homogeneous state of the same mixture.
example : ∃ f ph d, runImpl Demo.coexEnv 1000000 (1 / 100000) 10000
    { Demo.coexState with
      Js := fun _ => 1
      omegas := fun r _ => ∑ j, Demo.coexFH.chis r j * Demo.coexEns.phiMeans j } 32 =
    (f, .ok (ph, d)) ∧ ph.fractions 1 0 = 5 / 8 ∧ d.maxAbsOmegaDiff = 0 := by
  have hen : IsIdealGas Demo.coexEnv.en (fun _ => (1 : ℝ)) id :=
    (⟨fun _ => 1⟩ : IdealC 2).isIdealGas (M := 2)
  obtain ⟨f, ph, d, h⟩ := run_ok (e := Demo.coexEnv) (maxSteps := 1000000) (interval := 10000)
    (tol := 1 / 100000) (rngZero_ok ℝ) hen Demo.coexEns.total
    (by simp [Demo.coexEnv, Demo.params]) (by simp [Demo.coexEnv, Demo.params])
    (by simp [Demo.coexEnv, Demo.params]) (by simp [Demo.coexEnv, Demo.params]) rfl (by norm_num)
    (by norm_num) { Demo.coexState with
      Js := fun _ => 1
      omegas := fun r _ => ∑ j, Demo.coexFH.chis r j * Demo.coexEns.phiMeans j } 32
    (by simp [Demo.coexState, Cons.Proper])
    (Or.inl ⟨0, by simp [Demo.coexEnv, Demo.params]⟩)
  have := C61_homogeneous_stationary (e := Demo.coexEnv) (ia := Demo.coexFH) (es := Demo.coexEns)
    (c := 0) (by simp [Demo.coexEnv, Demo.params]) (by simp [Demo.coexEnv, Demo.params]) rfl hen rfl
    (by simp [Demo.coexEns, Fin.sum_univ_two]; norm_num) (fun _ => rfl) (by simp)
    (by
      intro k hk
      simp only [Demo.coexState, List.mem_cons, List.not_mem_nil, or_false] at hk
      rcases hk with rfl | rfl
      · simp [Fulfilled, NoC.new]
      · refine ⟨fun a => rfl, fun a => ?_⟩
        simp [GlobalC.new, Fin.sum_univ_two, Demo.coexEns]) h
  refine ⟨f, ph, d, h, ?_, this.2.2.2.2.2.1⟩
  rw [this.2.1]; simp [Demo.coexEns]

end Flory
