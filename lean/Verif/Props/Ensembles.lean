import Verif.Spec.Ensembles
import Verif.Props.Equilibrium

/-! # The two ensembles have the same equilibria -/

set_option linter.unusedSectionVars false

namespace Flory

open Spec

section Ensembles

variable {G : Type} {C S M : ℕ} [NeZero M]
variable {e : RunEnv C S M ℝ G} {ia : FHCompiled S ℝ} {sc : Vec C ℝ → Fin C → ℝ}
  {l mus : Vec C ℝ} {feat : Fin C → Fin S} {c : ℝ} {phi : Mat C M ℝ}

/-- A state with the volumes and fields of phases in contact with a reservoir is a fixed point. -/
theorem Spec.Reservoir.fixed {chis : Mat S S ℝ} {thr : ℝ} {st : State C S M ℝ G} (hl : ∀ i, 0 < l i)
    (halive : ∀ m, thr < st.Js m) (hre : Reservoir chis feat l mus c st.Js phi)
    (hom : ∀ r m, st.omegas r m = equilibriumField chis feat l (fun j => phi j m) r - c)
    (hcons : ∀ k ∈ st.cons, Fulfilled (fun r m => ∑ i, if feat i = r then phi i m else 0) st.Js k) :
    Fixed chis feat l (fun _ i => (GrandC.fromChemicalPotential mus l).scaledActivity i) thr
      (fun i => l i * Real.exp (l i * mus i)) (-c) phi st := by
  refine ⟨halive, hre.volumes, fun i m => ?_, hre.incompressible, fun _ => rfl,
    fun r m => by rw [hom, sub_eq_add_neg], hcons⟩
  have h1 := hre.balance i m
  have hli := hl i
  have e1 : l i * Real.exp (l i * mus i) = Real.exp (Real.log (l i) + l i * mus i) := by
    rw [Real.exp_add, Real.exp_log hli]
  rw [e1, ← Real.exp_add, hom, eq_comm, ← Real.exp_log (hre.pos i m)]
  congr 1
  unfold chemPot at h1
  unfold equilibriumField
  beta_reduce at h1 ⊢
  have hm : mus i = _ := eq_sub_of_add_eq (eq_sub_of_add_eq h1.symm)
  rw [hm]
  field_simp
  ring

/-- **C80**. Phases in equilibrium with a reservoir, in any volumes: a run of the grand canonical
ensemble started from their fields returns exactly these phases, in these volumes, with zero errors, at
the first check. -/
theorem C80_reservoir_stationary (hthr : 0 ≤ e.params.killThreshold) (hia : e.ia = ia.toI M)
    (hen : IsIdealGas e.en l feat) (hes : e.es = (GrandC.fromChemicalPotential mus l).toI M)
    (hl : ∀ i, 0 < l i) {maxSteps : ℚ} {tol : ℝ} {interval b : ℤ}
    {st : State C S M ℝ G} {f : RunState C S M ℝ G} {ph : Phases M C ℝ} {d : Diagnostics ℝ}
    (halive : ∀ m, e.params.killThreshold < st.Js m)
    (hre : Reservoir ia.chis feat l mus c st.Js phi)
    (hom : ∀ r m, st.omegas r m = equilibriumField ia.chis feat l (fun j => phi j m) r - c)
    (hcons : ∀ k ∈ st.cons, Fulfilled (fun r m => ∑ i, if feat i = r then phi i m else 0) st.Js k)
    (h : runImpl e maxSteps tol interval st b = (f, .ok (ph, d))) :
    ph.volumes = st.Js ∧ (∀ m i, ph.fractions m i = phi i m) ∧ f.st.Js = st.Js ∧
      f.st.omegas = st.omegas ∧ d.maxAbsIncomp = 0 ∧ d.maxAbsOmegaDiff = 0 ∧ d.maxAbsJsDiff = 0 ∧
      d.maxConstraintResidue = 0 ∧ d.reviveCountLeft = b ∧
      (0 < tol → 0 < maxSteps → 0 < interval → (d.steps : ℤ) ≤ interval) :=
  run_fixed hthr hia hen (hes ▸ GrandC.scales _) (hre.fixed hl halive hom hcons) h

/-- The fields before a pass that reports no errors. -/
theorem zero_errors_fields {rng : Rng G ℝ} {en : EntropyI C S M ℝ} {es : EnsembleI C M ℝ} {p : Params ℝ}
    {tries : ℤ} {count : ℕ} {s : State C S M ℝ G} {t : Trace C S M ℝ G}
    (hen : IsIdealGas en l feat) (hes : Scales es sc) (hl : ∀ i, l i ≠ 0) (hsc : ∀ i, 0 < sc t.Qs i)
    (h : iterate (ia.toI M) en es rng p tries count s = .ok t)
    (halive : ∀ m, p.killThreshold < s.Js m)
    (hcons : ∀ k ∈ s.cons, k.Trivial) (h1 : t.maxAbsIncomp = 0)
    (h2 : t.maxAbsOmegaDiff = 0) (h3 : t.maxAbsJsDiff = 0) (r : Fin S) (m : Fin M) :
    s.omegas r m = equilibriumField ia.chis feat l (fun j => t.phisComp j m) r - t.localEnergyMean := by
  have hf := iterate_facts h
  obtain ⟨hmk, -, hom, -, -, -, hod⟩ := zero_errors hen hes hl hsc h halive hcons h1 h2 h3
  have hjd : t.JsDiff m = 0 :=
    abs_nonpos_iff.mp (by have := hf.JsDiff_le m; rwa [h3] at this)
  have hloc : t.localEnergy m = t.localEnergyMean := by
    have := hf.JsDiff m
    rw [hjd, hmk, mul_one] at this
    linarith
  have hcs := hf.consShift_zero hcons m r
  have hle := hf.localEnergy_eq hen hes (hmk m)
  have hw := hf.omegaDiff r m
  rw [hod, hf.potential_feat hen, hom, hmk, mul_one] at hw
  unfold consShift at hcs
  unfold liftChis at hle
  unfold equilibriumField
  rw [← hloc, hle]
  beta_reduce
  linarith

/-- **C80**, converse. If a pass of the grand canonical ensemble without dead compartments and
constraints, started from volumes with mean one, reports no errors, then its fractions are in
equilibrium with the reservoir, and the fields are those of these phases. -/
theorem C80_zero_errors_reservoir {rng : Rng G ℝ} {en : EntropyI C S M ℝ} {p : Params ℝ}
    {tries : ℤ} {count : ℕ} {s : State C S M ℝ G} {t : Trace C S M ℝ G}
    (hen : IsIdealGas en l feat) (hl : ∀ i, 0 < l i)
    (h : iterate (ia.toI M) en ((GrandC.fromChemicalPotential mus l).toI M) rng p tries count s = .ok t)
    (halive : ∀ m, p.killThreshold < s.Js m) (hvol : ∑ m, s.Js m = (M : ℝ))
    (hcons : ∀ k ∈ s.cons, k.Trivial) (h1 : t.maxAbsIncomp = 0)
    (h2 : t.maxAbsOmegaDiff = 0) (h3 : t.maxAbsJsDiff = 0) :
    ∃ c, Reservoir ia.chis feat l mus c s.Js t.phisComp ∧
      ∀ r m, s.omegas r m = equilibriumField ia.chis feat l (fun j => t.phisComp j m) r - c := by
  have hes : Scales ((GrandC.fromChemicalPotential mus l).toI M) fun _ i =>
    (GrandC.fromChemicalPotential mus l).scaledActivity i := GrandC.scales _
  have hsc : ∀ i, 0 < (GrandC.fromChemicalPotential mus l).scaledActivity i := fun i =>
    mul_pos (hl i) (Real.exp_pos _)
  obtain ⟨-, -, -, k1, k2, k3, -⟩ := zero_errors hen hes (fun i => (hl i).ne') hsc h halive hcons h1 h2 h3
  refine ⟨t.localEnergyMean, ⟨hvol, k1, k2, fun i m => ?_⟩,
    zero_errors_fields hen hes (fun i => (hl i).ne') hsc h halive hcons h1 h2 h3⟩
  rw [k3]
  congr 1
  have hi := hl i
  show (Real.log (l i * Real.exp (l i * mus i)) + 1) / l i = _
  rw [Real.log_mul hi.ne' (Real.exp_pos _).ne', Real.log_exp]
  field_simp
  ring

/-- Constraints without effect are fulfilled. -/
theorem Cons.Trivial.fulfilled {pf : Mat S M ℝ} {J : Vec M ℝ} {k : Cons S M ℝ} (h : k.Trivial) :
    Fulfilled pf J k := by
  cases k with
  | no c => exact h
  | loc A c => exact h.elim
  | glob A c => exact h.elim

/-- **C80**, equivalence of ensembles. Phases found exactly in the canonical ensemble are found exactly
by the grand canonical ensemble at their chemical potentials. -/
theorem C80_canonical_to_grand {es : CanonicalC C ℝ} {rng : Rng G ℝ} {en : EntropyI C S M ℝ} {p : Params ℝ}
    {tries : ℤ} {count : ℕ} {s : State C S M ℝ G} {t : Trace C S M ℝ G} (hthr : 0 ≤ p.killThreshold)
    (hen : IsIdealGas en l feat) (hl : ∀ i, 0 < l i) (hphi : ∀ i, 0 < es.phiMeans i)
    (h : iterate (ia.toI M) en (es.toI M) rng p tries count s = .ok t)
    (halive : ∀ m, p.killThreshold < s.Js m) (hvol : ∑ m, s.Js m = (M : ℝ))
    (hcons : ∀ k ∈ s.cons, k.Trivial) (h1 : t.maxAbsIncomp = 0)
    (h2 : t.maxAbsOmegaDiff = 0) (h3 : t.maxAbsJsDiff = 0) :
    ∃ mus c, Reservoir ia.chis feat l mus c s.Js t.phisComp ∧
      ∀ {e : RunEnv C S M ℝ G} {maxSteps : ℚ} {tol : ℝ} {interval b : ℤ} {f : RunState C S M ℝ G}
        {ph : Phases M C ℝ} {d : Diagnostics ℝ}, e.params = p → e.ia = ia.toI M → e.en = en →
        e.es = (GrandC.fromChemicalPotential mus l).toI M →
        runImpl e maxSteps tol interval s b = (f, .ok (ph, d)) →
        ph.volumes = s.Js ∧ (∀ m i, ph.fractions m i = t.phisComp i m) ∧ f.st.omegas = s.omegas ∧
          d.maxAbsIncomp = 0 ∧ d.maxAbsOmegaDiff = 0 ∧ d.maxAbsJsDiff = 0 := by
  have hf := iterate_facts h
  have hes : Scales (es.toI M) fun Qs i => es.phiMeans i / Qs i := es.scales
  have hQ := hf.Qs_pos hen hthr
  have hsc : ∀ i, 0 < es.phiMeans i / t.Qs i := fun i => div_pos (hphi i) (hQ i)
  obtain ⟨-, -, -, k1, k2, k3, -⟩ := zero_errors hen hes (fun i => (hl i).ne') hsc h halive hcons h1 h2 h3
  have hre : Reservoir ia.chis feat l
      (fun i => (Real.log (es.phiMeans i / t.Qs i) - Real.log (l i)) / l i) t.localEnergyMean s.Js
      t.phisComp := by
    refine ⟨hvol, k1, k2, fun i m => ?_⟩
    rw [k3]
    ring
  refine ⟨_, _, hre, ?_⟩
  intro e maxSteps tol interval b f ph d e1 e2 e3 e4 hr
  subst e1 e3
  obtain ⟨a1, a2, -, a4, a5, a6, a7, -⟩ := C80_reservoir_stationary hthr e2 hen e4 hl halive hre
    (zero_errors_fields hen hes (fun i => (hl i).ne') hsc h halive hcons h1 h2 h3)
    (fun k hk => (hcons k hk).fulfilled) hr
  exact ⟨a1, a2, a4, a5, a6, a7⟩

/-- **C80**, equivalence of ensembles. Phases found exactly in the grand canonical ensemble are found
exactly by the canonical ensemble with their mean composition. -/
theorem C80_grand_to_canonical {rng : Rng G ℝ} {en : EntropyI C S M ℝ} {p : Params ℝ}
    {tries : ℤ} {count : ℕ} {s : State C S M ℝ G} {t : Trace C S M ℝ G} (hthr : 0 ≤ p.killThreshold)
    (hen : IsIdealGas en l feat) (hl : ∀ i, 0 < l i)
    (h : iterate (ia.toI M) en ((GrandC.fromChemicalPotential mus l).toI M) rng p tries count s = .ok t)
    (halive : ∀ m, p.killThreshold < s.Js m) (hvol : ∑ m, s.Js m = (M : ℝ))
    (hcons : ∀ k ∈ s.cons, k.Trivial) (h1 : t.maxAbsIncomp = 0)
    (h2 : t.maxAbsOmegaDiff = 0) (h3 : t.maxAbsJsDiff = 0)
    {e : RunEnv C S M ℝ G} {maxSteps : ℚ} {tol : ℝ} {interval b : ℤ} {f : RunState C S M ℝ G}
    {ph : Phases M C ℝ} {d : Diagnostics ℝ} (ep : e.params = p) (hia : e.ia = ia.toI M)
    (een : e.en = en)
    (ees : e.es = (⟨fun i => (∑ m, s.Js m * t.phisComp i m) / M⟩ : CanonicalC C ℝ).toI M)
    (hr : runImpl e maxSteps tol interval s b = (f, .ok (ph, d))) :
    ph.volumes = s.Js ∧ (∀ m i, ph.fractions m i = t.phisComp i m) ∧ f.st.omegas = s.omegas ∧
      d.maxAbsIncomp = 0 ∧ d.maxAbsOmegaDiff = 0 ∧ d.maxAbsJsDiff = 0 := by
  obtain ⟨c, hre, hom⟩ := C80_zero_errors_reservoir hen hl h halive hvol hcons h1 h2 h3
  have hM : (M : ℝ) ≠ 0 := by exact_mod_cast NeZero.ne M
  subst ep een
  obtain ⟨a1, a2, -, a4, a5, a6, a7, -⟩ := C63_equilibrium_stationary (c := -c) (phi := t.phisComp) hthr
    hia hen ees (fun i => (hl i).ne') halive
    ⟨hvol, hre.pos, hre.incompressible, fun i => by rw [mul_div_cancel₀ _ hM], _, fun i m => hre.balance i m⟩
    (fun r m => by rw [hom, sub_eq_add_neg]) (fun k hk => (hcons k hk).fulfilled) hr
  exact ⟨a1, a2, a4, a5, a6, a7⟩

end Ensembles

namespace Demo

/-- The constant of the symmetric mixture at coexistence. -/
noncomputable def coexLevel : ℝ := -(2 * Real.log 2) + 3 / 2 * Real.log 3 - 3 / 8 * Real.log 3 - 1

theorem coexReservoir {J : Vec 2 ℝ} (hJ : ∑ m, J m = (2 : ℕ)) :
    Reservoir coexFH.chis id (fun _ => 1) (fun _ => 0) coexLevel J coexPhi where
  volumes := hJ
  pos := coexistence.pos
  incompressible := coexistence.incompressible
  balance := by
    have e1 : Real.log (1 / 4) = - (2 * Real.log 2) := by
      rw [show (1 / 4 : ℝ) = (2 ^ 2)⁻¹ by norm_num, Real.log_inv, Real.log_pow]
      norm_num
    have e2 : Real.log (3 / 4) = Real.log 3 - 2 * Real.log 2 := by
      rw [Real.log_div (by norm_num) (by norm_num), show (4 : ℝ) = 2 ^ 2 by norm_num, Real.log_pow]
      norm_num
    intro i m
    unfold chemPot coexLevel
    simp only [id, Fin.sum_univ_two, coexFH, FHCompiled.new, coexPhi, Real.log_one]
    fin_cases i <;> fin_cases m <;>
      simp only [Fin.zero_eta, Fin.mk_one, Fin.isValue, Matrix.cons_val_zero, Matrix.cons_val_one,
        Matrix.cons_val', Matrix.cons_val_fin_one, e1, e2] <;> ring

/-- The mixture in contact with a reservoir of equal potentials. -/
noncomputable def grandEnv : RunEnv 2 2 2 ℝ Unit :=
  ⟨coexFH.toI 2, (⟨fun _ => 1⟩ : IdealC 2).toI 2,
    (GrandC.fromChemicalPotential (fun _ => 0) fun _ => 1).toI 2, rngZero ℝ, params, "standard", id⟩

/-- The equilibrium fields, with volumes `J`. -/
noncomputable def grandState (J : Vec 2 ℝ) : State 2 2 2 ℝ Unit where
  omegas := fun r m =>
    equilibriumField coexFH.chis id (fun _ => 1) (fun j => coexPhi j m) r - coexLevel
  Js := J
  phisComp := fun _ _ => 0
  phisFeat := fun _ _ => 0
  cons := [.no NoC.new]
  g := ()

end Demo

-- C80: the same phases in unequal volumes `J` and `2 − J`, whatever `J` is.
example {x : ℝ} (h0 : 0 < x) (h1 : x < 2) :
    ∃ f ph d, runImpl Demo.grandEnv 1000000 (1 / 100000) 10000 (Demo.grandState ![x, 2 - x]) 32 =
      (f, .ok (ph, d)) ∧ ph.volumes 0 = x ∧ ph.fractions 0 0 = 1 / 4 ∧ ph.fractions 1 0 = 3 / 4 ∧
      d.maxAbsJsDiff = 0 := by
  have hen : IsIdealGas Demo.grandEnv.en (fun _ => (1 : ℝ)) id :=
    (⟨fun _ => 1⟩ : IdealC 2).isIdealGas (M := 2)
  have halive : ∀ m, Demo.grandEnv.params.killThreshold < (Demo.grandState ![x, 2 - x]).Js m := by
    intro m
    fin_cases m <;> simp [Demo.grandEnv, Demo.params, Demo.grandState] <;> linarith
  obtain ⟨f, ph, d, h⟩ := run_ok (e := Demo.grandEnv) (maxSteps := 1000000) (interval := 10000)
    (tol := 1 / 100000) (rngZero_ok ℝ) hen (GrandC.total _)
    (by simp [Demo.grandEnv, Demo.params]) (by simp [Demo.grandEnv, Demo.params])
    (by simp [Demo.grandEnv, Demo.params]) (by simp [Demo.grandEnv, Demo.params]) rfl (by norm_num)
    (by norm_num) (Demo.grandState ![x, 2 - x]) 32 (by simp [Demo.grandState, Cons.Proper])
    (Or.inl ⟨0, halive 0⟩)
  have := C80_reservoir_stationary (e := Demo.grandEnv) (ia := Demo.coexFH)
    (by simp [Demo.grandEnv, Demo.params]) rfl hen rfl (by simp) halive
    (Demo.coexReservoir (J := ![x, 2 - x]) (by simp [Fin.sum_univ_two])) (fun _ _ => rfl)
    (by simp [Demo.grandState, Fulfilled, NoC.new]) h
  obtain ⟨a1, a2, -, -, -, -, a7, -⟩ := this
  refine ⟨f, ph, d, h, by rw [a1]; rfl, ?_, ?_, a7⟩
  · rw [a2]; simp [Demo.coexPhi]
  · rw [a2]; simp [Demo.coexPhi]

-- C80: passes without errors, as the converse and the equivalence need, in both ensembles.
example : (∃ t, iterate (Demo.coexFH.toI 2) ((⟨fun _ => 1⟩ : IdealC 2).toI 2)
      ((GrandC.fromChemicalPotential (fun _ => 0) fun _ => 1).toI 2) (rngZero ℝ) Demo.params 32 0
      (Demo.grandState ![1 / 2, 3 / 2]) = .ok t ∧
      t.maxAbsIncomp = 0 ∧ t.maxAbsOmegaDiff = 0 ∧ t.maxAbsJsDiff = 0) ∧
    ∃ t, iterate (Demo.coexFH.toI 2) ((⟨fun _ => 1⟩ : IdealC 2).toI 2) (Demo.coexEns.toI 2)
      (rngZero ℝ) Demo.params 32 0 (Demo.grandState ![1 / 2, 3 / 2]) = .ok t ∧
      t.maxAbsIncomp = 0 ∧ t.maxAbsOmegaDiff = 0 ∧ t.maxAbsJsDiff = 0 := by
  have hen : IsIdealGas ((⟨fun _ => 1⟩ : IdealC 2).toI 2) (fun _ => (1 : ℝ)) id :=
    (⟨fun _ => 1⟩ : IdealC 2).isIdealGas (M := 2)
  have halive : ∀ m, Demo.params.killThreshold < (Demo.grandState ![1 / 2, 3 / 2]).Js m := by
    intro m
    fin_cases m <;> simp [Demo.params, Demo.grandState]
  refine ⟨?_, ?_⟩
  · obtain ⟨t, h, -⟩ := iterate_ok (ia := Demo.coexFH.toI 2)
      (es := (GrandC.fromChemicalPotential (fun _ => 0) fun _ => 1).toI 2)
      (p := Demo.params) (tries := 32) (count := 0) (s := Demo.grandState ![1 / 2, 3 / 2])
      (rngZero_ok ℝ) hen (GrandC.total _) (by simp [Demo.params]) (by simp [Demo.params])
      (by simp [Demo.params]) (by simp [Demo.grandState, Cons.Proper]) (Or.inl ⟨0, halive 0⟩)
    obtain ⟨h1, -⟩ := fixed_pass hen (GrandC.scales _) h ((Demo.coexReservoir (J := ![1 / 2, 3 / 2])
      (by simp [Fin.sum_univ_two]; norm_num)).fixed (by simp) halive (fun _ _ => rfl)
      (by simp [Demo.grandState, Fulfilled, NoC.new]))
    exact ⟨t, h, h1.incomp, h1.omegaDiff, h1.jsDiff⟩
  · obtain ⟨t, h, -⟩ := iterate_ok (ia := Demo.coexFH.toI 2) (es := Demo.coexEns.toI 2)
      (p := Demo.params) (tries := 32) (count := 0) (s := Demo.grandState ![1 / 2, 3 / 2])
      (rngZero_ok ℝ) hen Demo.coexEns.total (by simp [Demo.params]) (by simp [Demo.params])
      (by simp [Demo.params]) (by simp [Demo.grandState, Cons.Proper]) (Or.inl ⟨0, halive 0⟩)
    obtain ⟨A, hA⟩ := Demo.coexistence.fixed (thr := Demo.params.killThreshold)
      (c := -Demo.coexLevel) (st := Demo.grandState ![1 / 2, 3 / 2]) (by simp [Demo.params]) (by simp)
      halive (fun _ _ => sub_eq_add_neg _ _) (by simp [Demo.grandState, Fulfilled, NoC.new])
    obtain ⟨h1, -⟩ := fixed_pass hen Demo.coexEns.scales h hA
    exact ⟨t, h, h1.incomp, h1.omegaDiff, h1.jsDiff⟩

end Flory
