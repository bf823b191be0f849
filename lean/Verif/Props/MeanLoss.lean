import Verif.Props.Equilibrium
import Verif.Props.RunMean

/-! # C42: converged runs with a wrong mean composition -/

set_option linter.unusedSectionVars false

namespace Flory

open Spec

namespace Demo

/-- Two coexisting phases of the mixture `coexFH`, and the equal mixture (columns). -/
noncomputable def lossPhi : Mat 2 3 ℝ := ![![1 / 4, 3 / 4, 1 / 2], ![3 / 4, 1 / 4, 1 / 2]]

/-- Free energy of the equal mixture above the common tangent of the two phases. -/
noncomputable def lossGap : ℝ := Real.log 2 - 5 / 8 * Real.log 3

/-- The requested composition. -/
noncomputable def lossEns : CanonicalC 2 ℝ := ⟨![5 / 12, 7 / 12]⟩

/-- Large steps of the volumes; everything else as by default. -/
noncomputable def lossParams : Params ℝ :=
  { params with acceptanceJs := 3 / (2 * lossGap), JsStepUpperBound := 1 }

/-- Environment with two components and three compartments. -/
noncomputable def lossEnv : RunEnv 2 2 3 ℝ Unit :=
  ⟨coexFH.toI 3, (⟨fun _ => 1⟩ : IdealC 2).toI 3, lossEns.toI 3, rngZero ℝ, lossParams, "standard", id⟩

/-- Volumes with mean one; the fields belong to the two phases and to the equal mixture. -/
noncomputable def lossState : State 2 2 3 ℝ Unit where
  omegas := fun r m => 9 / 8 * Real.log 3 - 1 - 2 * Real.log 2 - Real.log (lossPhi r m)
  Js := ![3 / 2, 1 / 2, 1]
  phisComp := fun _ _ => 0
  phisFeat := fun _ _ => 0
  cons := []
  g := ()

theorem lossGap_pos : 0 < lossGap := by
  have h : Real.log (3 ^ 5) < Real.log (2 ^ 8) := Real.log_lt_log (by norm_num) (by norm_num)
  rw [Real.log_pow, Real.log_pow] at h
  push_cast at h
  unfold lossGap
  linarith

theorem log_four : Real.log 4 = 2 * Real.log 2 := by
  rw [show (4 : ℝ) = 2 ^ 2 by norm_num, Real.log_pow]; norm_num

theorem log_threeQuarters : Real.log (3 / 4) = Real.log 3 - 2 * Real.log 2 := by
  rw [Real.log_div (by norm_num) (by norm_num), show (4 : ℝ) = 2 ^ 2 by norm_num, Real.log_pow]; norm_num

theorem lossPhi_pos (i : Fin 2) (m : Fin 3) : 0 < lossPhi i m := by
  fin_cases i <;> fin_cases m <;> norm_num [lossPhi]

variable {tries : ℤ} {count : ℕ} {s : State 2 2 3 ℝ Unit} {t : Trace 2 2 3 ℝ Unit}

/-- What a pass computes from these fields, if the volumes give the requested composition. -/
theorem loss_pass (h : iterate lossEnv.ia lossEnv.en lossEnv.es lossEnv.rng lossEnv.params tries count s = .ok t)
    (hcons : s.cons = []) (hom : t.omegasOld = lossState.omegas) (h3 : ∑ m, t.JsOld m = 3)
    (hmean : ∀ i, ∑ m, t.JsOld m * lossPhi i m = 3 * lossEns.phiMeans i) :
    (∀ i m, t.phisComp i m = lossPhi i m * t.masks m) ∧ (∀ m, t.incomp m = 0) ∧
    (∀ r m, t.omegaDiff r m = 0) ∧
    (∀ m, t.masks m = 1 → t.localEnergy m = ![0, 0, lossGap] m) ∧
    t.maxConstraintResidue = 0 ∧ t.cons = [] := by
  have hF : IterFacts (coexFH.toI 3) lossEnv.en lossEnv.es lossEnv.rng lossEnv.params tries count s t :=
    iterate_facts h
  have hen : IsIdealGas lossEnv.en (fun _ => (1 : ℝ)) id := (⟨fun _ => 1⟩ : IdealC 2).isIdealGas (M := 3)
  have hsc : Scales lossEnv.es fun Qs i => lossEns.phiMeans i / Qs i := lossEns.scales
  have hexp : ∀ i m, Real.exp (-t.omegasOld (id i) m * 1) =
      lossPhi i m * Real.exp (-(9 / 8 * Real.log 3 - 1 - 2 * Real.log 2)) := by
    intro i m
    conv_rhs => rw [← Real.exp_log (lossPhi_pos i m), ← Real.exp_add]
    rw [hom]
    congr 1
    simp only [lossState, id]
    ring
  have hQ : ∀ i, t.Qs i = lossEns.phiMeans i * Real.exp (-(9 / 8 * Real.log 3 - 1 - 2 * Real.log 2)) := by
    intro i
    rw [hF.Qs_eq hen, h3]
    simp only [hexp]
    have e1 : ∀ m, lossPhi i m * Real.exp (-(9 / 8 * Real.log 3 - 1 - 2 * Real.log 2)) * t.JsOld m =
        t.JsOld m * lossPhi i m * Real.exp (-(9 / 8 * Real.log 3 - 1 - 2 * Real.log 2)) := fun m => by ring
    simp only [e1]
    rw [← Finset.sum_mul, hmean]
    ring
  have hpm : ∀ i, lossEns.phiMeans i ≠ 0 := fun i => by fin_cases i <;> norm_num [lossEns]
  have hphi : ∀ i m, t.phisComp i m = lossPhi i m * t.masks m := by
    intro i m
    rw [hF.phis_eq hen hsc, hexp, hQ]
    have := (Real.exp_pos (-(9 / 8 * Real.log 3 - 1 - 2 * Real.log 2))).ne'
    have := hpm i
    field_simp
  have hinc : ∀ m, t.incomp m = 0 := by
    intro m
    rw [hF.incomp_eq hsc]
    rcases hF.mask_cases m with e | e
    · simp only [hphi, e, mul_one, Fin.sum_univ_two]
      fin_cases m <;> norm_num [lossPhi]
    · rw [e, mul_zero]
  have hcp : t.consPrep = [] := by rw [hF.consPrep, hcons]; rfl
  have hpot : ∀ r m, t.potential r m = (∑ j, coexFH.chis r j * lossPhi j m) * t.masks m := by
    intro r m
    rw [hF.potential_feat hen, Finset.sum_mul]
    simp only [hphi, id, mul_assoc]
  have hxi : ∀ m, t.masks m = 1 → ∀ r, t.xi m = t.omegasOld r m - t.potential r m := by
    intro m hm r
    rw [hF.xi, hinc, hm, hcp]
    simp only [hpot, hom, hm, lossState, consPot, List.map_nil, List.sum_nil, Fin.sum_univ_two]
    fin_cases m <;> fin_cases r <;>
      simp [lossPhi, coexFH, FHCompiled.new] <;>
      norm_num [log_threeQuarters, log_four] <;> ring
  have hod : ∀ r m, t.omegaDiff r m = 0 := by
    intro r m
    rw [hF.omegaDiff]
    rcases hF.mask_cases m with e | e
    · rw [hxi m e r, hcp]
      simp [consPot]
    · rw [e, mul_zero]
  refine ⟨hphi, hinc, hod, fun m hm => ?_, ?_, ?_⟩
  · rw [hF.localEnergy_eq hen hsc hm, hxi m hm 0, hcp]
    simp only [hphi, hpot, hom, hm, lossState, consPot, consVd, List.map_nil, List.sum_nil, Fin.sum_univ_two,
      liftChis, id]
    fin_cases m <;> simp [lossPhi, coexFH, FHCompiled.new, lossGap] <;>
      norm_num [log_threeQuarters, log_four] <;> ring
  · have := hF.cons
    rw [hcp] at this
    exact (congrArg Prod.fst (Except.ok.inj this)).symm
  · have := hF.cons
    rw [hcp] at this
    exact (congrArg Prod.snd (Except.ok.inj this)).symm

/-- The first pass: the third compartment loses its volume. -/
theorem loss_first (h : iterate lossEnv.ia lossEnv.en lossEnv.es lossEnv.rng lossEnv.params 0 0 lossState = .ok t) :
    t.Js = ![2, 1, 0] ∧ t.omegas = lossState.omegas ∧ t.cons = [] ∧ t.JsOld = lossState.Js ∧
      t.reviveCount = 0 := by
  have hF := iterate_facts h
  have hal : ∀ m, lossEnv.params.killThreshold < lossState.Js m := by
    intro m
    fin_cases m <;> norm_num [lossEnv, lossParams, params, lossState]
  have hrv := reviveBlock_all_alive (rng := lossEnv.rng) (p := lossEnv.params) (tries := 0)
    (om := lossState.omegas) (g := lossState.g) (count := 0) hal
  have hmk : ∀ m, t.masks m = 1 := fun m => by rw [hF.mask_eq, hrv, if_pos (hal m)]
  have hJ : t.JsOld = lossState.Js := funext fun m => by rw [hF.JsOld, hrv, hmk, mul_one]
  have hom : t.omegasOld = lossState.omegas := by rw [hF.omegasOld, hrv]
  obtain ⟨-, -, k3, k4, -, k6⟩ := loss_pass h rfl hom
    (by rw [hJ]; simp [lossState, Fin.sum_univ_three]; norm_num)
    (by
      intro i
      rw [hJ]
      fin_cases i <;> simp [lossState, lossPhi, lossEns, Fin.sum_univ_three] <;> norm_num)
  have hn : t.nValid = 3 := by rw [hF.nValid]; simp [hmk]
  have hle : ∀ m, t.localEnergy m = ![0, 0, lossGap] m := fun m => k4 m (hmk m)
  have hlm : t.localEnergyMean = lossGap / 3 := by
    rw [hF.localEnergyMean, hn, hJ]
    simp only [hle]
    simp [lossState, Fin.sum_univ_three]
  have hjd : t.JsDiff = ![lossGap / 3, lossGap / 3, -(2 * lossGap / 3)] := by
    funext m
    rw [hF.JsDiff, hlm, hle, hmk]
    fin_cases m <;> simp
    ring
  have hg := lossGap_pos
  have hmax : t.maxAbsJsDiff = 2 * lossGap / 3 := by
    rw [hF.maxAbsJsDiff, hjd]
    refine npMax_eq_of _ _ (fun m => ?_) ⟨2, ?_⟩
    · fin_cases m
      · show |lossGap / 3| ≤ _
        rw [abs_of_pos (by positivity)]; linarith
      · show |lossGap / 3| ≤ _
        rw [abs_of_pos (by positivity)]; linarith
      · show |-(2 * lossGap / 3)| ≤ _
        rw [abs_neg, abs_of_pos (by positivity)]
    · show |-(2 * lossGap / 3)| = _
      rw [abs_neg, abs_of_pos (by positivity)]
  have hfac : t.factor = 1 := by
    rw [hF.factor, hmax]
    have : 2 * lossGap / 3 * (3 / (2 * lossGap)) = 1 := by field_simp
    show 1 / max (2 * lossGap / 3 * (3 / (2 * lossGap))) 1 = 1
    rw [this]; norm_num
  have hacc : lossEnv.params.acceptanceJs = 3 / (2 * lossGap) := rfl
  refine ⟨?_, ?_, k6, hJ, by rw [hF.reviveCount, hrv]⟩
  · funext m
    rw [hF.Js_eq, hfac, hacc, hjd, hJ, hmk, hn]
    simp only [Fin.sum_univ_three, lossState]
    fin_cases m <;> simp <;> field_simp <;> ring
  · funext r m
    rw [hF.omegas, k3, hmk, hom]
    ring

/-- The second pass: no errors are seen, but the volumes are shifted because the third compartment is gone. -/
theorem loss_second (h : iterate lossEnv.ia lossEnv.en lossEnv.es lossEnv.rng lossEnv.params 0 0 s = .ok t)
    (hJs : s.Js = ![2, 1, 0]) (hW : s.omegas = lossState.omegas) (hcons : s.cons = []) :
    t.Js = ![3 / 2, 1 / 2, 0] ∧ (∀ i m, m ≠ 2 → t.phisComp i m = lossPhi i m) ∧ t.maxAbsIncomp = 0 ∧
      t.maxAbsOmegaDiff = 0 ∧ t.maxAbsJsDiff = 0 ∧ t.maxConstraintResidue = 0 ∧
      t.JsOld = ![2, 1, 0] ∧ t.reviveCount = 0 := by
  have hF := iterate_facts h
  have hrv := reviveBlock_exhausted (rng := lossEnv.rng) (p := lossEnv.params) (tries := 0) (Js := s.Js)
    (om := s.omegas) (g := s.g) (count := 0) le_rfl
  have hmk : t.masks = ![1, 1, 0] := by
    funext m
    rw [hF.mask_eq, hrv, hJs]
    fin_cases m <;> norm_num [lossEnv, lossParams, params]
  have hJ : t.JsOld = ![2, 1, 0] := by
    funext m
    rw [hF.JsOld, hrv, hJs, hmk]
    fin_cases m <;> simp
  have hom : t.omegasOld = lossState.omegas := by rw [hF.omegasOld, hrv, hW]
  obtain ⟨k1, k2, k3, k4, k5, -⟩ := loss_pass h hcons hom
    (by rw [hJ]; simp [Fin.sum_univ_three]; norm_num)
    (by
      intro i
      rw [hJ]
      fin_cases i <;> simp [lossPhi, lossEns, Fin.sum_univ_three] <;> norm_num)
  have hn : t.nValid = 2 := by rw [hF.nValid, hmk]; simp [Fin.sum_univ_three]; norm_num
  have e0 : t.localEnergy 0 = 0 := by rw [k4 0 (by rw [hmk]; rfl)]; rfl
  have e1 : t.localEnergy 1 = 0 := by rw [k4 1 (by rw [hmk]; rfl)]; rfl
  have hlm : t.localEnergyMean = 0 := by
    rw [hF.localEnergyMean, hJ]
    simp [Fin.sum_univ_three, e0, e1]
  have hjd : ∀ m, t.JsDiff m = 0 := by
    intro m
    rw [hF.JsDiff, hlm, hmk]
    fin_cases m <;> simp [e0, e1]
  refine ⟨?_, ?_, ?_, ?_, ?_, k5, hJ, by rw [hF.reviveCount, hrv]⟩
  · funext m
    rw [hF.Js_eq, hJ, hmk, hn]
    simp only [hjd, Fin.sum_univ_three]
    fin_cases m <;> simp <;> norm_num
  · intro i m hm
    rw [k1, hmk]
    fin_cases m <;> simp at hm ⊢
  · rw [hF.maxAbsIncomp]
    exact npMax_zero fun m => by rw [k2, abs_zero]
  · rw [hF.maxAbsOmegaDiff]
    rcases (rowsMax_spec t.omegaDiff).2.2 with e | ⟨r, m, e⟩
    · exact e
    · rw [e, k3]
  · rw [hF.maxAbsJsDiff]
    exact npMax_zero fun m => by rw [hjd, abs_zero]

end Demo

/-- **C42** is false even for converged runs: this run starts from volumes with mean one, all of them above the
threshold, and stops because no compartment died in its last pass and all errors are zero; yet the mean
composition of the returned phases is not the requested one.  A compartment died one pass before, so that the
volumes of the others were shifted after the fractions had been computed. -/
theorem C42_converged_wrong : ∃ s' ph d,
    (∀ m, Demo.lossEnv.params.killThreshold < Demo.lossState.Js m) ∧ ∑ m, Demo.lossState.Js m = 3 ∧
    runImpl Demo.lossEnv 1000000 (1 / 100000) 1 Demo.lossState 0 = (s', .ok (ph, d)) ∧
    d.steps = 2 ∧ d.maxAbsIncomp = 0 ∧ d.maxAbsOmegaDiff = 0 ∧ d.maxAbsJsDiff = 0 ∧
    d.maxConstraintResidue = 0 ∧ Demo.lossEns.phiMeans 0 = 5 / 12 ∧ ph.meanFractions 0 = 3 / 8 := by
  have hen : IsIdealGas Demo.lossEnv.en (fun _ => (1 : ℝ)) id :=
    (⟨fun _ => 1⟩ : IdealC 2).isIdealGas (M := 3)
  have hthr : Demo.lossEnv.params.killThreshold = 0 := rfl
  have hal : ∀ m, Demo.lossEnv.params.killThreshold < Demo.lossState.Js m := by
    intro m
    fin_cases m <;> norm_num [Demo.lossEnv, Demo.lossParams, Demo.params, Demo.lossState]
  obtain ⟨s', ph, d, h⟩ := run_ok (e := Demo.lossEnv) (tol := 1 / 100000) (maxSteps := 1000000)
    (interval := 1) (rngZero_ok ℝ) hen (Demo.lossEns.total (M := 3)) le_rfl (by rw [hthr]; norm_num)
    (by rw [hthr]; norm_num) (by simp [Demo.lossEnv, Demo.lossParams]) rfl (by norm_num) (by norm_num)
    Demo.lossState 0 (by simp [Demo.lossState]) (Or.inl ⟨0, hal 0⟩)
  obtain ⟨tracker, inner, ts, t, c, ht, hi, hf⟩ := run_facts (e := Demo.lossEnv) le_rfl h
  have htr : tracker = 1000000 := by
    have : stepsTracker 1000000 1 = .ok 1000000 := by
      unfold stepsTracker
      norm_num [Int.ceil_eq_iff]
    exact Except.ok.inj (ht.symm.trans this)
  subst htr
  have hin : inner = 1 := by
    have : stepsInner 1000000 1000000 = .ok 1 := by
      unfold stepsInner
      norm_num
    exact Except.ok.inj (hi.symm.trans this)
  subst hin
  have hone : ∀ {s : State 2 2 3 ℝ Unit} {t : Trace 2 2 3 ℝ Unit}, Passes Demo.lossEnv 0 1 0 s t →
      iterate Demo.lossEnv.ia Demo.lossEnv.en Demo.lossEnv.es Demo.lossEnv.rng Demo.lossEnv.params 0 0 s =
        .ok t := by
    intro s t hp
    cases hp with
    | one hp => exact hp
    | more h1 _ => exact absurd h1.pos (lt_irrefl 0)
  have hcard3 : Fintype.card {m // (0 : ℝ) < Demo.lossState.Js m} = 3 := by
    rw [Fintype.card_subtype, Finset.filter_true_of_mem (p := fun m => (0 : ℝ) < Demo.lossState.Js m)
      fun m _ => hal m]
    rfl
  have hcard : ∀ a b : ℝ, 0 < a → 0 < b → Fintype.card {m // (0 : ℝ) < (![a, b, 0] : Vec 3 ℝ) m} = 2 := by
    intro a b ha hb
    rw [Fintype.card_subtype]
    have : (Finset.univ.filter fun m => (0 : ℝ) < (![a, b, 0] : Vec 3 ℝ) m) = {0, 1} := by
      ext m
      fin_cases m <;> simp [ha, hb]
    rw [this]
    rfl
  have hchain := hf.chain
  have hfirst : ∀ {t₁ : Trace 2 2 3 ℝ Unit}, Passes Demo.lossEnv 0 1 0 Demo.lossState t₁ →
      ¬ Met Demo.lossEnv.params.killThreshold (1 / 100000) t₁ := by
    intro t₁ hp hm
    obtain ⟨k1, -, -, k4, -⟩ := Demo.loss_first (hone hp)
    have := hm.1
    rw [hthr, k1, k4, hcard3, hcard 2 1 (by norm_num) (by norm_num)] at this
    norm_num at this
  have hlast : ∀ {t₁ t₂ : Trace 2 2 3 ℝ Unit}, Passes Demo.lossEnv 0 1 0 Demo.lossState t₁ →
      Passes Demo.lossEnv (0 - t₁.reviveCount) 1 0 t₁.state t₂ →
      t₂.Js = ![3 / 2, 1 / 2, 0] ∧ (∀ i m, m ≠ 2 → t₂.phisComp i m = Demo.lossPhi i m) ∧
      t₂.maxAbsIncomp = 0 ∧ t₂.maxAbsOmegaDiff = 0 ∧ t₂.maxAbsJsDiff = 0 ∧ t₂.maxConstraintResidue = 0 ∧
      t₂.JsOld = ![2, 1, 0] ∧ t₂.reviveCount = 0 := by
    intro t₁ t₂ hp hq
    obtain ⟨k1, k2, k3, -, k5⟩ := Demo.loss_first (hone hp)
    rw [k5] at hq
    exact Demo.loss_second (hone (by simpa using hq)) k1 k2 k3
  cases ts with
  | nil =>
    cases hchain with
    | cons hp _ =>
      rcases hf.stop with e | e
      · simp at e
      · exact absurd e (hfirst hp)
  | cons t₁ ts =>
    cases hchain with
    | cons hp hrest =>
      cases ts with
      | cons t₂ ts =>
        cases hrest with
        | cons hq _ =>
          obtain ⟨k1, -, k3, k4, k5, k6, k7, -⟩ := hlast hp hq
          refine absurd ?_ (hf.notMet t₂ (by simp))
          refine ⟨?_, by rw [k3]; norm_num, by rw [k4]; norm_num, by rw [k5]; norm_num, by rw [k6]; norm_num⟩
          rw [hthr, k1, k7, hcard _ _ (by norm_num) (by norm_num), hcard _ _ (by norm_num) (by norm_num)]
      | nil =>
        cases hrest with
        | cons hq _ =>
          obtain ⟨k1, k2, k3, k4, k5, k6, k7, -⟩ := hlast hp hq
          have hpass := hone (s := t₁.state) (t := t) (by
            obtain ⟨-, -, -, -, k⟩ := Demo.loss_first (hone hp)
            rw [k] at hq
            simpa using hq)
          have hc : t₁.state.cons = [] := (Demo.loss_first (hone hp)).2.2.1
          have hsrc : Source Demo.lossEnv Demo.lossState ph d 0 0 t₁.state t :=
            hf.source (rngZero_ok ℝ) le_rfl hpass (by rw [hc]; rfl) fun _ _ _ _ => by simp [hc]
          have hfil : ∀ f : Fin 3 → ℝ, ∑ m with Demo.lossEnv.params.killThreshold < t.Js m, t.Js m * f m =
              3 / 2 * f 0 + 1 / 2 * f 1 := by
            intro f
            rw [hthr, k1, Finset.sum_filter]
            simp [Fin.sum_univ_three]
          have hV := hsrc.conserve fun _ => 1
          have hA := hsrc.conserve fun v => v 0
          rw [hfil] at hV hA
          simp only [mul_one] at hV
          have e0 : t.phisComp 0 0 = 1 / 4 := by rw [k2 0 0 (by decide)]; rfl
          have e1 : t.phisComp 0 1 = 3 / 4 := by rw [k2 0 1 (by decide)]; rfl
          beta_reduce at hA
          rw [e0, e1] at hA
          refine ⟨s', ph, d, hal, ?_, h, by rw [hf.diag]; rfl, by rw [hf.diag]; exact k3,
            by rw [hf.diag]; exact k4, by rw [hf.diag]; exact k5, by rw [hf.diag]; exact k6, rfl, ?_⟩
          · simp [Demo.lossState, Fin.sum_univ_three]; norm_num
          · show (∑ q, ph.volumes q * ph.fractions q 0) / (∑ q, ph.volumes q) = _
            rw [hA, hV]
            norm_num

end Flory
