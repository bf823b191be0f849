import Verif.Lemmas.WorkflowObject

/-!
# C111: the whole workflow, for the transcribed text alone

Every object and every function in the statements is written by the translators from the source text: constructors,
compilation, the finder with all its methods, and the methods of the free energy that judge the result.
-/

set_option linter.unusedSectionVars false

namespace Flory

open Spec XReal

variable {G : Type} {M : ℕ}

/-- The free energy with the numbers of a transcribed `FloryHuggins` object, for its transcribed methods. -/
noncomputable def freeEnergyOf (C : ℕ) (fe : Gen.FloryHugginsAttrs) : FreeEnergy C :=
  transcribed (fun i j => fe.interaction._chis.get [i.1, j.1]) fun i => fe.entropy._sizes.get [i.1]

/-- **C111**: make a `FloryHuggins` object in any way, with positive sizes, an ensemble with positive entries,
global constraints or none, and a finder.  After any calls that reinitialize or run, `run` returns one phase per
compartment, with volumes above the threshold and positive fractions that add up to one within the reported error.
`chemical_potentials` of the free energy, called with the fractions, returns finite numbers that differ between
phases by at most a bound made of the reported errors, and so does `equilibration_error`. -/
theorem C111_workflow {gen : Rng G ℝ} (hok : gen.Ok) (newGen : ℤ → G) (now : ℤ)
    (other : ℕ → PackedCons M → PackedCons M) {C : ℕ} {fe : Gen.FloryHugginsAttrs} (hfe : ReachedFree C fe)
    (hl : ∀ i, i < C → 0 < fe.entropy._sizes.get [i]) {ens : TextEnsemble} (hens : ens.Positive C)
    {cs : Option (List Gen.LinearGlobalConstraintAttrs)}
    (hcs : ∀ c ∈ cs.getD [], (∃ Cs Ts, Gen.LinearGlobalConstraint.init C Cs Ts = .ok c) ∧ c.num_cons ≠ 0)
    {a : FinderArgs} (rng : Option G) (progress : Bool)
    (hM : M = if a.numPart.getD 0 = 0 then C * 8 else a.numPart.getD 0)
    (hstd : 0 ≤ a.randomStd) (hthr : 0 ≤ a.killThreshold) (hthr1 : a.killThreshold < 1)
    (hthr2 : 2 * a.killThreshold * ((M : ℝ) - 1) < 1) (hb : 0 < a.JsStepUpperBound)
    (hcrit : a.criterion = "standard") :
    ∃ (finder : Gen.FinderObj G M) (inst : Gen.FloryHugginsInteractionCompiledAttrs),
      textFinder gen newGen now other fe ens cs (initArgs a rng progress) a.kwargs = .ok finder ∧
      Gen.FloryHuggins.interaction_compiled fe a.kwargs = .ok inst ∧
      ∀ ops : List FinderOp, (∀ op ∈ ops, Continues a op) → ∀ ms tol iv,
        0 < ms.getD a.maxSteps → 0 < iv.getD a.interval →
        ∃ finder' phases d mu e,
          Gen.FinderObj.run gen ms tol iv (callEach (ops.map (methodCall gen other)) finder).1 =
            (finder', .ok phases) ∧
          finder'._diagnostics = some (some d) ∧
          phases.volumes.shape = [M] ∧ phases.fractions.shape = [M, C] ∧
          (∀ p : Fin M, a.killThreshold < phases.volumes.get [p.1] ∧
            |∑ i : Fin C, phases.fractions.get [p.1, i.1] - 1| ≤ d.maxAbsIncomp ∧
            ∀ i : Fin C, 0 < phases.fractions.get [p.1, i.1]) ∧
          Gen.FreeEnergyBase.chemical_potentials (freeEnergyOf C fe) phases.fractions = .ok mu ∧
          (∀ (p q : Fin M) (i : Fin C), ∃ x y, mu.row [p.1] i = fin x ∧ mu.row [q.1] i = fin y ∧
            |x - y| ≤ errorBound C inst._incomp_coef d) ∧
          Gen.FreeEnergyBase.equilibration_error (freeEnergyOf C fe) phases.fractions .none none =
            .ok (.scalar e) ∧
          e ≤ Real.sqrt (M * C) * errorBound C inst._incomp_coef d := by
  set env : FinderEnv G := ⟨gen, fun _ _ _ s => s⟩ with henv
  obtain ⟨fo, hfo⟩ := reachedFree_same hfe
  have hsym : ∀ i j, fo.interaction.chis i j = fo.interaction.chis j i := by
    intro i j
    have := (C105_symmetric (reachedFree_interaction hfe)).2.2 i j i.2 j.2
    rwa [hfo.interaction.chis.get, hfo.interaction.chis.get] at this
  have hpos : ∀ i, 0 < fo.entropy.sizes i := fun i => by
    have := hl i i.2
    rwa [hfo.entropy.sizes.get i] at this
  obtain ⟨hC, eo, es, heo, hes, hpe⟩ := ensemble_same hens
  obtain ⟨hcons, hobj⟩ := constraints_same hcs
  have hx : ∃ x, fo.interaction.obj.compiled a.kwargs = .ok ⟨C, x⟩ := by
    rw [InstObj.compiled_eq]
    unfold FHInteraction.obj
    simp only
    rw [dif_neg (by omega)]
    exact ⟨_, rfl⟩
  obtain ⟨x, hx⟩ := hx
  have he : fo.entropy.obj.compiled a.kwargs = .ok ⟨C, C, .ideal ⟨fo.entropy.sizes⟩⟩ := by
    rw [InstObj.compiled_eq]; rfl
  obtain ⟨-, -, -, h4⟩ := create_of_compiled (env := env) (g := rng.getD (newGen now))
    (constraints := textConstraints cs) hx he (hes _) (hcons _ _).1 hstd
  obtain ⟨f, hf, hcr⟩ := h4 rfl rfl (hcons _ _).2
  have hfM : f.numPart = M := by
    rw [hcr.numPart, hM]
  have hi := C107_init env newGen now other fo.interaction.obj fo.entropy.obj eo (textConstraints cs) a rng progress
    (M := M) (by
      intro en h
      rw [he] at h
      obtain rfl := Except.ok.inj h
      exact hM)
  rw [hf] at hi
  obtain ⟨hi1, hi2⟩ := hi
  have hmade : textFinder gen newGen now other fe ens cs (initArgs a rng progress) a.kwargs =
      .ok (Gen.CoexistingPhasesFinder.init env.rng newGen now other fo.interaction.obj fo.entropy.obj eo
        (textConstraints cs) (initArgs a rng progress) a.kwargs ({} : Gen.FinderObj G M)).1 := by
    unfold textFinder
    rw [map_object (f := Gen.FloryHugginsInteractionCompiledAttrs.pack) (fun _ _ => pack_fhc)
        (fh_object_same hfo.interaction),
      map_object (f := Gen.IdealGasEntropyCompiledAttrs.pack) (fun _ _ => pack_ideal) (gas_object_same hfo.entropy),
      heo]
    unfold Gen.newObject
    revert hi2
    rcases (Gen.CoexistingPhasesFinder.init env.rng newGen now other fo.interaction.obj fo.entropy.obj eo
      (textConstraints cs) (initArgs a rng progress) a.kwargs ({} : Gen.FinderObj G M)) with ⟨o, r⟩
    intro hi
    dsimp only at hi
    subst hi
    rfl
  obtain ⟨chis, inst, hget, hinst, -, -, -, hcoef, -⟩ := C109_coefficient (by omega) hfe a.kwargs
  have hwork := fun {ops : List FinderOp} (hops : ∀ op ∈ ops, ¬ IsSet op) =>
    C69_workflow (env := env) hok (fun _ _ _ _ => rfl) (fun _ _ _ _ h => h) hsym hf (hes _) hpe hpos hobj hthr hthr1
      hb (by rw [hfM]; exact hthr2) hcrit (ops := ops) hops
  refine ⟨_, inst, hmade, hinst, fun ops hops ms tol iv hms hiv => ?_⟩
  have hset : ∀ op ∈ ops, ¬ IsSet op := fun op h hs => by
    have := hops op h
    cases op <;> first | exact this | exact hs
  have hret : ∀ (pre post : List FinderOp), (∀ op ∈ pre ++ post, Continues a op) →
      List.Forall₂ (fun op r => (∃ ms tol iv, op = FinderOp.run ms tol iv) → ∃ out, r = .ok out) post
        (Finder.steps env post (Finder.steps env pre f).1).2 := by
    intro pre post
    induction post generalizing pre with
    | nil => exact fun _ => .nil
    | cons op post ih =>
      intro h
      have h1 := ih (pre ++ [op]) (by simpa using h)
      rw [steps_append] at h1
      refine .cons ?_ h1
      rintro ⟨ms, tol, iv, rfl⟩
      obtain ⟨k1, k2⟩ := h (.run ms tol iv) (by simp)
      obtain ⟨P, ph, d, _, _, _, _, hr, -⟩ := hwork (ops := pre) (fun op hm hs => by
        have := h op (List.mem_append_left _ hm)
        cases op <;> first | exact this | exact hs) ms tol iv k1 k2
      refine ⟨some ⟨P, C, ph, d⟩, ?_⟩
      show Except.map some ((Finder.steps env pre f).1.run env ms tol iv).2 = _
      rw [hr]
      rfl
  obtain ⟨hsame, -⟩ := C110_history (env := env) hok other hi1 ops (hret [] ops hops)
  obtain ⟨P, ph, d, coef, e, -, -, hr, hP, -, hco, hphys, hmu, heq, -, -, hle, -⟩ := hwork hset ms tol iv hms hiv
  have hrun := run_same (env := env) hok hsame ms tol iv
  rw [show (Finder.steps env ops f).1.run env ms tol iv = (((Finder.steps env ops f).1.run env ms tol iv).1,
    ((Finder.steps env ops f).1.run env ms tol iv).2) from rfl, hr] at hrun
  dsimp only at hrun
  obtain ⟨o', ho', hso, hd⟩ := hrun
  obtain rfl : P = M := hP.trans hfM
  have hfree : freeEnergyOf C fe = fhFree fo.interaction.chis fo.entropy.sizes := by
    unfold freeEnergyOf
    rw [transcribed_eq]
    congr 1
    · funext i j
      exact hfo.interaction.chis.get i j
    · funext i
      exact hfo.entropy.sizes.get i
  have hcoef' : inst._incomp_coef = coef := by
    obtain ⟨i, j, hi, hj, hmin, hc⟩ := hcoef
    obtain rfl : fe.interaction._chis = chis := Except.ok.inj hget
    have hentry : ∀ k l : Fin C, fe.interaction._chis.get [k.1, l.1] = fo.interaction.chis k l :=
      hfo.interaction.chis.get
    have hm : ⨅ q : Fin C × Fin C, fo.interaction.chis q.1 q.2 = fe.interaction._chis.get [i, j] := by
      have : Nonempty (Fin C × Fin C) := ⟨⟨i, hi⟩, ⟨j, hj⟩⟩
      refine le_antisymm ?_ (le_ciInf fun q => ?_)
      · exact (ciInf_le (Set.finite_range _).bddBelow ((⟨i, hi⟩, ⟨j, hj⟩) : Fin C × Fin C)).trans
          (le_of_eq (hentry ⟨i, hi⟩ ⟨j, hj⟩).symm)
      · rw [← hentry]
        exact hmin _ _ q.1.2 q.2.2
    rw [hc, hco, hm]
    simp only [hentry, Finset.sum_add_distrib, Finset.sum_sub_distrib, Finset.sum_const, Finset.card_univ,
      Fintype.card_fin, nsmul_eq_mul]
    ring
  have hcomp : ∀ p : Fin P, composition C (NDArr.ofMat ph.fractions) [p.1] = ph.fractions p := fun p =>
    funext fun i => ofMat_get ph.fractions p i
  obtain ⟨mu, hmu1, hmu2⟩ := chemicalPotentials_ok (freeEnergyOf C fe) (NDArr.ofMat ph.fractions) (lead := [P]) rfl (by
    intro idx hi i
    cases hi with
    | cons hd ht =>
      cases ht
      next k =>
      rw [hcomp ⟨k, hd⟩]
      exact ((hphys _).2.2 i).le)
  have hrow : ∀ (p : Fin P) (i : Fin C),
      mu.row [p.1] i = fin (chemPot fo.interaction.chis fo.entropy.sizes (ph.fractions p) i) := by
    intro p i
    have hv : ValidIndex [p.1] mu.lead := by
      rw [hmu2]
      exact List.Forall₂.cons p.2 List.Forall₂.nil
    have := (C21_chemical_potentials hsym hpos (by rw [← hfree]; exact hmu1) hv i).2
    rw [show composition C (NDArr.ofMat ph.fractions) (sourceIndex (NDArr.ofMat ph.fractions) [p.1]) =
      ph.fractions p from hcomp p] at this
    exact this ((hphys p).2.2 i).ne'
  refine ⟨o', _, d, mu, e, ho', hso.diagnostics.trans (congrArg some hd), rfl, rfl, fun p => ⟨?_, ?_, fun i => ?_⟩, ?_,
    fun p q i => ⟨_, _, hrow p i, hrow q i, ?_⟩, ?_, ?_⟩
  · rw [ofVec_get]; exact (hphys p).1
  · simp only [ofMat_get]; exact (hphys p).2.1
  · rw [ofMat_get]; exact (hphys p).2.2 i
  · rw [C104_chemical_potentials]; exact hmu1
  · rw [hcoef']; exact hmu p q i
  · rw [C104_equilibration_error, (C82_default _ _).1, hfree, heq]; rfl
  · rw [hcoef']; exact hle

namespace Demo

/-- The objects of the examples. -/
theorem objects_made : ∃ fe ens z c, Gen.FloryHuggins.init 2 (.ofMat Demo.chis) (some (.ofVec ![1, 2])) = .ok fe ∧
    (∀ i, i < 2 → 0 < fe.entropy._sizes.get [i]) ∧
    Gen.CanonicalEnsemble.init 2 (some (.ofVec ![1 / 4, 3 / 4])) = .ok ens ∧
    (∀ i, i < 2 → 0 < ens._phi_means.get [i]) ∧
    Gen.GrandCanonicalEnsemble.init 2 (.ofVec ![3, 1]) = .ok z ∧ (∀ i, i < 2 → 0 < z._scaled_activity.get [i]) ∧
    Gen.LinearGlobalConstraint.init 2 (.ofMat ![![1, -1]]) (.ofVec ![0]) = .ok c ∧ c.num_cons ≠ 0 := by
  have got : ∀ {α β : Type} {R : α → β → Prop} {x : Py α} {y : Py β} {b : β}, Agrees R x y → y = .ok b →
      ∃ a, x = .ok a ∧ R a b := by
    intro α β R x y b h hy
    subst hy
    cases x with
    | error e => exact h.elim
    | ok a => exact ⟨a, rfl, h⟩
  obtain ⟨o1, o2, -, o3, -⟩ := shortcut_objects (C := 2) (by norm_num) Demo.chis ![1, 2] ![1 / 4, 3 / 4]
  have hn : FHObject.new 2 (.ofMat Demo.chis) (some (.ofVec ![1, 2])) =
      .ok ⟨⟨fun i j => 1 / 2 * (Demo.chis i j + Demo.chis j i), false⟩, ⟨![1, 2]⟩⟩ := by
    unfold FHObject.new
    rw [o1, o2]
    rfl
  obtain ⟨fe, h1, h2⟩ := got (free_init_rel 2 _ _) hn
  obtain ⟨ens, h3, h4⟩ := got (canonical_init_rel 2 _) o3
  obtain ⟨z, h5, h6⟩ := got (grand_init_rel 2 (.ofVec ![3, 1])) (b := ⟨![3, 1]⟩) (by
    obtain ⟨b, hb, hb'⟩ := convertAndBroadcast_vec (![3, 1] : Vec 2 ℝ)
    unfold convertAndBroadcast at hb
    unfold GrandCanonicalEnsemble.new
    rw [if_neg (by norm_num), hb, bind_ok, hb']
    rfl)
  obtain ⟨c, h7, h8⟩ := got (global_init_rel 2 (.ofMat ![![1, -1]]) (.ofVec ![0]))
    (b := ⟨true, 1, ![![1, -1]], ![0]⟩) (by
    obtain ⟨b, hb, hb'⟩ := convertAndBroadcast_vec (![0] : Vec 1 ℝ)
    obtain ⟨c, hc, hc'⟩ := convertAndBroadcast_mat (![![1, -1]] : Mat 1 2 ℝ)
    unfold convertAndBroadcast at hb hc
    show LinearConstraint.new.fill 2 true 1 (NDArr.ofMat (![![1, -1]] : Mat 1 2 ℝ)).atleast1d _ = _
    unfold LinearConstraint.new.fill
    rw [hc, bind_ok, hb, bind_ok, hb', hc']
    rfl)
  refine ⟨fe, ens, z, c, h1, fun i hi => ?_, h3, fun i hi => ?_, h5, fun i hi => ?_, h7, by rw [h8.num_cons]; norm_num⟩
  · rw [h2.entropy.sizes.get ⟨i, hi⟩]
    interval_cases i <;> norm_num
  · rw [h4.phiMeans.get ⟨i, hi⟩]
    interval_cases i <;> norm_num
  · rw [h6.scaledActivity.get ⟨i, hi⟩]
    interval_cases i <;> norm_num

end Demo

-- C111: a canonical mixture with a global constraint and the defaults of the finder; it is run, started from new
-- random fields, and run again.
example : ∃ (fe : Gen.FloryHugginsAttrs) (ens : Gen.CanonicalEnsembleAttrs) (c : Gen.LinearGlobalConstraintAttrs)
    (finder finder' : Gen.FinderObj Unit 16) (phases : Gen.PhasesAttrs),
    Gen.FloryHuggins.init 2 (.ofMat Demo.chis) (some (.ofVec ![1, 2])) = .ok fe ∧
    textFinder Demo.fenv.rng (fun _ => ()) 7 (fun _ c => c) fe (.canonical ens) (some [c]) {} [] = .ok finder ∧
    Gen.FinderObj.run Demo.fenv.rng (some 10) none none (callEach ([.run none none none, .reinitRandom].map
      (methodCall Demo.fenv.rng fun _ c => c)) finder).1 = (finder', .ok phases) ∧
    phases.fractions.shape = [16, 2] ∧ 0 < phases.fractions.get [15, 1] := by
  obtain ⟨fe, ens, z, c, h1, h2, h3, h4, -, -, h5, h6⟩ := Demo.objects_made
  obtain ⟨finder, inst, k1, -, k2⟩ := C111_workflow (M := 16) (gen := Demo.fenv.rng) (rngZero_ok ℝ) (fun _ => ()) 7
    (fun _ c => c) (C := 2) (.init h1) h2 (.canonical h3 h4) (cs := some [c])
    (fun x hx => by rw [List.mem_singleton.mp hx]; exact ⟨⟨_, _, h5⟩, h6⟩) (a := {}) none true (by rfl)
    (by norm_num) (by norm_num) (by norm_num) (by norm_num) (by norm_num) rfl
  obtain ⟨finder', phases, d, mu, e, q1, -, -, q2, q3, -⟩ := k2 [.run none none none, .reinitRandom]
    (by simp [Continues]) (some 10) none none (by norm_num) (by norm_num)
  rw [C107_defaults.1] at k1
  exact ⟨fe, ens, c, finder, finder', phases, h1, k1, q1, q2, (q3 15).2.2 1⟩

-- C111: a mixture in contact with a reservoir, without constraints.
example : ∃ (fe : Gen.FloryHugginsAttrs) (z : Gen.GrandCanonicalEnsembleAttrs)
    (finder finder' : Gen.FinderObj Unit 3) (phases : Gen.PhasesAttrs) (mu : Rows (Vec 2 XReal)) (x y : ℝ),
    textFinder Demo.fenv.rng (fun _ => ()) 7 (fun _ c => c) fe (.grand z) none { num_part := some 3 } [] = .ok finder ∧
    Gen.FinderObj.run Demo.fenv.rng none none none finder = (finder', .ok phases) ∧
    Gen.FreeEnergyBase.chemical_potentials (freeEnergyOf 2 fe) phases.fractions = .ok mu ∧
    mu.row [0] 0 = fin x ∧ mu.row [2] 0 = fin y := by
  obtain ⟨fe, ens, z, c, h1, h2, -, -, h3, h4, -, -⟩ := Demo.objects_made
  obtain ⟨finder, inst, k1, -, k2⟩ := C111_workflow (M := 3) (gen := Demo.fenv.rng) (rngZero_ok ℝ) (fun _ => ()) 7
    (fun _ c => c) (C := 2) (.init h1) h2 (.grand h3 h4) (cs := none) (by simp) (a := { numPart := some 3 }) none true
    (by simp) (by norm_num) (by norm_num) (by norm_num) (by norm_num) (by norm_num) rfl
  obtain ⟨finder', phases, d, mu, e, q1, -, -, -, -, q2, q3, -⟩ := k2 [] (by simp) none none none (by norm_num)
    (by norm_num)
  obtain ⟨x, y, hx, hy, -⟩ := q3 0 2 0
  refine ⟨fe, z, finder, finder', phases, mu, x, y, ?_, q1, q2, hx, hy⟩
  rw [← k1]
  congr 1
  simp only [initArgs]
  congr 1 <;> norm_num

end Flory
