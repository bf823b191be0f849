import Verif.Spec.ShortcutObject
import Verif.Lemmas.Compile
import Verif.Lemmas.TranscriptPhases
import Verif.Props.TranscriptFinder
import Verif.Props.FinderObject
import Verif.Props.TranscriptPhases

/-! # Lemmas for C110 -/

set_option linter.unusedSectionVars false

namespace Flory

open Spec

variable {G : Type} {M : ℕ}

theorem pack_fhc {a : Gen.FloryHugginsInteractionCompiledAttrs} {x : AnyInteraction} (h : SameFHC a x) :
    a.pack = x := by
  obtain ⟨n, c, k⟩ := a
  obtain ⟨S, c', k'⟩ := x
  obtain ⟨h1, h2, h3⟩ := h
  dsimp only at h1 h2 h3
  subst h1 h3
  unfold Gen.FloryHugginsInteractionCompiledAttrs.pack
  congr 2
  funext i j
  exact h2.get i j

theorem pack_ideal {a : Gen.IdealGasEntropyCompiledAttrs} {x : AnyEntropy} (h : SameIdealC a x) : a.pack = x := by
  obtain ⟨n, s, c⟩ := a
  obtain ⟨C, e, rfl, h1, h2, h3⟩ := h
  dsimp only at h1 h2 h3
  subst h1
  unfold Gen.IdealGasEntropyCompiledAttrs.pack
  congr 3
  funext i
  exact h3.get i

theorem pack_canonical {a : Gen.CanonicalEnsembleCompiledAttrs} {x : AnyEnsemble} (h : SameCanonicalC a x) :
    a.pack = x := by
  obtain ⟨n, c⟩ := a
  obtain ⟨C, e, rfl, h1, h3⟩ := h
  dsimp only at h1 h3
  subst h1
  unfold Gen.CanonicalEnsembleCompiledAttrs.pack
  congr 3
  funext i
  exact h3.get i

theorem map_object {α β : Type} {R : α → β → Prop} {f : α → β} (hf : ∀ a x, R a x → f a = x) {a : InstObj α}
    {o : InstObj β} (h : SameObject R a o) : a.map f = o := by
  obtain ⟨p, i⟩ := a
  obtain ⟨p', i'⟩ := o
  obtain ⟨h1, h2⟩ := h
  dsimp only at h1 h2
  subst h1
  unfold InstObj.map
  congr 1
  funext kw
  have h := h2 kw
  dsimp only
  revert h
  cases i kw <;> cases i' kw <;> intro h
  · exact congrArg _ h
  · exact h.elim
  · exact h.elim
  · exact congrArg _ (hf _ _ h)

theorem collect_same {x : FinderExtra} {o : Gen.FinderObj G M} {f : Finder G} (h : SameFinder x o f) :
    o.collect = some ⟨f, h.part⟩ := by
  obtain ⟨C, S, M', ms, cr, tol, iv, std, ⟨a1, a2, a3, a4, a5⟩, mr, kw, ia, en, es, cs, om, js, pf, pc, rl, g, d⟩ := f
  have hM := h.part
  dsimp only at hM
  subst hM
  obtain ⟨js', hj, hj'⟩ := h.Js
  obtain ⟨om', ho, ho'⟩ := h.omegas
  obtain ⟨pf', hpf, hpf'⟩ := h.phis_feat
  obtain ⟨pc', hpc, hpc'⟩ := h.phis_comp
  have e1 : (fun (i : Fin S) (m : Fin M') => om'.get [i.1, m.1]) = om := by funext i m; exact ho'.get i m
  have e2 : (fun (m : Fin M') => js'.get [m.1]) = js := by funext m; exact hj'.get m
  have e3 : (fun (i : Fin S) (m : Fin M') => pf'.get [i.1, m.1]) = pf := by funext i m; exact hpf'.get i m
  have e4 : (fun (i : Fin C) (m : Fin M') => pc'.get [i.1, m.1]) = pc := by funext i m; exact hpc'.get i m
  unfold Gen.FinderObj.collect
  rw [h.num_comp, h.num_feat, h.max_steps, h.criterion, h.tolerance, h.interval, h.random_std, h.acceptance_Js,
    h.Js_step_upper_bound, h.acceptance_omega, h.kill_threshold, h.revive_scaler, h.max_revive, h.kwargs,
    h.interaction, h.entropy, h.ensemble, h.constraints, ho, hj, hpf, hpc, h.revive_left, h.rng, h.diagnostics]
  dsimp only [bind, Option.bind, pure]
  rw [e1, e2, e3, e4]

theorem sameVec_ofVec {n : ℕ} (v : Vec n ℝ) : SameVec (.ofVec v) v :=
  ⟨rfl, fun i => by simp [NDArr.ofVec]⟩

theorem run_same {env : FinderEnv G} (hok : env.rng.Ok) {x : FinderExtra} {o : Gen.FinderObj G M} {f : Finder G}
    (h : SameFinder x o f) (ms : Option ℚ) (tol : Option ℝ) (iv : Option ℤ) :
    match f.run env ms tol iv with
    | (_, .error e) => (Gen.FinderObj.run env.rng ms tol iv o).2 = .error e
    | (f', .ok out) => ∃ o', Gen.FinderObj.run env.rng ms tol iv o =
        (o', .ok ⟨.ofVec out.phases.volumes, .ofMat out.phases.fractions⟩) ∧ SameFinder x o' f' ∧
        f'.diagnostics = some out.diagnostics := by
  have hc := collect_same h
  have hM := h.part
  subst hM
  cases hp : f.parts with
  | none =>
    have hr : (Gen.FinderObj.run env.rng ms tol iv o).2 = .error .outOfBounds := by
      unfold Gen.FinderObj.run
      rw [hc]
      dsimp only
      rw [hp]
    rw [show f.run env ms tol iv = (f.storeArrays (env.crash f.numComp f.numFeat f.numPart (f.state [])),
      .error .outOfBounds) by unfold Finder.run; rw [hp]]
    exact hr
  | some p =>
    by_cases h0 : f.numPart = 0
    · have hr : (Gen.FinderObj.run env.rng ms tol iv o).2 = .error .valueError := by
        unfold Gen.FinderObj.run
        rw [hc]
        dsimp only
        rw [hp]
        dsimp only
        rw [dif_pos h0]
      rw [show f.run env ms tol iv = (f, .error .valueError) by unfold Finder.run; rw [hp]; dsimp only; rw [dif_pos h0]]
      exact hr
    · have : NeZero f.numPart := ⟨h0⟩
      have hr : Gen.FinderObj.run env.rng ms tol iv o =
          match Gen.Finder.run (f.attrs p) ms tol iv env.rng f.g with
          | .error e => (o, .error e)
          | .ok (ph, a, g) => (o.adopt a g, Gen.Phases.init (.ofVec ph.volumes) (.ofMat ph.fractions)) := by
        unfold Gen.FinderObj.run
        rw [hc]
        dsimp only
        rw [hp]
        dsimp only
        rw [dif_neg h0]
        rcases Gen.Finder.run (f.attrs p) ms tol iv env.rng f.g with e | ⟨ph, a, g⟩ <;> rfl
      have h103 := C103_run hok f ⟨p, hp, rfl⟩ ms tol iv
      rw [hr]
      revert h103
      rcases Gen.Finder.run (f.attrs p) ms tol iv env.rng f.g with e | ⟨ph, a, g⟩ <;> intro h103
      · rcases hq : f.run env ms tol iv with ⟨f', q⟩
        rw [hq] at h103
        dsimp only at h103
        subst h103
        rfl
      · obtain ⟨d, hd, q, hq, ha⟩ := h103
        rw [hd]
        dsimp only
        rw [phases_init_ok (n := f.numPart) (c := f.numComp) rfl rfl]
        refine ⟨_, rfl, ?_, rfl⟩
        have hdiag : a.diagnostics = some d.dict := by rw [ha]; rfl
        refine ⟨h.num_part, rfl, rfl, h.num_comp, h.num_feat, h.interaction, h.entropy, h.ensemble, h.rng_is_external,
          h.rng_seed, rfl, h.max_steps, h.criterion, h.tolerance, h.interval, h.progress, h.random_std,
          h.acceptance_Js, h.acceptance_omega, h.Js_step_upper_bound, h.kill_threshold, h.revive_scaler, h.max_revive,
          ?_, ⟨_, rfl, sameVec_ofVec _⟩, ⟨_, rfl, sameMat_ofMat _⟩, ⟨_, rfl, sameMat_ofMat _⟩,
          ⟨_, rfl, sameMat_ofMat _⟩, rfl, h.kwargs⟩
        show some (a.diagnostics.map Gen.FinderObj.diagnosticsOf) = some (some d)
        rw [hdiag]
        rfl

theorem clusters_same {scipy : Scipy} {ext : PhasesExt} (hs : ScipyLabels scipy ext) {P C : ℕ} (x : Phases P C ℝ) :
    Agrees (fun b r => SamePhases b ⟨r.1, C, r.2⟩)
      (Gen.Phases.get_clusters scipy ⟨.ofVec x.volumes, .ofMat x.fractions⟩ (1 / 100))
      (x.getClusters (ext.labels x)) := by
  have h : SamePhases ⟨.ofVec x.volumes, .ofMat x.fractions⟩ ⟨P, C, x⟩ := ⟨sameVec_ofVec _, sameMat_ofMat _⟩
  by_cases hP : P < 2
  · rw [C106_get_clusters_few h hP]
    unfold Phases.getClusters
    rw [if_pos hP]
    exact h
  · obtain ⟨links, l, h1, h2, h3, h4⟩ := hs x (by omega)
    have := get_clusters_rel h scipy (1 / 100) h1 h2 h3
    rwa [show (fun p : Fin P => l.getD p.1 0) = ext.labels x by funext p; exact (h4 p).symm] at this

theorem after_run {scipy : Scipy} {ext : PhasesExt} (hs : ScipyLabels scipy ext) {P C : ℕ} (x : Phases P C ℝ)
    (d : Diagnostics ℝ) :
    Agrees SameShortcut
      (do
        let t6 ← Gen.Phases.get_clusters scipy ⟨.ofVec x.volumes, .ofMat x.fractions⟩ (1 / 100)
        let t7 ← Gen.Phases.sort ext.argsort t6
        let t8 ← Gen.Phases.normalize t7
        Gen.PhasesResult.from_phases t8 (some (Gen.diagnosticsDict (some d))))
      (do
        let clusters ← x.getClusters (ext.labels x)
        let sorted ← clusters.2.sort ext.argsort
        return ⟨sorted.1, C, sorted.2.normalize, d⟩) := by
  refine Agrees.bind (clusters_same hs x) fun a r ha => Agrees.bind (sort_rel ext.argsort ha) fun b q hb => ?_
  obtain ⟨c, hc, hc'⟩ := normalize_rel hb
  rw [hc]
  show Agrees _ (Gen.PhasesResult.init c.volumes c.fractions (some (Gen.diagnosticsDict (some d)))) _
  rw [result_init, phases_init_ok hc'.volumes.shape hc'.fractions.shape]
  exact ⟨hc', rfl⟩

theorem shortcut_same {env : FinderEnv G} (hok : env.rng.Ok) {scipy : Scipy} {ext : PhasesExt}
    (hs : ScipyLabels scipy ext) (newGen : ℤ → G) (now : ℤ) (other : ℕ → PackedCons M → PackedCons M) (C : ℕ)
    (chis : NDArr ℝ) (phiMeans sizes : Option (NDArr ℝ)) (cs : ConsArg) (a : FinderArgs) (rng : Option G)
    (progress : Bool) (hM : M = if a.numPart.getD 0 = 0 then C * 8 else a.numPart.getD 0) :
    Agrees SameShortcut
      (Gen.find_coexisting_phases env.rng newGen now other scipy ext.argsort C chis phiMeans sizes cs
        (initArgs a rng progress) a.kwargs)
      (findCoexistingPhases env ext (rng.getD (newGen now)) C chis phiMeans sizes cs a) := by
  have hmodel : findCoexistingPhases env ext (rng.getD (newGen now)) C chis phiMeans sizes cs a =
      (FHObject.new C chis sizes >>= fun o => CanonicalEnsemble.new C phiMeans >>= fun ensemble =>
        Finder.create env (rng.getD (newGen now)) o.interaction.obj o.entropy.obj ensemble.obj cs a >>= fun finder =>
        (finder.run env none none none).2 >>= fun out =>
        out.phases.getClusters (ext.labels out.phases) >>= fun clusters =>
        clusters.2.sort ext.argsort >>= fun sorted =>
        match (finder.run env none none none).1.diagnostics with
        | none => .error .attributeError
        | some d => .ok ⟨sorted.1, out.numComp, sorted.2.normalize, d⟩) := by
    unfold findCoexistingPhases FHObject.new
    cases FHInteraction.new C chis with
    | error e => rfl
    | ok i =>
      cases GasEntropy.new C sizes with
      | error e => rfl
      | ok e =>
        show (FreeEnergy.new ⟨C, fhPart i.chis⟩ ⟨C, gasPart e.sizes⟩ >>= _) = _
        unfold FreeEnergy.new
        rw [dif_pos rfl]
        rfl
  rw [hmodel]
  unfold Gen.find_coexisting_phases
  refine Agrees.bind (free_init_rel C chis sizes) fun fa fo hf =>
    Agrees.bind (canonical_init_rel C phiMeans) fun ea eo he => ?_
  dsimp only
  rw [map_object (f := Gen.FloryHugginsInteractionCompiledAttrs.pack) (fun _ _ => pack_fhc) (fh_object_same hf.interaction), map_object (f := Gen.IdealGasEntropyCompiledAttrs.pack) (fun _ _ => pack_ideal) (gas_object_same hf.entropy),
    map_object (f := Gen.CanonicalEnsembleCompiledAttrs.pack) (fun _ _ => pack_canonical) (canonical_object_same he)]
  have hi := C107_init env newGen now other fo.interaction.obj fo.entropy.obj eo.obj cs a rng progress (M := M) (by
    intro en h
    rw [InstObj.compiled_eq] at h
    obtain rfl := Except.ok.inj h
    exact hM)
  revert hi
  cases Finder.create env (rng.getD (newGen now)) fo.interaction.obj fo.entropy.obj eo.obj cs a with
  | error e =>
    intro hi
    dsimp only at hi
    have : Gen.newObject (Gen.CoexistingPhasesFinder.init env.rng newGen now other fo.interaction.obj fo.entropy.obj
        eo.obj cs (initArgs a rng progress) a.kwargs : Act (Gen.FinderObj G M) Unit) = .error e := by
      unfold Gen.newObject
      revert hi
      rcases (Gen.CoexistingPhasesFinder.init env.rng newGen now other fo.interaction.obj fo.entropy.obj
        eo.obj cs (initArgs a rng progress) a.kwargs ({} : Gen.FinderObj G M)) with ⟨o, r⟩
      intro hi
      dsimp only at hi
      subst hi
      rfl
    rw [this]
    rfl
  | ok f =>
    intro hi
    obtain ⟨h1, h2⟩ := hi
    have : Gen.newObject (Gen.CoexistingPhasesFinder.init env.rng newGen now other fo.interaction.obj fo.entropy.obj
        eo.obj cs (initArgs a rng progress) a.kwargs : Act (Gen.FinderObj G M) Unit) =
        .ok (Gen.CoexistingPhasesFinder.init env.rng newGen now other fo.interaction.obj fo.entropy.obj
        eo.obj cs (initArgs a rng progress) a.kwargs ({} : Gen.FinderObj G M)).1 := by
      unfold Gen.newObject
      revert h2
      rcases (Gen.CoexistingPhasesFinder.init env.rng newGen now other fo.interaction.obj fo.entropy.obj
        eo.obj cs (initArgs a rng progress) a.kwargs ({} : Gen.FinderObj G M)) with ⟨o, r⟩
      intro hi
      dsimp only at hi
      subst hi
      rfl
    rw [this]
    revert h1
    generalize (Gen.CoexistingPhasesFinder.init env.rng newGen now other fo.interaction.obj fo.entropy.obj
        eo.obj cs (initArgs a rng progress) a.kwargs ({} : Gen.FinderObj G M)).1 = o
    intro h1
    have hr := run_same hok h1 none none none
    simp only [bind_ok]
    rcases hq : f.run env none none none with ⟨f', q⟩
    rw [hq] at hr
    cases q with
    | error e =>
      dsimp only at hr
      rw [hr]
      rfl
    | ok out =>
      obtain ⟨o', ho', hsame, hd⟩ := hr
      rw [ho']
      dsimp only
      simp only [bind_ok, hd]
      have : (Act.read Gen.FinderObj._diagnostics o').2 = .ok (some out.diagnostics) := by
        unfold Act.read
        rw [hsame.diagnostics, hd]
      rw [this]
      simp only [bind_ok]
      exact after_run hs out.phases out.diagnostics

end Flory
