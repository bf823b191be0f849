import Verif.Props.Shortcut
import Verif.Lemmas.FinderSet

/-! # The computation done by `find_coexisting_phases` -/

set_option linter.unusedSectionVars false

namespace Flory

variable {G : Type} {C : ℕ}

theorem unpackAll {M : ℕ} (ns : List (ConsNew C)) :
    ((ns.map fun n => (PackedCons.ofNew (M := M) ⟨C, n⟩)).map PackedCons.reset).mapM
      (fun c => Finder.unpackCons c C) = some (ns.map fun n => (n.start M).reset) := by
  induction ns with
  | nil => rfl
  | cons n ns ih =>
    simp only [List.map_cons, List.mapM_cons, ih]
    simp [Finder.unpackCons, PackedCons.ofNew, PackedCons.reset]

theorem parts_of {f : Finder G} {ia en es cons}
    (h1 : Finder.unpackInteraction f.interaction f.numFeat = some ia)
    (h2 : Finder.unpackEntropy f.entropy f.numComp f.numFeat = some en)
    (h3 : Finder.unpackEnsemble f.ensemble f.numComp = some es)
    (h4 : f.constraints.mapM (fun c => Finder.unpackCons c f.numFeat) = some cons) :
    f.parts = some ⟨ia, en, es, cons⟩ := by
  unfold Finder.parts
  rw [h1, h2, h3, h4]
  rfl

/-- The clusters of the compartments, sorted and normalized. -/
noncomputable def clustered {M : ℕ} (ext : PhasesExt) (ph : Phases M C ℝ) (d : Diagnostics ℝ) :
    Py ShortcutResult := do
  let clusters ← ph.getClusters (ext.labels ph)
  let sorted ← clusters.2.sort ext.argsort
  return ⟨sorted.1, C, sorted.2.normalize, d⟩

theorem run_clustered (env : FinderEnv G) (ext : PhasesExt) {f : Finder G}
    {p : Finder.Parts f.numComp f.numFeat f.numPart} (hp : f.parts = some p) (h : NeZero f.numPart) :
    (do
      let out ← (f.run env none none none).2
      let clusters ← out.phases.getClusters (ext.labels out.phases)
      let sorted ← clusters.2.sort ext.argsort
      match (f.run env none none none).1.diagnostics with
      | none => (.error .attributeError : Py ShortcutResult)
      | some d => .ok ⟨sorted.1, out.numComp, sorted.2.normalize, d⟩) =
    (runImpl (f.runEnv env p) f.maxSteps f.tolerance f.interval (f.state p.cons) f.reviveLeft).2 >>=
      fun out => clustered ext out.1 out.2 := by
  unfold Finder.run
  rw [hp]
  dsimp only
  rw [dif_neg h.out]
  dsimp only [Option.getD]
  cases (runImpl (f.runEnv env p) f.maxSteps f.tolerance f.interval (f.state p.cons) f.reviveLeft).2 with
  | error e => rfl
  | ok r => rfl

/-- What the search computes: the loop of `run` on the drawn fields, then clusters. -/
theorem shortcut_eq {env : FinderEnv G} (ext : PhasesExt) (g : G) {M : ℕ} [NeZero C] [NeZero M]
    (chis : Mat C C ℝ) (l phi : Vec C ℝ) {constraints : ConsArg} {a : FinderArgs}
    {ns : List (ConsNew C)} (hM : Finder.partNumber a.numPart C = M)
    (hns : initConstraints M C a.kwargs constraints = (ns.map fun n => .ofNew ⟨C, n⟩, none))
    (hstd : 0 ≤ a.randomStd) :
    findCoexistingPhases env ext g C (NDArr.ofMat chis) (some (NDArr.ofVec phi)) (some (NDArr.ofVec l))
      constraints a =
    (runImpl ⟨((⟨fun i j => 1 / 2 * (chis i j + chis j i), false⟩ : FHInteraction C ℝ).compile
        ((a.kwargs.get? "additional_chis_shift").getD 1)).toI M, (⟨l⟩ : IdealC C).toI M,
      (⟨phi⟩ : CanonicalC C ℝ).toI M, env.rng, ⟨a.acceptanceJs, a.JsStepUpperBound,
        a.acceptanceOmega, a.killThreshold, a.reviveScaler⟩, a.criterion, env.crash C C M⟩
      a.maxSteps a.tolerance a.interval
      ⟨(Finder.drawNormal env.rng a.randomStd C M g).1, fun _ => 1, fun _ _ => 0, fun _ _ => 0,
        ns.map fun n => (n.start M).reset, (Finder.drawNormal env.rng a.randomStd C M g).2⟩
      (a.maxRevive * M)).2 >>= fun out => clustered ext out.1 out.2 := by
  subst hM
  have hC : 1 ≤ C := NeZero.one_le
  obtain ⟨o1, o2, -, o3, -⟩ := shortcut_objects hC chis l phi
  set o : FHInteraction C ℝ := ⟨fun i j => 1 / 2 * (chis i j + chis j i), false⟩ with ho
  set M := Finder.partNumber a.numPart C with hMdef
  have hC0 : C ≠ 0 := NeZero.ne C
  set ia : FHCompiled C ℝ := o.compile ((a.kwargs.get? "additional_chis_shift").getD 1) with hia
  have c1 : o.obj.compiled a.kwargs = .ok ⟨C, ia⟩ := by
    rw [InstObj.compiled_eq]
    simp only [FHInteraction.obj, dif_neg hC0, List.mem_singleton, if_true]
    rfl
  set d := Finder.drawNormal env.rng a.randomStd C M g with hd
  have hcreate : Finder.create env g o.obj (⟨l⟩ : GasEntropy C).obj (⟨phi⟩ : CanonicalEnsemble C).obj
      constraints a = .ok { Finder.blank a ⟨C, ia⟩ ⟨C, C, .ideal ⟨l⟩⟩ ⟨C, .canonical ⟨phi⟩⟩ M
        ((ns.map fun n => (PackedCons.ofNew (M := M) ⟨C, n⟩)).map PackedCons.reset) g with
          omegas := d.1
          g := d.2
          Js := fun _ => 1 } := by
    unfold Finder.create
    rw [c1, bind_ok, InstObj.compiled_eq, InstObj.compiled_eq]
    simp only [GasEntropy.obj, CanonicalEnsemble.obj, bind_ok, GasEntropy.compile]
    rw [hns]
    dsimp only
    have k1 : Finder.checkSizes C C none (some C) = .ok () := by simp [Finder.checkSizes]
    have k2 : Finder.checkSizes C C (some C) (some C) = .ok () := by simp [Finder.checkSizes]
    have k3 : Finder.checkSizes C C (some C) none = .ok () := by simp [Finder.checkSizes]
    have k4 : Finder.checkAll C C (ns.map fun n => (PackedCons.ofNew (M := M) ⟨C, n⟩)) = .ok () := by
      rw [checkAll_ok]
      intro c hc
      obtain ⟨n, -, rfl⟩ := List.mem_map.mp hc
      rfl
    rw [k1, bind_ok, k2, bind_ok, k3, bind_ok, k4, bind_ok]
    unfold Finder.reinitRandom
    rw [if_neg (by exact not_lt.mpr hstd)]
    rfl
  unfold findCoexistingPhases
  rw [o1, bind_ok, o2, bind_ok]
  have hfe : FreeEnergy.new ⟨C, fhPart o.chis⟩ ⟨C, gasPart l⟩ = .ok ⟨C, fhPart o.chis, gasPart l⟩ := by
    simp [FreeEnergy.new]
  dsimp only
  rw [hfe, bind_ok, o3, bind_ok, hcreate, bind_ok]
  have hparts : Finder.parts { Finder.blank a ⟨C, ia⟩ ⟨C, C, .ideal ⟨l⟩⟩ ⟨C, .canonical ⟨phi⟩⟩ M
        ((ns.map fun n => (PackedCons.ofNew (M := M) ⟨C, n⟩)).map PackedCons.reset) g with
          omegas := d.1
          g := d.2
          Js := fun _ => 1 } =
      some ⟨ia, .ideal ⟨l⟩, .canonical ⟨phi⟩, ns.map fun n => (n.start M).reset⟩ := by
    refine parts_of ?_ ?_ ?_ (unpackAll ns)
    · exact dif_pos rfl
    · exact dif_pos ⟨rfl, rfl⟩
    · exact dif_pos rfl
  exact run_clustered env ext hparts ⟨NeZero.ne M⟩

end Flory
