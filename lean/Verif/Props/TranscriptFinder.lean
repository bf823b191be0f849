import Verif.Spec.TranscriptFinder
import Verif.Lemmas.TranscriptRun
import Verif.Lemmas.Finder
import Verif.Props.Transcript
import Verif.Props.Run
import Verif.Props.Finder
import Verif.Props.Equilibrium

/-!
# The transcribed finder (C103)

`Verif/Gen/Finder.lean` contains `run` and the `reinitialize_*` methods of `CoexistingPhasesFinder` as
translated from the Python text.  They do what the model's methods do, and main theorems about the
model are repeated for them.
-/

set_option linter.unusedSectionVars false

namespace Flory

open Spec

section Agreement
variable {G : Type}

theorem attrs_env (env : FinderEnv G) (f : Finder G) [NeZero f.numPart]
    (p : Finder.Parts f.numComp f.numFeat f.numPart) :
    (f.attrs p).env env.rng (env.crash _ _ _) = f.runEnv env p := by
  unfold FinderAttrs.env Finder.runEnv Finder.attrs
  congr 1
  · exact C102_entropies.2.2.2.2.1 p.en
  · exact (C102_entropies (S := f.numFeat)).2.2.2.2.2 p.es

theorem adopt_mirrors (f : Finder G) {p : Finder.Parts f.numComp f.numFeat f.numPart}
    (hp : f.parts = some p) (a : FinderAttrs f.numComp f.numFeat f.numPart) (g : G)
    (d : Option (Diagnostics ℝ))
    (ha : a = { f.attrs p with
      constraints := a.constraints, diagnostics := d.map Diagnostics.dict, omegas := a.omegas
      Js := a.Js, phisFeat := a.phisFeat, phisComp := a.phisComp, reviveLeft := a.reviveLeft }) :
    Mirrors (f.adopt a g d) a := by
  obtain ⟨h1, h2, h3, -⟩ := parts_eq.mp hp
  refine ⟨⟨p.ia, p.en, p.es, a.constraints⟩, parts_eq.mpr ⟨h1, h2, h3, rfl⟩, ha⟩

/-- **C103**, records: the finders that have a record for the transcribed methods are those whose
instances fit (every new finder, and every finder as long as no `set_*` call raises, see C44). -/
theorem C103_record (f : Finder G) : Fits f ↔ ∃ a, Mirrors f a := by
  rw [fits_iff]
  exact ⟨fun ⟨p, hp⟩ => ⟨_, p, hp, rfl⟩, fun ⟨_, p, hp, _⟩ => ⟨p, hp⟩⟩

/-- **C103**, `run`: for a finder whose instances fit, the transcribed `run` raises the exception that
the model's `run` raises, or returns the same phases and leaves the same attributes, generator and
diagnostics. -/
theorem C103_run {env : FinderEnv G} (hok : env.rng.Ok) (f : Finder G) [NeZero f.numPart]
    {a : FinderAttrs f.numComp f.numFeat f.numPart} (ha : Mirrors f a)
    (ms : Option ℚ) (tol : Option ℝ) (iv : Option ℤ) :
    match Gen.Finder.run a ms tol iv env.rng f.g with
    | .error e => (f.run env ms tol iv).2 = .error e
    | .ok (ph, a', g') => ∃ d, f.run env ms tol iv = (f.adopt a' g' (some d), .ok ⟨_, _, ph, d⟩) ∧
        Mirrors (f.adopt a' g' (some d)) a' := by
  obtain ⟨p, hp, rfl⟩ := ha
  rw [run_transcript hok (f.attrs p) (env.crash _ _ _), run_some hp, attrs_env,
    show (f.attrs p).state f.g = f.state p.cons from rfl,
    show (f.attrs p).maxSteps = f.maxSteps from rfl, show (f.attrs p).tolerance = f.tolerance from rfl,
    show (f.attrs p).interval = f.interval from rfl, show (f.attrs p).reviveLeft = f.reviveLeft from rfl]
  rcases runImpl (f.runEnv env p) (ms.getD f.maxSteps) (tol.getD f.tolerance) (iv.getD f.interval)
    (f.state p.cons) f.reviveLeft with ⟨s, x⟩
  cases x with
  | error e => rfl
  | ok x => exact ⟨x.2, rfl, adopt_mirrors f hp _ _ _ rfl⟩

theorem pack_reset (f : Finder G) {p : Finder.Parts f.numComp f.numFeat f.numPart}
    (hp : f.parts = some p) : f.constraints.map PackedCons.reset =
      (p.cons.map Cons.reset).map fun c => ⟨f.numFeat, true, c⟩ := by
  obtain ⟨-, -, -, h4⟩ := parts_eq.mp hp
  rw [h4, List.map_map, List.map_map]
  rfl

/-- **C103**, `reset_revive` and `reinitialize_constraint`: the transcribed methods leave the attributes
of the model's finder after its methods. -/
theorem C103_reset (f : Finder G) {a : FinderAttrs f.numComp f.numFeat f.numPart} [NeZero f.numPart]
    (ha : Mirrors f a) :
    Mirrors f.resetRevive (Gen.Finder.reset_revive a) ∧
    Mirrors f.reinitConstraint (Gen.Finder.reinitialize_constraint a) := by
  obtain ⟨p, hp, rfl⟩ := ha
  obtain ⟨h1, h2, h3, h4⟩ := parts_eq.mp hp
  exact ⟨⟨p, parts_eq.mpr ⟨h1, h2, h3, h4⟩, rfl⟩,
    ⟨⟨p.ia, p.en, p.es, p.cons.map Cons.reset⟩, parts_eq.mpr ⟨h1, h2, h3, pack_reset f hp⟩, rfl⟩⟩

/-- **C103**, `reinitialize_random`: the same exception, or the same attributes and generator. -/
theorem C103_random (env : FinderEnv G) (f : Finder G) [NeZero f.numPart]
    {a : FinderAttrs f.numComp f.numFeat f.numPart} (ha : Mirrors f a) :
    match Gen.Finder.reinitialize_random a env.rng f.g with
    | .error e => f.reinitRandom env = (f, .error e)
    | .ok (a', g') => f.reinitRandom env = (f.adopt a' g' f.diagnostics, .ok ()) ∧
        Mirrors (f.adopt a' g' f.diagnostics) a' := by
  obtain ⟨p, hp, rfl⟩ := ha
  unfold Gen.Finder.reinitialize_random drawNormalPy Finder.reinitRandom
  rw [show (f.attrs p).randomStd = f.randomStd from rfl]
  dsimp only
  by_cases h : f.randomStd < 0
  · rw [if_pos h, if_pos h]
    rfl
  · rw [if_neg h, if_neg h]
    refine ⟨?_, adopt_mirrors f hp _ _ _ rfl⟩
    unfold Finder.reinitConstraint Finder.resetRevive Finder.adopt
    dsimp only
    rw [pack_reset f hp]
    rfl

/-- **C103**, `reinitialize_from_omegas`: the same exception, or the same attributes. -/
theorem C103_omegas (f : Finder G) [NeZero f.numPart]
    {a : FinderAttrs f.numComp f.numFeat f.numPart} (ha : Mirrors f a) (omegas : NDArr ℝ) :
    match Gen.Finder.reinitialize_from_omegas a omegas with
    | .error e => f.reinitOmegas omegas = (f, .error e)
    | .ok a' => f.reinitOmegas omegas = (f.adopt a' f.g f.diagnostics, .ok ()) ∧
        Mirrors (f.adopt a' f.g f.diagnostics) a' := by
  obtain ⟨p, hp, rfl⟩ := ha
  unfold Gen.Finder.reinitialize_from_omegas Gen.Finder.check_field Finder.reinitOmegas Finder.checkField
  by_cases h : omegas.shape ≠ [f.numFeat, f.numPart]
  · rw [if_pos h, if_pos h]
    rfl
  · rw [if_neg h, if_neg h]
    refine ⟨?_, adopt_mirrors f hp _ _ _ rfl⟩
    unfold Finder.reinitConstraint Finder.resetRevive Finder.adopt
    dsimp only
    rw [pack_reset f hp]
    rfl

/-- **C103**, `reinitialize_from_phis`: the same exception, or the same attributes. -/
theorem C103_phis (f : Finder G) [NeZero f.numPart]
    {a : FinderAttrs f.numComp f.numFeat f.numPart} (ha : Mirrors f a) (phis : NDArr ℝ) :
    match Gen.Finder.reinitialize_from_phis a phis with
    | .error e => f.reinitPhis phis = (f, .error e)
    | .ok a' => f.reinitPhis phis = (f.adopt a' f.g f.diagnostics, .ok ()) ∧
        Mirrors (f.adopt a' f.g f.diagnostics) a' := by
  obtain ⟨p, hp, rfl⟩ := ha
  obtain ⟨h1, -, -, -⟩ := parts_eq.mp hp
  unfold Gen.Finder.reinitialize_from_phis Gen.Finder.check_field Finder.reinitPhis Finder.checkField
  rw [unpackInteraction_eq.mpr h1]
  by_cases h : phis.shape ≠ [f.numFeat, f.numPart]
  · rw [if_pos h, if_pos h]
    rfl
  · rw [if_neg h, if_neg h]
    refine ⟨?_, adopt_mirrors f hp _ _ _ rfl⟩
    unfold Finder.reinitConstraint Finder.resetRevive Finder.adopt
    dsimp only
    rw [pack_reset f hp]
    rfl

end Agreement

section Consequences
variable {G : Type} {C S M : ℕ} [NeZero M]

theorem run_transcript_ok {rng : Rng G ℝ} (hok : rng.Ok) {a a' : FinderAttrs C S M} {ms : Option ℚ}
    {tol : Option ℝ} {iv : Option ℤ} {g g' : G} {ph : Phases M C ℝ}
    (h : Gen.Finder.run a ms tol iv rng g = .ok (ph, a', g')) :
    ∃ s d, runImpl (a.env rng id) (ms.getD a.maxSteps) (tol.getD a.tolerance) (iv.getD a.interval)
      (a.state g) a.reviveLeft = (s, .ok (ph, d)) ∧ a' = a.after s d ∧ g' = s.st.g := by
  rw [run_transcript hok a id] at h
  generalize runImpl (a.env rng id) (ms.getD a.maxSteps) (tol.getD a.tolerance) (iv.getD a.interval)
    (a.state g) a.reviveLeft = r at h
  obtain ⟨s, x⟩ := r
  cases x with
  | error e => cases h
  | ok x =>
    have he := Except.ok.inj h
    simp only [Prod.mk.injEq] at he
    obtain ⟨h1, h2, h3⟩ := he
    exact ⟨s, x.2, by rw [← h1], h2.symm, h3.symm⟩

/-- **C103**, no failure: with a transcribed entropy and ensemble, a threshold in `[0, 1)` that is small enough for
the copies, a positive bound of the volume steps, the standard criterion, at least one step, non-empty
constraints and a compartment that lives or may be revived, the transcribed `run` returns and stores
diagnostics; at least one step and at most `max_steps` steps, rounded up, were made. -/
theorem C103_returns (en : EntropyInst C S) (es : EnsembleInst C)
    {sizes : Vec C ℝ} {feat : Fin C → Fin S} (hen : IsIdealGas (Gen.entropyObj M en) sizes feat)
    {rng : Rng G ℝ} (hok : rng.Ok) {a : FinderAttrs C S M}
    (hae : a.entropy = Gen.entropyObj M en) (has : a.ensemble = Gen.ensembleObj M es)
    (hthr : 0 ≤ a.params.killThreshold) (hthr1 : a.params.killThreshold < 1)
    (hthr2 : 2 * a.params.killThreshold * ((M : ℝ) - 1) < 1) (hb : 0 < a.params.JsStepUpperBound)
    (hstd : a.criterion = "standard") {ms : Option ℚ} {tol : Option ℝ} {iv : Option ℤ}
    (h1 : 0 < ms.getD a.maxSteps) (h2 : 0 < iv.getD a.interval)
    (hcons : ∀ c ∈ a.constraints, c.Proper)
    (halive : (∃ m, a.params.killThreshold < a.Js m) ∨ 0 < a.reviveLeft) (g : G) :
    ∃ ph a' g' d, Gen.Finder.run a ms tol iv rng g = .ok (ph, a', g') ∧ a'.diagnostics = some d ∧
      1 ≤ d.steps ∧ d.steps ≤ ⌈ms.getD a.maxSteps⌉ ∧ d.reviveCountLeft = a'.reviveLeft := by
  have hes : a.ensemble.Total := by
    rw [has, C102_entropies (S := S) |>.2.2.2.2.2 es]; exact es.total M
  obtain ⟨s, ph, d, hr⟩ := run_ok (e := a.env rng id) (tol := tol.getD a.tolerance) hok
    (hae ▸ hen : IsIdealGas a.entropy sizes feat) hes hthr hthr1 hthr2 hb hstd h1 h2 (a.state g)
    a.reviveLeft hcons halive
  have h := run_transcript hok a id ms tol iv g
  rw [hr] at h
  obtain ⟨inner, ts, t, -, k1, -, k2, k3, -, -⟩ := C41_step_accounting hthr h1 h2 hr
  obtain ⟨_, _, _, _, _, _, _, hf⟩ := run_facts hthr hr
  refine ⟨_, _, _, d.dict, h, rfl, ?_, k3, ?_⟩
  · have : 1 ≤ d.steps := k2 ▸ Nat.mul_pos (Nat.succ_pos _) k1
    show 1 ≤ (d.steps : ℤ)
    exact_mod_cast this
  · show d.reviveCountLeft = s.reviveLeft
    rw [hf.diag]

/-- **C103**, chemical balance: when the transcribed `run` returns, the chemical potentials of a
component in two returned compartments differ by no more than a combination of the errors stored in the
diagnostics, for mixtures without local constraints in either ensemble. -/
theorem C103_chemical_balance {rng : Rng G ℝ} (hok : rng.Ok) {chis : Mat S S ℝ} {shift : ℝ}
    {en : EntropyInst C S} {sizes : Vec C ℝ} {feat : Fin C → Fin S}
    (hen : IsIdealGas (Gen.entropyObj M en) sizes feat) {a a' : FinderAttrs C S M}
    (hai : a.interaction = Gen.FHCompiled.obj (Gen.FHCompiled.init chis shift) M)
    (hae : a.entropy = Gen.entropyObj M en) {i : Fin C} (hl : sizes i ≠ 0)
    (has : (∃ phiMeans, a.ensemble = Gen.CanonicalC.obj (Gen.CanonicalC.init phiMeans) M ∧
        0 < phiMeans i) ∨
      ∃ act, a.ensemble = Gen.GrandC.obj (Gen.GrandC.init act) M ∧ 0 < act i)
    (hthr : 0 ≤ a.params.killThreshold) (hcons : ∀ c ∈ a.constraints, c.NotLocal)
    {ms : Option ℚ} {tol : Option ℝ} {iv : Option ℤ} {g g' : G} {ph : Phases M C ℝ}
    (h : Gen.Finder.run a ms tol iv rng g = .ok (ph, a', g')) :
    ∃ d, a'.diagnostics = some d ∧ ∀ p q,
      |chemPot (liftChis chis feat) sizes (ph.fractions p) i
        - chemPot (liftChis chis feat) sizes (ph.fractions q) i| ≤
      S * d.maxAbsOmegaDiff + |(∑ r, ∑ q, chis r q) + shift * S * S| * d.maxAbsIncomp
        + 2 * d.maxAbsJsDiff := by
  obtain ⟨s, d, hr, rfl, -⟩ := run_transcript_ok hok h
  refine ⟨d.dict, rfl, fun p q => ?_⟩
  rcases has with ⟨phiMeans, has, hi⟩ | ⟨act, has, hi⟩
  · exact C39_chemical_balance (e := a.env rng id) (ia := Gen.FHCompiled.init chis shift) hok hthr hai
      (hae ▸ hen : IsIdealGas a.entropy sizes feat)
      (has.trans (C102_interaction_and_ensembles (S := 0) |>.2.2.1 _) ▸ CanonicalC.scales _)
      hcons hr hl (fun Q hQ => div_pos hi (hQ i)) p q
  · exact C39_chemical_balance (e := a.env rng id) (ia := Gen.FHCompiled.init chis shift) hok hthr hai
      (hae ▸ hen : IsIdealGas a.entropy sizes feat)
      (show Scales a.ensemble fun _ => act from has ▸ GrandC.scales (M := M) ⟨act⟩)
      hcons hr hl (fun Q hQ => hi) p q

/-- **C103**, homogeneous mixture: after the transcribed `reinitialize_from_omegas` with the fields of
the homogeneous mixture (up to a constant), the transcribed `run` returns the homogeneous mixture in
every compartment, reports no errors and changes neither volumes nor fields. -/
theorem C103_homogeneous {rng : Rng G ℝ} (hok : rng.Ok) {chis : Mat S S ℝ} {shift c : ℝ}
    {en : EntropyInst C S} {phiMeans sizes : Vec C ℝ} {feat : Fin C → Fin S}
    (hen : IsIdealGas (Gen.entropyObj M en) sizes feat) (hsum : ∑ i, phiMeans i = 1)
    {a a₁ a₂ : FinderAttrs C S M}
    (hai : a.interaction = Gen.FHCompiled.obj (Gen.FHCompiled.init chis shift) M)
    (hae : a.entropy = Gen.entropyObj M en)
    (has : a.ensemble = Gen.CanonicalC.obj (Gen.CanonicalC.init phiMeans) M)
    (hthr : 0 ≤ a.params.killThreshold) (hthr1 : a.params.killThreshold < 1)
    (hcons : ∀ k ∈ a.constraints,
      Fulfilled (fun r _ => ∑ i, if feat i = r then phiMeans i else 0) (fun _ => 1) k.reset)
    {omegas : NDArr ℝ}
    (hom : ∀ r m, omegas.toMat S M r m = ∑ j, chis r (feat j) * phiMeans j + c)
    (h₁ : Gen.Finder.reinitialize_from_omegas a omegas = .ok a₁)
    {ms : Option ℚ} {tol : Option ℝ} {iv : Option ℤ} {g g' : G} {ph : Phases M C ℝ}
    (h₂ : Gen.Finder.run a₁ ms tol iv rng g = .ok (ph, a₂, g')) :
    (∀ m, ph.volumes m = 1) ∧ (∀ m i, ph.fractions m i = phiMeans i) ∧ (∀ m, a₂.Js m = 1) ∧
      a₂.omegas = omegas.toMat S M ∧ a₂.reviveLeft = a.maxRevive * M ∧
      ∃ d, a₂.diagnostics = some d ∧ d.maxAbsIncomp = 0 ∧ d.maxAbsOmegaDiff = 0 ∧
        d.maxAbsJsDiff = 0 ∧ d.maxConstraintResidue = 0 := by
  have ha : a₁ = { a with
      omegas := omegas.toMat S M, Js := fun _ => 1, reviveLeft := a.maxRevive * M
      constraints := a.constraints.map Cons.reset } := by
    unfold Gen.Finder.reinitialize_from_omegas Gen.Finder.check_field at h₁
    by_cases h : omegas.shape ≠ [S, M]
    · rw [if_pos h] at h₁; cases h₁
    · rw [if_neg h] at h₁
      exact (Except.ok.inj h₁).symm
  subst ha
  obtain ⟨s, d, hr, rfl, -⟩ := run_transcript_ok hok h₂
  obtain ⟨k1, k2, k3, k4, k5, k6, k7, k8, k9, -⟩ := C61_homogeneous_stationary
    (ia := Gen.FHCompiled.init chis shift) (es := Gen.CanonicalC.init phiMeans) (feat := feat) (l := sizes)
    (c := c) hthr hthr1 hai
    (hae ▸ hen : IsIdealGas a.entropy sizes feat)
    (has.trans (C102_interaction_and_ensembles (S := 0) |>.2.2.1 _)) hsum (fun _ => rfl) hom
    (by
      intro k hk
      obtain ⟨k', hk', rfl⟩ := List.mem_map.mp hk
      exact hcons k' hk') hr
  obtain ⟨_, _, _, _, _, _, _, hf⟩ := run_facts hthr hr
  refine ⟨k1, k2, fun m => congrFun k3 m, k4, ?_, d.dict, rfl, k5, k6, k7, k8⟩
  have hd := congrArg Diagnostics.reviveCountLeft hf.diag
  exact hd.symm.trans k9

end Consequences

namespace Demo

/-- The attributes of a finder for the mixture with phases `(1/4, 3/4)` and `(3/4, 1/4)`, two
compartments and a global constraint. -/
noncomputable def coexAttrs : FinderAttrs 2 2 2 where
  interaction := Gen.FHCompiled.obj
    (Gen.FHCompiled.init ![![0, 2 * Real.log 3], ![2 * Real.log 3, 0]] 1) 2
  entropy := Gen.entropyObj 2 (.ideal (Gen.IdealC.init fun _ => 1))
  ensemble := Gen.CanonicalC.obj (Gen.CanonicalC.init ![5 / 8, 3 / 8]) 2
  constraints := coexState.cons
  maxSteps := 1000000
  criterion := "standard"
  tolerance := 1 / 100000
  interval := 10000
  randomStd := 5
  params := params
  maxRevive := 16
  diagnostics := none
  omegas := coexState.omegas
  Js := ![1 / 2, 3 / 2]
  phisFeat := fun _ _ => 0
  phisComp := fun _ _ => 0
  reviveLeft := 32

theorem coexAttrs_gas : IsIdealGas (Gen.entropyObj 2 (.ideal (Gen.IdealC.init fun _ => 1)))
    (fun _ => (1 : ℝ)) (id : Fin 2 → Fin 2) := by
  rw [C102_entropies.2.2.2.2.1]
  exact (⟨fun _ => 1⟩ : IdealC 2).isIdealGas

/-- The fields of the homogeneous mixture. -/
noncomputable def homFields : NDArr ℝ :=
  ⟨[2, 2], fun idx => if idx.head? = some 0 then 2 * Real.log 3 * (3 / 8) else 2 * Real.log 3 * (5 / 8)⟩

end Demo

/-- A new finder with two constraints has a record; the transcribed `run` and the model's `run` return
the same phases. -/
example : ∃ f, Finder.create Demo.fenv () Demo.fhPy.obj Demo.gasObj.obj Demo.canonicalObj.obj
      (.many [Demo.locObj.obj, Demo.globObj.obj]) Demo.args = .ok f ∧
    ∃ (_ : NeZero f.numPart) (a : FinderAttrs f.numComp f.numFeat f.numPart), Mirrors f a ∧
      ∃ ph a' g' d, Gen.Finder.run a none none none (rngZero ℝ) () = .ok (ph, a', g') ∧
        (f.run Demo.fenv none none none).2 = .ok ⟨_, _, ph, d⟩ := by
  obtain ⟨f, ia, cs, hf, hc, hne, -⟩ := Demo.created
  have hg : Good f := good_created hc (by norm_num [Demo.args]) ⟨trivial, trivial⟩ hne
    (by rw [hc.numPart]; simp [Demo.args])
  have hM : NeZero f.numPart := ⟨hg.numPart_ne_zero⟩
  obtain ⟨a, ha⟩ := (C103_record f).mp hc.fits
  obtain ⟨out, hout⟩ := good_run_ok (env := Demo.fenv) (rngZero_ok ℝ) (f := f)
    ⟨by rw [hc.params]; norm_num [Demo.args], by rw [hc.params]; norm_num [Demo.args],
      by rw [hc.params]; norm_num [Demo.args]⟩ (by rw [hc.params]; norm_num [Demo.args])
    (by rw [hc.criterion]; rfl) hg (ms := none) (tol := none) (int := none) (by rw [hc.maxSteps]; norm_num [Demo.args])
    (by rw [hc.interval]; norm_num [Demo.args])
  have h := C103_run (env := Demo.fenv) (rngZero_ok ℝ) f ha none none none
  refine ⟨f, hf, hM, a, ha, ?_⟩
  cases hr : Gen.Finder.run a none none none (rngZero ℝ) f.g with
  | error e =>
    rw [show Demo.fenv.rng = rngZero ℝ from rfl, hr] at h
    rw [h] at hout
    cases hout
  | ok x =>
    rw [show Demo.fenv.rng = rngZero ℝ from rfl, hr] at h
    obtain ⟨d, hd, -⟩ := h
    exact ⟨x.1, x.2.1, x.2.2, d, rfl, by rw [hd]⟩

/-- The transcribed `run` on the demo mixture returns, and the chemical potentials agree up to the
reported errors. -/
example : ∃ ph a' g' d, Gen.Finder.run Demo.coexAttrs none none (some 5000) (rngZero ℝ) () =
      .ok (ph, a', g') ∧ a'.diagnostics = some d ∧ d.steps ≤ 1000000 ∧
    |chemPot (liftChis ![![0, 2 * Real.log 3], ![2 * Real.log 3, 0]] id) (fun _ => 1)
        (ph.fractions 0) 0
      - chemPot (liftChis ![![0, 2 * Real.log 3], ![2 * Real.log 3, 0]] id) (fun _ => 1)
        (ph.fractions 1) 0| ≤
      2 * d.maxAbsOmegaDiff + |(4 * Real.log 3) + 4| * d.maxAbsIncomp + 2 * d.maxAbsJsDiff := by
  obtain ⟨ph, a', g', d, h, hd, -, h2, -⟩ := C103_returns (.ideal (Gen.IdealC.init fun _ => 1))
    (.canonical (Gen.CanonicalC.init ![5 / 8, 3 / 8])) Demo.coexAttrs_gas (rngZero_ok ℝ)
    (a := Demo.coexAttrs) rfl rfl (by simp [Demo.coexAttrs, Demo.params])
    (by simp [Demo.coexAttrs, Demo.params]) (by simp [Demo.coexAttrs, Demo.params])
    (by simp [Demo.coexAttrs, Demo.params]) rfl (ms := none) (tol := none) (iv := some 5000)
    (by norm_num [Demo.coexAttrs]) (by norm_num)
    (by simp [Demo.coexAttrs, Demo.coexState, Cons.Proper])
    (Or.inr (by norm_num [Demo.coexAttrs])) ()
  obtain ⟨d', hd', hb⟩ := C103_chemical_balance (rngZero_ok ℝ) Demo.coexAttrs_gas
    (a := Demo.coexAttrs) rfl rfl (i := 0) one_ne_zero (Or.inl ⟨_, rfl, by norm_num⟩)
    (by simp [Demo.coexAttrs, Demo.params])
    (by simp [Demo.coexAttrs, Demo.coexState, Cons.NotLocal, NoC.new]) h
  obtain rfl := Option.some.inj (hd'.symm.trans hd)
  refine ⟨ph, a', g', d', h, hd, ?_, ?_⟩
  · refine h2.trans ?_
    simp [Demo.coexAttrs]
  · have := hb 0 1
    have e : (∑ r : Fin 2, ∑ q : Fin 2,
        (![![0, 2 * Real.log 3], ![2 * Real.log 3, 0]] : Mat 2 2 ℝ) r q) + 1 * ((2 : ℕ) : ℝ) * ((2 : ℕ) : ℝ) =
        4 * Real.log 3 + 4 := by
      simp [Fin.sum_univ_two]; ring
    rw [e] at this
    exact_mod_cast this

/-- The homogeneous mixture by the transcribed methods, although the equilibrium has two phases. -/
example : ∃ a₁ ph a₂ g', Gen.Finder.reinitialize_from_omegas Demo.coexAttrs Demo.homFields = .ok a₁ ∧
    Gen.Finder.run a₁ none none none (rngZero ℝ) () = .ok (ph, a₂, g') ∧
    ph.fractions 1 0 = 5 / 8 ∧ a₂.reviveLeft = 32 := by
  obtain ⟨a₁, h₁⟩ : ∃ a₁, Gen.Finder.reinitialize_from_omegas Demo.coexAttrs Demo.homFields = .ok a₁ :=
    ⟨_, rfl⟩
  obtain ⟨ph, a₂, g', d, h₂, -⟩ := C103_returns (.ideal (Gen.IdealC.init fun _ => 1))
    (.canonical (Gen.CanonicalC.init ![5 / 8, 3 / 8])) Demo.coexAttrs_gas (rngZero_ok ℝ)
    (a := a₁) (by cases h₁; rfl) (by cases h₁; rfl) (by cases h₁; simp [Demo.coexAttrs, Demo.params])
    (by cases h₁; simp [Demo.coexAttrs, Demo.params]) (by cases h₁; simp [Demo.coexAttrs, Demo.params])
    (by cases h₁; simp [Demo.coexAttrs, Demo.params]) (by cases h₁; rfl) (ms := none) (tol := none)
    (iv := none) (by cases h₁; norm_num [Demo.coexAttrs]) (by cases h₁; norm_num [Demo.coexAttrs])
    (by cases h₁; simp [Demo.coexAttrs, Demo.coexState, Gen.Finder.reinitialize_constraint, mapList,
      Cons.Proper, Cons.reset])
    (Or.inl ⟨0, by cases h₁; simp [Demo.coexAttrs, Demo.params]⟩) ()
  obtain ⟨-, k2, -, -, k5, -⟩ := C103_homogeneous (rngZero_ok ℝ) (c := 0) Demo.coexAttrs_gas
    (by simp [Fin.sum_univ_two]; norm_num) (a := Demo.coexAttrs) rfl rfl rfl
    (by simp [Demo.coexAttrs, Demo.params]) (by simp [Demo.coexAttrs, Demo.params])
    (by
      intro k hk
      simp only [Demo.coexAttrs, Demo.coexState, List.mem_cons, List.not_mem_nil, or_false] at hk
      rcases hk with rfl | rfl
      · simp [Fulfilled, NoC.new, Cons.reset, NoC.reset]
      · refine ⟨fun a => rfl, fun a => ?_⟩
        simp [GlobalC.new, GlobalC.reset, Fin.sum_univ_two])
    (by intro r m; fin_cases r <;> simp [Demo.homFields, NDArr.toMat, Fin.sum_univ_two]) h₁ h₂
  exact ⟨a₁, ph, a₂, g', h₁, h₂, by rw [k2]; rfl, by rw [k5]; rfl⟩

end Flory
