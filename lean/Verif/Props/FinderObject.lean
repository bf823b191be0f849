import Verif.Lemmas.FinderObject
import Verif.Props.Finder

/-!
# The transcribed constructor and the transcribed changing methods of the finder (C107)

`Verif/Gen/FinderObject.lean` contains the text of `CoexistingPhasesFinder.__init__`, of the methods that change
a finder, of `filter_kwargs` and of `compiled` as a program translated it, acting on a record of attributes that may
be unassigned.  Changes made before an exception stay.  They do what the model does.
-/

set_option linter.unusedSectionVars false

namespace Flory

open Spec

section Agreement
variable {G : Type} {M : ℕ}

/-- **C107**, `compiled`: the transcribed `compiled` of the four base classes, which filters the keyword arguments
with the transcribed `filter_kwargs`, gives the compiled object or the exception of the model. -/
theorem C107_compiled {α : Type} (o : InstObj α) (kw : Dict ℝ) :
    Gen.InteractionBase.compiled o kw = o.compiled kw ∧ Gen.EntropyBase.compiled o kw = o.compiled kw ∧
    Gen.EnsembleBase.compiled o kw = o.compiled kw ∧ Gen.ConstraintBase.compiled o kw = o.compiled kw :=
  ⟨interaction_compiled o kw, entropy_compiled o kw, ensemble_compiled o kw, constraint_compiled o kw⟩

/-- **C107**, setters: on the attributes of a finder of the model the transcribed setters leave the attributes of the
finder that the model's setter leaves, and raise the same exception or none. -/
theorem C107_setters {x : FinderExtra} {o : Gen.FinderObj G M} {f : Finder G} (h : SameFinder x o f)
    (other : ℕ → PackedCons M → PackedCons M) (reset : Bool) (kw : Dict ℝ) :
    (∀ i, SameCall x (Gen.CoexistingPhasesFinder.set_interaction i reset kw o) (f.setInteraction i reset kw)) ∧
    (∀ e, SameCall x (Gen.CoexistingPhasesFinder.set_entropy e reset kw o) (f.setEntropy e reset kw)) ∧
    (∀ s, SameCall x (Gen.CoexistingPhasesFinder.set_ensemble s reset kw o) (f.setEnsemble s reset kw)) ∧
    (∀ cs ind, SameCall x (Gen.CoexistingPhasesFinder.set_constraints other cs reset ind kw o)
      (f.setConstraints cs reset ind kw)) :=
  ⟨fun i => set_interaction_same h i reset kw, fun e => set_entropy_same h e reset kw,
    fun s => set_ensemble_same h s reset kw, fun cs ind => set_constraints_same other h cs reset ind kw⟩

/-- **C107**, resets: the same for `reset_revive` and the `reinitialize_*` methods. -/
theorem C107_resets {x : FinderExtra} {o : Gen.FinderObj G M} {f : Finder G} (h : SameFinder x o f)
    (env : FinderEnv G) (other : ℕ → PackedCons M → PackedCons M) :
    SameCall x (Gen.CoexistingPhasesFinder.reset_revive o) (f.resetRevive, .ok ()) ∧
    SameCall x (Gen.CoexistingPhasesFinder.reinitialize_constraint other o) (f.reinitConstraint, .ok ()) ∧
    SameCall x (Gen.CoexistingPhasesFinder.reinitialize_random env.rng other o) (f.reinitRandom env) ∧
    (∀ omegas, SameCall x (Gen.CoexistingPhasesFinder.reinitialize_from_omegas other omegas o)
      (f.reinitOmegas omegas)) ∧
    (∀ phis, SameCall x (Gen.CoexistingPhasesFinder.reinitialize_from_phis other phis o) (f.reinitPhis phis)) :=
  ⟨resetRevive_same h, reinitConstraint_same other h, reinitialize_random_same env other h,
    fun omegas => reinitialize_from_omegas_same other h omegas,
    fun phis => reinitialize_from_phis_same other h phis⟩

/-- **C107**, constructor: on an object without any attribute the transcribed constructor raises the exception that
the model's constructor raises, or assigns every attribute, with the values of the model.  The generator is the
one given, with seed attribute 0, or a new one seeded by the clock; `M` is the number of compartments. -/
theorem C107_init (env : FinderEnv G) (newGen : ℤ → G) (now : ℤ) (other : ℕ → PackedCons M → PackedCons M)
    (i : InstObj AnyInteraction) (e : InstObj AnyEntropy) (s : InstObj AnyEnsemble) (cs : ConsArg) (a : FinderArgs)
    (rng : Option G) (progress : Bool)
    (hM : ∀ en, e.compiled a.kwargs = .ok en →
      M = if a.numPart.getD 0 = 0 then en.numComp * 8 else a.numPart.getD 0) :
    match Finder.create env (rng.getD (newGen now)) i e s cs a with
    | .error err =>
      (Gen.CoexistingPhasesFinder.init env.rng newGen now other i e s cs (initArgs a rng progress) a.kwargs
        ({} : Gen.FinderObj G M)).2 = .error err
    | .ok f =>
      SameCall ⟨progress, rng.isSome, if rng.isSome then 0 else now⟩
        (Gen.CoexistingPhasesFinder.init env.rng newGen now other i e s cs (initArgs a rng progress) a.kwargs
          ({} : Gen.FinderObj G M)) (f, .ok ()) :=
  init_same env newGen now other i e s cs a rng progress fun en h => by
    rw [hM en h]
    unfold Finder.partNumber
    cases a.numPart <;> simp

/-- **C107**, defaults: the defaults in the text are those of the model. -/
theorem C107_defaults :
    (initArgs {} none true : Gen.InitArgs G) = {} ∧
    Gen.CoexistingPhasesFinder.init_constraints = .none ∧
    Gen.CoexistingPhasesFinder.set_interaction_defaults = true ∧
    Gen.CoexistingPhasesFinder.set_entropy_defaults = true ∧
    Gen.CoexistingPhasesFinder.set_ensemble_defaults = true ∧
    Gen.CoexistingPhasesFinder.set_constraints_defaults = (.none, true, .none) := by
  refine ⟨?_, rfl, rfl, rfl, rfl, rfl⟩
  simp only [initArgs]
  congr 1 <;> norm_num

/-- **C107**, histories: any sequence of calls of the changing methods, exceptions being caught, leaves the
attributes of the model and gives the results and exceptions of the model, one after the other. -/
theorem C107_history (env : FinderEnv G) (other : ℕ → PackedCons M → PackedCons M) {x : FinderExtra}
    {ops : List FinderOp} {calls : List (Act (Gen.FinderObj G M) Unit)}
    (hops : List.Forall₂ (fun op c => codeCall env.rng other op = some c) ops calls)
    {o : Gen.FinderObj G M} {f : Finder G} (h : SameFinder x o f) :
    SameFinder x (callAll calls o).1 (Finder.steps env ops f).1 ∧
    (callAll calls o).2.map (fun r => r.map fun _ => (none : Option RunOut)) = (Finder.steps env ops f).2 := by
  induction hops generalizing o f with
  | nil => exact ⟨h, rfl⟩
  | @cons op c ops calls hc _ ih =>
    have key : SameFinder x (c o).1 (f.step env op).1 ∧
        (c o).2.map (fun _ => (none : Option RunOut)) = (f.step env op).2 := by
      obtain ⟨s1, s2, s3, s4⟩ : _ ∧ _ ∧ _ ∧ _ := ⟨set_interaction_same h, set_entropy_same h, set_ensemble_same h,
        set_constraints_same other h⟩
      obtain ⟨r1, r2, r3, r4, r5⟩ := C107_resets h env other
      have fin : ∀ {q : Finder G × Py Unit}, SameCall x (c o) q →
          SameFinder x (c o).1 q.1 ∧ (c o).2.map (fun _ => (none : Option RunOut)) =
            q.2.map fun _ => (none : Option RunOut) :=
        fun hq => ⟨hq.1, by rw [hq.2]⟩
      cases op with
      | setInteraction i r kw => cases hc; exact fin (s1 i r kw)
      | setEntropy e r kw => cases hc; exact fin (s2 e r kw)
      | setEnsemble s r kw => cases hc; exact fin (s3 s r kw)
      | setConstraints cs r ind kw => cases hc; exact fin (s4 cs r ind kw)
      | resetRevive => cases hc; exact fin r1
      | reinitConstraint => cases hc; exact fin r2
      | reinitRandom => cases hc; exact fin r3
      | reinitOmegas w => cases hc; exact fin (r4 w)
      | reinitPhis p => cases hc; exact fin (r5 p)
      | run ms tol iv => cases hc
    have := ih key.1
    exact ⟨this.1, by
      change (c o).2.map (fun _ => (none : Option RunOut)) :: _ = (f.step env op).2 :: _
      rw [key.2]
      exact congrArg _ this.2⟩

/-- **C107**, consequence: after the constructor and any changing calls, whether they raised or not, the attributes
that hold sizes and settings have the values that the constructor gave them. -/
theorem C107_settings_kept (env : FinderEnv G) (newGen : ℤ → G) (now : ℤ) (other : ℕ → PackedCons M → PackedCons M)
    {i : InstObj AnyInteraction} {e : InstObj AnyEntropy} {s : InstObj AnyEnsemble} {cs : ConsArg} {a : FinderArgs}
    {rng : Option G} {progress : Bool} {f : Finder G}
    (hM : ∀ en, e.compiled a.kwargs = .ok en →
      M = if a.numPart.getD 0 = 0 then en.numComp * 8 else a.numPart.getD 0)
    (hf : Finder.create env (rng.getD (newGen now)) i e s cs a = .ok f)
    {ops : List FinderOp} {calls : List (Act (Gen.FinderObj G M) Unit)}
    (hops : List.Forall₂ (fun op c => codeCall env.rng other op = some c) ops calls) :
    let r := Gen.CoexistingPhasesFinder.init env.rng newGen now other i e s cs (initArgs a rng progress) a.kwargs
      ({} : Gen.FinderObj G M)
    let o := (callAll calls r.1).1
    r.2 = .ok () ∧ o._num_part = some M ∧ o._num_comp = r.1._num_comp ∧ o._num_feat = r.1._num_feat ∧
    o._max_steps = some a.maxSteps ∧ o._tolerance = some a.tolerance ∧ o._interval = some a.interval ∧
    o._convergence_criterion = some a.criterion ∧ o._random_std = some a.randomStd ∧
    o._max_revive_per_compartment = some a.maxRevive ∧ o._kwargs_for_instances = some a.kwargs ∧
    o._progress = some progress := by
  intro r o
  have h := C107_init env newGen now other i e s cs a rng progress hM
  rw [hf] at h
  obtain ⟨h1, h2⟩ := h
  have h3 := (C107_history env other hops h1).1
  obtain ⟨ia, en, es, l, f₀, hc, rfl, hk⟩ := C43_created hf ops
  exact ⟨h2, h3.num_part, by rw [h3.num_comp, h1.num_comp, hk.numComp], by rw [h3.num_feat, h1.num_feat, hk.numFeat],
    by rw [h3.max_steps, hk.maxSteps, hc.maxSteps], by rw [h3.tolerance, hk.tolerance, hc.tolerance],
    by rw [h3.interval, hk.interval, hc.interval], by rw [h3.criterion, hk.criterion, hc.criterion],
    by rw [h3.random_std, hk.randomStd, hc.randomStd], by rw [h3.max_revive, hk.maxRevive, hc.maxRevive],
    by rw [h3.kwargs, hk.kwargs, hc.kwargs], h3.progress⟩

end Agreement

/-- A finder with two constraints and three compartments, an own generator and its clock. -/
theorem demo_init : ∃ f : Finder Unit,
    SameCall ⟨true, true, 0⟩
      (Gen.CoexistingPhasesFinder.init Demo.fenv.rng (fun _ => ()) 1234 (fun _ c => c) Demo.fhPy.obj Demo.gasObj.obj
        Demo.canonicalObj.obj (.many [Demo.locObj.obj, Demo.globObj.obj]) (initArgs Demo.args (some ()) true)
        Demo.args.kwargs ({} : Gen.FinderObj Unit 3)) (f, .ok ()) ∧ f.numFeat = 2 ∧ f.reviveLeft = 48 := by
  obtain ⟨f, ia, cs, hf, hc, -⟩ := Demo.created
  have h := C107_init Demo.fenv (fun _ => ()) 1234 (fun _ c => c) Demo.fhPy.obj Demo.gasObj.obj
    Demo.canonicalObj.obj (.many [Demo.locObj.obj, Demo.globObj.obj]) Demo.args (some ()) true (M := 3) (by
      intro en _
      simp [Demo.args])
  rw [show (some ()).getD () = () from rfl, hf] at h
  exact ⟨f, h, hc.numFeat, by rw [hc.reviveLeft, hc.numPart]; simp [Demo.args]⟩

/-- The constructor of the text works, and then a change of the interaction to a wrong number of features raises
`FeatureNumberError` although the new interaction is kept, while new fields of the wrong shape raise
`ValueError`. -/
example : ∃ o : Gen.FinderObj Unit 3,
    (Gen.CoexistingPhasesFinder.init Demo.fenv.rng (fun _ => ()) 1234 (fun _ c => c) Demo.fhPy.obj Demo.gasObj.obj
      Demo.canonicalObj.obj (.many [Demo.locObj.obj, Demo.globObj.obj]) (initArgs Demo.args (some ()) true)
      Demo.args.kwargs ({} : Gen.FinderObj Unit 3)) = (o, .ok ()) ∧ o._revive_count_left = some 48 ∧
    o._rng_seed = some 0 ∧
    (callAll [Gen.CoexistingPhasesFinder.set_interaction Demo.fhPy3.obj true [],
      Gen.CoexistingPhasesFinder.reinitialize_from_omegas (fun _ c => c) (.ofVec (![0, 1] : Vec 2 ℝ))] o).2 =
      [.error .featureNumberError, .error .valueError] := by
  obtain ⟨f, h, hS, hr⟩ := demo_init
  revert h
  generalize Gen.CoexistingPhasesFinder.init Demo.fenv.rng (fun _ => ()) 1234 (fun _ c => c) Demo.fhPy.obj
    Demo.gasObj.obj Demo.canonicalObj.obj (.many [Demo.locObj.obj, Demo.globObj.obj])
    (initArgs Demo.args (some ()) true) Demo.args.kwargs ({} : Gen.FinderObj Unit 3) = r
  intro h
  refine ⟨r.1, Prod.ext rfl h.2, h.1.revive_left.trans (congrArg some hr), h.1.rng_seed, ?_⟩
  have h1 := (C107_setters h.1 (fun _ c => c) true []).1 Demo.fhPy3.obj
  have h2 := (C107_resets h1.1 Demo.fenv (fun _ c => c)).2.2.2.1 (.ofVec (![0, 1] : Vec 2 ℝ))
  obtain ⟨x, hx⟩ := Demo.fh3_compiled (f.kwargs.merge [])
  have e1 : (f.setInteraction Demo.fhPy3.obj true []).2 = .error .featureNumberError := by
    simp [Finder.setInteraction, hx, Finder.checkSizes, hS]
  refine congrArg₂ List.cons (h1.2.trans e1) (congrArg₂ List.cons (h2.2.trans ?_) rfl)
  simp [Finder.reinitOmegas, Finder.checkField, NDArr.ofVec]

end Flory
