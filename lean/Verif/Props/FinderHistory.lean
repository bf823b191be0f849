import Verif.Props.Finder

/-!
# C34, C36, C44, C45, C62: histories of calls of a finder
-/

set_option linter.unusedSectionVars false

namespace Flory

open Spec

variable {G : Type}

/-! ## C34 survival -/

/-- **C34**, histories.  Take any finder made from an entropy without empty features and non-empty
constraints, with `0 ≤ kill_threshold < 1`, and any history of calls, in which the accepted instances
are of the same kind and no `set_*` call raises.  At the end at least one compartment is alive, and
every call of `run` with positive `max_steps` and `interval` and the standard criterion returns a
result: nothing divides by zero. (The last hypothesis on the threshold is needed for the final copy
revival, see C33; it holds for the default threshold zero.) -/
theorem C34_histories {env : FinderEnv G} (hrng : env.rng.Ok) {g : G}
    {interaction : InstObj AnyInteraction} {entropy : InstObj AnyEntropy}
    {ensemble : InstObj AnyEnsemble} {constraints : ConsArg} {a : FinderArgs} {f : Finder G}
    (h : Finder.create env g interaction entropy ensemble constraints a = .ok f)
    (hen : ∀ kw x, entropy.impl kw = .ok x → GoodEntropy x ∧ 1 ≤ x.numComp)
    (hcs : ∀ o ∈ consObjs constraints, ∀ kw x, o.impl kw = .ok x → NonEmpty x.2)
    (hthr : 0 ≤ a.killThreshold) (hthr1 : a.killThreshold < 1) (hb : 0 < a.JsStepUpperBound)
    {ops : List FinderOp} (hops : ∀ op ∈ ops, WellMade op) (hacc : SetsAccepted env ops f) :
    (∃ m, a.killThreshold < (Finder.steps env ops f).1.Js m) ∧
    (a.criterion = "standard" → 2 * a.killThreshold * ((f.numPart : ℝ) - 1) < 1 → ∀ ms tol int,
      0 < ms.getD a.maxSteps → 0 < int.getD a.interval →
      ∃ out, ((Finder.steps env ops f).1.run env ms tol int).2 = .ok out) := by
  obtain ⟨ia, en, es, -, h2, -, -, h4, hc⟩ := create_ok h
  rw [InstObj.compiled_eq] at h2
  obtain ⟨hg, hn⟩ := hen _ _ h2
  have hM : f.numPart ≠ 0 := by
    rw [hc.numPart]
    split
    · omega
    · assumption
  have hgood : Good f := by
    refine good_created hc hthr1 hg ?_ hM
    intro c hc'
    obtain ⟨d, hd, rfl⟩ := List.mem_map.mp hc'
    rcases initConstraints_mem h4 hd with rfl | ⟨o, ho, x, hx, rfl⟩
    · rw [PackedCons.ofNew_enforces]; trivial
    · rw [PackedCons.ofNew_enforces]
      rw [InstObj.compiled_eq] at hx
      exact hcs o ho _ x hx
  have hpar : ParamsOk f := ⟨by rw [hc.params]; exact hthr, by rw [hc.params]; exact hthr1,
    by rw [hc.params]; exact hb⟩
  obtain ⟨k1, k2⟩ := good_steps hrng ops f hpar hgood hops hacc
  have hs := C43_setup_kept env ops f
  have e : (Finder.steps env ops f).1.params.killThreshold = a.killThreshold := by
    rw [hs.params, hc.params]
  refine ⟨?_, fun hcrit h2 ms tol int h3 h5 => ?_⟩
  · obtain ⟨m, hm⟩ := k1.alive
    exact ⟨m, e ▸ hm⟩
  · refine good_run_ok hrng k2 ?_ ?_ k1 ?_ ?_
    · rw [e, hs.numPart]; exact h2
    · rw [hs.criterion, hc.criterion]; exact hcrit
    · rw [hs.maxSteps, hc.maxSteps]; exact h3
    · rw [hs.interval, hc.interval]; exact h5

/-- The instances of the project are of the required kind: the ideal gas always, the polydisperse gas
without empty features, linear constraints with at least one equation. -/
theorem C34_project_instances {C S : ℕ} (gas : GasEntropy C) (poly : PolyEntropy S)
    (hpoly : ∀ r, 1 ≤ poly.perFeat r) (lin : LinearConstraint S) (hlin : lin.numCons ≠ 0) :
    (∀ kw x, gas.obj.impl kw = .ok x → GoodEntropy x ∧ x.numComp = C) ∧
    (∀ kw x, poly.obj.impl kw = .ok x → GoodEntropy x ∧ S ≤ x.numComp) ∧
    (∀ kw x, lin.obj.impl kw = .ok x → NonEmpty x.2) ∧
    (∀ kw x, (noConstraintObj S).impl kw = .ok x → NonEmpty x.2) := by
  refine ⟨?_, ?_, ?_, ?_⟩
  · rintro kw x h
    cases h
    exact ⟨⟨trivial, trivial⟩, rfl⟩
  · rintro kw x h
    cases h
    refine ⟨⟨rfl, hpoly⟩, ?_⟩
    calc S = ∑ _r : Fin S, 1 := by simp
      _ ≤ _ := Finset.sum_le_sum fun r _ => hpoly r
  · rintro kw x h
    cases h
    show NonEmpty (if lin.isGlobal then _ else _)
    split <;> exact hlin
  · rintro kw x h
    cases h
    trivial

-- A history of the demo finder with a change of the constraints: all runs return.
example : ∃ f, Finder.create Demo.fenv () Demo.fhPy.obj Demo.gasObj.obj Demo.canonicalObj.obj
      (.many [Demo.locObj.obj, Demo.globObj.obj]) Demo.args = .ok f ∧
    ∃ out, ((Finder.steps Demo.fenv [.run none none none, .setConstraints .none true .none [],
      .reinitRandom, .run (some 0) none none] f).1.run Demo.fenv (some 10) none (some 5)).2 = .ok out := by
  obtain ⟨f, ia, cs, hf, -⟩ := Demo.created
  refine ⟨f, hf, ?_⟩
  refine (C34_histories (env := Demo.fenv) (rngZero_ok ℝ) hf
    (ops := [.run none none none, .setConstraints .none true .none [], .reinitRandom,
      .run (some 0) none none]) ?_ ?_ (by norm_num [Demo.args]) (by norm_num [Demo.args])
      (by norm_num [Demo.args]) ?_ ?_).2 rfl (by norm_num [Demo.args]) _ _ _ (by norm_num) (by norm_num)
  · intro kw x hx
    cases hx
    exact ⟨⟨trivial, trivial⟩, by decide⟩
  · intro o ho kw x hx
    simp only [consObjs, List.mem_cons, List.not_mem_nil, or_false] at ho
    rcases ho with rfl | rfl <;>
    · cases hx
      simp [NonEmpty, Demo.locObj, Demo.globObj]
  · intro op hop
    simp only [List.mem_cons, List.not_mem_nil, or_false] at hop
    rcases hop with rfl | rfl | rfl | rfl <;> simp [WellMade, consObjs]
  · intro pre op post he hs
    have hmem : op ∈ [FinderOp.run none none none, .setConstraints .none true .none [], .reinitRandom,
      .run (some 0) none none] := by rw [he]; simp
    simp only [List.mem_cons, List.not_mem_nil, or_false] at hmem
    rcases hmem with rfl | rfl | rfl | rfl
    · exact absurd hs (by simp [IsSet])
    · simp [Finder.step, Finder.setConstraints, newConstraints, Finder.checkAll, Finder.checkSizes,
        PackedCons.ofNew, Except.map, bind, Except.bind]
    · exact absurd hs (by simp [IsSet])
    · exact absurd hs (by simp [IsSet])

/-! ## C36 revive budget -/

/-- One call: the budget is replaced by the full one, or does not grow, stays above minus the number of
compartments, and stays as it is once exhausted.  Without reset the first case is excluded. -/
theorem step_budget {env : FinderEnv G} (hrng : env.rng.Ok) (f : Finder G)
    (hthr : 0 ≤ f.params.killThreshold) (op : FinderOp) :
    ((f.step env op).1.reviveLeft = f.maxRevive * f.numPart ∧ IsReset op) ∨
    ((-(f.numPart : ℤ) < f.reviveLeft → -(f.numPart : ℤ) < (f.step env op).1.reviveLeft) ∧
      (f.step env op).1.reviveLeft ≤ f.reviveLeft ∧
      (f.reviveLeft ≤ 0 → (f.step env op).1.reviveLeft = f.reviveLeft)) := by
  have same : ∀ x : ℤ, x = f.reviveLeft → ((-(f.numPart : ℤ) < f.reviveLeft → -(f.numPart : ℤ) < x) ∧
      x ≤ f.reviveLeft ∧ (f.reviveLeft ≤ 0 → x = f.reviveLeft)) := by
    rintro x rfl; exact ⟨id, le_rfl, fun _ => rfl⟩
  cases op with
  | setInteraction o reset kw =>
    simp only [Finder.step, Finder.setInteraction]
    split
    · exact Or.inr (same _ rfl)
    · split
      · exact Or.inr (same _ rfl)
      · cases reset
        · exact Or.inr (same _ rfl)
        · exact Or.inl ⟨rfl, rfl⟩
  | setEntropy o reset kw =>
    simp only [Finder.step, Finder.setEntropy]
    split
    · exact Or.inr (same _ rfl)
    · split
      · exact Or.inr (same _ rfl)
      · cases reset
        · exact Or.inr (same _ rfl)
        · exact Or.inl ⟨rfl, rfl⟩
  | setEnsemble o reset kw =>
    simp only [Finder.step, Finder.setEnsemble]
    split
    · exact Or.inr (same _ rfl)
    · split
      · exact Or.inr (same _ rfl)
      · cases reset
        · exact Or.inr (same _ rfl)
        · exact Or.inl ⟨rfl, rfl⟩
  | setConstraints c reset ind kw =>
    simp only [Finder.step, Finder.setConstraints]
    split
    · exact Or.inr (same _ rfl)
    · split
      · exact Or.inr (same _ rfl)
      · cases reset
        · exact Or.inr (same _ rfl)
        · exact Or.inl ⟨rfl, rfl⟩
  | resetRevive => exact Or.inl ⟨rfl, trivial⟩
  | reinitConstraint => exact Or.inr (same _ rfl)
  | reinitRandom =>
    simp only [Finder.step, Finder.reinitRandom]
    split
    · exact Or.inr (same _ rfl)
    · exact Or.inl ⟨rfl, trivial⟩
  | reinitOmegas w =>
    simp only [Finder.step, Finder.reinitOmegas]
    split
    · exact Or.inr (same _ rfl)
    · exact Or.inl ⟨rfl, trivial⟩
  | reinitPhis w =>
    simp only [Finder.step, Finder.reinitPhis]
    split
    · exact Or.inr (same _ rfl)
    · split
      · exact Or.inr (same _ rfl)
      · exact Or.inl ⟨rfl, trivial⟩
  | run ms tol int =>
    right
    simp only [Finder.step]
    cases hp : f.parts with
    | none => rw [run_none hp]; exact same _ rfl
    | some p =>
      by_cases hM : f.numPart = 0
      · rw [run_zero hp hM]; exact same _ rfl
      · have : NeZero f.numPart := ⟨hM⟩
        have key := C36_budget_of_run (e := f.runEnv env p) (maxSteps := ms.getD f.maxSteps)
          (tol := tol.getD f.tolerance) (interval := int.getD f.interval) (st := f.state p.cons)
          (b := f.reviveLeft) hrng hthr
        rw [run_some hp]
        rcases hr : runImpl (f.runEnv env p) (ms.getD f.maxSteps) (tol.getD f.tolerance)
          (int.getD f.interval) (f.state p.cons) f.reviveLeft with ⟨s, r⟩
        rw [hr] at key
        cases r with
        | error e => exact key
        | ok x => exact key

/-- **C36**, histories: after any calls, failing or not, `revive_count_left` is above minus the number
of compartments and at most the full budget `max_revive_per_compartment × num_part`; so fewer than
`num_part` revivals exceed the budget between two resets (each revival lowers the counter by one, see
`C36_revivals_of_metastep`). -/
theorem C36_budget_of_history {env : FinderEnv G} (hrng : env.rng.Ok) {g : G}
    {interaction : InstObj AnyInteraction} {entropy : InstObj AnyEntropy}
    {ensemble : InstObj AnyEnsemble} {constraints : ConsArg} {a : FinderArgs} {f : Finder G}
    (h : Finder.create env g interaction entropy ensemble constraints a = .ok f)
    (hthr : 0 ≤ a.killThreshold) (hmax : 0 ≤ a.maxRevive) (hM : 1 ≤ f.numPart)
    (ops : List FinderOp) :
    -(f.numPart : ℤ) < (Finder.steps env ops f).1.reviveLeft ∧
    (Finder.steps env ops f).1.reviveLeft ≤ a.maxRevive * f.numPart := by
  obtain ⟨ia, en, es, -, -, -, -, -, hc⟩ := create_ok h
  have hfull : -(f.numPart : ℤ) < a.maxRevive * f.numPart := by
    have : 0 ≤ a.maxRevive * (f.numPart : ℤ) := by positivity
    omega
  have key := steps_inv env (fun f' => SameSetup f f' ∧ -(f.numPart : ℤ) < f'.reviveLeft ∧
      f'.reviveLeft ≤ a.maxRevive * f.numPart) (fun _ => True) (fun f' op h' _ => by
    obtain ⟨s1, s2, s3⟩ := h'
    refine ⟨s1.trans (sameSetup_step env f' op), ?_⟩
    rcases step_budget hrng f' (by rw [s1.params, hc.params]; exact hthr) op with ⟨h1, -⟩ | ⟨h1, h2, -⟩
    · rw [h1, s1.maxRevive, s1.numPart, hc.maxRevive]
      exact ⟨hfull, le_rfl⟩
    · rw [s1.numPart] at h1
      exact ⟨h1 s2, h2.trans s3⟩) ops f ⟨.refl f, by rw [hc.reviveLeft]; exact hfull,
        by rw [hc.reviveLeft]⟩ fun _ _ => trivial
  exact key.2

/-- **C36**, histories: once the budget is exhausted it stays as it is until a call that resets it, so
no compartment is revived. -/
theorem C36_exhausted {env : FinderEnv G} (hrng : env.rng.Ok) (f : Finder G)
    (hthr : 0 ≤ f.params.killThreshold) (h0 : f.reviveLeft ≤ 0) (ops : List FinderOp)
    (hops : ∀ op ∈ ops, ¬ IsReset op) : (Finder.steps env ops f).1.reviveLeft = f.reviveLeft := by
  have key := steps_inv env (fun f' => SameSetup f f' ∧ f'.reviveLeft = f.reviveLeft)
    (fun op => ¬ IsReset op) (fun f' op h' hop => by
    obtain ⟨s1, s2⟩ := h'
    refine ⟨s1.trans (sameSetup_step env f' op), ?_⟩
    rcases step_budget hrng f' (by rw [s1.params]; exact hthr) op with ⟨-, h1⟩ | ⟨-, -, h3⟩
    · exact absurd h1 hop
    · rw [h3 (by rw [s2]; exact h0), s2]) ops f ⟨.refl f, rfl⟩ hops
  exact key.2

-- The demo finder after two runs; a finder that may not revive at all.
example : ∃ f, Finder.create Demo.fenv () Demo.fhPy.obj Demo.gasObj.obj Demo.canonicalObj.obj
      (.many [Demo.locObj.obj, Demo.globObj.obj]) Demo.args = .ok f ∧
    -3 < (Finder.steps Demo.fenv [.run none none none, .run none none none] f).1.reviveLeft ∧
    (Finder.steps Demo.fenv [.run none none none] { f with reviveLeft := 0 }).1.reviveLeft = 0 := by
  obtain ⟨f, ia, cs, hf, hc, -⟩ := Demo.created
  have h3 : f.numPart = 3 := by rw [hc.numPart]; simp [Demo.args]
  refine ⟨f, hf, ?_, ?_⟩
  · have := (C36_budget_of_history (env := Demo.fenv) (rngZero_ok ℝ) hf (by norm_num [Demo.args])
      (by norm_num [Demo.args]) (by omega) [.run none none none, .run none none none]).1
    rw [h3] at this
    exact this
  · exact C36_exhausted (env := Demo.fenv) (rngZero_ok ℝ) _ (by rw [hc.params]; norm_num [Demo.args])
      le_rfl _ (by simp [IsReset])

/-! ## C44 rejected calls -/

/-- **C44 fails**: for every finder whose instances fit and every interaction that compiles to another
number of features, `set_interaction` raises `FeatureNumberError`, but afterwards
`reinitialize_from_phis` raises with the field it accepted before, and `run` does not work any more.
The new instance has been stored before the check. -/
theorem C44_rejected_set_breaks_finder (env : FinderEnv G) {f : Finder G} (hfit : Fits f)
    {o : InstObj AnyInteraction} {kw : Dict ℝ} {x : AnyInteraction}
    (ho : o.compiled (f.kwargs.merge kw) = .ok x) (hx : x.1 ≠ f.numFeat) (reset : Bool)
    {phis : NDArr ℝ} (hphis : phis.shape = [f.numFeat, f.numPart]) :
    (f.setInteraction o reset kw).2 = .error .featureNumberError ∧
    (f.reinitPhis phis).2 = .ok () ∧
    ((f.setInteraction o reset kw).1.reinitPhis phis).2 = .error .valueError ∧
    ∀ ms tol int, ((f.setInteraction o reset kw).1.run env ms tol int).2 = .error .outOfBounds := by
  have hset : f.setInteraction o reset kw = ({ f with interaction := x }, .error .featureNumberError) := by
    unfold Finder.setInteraction
    rw [ho]
    simp [Finder.checkSizes, hx]
  have hun : Finder.unpackInteraction x f.numFeat = none := by
    simp [Finder.unpackInteraction, hx]
  refine ⟨by rw [hset], ?_, ?_, fun ms tol int => ?_⟩
  · obtain ⟨y, hy⟩ : ∃ y, Finder.unpackInteraction f.interaction f.numFeat = some y := by
      rw [Finder.unpackInteraction, dif_pos hfit.interaction]
      exact ⟨_, rfl⟩
    simp only [Finder.reinitPhis, Finder.checkField, hphis, ne_eq, not_true_eq_false, if_false, hy]
  · rw [hset]
    simp only [Finder.reinitPhis, Finder.checkField, hphis, ne_eq, not_true_eq_false, if_false, hun]
  · rw [hset, run_none]
    unfold Finder.parts
    simp only [hun, Option.bind_eq_bind, Option.bind_none]

example : ∃ f, Finder.create Demo.fenv () Demo.fhPy.obj Demo.gasObj.obj Demo.canonicalObj.obj
      (.many [Demo.locObj.obj, Demo.globObj.obj]) Demo.args = .ok f ∧ Fits f ∧
    (f.setInteraction Demo.fhPy3.obj true []).2 = .error .featureNumberError ∧
    ((f.setInteraction Demo.fhPy3.obj true []).1.run Demo.fenv none none none).2 =
      .error .outOfBounds := by
  obtain ⟨f, ia, cs, hf, hc, -⟩ := Demo.created
  obtain ⟨x, hx⟩ := Demo.fh3_compiled (f.kwargs.merge [])
  have h2 : f.numFeat = 2 := hc.numFeat
  obtain ⟨k1, -, -, k2⟩ := C44_rejected_set_breaks_finder Demo.fenv hc.fits hx (by rw [h2]; simp) true
    (phis := ⟨[f.numFeat, f.numPart], fun _ => 0⟩) rfl
  exact ⟨f, hf, hc.fits, k1, k2 _ _ _⟩

/-- **C44**, what remains true: a rejected call changes nothing but the instance it was meant to
replace (nothing at all if the object cannot be compiled, except for constraints), and a later
accepted call of the same kind has exactly the effect it would have had without the rejected one.
Missing: the previous instance is lost, see `C44_rejected_set_breaks_finder`. -/
theorem C44_rejected_set_partial (f : Finder G) (reset : Bool) (kw : Dict ℝ) :
    (∀ o, ∃ x, (f.setInteraction o reset kw).2 ≠ .ok () →
      (f.setInteraction o reset kw).1 = { f with interaction := x } ∧
      ((∃ e, o.compiled (f.kwargs.merge kw) = .error e) → (f.setInteraction o reset kw).1 = f) ∧
      ∀ o' reset' kw', (f.setInteraction o' reset' kw').2 = .ok () →
        (f.setInteraction o reset kw).1.setInteraction o' reset' kw' = f.setInteraction o' reset' kw') ∧
    (∀ o, ∃ x, (f.setEntropy o reset kw).2 ≠ .ok () →
      (f.setEntropy o reset kw).1 = { f with entropy := x } ∧
      ((∃ e, o.compiled (f.kwargs.merge kw) = .error e) → (f.setEntropy o reset kw).1 = f) ∧
      ∀ o' reset' kw', (f.setEntropy o' reset' kw').2 = .ok () →
        (f.setEntropy o reset kw).1.setEntropy o' reset' kw' = f.setEntropy o' reset' kw') ∧
    (∀ o, ∃ x, (f.setEnsemble o reset kw).2 ≠ .ok () →
      (f.setEnsemble o reset kw).1 = { f with ensemble := x } ∧
      ((∃ e, o.compiled (f.kwargs.merge kw) = .error e) → (f.setEnsemble o reset kw).1 = f) ∧
      ∀ o' reset' kw', (f.setEnsemble o' reset' kw').2 = .ok () →
        (f.setEnsemble o reset kw).1.setEnsemble o' reset' kw' = f.setEnsemble o' reset' kw') ∧
    (∀ c ind, ∃ cs, (f.setConstraints c reset ind kw).2 ≠ .ok () →
      (f.setConstraints c reset ind kw).1 = { f with constraints := cs } ∧
      ∀ c' reset' ind' kw',
        (f.setConstraints c reset ind kw).1.setConstraints c' reset' ind' kw' =
          f.setConstraints c' reset' ind' kw') := by
  refine ⟨fun o => ?_, fun o => ?_, fun o => ?_, fun c ind => ?_⟩
  · unfold Finder.setInteraction
    cases ho : o.compiled (f.kwargs.merge kw) with
    | error e => exact ⟨f.interaction, fun _ => ⟨rfl, fun _ => rfl, fun _ _ _ _ => rfl⟩⟩
    | ok x =>
      refine ⟨x, fun h => ?_⟩
      dsimp only at h ⊢
      cases hc : Finder.checkSizes f.numComp f.numFeat none (some x.1) with
      | ok u => rw [hc] at h; exact absurd rfl h
      | error e =>
        refine ⟨rfl, fun ⟨_, he⟩ => absurd he (by simp), fun o' reset' kw' h' => ?_⟩
        dsimp only
        cases ho' : o'.compiled (f.kwargs.merge kw') with
        | error e => rw [ho'] at h'; simp at h'
        | ok x' =>
          rfl
  · unfold Finder.setEntropy
    cases ho : o.compiled (f.kwargs.merge kw) with
    | error e => exact ⟨f.entropy, fun _ => ⟨rfl, fun _ => rfl, fun _ _ _ _ => rfl⟩⟩
    | ok x =>
      refine ⟨x, fun h => ?_⟩
      dsimp only at h ⊢
      cases hc : Finder.checkSizes f.numComp f.numFeat (some x.numComp) (some x.numFeat) with
      | ok u => rw [hc] at h; exact absurd rfl h
      | error e =>
        refine ⟨rfl, fun ⟨_, he⟩ => absurd he (by simp), fun o' reset' kw' h' => ?_⟩
        dsimp only
        cases ho' : o'.compiled (f.kwargs.merge kw') with
        | error e => rw [ho'] at h'; simp at h'
        | ok x' =>
          rfl
  · unfold Finder.setEnsemble
    cases ho : o.compiled (f.kwargs.merge kw) with
    | error e => exact ⟨f.ensemble, fun _ => ⟨rfl, fun _ => rfl, fun _ _ _ _ => rfl⟩⟩
    | ok x =>
      refine ⟨x, fun h => ?_⟩
      dsimp only at h ⊢
      cases hc : Finder.checkSizes f.numComp f.numFeat (some x.1) none with
      | ok u => rw [hc] at h; exact absurd rfl h
      | error e =>
        refine ⟨rfl, fun ⟨_, he⟩ => absurd he (by simp), fun o' reset' kw' h' => ?_⟩
        dsimp only
        cases ho' : o'.compiled (f.kwargs.merge kw') with
        | error e => rw [ho'] at h'; simp at h'
        | ok x' =>
          rfl
  · refine ⟨(newConstraints f.numPart f.numFeat (f.kwargs.merge kw) c ind).1, fun h => ?_⟩
    have key : (f.setConstraints c reset ind kw).1 =
        { f with constraints := (newConstraints f.numPart f.numFeat (f.kwargs.merge kw) c ind).1 } := by
      unfold Finder.setConstraints at h ⊢
      dsimp only at h ⊢
      split
      · rfl
      · rename_i hn
        rw [hn] at h
        dsimp only at h
        split
        · rfl
        · rename_i hc
          rw [hc] at h
          exact absurd rfl h
    exact ⟨key, fun c' reset' ind' kw' => by rw [key]; rfl⟩

/-! ## C45 lists of constraints -/

/-- **C45 fails**: with a list of individual arguments shorter than the list of constraints,
`set_constraints` is accepted but the last constraints are dropped silently. -/
theorem C45_constraints_dropped (f : Finder G) (cs : List (InstObj AnyConsNew)) (ds : List (Dict ℝ))
    (hlt : ds.length < cs.length) (reset : Bool) (kw : Dict ℝ)
    (hok : ∀ o ∈ cs, ∀ kw, ∃ x, o.compiled kw = .ok x ∧ x.1 = f.numFeat) :
    (f.setConstraints (.many cs) reset (.dicts ds) kw).2 = .ok () ∧
    (enforced (f.setConstraints (.many cs) reset (.dicts ds) kw).1).length = ds.length := by
  cases cs with
  | nil => simp at hlt
  | cons o cs =>
    have hz : ∀ q ∈ (o :: cs).zip (ds.map (f.kwargs.merge kw).merge), q.1 ∈ o :: cs :=
      fun q hq => (List.of_mem_zip (a := q.1) (b := q.2) hq).1
    have h1 := compileAll_of_ok (M := f.numPart)
      (l := (o :: cs).zip (ds.map (f.kwargs.merge kw).merge)) fun q hq => by
        obtain ⟨x, hx, -⟩ := hok q.1 (hz q hq) q.2
        exact ⟨x, hx⟩
    have h2 := compileAll_ok h1
    have h3 : Finder.checkAll f.numComp f.numFeat
        (compileAll (M := f.numPart) ((o :: cs).zip (ds.map (f.kwargs.merge kw).merge))).1 = .ok () := by
      rw [checkAll_ok]
      intro c hc
      generalize (compileAll (M := f.numPart) ((o :: cs).zip (ds.map (f.kwargs.merge kw).merge))).1 = r
        at h2 hc
      generalize (o :: cs).zip (ds.map (f.kwargs.merge kw).merge) = l at h2 hz
      clear h1
      induction h2 with
      | nil => simp at hc
      | @cons q c' l r hq _ ih =>
        rcases List.mem_cons.mp hc with rfl | hc
        · obtain ⟨x, hx, rfl⟩ := hq
          obtain ⟨x', hx', hx2⟩ := hok q.1 (hz q List.mem_cons_self) q.2
          rw [hx] at hx'
          cases hx'
          exact hx2
        · exact ih hc (fun q hq => hz q (List.mem_cons_of_mem _ hq))
    have hlen : (compileAll (M := f.numPart) ((o :: cs).zip (ds.map (f.kwargs.merge kw).merge))).1.length =
        ds.length := by
      rw [← h2.length_eq, List.length_zip, List.length_map]
      omega
    unfold Finder.setConstraints newConstraints
    simp only [h1, h3]
    refine ⟨trivial, ?_⟩
    cases reset <;>
      simpa [enforced, Finder.maybeReset, Finder.resetRevive, Finder.reinitConstraint] using hlen

example : ∃ f, Finder.create Demo.fenv () Demo.fhPy.obj Demo.gasObj.obj Demo.canonicalObj.obj
      (.many [Demo.locObj.obj, Demo.globObj.obj]) Demo.args = .ok f ∧
    (f.setConstraints (.many [Demo.locObj.obj, Demo.globObj.obj]) true (.dicts [[]]) []).2 = .ok () ∧
    (enforced (f.setConstraints (.many [Demo.locObj.obj, Demo.globObj.obj]) true
      (.dicts [[]]) []).1).length = 1 := by
  obtain ⟨f, ia, cs, hf, hc, -⟩ := Demo.created
  have h2 : f.numFeat = 2 := hc.numFeat
  refine ⟨f, hf, C45_constraints_dropped f [Demo.locObj.obj, Demo.globObj.obj] [[]] (by simp) true [] ?_⟩
  intro o ho kw
  simp only [List.mem_cons, List.not_mem_nil, or_false] at ho
  rcases ho with rfl | rfl
  · obtain ⟨a, e, h⟩ := Demo.loc_compiled kw
    exact ⟨_, h, h2.symm⟩
  · obtain ⟨a, e, h⟩ := Demo.glob_compiled kw
    exact ⟨_, h, h2.symm⟩

/-- **C45**, for individual arguments at least as many as constraints, or none: if `set_constraints`
succeeds with a non-empty list, exactly the given constraints are enforced, in order, each compiled
with its individual arguments, then those of the call, then the defaults, as far as it accepts them;
and this stays so in every later history without `set_*` calls.  Missing: shorter lists of
individual arguments, see `C45_constraints_dropped`. -/
theorem C45_all_enforced_partial {env : FinderEnv G} (hcr : CrashKeeps env) (f : Finder G)
    (cs : List (InstObj AnyConsNew)) (hne : cs ≠ []) (ind : Option (List (Dict ℝ)))
    (hind : ∀ ds, ind = some ds → cs.length ≤ ds.length ∧ ∀ d ∈ ds, (d.map Prod.fst).Nodup)
    (reset : Bool) (kw : Dict ℝ) (hkw : (kw.map Prod.fst).Nodup)
    (hok : (f.setConstraints (.many cs) reset (ind.elim .none .dicts) kw).2 = .ok ())
    (ops : List FinderOp) (hops : ∀ op ∈ ops, ¬ IsSet op) :
    let f' := (Finder.steps env ops (f.setConstraints (.many cs) reset (ind.elim .none .dicts) kw).1).1
    (enforced f').length = cs.length ∧
    ∀ i (hi : i < cs.length), ∃ x, (enforced f')[i]? = some x ∧ x.1 = f.numFeat ∧
      cs[i].impl (fun p => if p ∈ cs[i].params then
        ((Dict.get? (ind.elim [] fun ds => ds[i]?.getD []) p).or (kw.get? p)).or (f.kwargs.get? p)
        else none) = .ok x := by
  intro f'
  have hf' : enforced f' = enforced (f.setConstraints (.many cs) reset (ind.elim .none .dicts) kw).1 :=
    (akin_steps hcr _ hops).enforced
  rw [hf']
  cases cs with
  | nil => exact absurd rfl hne
  | cons o cs =>
  set l : List (InstObj AnyConsNew × Dict ℝ) :=
    (o :: cs).zip ((ind.getD (List.replicate (o :: cs).length [])).map (f.kwargs.merge kw).merge) with hl
  have hnew : newConstraints f.numPart f.numFeat (f.kwargs.merge kw) (.many (o :: cs))
      (ind.elim .none .dicts) = compileAll l := by
    cases ind <;> rfl
  have hlen : l.length = (o :: cs).length := by
    rw [hl, List.length_zip, List.length_map]
    cases ind with
    | none => simp
    | some ds => have := (hind ds rfl).1; simp only [Option.getD_some]; omega
  unfold Finder.setConstraints at hok ⊢
  simp only [hnew] at hok ⊢
  cases h1 : (compileAll (M := f.numPart) l).2 with
  | some e => rw [h1] at hok; simp at hok
  | none =>
    simp only [h1] at hok ⊢
    cases h3 : Finder.checkAll f.numComp f.numFeat (compileAll (M := f.numPart) l).1 with
    | error e => rw [h3] at hok; simp at hok
    | ok u =>
      simp only
      have h2 := compileAll_ok h1
      have henf : enforced (Finder.maybeReset (Finder.reinitConstraint
          { f with constraints := (compileAll (M := f.numPart) l).1 }) reset) =
          (compileAll (M := f.numPart) l).1.map PackedCons.enforces := by
        cases reset <;> exact enforces_map_reset _
      rw [henf]
      refine ⟨by rw [List.length_map, ← h2.length_eq, hlen], fun i hi => ?_⟩
      have hi' : i < (compileAll (M := f.numPart) l).1.length := by rw [← h2.length_eq, hlen]; exact hi
      have hil : i < l.length := by rw [hlen]; exact hi
      obtain ⟨x, hx, hx2⟩ := (List.forall₂_iff_get.mp h2).2 i hil hi'
      have hfeat := checkAll_ok.mp h3 _ (List.getElem_mem hi')
      simp only [List.get_eq_getElem] at hx hx2
      refine ⟨x, ?_, ?_, ?_⟩
      · rw [List.getElem?_map, List.getElem?_eq_getElem hi', hx2, Option.map_some,
          PackedCons.ofNew_enforces]
      · rw [hx2] at hfeat; exact hfeat
      · have e1 : l[i].1 = (o :: cs)[i] := by simp [hl]
        have e2 : l[i].2 = (f.kwargs.merge kw).merge (ind.elim [] fun ds => ds[i]?.getD []) := by
          cases ind with
          | none => simp [hl]
          | some ds =>
            have : i < ds.length := lt_of_lt_of_le hi (hind ds rfl).1
            simp [hl, List.getElem?_eq_getElem this]
        have hnd : ((ind.elim [] fun ds => ds[i]?.getD [] : Dict ℝ).map Prod.fst).Nodup := by
          cases ind with
          | none => simp
          | some ds =>
            have : i < ds.length := lt_of_lt_of_le hi (hind ds rfl).1
            simp only [Option.elim_some, List.getElem?_eq_getElem this, Option.getD_some]
            exact (hind ds rfl).2 _ (List.getElem_mem this)
        rw [e1, e2, InstObj.compiled_eq] at hx
        simp only [Dict.get?_merge _ _ hnd, Dict.get?_merge _ _ hkw] at hx
        simpa only [Option.or_assoc] using hx

-- Two constraints with individual arguments, still enforced after a run and a reinitialization.
example : ∃ f, Finder.create Demo.fenv () Demo.fhPy.obj Demo.gasObj.obj Demo.canonicalObj.obj
      .none Demo.args = .ok f ∧
    (enforced (Finder.steps Demo.fenv [.run none none none, .reinitRandom]
      (f.setConstraints (.many [Demo.locObj.obj, Demo.globObj.obj]) true
        (.dicts [[("constraint_elasticity", 5)], []]) []).1).1).length = 2 := by
  obtain ⟨x, hx⟩ := Demo.fh_compiled Demo.args.kwargs
  obtain ⟨-, -, -, h4⟩ := create_of_compiled (env := Demo.fenv) (g := ()) (constraints := .none) hx
    (Demo.gas_compiled Demo.args.kwargs) (Demo.canonical_compiled Demo.args.kwargs) rfl
    (by norm_num [Demo.args])
  obtain ⟨f, hf, hc⟩ := h4 rfl rfl (by simp [initConstraints, PackedCons.ofNew])
  refine ⟨f, hf, (C45_all_enforced_partial (env := Demo.fenv) (fun _ _ _ _ => rfl) f
    [Demo.locObj.obj, Demo.globObj.obj] (by simp) (some [[("constraint_elasticity", 5)], []])
    ?_ true [] (by simp) ?_ _ ?_).1⟩
  · rintro ds h
    cases h
    simp
  · have h2 : f.numFeat = 2 := hc.numFeat
    obtain ⟨a, e, hl⟩ := Demo.loc_compiled ((f.kwargs.merge []).merge [("constraint_elasticity", 5)])
    obtain ⟨a', e', hg⟩ := Demo.glob_compiled ((f.kwargs.merge []).merge [])
    simp [Finder.setConstraints, newConstraints, compileAll, hl, hg, Finder.checkAll, Finder.checkSizes,
      PackedCons.ofNew, h2, bind, Except.bind]
  · simp [IsSet]

/-- **C45** for a constraint given on its own, with or without individual arguments: if the call
succeeds, exactly this constraint is enforced, compiled with its individual arguments, then those of the
call, then the defaults, in every later history without `set_*` calls. -/
theorem C45_single {env : FinderEnv G} (hcr : CrashKeeps env) (f : Finder G) (c : InstObj AnyConsNew)
    (ind : Option (Dict ℝ)) (hind : ∀ d, ind = some d → (d.map Prod.fst).Nodup) (reset : Bool)
    (kw : Dict ℝ) (hkw : (kw.map Prod.fst).Nodup)
    (hok : (f.setConstraints (.single c) reset (ind.elim .none .dict) kw).2 = .ok ())
    (ops : List FinderOp) (hops : ∀ op ∈ ops, ¬ IsSet op) :
    ∃ x, enforced (Finder.steps env ops
        (f.setConstraints (.single c) reset (ind.elim .none .dict) kw).1).1 = [x] ∧ x.1 = f.numFeat ∧
      c.impl (fun p => if p ∈ c.params then
        ((ind.bind fun d => d.get? p).or (kw.get? p)).or (f.kwargs.get? p) else none) = .ok x := by
  rw [show enforced (Finder.steps env ops
      (f.setConstraints (.single c) reset (ind.elim .none .dict) kw).1).1 = _ from
    (akin_steps hcr _ hops).enforced]
  have hnew : newConstraints f.numPart f.numFeat (f.kwargs.merge kw) (.single c)
      (ind.elim .none .dict) = compileAll [(c, (f.kwargs.merge kw).merge (ind.getD []))] := by
    cases ind <;> rfl
  have hnd : ((ind.getD [] : Dict ℝ).map Prod.fst).Nodup := by
    cases ind with
    | none => simp
    | some d => exact hind d rfl
  unfold Finder.setConstraints at hok ⊢
  simp only [hnew] at hok ⊢
  cases hx : c.compiled ((f.kwargs.merge kw).merge (ind.getD [])) with
  | error e => simp [compileAll, hx] at hok
  | ok x =>
    have hc : compileAll (M := f.numPart) [(c, (f.kwargs.merge kw).merge (ind.getD []))] =
        ([PackedCons.ofNew x], none) := by simp [compileAll, hx]
    simp only [hc] at hok ⊢
    cases h3 : Finder.checkAll f.numComp f.numFeat [(PackedCons.ofNew x : PackedCons f.numPart)] with
    | error e => rw [h3] at hok; simp at hok
    | ok u =>
      have henf : enforced (Finder.maybeReset (Finder.reinitConstraint
          { f with constraints := [(PackedCons.ofNew x : PackedCons f.numPart)] }) reset) =
          [(PackedCons.ofNew x : PackedCons f.numPart)].map PackedCons.enforces := by
        cases reset <;> exact enforces_map_reset _
      simp only
      rw [henf]
      refine ⟨x, by simp [PackedCons.ofNew_enforces],
        checkAll_ok.mp h3 (PackedCons.ofNew x) List.mem_cons_self, ?_⟩
      rw [InstObj.compiled_eq] at hx
      simp only [Dict.get?_merge _ _ hnd, Dict.get?_merge _ _ hkw] at hx
      cases ind with
      | none => simpa [Dict.get?] using hx
      | some d => simpa only [Option.getD_some, Option.bind_some, Option.or_assoc] using hx

/-- **C45** for no constraint: afterwards none is enforced. -/
theorem C45_none {env : FinderEnv G} (hcr : CrashKeeps env) (f : Finder G) {arg : ConsArg}
    (harg : arg = .none ∨ arg = .many []) (reset : Bool) (ind : IndArg) (kw : Dict ℝ)
    (ops : List FinderOp) (hops : ∀ op ∈ ops, ¬ IsSet op) :
    (f.setConstraints arg reset ind kw).2 = .ok () ∧
    enforced (Finder.steps env ops (f.setConstraints arg reset ind kw).1).1 = [⟨f.numFeat, .no⟩] := by
  rw [show enforced (Finder.steps env ops (f.setConstraints arg reset ind kw).1).1 = _ from
    (akin_steps hcr _ hops).enforced]
  have hnew : newConstraints f.numPart f.numFeat (f.kwargs.merge kw) arg ind =
      ([PackedCons.ofNew ⟨f.numFeat, .no⟩], none) := by
    rcases harg with rfl | rfl <;> rfl
  have h3 : Finder.checkAll f.numComp f.numFeat
      [(PackedCons.ofNew ⟨f.numFeat, .no⟩ : PackedCons f.numPart)] = .ok () :=
    checkAll_ok.mpr (by simp [PackedCons.ofNew])
  unfold Finder.setConstraints
  simp only [hnew, h3]
  refine ⟨trivial, ?_⟩
  have henf : enforced (Finder.maybeReset (Finder.reinitConstraint
      { f with constraints := [(PackedCons.ofNew ⟨f.numFeat, .no⟩ : PackedCons f.numPart)] }) reset) =
      [(PackedCons.ofNew ⟨f.numFeat, .no⟩ : PackedCons f.numPart)].map PackedCons.enforces := by
    cases reset <;> exact enforces_map_reset _
  rw [henf]
  simp [PackedCons.ofNew_enforces]

-- The elasticity given individually wins over the one of the constructor, then a run takes place.
example : ∃ f, Finder.create Demo.fenv () Demo.fhPy.obj Demo.gasObj.obj Demo.canonicalObj.obj
      .none Demo.args = .ok f ∧
    enforced (Finder.steps Demo.fenv [.run none none none]
      (f.setConstraints (.single Demo.locObj.obj) true (.dict [("constraint_elasticity", 5)]) []).1).1 =
      [⟨2, .loc 1 ![![1, -1]] ![0] 1 5⟩] := by
  obtain ⟨x, hx⟩ := Demo.fh_compiled Demo.args.kwargs
  obtain ⟨-, -, -, h4⟩ := create_of_compiled (env := Demo.fenv) (g := ()) (constraints := .none) hx
    (Demo.gas_compiled Demo.args.kwargs) (Demo.canonical_compiled Demo.args.kwargs) rfl
    (by norm_num [Demo.args])
  obtain ⟨f, hf, hc⟩ := h4 rfl rfl (by simp [initConstraints, PackedCons.ofNew])
  have h2 : f.numFeat = 2 := hc.numFeat
  have hkw : f.kwargs = [("constraint_elasticity", 2)] := hc.kwargs
  obtain ⟨y, hy, -, hy2⟩ := C45_single (env := Demo.fenv) (fun _ _ _ _ => rfl) f Demo.locObj.obj
    (some [("constraint_elasticity", 5)]) (by simp) true [] (by simp)
    (by
      obtain ⟨a, e, hl⟩ := Demo.loc_compiled ((f.kwargs.merge []).merge [("constraint_elasticity", 5)])
      simp [Finder.setConstraints, newConstraints, compileAll, hl, Finder.checkAll, Finder.checkSizes,
        PackedCons.ofNew, h2, bind, Except.bind])
    [.run none none none] (by simp [IsSet])
  refine ⟨f, hf, hy.trans ?_⟩
  simp [LinearConstraint.obj, Demo.locObj, hkw, Dict.get?] at hy2
  rw [← hy2]
  simp [List.lookup]

/-! ## C62 reinitialization -/

/-- **C62**. Two finders with the same sizes, defaults and instances (`Akin`; their fields, volumes,
fractions, constraint multipliers, budgets and diagnostics may differ) and the same generator state:
after the same accepted reinitialization the next run with positive `max_steps` and `interval` has
the same outcome, and if it succeeds the finders agree completely afterwards. -/
theorem C62_reinit_erases_history (env : FinderEnv G) {f₁ f₂ : Finder G} (h : Akin f₁ f₂)
    (hg : f₁.g = f₂.g) (hen : Sized f₁.entropy.inst) {r : FinderOp} (hr : IsReinit r)
    (hok : (f₁.step env r).2 = .ok none) (ms : Option ℚ) (tol : Option ℝ) (int : Option ℤ)
    (h1 : 0 < ms.getD f₁.maxSteps) (h2 : 0 < int.getD f₁.interval) :
    (f₂.step env r).2 = .ok none ∧
    ((f₁.step env r).1.run env ms tol int).2 = ((f₂.step env r).1.run env ms tol int).2 ∧
    ∀ out, ((f₁.step env r).1.run env ms tol int).2 = .ok out →
      ((f₁.step env r).1.run env ms tol int).1 = ((f₂.step env r).1.run env ms tol int).1 := by
  obtain ⟨cs, w, J, pf, pc, rl, g, d, rfl, hcs⟩ := h
  simp only at hg
  subst hg
  have key : ∀ (w' : Mat f₁.numFeat f₁.numPart ℝ) (g' : G),
      let b : Finder G := { f₁ with omegas := w', Js := fun _ => 1, g := g',
                                    reviveLeft := f₁.maxRevive * f₁.numPart }
      ((b.rebuilt f₁.constraints f₁.phisFeat f₁.phisComp f₁.diagnostics).run env ms tol int).2 =
        ((b.rebuilt cs pf pc d).run env ms tol int).2 ∧
      ∀ out, ((b.rebuilt f₁.constraints f₁.phisFeat f₁.phisComp f₁.diagnostics).run env ms tol int).2 =
          .ok out →
        (b.rebuilt f₁.constraints f₁.phisFeat f₁.phisComp f₁.diagnostics).run env ms tol int =
          (b.rebuilt cs pf pc d).run env ms tol int := by
    intro w' g' b
    exact run_rebuilt (f := b) (env := env) hcs.symm hen h1 h2
  cases r with
  | setInteraction o reset kw => exact absurd hr (by simp [IsReinit])
  | setEntropy o reset kw => exact absurd hr (by simp [IsReinit])
  | setEnsemble o reset kw => exact absurd hr (by simp [IsReinit])
  | setConstraints c reset ind kw => exact absurd hr (by simp [IsReinit])
  | resetRevive => exact absurd hr (by simp [IsReinit])
  | reinitConstraint => exact absurd hr (by simp [IsReinit])
  | run ms tol int => exact absurd hr (by simp [IsReinit])
  | reinitRandom =>
    by_cases hs : f₁.randomStd < 0
    · simp [Finder.step, Finder.reinitRandom, hs, Except.map] at hok
    · simp only [Finder.step, Finder.reinitRandom, hs, if_false]
      obtain ⟨k1, k2⟩ := key (Finder.drawNormal env.rng f₁.randomStd f₁.numFeat f₁.numPart f₁.g).1
        (Finder.drawNormal env.rng f₁.randomStd f₁.numFeat f₁.numPart f₁.g).2
      exact ⟨rfl, k1, fun out ho => congrArg Prod.fst (k2 out ho)⟩
  | reinitOmegas a =>
    by_cases hs : a.shape = [f₁.numFeat, f₁.numPart]
    · simp only [Finder.step, Finder.reinitOmegas, Finder.checkField, hs, ne_eq, not_true_eq_false,
        if_false]
      obtain ⟨k1, k2⟩ := key (a.toMat f₁.numFeat f₁.numPart) f₁.g
      exact ⟨rfl, k1, fun out ho => congrArg Prod.fst (k2 out ho)⟩
    · simp [Finder.step, Finder.reinitOmegas, Finder.checkField, hs, Except.map] at hok
  | reinitPhis a =>
    by_cases hs : a.shape = [f₁.numFeat, f₁.numPart]
    · cases hu : Finder.unpackInteraction f₁.interaction f₁.numFeat with
      | none => simp [Finder.step, Finder.reinitPhis, Finder.checkField, hs, hu, Except.map] at hok
      | some ia =>
        simp only [Finder.step, Finder.reinitPhis, Finder.checkField, hs, ne_eq, not_true_eq_false,
          if_false, hu]
        obtain ⟨k1, k2⟩ := key (ia.potential (a.toMat f₁.numFeat f₁.numPart)) f₁.g
        exact ⟨rfl, k1, fun out ho => congrArg Prod.fst (k2 out ho)⟩
    · simp [Finder.step, Finder.reinitPhis, Finder.checkField, hs, Except.map] at hok

/-- **C62**, pairs of histories: two histories of a finder without `set_*` calls that leave the
generator in the same state. -/
theorem C62_pairs_of_histories {env : FinderEnv G} (hcr : CrashKeeps env) (f : Finder G)
    (hen : Sized f.entropy.inst) (ops₁ ops₂ : List FinderOp) (ho₁ : ∀ op ∈ ops₁, ¬ IsSet op)
    (ho₂ : ∀ op ∈ ops₂, ¬ IsSet op)
    (hg : (Finder.steps env ops₁ f).1.g = (Finder.steps env ops₂ f).1.g) {r : FinderOp}
    (hr : IsReinit r) (hok : ((Finder.steps env ops₁ f).1.step env r).2 = .ok none) (ms : Option ℚ)
    (tol : Option ℝ) (int : Option ℤ) (h1 : 0 < ms.getD f.maxSteps) (h2 : 0 < int.getD f.interval) :
    (((Finder.steps env ops₁ f).1.step env r).1.run env ms tol int).2 =
      (((Finder.steps env ops₂ f).1.step env r).1.run env ms tol int).2 ∧
    ∀ out, (((Finder.steps env ops₁ f).1.step env r).1.run env ms tol int).2 = .ok out →
      (((Finder.steps env ops₁ f).1.step env r).1.run env ms tol int).1 =
        (((Finder.steps env ops₂ f).1.step env r).1.run env ms tol int).1 := by
  have a1 := akin_steps hcr f ho₁
  have a2 := akin_steps hcr f ho₂
  have hs := C43_setup_kept env ops₁ f
  have hen' : Sized (Finder.steps env ops₁ f).1.entropy.inst := by
    obtain ⟨cs, w, J, pf, pc, rl, g, d, he, -⟩ := a1
    rw [he]; exact hen
  exact (C62_reinit_erases_history env (a1.symm.trans a2) hg hen' hr hok ms tol int
    (by rw [hs.maxSteps]; exact h1) (by rw [hs.interval]; exact h2)).2

-- The demo finder: nothing, or a run before.
example : ∃ f, Finder.create Demo.fenv () Demo.fhPy.obj Demo.gasObj.obj Demo.canonicalObj.obj
      (.many [Demo.locObj.obj, Demo.globObj.obj]) Demo.args = .ok f ∧
    (((Finder.steps Demo.fenv [] f).1.step Demo.fenv .reinitRandom).1.run Demo.fenv (some 10) none
      (some 5)).2 =
    (((Finder.steps Demo.fenv [.run none none none] f).1.step Demo.fenv .reinitRandom).1.run Demo.fenv
      (some 10) none (some 5)).2 := by
  obtain ⟨f, ia, cs, hf, hc, -⟩ := Demo.created
  refine ⟨f, hf, (C62_pairs_of_histories (env := Demo.fenv) (fun _ _ _ _ => rfl) f ?_ []
    [.run none none none] (by simp) (by simp [IsSet]) rfl (r := .reinitRandom) trivial ?_ (some 10) none (some 5)
    (by norm_num) (by norm_num)).1⟩
  · rw [hc.entropy]; trivial
  · have : ¬ f.randomStd < 0 := by rw [hc.randomStd]; norm_num [Demo.args]
    simp [Finder.steps, Finder.step, Finder.reinitRandom, this, Except.map]

end Flory
