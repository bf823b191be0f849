import Verif.Lemmas.FinderSet
import Verif.Props.Run
import Verif.Lemmas.Interaction

/-!
# C10, C34, C36, C43, C44, C45, C58, C62: histories of calls of a finder
-/

set_option linter.unusedSectionVars false

namespace Flory

open Spec

variable {G : Type}

/-! ## A concrete finder -/

namespace Demo

/-- Interaction with `χ₁₂ = 3`. -/
def fhPy : FHInteraction 2 ℝ := ⟨chis, false⟩

/-- Interaction of three components. -/
def fhPy3 : FHInteraction 3 ℝ := ⟨fun i j => if i = j then 0 else 1, false⟩

/-- Sizes 1 and 2. -/
def gasObj : GasEntropy 2 := ⟨![1, 2]⟩

/-- Mean fractions 1/2. -/
noncomputable def canonicalObj : CanonicalEnsemble 2 := ⟨![1 / 2, 1 / 2]⟩

/-- `φ₁ = φ₂` in every compartment. -/
def locObj : LinearConstraint 2 := ⟨false, 1, ![![1, -1]], ![0]⟩

/-- `φ₁ = 1/2` on average. -/
noncomputable def globObj : LinearConstraint 2 := ⟨true, 1, ![![1, 0]], ![1 / 2]⟩

/-- Generator that always returns zero; compiled code that raises changes nothing. -/
def fenv : FinderEnv Unit := ⟨rngZero ℝ, fun _ _ _ s => s⟩

/-- Three compartments and an argument meant for constraints. -/
noncomputable def args : FinderArgs := { numPart := some 3, kwargs := [("constraint_elasticity", 2)] }

theorem fh_compiled (kw : Dict ℝ) : ∃ x : FHCompiled 2 ℝ, fhPy.obj.compiled kw = .ok ⟨2, x⟩ := by
  rw [InstObj.compiled_eq]
  exact ⟨_, rfl⟩

theorem fh3_compiled (kw : Dict ℝ) : ∃ x : FHCompiled 3 ℝ, fhPy3.obj.compiled kw = .ok ⟨3, x⟩ := by
  rw [InstObj.compiled_eq]
  exact ⟨_, rfl⟩

theorem gas_compiled (kw : Dict ℝ) : gasObj.obj.compiled kw = .ok ⟨2, 2, .ideal ⟨![1, 2]⟩⟩ := by
  rw [InstObj.compiled_eq]; rfl

theorem canonical_compiled (kw : Dict ℝ) :
    canonicalObj.obj.compiled kw = .ok ⟨2, .canonical ⟨![1 / 2, 1 / 2]⟩⟩ := by
  rw [InstObj.compiled_eq]; rfl

theorem loc_compiled (kw : Dict ℝ) : ∃ a e, locObj.obj.compiled kw =
    .ok ⟨2, .loc 1 ![![1, -1]] ![0] a e⟩ := by
  rw [InstObj.compiled_eq]; exact ⟨_, _, rfl⟩

theorem glob_compiled (kw : Dict ℝ) : ∃ a e, globObj.obj.compiled kw =
    .ok ⟨2, .glob 1 ![![1, 0]] ![1 / 2] a e⟩ := by
  rw [InstObj.compiled_eq]; exact ⟨_, _, rfl⟩

/-- A finder with two constraints. -/
theorem created : ∃ f ia cs, Finder.create fenv () fhPy.obj gasObj.obj canonicalObj.obj
      (.many [locObj.obj, globObj.obj]) args = .ok f ∧
    Created args ia ⟨2, 2, .ideal ⟨![1, 2]⟩⟩ ⟨2, .canonical ⟨![1 / 2, 1 / 2]⟩⟩ cs f ∧
    (∀ c ∈ cs, NonEmpty c.2) ∧ cs.length = 2 := by
  obtain ⟨x, hx⟩ := fh_compiled args.kwargs
  obtain ⟨a, e, hl⟩ := loc_compiled args.kwargs
  obtain ⟨a', e', hg⟩ := glob_compiled args.kwargs
  have hcs : initConstraints (Finder.partNumber args.numPart 2) 2 args.kwargs
      (.many [locObj.obj, globObj.obj]) =
      ([.ofNew ⟨2, .loc 1 ![![1, -1]] ![0] a e⟩, .ofNew ⟨2, .glob 1 ![![1, 0]] ![1 / 2] a' e'⟩], none) := by
    simp only [initConstraints, List.map_cons, List.map_nil, compileAll, hl, hg]
  obtain ⟨-, -, -, h4⟩ := create_of_compiled (env := fenv) (g := ())
    (constraints := .many [locObj.obj, globObj.obj]) hx
    (gas_compiled args.kwargs) (canonical_compiled args.kwargs) (by rw [hcs]) (by norm_num [args])
  obtain ⟨f, hf, hc⟩ := h4 rfl rfl (by
    rw [hcs]
    intro c hc
    rcases List.mem_cons.mp hc with rfl | hc
    · rfl
    · rcases List.mem_cons.mp hc with rfl | hc
      · rfl
      · simp at hc)
  rw [hcs] at hc
  refine ⟨f, _, _, hf, hc, ?_, rfl⟩
  simp [PackedCons.ofNew_enforces, NonEmpty]

end Demo

/-! ## C10 keyword arguments -/

/-- **C10**, one object: its `_compiled_impl` sees exactly the supplied arguments it accepts. -/
theorem C10_arguments_arrive {α : Type} (o : InstObj α) (kw : Dict ℝ) :
    o.compiled kw = o.impl fun p => if p ∈ o.params then kw.get? p else none := o.compiled_eq kw

/-- **C10**, merging: later dictionaries override, the others are kept.  (Keys of a dictionary are
distinct.) -/
theorem C10_later_override (a b : Dict ℝ) (hb : (b.map Prod.fst).Nodup) (k : String) :
    (a.merge b).get? k = (b.get? k).or (a.get? k) := Dict.get?_merge a b hb k

/-- **C10**, `set_*` calls: the arguments of the call, then the defaults of the finder, as far as
accepted, reach the instance; the defaults stay as they are. -/
theorem C10_set_calls (f : Finder G) (kw : Dict ℝ) (hkw : (kw.map Prod.fst).Nodup) (reset : Bool) :
    (∀ o x, o.impl (fun p => if p ∈ o.params then (kw.get? p).or (f.kwargs.get? p) else none) = .ok x →
      (f.setInteraction o reset kw).1.interaction = x) ∧
    (∀ o x, o.impl (fun p => if p ∈ o.params then (kw.get? p).or (f.kwargs.get? p) else none) = .ok x →
      (f.setEntropy o reset kw).1.entropy = x) ∧
    (∀ o x, o.impl (fun p => if p ∈ o.params then (kw.get? p).or (f.kwargs.get? p) else none) = .ok x →
      (f.setEnsemble o reset kw).1.ensemble = x) ∧
    (∀ o, (f.setInteraction o reset kw).1.kwargs = f.kwargs) ∧
    (∀ o, (f.setEntropy o reset kw).1.kwargs = f.kwargs) ∧
    (∀ o, (f.setEnsemble o reset kw).1.kwargs = f.kwargs) ∧
    (∀ c ind, (f.setConstraints c reset ind kw).1.kwargs = f.kwargs) := by
  have env : FinderEnv G := ⟨⟨fun g => (0, g), fun g => (0, g), fun g _ => (0, g)⟩, fun _ _ _ s => s⟩
  refine ⟨fun o x h => ?_, fun o x h => ?_, fun o x h => ?_,
    fun o => (sameSetup_step env f (.setInteraction o reset kw)).kwargs,
    fun o => (sameSetup_step env f (.setEntropy o reset kw)).kwargs,
    fun o => (sameSetup_step env f (.setEnsemble o reset kw)).kwargs,
    fun c ind => (sameSetup_step env f (.setConstraints c reset ind kw)).kwargs⟩
  all_goals
    have hx : o.compiled (f.kwargs.merge kw) = .ok x := by
      rw [o.compiled_eq]
      simpa only [Dict.get?_merge _ _ hkw] using h
  · unfold Finder.setInteraction
    rw [hx]
    dsimp only
    split
    · rfl
    · cases reset <;> rfl
  · unfold Finder.setEntropy
    rw [hx]
    dsimp only
    split
    · rfl
    · cases reset <;> rfl
  · unfold Finder.setEnsemble
    rw [hx]
    dsimp only
    split
    · rfl
    · cases reset <;> rfl

/-- **C10**, constructor: the same for the four kinds of instances. -/
theorem C10_constructor {env : FinderEnv G} {g : G} {interaction : InstObj AnyInteraction}
    {entropy : InstObj AnyEntropy} {ensemble : InstObj AnyEnsemble} {cs : List (InstObj AnyConsNew)}
    {a : FinderArgs} {f : Finder G}
    (h : Finder.create env g interaction entropy ensemble (.many cs) a = .ok f) :
    interaction.impl (fun p => if p ∈ interaction.params then a.kwargs.get? p else none)
      = .ok f.interaction ∧
    entropy.impl (fun p => if p ∈ entropy.params then a.kwargs.get? p else none) = .ok f.entropy ∧
    ensemble.impl (fun p => if p ∈ ensemble.params then a.kwargs.get? p else none) = .ok f.ensemble ∧
    (cs ≠ [] → List.Forall₂
      (fun o x => o.impl (fun p => if p ∈ o.params then a.kwargs.get? p else none) = .ok x) cs
      (enforced f)) := by
  obtain ⟨ia, en, es, h1, h2, h3, -, h4, h5⟩ := create_ok h
  simp only [InstObj.compiled_eq] at h1 h2 h3
  refine ⟨h5.interaction ▸ h1, h5.entropy ▸ h2, h5.ensemble ▸ h3, fun hne => ?_⟩
  rw [h5.enforced]
  cases cs with
  | nil => exact absurd rfl hne
  | cons o cs =>
    simp only [initConstraints] at h4 ⊢
    have := compileAll_ok h4
    generalize (compileAll ((o :: cs).map fun c => (c, a.kwargs))).1 = r at this ⊢
    clear h4 h hne
    generalize o :: cs = cs at this
    induction cs generalizing r with
    | nil => cases this; exact .nil
    | cons o cs ih =>
      cases this with
      | cons hx ht =>
        obtain ⟨x, hx, rfl⟩ := hx
        refine .cons ?_ (ih _ ht)
        rw [PackedCons.ofNew_enforces, ← InstObj.compiled_eq]
        exact hx

/-- **C10**, constructor with a constraint given on its own or with none. -/
theorem C10_constructor_single {env : FinderEnv G} {g : G} {interaction : InstObj AnyInteraction}
    {entropy : InstObj AnyEntropy} {ensemble : InstObj AnyEnsemble} {a : FinderArgs} {f : Finder G} :
    (∀ c, Finder.create env g interaction entropy ensemble (.single c) a = .ok f →
      ∃ x, enforced f = [x] ∧ c.impl (fun p => if p ∈ c.params then a.kwargs.get? p else none) = .ok x) ∧
    (Finder.create env g interaction entropy ensemble .none a = .ok f →
      enforced f = [⟨f.numFeat, .no⟩]) := by
  refine ⟨fun c h => ?_, fun h => ?_⟩
  · obtain ⟨ia, en, es, h1, h2, h3, -, h4, h5⟩ := create_ok h
    rw [h5.enforced]
    simp only [initConstraints] at h4 ⊢
    cases hx : c.compiled a.kwargs with
    | error e => simp [compileAll, hx] at h4
    | ok x =>
      refine ⟨x, by simp [compileAll, hx, PackedCons.ofNew_enforces], ?_⟩
      rw [← InstObj.compiled_eq]
      exact hx
  · obtain ⟨ia, en, es, h1, h2, h3, -, h4, h5⟩ := create_ok h
    rw [h5.enforced, h5.numFeat]
    simp [initConstraints, PackedCons.ofNew_enforces]

/-- **C10**, the objects of the project: which arguments they accept and where these end up, with their
default values; the other objects accept none. -/
theorem C10_compiled (kw : Dict ℝ) :
    (∀ {S : ℕ} (o : LinearConstraint S), o.isGlobal = false → o.obj.compiled kw =
      .ok ⟨S, .loc o.numCons o.Cs o.Ts ((kw.get? "constraint_acceptance_ratio").getD 1)
        ((kw.get? "constraint_elasticity").getD 1)⟩) ∧
    (∀ {S : ℕ} (o : LinearConstraint S), o.isGlobal = true → o.obj.compiled kw =
      .ok ⟨S, .glob o.numCons o.Cs o.Ts ((kw.get? "constraint_acceptance_ratio").getD 1)
        ((kw.get? "constraint_elasticity").getD 1)⟩) ∧
    (∀ {C : ℕ} [NeZero C] (o : FHInteraction C ℝ), ∃ x : FHCompiled C ℝ, o.obj.compiled kw = .ok ⟨C, x⟩ ∧
      x.chis = o.chis ∧ ∃ i j, (∀ k l, o.chis i j ≤ o.chis k l) ∧
        x.coef = ∑ k, ∑ l, (o.chis k l - o.chis i j + (kw.get? "additional_chis_shift").getD 1)) ∧
    (∀ {C : ℕ} [NeZero C] (o : FHBlock C ℝ), ∃ x : FHCompiled C ℝ, o.obj.compiled kw = .ok ⟨C, x⟩ ∧
      x.chis = o.chisFeat ∧ ∃ i j, (∀ k l, o.chisFeat i j ≤ o.chisFeat k l) ∧
        x.coef = ∑ k, ∑ l, (o.chisFeat k l - o.chisFeat i j + (kw.get? "additional_chis_shift").getD 1)) ∧
    (∀ {C : ℕ} (o : GasEntropy C), ∃ x : IdealC C, o.obj.compiled kw = .ok ⟨C, C, .ideal x⟩ ∧
      x.sizes = o.sizes) ∧
    (∀ {C : ℕ} (o : CanonicalEnsemble C), o.obj.compiled kw = .ok ⟨C, .canonical ⟨o.phiMeans⟩⟩) ∧
    (∀ {C : ℕ} (o : GrandCanonicalEnsemble C), o.obj.compiled kw =
      .ok ⟨C, .grand ⟨o.scaledActivity⟩⟩) ∧
    (∀ S : ℕ, (noConstraintObj S).compiled kw = .ok ⟨S, .no⟩) := by
  refine ⟨?_, ?_, ?_, ?_, ?_, ?_, ?_, ?_⟩
  · intro S o ho
    rw [InstObj.compiled_eq]
    simp [LinearConstraint.obj, ho]
  · intro S o ho
    rw [InstObj.compiled_eq]
    simp [LinearConstraint.obj, ho]
  · intro C hC o
    rw [InstObj.compiled_eq]
    obtain ⟨i, j, hij⟩ := matMin_mem o.chis
    refine ⟨o.compile ((kw.get? "additional_chis_shift").getD 1), ?_, rfl, i, j,
      fun k l => hij ▸ matMin_le o.chis k l, ?_⟩
    · simp [FHInteraction.obj, NeZero.ne C]
    · simp only [FHInteraction.compile, FHCompiled.new, hij, Finset.sum_add_distrib, Finset.sum_sub_distrib,
        Finset.sum_const, Finset.card_univ, Fintype.card_fin, nsmul_eq_mul]
      ring
  · intro C hC o
    rw [InstObj.compiled_eq]
    obtain ⟨i, j, hij⟩ := matMin_mem o.chisFeat
    refine ⟨o.compile ((kw.get? "additional_chis_shift").getD 1), ?_, rfl, i, j,
      fun k l => hij ▸ matMin_le o.chisFeat k l, ?_⟩
    · simp [FHBlock.obj, NeZero.ne C]
    · simp only [FHBlock.compile, FHCompiled.new, hij, Finset.sum_add_distrib, Finset.sum_sub_distrib,
        Finset.sum_const, Finset.card_univ, Fintype.card_fin, nsmul_eq_mul]
      ring
  · intro C o
    rw [InstObj.compiled_eq]
    exact ⟨_, rfl, rfl⟩
  · intro C o
    rw [InstObj.compiled_eq]
    rfl
  · intro C o
    rw [InstObj.compiled_eq]
    rfl
  · intro S
    rw [InstObj.compiled_eq]
    rfl

example : Demo.globObj.obj.compiled [("constraint_elasticity", 2), ("additional_chis_shift", 5)] =
    .ok ⟨2, .glob 1 ![![1, 0]] ![1 / 2] 1 2⟩ := by
  rw [(C10_compiled _).2.1 _ rfl]
  simp [Dict.get?, List.lookup, Demo.globObj]

-- An argument of the interaction arrives, an argument for constraints does not disturb.
example : ∃ x, Demo.fhPy.obj.compiled [("constraint_elasticity", 2), ("additional_chis_shift", 5)] =
    .ok ⟨2, x⟩ ∧ x.coef = 26 := by
  rw [C10_arguments_arrive]
  refine ⟨FHCompiled.new Demo.chis (-matMin Demo.chis + 5), rfl, ?_⟩
  have h0 : ∀ i j, 0 ≤ Demo.chis i j := by
    intro i j; fin_cases i <;> fin_cases j <;> simp [Demo.chis]
  have : matMin Demo.chis = 0 := by
    refine le_antisymm (matMin_le Demo.chis 0 0) ?_
    obtain ⟨r, s, hrs⟩ := matMin_mem Demo.chis
    rw [hrs]; exact h0 r s
  simp only [FHCompiled.new, this]
  simp [Demo.chis, Fin.sum_univ_two]
  norm_num

example : Dict.get? (Dict.merge [("a", 1), ("b", 2)] [("b", 3), ("c", 4)]) "b" = some (3 : ℝ) := by
  rw [C10_later_override _ _ (by simp)]
  simp [Dict.get?_cons]

/-! ## C43 sizes and defaults -/

/-- **C43**. Whatever is called, and whether it raises or not, sizes and defaults stay those of the
construction (the shapes of the fields are part of the type of a finder). -/
theorem C43_setup_kept (env : FinderEnv G) (ops : List FinderOp) (f : Finder G) :
    SameSetup f (Finder.steps env ops f).1 :=
  steps_inv env (SameSetup f) (fun _ => True) (fun f' op h _ => h.trans (sameSetup_step env f' op)) ops f
    (.refl f) fun _ _ => trivial

/-- **C43**, construction: sizes are those of the entropy, defaults those of the call. -/
theorem C43_created {env : FinderEnv G} {g : G} {interaction : InstObj AnyInteraction}
    {entropy : InstObj AnyEntropy} {ensemble : InstObj AnyEnsemble} {constraints : ConsArg}
    {a : FinderArgs} {f : Finder G}
    (h : Finder.create env g interaction entropy ensemble constraints a = .ok f)
    (ops : List FinderOp) :
    ∃ ia en es cs f₀, Created a ia en es cs f₀ ∧ f = f₀ ∧ SameSetup f₀ (Finder.steps env ops f).1 := by
  obtain ⟨ia, en, es, -, -, -, -, -, h5⟩ := create_ok h
  exact ⟨ia, en, es, _, f, h5, rfl, C43_setup_kept env ops f⟩

/-- **C43**, arguments of `run` only act on that run: the result is that of a finder with these
defaults, and the defaults afterwards are the old ones. -/
theorem C43_run_arguments (env : FinderEnv G) (f : Finder G) (ms : ℚ) (tol : ℝ) (int : ℤ) :
    let r := ({ f with maxSteps := ms, tolerance := tol, interval := int } : Finder G).run env none none
      none
    f.run env (some ms) (some tol) (some int) =
      ({ r.1 with maxSteps := f.maxSteps, tolerance := f.tolerance, interval := f.interval }, r.2) := by
  intro r
  cases hp : f.parts with
  | none =>
    have hr : r = _ := run_none (f := { f with maxSteps := ms, tolerance := tol, interval := int }) hp _ _ _
    rw [hr, run_none hp]
    rfl
  | some p =>
    by_cases h : f.numPart = 0
    · have hr : r = _ := run_zero (f := { f with maxSteps := ms, tolerance := tol, interval := int }) hp h
        _ _ _
      rw [hr, run_zero hp h]
    · have : NeZero f.numPart := ⟨h⟩
      have hr : r = _ := run_some (f := { f with maxSteps := ms, tolerance := tol, interval := int }) hp
        _ _ _
      rw [hr, run_some hp]
      simp only [Option.getD_some, Option.getD_none]
      have e1 : Finder.runEnv env { f with maxSteps := ms, tolerance := tol, interval := int } p =
        f.runEnv env p := rfl
      have e2 : Finder.state { f with maxSteps := ms, tolerance := tol, interval := int } p.cons =
        f.state p.cons := rfl
      rw [e1, e2]
      rcases runImpl (f.runEnv env p) ms tol int (f.state p.cons) f.reviveLeft with ⟨s, x⟩
      cases x <;> rfl

-- A history with rejected calls and a run.
example : ∃ f, Finder.create Demo.fenv () Demo.fhPy.obj Demo.gasObj.obj Demo.canonicalObj.obj
      (.many [Demo.locObj.obj, Demo.globObj.obj]) Demo.args = .ok f ∧ f.numPart = 3 ∧
    (Finder.steps Demo.fenv [.run (some 10) none (some 5), .setInteraction Demo.fhPy3.obj true [],
      .reinitOmegas (.ofVec (![0, 1] : Vec 2 ℝ)), .run none none none] f).1.numPart = 3 := by
  obtain ⟨f, ia, cs, hf, hc, -⟩ := Demo.created
  have h3 : f.numPart = 3 := by rw [hc.numPart]; simp [Demo.args]
  exact ⟨f, hf, h3, (C43_setup_kept _ _ _).numPart.trans h3⟩

/-! ## C58 sizes of the parts of a finder -/

/-- **C58**, finder: if all objects can be compiled, the constructor succeeds exactly if interaction,
ensemble and constraints have the sizes of the entropy; otherwise it raises `FeatureNumberError` or
`ComponentNumberError`, the first disagreement in the order interaction, ensemble, constraints
deciding.  `objs` are the constraints that are given. -/
theorem C58_finder_sizes {env : FinderEnv G} {g : G} {interaction : InstObj AnyInteraction}
    {entropy : InstObj AnyEntropy} {ensemble : InstObj AnyEnsemble} {objs : List (InstObj AnyConsNew)}
    {xs : List AnyConsNew} {a : FinderArgs} {ia : AnyInteraction} {en : AnyEntropy} {es : AnyEnsemble}
    (h1 : interaction.compiled a.kwargs = .ok ia) (h2 : entropy.compiled a.kwargs = .ok en)
    (h3 : ensemble.compiled a.kwargs = .ok es)
    (h4 : List.Forall₂ (fun o x => o.compiled a.kwargs = .ok x) objs xs) (hstd : 0 ≤ a.randomStd) :
    let r := Finder.create env g interaction entropy ensemble (.many objs) a
    ((∃ f, r = .ok f) ↔ ia.1 = en.numFeat ∧ es.1 = en.numComp ∧ ∀ x ∈ xs, x.1 = en.numFeat) ∧
    (ia.1 ≠ en.numFeat → r = .error .featureNumberError) ∧
    (ia.1 = en.numFeat → es.1 ≠ en.numComp → r = .error .componentNumberError) ∧
    (ia.1 = en.numFeat → es.1 = en.numComp → (∃ x ∈ xs, x.1 ≠ en.numFeat) →
      r = .error .featureNumberError) ∧
    (∀ f, r = .ok f → objs ≠ [] → enforced f = xs) := by
  intro r
  have aux : ∀ M, (initConstraints M en.numFeat a.kwargs (.many objs)).2 = none ∧
      (initConstraints M en.numFeat a.kwargs (.many objs)).1 =
        if objs = [] then [.ofNew ⟨en.numFeat, .no⟩] else xs.map .ofNew := by
    intro M
    cases h4 with
    | nil => exact ⟨rfl, rfl⟩
    | @cons o x objs xs hx ht =>
      have h4 : List.Forall₂ (fun o x => o.compiled a.kwargs = .ok x) (o :: objs) (x :: xs) := .cons hx ht
      simp only [initConstraints, reduceCtorEq, if_false]
      generalize o :: objs = l at h4
      generalize x :: xs = ys at h4
      clear hx ht
      induction h4 with
      | nil => exact ⟨rfl, rfl⟩
      | @cons o x objs xs hx _ ih =>
        simp only [List.map_cons, compileAll, hx]
        exact ⟨ih.1, by rw [ih.2]⟩
  obtain ⟨a1, a2⟩ := aux (Finder.partNumber a.numPart en.numComp)
  obtain ⟨k1, k2, k3, k4⟩ := create_of_compiled (env := env) (g := g) h1 h2 h3 a1 hstd
  rw [a2] at k3 k4
  have hiff : (∀ c ∈ (if objs = [] then [PackedCons.ofNew ⟨en.numFeat, .no⟩] else xs.map PackedCons.ofNew :
      List (PackedCons (Finder.partNumber a.numPart en.numComp))), c.numFeat = en.numFeat) ↔
      ∀ x ∈ xs, x.1 = en.numFeat := by
    cases h4 with
    | nil => simp [PackedCons.ofNew]
    | cons hx ht =>
      rw [if_neg (List.cons_ne_nil _ _)]
      simp only [List.mem_map, forall_exists_index, and_imp, forall_apply_eq_imp_iff₂]
      rfl
  rw [hiff] at k3 k4
  refine ⟨⟨?_, fun ⟨e1, e2, e3⟩ => ?_⟩, k1, k2, fun e1 e2 e3 => k3 e1 e2 ?_, ?_⟩
  · rintro ⟨f, hf⟩
    by_cases e1 : ia.1 = en.numFeat
    · by_cases e2 : es.1 = en.numComp
      · refine ⟨e1, e2, ?_⟩
        by_contra e3
        have := k3 e1 e2 e3
        rw [show r = _ from this] at hf
        simp at hf
      · rw [show r = _ from k2 e1 e2] at hf; simp at hf
    · rw [show r = _ from k1 e1] at hf; simp at hf
  · obtain ⟨f, hf, -⟩ := k4 e1 e2 e3
    exact ⟨f, hf⟩
  · intro h
    obtain ⟨x, hx, hne⟩ := e3
    exact hne (h x hx)
  · intro f hf hne
    obtain ⟨ia', en', es', h1', h2', -, -, -, h5⟩ := create_ok hf
    rw [h2] at h2'
    cases h2'
    rw [h5.enforced, a2, if_neg hne, List.map_map]
    conv_rhs => rw [← List.map_id xs]
    exact List.map_congr_left fun x _ => PackedCons.ofNew_enforces x

-- A finder that can be created, and one whose interaction has three components.
example : (∃ f, Finder.create Demo.fenv () Demo.fhPy.obj Demo.gasObj.obj Demo.canonicalObj.obj
      (.many [Demo.locObj.obj, Demo.globObj.obj]) Demo.args = .ok f) ∧
    Finder.create Demo.fenv () Demo.fhPy3.obj Demo.gasObj.obj Demo.canonicalObj.obj
      (.many []) Demo.args = .error .featureNumberError := by
  obtain ⟨f, ia, cs, hf, -⟩ := Demo.created
  obtain ⟨x, hx⟩ := Demo.fh3_compiled Demo.args.kwargs
  exact ⟨⟨f, hf⟩, (C58_finder_sizes (objs := []) (xs := []) hx (Demo.gas_compiled _)
    (Demo.canonical_compiled _) .nil (by norm_num [Demo.args])).2.1 (by simp)⟩

end Flory
