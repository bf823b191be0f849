import Verif.Lemmas.FinderSet
import Verif.Spec.FinderObject

/-!
# Lemmas for the agreement of the transcribed finder with the model
-/

set_option linter.unusedSectionVars false

namespace Flory

namespace Act

variable {σ α β : Type}

theorem pure_run (x : α) (s : σ) : (pure x : Act σ α) s = (s, .ok x) := rfl

theorem bind_run (a : Act σ α) (f : α → Act σ β) (s : σ) :
    (a >>= f) s = match a s with
      | (s, .error e) => (s, .error e)
      | (s, .ok x) => f x s := rfl

theorem raise_run (e : PyErr) (s : σ) : (raise e : Act σ α) s = (s, .error e) := rfl

theorem lift_run (x : Py α) (s : σ) : (lift x : Act σ α) s = (s, x) := rfl

theorem write_run (u : σ → σ) (s : σ) : write u s = (u s, .ok ()) := rfl

theorem read_run {p : σ → Option α} {s : σ} {x : α} (h : p s = some x) : read p s = (s, .ok x) := by
  unfold read
  rw [h]

theorem read_bind (p : σ → Option α) (f : α → Act σ β) (s : σ) :
    (read p >>= f) s = match p s with
      | none => (s, .error .attributeError)
      | some x => f x s := by
  rw [bind_run]
  unfold read
  cases p s <;> rfl

theorem write_bind (u : σ → σ) (f : Unit → Act σ β) (s : σ) : (write u >>= f) s = f () (u s) := rfl

theorem lift_bind (x : Py α) (f : α → Act σ β) (s : σ) :
    (lift x >>= f) s = match x with
      | .error e => (s, .error e)
      | .ok y => f y s := by
  cases x <;> rfl

theorem bind_of {a : Act σ α} {f : α → Act σ β} {s s' : σ} {x : Py α} (h : a s = (s', x)) :
    (a >>= f) s = match (generalizing := false) x with
      | .error e => (s', .error e)
      | .ok y => f y s' := by
  rw [bind_run, h]
  cases x <;> rfl

theorem assoc {γ : Type} (a : Act σ α) (f : α → Act σ β) (g : β → Act σ γ) :
    (a >>= f) >>= g = a >>= fun x => f x >>= g := by
  funext s
  simp only [bind_run]
  rcases a s with ⟨s', e | x⟩ <;> rfl

theorem pure_then (x : α) (f : α → Act σ β) : (pure x >>= f) = f x := rfl

theorem forEach_map (g : α → β) (l : List α) (f : β → Act σ Unit) :
    forEach (l.map g) f = forEach l fun x => f (g x) := by
  induction l with
  | nil => rfl
  | cons a l ih =>
    unfold forEach
    simp only [List.map_cons]
    rw [ih]

theorem mapEach_pure (l : List α) (f : α → Act σ β) (g : α → β) (s : σ) (h : ∀ x, f x s = (s, .ok (g x))) :
    mapEach l f s = (s, .ok (l.map g)) := by
  induction l with
  | nil => rfl
  | cons a l ih =>
    unfold mapEach
    simp only [bind_run, h, ih, pure_run, List.map_cons]

end Act

/-! ## `compiled` -/

section Kwargs

theorem filter_loop (kw : Dict ℝ) (l : List String) (h : ∀ p ∈ l, (kw.get? p).isSome) (d : Dict ℝ) :
    ∃ d', forListM l d (fun para dict => do
        let value : ℝ ← Dict.item kw para
        pure (dict.insert para value)) = .ok d' ∧
      ∀ k, d'.get? k = if k ∈ l then kw.get? k else d.get? k := by
  induction l generalizing d with
  | nil => exact ⟨d, rfl, fun k => by simp⟩
  | cons p l ih =>
    obtain ⟨v, hv⟩ := Option.isSome_iff_exists.mp (h p (by simp))
    obtain ⟨d', hd, hk⟩ := ih (fun q hq => h q (by simp [hq])) (d.insert p v)
    refine ⟨d', ?_, fun k => ?_⟩
    · unfold forListM
      rw [← hd]
      simp only [Dict.item, hv]
      rfl
    · rw [hk k, Dict.get?_insert]
      by_cases h1 : k = p
      · subst h1
        simp [hv]
      · simp [h1]

theorem Dict.get?_ne_none {V : Type} {d : Dict V} {p : String × V} (h : p ∈ d) : d.get? p.1 ≠ none := by
  intro hn
  simp only [Dict.get?, List.lookup_eq_none_iff] at hn
  simpa using hn p h

theorem compiled_filtered {α : Type} (o : InstObj α) (kw : Dict ℝ) :
    (do
      let kwargs : Dict ℝ ← Gen.filter_kwargs kw o.params
      callKwargs o.params kwargs o.impl) = o.compiled kw := by
  obtain ⟨d', hd, hk⟩ := filter_loop kw (o.params.filter fun p => (kw.get? p).isSome)
    (fun p hp => (List.mem_filter.mp hp).2) []
  have hf : Gen.filter_kwargs kw o.params = .ok d' := hd
  rw [hf, InstObj.compiled_eq]
  change callKwargs o.params d' o.impl = _
  have hg : ∀ k, d'.get? k = if k ∈ o.params then kw.get? k else none := by
    intro k
    rw [hk k]
    simp only [List.mem_filter]
    by_cases h1 : k ∈ o.params
    · cases h2 : kw.get? k with
      | none => simp [h1]; rfl
      | some v => simp [h1]
    · simp [h1]; rfl
  unfold callKwargs
  rw [if_pos]
  · congr 1
    funext k
    exact hg k
  · rw [List.all_eq_true]
    intro q hq
    have h := Dict.get?_ne_none hq
    rw [hg] at h
    by_contra hc
    apply h
    rw [if_neg]
    simpa using hc

theorem interaction_compiled {α : Type} (o : InstObj α) (kw : Dict ℝ) :
    Gen.InteractionBase.compiled o kw = o.compiled kw := compiled_filtered o kw

theorem entropy_compiled {α : Type} (o : InstObj α) (kw : Dict ℝ) :
    Gen.EntropyBase.compiled o kw = o.compiled kw := compiled_filtered o kw

theorem ensemble_compiled {α : Type} (o : InstObj α) (kw : Dict ℝ) :
    Gen.EnsembleBase.compiled o kw = o.compiled kw := compiled_filtered o kw

theorem constraint_compiled {α : Type} (o : InstObj α) (kw : Dict ℝ) :
    Gen.ConstraintBase.compiled o kw = o.compiled kw := compiled_filtered o kw

end Kwargs

/-! ## Methods -/

section Methods

open Spec Gen

variable {G : Type} {M : ℕ}

theorem check_instance_run {o : FinderObj G M} {C S : ℕ} (hC : o._num_comp = some C) (hS : o._num_feat = some S)
    (x : InstAttrs) :
    CoexistingPhasesFinder.check_instance x o = (o, Finder.checkSizes C S x.num_comp x.num_feat) := by
  obtain ⟨c, s⟩ := x
  unfold CoexistingPhasesFinder.check_instance Finder.checkSizes
  cases c with
  | none =>
    cases s with
    | none => simp [Act.bind_run, Act.pure_run]
    | some s =>
      by_cases h : s = S <;> simp [Act.bind_run, Act.pure_run, Act.read_run hS, Act.raise_run, h]
  | some c =>
    by_cases hc : c = C
    · cases s with
      | none => simp [Act.bind_run, Act.pure_run, Act.read_run hC, hc]
      | some s =>
        by_cases h : s = S <;>
          simp [Act.bind_run, Act.pure_run, Act.read_run hS, Act.read_run hC, Act.raise_run, h, hc]
    · simp [Act.bind_run, Act.pure_run, Act.read_run hC, Act.raise_run, hc]

theorem reset_revive_run {o : FinderObj G M} {k : ℤ} {n : ℕ} (hk : o._max_revive_per_compartment = some k)
    (hn : o._num_part = some n) :
    CoexistingPhasesFinder.reset_revive o = ({ o with _revive_count_left := some (k * n) }, .ok ()) := by
  unfold CoexistingPhasesFinder.reset_revive
  simp only [Act.bind_run, Act.read_run hk, Act.read_run hn, Act.write_run, Act.pure_run]

theorem reinitialize_constraint_run (other : ℕ → PackedCons M → PackedCons M) {o : FinderObj G M}
    {l : List (PackedCons M)} (hl : o._constraints = some l) (hn : o._num_part = some M) :
    CoexistingPhasesFinder.reinitialize_constraint other o =
      ({ o with _constraints := some (l.map PackedCons.reset) }, .ok ()) := by
  unfold CoexistingPhasesFinder.reinitialize_constraint
  simp only [Act.bind_run, Act.read_run hl]
  rw [Act.mapEach_pure l _ PackedCons.reset o]
  · simp only [Act.write_run, Act.pure_run]
  · intro c
    simp only [Act.bind_run, Act.read_run hn, Act.pure_run, PackedCons.initialize, if_true]

theorem check_field_run {o : FinderObj G M} {a : NDArr ℝ} (h : o._omegas = some a) (field : NDArr ℝ) :
    CoexistingPhasesFinder.check_field field o =
      (o, if field.shape ≠ a.shape then .error .valueError else .ok field) := by
  unfold CoexistingPhasesFinder.check_field
  by_cases hs : field.shape = a.shape <;>
    simp [Act.bind_run, Act.read_run h, Act.pure_run, Act.raise_run, hs]

theorem resetRevive_same {x : FinderExtra} {o : FinderObj G M} {f : Finder G} (h : SameFinder x o f) :
    SameCall x (CoexistingPhasesFinder.reset_revive o) (f.resetRevive, .ok ()) := by
  rw [reset_revive_run h.max_revive h.num_part]
  have hp := h.part
  subst hp
  exact ⟨{ h with revive_left := rfl }, rfl⟩

theorem maybeReset_same {x : FinderExtra} {o : FinderObj G M} {f : Finder G} (h : SameFinder x o f) (r : Bool) :
    SameCall x ((do
      let _ : Unit ← (
        if r then do
          CoexistingPhasesFinder.reset_revive
          pure ()
        else do
          pure ())
      pure () : Act (FinderObj G M) Unit) o) (f.maybeReset r, .ok ()) := by
  cases r with
  | false => exact ⟨h, rfl⟩
  | true =>
    have hr := resetRevive_same h
    revert hr
    simp only [Act.bind_run, if_true, reset_revive_run h.max_revive h.num_part, Act.pure_run]
    exact id

theorem reinitConstraint_same (other : ℕ → PackedCons M → PackedCons M) {x : FinderExtra} {o : FinderObj G M}
    {f : Finder G} (h : SameFinder x o f) :
    SameCall x (CoexistingPhasesFinder.reinitialize_constraint other o) (f.reinitConstraint, .ok ()) := by
  rw [reinitialize_constraint_run other h.constraints h.num_part]
  have hp := h.part
  subst hp
  exact ⟨{ h with constraints := rfl }, rfl⟩

theorem set_interaction_same {x : FinderExtra} {o : FinderObj G M} {f : Finder G} (h : SameFinder x o f)
    (i : InstObj AnyInteraction) (r : Bool) (kw : Dict ℝ) :
    SameCall x (CoexistingPhasesFinder.set_interaction i r kw o) (f.setInteraction i r kw) := by
  unfold CoexistingPhasesFinder.set_interaction Finder.setInteraction
  rw [Act.bind_run, Act.read_run h.kwargs]
  dsimp only
  rw [Act.bind_run, Act.lift_run, interaction_compiled]
  cases hc : i.compiled (f.kwargs.merge kw) with
  | error e => exact ⟨h, rfl⟩
  | ok y =>
    dsimp only
    have h' : SameFinder x { o with _interaction := some y } { f with interaction := y } :=
      { h with interaction := rfl }
    rw [Act.bind_run, Act.write_run]
    dsimp only
    rw [Act.bind_run, Act.read_run h'.interaction]
    dsimp only
    rw [Act.bind_run, check_instance_run h'.num_comp h'.num_feat]
    dsimp only [interactionAttrs]
    cases Finder.checkSizes f.numComp f.numFeat none (some y.1) with
    | error e => exact ⟨h', rfl⟩
    | ok u => exact maybeReset_same h' r

theorem set_entropy_same {x : FinderExtra} {o : FinderObj G M} {f : Finder G} (h : SameFinder x o f)
    (i : InstObj AnyEntropy) (r : Bool) (kw : Dict ℝ) :
    SameCall x (CoexistingPhasesFinder.set_entropy i r kw o) (f.setEntropy i r kw) := by
  unfold CoexistingPhasesFinder.set_entropy Finder.setEntropy
  rw [Act.bind_run, Act.read_run h.kwargs]
  dsimp only
  rw [Act.bind_run, Act.lift_run, entropy_compiled]
  cases hc : i.compiled (f.kwargs.merge kw) with
  | error e => exact ⟨h, rfl⟩
  | ok y =>
    dsimp only
    have h' : SameFinder x { o with _entropy := some y } { f with entropy := y } :=
      { h with entropy := rfl }
    rw [Act.bind_run, Act.write_run]
    dsimp only
    rw [Act.bind_run, Act.read_run h'.entropy]
    dsimp only
    rw [Act.bind_run, check_instance_run h'.num_comp h'.num_feat]
    dsimp only [entropyAttrs]
    cases Finder.checkSizes f.numComp f.numFeat (some y.numComp) (some y.numFeat) with
    | error e => exact ⟨h', rfl⟩
    | ok u => exact maybeReset_same h' r

theorem set_ensemble_same {x : FinderExtra} {o : FinderObj G M} {f : Finder G} (h : SameFinder x o f)
    (i : InstObj AnyEnsemble) (r : Bool) (kw : Dict ℝ) :
    SameCall x (CoexistingPhasesFinder.set_ensemble i r kw o) (f.setEnsemble i r kw) := by
  unfold CoexistingPhasesFinder.set_ensemble Finder.setEnsemble
  rw [Act.bind_run, Act.read_run h.kwargs]
  dsimp only
  rw [Act.bind_run, Act.lift_run, ensemble_compiled]
  cases hc : i.compiled (f.kwargs.merge kw) with
  | error e => exact ⟨h, rfl⟩
  | ok y =>
    dsimp only
    have h' : SameFinder x { o with _ensemble := some y } { f with ensemble := y } :=
      { h with ensemble := rfl }
    rw [Act.bind_run, Act.write_run]
    dsimp only
    rw [Act.bind_run, Act.read_run h'.ensemble]
    dsimp only
    rw [Act.bind_run, check_instance_run h'.num_comp h'.num_feat]
    dsimp only [ensembleAttrs]
    cases Finder.checkSizes f.numComp f.numFeat (some y.1) none with
    | error e => exact ⟨h', rfl⟩
    | ok u => exact maybeReset_same h' r

/-- What is left of an optional exception: the result of a method. -/
def outcome : Option PyErr → Py Unit
  | none => .ok ()
  | some e => .error e

theorem forEach_compile {α : Type} (q : α → InstObj AnyConsNew × Dict ℝ)
    (body : α → Act (FinderObj G M) Unit) (o : FinderObj G M)
    (hb : ∀ a cs, body a { o with _constraints := some cs } =
      match (q a).1.compiled (q a).2 with
      | .error e => ({ o with _constraints := some cs }, .error e)
      | .ok c => ({ o with _constraints := some (cs ++ [PackedCons.ofNew c]) }, .ok ()))
    (l : List α) (cs : List (PackedCons M)) :
    Act.forEach l body { o with _constraints := some cs } =
      ({ o with _constraints := some (cs ++ (compileAll (l.map q)).1) }, outcome (compileAll (M := M) (l.map q)).2) := by
  induction l generalizing cs with
  | nil => simp [Act.forEach, compileAll, Act.pure_run, outcome]
  | cons a l ih =>
    unfold Act.forEach
    rw [Act.bind_run, hb]
    simp only [List.map_cons]
    unfold compileAll
    obtain ⟨i, kw⟩ := q a
    cases hc : i.compiled kw with
    | error e => simp [outcome]
    | ok c =>
      dsimp only
      rw [ih]
      simp

theorem forEach_check {o : FinderObj G M} {C S : ℕ} (hC : o._num_comp = some C) (hS : o._num_feat = some S)
    (l : List (PackedCons M)) :
    Act.forEach l (fun cons => do
      CoexistingPhasesFinder.check_instance (constraintAttrs cons)
      pure ()) o = (o, Finder.checkAll C S l) := by
  induction l with
  | nil => rfl
  | cons c l ih =>
    unfold Act.forEach Finder.checkAll
    rw [Act.bind_run, Act.bind_run, check_instance_run hC hS]
    rw [show (constraintAttrs c).num_comp = none from rfl,
      show (constraintAttrs c).num_feat = some c.numFeat from rfl]
    cases Finder.checkSizes C S none (some c.numFeat) with
    | error e => rfl
    | ok u =>
      simp only [Act.pure_run]
      rw [ih]
      rfl

theorem finish_same (other : ℕ → PackedCons M → PackedCons M) {x : FinderExtra} {o : FinderObj G M} {f : Finder G}
    (h : SameFinder x o f) (r : Bool) :
    SameCall x ((do
      let t12 : List (PackedCons M) ← Act.read fun self => self._constraints
      Act.forEach t12 fun cons => do
        CoexistingPhasesFinder.check_instance (constraintAttrs cons)
        pure ()
      CoexistingPhasesFinder.reinitialize_constraint other
      let _ : Unit ← (
        if r then do
          CoexistingPhasesFinder.reset_revive
          pure ()
        else do
          pure ())
      pure () : Act (FinderObj G M) Unit) o)
      (match Finder.checkAll f.numComp f.numFeat f.constraints with
        | .error e => (f, .error e)
        | .ok () => (f.reinitConstraint.maybeReset r, .ok ())) := by
  have hp := h.part
  subst hp
  rw [Act.bind_run, Act.read_run h.constraints]
  dsimp only
  rw [Act.bind_run, forEach_check h.num_comp h.num_feat]
  cases Finder.checkAll f.numComp f.numFeat f.constraints with
  | error e => exact ⟨h, rfl⟩
  | ok u =>
    dsimp only
    have h' := reinitConstraint_same other h
    rw [Act.bind_run]
    revert h'
    rw [reinitialize_constraint_run other h.constraints h.num_part]
    intro h'
    exact maybeReset_same h'.1 r

theorem tail_same (other : ℕ → PackedCons M → PackedCons M) {x : FinderExtra} {o : FinderObj G M} {f : Finder G}
    (h : SameFinder x o f) :
    SameCall x ((do
      CoexistingPhasesFinder.reset_revive
      CoexistingPhasesFinder.reinitialize_constraint other
      pure () : Act (FinderObj G M) Unit) o) (f.resetRevive.reinitConstraint, .ok ()) := by
  have h1 := resetRevive_same h
  rw [reset_revive_run h.max_revive h.num_part] at h1
  rw [Act.bind_of (reset_revive_run h.max_revive h.num_part)]
  dsimp only
  have h2 := reinitConstraint_same other h1.1
  rw [reinitialize_constraint_run other h1.1.constraints h1.1.num_part] at h2
  rw [Act.bind_of (reinitialize_constraint_run other h1.1.constraints h1.1.num_part)]
  exact ⟨h2.1, rfl⟩

theorem sameMat_ofMat {r c : ℕ} (m : Mat r c ℝ) : SameMat (NDArr.ofMat m) m :=
  ⟨rfl, fun i j => by simp [NDArr.ofMat]⟩

theorem reinitialize_random_same (env : FinderEnv G) (other : ℕ → PackedCons M → PackedCons M) {x : FinderExtra}
    {o : FinderObj G M} {f : Finder G} (h : SameFinder x o f) :
    SameCall x (CoexistingPhasesFinder.reinitialize_random env.rng other o) (f.reinitRandom env) := by
  have hp := h.part
  subst hp
  unfold CoexistingPhasesFinder.reinitialize_random Finder.reinitRandom
  by_cases hs : f.randomStd < 0
  · simp only [Act.read_bind, Act.lift_bind, h.rng, h.random_std, h.num_feat, h.num_part, rngNormal, if_pos hs]
    exact ⟨h, rfl⟩
  · simp only [Act.read_bind, Act.lift_bind, Act.write_bind, h.rng, h.random_std, h.num_feat, h.num_part, rngNormal,
      if_neg hs]
    exact tail_same other
      { h with
        rng := rfl
        omegas := ⟨_, rfl, sameMat_ofMat _⟩
        Js := ⟨_, rfl, rfl, fun _ => rfl⟩
        num_part := rfl
        num_feat := rfl
        random_std := rfl }

theorem reinitialize_from_omegas_same (other : ℕ → PackedCons M → PackedCons M) {x : FinderExtra}
    {o : FinderObj G M} {f : Finder G} (h : SameFinder x o f) (omegas : NDArr ℝ) :
    SameCall x (CoexistingPhasesFinder.reinitialize_from_omegas other omegas o) (f.reinitOmegas omegas) := by
  have hp := h.part
  subst hp
  obtain ⟨w, hw, hs⟩ := h.omegas
  obtain ⟨j, hj, hjs⟩ := h.Js
  unfold CoexistingPhasesFinder.reinitialize_from_omegas Finder.reinitOmegas Finder.checkField
  rw [Act.bind_of (check_field_run hw omegas), hs.shape]
  by_cases hc : omegas.shape = [f.numFeat, f.numPart]
  · simp only [hc, ne_eq, not_true_eq_false, if_false]
    simp only [Act.read_bind, Act.write_bind, hj, hjs.shape]
    exact tail_same other
      { h with
        omegas := ⟨_, rfl, hc, fun _ _ => rfl⟩
        Js := ⟨_, rfl, rfl, fun _ => rfl⟩ }
  · simp only [hc, ne_eq, not_false_eq_true, if_true]
    exact ⟨h, rfl⟩

theorem unpack_potential (x : AnyInteraction) {S : ℕ} (h : S = x.1) (c : ℕ) (phis : NDArr ℝ) :
    ∃ ia, Finder.unpackInteraction x S = some ia ∧
      SameMat (NDArr.ofMat (x.2.potential (phis.toMat x.1 c))) (ia.potential (phis.toMat S c)) := by
  subst h
  exact ⟨x.2, dif_pos rfl, sameMat_ofMat _⟩

theorem reinitialize_from_phis_same (other : ℕ → PackedCons M → PackedCons M) {x : FinderExtra}
    {o : FinderObj G M} {f : Finder G} (h : SameFinder x o f) (phis : NDArr ℝ) :
    SameCall x (CoexistingPhasesFinder.reinitialize_from_phis other phis o) (f.reinitPhis phis) := by
  have hp := h.part
  subst hp
  obtain ⟨w, hw, hs⟩ := h.omegas
  obtain ⟨j, hj, hjs⟩ := h.Js
  unfold CoexistingPhasesFinder.reinitialize_from_phis Finder.reinitPhis Finder.checkField
  rw [Act.bind_of (check_field_run hw phis), hs.shape]
  by_cases hc : phis.shape = [f.numFeat, f.numPart]
  · simp only [hc, ne_eq, not_true_eq_false, if_false]
    simp only [Act.read_bind, Act.write_bind, Act.lift_bind, h.interaction, potentialND, hc]
    by_cases hi : f.numFeat = f.interaction.1
    · obtain ⟨ia, hu, hm⟩ := unpack_potential f.interaction hi f.numPart phis
      simp only [if_pos hi, hj, hjs.shape, hu]
      exact tail_same other
        { h with
          interaction := rfl
          omegas := ⟨_, rfl, hm⟩
          Js := ⟨_, rfl, rfl, fun _ => rfl⟩ }
    · rw [if_neg hi]
      have : Finder.unpackInteraction f.interaction f.numFeat = none := dif_neg fun e => hi e.symm
      rw [this]
      exact ⟨h, rfl⟩
  · simp only [hc, ne_eq, not_false_eq_true, if_true]
    exact ⟨h, rfl⟩

/-- The statements of `set_constraints` that compile (`flory/mcmp/finder.py:404-423`). -/
noncomputable def compilePart (constraints : ConsArg) (kwargs_individual : IndArg) (kwargs : Dict ℝ) :
    Act (FinderObj G M) Unit :=
  if constraints.truthy then do
    let _ : Unit ← (match constraints.asBase with
      | some value => do
        let kwargs_individual : IndArg := if kwargs_individual.isNone then IndArg.dict [] else kwargs_individual
        let t1 : List (PackedCons M) ← Act.read fun self => self._constraints
        let t2 : Dict ℝ ← Act.read fun self => self._kwargs_for_instances
        let t3 : Dict ℝ ← Act.lift kwargs_individual.mapping
        let t4 : AnyConsNew ← Act.lift (ConstraintBase.compiled value ((t2.merge kwargs).merge t3))
        Act.write fun self => { self with _constraints := some (t1 ++ [PackedCons.ofNew t4]) }
        pure ()
      | none => do
        let _ : Unit ← (match constraints.asIterable with
          | some value => do
            let kwargs_individual : IndArg := if kwargs_individual.isNone then IndArg.dicts (List.replicate value.length []) else kwargs_individual
            let t5 : List (Option (Dict ℝ)) ← Act.lift kwargs_individual.items
            Act.forEach (value.zip t5) fun pair => do
              let t6 : List (PackedCons M) ← Act.read fun self => self._constraints
              let t7 : Dict ℝ ← Act.read fun self => self._kwargs_for_instances
              let t8 : Dict ℝ ← Act.lift (itemMapping pair.2)
              let t9 : AnyConsNew ← Act.lift (ConstraintBase.compiled pair.1 ((t7.merge kwargs).merge t8))
              Act.write fun self => { self with _constraints := some (t6 ++ [PackedCons.ofNew t9]) }
              pure ()
            pure ()
          | none => do
            pure ())
        pure ())
    pure ()
  else do
    let t10 : List (PackedCons M) ← Act.read fun self => self._constraints
    let t11 : ℕ ← Act.read fun self => self._num_feat
    Act.write fun self => { self with _constraints := some (t10 ++ [PackedCons.ofNew ⟨t11, ConsNew.no⟩]) }
    pure ()

theorem compilePart_run {o : FinderObj G M} {base : Dict ℝ} {S : ℕ} (hk : o._kwargs_for_instances = some base)
    (hS : o._num_feat = some S) (cs : ConsArg) (ind : IndArg) (kw : Dict ℝ) :
    compilePart cs ind kw { o with _constraints := some [] } =
      ({ o with _constraints := some (newConstraints M S (base.merge kw) cs ind).1 },
        outcome (newConstraints M S (base.merge kw) cs ind).2) := by
  unfold compilePart
  cases cs with
  | none =>
    rw [if_neg (by simp [ConsArg.truthy])]
    simp only [newConstraints, Act.read_bind, Act.write_bind, hS, List.nil_append]
    rfl
  | other => rfl
  | single c =>
    rw [if_pos (show (ConsArg.single c).truthy = true from rfl)]
    dsimp only [ConsArg.asBase, newConstraints]
    cases ind with
    | none =>
      rw [if_pos (show IndArg.none.isNone = true from rfl)]
      simp only [IndArg.mapping, compileAll, Act.assoc, Act.pure_then, Act.read_bind, Act.lift_bind, hk,
        constraint_compiled]
      cases c.compiled ((base.merge kw).merge []) with
      | error e => rfl
      | ok y => rfl
    | dict d =>
      rw [if_neg (by simp [IndArg.isNone])]
      simp only [IndArg.mapping, compileAll, Act.assoc, Act.pure_then, Act.read_bind, Act.lift_bind, hk,
        constraint_compiled]
      cases c.compiled ((base.merge kw).merge d) with
      | error e => rfl
      | ok y => rfl
    | dicts ds =>
      rw [if_neg (by simp [IndArg.isNone])]
      simp only [IndArg.mapping, Act.assoc, Act.pure_then, Act.read_bind, Act.lift_bind, hk]
      rfl
  | many cs =>
    cases cs with
    | nil =>
      rw [if_neg (by simp [ConsArg.truthy])]
      simp only [newConstraints, Act.read_bind, Act.write_bind, hS, List.nil_append]
      rfl
    | cons c cs =>
      rw [if_pos (show (ConsArg.many (c :: cs)).truthy = true from rfl)]
      dsimp only [ConsArg.asBase, ConsArg.asIterable]
      have hb : ∀ (a : InstObj AnyConsNew × Dict ℝ) (l : List (PackedCons M)),
          (do
            let t6 : List (PackedCons M) ← Act.read fun self => self._constraints
            let t7 : Dict ℝ ← Act.read fun self => self._kwargs_for_instances
            let t8 : Dict ℝ ← Act.lift (itemMapping (some a.2))
            let t9 : AnyConsNew ← Act.lift (ConstraintBase.compiled a.1 ((t7.merge kw).merge t8))
            Act.write fun self => { self with _constraints := some (t6 ++ [PackedCons.ofNew t9]) }
            pure () : Act (FinderObj G M) Unit) { o with _constraints := some l } =
          match a.1.compiled ((base.merge kw).merge a.2) with
          | .error e => ({ o with _constraints := some l }, .error e)
          | .ok c => ({ o with _constraints := some (l ++ [PackedCons.ofNew c]) }, .ok ()) := by
        intro a l
        simp only [Act.read_bind, Act.lift_bind, Act.write_bind, hk, itemMapping, constraint_compiled]
        cases a.1.compiled ((base.merge kw).merge a.2) with
        | error e => rfl
        | ok y => rfl
      have hl : ∀ ds : List (Dict ℝ), (c :: cs).zip (ds.map some) = ((c :: cs).zip ds).map fun a => (a.1, some a.2) := by
        intro ds
        rw [List.zip_map_right]
        rfl
      have hq : ∀ ds : List (Dict ℝ), ((c :: cs).zip ds).map (fun a => (a.1, (base.merge kw).merge a.2)) =
          (c :: cs).zip (ds.map (base.merge kw).merge) := by
        intro ds
        rw [List.zip_map_right]
        rfl
      have hend : ∀ ds : List (Dict ℝ),
          (Act.forEach ((c :: cs).zip (ds.map some)) (fun pair => (do
            let t6 : List (PackedCons M) ← Act.read fun self => self._constraints
            let t7 : Dict ℝ ← Act.read fun self => self._kwargs_for_instances
            let t8 : Dict ℝ ← Act.lift (itemMapping pair.2)
            let t9 : AnyConsNew ← Act.lift (ConstraintBase.compiled pair.1 ((t7.merge kw).merge t8))
            Act.write fun self => { self with _constraints := some (t6 ++ [PackedCons.ofNew t9]) }
            pure () : Act (FinderObj G M) Unit))) { o with _constraints := some [] } =
          ({ o with _constraints := some (compileAll ((c :: cs).zip (ds.map (base.merge kw).merge))).1 },
            outcome (compileAll (M := M) ((c :: cs).zip (ds.map (base.merge kw).merge))).2) := by
        intro ds
        rw [hl, Act.forEach_map, ← hq]
        exact forEach_compile (fun a : InstObj AnyConsNew × Dict ℝ => (a.1, (base.merge kw).merge a.2)) _ o hb _ []
      cases ind with
      | none =>
        rw [if_pos (show IndArg.none.isNone = true from rfl)]
        simp only [IndArg.items, Act.assoc, Act.pure_then, Act.lift_bind]
        rw [Act.bind_of (hend _)]
        dsimp only [newConstraints]
        generalize compileAll (M := M) _ = res
        obtain ⟨l, e⟩ := res
        cases e <;> rfl
      | dict d =>
        rw [if_neg (by simp [IndArg.isNone])]
        simp only [IndArg.items, Act.assoc, Act.pure_then, Act.lift_bind]
        cases d with
        | nil => rfl
        | cons p d =>
          simp only [List.map_cons, List.zip_cons_cons, Act.forEach, Act.assoc, Act.read_bind, Act.lift_bind, hk,
            itemMapping]
          rfl
      | dicts ds =>
        rw [if_neg (by simp [IndArg.isNone])]
        simp only [IndArg.items, Act.assoc, Act.pure_then, Act.lift_bind]
        rw [Act.bind_of (hend _)]
        dsimp only [newConstraints]
        generalize compileAll (M := M) _ = res
        obtain ⟨l, e⟩ := res
        cases e <;> rfl

theorem set_constraints_same (other : ℕ → PackedCons M → PackedCons M) {x : FinderExtra} {o : FinderObj G M}
    {f : Finder G} (h : SameFinder x o f) (cs : ConsArg) (r : Bool) (ind : IndArg) (kw : Dict ℝ) :
    SameCall x (CoexistingPhasesFinder.set_constraints other cs r ind kw o) (f.setConstraints cs r ind kw) := by
  have hp := h.part
  subst hp
  have hset : ∀ l : List (PackedCons f.numPart),
      SameFinder x { o with _constraints := some l } { f with constraints := l } :=
    fun l => { h with constraints := rfl }
  unfold CoexistingPhasesFinder.set_constraints Finder.setConstraints
  rw [Act.write_bind]
  change SameCall x ((compilePart cs ind kw >>= fun _ => _) _) _
  rw [Act.bind_of (compilePart_run h.kwargs h.num_feat cs ind kw)]
  generalize newConstraints f.numPart f.numFeat (f.kwargs.merge kw) cs ind = new
  obtain ⟨l, e⟩ := new
  cases e with
  | some e => exact ⟨hset l, rfl⟩
  | none => exact finish_same other (hset l) r

/-- The statements of the constructor that compile the constraints (`flory/mcmp/finder.py:189-196`). -/
noncomputable def initPart (constraints : ConsArg) (kwargs : Dict ℝ) : Act (FinderObj G M) Unit :=
  if constraints.truthy then do
    let _ : Unit ← (match constraints.asBase with
      | some value => do
        let t12 : List (PackedCons M) ← Act.read fun self => self._constraints
        let t13 : AnyConsNew ← Act.lift (ConstraintBase.compiled value kwargs)
        Act.write fun self => { self with _constraints := some (t12 ++ [PackedCons.ofNew t13]) }
        pure ()
      | none => do
        let _ : Unit ← (match constraints.asIterable with
          | some value => do
            Act.forEach value fun cons => do
              let t14 : List (PackedCons M) ← Act.read fun self => self._constraints
              let t15 : AnyConsNew ← Act.lift (ConstraintBase.compiled cons kwargs)
              Act.write fun self => { self with _constraints := some (t14 ++ [PackedCons.ofNew t15]) }
              pure ()
            pure ()
          | none => do
            pure ())
        pure ())
    pure ()
  else do
    let t16 : List (PackedCons M) ← Act.read fun self => self._constraints
    let t17 : ℕ ← Act.read fun self => self._num_feat
    Act.write fun self => { self with _constraints := some (t16 ++ [PackedCons.ofNew ⟨t17, ConsNew.no⟩]) }
    pure ()

theorem initPart_run {o : FinderObj G M} {S : ℕ} (hS : o._num_feat = some S) (cs : ConsArg) (kw : Dict ℝ) :
    initPart cs kw { o with _constraints := some [] } =
      ({ o with _constraints := some (initConstraints M S kw cs).1 }, outcome (initConstraints M S kw cs).2) := by
  unfold initPart
  cases cs with
  | none =>
    rw [if_neg (by simp [ConsArg.truthy])]
    simp only [initConstraints, Act.read_bind, Act.write_bind, hS, List.nil_append]
    rfl
  | other => rfl
  | single c =>
    rw [if_pos (show (ConsArg.single c).truthy = true from rfl)]
    dsimp only [ConsArg.asBase, initConstraints]
    simp only [compileAll, Act.assoc, Act.pure_then, Act.read_bind, Act.lift_bind, constraint_compiled]
    cases c.compiled kw with
    | error e => rfl
    | ok y => rfl
  | many cs =>
    cases cs with
    | nil =>
      rw [if_neg (by simp [ConsArg.truthy])]
      simp only [initConstraints, Act.read_bind, Act.write_bind, hS, List.nil_append]
      rfl
    | cons c cs =>
      rw [if_pos (show (ConsArg.many (c :: cs)).truthy = true from rfl)]
      dsimp only [ConsArg.asBase, ConsArg.asIterable, initConstraints]
      simp only [Act.assoc, Act.pure_then]
      rw [Act.bind_of (forEach_compile (fun a : InstObj AnyConsNew => (a, kw)) _ o (fun a l => by
        simp only [Act.read_bind, Act.lift_bind, Act.write_bind, constraint_compiled]
        cases a.compiled kw with
        | error e => rfl
        | ok y => rfl) (c :: cs) [])]
      generalize compileAll (M := M) _ = res
      obtain ⟨l, e⟩ := res
      cases e <;> rfl

theorem numPart_run {o : FinderObj G M} {C : ℕ} (hC : o._num_comp = some C) (num_part : Option ℕ) :
    (if num_part.getD 0 ≠ 0 then pure (num_part.getD 0) else do
      let t10 : ℕ ← Act.read fun self => self._num_comp
      pure (t10 * 8) : Act (FinderObj G M) ℕ) o = (o, .ok (Finder.partNumber num_part C)) := by
  cases num_part with
  | none => simp [Finder.partNumber, Act.read_bind, hC, Act.pure_run]
  | some n =>
    by_cases h : n = 0
    · simp [Finder.partNumber, Act.read_bind, hC, Act.pure_run, h]
    · simp [Finder.partNumber, Act.pure_run, h]

/-- The statements of the constructor after the checks (`flory/mcmp/finder.py:204-236`). -/
noncomputable def initRest (gen : Rng G ℝ) (newGen : ℤ → G) (now : ℤ) (other : ℕ → PackedCons M → PackedCons M)
    (args : InitArgs G) (kwargs : Dict ℝ) : Act (FinderObj G M) Unit := do
  let _ : Unit ← (match args.rng with
    | none => do
      Act.write fun self => { self with _rng_is_external := some false }
      Act.write fun self => { self with _rng_seed := some now }
      let t22 : ℤ ← Act.read fun self => self._rng_seed
      Act.write fun self => { self with _rng := some (newGen t22) }
      pure ()
    | some rng => do
      Act.write fun self => { self with _rng_is_external := some true }
      Act.write fun self => { self with _rng_seed := some 0 }
      Act.write fun self => { self with _rng := some rng }
      pure ())
  Act.write fun self => { self with _max_steps := some args.max_steps }
  Act.write fun self => { self with _convergence_criterion := some args.convergence_criterion }
  Act.write fun self => { self with _tolerance := some args.tolerance }
  Act.write fun self => { self with _interval := some args.interval }
  Act.write fun self => { self with _progress := some args.progress }
  Act.write fun self => { self with _random_std := some args.random_std }
  Act.write fun self => { self with _acceptance_Js := some args.acceptance_Js }
  Act.write fun self => { self with _acceptance_omega := some args.acceptance_omega }
  Act.write fun self => { self with _Js_step_upper_bound := some args.Js_step_upper_bound }
  Act.write fun self => { self with _kill_threshold := some args.kill_threshold }
  Act.write fun self => { self with _revive_scaler := some args.revive_scaler }
  Act.write fun self => { self with _max_revive_per_compartment := some args.max_revive_per_compartment }
  Act.write fun self => { self with _diagnostics := some none }
  let t23 : ℕ ← Act.read fun self => self._num_part
  Act.write fun self => { self with _Js := some (NDArr.full [t23] 0) }
  let t24 : ℕ ← Act.read fun self => self._num_feat
  let t25 : ℕ ← Act.read fun self => self._num_part
  Act.write fun self => { self with _omegas := some (NDArr.full [t24, t25] 0) }
  let t26 : ℕ ← Act.read fun self => self._num_feat
  let t27 : ℕ ← Act.read fun self => self._num_part
  Act.write fun self => { self with _phis_feat := some (NDArr.full [t26, t27] 0) }
  let t28 : ℕ ← Act.read fun self => self._num_comp
  let t29 : ℕ ← Act.read fun self => self._num_part
  Act.write fun self => { self with _phis_comp := some (NDArr.full [t28, t29] 0) }
  let t30 : ℤ ← Act.read fun self => self._max_revive_per_compartment
  let t31 : ℕ ← Act.read fun self => self._num_part
  Act.write fun self => { self with _revive_count_left := some (t30 * (t31 : ℤ)) }
  Act.write fun self => { self with _kwargs_for_instances := some kwargs }
  CoexistingPhasesFinder.reinitialize_random gen other
  pure ()

/-- The checks of the constructor and what follows (`flory/mcmp/finder.py:198-236`). -/
noncomputable def initChecks (rest : Act (FinderObj G M) Unit) : Act (FinderObj G M) Unit := do
  let t18 : AnyInteraction ← Act.read fun self => self._interaction
  CoexistingPhasesFinder.check_instance (interactionAttrs t18)
  let t19 : AnyEntropy ← Act.read fun self => self._entropy
  CoexistingPhasesFinder.check_instance (entropyAttrs t19)
  let t20 : AnyEnsemble ← Act.read fun self => self._ensemble
  CoexistingPhasesFinder.check_instance (ensembleAttrs t20)
  let t21 : List (PackedCons M) ← Act.read fun self => self._constraints
  Act.forEach t21 fun cons => do
    CoexistingPhasesFinder.check_instance (constraintAttrs cons)
    pure ()
  rest

theorem initRest_same (env : FinderEnv G) (newGen : ℤ → G) (now : ℤ) (other : ℕ → PackedCons M → PackedCons M)
    (a : FinderArgs) (rng : Option G) (progress : Bool) {o : FinderObj G M} {ia : AnyInteraction} {en : AnyEntropy}
    {es : AnyEnsemble} {cs : List (PackedCons M)} (hi : o._interaction = some ia) (he : o._entropy = some en)
    (hs : o._ensemble = some es) (hC : o._num_comp = some en.numComp) (hS : o._num_feat = some en.numFeat)
    (hM : o._num_part = some M) (hc : o._constraints = some cs) :
    SameCall ⟨progress, rng.isSome, if rng.isSome then 0 else now⟩
      (initRest env.rng newGen now other (initArgs a rng progress) a.kwargs o)
      ((Finder.blank a ia en es M cs (rng.getD (newGen now))).reinitRandom env) := by
  have fin : ∀ {x : FinderExtra} {o : FinderObj G M} {f : Finder G}, SameFinder x o f →
      SameCall x ((do
        CoexistingPhasesFinder.reinitialize_random env.rng other
        pure () : Act (FinderObj G M) Unit) o) (f.reinitRandom env) := by
    intro x o f h
    have h1 := reinitialize_random_same env other h
    revert h1
    rw [Act.bind_run]
    generalize CoexistingPhasesFinder.reinitialize_random env.rng other o = r
    obtain ⟨o', x'⟩ := r
    cases x' with
    | error e => exact id
    | ok u => exact id
  unfold initRest
  dsimp only [initArgs]
  cases rng with
  | none =>
    simp only [Act.assoc, Act.pure_then, Act.read_bind, Act.write_bind, hC, hS, hM]
    exact fin ⟨rfl, rfl, hc, rfl, rfl, hi, he, hs, rfl, rfl, rfl, rfl, rfl, rfl, rfl, rfl, rfl, rfl, rfl, rfl, rfl, rfl,
      rfl, rfl, ⟨_, rfl, rfl, fun _ => rfl⟩, ⟨_, rfl, rfl, fun _ _ => rfl⟩, ⟨_, rfl, rfl, fun _ _ => rfl⟩,
      ⟨_, rfl, rfl, fun _ _ => rfl⟩, rfl, rfl⟩
  | some g =>
    simp only [Act.assoc, Act.pure_then, Act.read_bind, Act.write_bind, hC, hS, hM]
    exact fin ⟨rfl, rfl, hc, rfl, rfl, hi, he, hs, rfl, rfl, rfl, rfl, rfl, rfl, rfl, rfl, rfl, rfl, rfl, rfl, rfl, rfl,
      rfl, rfl, ⟨_, rfl, rfl, fun _ => rfl⟩, ⟨_, rfl, rfl, fun _ _ => rfl⟩, ⟨_, rfl, rfl, fun _ _ => rfl⟩,
      ⟨_, rfl, rfl, fun _ _ => rfl⟩, rfl, rfl⟩

theorem initChecks_run (rest : Act (FinderObj G M) Unit) {o : FinderObj G M} {ia : AnyInteraction} {en : AnyEntropy}
    {es : AnyEnsemble} {cs : List (PackedCons M)} (hi : o._interaction = some ia) (he : o._entropy = some en)
    (hs : o._ensemble = some es) (hC : o._num_comp = some en.numComp) (hS : o._num_feat = some en.numFeat)
    (hc : o._constraints = some cs) :
    initChecks rest o = (do
      Act.lift (Finder.checkSizes en.numComp en.numFeat none (some ia.1))
      Act.lift (Finder.checkSizes en.numComp en.numFeat (some en.numComp) (some en.numFeat))
      Act.lift (Finder.checkSizes en.numComp en.numFeat (some es.1) none)
      Act.lift (Finder.checkAll en.numComp en.numFeat cs)
      rest : Act (FinderObj G M) Unit) o := by
  unfold initChecks
  rw [Act.read_bind, hi]
  dsimp only
  rw [Act.bind_of (check_instance_run hC hS (interactionAttrs ia)), Act.lift_bind]
  have e1 : Finder.checkSizes en.numComp en.numFeat (interactionAttrs ia).num_comp (interactionAttrs ia).num_feat =
    Finder.checkSizes en.numComp en.numFeat none (some ia.1) := rfl
  rw [e1]
  cases Finder.checkSizes en.numComp en.numFeat none (some ia.1) with
  | error e => rfl
  | ok u =>
    dsimp only
    rw [Act.read_bind, he]
    dsimp only
    rw [Act.bind_of (check_instance_run hC hS (entropyAttrs en)), Act.lift_bind]
    have e2 : Finder.checkSizes en.numComp en.numFeat (entropyAttrs en).num_comp (entropyAttrs en).num_feat =
      Finder.checkSizes en.numComp en.numFeat (some en.numComp) (some en.numFeat) := rfl
    rw [e2]
    cases Finder.checkSizes en.numComp en.numFeat (some en.numComp) (some en.numFeat) with
    | error e => rfl
    | ok u =>
      dsimp only
      rw [Act.read_bind, hs]
      dsimp only
      rw [Act.bind_of (check_instance_run hC hS (ensembleAttrs es)), Act.lift_bind]
      have e3 : Finder.checkSizes en.numComp en.numFeat (ensembleAttrs es).num_comp (ensembleAttrs es).num_feat =
        Finder.checkSizes en.numComp en.numFeat (some es.1) none := rfl
      rw [e3]
      cases Finder.checkSizes en.numComp en.numFeat (some es.1) none with
      | error e => rfl
      | ok u =>
        dsimp only
        rw [Act.read_bind, hc]
        dsimp only
        rw [Act.bind_of (forEach_check hC hS cs), Act.lift_bind]

/-- The constructor in four parts. -/
theorem init_parts (gen : Rng G ℝ) (newGen : ℤ → G) (now : ℤ) (other : ℕ → PackedCons M → PackedCons M)
    (i : InstObj AnyInteraction) (e : InstObj AnyEntropy) (s : InstObj AnyEnsemble) (cs : ConsArg)
    (args : InitArgs G) (kwargs : Dict ℝ) {ia : AnyInteraction} {en : AnyEntropy} {es : AnyEnsemble}
    (hi : i.compiled kwargs = .ok ia) (he : e.compiled kwargs = .ok en) (hs : s.compiled kwargs = .ok es) :
    CoexistingPhasesFinder.init gen newGen now other i e s cs args kwargs ({} : FinderObj G M) =
      (initPart cs kwargs >>= fun _ => initChecks (initRest gen newGen now other args kwargs))
        { ({} : FinderObj G M) with
          _interaction := some ia
          _entropy := some en
          _ensemble := some es
          _num_comp := some en.numComp
          _num_feat := some en.numFeat
          _num_part := some (Finder.partNumber args.num_part en.numComp)
          _constraints := some [] } := by
  unfold CoexistingPhasesFinder.init
  dsimp only
  rw [Act.lift_bind, interaction_compiled, hi]
  dsimp only
  rw [Act.write_bind, Act.lift_bind, entropy_compiled, he]
  dsimp only
  rw [Act.write_bind, Act.lift_bind, ensemble_compiled, hs]
  dsimp only
  rw [Act.write_bind, Act.read_bind]
  dsimp only
  rw [Act.read_bind]
  dsimp only [entropyAttrs]
  rw [Act.write_bind, Act.read_bind]
  dsimp only
  rw [Act.read_bind]
  dsimp only [entropyAttrs]
  rw [Act.write_bind]
  refine (Act.bind_of (numPart_run (C := en.numComp) ?_ args.num_part)).trans ?_
  · rfl
  · dsimp only
    rw [Act.write_bind, Act.write_bind]
    rfl

theorem init_same (env : FinderEnv G) (newGen : ℤ → G) (now : ℤ) (other : ℕ → PackedCons M → PackedCons M)
    (i : InstObj AnyInteraction) (e : InstObj AnyEntropy) (s : InstObj AnyEnsemble) (cs : ConsArg) (a : FinderArgs)
    (rng : Option G) (progress : Bool)
    (hM : ∀ en, e.compiled a.kwargs = .ok en → Finder.partNumber a.numPart en.numComp = M) :
    match Finder.create env (rng.getD (newGen now)) i e s cs a with
    | .error err =>
      (CoexistingPhasesFinder.init env.rng newGen now other i e s cs (initArgs a rng progress) a.kwargs
        ({} : FinderObj G M)).2 = .error err
    | .ok f =>
      SameCall ⟨progress, rng.isSome, if rng.isSome then 0 else now⟩
        (CoexistingPhasesFinder.init env.rng newGen now other i e s cs (initArgs a rng progress) a.kwargs
          ({} : FinderObj G M)) (f, .ok ()) := by
  cases hi : i.compiled a.kwargs with
  | error err =>
    unfold CoexistingPhasesFinder.init Finder.create
    dsimp only
    rw [Act.lift_bind, interaction_compiled, hi]
    rfl
  | ok ia =>
    cases he : e.compiled a.kwargs with
    | error err =>
      unfold CoexistingPhasesFinder.init Finder.create
      dsimp only
      rw [Act.lift_bind, interaction_compiled, hi]
      dsimp only
      rw [Act.write_bind, Act.lift_bind, entropy_compiled, he]
      rfl
    | ok en =>
      cases hs : s.compiled a.kwargs with
      | error err =>
        unfold CoexistingPhasesFinder.init Finder.create
        dsimp only
        rw [Act.lift_bind, interaction_compiled, hi]
        dsimp only
        rw [Act.write_bind, Act.lift_bind, entropy_compiled, he]
        dsimp only
        rw [Act.write_bind, Act.lift_bind, ensemble_compiled, hs]
        rfl
      | ok es =>
        have hM := hM en he
        subst hM
        rw [init_parts env.rng newGen now other i e s cs (initArgs a rng progress) a.kwargs hi he hs]
        have h1 := initPart_run (o := { ({} : FinderObj G (Finder.partNumber a.numPart en.numComp)) with
          _interaction := some ia
          _entropy := some en
          _ensemble := some es
          _num_comp := some en.numComp
          _num_feat := some en.numFeat
          _num_part := some (Finder.partNumber a.numPart en.numComp) }) (S := en.numFeat) rfl cs a.kwargs
        rw [show (initArgs a rng progress).num_part = a.numPart from rfl, Act.bind_of h1]
        unfold Finder.create
        rw [hi, he, hs]
        dsimp only [bind, Except.bind]
        generalize initConstraints (Finder.partNumber a.numPart en.numComp) en.numFeat a.kwargs cs = res
        obtain ⟨l, er⟩ := res
        cases er with
        | some err => rfl
        | none =>
          dsimp only [outcome]
          rw [initChecks_run (ia := ia) (en := en) (es := es) (cs := l) _ rfl rfl rfl rfl rfl rfl]
          rw [Act.lift_bind]
          cases Finder.checkSizes en.numComp en.numFeat none (some ia.1) with
          | error err => rfl
          | ok u =>
            dsimp only
            rw [Act.lift_bind]
            cases Finder.checkSizes en.numComp en.numFeat (some en.numComp) (some en.numFeat) with
            | error err => rfl
            | ok u =>
              dsimp only
              rw [Act.lift_bind]
              cases Finder.checkSizes en.numComp en.numFeat (some es.1) none with
              | error err => rfl
              | ok u =>
                dsimp only
                rw [Act.lift_bind]
                cases Finder.checkAll en.numComp en.numFeat l with
                | error err => rfl
                | ok u =>
                  dsimp only
                  have h2 := initRest_same env newGen now other a rng progress
                    (o := { ({} : FinderObj G (Finder.partNumber a.numPart en.numComp)) with
                      _interaction := some ia
                      _entropy := some en
                      _ensemble := some es
                      _num_comp := some en.numComp
                      _num_feat := some en.numFeat
                      _num_part := some (Finder.partNumber a.numPart en.numComp)
                      _constraints := some l }) (ia := ia) (en := en) (es := es) (cs := l)
                    rfl rfl rfl rfl rfl rfl rfl
                  revert h2
                  generalize Finder.reinitRandom env _ = q
                  obtain ⟨f, x⟩ := q
                  cases x with
                  | error err => exact fun h => h.2
                  | ok u => exact fun h => h

end Methods

end Flory
