import Verif.Lemmas.Finder
import Verif.Lemmas.Fresh

/-! # Lemmas about histories of finder calls -/

set_option linter.unusedSectionVars false

namespace Flory

open Spec

variable {G : Type}

/-! ### Runs with arbitrary arguments keep a compartment alive -/

section Keeps

variable {C S M : ℕ} [NeZero M] {e : RunEnv C S M ℝ G} {sizes : Vec C ℝ} {feat : Fin C → Fin S}

theorem stepsInner_ne_zero {maxSteps : ℚ} {tracker : ℤ} {inner : ℕ}
    (h : stepsInner maxSteps tracker = .ok inner) : inner ≠ 0 := by
  unfold stepsInner at h
  split at h
  · simp at h
  · simp only [Except.ok.injEq] at h
    rw [← h]
    have := le_max_left 1 (Int.fdiv ⌈maxSteps⌉ tracker)
    omega

theorem runLoop_keeps (hok : e.rng.Ok) (hen : IsIdealGas e.en sizes feat) (hes : e.es.Total)
    (hthr : 0 ≤ e.params.killThreshold) (hthr1 : e.params.killThreshold < 1)
    (hb : 0 < e.params.JsStepUpperBound) {tol : ℝ} {inner : ℕ}
    (hinner : inner ≠ 0) (n : ℕ) (s : RunState C S M ℝ G) (hcons : ∀ c ∈ s.st.cons, c.Proper)
    (halive : ∃ m, e.params.killThreshold < s.st.Js m) :
    (∀ c ∈ (runLoop e tol inner n s).1.st.cons, c.Proper) ∧
    ∃ m, e.params.killThreshold < (runLoop e tol inner n s).1.st.Js m := by
  induction n generalizing s with
  | zero => exact ⟨hcons, halive⟩
  | succ n ih =>
    obtain ⟨r, hr, h1, m, hm⟩ := metastep_ok (ia := e.ia) (tries := s.reviveLeft) hok hen hes hthr
      hthr1 hb hinner hcons (Or.inl halive)
    simp only [runLoop, hr]
    split
    · split
      · exact ⟨h1, m, hm⟩
      · exact ih _ h1 ⟨m, hm⟩
    · exact ⟨h1, m, hm⟩

/-- Whatever the arguments of `run` and whether it raises or not. -/
theorem run_keeps (hok : e.rng.Ok) (hen : IsIdealGas e.en sizes feat) (hes : e.es.Total)
    (hthr : 0 ≤ e.params.killThreshold) (hthr1 : e.params.killThreshold < 1)
    (hb : 0 < e.params.JsStepUpperBound) (tol : ℝ) (maxSteps : ℚ) (interval : ℤ)
    (st : State C S M ℝ G) (b : ℤ) (hcons : ∀ c ∈ st.cons, c.Proper)
    (halive : ∃ m, e.params.killThreshold < st.Js m) :
    (∀ c ∈ (runImpl e maxSteps tol interval st b).1.st.cons, c.Proper) ∧
    ∃ m, e.params.killThreshold < (runImpl e maxSteps tol interval st b).1.st.Js m := by
  unfold runImpl
  simp only
  cases stepsTracker maxSteps interval with
  | error err => exact ⟨hcons, halive⟩
  | ok tracker =>
    simp only
    cases hin : stepsInner maxSteps tracker with
    | error err => exact ⟨hcons, halive⟩
    | ok inner =>
      simp only
      have := runLoop_keeps hok hen hes hthr hthr1 hb (tol := tol) (stepsInner_ne_zero hin)
        tracker.toNat ⟨st, b, 0, none⟩ hcons halive
      rcases hl : runLoop e tol inner tracker.toNat ⟨st, b, 0, none⟩ with ⟨s2, r2⟩
      rw [hl] at this
      cases r2 with
      | error err => exact this
      | ok u =>
        simp only
        unfold runFinal
        cases reviveByCopy e.rng s2.st.Js s2.st.phisComp e.params.killThreshold s2.st.g with
        | error err => exact this
        | ok c =>
          simp only
          cases s2.last with
          | none => exact this
          | some r => exact this

end Keeps

/-! ### Compiled instances as ideal gases and ensembles -/

theorem EntropyInst.isIdealGas {C S : ℕ} (en : EntropyInst C S) (h1 : Sized en) (h2 : NoEmptyFeature en)
    (M : ℕ) : ∃ sizes feat, IsIdealGas (en.toI M) sizes feat := by
  cases en with
  | ideal e => exact ⟨_, _, e.isIdealGas⟩
  | poly e =>
    obtain ⟨feat, hf⟩ := exists_isFeat e.perFeat h1
    exact ⟨_, _, e.isIdealGas h1 hf h2⟩

theorem EnsembleInst.total {C : ℕ} (es : EnsembleInst C) (M : ℕ) [NeZero M] : (es.toI M).Total := by
  cases es with
  | canonical e => exact e.total
  | grand e => exact e.total

/-! ### Finders that differ only in the data a run changes -/

theorem Spec.Akin.refl (f : Finder G) : Akin f f := ⟨_, _, _, _, _, _, _, _, rfl, rfl⟩

theorem Spec.Akin.trans {f f' f'' : Finder G} (h : Akin f f') (h' : Akin f' f'') : Akin f f'' := by
  obtain ⟨cs, w, J, pf, pc, rl, g, d, rfl, h⟩ := h
  obtain ⟨cs', w', J', pf', pc', rl', g', d', rfl, h'⟩ := h'
  exact ⟨_, _, _, _, _, _, _, _, rfl, h'.trans h⟩

theorem Spec.Akin.symm {f f' : Finder G} (h : Akin f f') : Akin f' f := by
  obtain ⟨cs, w, J, pf, pc, rl, g, d, rfl, h⟩ := h
  exact ⟨_, _, _, _, _, _, _, _, rfl, h.symm⟩

theorem Spec.Akin.enforced {f f' : Finder G} (h : Akin f f') : enforced f' = enforced f := by
  obtain ⟨cs, w, J, pf, pc, rl, g, d, rfl, h⟩ := h
  exact h

theorem enforces_reset {M : ℕ} (c : PackedCons M) :
    PackedCons.enforces c.reset = PackedCons.enforces c := by
  obtain ⟨n, r, x⟩ := c
  simp only [PackedCons.enforces, PackedCons.reset, consParams_reset]

theorem enforces_map_reset {M : ℕ} (cs : List (PackedCons M)) :
    (cs.map PackedCons.reset).map PackedCons.enforces = cs.map PackedCons.enforces := by
  rw [List.map_map]
  exact List.map_congr_left fun c _ => enforces_reset c

theorem akin_store {f : Finder G} {p : Finder.Parts f.numComp f.numFeat f.numPart}
    (hp : f.parts = some p) (rs : RunState f.numComp f.numFeat f.numPart ℝ G)
    (h : rs.st.cons.map consParams = p.cons.map consParams) : Akin f (f.store rs) := by
  refine ⟨rs.st.cons.map fun c => ⟨f.numFeat, true, c⟩, _, _, _, _, _, _, _, rfl, ?_⟩
  obtain ⟨-, -, -, h4⟩ := parts_eq.mp hp
  rw [h4, List.map_map, List.map_map]
  have := congrArg (List.map (Sigma.mk f.numFeat)) h
  rw [List.map_map, List.map_map] at this
  exact this

theorem akin_run {env : FinderEnv G} (hc : CrashKeeps env) (f : Finder G) (ms : Option ℚ)
    (tol : Option ℝ) (int : Option ℤ) : Akin f (f.run env ms tol int).1 := by
  unfold Finder.run
  split
  · exact ⟨_, _, _, _, _, _, _, _, rfl, rfl⟩
  · rename_i p hp
    split
    · exact .refl f
    · rename_i h
      have : NeZero f.numPart := ⟨h⟩
      have key : Akin f (f.store (runImpl (f.runEnv env p) (ms.getD f.maxSteps) (tol.getD f.tolerance)
          (int.getD f.interval) (f.state p.cons) f.reviveLeft).1) :=
        akin_store hp _ (run_consParams (fun st => hc _ _ _ st) _ _ _ _ _)
      dsimp only
      split
      · exact key
      · exact key.trans ⟨_, _, _, _, _, _, _, _, rfl, rfl⟩

theorem akin_step {env : FinderEnv G} (hc : CrashKeeps env) (f : Finder G) {op : FinderOp}
    (hop : ¬ IsSet op) : Akin f (f.step env op).1 := by
  cases op with
  | setInteraction o reset kw => exact absurd trivial hop
  | setEntropy o reset kw => exact absurd trivial hop
  | setEnsemble o reset kw => exact absurd trivial hop
  | setConstraints c reset ind kw => exact absurd trivial hop
  | resetRevive => exact ⟨_, _, _, _, _, _, _, _, rfl, rfl⟩
  | reinitConstraint => exact ⟨_, _, _, _, _, _, _, _, rfl, enforces_map_reset _⟩
  | reinitRandom =>
    simp only [Finder.step, Finder.reinitRandom]
    split
    · exact .refl f
    · exact ⟨_, _, _, _, _, _, _, _, rfl, enforces_map_reset _⟩
  | reinitOmegas w =>
    simp only [Finder.step, Finder.reinitOmegas]
    split
    · exact .refl f
    · exact ⟨_, _, _, _, _, _, _, _, rfl, enforces_map_reset _⟩
  | reinitPhis p =>
    simp only [Finder.step, Finder.reinitPhis]
    split
    · exact .refl f
    · split
      · exact .refl f
      · exact ⟨_, _, _, _, _, _, _, _, rfl, enforces_map_reset _⟩
  | run ms tol int => exact akin_run hc f ms tol int

theorem akin_steps {env : FinderEnv G} (hc : CrashKeeps env) (f : Finder G) {ops : List FinderOp}
    (hop : ∀ op ∈ ops, ¬ IsSet op) : Akin f (Finder.steps env ops f).1 :=
  steps_inv env (Akin f) (fun op => ¬ IsSet op) (fun f' _ h hq => h.trans (akin_step hc f' hq)) ops f
    (.refl f) hop

/-! ### Initialized constraints -/

theorem unpack_reset {M S : ℕ} {cs cs' : List (PackedCons M)}
    (h : cs.map PackedCons.enforces = cs'.map PackedCons.enforces) :
    ((cs.map PackedCons.reset).mapM (fun c => Finder.unpackCons c S) = none ∧
      (cs'.map PackedCons.reset).mapM (fun c => Finder.unpackCons c S) = none) ∨
    ∃ l l', (cs.map PackedCons.reset).mapM (fun c => Finder.unpackCons c S) = some l ∧
      (cs'.map PackedCons.reset).mapM (fun c => Finder.unpackCons c S) = some l' ∧
      ∀ pf J mk, l.map (Cons.prepare pf J mk) = l'.map (Cons.prepare pf J mk) := by
  induction cs generalizing cs' with
  | nil =>
    cases cs' with
    | nil => right; exact ⟨[], [], rfl, rfl, fun _ _ _ => rfl⟩
    | cons c' cs' => simp at h
  | cons c cs ih =>
    cases cs' with
    | nil => simp at h
    | cons c' cs' =>
      simp only [List.map_cons, List.cons.injEq] at h
      obtain ⟨h1, h2⟩ := h
      obtain ⟨n, r, x⟩ := c
      obtain ⟨n', r', x'⟩ := c'
      simp only [PackedCons.enforces, Sigma.mk.injEq] at h1
      obtain ⟨rfl, h1⟩ := h1
      have h1 := eq_of_heq h1
      have hx : ∀ y : Cons n M ℝ, Finder.unpackCons (PackedCons.reset ⟨n, r, y⟩) S =
          if h : n = S then some (h ▸ y.reset) else none := by
        intro y
        by_cases hn : n = S
        · subst hn; simp [Finder.unpackCons, PackedCons.reset]
        · simp [Finder.unpackCons, PackedCons.reset, hn]
      have hx' : ∀ y : Cons n M ℝ, Finder.unpackCons (PackedCons.reset ⟨n, r', y⟩) S =
          if h : n = S then some (h ▸ y.reset) else none := by
        intro y
        by_cases hn : n = S
        · subst hn; simp [Finder.unpackCons, PackedCons.reset]
        · simp [Finder.unpackCons, PackedCons.reset, hn]
      simp only [List.map_cons, List.mapM_cons, hx, hx', Option.pure_def, Option.bind_eq_bind]
      by_cases hn : n = S
      · subst hn
        simp only [dite_true, Option.bind_some]
        rcases ih h2 with ⟨e1, e2⟩ | ⟨l, l', e1, e2, e3⟩
        · left; rw [e1, e2]; exact ⟨rfl, rfl⟩
        · right
          rw [e1, e2]
          exact ⟨_, _, rfl, rfl, fun pf J mk => by
            simp only [List.map_cons, e3, prepare_reset h1]⟩
      · left
        simp [hn]

/-! ### Runs of reinitialized finders -/

section Reinit

variable {f : Finder G} {cs cs' : List (PackedCons f.numPart)}

/-- The finder `f` with given initialized constraints and arbitrary data that a run overwrites. -/
noncomputable def Finder.rebuilt (f : Finder G) (cs : List (PackedCons f.numPart)) (pf : Mat f.numFeat f.numPart ℝ)
    (pc : Mat f.numComp f.numPart ℝ) (d : Option (Diagnostics ℝ)) : Finder G :=
  { f with constraints := cs.map PackedCons.reset, phisFeat := pf, phisComp := pc, diagnostics := d }

theorem parts_rebuilt (h : cs.map PackedCons.enforces = cs'.map PackedCons.enforces)
    {pf pf' : Mat f.numFeat f.numPart ℝ} {pc pc' : Mat f.numComp f.numPart ℝ}
    {d d' : Option (Diagnostics ℝ)} :
    ((f.rebuilt cs pf pc d).parts = none ∧ (f.rebuilt cs' pf' pc' d').parts = none) ∨
    ∃ ia en es l l', (f.rebuilt cs pf pc d).parts = some ⟨ia, en, es, l⟩ ∧
      (f.rebuilt cs' pf' pc' d').parts = some ⟨ia, en, es, l'⟩ ∧
      f.entropy = ⟨_, _, en⟩ ∧
      ∀ pf J mk, l.map (Cons.prepare pf J mk) = l'.map (Cons.prepare pf J mk) := by
  show ((do
      let ia ← Finder.unpackInteraction f.interaction f.numFeat
      let en ← Finder.unpackEntropy f.entropy f.numComp f.numFeat
      let es ← Finder.unpackEnsemble f.ensemble f.numComp
      let cons ← (cs.map PackedCons.reset).mapM fun c => Finder.unpackCons c f.numFeat
      return (⟨ia, en, es, cons⟩ : Finder.Parts f.numComp f.numFeat f.numPart)) = none ∧
    (do
      let ia ← Finder.unpackInteraction f.interaction f.numFeat
      let en ← Finder.unpackEntropy f.entropy f.numComp f.numFeat
      let es ← Finder.unpackEnsemble f.ensemble f.numComp
      let cons ← (cs'.map PackedCons.reset).mapM fun c => Finder.unpackCons c f.numFeat
      return (⟨ia, en, es, cons⟩ : Finder.Parts f.numComp f.numFeat f.numPart)) = none) ∨
    ∃ ia en es l l', (do
      let ia ← Finder.unpackInteraction f.interaction f.numFeat
      let en ← Finder.unpackEntropy f.entropy f.numComp f.numFeat
      let es ← Finder.unpackEnsemble f.ensemble f.numComp
      let cons ← (cs.map PackedCons.reset).mapM fun c => Finder.unpackCons c f.numFeat
      return (⟨ia, en, es, cons⟩ : Finder.Parts f.numComp f.numFeat f.numPart)) = some ⟨ia, en, es, l⟩ ∧
      (do
      let ia ← Finder.unpackInteraction f.interaction f.numFeat
      let en ← Finder.unpackEntropy f.entropy f.numComp f.numFeat
      let es ← Finder.unpackEnsemble f.ensemble f.numComp
      let cons ← (cs'.map PackedCons.reset).mapM fun c => Finder.unpackCons c f.numFeat
      return (⟨ia, en, es, cons⟩ : Finder.Parts f.numComp f.numFeat f.numPart)) = some ⟨ia, en, es, l'⟩ ∧
      f.entropy = ⟨_, _, en⟩ ∧
      ∀ pf J mk, l.map (Cons.prepare pf J mk) = l'.map (Cons.prepare pf J mk)
  cases Finder.unpackInteraction f.interaction f.numFeat with
  | none => left; exact ⟨rfl, rfl⟩
  | some ia =>
    cases hen : Finder.unpackEntropy f.entropy f.numComp f.numFeat with
    | none => left; exact ⟨rfl, rfl⟩
    | some en =>
      cases Finder.unpackEnsemble f.ensemble f.numComp with
      | none => left; exact ⟨rfl, rfl⟩
      | some es =>
        rcases unpack_reset (S := f.numFeat) h with ⟨h1, h2⟩ | ⟨l, l', h1, h2, h3⟩
        · left; rw [h1, h2]; exact ⟨rfl, rfl⟩
        · right
          rw [h1, h2]
          exact ⟨ia, en, es, l, l', rfl, rfl, unpackEntropy_eq.mp hen, h3⟩

theorem run_rebuilt {env : FinderEnv G} (h : cs.map PackedCons.enforces = cs'.map PackedCons.enforces)
    (hen : Sized f.entropy.inst)
    {pf pf' : Mat f.numFeat f.numPart ℝ} {pc pc' : Mat f.numComp f.numPart ℝ}
    {d d' : Option (Diagnostics ℝ)} {ms : Option ℚ} {tol : Option ℝ} {int : Option ℤ}
    (h1 : 0 < ms.getD f.maxSteps) (h2 : 0 < int.getD f.interval) :
    ((f.rebuilt cs pf pc d).run env ms tol int).2 = ((f.rebuilt cs' pf' pc' d').run env ms tol int).2 ∧
    ∀ out, ((f.rebuilt cs pf pc d).run env ms tol int).2 = .ok out →
      (f.rebuilt cs pf pc d).run env ms tol int = (f.rebuilt cs' pf' pc' d').run env ms tol int := by
  rcases parts_rebuilt (pf := pf) (pf' := pf') (pc := pc) (pc' := pc') (d := d) (d' := d') h with
    ⟨e1, e2⟩ | ⟨ia, en, es, l, l', e1, e2, e3, e4⟩
  · rw [run_none e1, run_none e2]
    exact ⟨rfl, fun out ho => by simp at ho⟩
  · by_cases hM : f.numPart = 0
    · rw [run_zero e1 hM, run_zero e2 hM]
      exact ⟨rfl, fun out ho => by simp at ho⟩
    · have : NeZero f.numPart := ⟨hM⟩
      have : NeZero (f.rebuilt cs pf pc d).numPart := ⟨hM⟩
      have : NeZero (f.rebuilt cs' pf' pc' d').numPart := ⟨hM⟩
      have hsz : Sized en := by rw [e3] at hen; exact hen
      let e : RunEnv f.numComp f.numFeat f.numPart ℝ G := f.runEnv env ⟨ia, en, es, l⟩
      let s : State f.numComp f.numFeat f.numPart ℝ G := ⟨f.omegas, f.Js, pc, pf, l, f.g⟩
      let s' : State f.numComp f.numFeat f.numPart ℝ G := ⟨f.omegas, f.Js, pc', pf', l', f.g⟩
      obtain ⟨k1, k2⟩ := run_sameStart (e := e) (maxSteps := ms.getD f.maxSteps)
        (tol := tol.getD f.tolerance) (interval := int.getD f.interval) (s := s) (s' := s')
        (b := f.reviveLeft) (en.fresh hsz _) ⟨rfl, rfl, rfl, e4⟩ h1 h2
      have r1 : (f.rebuilt cs pf pc d).run env ms tol int = (f.rebuilt cs pf pc d).finish
          (runImpl e (ms.getD f.maxSteps) (tol.getD f.tolerance) (int.getD f.interval) s f.reviveLeft) :=
        run_some e1 _ _ _
      have r2 : (f.rebuilt cs' pf' pc' d').run env ms tol int = (f.rebuilt cs' pf' pc' d').finish
          (runImpl e (ms.getD f.maxSteps) (tol.getD f.tolerance) (int.getD f.interval) s' f.reviveLeft) :=
        run_some e2 _ _ _
      rcases hr : runImpl e (ms.getD f.maxSteps) (tol.getD f.tolerance) (int.getD f.interval) s
        f.reviveLeft with ⟨t, r⟩
      rcases hr' : runImpl e (ms.getD f.maxSteps) (tol.getD f.tolerance) (int.getD f.interval) s'
        f.reviveLeft with ⟨t', r'⟩
      have r1 := r1.trans (congrArg (Finder.finish (f.rebuilt cs pf pc d)) hr)
      have r2 := r2.trans (congrArg (Finder.finish (f.rebuilt cs' pf' pc' d')) hr')
      rw [hr] at k1 k2
      rw [hr'] at k1 k2
      simp only at k1 k2
      subst k1
      rw [r1, r2]
      cases r with
      | error e => exact ⟨rfl, fun out ho => by simp [Finder.finish] at ho⟩
      | ok x =>
        have := k2 x rfl
        simp only [Prod.mk.injEq, and_true] at this
        subst this
        exact ⟨rfl, fun _ _ => rfl⟩

end Reinit

end Flory
