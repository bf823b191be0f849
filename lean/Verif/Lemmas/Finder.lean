import Verif.Spec.Finder
import Verif.Lemmas.Result

/-! # Lemmas about finders -/

set_option linter.unusedSectionVars false

namespace Flory

open Spec

variable {G : Type}

/-! ### Packing -/

theorem unpackInteraction_eq {x : AnyInteraction} {S : ℕ} {y : FHCompiled S ℝ} :
    Finder.unpackInteraction x S = some y ↔ x = ⟨S, y⟩ := by
  obtain ⟨n, x⟩ := x
  unfold Finder.unpackInteraction
  by_cases h : n = S
  · subst h; simp
  · simp [h]

theorem unpackEntropy_eq {x : AnyEntropy} {C S : ℕ} {y : EntropyInst C S} :
    Finder.unpackEntropy x C S = some y ↔ x = ⟨C, S, y⟩ := by
  obtain ⟨n, k, x⟩ := x
  unfold Finder.unpackEntropy
  by_cases h : n = C ∧ k = S
  · obtain ⟨rfl, rfl⟩ := h; simp
  · simp only [h, dite_false]
    constructor
    · simp
    · intro he
      simp only [AnyEntropy.mk.injEq] at he
      exact absurd ⟨he.1, he.2.1⟩ h

theorem unpackEnsemble_eq {x : AnyEnsemble} {C : ℕ} {y : EnsembleInst C} :
    Finder.unpackEnsemble x C = some y ↔ x = ⟨C, y⟩ := by
  obtain ⟨n, x⟩ := x
  unfold Finder.unpackEnsemble
  by_cases h : n = C
  · subst h; simp
  · simp [h]

theorem unpackCons_eq {M S : ℕ} {x : PackedCons M} {y : Cons S M ℝ} :
    Finder.unpackCons x S = some y ↔ x = ⟨S, true, y⟩ := by
  obtain ⟨n, r, x⟩ := x
  unfold Finder.unpackCons
  by_cases h : n = S ∧ r = true
  · obtain ⟨rfl, rfl⟩ := h; simp
  · simp only [h, dite_false]
    constructor
    · simp
    · intro he
      simp only [PackedCons.mk.injEq] at he
      exact absurd ⟨he.1, he.2.1⟩ h

theorem mapM_unpackCons {M S : ℕ} {cs : List (PackedCons M)} {l : List (Cons S M ℝ)} :
    (cs.mapM fun c => Finder.unpackCons c S) = some l ↔ cs = l.map fun c => ⟨S, true, c⟩ := by
  induction cs generalizing l with
  | nil =>
    simp only [List.mapM_nil, Option.pure_def, Option.some.injEq]
    constructor
    · rintro rfl; rfl
    · intro h; exact (List.map_eq_nil_iff.mp h.symm).symm
  | cons c cs ih =>
    simp only [List.mapM_cons, Option.pure_def, Option.bind_eq_bind, Option.bind_eq_some_iff,
      Option.some.injEq, unpackCons_eq]
    constructor
    · rintro ⟨y, rfl, l', hl', rfl⟩
      rw [ih.mp hl']; rfl
    · intro h
      cases l with
      | nil => simp at h
      | cons y l' =>
        simp only [List.map_cons, List.cons.injEq] at h
        exact ⟨y, h.1, l', ih.mpr h.2, rfl⟩

theorem parts_eq {f : Finder G} {p : Finder.Parts f.numComp f.numFeat f.numPart} :
    f.parts = some p ↔ f.interaction = ⟨_, p.ia⟩ ∧ f.entropy = ⟨_, _, p.en⟩ ∧ f.ensemble = ⟨_, p.es⟩ ∧
      f.constraints = p.cons.map fun c => ⟨f.numFeat, true, c⟩ := by
  unfold Finder.parts
  simp only [Option.bind_eq_bind, Option.bind_eq_some_iff, Option.pure_def, Option.some.injEq,
    unpackInteraction_eq, unpackEntropy_eq, unpackEnsemble_eq, mapM_unpackCons]
  constructor
  · rintro ⟨_, h1, _, h2, _, h3, _, h4, rfl⟩
    exact ⟨h1, h2, h3, h4⟩
  · rintro ⟨h1, h2, h3, h4⟩
    exact ⟨_, h1, _, h2, _, h3, _, h4, rfl⟩

/-- The instances of a finder can be used together exactly if they fit. -/
theorem fits_iff {f : Finder G} : Fits f ↔ ∃ p, f.parts = some p := by
  constructor
  · rintro ⟨h1, h2, h3, h4, h5⟩
    obtain ⟨ia, hia⟩ : ∃ ia, f.interaction = ⟨f.numFeat, ia⟩ := by
      rw [← h1]; exact ⟨_, rfl⟩
    obtain ⟨en, hen⟩ : ∃ en, f.entropy = ⟨f.numComp, f.numFeat, en⟩ := by
      rw [← h2, ← h3]; exact ⟨_, rfl⟩
    obtain ⟨es, hes⟩ : ∃ es, f.ensemble = ⟨f.numComp, es⟩ := by
      rw [← h4]; exact ⟨_, rfl⟩
    obtain ⟨cs, hcs⟩ : ∃ cs : List (Cons f.numFeat f.numPart ℝ),
        f.constraints = cs.map fun c => ⟨f.numFeat, true, c⟩ := by
      generalize f.constraints = l at h5
      induction l with
      | nil => exact ⟨[], rfl⟩
      | cons c l ih =>
        obtain ⟨cs, hcs⟩ := ih fun c hc => h5 c (List.mem_cons_of_mem _ hc)
        obtain ⟨n, r, x⟩ := c
        obtain ⟨e1, e2⟩ := h5 ⟨n, r, x⟩ List.mem_cons_self
        simp only at e1 e2
        subst e1 e2
        exact ⟨x :: cs, by rw [hcs]; rfl⟩
    exact ⟨⟨ia, en, es, cs⟩, parts_eq.mpr ⟨hia, hen, hes, hcs⟩⟩
  · rintro ⟨p, hp⟩
    obtain ⟨h1, h2, h3, h4⟩ := parts_eq.mp hp
    refine ⟨by rw [h1], by rw [h2], by rw [h2], by rw [h3], fun c hc => ?_⟩
    rw [h4] at hc
    obtain ⟨x, -, rfl⟩ := List.mem_map.mp hc
    exact ⟨rfl, rfl⟩

/-! ### `run` case by case -/

theorem run_none {env : FinderEnv G} {f : Finder G} (h : f.parts = none) (ms : Option ℚ) (tol : Option ℝ)
    (int : Option ℤ) : f.run env ms tol int =
      (f.storeArrays (env.crash f.numComp f.numFeat f.numPart (f.state [])), .error .outOfBounds) := by
  unfold Finder.run; rw [h]

theorem run_zero {env : FinderEnv G} {f : Finder G} {p : Finder.Parts f.numComp f.numFeat f.numPart}
    (h : f.parts = some p) (hM : f.numPart = 0) (ms : Option ℚ) (tol : Option ℝ)
    (int : Option ℤ) : f.run env ms tol int = (f, .error .valueError) := by
  unfold Finder.run; rw [h]; dsimp only; rw [dif_pos hM]

/-- What `run` makes of the outcome of its main part. -/
def Finder.finish (f : Finder G) (res : RunState f.numComp f.numFeat f.numPart ℝ G ×
    Py (Phases f.numPart f.numComp ℝ × Diagnostics ℝ)) : Finder G × Py RunOut :=
  match res with
  | (s, .error e) => (f.store s, .error e)
  | (s, .ok (ph, d)) => ({ f.store s with diagnostics := some d }, .ok ⟨_, _, ph, d⟩)

theorem run_some {env : FinderEnv G} {f : Finder G} {p : Finder.Parts f.numComp f.numFeat f.numPart}
    (h : f.parts = some p) [NeZero f.numPart] (ms : Option ℚ) (tol : Option ℝ)
    (int : Option ℤ) : f.run env ms tol int = f.finish
      (runImpl (f.runEnv env p) (ms.getD f.maxSteps) (tol.getD f.tolerance)
        (int.getD f.interval) (f.state p.cons) f.reviveLeft) := by
  unfold Finder.run Finder.finish
  rw [h]
  dsimp only
  rw [dif_neg (NeZero.ne f.numPart)]
  rcases runImpl (f.runEnv env p) (ms.getD f.maxSteps) (tol.getD f.tolerance)
        (int.getD f.interval) (f.state p.cons) f.reviveLeft with ⟨s, r⟩
  cases r with
  | error e => rfl
  | ok x => rfl

/-! ### Sizes and defaults -/

theorem Spec.SameSetup.refl (f : Finder G) : SameSetup f f :=
  ⟨rfl, rfl, rfl, rfl, rfl, rfl, rfl, rfl, rfl, rfl, rfl⟩

theorem Spec.SameSetup.trans {f f' f'' : Finder G} (h : SameSetup f f') (h' : SameSetup f' f'') :
    SameSetup f f'' :=
  ⟨h'.1.trans h.1, h'.2.trans h.2, h'.3.trans h.3, h'.4.trans h.4, h'.5.trans h.5, h'.6.trans h.6,
    h'.7.trans h.7, h'.8.trans h.8, h'.9.trans h.9, h'.10.trans h.10, h'.11.trans h.11⟩

theorem sameSetup_run (env : FinderEnv G) (f : Finder G) (ms : Option ℚ) (tol : Option ℝ)
    (int : Option ℤ) : SameSetup f (f.run env ms tol int).1 := by
  unfold Finder.run
  split
  · exact ⟨rfl, rfl, rfl, rfl, rfl, rfl, rfl, rfl, rfl, rfl, rfl⟩
  · split
    · exact .refl f
    · dsimp only
      split <;> exact ⟨rfl, rfl, rfl, rfl, rfl, rfl, rfl, rfl, rfl, rfl, rfl⟩

theorem sameSetup_step (env : FinderEnv G) (f : Finder G) (op : FinderOp) :
    SameSetup f (f.step env op).1 := by
  cases op with
  | setInteraction o reset kw =>
    simp only [Finder.step, Finder.setInteraction]
    split
    · exact .refl f
    · split
      · exact ⟨rfl, rfl, rfl, rfl, rfl, rfl, rfl, rfl, rfl, rfl, rfl⟩
      · cases reset <;> exact ⟨rfl, rfl, rfl, rfl, rfl, rfl, rfl, rfl, rfl, rfl, rfl⟩
  | setEntropy o reset kw =>
    simp only [Finder.step, Finder.setEntropy]
    split
    · exact .refl f
    · split
      · exact ⟨rfl, rfl, rfl, rfl, rfl, rfl, rfl, rfl, rfl, rfl, rfl⟩
      · cases reset <;> exact ⟨rfl, rfl, rfl, rfl, rfl, rfl, rfl, rfl, rfl, rfl, rfl⟩
  | setEnsemble o reset kw =>
    simp only [Finder.step, Finder.setEnsemble]
    split
    · exact .refl f
    · split
      · exact ⟨rfl, rfl, rfl, rfl, rfl, rfl, rfl, rfl, rfl, rfl, rfl⟩
      · cases reset <;> exact ⟨rfl, rfl, rfl, rfl, rfl, rfl, rfl, rfl, rfl, rfl, rfl⟩
  | setConstraints c reset ind kw =>
    simp only [Finder.step, Finder.setConstraints]
    split
    · exact ⟨rfl, rfl, rfl, rfl, rfl, rfl, rfl, rfl, rfl, rfl, rfl⟩
    · split
      · exact ⟨rfl, rfl, rfl, rfl, rfl, rfl, rfl, rfl, rfl, rfl, rfl⟩
      · cases reset <;> exact ⟨rfl, rfl, rfl, rfl, rfl, rfl, rfl, rfl, rfl, rfl, rfl⟩
  | resetRevive => exact ⟨rfl, rfl, rfl, rfl, rfl, rfl, rfl, rfl, rfl, rfl, rfl⟩
  | reinitConstraint => exact ⟨rfl, rfl, rfl, rfl, rfl, rfl, rfl, rfl, rfl, rfl, rfl⟩
  | reinitRandom =>
    simp only [Finder.step, Finder.reinitRandom]
    split
    · exact .refl f
    · exact ⟨rfl, rfl, rfl, rfl, rfl, rfl, rfl, rfl, rfl, rfl, rfl⟩
  | reinitOmegas w =>
    simp only [Finder.step, Finder.reinitOmegas]
    split
    · exact .refl f
    · exact ⟨rfl, rfl, rfl, rfl, rfl, rfl, rfl, rfl, rfl, rfl, rfl⟩
  | reinitPhis p =>
    simp only [Finder.step, Finder.reinitPhis]
    split
    · exact .refl f
    · split
      · exact .refl f
      · exact ⟨rfl, rfl, rfl, rfl, rfl, rfl, rfl, rfl, rfl, rfl, rfl⟩
  | run ms tol int => exact sameSetup_run env f ms tol int

theorem steps_append (env : FinderEnv G) (ops ops' : List FinderOp) (f : Finder G) :
    Finder.steps env (ops ++ ops') f =
      ((Finder.steps env ops' (Finder.steps env ops f).1).1,
        (Finder.steps env ops f).2 ++ (Finder.steps env ops' (Finder.steps env ops f).1).2) := by
  induction ops generalizing f with
  | nil => rfl
  | cons op ops ih => simp only [List.cons_append, Finder.steps, ih]

/-- A property of finders kept by every call of a history holds at its end. -/
theorem steps_inv (env : FinderEnv G) (P : Finder G → Prop) (Q : FinderOp → Prop)
    (hs : ∀ f op, P f → Q op → P (f.step env op).1) :
    ∀ (ops : List FinderOp) (f : Finder G), P f → (∀ op ∈ ops, Q op) → P (Finder.steps env ops f).1
  | [], _, h, _ => h
  | op :: ops, f, h, hq => steps_inv env P Q hs ops _ (hs f op h (hq op List.mem_cons_self))
      fun o ho => hq o (List.mem_cons_of_mem _ ho)

/-- The results of a history are those of its calls, each made on the finder the previous ones
left behind. -/
theorem steps_result (env : FinderEnv G) (ops : List FinderOp) (f : Finder G) (i : ℕ) :
    (Finder.steps env ops f).2[i]? =
      ops[i]?.map fun op => ((Finder.steps env (ops.take i) f).1.step env op).2 := by
  induction ops generalizing f i with
  | nil => simp [Finder.steps]
  | cons op ops ih =>
    cases i with
    | zero => simp [Finder.steps]
    | succ i => simp only [Finder.steps, List.getElem?_cons_succ, List.take_succ_cons, ih]

end Flory
