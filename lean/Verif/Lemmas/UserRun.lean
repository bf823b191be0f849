import Verif.Lemmas.UserIterate
import Verif.Spec.UserConstraint

/-! # The transcribed `run` with constraints of any class -/

set_option linter.unusedSectionVars false

namespace Flory

open Spec

/-! ### The changes of the constraints -/

section Evolve

variable {K : Type} [Field K] [LinearOrder K] [IsStrictOrderedRing K] [FloorRing K]
  {S M : ℕ} [NeZero M] {α : Type} {o : ConsOps α S M K}

theorem opsEvolve_spec {step : K} {mk : Vec M K} {cs cs' : List α} {acc r : K}
    (h : opsEvolve o step mk cs acc = .ok (cs', r)) :
    acc ≤ r ∧ List.Forall₂ (fun c c' => ∃ x, o.evolve step mk c = .ok (x, c') ∧ x ≤ r) cs cs' ∧
      (r = acc ∨ ∃ c ∈ cs, ∃ c', o.evolve step mk c = .ok (r, c')) := by
  induction cs generalizing acc cs' with
  | nil =>
    obtain ⟨rfl, rfl⟩ := Prod.mk.inj (Except.ok.inj h)
    exact ⟨le_rfl, .nil, Or.inl rfl⟩
  | cons c cs ih =>
    unfold opsEvolve at h ih
    unfold forListUpdM at h
    obtain ⟨u, h1, h⟩ := bind_eq_ok.mp h
    obtain ⟨w, h2, h⟩ := bind_eq_ok.mp h
    obtain ⟨v, h3, h1⟩ := bind_eq_ok.mp h1
    obtain ⟨rfl, rfl⟩ := Prod.mk.inj (Except.ok.inj h)
    obtain rfl := Except.ok.inj h1
    obtain ⟨i1, i2, i3⟩ := ih (cs' := w.1) h2
    refine ⟨(le_max_left _ _).trans i1, .cons ⟨v.1, h3, (le_max_right _ _).trans i1⟩ i2, ?_⟩
    rcases i3 with i3 | ⟨d, hd, d', i3⟩
    · rcases max_choice acc v.1 with hm | hm
      · exact Or.inl (i3.trans hm)
      · refine Or.inr ⟨c, by simp, v.2, ?_⟩
        rw [i3]
        dsimp only
        rw [hm]
        exact h3
    · exact Or.inr ⟨d, by simp [hd], d', i3⟩

theorem opsEvolve_ok (P : α → Prop) (step : K) (mk : Vec M K)
    (hev : ∀ c, P c → ∃ r c', o.evolve step mk c = .ok (r, c') ∧ P c') (cs : List α)
    (hcs : ∀ c ∈ cs, P c) (acc : K) :
    ∃ cs' r, opsEvolve o step mk cs acc = .ok (cs', r) ∧ ∀ c ∈ cs', P c := by
  induction cs generalizing acc with
  | nil => exact ⟨[], acc, rfl, by simp⟩
  | cons c cs ih =>
    obtain ⟨x, c', h1, h2⟩ := hev c (hcs c (by simp))
    obtain ⟨cs', r, h3, h4⟩ := ih (fun c hc => hcs c (by simp [hc])) (max acc x)
    refine ⟨c' :: cs', r, ?_, ?_⟩
    · unfold opsEvolve at h3 ⊢
      unfold forListUpdM
      beta_reduce
      rw [h1, Py.ok_bind, Py.pure_bind, h3]
      rfl
    · simpa using ⟨h2, h4⟩

end Evolve

variable {G : Type} {C S M : ℕ} [NeZero M] {α : Type}

/-- The variables of the transcribed loop of `run`. -/
abbrev OpsRunTuple (C S M : ℕ) (G α : Type) : Type :=
  Mat S M ℝ × Vec M ℝ × Mat C M ℝ × Mat S M ℝ × List α × G × ℤ × ℤ ×
    Option ℝ × Option ℝ × Option ℝ × Option ℝ

/-- What a run needs besides the state. -/
structure OpsEnv (C S M : ℕ) (G α : Type) where
  ops : ConsOps α S M ℝ
  ia : InteractionI S M ℝ
  en : EntropyI C S M ℝ
  es : EnsembleI C M ℝ
  rng : Rng G ℝ
  params : Params ℝ
  criterion : String

/-- The body of the transcribed loop of `run`. -/
noncomputable def opsRunBody (e : OpsEnv C S M G α) (tolerance : ℝ) (inner : ℤ)
    (s : OpsRunTuple C S M G α) : Py (OpsRunTuple C S M G α × Bool) := do
  let t ← opsMeta e.ops e.ia e.en e.es e.rng e.params s.2.2.2.2.2.2.2.1 inner
    s.1 s.2.1 s.2.2.1 s.2.2.2.1 s.2.2.2.2.1 s.2.2.2.2.2.1
  if e.criterion = "standard" then
    if t.1.2.2.2.2.2 ∧ tolerance > t.1.1 ∧ tolerance > t.1.2.1 ∧ tolerance > t.1.2.2.1 ∧
        tolerance > t.1.2.2.2.1 then
      pure ((t.2.1, t.2.2.1, t.2.2.2.1, t.2.2.2.2.1, t.2.2.2.2.2.1, t.2.2.2.2.2.2,
        s.2.2.2.2.2.2.1 + inner, s.2.2.2.2.2.2.2.1 - t.1.2.2.2.2.1, some t.1.1, some t.1.2.1,
        some t.1.2.2.1, some t.1.2.2.2.1), true)
    else
      pure ((t.2.1, t.2.2.1, t.2.2.2.1, t.2.2.2.2.1, t.2.2.2.2.2.1, t.2.2.2.2.2.2,
        s.2.2.2.2.2.2.1 + inner, s.2.2.2.2.2.2.2.1 - t.1.2.2.2.2.1, some t.1.1, some t.1.2.1,
        some t.1.2.2.1, some t.1.2.2.2.1), false)
  else .error .valueError

/-- The transcribed `run`: the final copies, the variables of the loop and the reported errors. -/
noncomputable def opsRun (e : OpsEnv C S M G α) (ms : ℚ) (tol : ℝ) (iv : ℤ)
    (s : OpsRunTuple C S M G α) : Py ((ℤ × Vec M ℝ × Mat C M ℝ × G) × OpsRunTuple C S M G α ×
      ℝ × ℝ × ℝ × ℝ) :=
  pyDiv ms ((iv : ℤ) : ℚ) >>= fun q =>
  pyFloorDiv ⌈ms⌉ ⌈q⌉ >>= fun d =>
  forBreakM (⌈q⌉).toNat s (opsRunBody e tol (max 1 d)) >>= fun s =>
  Gen.revive_compartments_by_copy s.2.1 s.2.2.1 e.params.killThreshold e.rng s.2.2.2.2.2.1 >>=
    fun t =>
  boundVar s.2.2.2.2.2.2.2.2.1 >>= fun x1 =>
  boundVar s.2.2.2.2.2.2.2.2.2.1 >>= fun x2 =>
  boundVar s.2.2.2.2.2.2.2.2.2.2.1 >>= fun x3 =>
  boundVar s.2.2.2.2.2.2.2.2.2.2.2 >>= fun x4 =>
  pure (t, s, x1, x2, x3, x4)

/-- What stays fixed during a run of the transcribed finder. -/
def UserAttrs.env {X : Type} (a : UserAttrs X C S M) (rng : Rng G ℝ) :
    OpsEnv C S M G (UserCons X S M ℝ) :=
  ⟨UserCons.ops, a.interaction, a.entropy, a.ensemble, rng, a.params, a.criterion⟩

/-- The variables at the start. -/
def UserAttrs.start {X : Type} (a : UserAttrs X C S M) (g : G) :
    OpsRunTuple C S M G (UserCons X S M ℝ) :=
  (a.omegas, a.Js, a.phisComp, a.phisFeat, a.constraints, g, (0 : ℤ), a.reviveLeft, none, none,
    none, none)

/-- The finder at the end. -/
def UserAttrs.finish {X : Type} (a : UserAttrs X C S M)
    (r : (ℤ × Vec M ℝ × Mat C M ℝ × G) × OpsRunTuple C S M G (UserCons X S M ℝ) × ℝ × ℝ × ℝ × ℝ) :
    Phases M C ℝ × UserAttrs X C S M × G :=
  (⟨r.1.2.1, fun i j => r.1.2.2.1 j i⟩,
    { a with
      constraints := r.2.1.2.2.2.2.1
      diagnostics := some ⟨r.2.1.2.2.2.2.2.2.1, r.2.2.1, r.2.2.2.1, r.2.2.2.2.1, r.2.2.2.2.2,
        r.2.1.2.2.2.2.2.2.2.1⟩
      omegas := r.2.1.1
      Js := r.2.1.2.1
      phisFeat := r.2.1.2.2.2.1
      phisComp := r.2.1.2.2.1
      reviveLeft := r.2.1.2.2.2.2.2.2.2.1 }, r.1.2.2.2)

theorem run_user {X : Type} (a : UserAttrs X C S M) (ms : Option ℚ) (tol : Option ℝ)
    (iv : Option ℤ) (rng : Rng G ℝ) (g : G) :
    Gen.User.Finder.run a ms tol iv rng g =
      (opsRun (a.env rng) (ms.getD a.maxSteps) (tol.getD a.tolerance) (iv.getD a.interval)
        (a.start g)).map a.finish := by
  unfold opsRun
  rw [Py.map_bind]
  refine Py.bind_congr rfl fun q => ?_
  rw [Py.map_bind]
  refine Py.bind_congr rfl fun d => ?_
  rw [Py.map_bind]
  refine Py.bind_congr rfl fun s => ?_
  rw [Py.map_bind]
  refine Py.bind_congr rfl fun t => ?_
  rw [Py.map_bind]
  refine Py.bind_congr rfl fun x1 => ?_
  rw [Py.map_bind]
  refine Py.bind_congr rfl fun x2 => ?_
  rw [Py.map_bind]
  refine Py.bind_congr rfl fun x3 => ?_
  rw [Py.map_bind]
  exact Py.bind_congr rfl fun x4 => rfl

/-- What stays fixed during a run with constraints of the library. -/
noncomputable def FinderAttrs.opsEnv (a : FinderAttrs C S M) (rng : Rng G ℝ) :
    OpsEnv C S M G (Cons S M ℝ) :=
  ⟨Cons.ops, a.interaction, a.entropy, a.ensemble, rng, a.params, a.criterion⟩

/-- The variables at the start. -/
def FinderAttrs.start (a : FinderAttrs C S M) (g : G) : OpsRunTuple C S M G (Cons S M ℝ) :=
  (a.omegas, a.Js, a.phisComp, a.phisFeat, a.constraints, g, (0 : ℤ), a.reviveLeft, none, none,
    none, none)

/-- The finder at the end. -/
def FinderAttrs.finish (a : FinderAttrs C S M)
    (r : (ℤ × Vec M ℝ × Mat C M ℝ × G) × OpsRunTuple C S M G (Cons S M ℝ) × ℝ × ℝ × ℝ × ℝ) :
    Phases M C ℝ × FinderAttrs C S M × G :=
  (⟨r.1.2.1, fun i j => r.1.2.2.1 j i⟩,
    { a with
      constraints := r.2.1.2.2.2.2.1
      diagnostics := some ⟨r.2.1.2.2.2.2.2.2.1, r.2.2.1, r.2.2.2.1, r.2.2.2.2.1, r.2.2.2.2.2,
        r.2.1.2.2.2.2.2.2.2.1⟩
      omegas := r.2.1.1
      Js := r.2.1.2.1
      phisFeat := r.2.1.2.2.2.1
      phisComp := r.2.1.2.2.1
      reviveLeft := r.2.1.2.2.2.2.2.2.2.1 }, r.1.2.2.2)

theorem run_library (a : FinderAttrs C S M) (ms : Option ℚ) (tol : Option ℝ)
    (iv : Option ℤ) (rng : Rng G ℝ) (g : G) :
    Gen.Finder.run a ms tol iv rng g =
      (opsRun (a.opsEnv rng) (ms.getD a.maxSteps) (tol.getD a.tolerance) (iv.getD a.interval)
        (a.start g)).map a.finish := by
  have hb : ∀ tolerance inner,
      runBody a rng tolerance inner = opsRunBody (a.opsEnv rng) tolerance inner := by
    intro tolerance inner
    funext s
    unfold runBody opsRunBody Gen.callMetastep
    dsimp only
    rw [meta_library]
    rfl
  have hgen : Gen.Finder.run a ms tol iv rng g =
      (pyDiv (ms.getD a.maxSteps) ((iv.getD a.interval : ℤ) : ℚ) >>= fun q =>
      pyFloorDiv ⌈ms.getD a.maxSteps⌉ ⌈q⌉ >>= fun d =>
      forBreakM (⌈q⌉).toNat (a.omegas, a.Js, a.phisComp, a.phisFeat, a.constraints, g, (0 : ℤ),
        a.reviveLeft, none, none, none, none)
        (runBody a rng (tol.getD a.tolerance) (max 1 d)) >>= fun s =>
      Gen.revive_compartments_by_copy s.2.1 s.2.2.1 a.params.killThreshold rng s.2.2.2.2.2.1 >>=
        fun t =>
      boundVar s.2.2.2.2.2.2.2.2.1 >>= fun x1 =>
      boundVar s.2.2.2.2.2.2.2.2.2.1 >>= fun x2 =>
      boundVar s.2.2.2.2.2.2.2.2.2.2.1 >>= fun x3 =>
      boundVar s.2.2.2.2.2.2.2.2.2.2.2 >>= fun x4 =>
      pure (a.finish (t, s, x1, x2, x3, x4))) := rfl
  rw [hgen]
  unfold opsRun
  rw [Py.map_bind]
  refine Py.bind_congr rfl fun q => ?_
  rw [Py.map_bind]
  refine Py.bind_congr rfl fun d => ?_
  rw [hb, Py.map_bind]
  refine Py.bind_congr rfl fun s => ?_
  rw [Py.map_bind]
  refine Py.bind_congr rfl fun t => ?_
  rw [Py.map_bind]
  refine Py.bind_congr rfl fun x1 => ?_
  rw [Py.map_bind]
  refine Py.bind_congr rfl fun x2 => ?_
  rw [Py.map_bind]
  refine Py.bind_congr rfl fun x3 => ?_
  rw [Py.map_bind]
  exact Py.bind_congr rfl fun x4 => rfl

/-! ### Maps of constraints -/

section Hom

variable {β : Type}

theorem forBreakM_hom {σ τ : Type} (φ : σ → τ) {f : σ → Py (σ × Bool)} {f' : τ → Py (τ × Bool)}
    (h : ∀ s, f' (φ s) = (f s).map fun r => (φ r.1, r.2)) (n : ℕ) (s : σ) :
    forBreakM n (φ s) f' = (forBreakM n s f).map φ := by
  induction n generalizing s with
  | zero => rfl
  | succ n ih =>
    unfold forBreakM
    rw [h, Py.bind_map, Py.map_bind]
    refine Py.bind_congr rfl fun r => ?_
    by_cases hr : r.2 = true
    · simp only [hr, if_true]; rfl
    · simp only [hr]
      exact ih r.1

/-- Map the constraints of the loop of `run`. -/
def OpsRunTuple.map (φ : α → β) (s : OpsRunTuple C S M G α) : OpsRunTuple C S M G β :=
  (s.1, s.2.1, s.2.2.1, s.2.2.2.1, s.2.2.2.2.1.map φ, s.2.2.2.2.2)

theorem ConsOps.Hom.run {e : OpsEnv C S M G α} {o' : ConsOps β S M ℝ} {φ : α → β}
    (h : e.ops.Hom o' φ) (ms : ℚ) (tol : ℝ) (iv : ℤ) (s : OpsRunTuple C S M G α) :
    opsRun ⟨o', e.ia, e.en, e.es, e.rng, e.params, e.criterion⟩ ms tol iv (s.map φ) =
      (opsRun e ms tol iv s).map fun r => (r.1, r.2.1.map φ, r.2.2) := by
  have hb : ∀ inner (s : OpsRunTuple C S M G α),
      opsRunBody ⟨o', e.ia, e.en, e.es, e.rng, e.params, e.criterion⟩ tol inner (s.map φ) =
        (opsRunBody e tol inner s).map fun r => (r.1.map φ, r.2) := by
    intro inner s
    unfold opsRunBody
    refine (congrArg (· >>= _) (h.meta e.ia e.en e.es e.rng e.params s.2.2.2.2.2.2.2.1 inner
      s.1 s.2.1 s.2.2.1 s.2.2.2.1 s.2.2.2.2.1 s.2.2.2.2.2.1)).trans ?_
    rw [Py.bind_map, Py.map_bind]
    refine Py.bind_congr rfl fun t => ?_
    by_cases hc : e.criterion = "standard"
    · simp only [if_pos hc]
      by_cases hv : t.1.2.2.2.2.2 = true ∧ tol > t.1.1 ∧ tol > t.1.2.1 ∧ tol > t.1.2.2.1 ∧
        tol > t.1.2.2.2.1
      · refine (if_pos hv).trans ?_
        rw [if_pos hv]
        rfl
      · refine (if_neg hv).trans ?_
        rw [if_neg hv]
        rfl
    · simp only [if_neg hc]
      rfl
  unfold opsRun
  rw [Py.map_bind]
  refine Py.bind_congr rfl fun q => ?_
  rw [Py.map_bind]
  refine Py.bind_congr rfl fun d => ?_
  rw [forBreakM_hom (OpsRunTuple.map φ) (hb (max 1 d)), Py.bind_map, Py.map_bind]
  refine Py.bind_congr rfl fun s => ?_
  rw [Py.map_bind]
  refine Py.bind_congr rfl fun t => ?_
  rw [Py.map_bind]
  refine Py.bind_congr rfl fun x1 => ?_
  rw [Py.map_bind]
  refine Py.bind_congr rfl fun x2 => ?_
  rw [Py.map_bind]
  refine Py.bind_congr rfl fun x3 => ?_
  rw [Py.map_bind]
  exact Py.bind_congr rfl fun x4 => rfl

end Hom

/-! ### Where the results come from -/

/-- The variables of the loop of `run` are those of a last pass with constraints that are related
to those of the start. -/
structure OpsFrom (e : OpsEnv C S M G α) (R : α → α → Prop) (cs₀ : List α)
    (s : OpsRunTuple C S M G α) (tries : ℤ) (count : ℕ) (st : State C S M ℝ G) (cs : List α)
    (t : OpsTrace C S M ℝ G α) : Prop where
  facts : OpsFacts e.ops e.ia e.en e.es e.rng e.params tries count st cs t
  rel : List.Forall₂ R cs₀ cs
  vars : s = (t.pass.omegas, t.pass.Js, t.pass.phisComp, t.pass.phisFeat, t.cons, t.pass.g,
    s.2.2.2.2.2.2.1, s.2.2.2.2.2.2.2.1, some t.pass.maxAbsIncomp, some t.pass.maxAbsOmegaDiff,
    some t.pass.maxAbsJsDiff, some t.residue)

theorem forall₂_step {o : ConsOps α S M ℝ} {R : α → α → Prop}
    (hp : ∀ c d f J mk, R c d → R c (o.prepare f J mk d))
    (he : ∀ c d step mk x d', R c d → o.evolve step mk d = .ok (x, d') → R c d')
    {cs₀ cs : List α} (h : List.Forall₂ R cs₀ cs) {ia : InteractionI S M ℝ}
    {en : EntropyI C S M ℝ} {es : EnsembleI C M ℝ} {rng : Rng G ℝ} {p : Params ℝ} {tries : ℤ}
    {count : ℕ} {st : State C S M ℝ G} {t : OpsTrace C S M ℝ G α}
    (hF : OpsFacts o ia en es rng p tries count st cs t) : List.Forall₂ R cs₀ t.cons := by
  obtain ⟨-, h2, -⟩ := opsEvolve_spec hF.cons
  have h1 : List.Forall₂ R cs₀ t.prep := by
    rw [hF.prep, List.forall₂_map_right_iff]
    exact h.imp fun c d hcd => hp c d _ _ _ hcd
  generalize t.prep = l at h1 h2
  generalize t.cons = l' at h2
  clear hF h
  induction h1 generalizing l' with
  | nil => cases h2; exact .nil
  | cons hab _ ih =>
    cases h2 with
    | cons hx hy =>
      obtain ⟨x, hx, -⟩ := hx
      exact .cons (he _ _ _ _ _ _ hab hx) (ih _ hy)

theorem opsMetastep_from {e : OpsEnv C S M G α} {R : α → α → Prop}
    (hp : ∀ c d f J mk, R c d → R c (e.ops.prepare f J mk d))
    (he : ∀ c d step mk x d', R c d → e.ops.evolve step mk d = .ok (x, d') → R c d')
    {cs₀ : List α} {tries : ℤ} {n : ℕ} {st : State C S M ℝ G} {cs : List α}
    {t : OpsTrace C S M ℝ G α} (h0 : List.Forall₂ R cs₀ cs)
    (h : opsMetastep e.ops e.ia e.en e.es e.rng e.params tries n st cs = .ok t) :
    (∃ count st' cs', OpsFacts e.ops e.ia e.en e.es e.rng e.params tries count st' cs' t ∧
      List.Forall₂ R cs₀ cs') ∧ List.Forall₂ R cs₀ t.cons :=
  opsMetastep_inv (fun t => (∃ count st' cs', OpsFacts e.ops e.ia e.en e.es e.rng e.params tries
      count st' cs' t ∧ List.Forall₂ R cs₀ cs') ∧ List.Forall₂ R cs₀ t.cons) h
    (fun _ ht => ⟨⟨_, _, _, opsIterate_facts ht, h0⟩,
      forall₂_step hp he h0 (opsIterate_facts ht)⟩)
    (fun _ _ ih ht => ⟨⟨_, _, _, opsIterate_facts ht, ih.2⟩,
      forall₂_step hp he ih.2 (opsIterate_facts ht)⟩)

theorem opsRunBody_from {e : OpsEnv C S M G α} {R : α → α → Prop}
    (hp : ∀ c d f J mk, R c d → R c (e.ops.prepare f J mk d))
    (he : ∀ c d step mk x d', R c d → e.ops.evolve step mk d = .ok (x, d') → R c d')
    {cs₀ : List α} {tol : ℝ} {inner : ℤ} {s : OpsRunTuple C S M G α} {s' : OpsRunTuple C S M G α}
    {b : Bool} (h0 : List.Forall₂ R cs₀ s.2.2.2.2.1)
    (h : opsRunBody e tol inner s = .ok (s', b)) :
    List.Forall₂ R cs₀ s'.2.2.2.2.1 ∧
      (∃ tries count st cs t, OpsFrom e R cs₀ s' tries count st cs t) ∧
      s'.2.2.2.2.2.2.1 = s.2.2.2.2.2.2.1 + inner := by
  unfold opsRunBody at h
  obtain ⟨r, h1, h⟩ := bind_eq_ok.mp h
  have hm := opsMeta_eq e.ops e.ia e.en e.es e.rng e.params s.2.2.2.2.2.2.2.1 inner
    ⟨s.1, s.2.1, s.2.2.1, s.2.2.2.1, [], s.2.2.2.2.2.1⟩ s.2.2.2.2.1
  dsimp only at hm
  rw [hm] at h1
  cases ht : opsMetastep e.ops e.ia e.en e.es e.rng e.params s.2.2.2.2.2.2.2.1 inner.toNat
    ⟨s.1, s.2.1, s.2.2.1, s.2.2.2.1, [], s.2.2.2.2.2.1⟩ s.2.2.2.2.1 with
  | error x => rw [ht] at h1; cases h1
  | ok t =>
    rw [ht] at h1
    obtain rfl := Except.ok.inj h1
    obtain ⟨⟨count, st, cs, k1, k2⟩, k3⟩ := opsMetastep_from hp he h0 ht
    by_cases hc : e.criterion = "standard"
    · rw [if_pos hc] at h
      split at h
      · obtain ⟨rfl, -⟩ := Prod.mk.inj (Except.ok.inj h)
        exact ⟨k3, ⟨_, _, _, _, t, ⟨k1, k2, rfl⟩⟩, rfl⟩
      · obtain ⟨rfl, -⟩ := Prod.mk.inj (Except.ok.inj h)
        exact ⟨k3, ⟨_, _, _, _, t, ⟨k1, k2, rfl⟩⟩, rfl⟩
    · rw [if_neg hc] at h
      cases h

theorem opsLoop_from {e : OpsEnv C S M G α} {R : α → α → Prop}
    (hp : ∀ c d f J mk, R c d → R c (e.ops.prepare f J mk d))
    (he : ∀ c d step mk x d', R c d → e.ops.evolve step mk d = .ok (x, d') → R c d')
    {cs₀ : List α} {tol : ℝ} {inner : ℤ} {n : ℕ} {s s' : OpsRunTuple C S M G α}
    (h0 : List.Forall₂ R cs₀ s.2.2.2.2.1)
    (h : forBreakM n s (opsRunBody e tol inner) = .ok s') :
    s' = s ∨ (∃ tries count st cs t, OpsFrom e R cs₀ s' tries count st cs t) ∧
      ∃ k : ℕ, k < n ∧ s'.2.2.2.2.2.2.1 = s.2.2.2.2.2.2.1 + (k + 1) * inner := by
  induction n generalizing s with
  | zero => exact Or.inl (Except.ok.inj h).symm
  | succ n ih =>
    unfold forBreakM at h
    obtain ⟨⟨s1, b⟩, h1, h⟩ := bind_eq_ok.mp h
    obtain ⟨k1, k2, k3⟩ := opsRunBody_from hp he h0 h1
    dsimp only at h
    have hone : ∃ k : ℕ, k < n + 1 ∧ s1.2.2.2.2.2.2.1 = s.2.2.2.2.2.2.1 + ((k : ℤ) + 1) * inner :=
      ⟨0, Nat.succ_pos n, by rw [k3]; simp⟩
    split at h
    · obtain rfl := Except.ok.inj h
      exact Or.inr ⟨k2, hone⟩
    · rcases ih k1 h with rfl | ⟨i1, k, i2, i3⟩
      · exact Or.inr ⟨k2, hone⟩
      · refine Or.inr ⟨i1, k + 1, by omega, ?_⟩
        rw [i3, k3]
        push_cast
        ring

/-- What a successful run returns: the reported errors are those of a last pass, and every returned
compartment is a living compartment of that pass. -/
structure OpsSource {X : Type} (rng : Rng G ℝ) (a a' : UserAttrs X C S M) (ph : Phases M C ℝ)
    (d : DiagDict) (tries : ℤ) (count : ℕ) (st : State C S M ℝ G) (cs : List (UserCons X S M ℝ))
    (t : OpsTrace C S M ℝ G (UserCons X S M ℝ)) : Prop where
  facts : OpsFacts UserCons.ops a.interaction a.entropy a.ensemble rng a.params tries count st cs t
  rel : List.Forall₂ Grown a.constraints cs
  finish : a' = { a with
    constraints := t.cons, diagnostics := some d, omegas := t.pass.omegas, Js := t.pass.Js
    phisFeat := t.pass.phisFeat, phisComp := t.pass.phisComp, reviveLeft := d.reviveCountLeft }
  incomp : d.maxAbsIncomp = t.pass.maxAbsIncomp
  omega : d.maxAbsOmegaDiff = t.pass.maxAbsOmegaDiff
  js : d.maxAbsJsDiff = t.pass.maxAbsJsDiff
  residue : d.maxConstraintResidue = t.residue
  volumes : ∀ q, a.params.killThreshold < ph.volumes q
  rows : ∀ q, ∃ m, t.pass.masks m = 1 ∧ a.params.killThreshold < t.pass.Js m ∧
    ∀ i, ph.fractions q i = t.pass.phisComp i m
  conserve : ∀ w : (Fin C → ℝ) → ℝ, ∑ q, ph.volumes q * w (ph.fractions q) =
    ∑ m with a.params.killThreshold < t.pass.Js m, t.pass.Js m * w (fun i => t.pass.phisComp i m)

theorem user_run_source {X : Type} {rng : Rng G ℝ} (hok : rng.Ok) {a a' : UserAttrs X C S M}
    (hthr : 0 ≤ a.params.killThreshold) {ms : Option ℚ} {tol : Option ℝ} {iv : Option ℤ}
    {g g' : G} {ph : Phases M C ℝ}
    (h : Gen.User.Finder.run a ms tol iv rng g = .ok (ph, a', g')) :
    ∃ d tries count st cs t, OpsSource rng a a' ph d tries count st cs t := by
  rw [run_user] at h
  cases hr : opsRun (a.env rng) (ms.getD a.maxSteps) (tol.getD a.tolerance) (iv.getD a.interval)
      (a.start g) with
  | error x => rw [hr] at h; cases h
  | ok r =>
    rw [hr] at h
    have h := Except.ok.inj h
    unfold opsRun at hr
    obtain ⟨q, -, hr⟩ := bind_eq_ok.mp hr
    obtain ⟨d, -, hr⟩ := bind_eq_ok.mp hr
    obtain ⟨s, hs, hr⟩ := bind_eq_ok.mp hr
    obtain ⟨c, hc, hr⟩ := bind_eq_ok.mp hr
    obtain ⟨x1, hx1, hr⟩ := bind_eq_ok.mp hr
    obtain ⟨x2, hx2, hr⟩ := bind_eq_ok.mp hr
    obtain ⟨x3, hx3, hr⟩ := bind_eq_ok.mp hr
    obtain ⟨x4, hx4, hr⟩ := bind_eq_ok.mp hr
    obtain rfl := Except.ok.inj hr
    have hrefl : List.Forall₂ Grown a.constraints a.constraints :=
      List.forall₂_same.mpr fun c _ => .refl c
    rcases opsLoop_from (R := Grown) (fun c d f J mk h => .prepare f J mk h)
        (fun c d step mk x d' h h' => by
          cases hq : d.methods.evolve step mk d.data with
          | error y =>
            have : (UserCons.evolve step mk d) = .ok (x, d') := h'
            unfold UserCons.evolve at this
            rw [hq] at this
            cases this
          | ok y =>
            have : (UserCons.evolve step mk d) = .ok (x, d') := h'
            unfold UserCons.evolve at this
            rw [hq] at this
            obtain ⟨-, rfl⟩ := Prod.mk.inj (Except.ok.inj this)
            exact .evolve h hq) hrefl hs with rfl | ⟨⟨tries, count, st, cs, t, hF⟩, -⟩
    · cases hx1
    · obtain ⟨hf, hrel, hv⟩ := hF
      rw [copy_transcript (show (a.env rng).rng.Ok from hok)] at hc
      cases hcp : reviveByCopy (a.env rng).rng s.2.1 s.2.2.1 (a.env rng).params.killThreshold
          s.2.2.2.2.2.1 with
      | error y => rw [hcp] at hc; cases hc
      | ok cp =>
        rw [hcp] at hc
        obtain rfl := Except.ok.inj hc
        rw [hv] at hx1 hx2 hx3 hx4 hcp
        obtain rfl := Except.ok.inj hx1
        obtain rfl := Except.ok.inj hx2
        obtain rfl := Except.ok.inj hx3
        obtain rfl := Except.ok.inj hx4
        obtain ⟨c1, c2, c3, -, -, c6, -⟩ := C32_copy_revival_conserves hok _ _ hthr _ hcp
        have hmask : ∀ m, a.params.killThreshold < t.pass.Js m → t.pass.masks m = 1 := fun m hm =>
          (hf.facts.mask_cases m).resolve_right fun h0 =>
            absurd (hf.facts.Js_dead h0 ▸ hm) (not_lt.mpr hthr)
        obtain ⟨e1, e2⟩ := Prod.mk.inj h
        obtain ⟨e2, -⟩ := Prod.mk.inj e2
        subst e1 e2
        refine ⟨⟨s.2.2.2.2.2.2.1, t.pass.maxAbsIncomp, t.pass.maxAbsOmegaDiff,
          t.pass.maxAbsJsDiff, t.residue, s.2.2.2.2.2.2.2.1⟩, tries, count, st, cs, t,
          ⟨hf, hrel, ?_, rfl, rfl, rfl, rfl, c3, fun q => ?_, c6⟩⟩
        · dsimp only
          rw [hv]
        · by_cases hq : a.params.killThreshold < t.pass.Js q
          · exact ⟨q, hmask q hq, hq, fun i => (c1 q hq).1 i⟩
          · obtain ⟨k, hk, hk2⟩ := c2 q (not_lt.mp hq)
            exact ⟨k, hmask k hk, hk, fun i => hk2 i⟩

end Flory
