import Verif.Gen.UserFinder
import Verif.Lemmas.TranscriptRun

/-! # The transcribed loop with constraints of any class -/

set_option linter.unusedSectionVars false

namespace Flory

/-- What the finder uses of the constraints. -/
structure ConsOps (α : Type) (S M : ℕ) (K : Type) where
  prepare : Mat S M K → Vec M K → Vec M K → α → α
  potential : α → Mat S M K
  volumeDerivative : α → Vec M K
  evolve : K → Vec M K → α → Py (K × α)

/-- The interface of user-defined constraints. -/
def UserCons.ops {X K : Type} {S M : ℕ} : ConsOps (UserCons X S M K) S M K :=
  ⟨UserCons.prepare, UserCons.potential, UserCons.volumeDerivative, UserCons.evolve⟩

variable {K G : Type} [Field K] [LinearOrder K] [IsStrictOrderedRing K] [FloorRing K]
  {C S M : ℕ} [NeZero M] {α β X : Type}

/-- The interface of the constraints of the library. -/
def Cons.ops : ConsOps (Cons S M K) S M K :=
  ⟨Cons.prepare, Cons.potential, Cons.volumeDerivative, Cons.evolve⟩

/-- A map of constraints that keeps what they do. -/
structure ConsOps.Hom (o : ConsOps α S M K) (o' : ConsOps β S M K) (φ : α → β) : Prop where
  prepare : ∀ f J mk c, o'.prepare f J mk (φ c) = φ (o.prepare f J mk c)
  potential : ∀ c, o'.potential (φ c) = o.potential c
  volumeDerivative : ∀ c, o'.volumeDerivative (φ c) = o.volumeDerivative c
  evolve : ∀ step mk c, o'.evolve step mk (φ c) = (o.evolve step mk c).map fun r => (r.1, φ r.2)

/-- The variables of the transcribed loop. -/
abbrev PassTuple (C S M : ℕ) (K G α : Type) : Type :=
  ℤ × Vec M K × Mat S M K × G × ℤ × Mat C M K × Mat S M K × List α ×
    Option K × Option K × Option K × Option K

/-- The field `xi` as transcribed. -/
def opsXi (o : ConsOps α S M K) (coef : K) (incomp : Vec M K) (omegas pot : Mat S M K)
    (cs : List α) (masks : Vec M K) : Vec M K :=
  let xi : Vec M K := fun m => coef * incomp m
  let xi : Vec M K := forRange S xi fun r xi => fun m => xi m + (omegas r m - pot r m)
  let xi : Vec M K := forList cs xi fun c xi =>
    forRange S xi fun r xi => fun m => xi m - o.potential c r m
  let xi : Vec M K := fun m => xi m * masks m
  fun m => xi m / ((S : ℕ) : K)

/-- The loops that finish `local_energy` and `omega_temp`, as transcribed. -/
def opsLocal (o : ConsOps α S M K) (vi ve xi incomp : Vec M K) (potential pf : Mat S M K)
    (cs : List α) : Mat S M K × Vec M K :=
  (fun s : Vec M K × Mat S M K => forRange S (s.2, s.1) fun r q =>
      (setAt q.1 r (fun m => q.1 r m + xi m),
        fun m => q.2 m - setAt q.1 r (fun m => q.1 r m + xi m) r m * pf r m))
    (forList cs ((fun m => vi m + ve m + xi m * incomp m), potential) fun c s =>
      ((fun m => s.1 m + o.volumeDerivative c m), fun r m => s.2 r m + o.potential c r m))

/-- The loop that changes the constraints, as transcribed. -/
def opsEvolve (o : ConsOps α S M K) (step : K) (masks : Vec M K) (cs : List α) (acc : K) :
    Py (List α × K) :=
  forListUpdM cs acc fun c a => do
    let t ← o.evolve step masks c
    pure (t.2, max a t.1)

/-- The transcribed pass after the revival. -/
def opsPass (o : ConsOps α S M K) (ia : InteractionI S M K) (en : EntropyI C S M K)
    (es : EnsembleI C M K) (p : Params K) (q : Vec M K × Mat S M K × G × ℤ) (pc : Mat C M K)
    (pf : Mat S M K) (cs : List α) : Py (PassTuple C S M K G α) := do
  let masks := makeMasks q.1 p.killThreshold
  let nv := npInt (∑ m, masks m)
  let J : Vec M K := fun m => q.1 m * masks m
  let a ← en.partition pc q.2.1 J
  let b ← es.normalize a.1 a.2 masks
  let f ← en.compToFeat pf b.1
  let cs := if cs ≠ [] then mapList cs (o.prepare f J masks) else cs
  let pot := ia.potential f
  let xi := opsXi o (ia.incompCoef f) b.2 q.2.1 pot cs masks
  let l := opsLocal o (ia.volumeDerivative pot f) (en.volumeDerivative b.1) xi b.2 pot f cs
  let mean ← pyDiv (∑ m, l.2 m * J m) ((nv : ℤ) : K)
  let Jd : Vec M K := fun m => (mean - l.2 m) * masks m
  let change := npMax fun m => |Jd m|
  let factor ← pyDiv p.JsStepUpperBound (max (change * p.acceptanceJs) p.JsStepUpperBound)
  let J1 : Vec M K := fun m => J m + factor * p.acceptanceJs * Jd m
  let J1 : Vec M K := fun m => J1 m * masks m
  let v ← pyDiv (∑ m, J1 m) ((nv : ℤ) : K)
  let J2 : Vec M K := fun m => J1 m + (1 - v)
  let J2 : Vec M K := fun m => J2 m * masks m
  let u := genFields (factor * p.acceptanceOmega) masks l.1 q.2.1
  let e ← opsEvolve o (factor * p.acceptanceOmega) masks cs 0
  pure (nv, J2, u.2.2, q.2.2.1, q.2.2.2, b.1, f, e.1, some (npMax fun m => |b.2 m|), some change,
    some u.2.1, some e.2)

/-- The transcribed loop body. -/
def opsBody (o : ConsOps α S M K) (ia : InteractionI S M K) (en : EntropyI C S M K)
    (es : EnsembleI C M K) (rng : Rng G K) (p : Params K) (tries : ℤ)
    (s : PassTuple C S M K G α) : Py (PassTuple C S M K G α) :=
  opsPass o ia en es p (genRevive rng p tries s.1 s.2.1 s.2.2.1 s.2.2.2.1 s.2.2.2.2.1).2
    s.2.2.2.2.2.1 s.2.2.2.2.2.2.1 s.2.2.2.2.2.2.2.1

/-- What the transcribed loop returns and leaves in its arguments. -/
abbrev MetaTuple (C S M : ℕ) (K G α : Type) : Type :=
  (K × K × K × K × ℤ × Bool) × Mat S M K × Vec M K × Mat C M K × Mat S M K × List α × G

/-- The lines after the transcribed loop. -/
def opsFinal (thr : K) (s : PassTuple C S M K G α) : Py (MetaTuple C S M K G α) := do
  let x1 ← boundVar s.2.2.2.2.2.2.2.2.1
  let x3 ← boundVar s.2.2.2.2.2.2.2.2.2.2.1
  let x2 ← boundVar s.2.2.2.2.2.2.2.2.2.1
  let x4 ← boundVar s.2.2.2.2.2.2.2.2.2.2.2
  pure ((x1, x3, x2, x4, s.2.2.2.2.1, decide (s.1 = Gen.count_valid_compartments s.2.1 thr)),
    s.2.2.1, s.2.1, s.2.2.2.2.2.1, s.2.2.2.2.2.2.1, s.2.2.2.2.2.2.2.1, s.2.2.2.1)

/-- The transcribed loop with constraints of any class. -/
def opsMeta (o : ConsOps α S M K) (ia : InteractionI S M K) (en : EntropyI C S M K)
    (es : EnsembleI C M K) (rng : Rng G K) (p : Params K) (tries steps : ℤ) (omegas : Mat S M K)
    (Js : Vec M K) (pc : Mat C M K) (pf : Mat S M K) (cs : List α) (g : G) :
    Py (MetaTuple C S M K G α) :=
  forRangeM steps.toNat ((0 : ℤ), Js, omegas, g, (0 : ℤ), pc, pf, cs, none, none, none, none)
    (fun _ => opsBody o ia en es rng p tries) >>= opsFinal p.killThreshold

theorem meta_user (ia : InteractionI S M K) (en : EntropyI C S M K) (es : EnsembleI C M K)
    (us : List (UserCons X S M K)) (omegas : Mat S M K) (Js : Vec M K) (pc : Mat C M K)
    (pf : Mat S M K) (steps tries : ℤ) (p : Params K) (rng : Rng G K) (g : G) :
    Gen.User.multicomponent_self_consistent_metastep ia en es us omegas Js pc pf steps
      p.acceptanceJs p.JsStepUpperBound p.acceptanceOmega p.killThreshold tries p.reviveScaler
      rng g = opsMeta UserCons.ops ia en es rng p tries steps omegas Js pc pf us g := rfl

theorem meta_library (ia : InteractionI S M K) (en : EntropyI C S M K) (es : EnsembleI C M K)
    (cs : List (Cons S M K)) (omegas : Mat S M K) (Js : Vec M K) (pc : Mat C M K)
    (pf : Mat S M K) (steps tries : ℤ) (p : Params K) (rng : Rng G K) (g : G) :
    Gen.multicomponent_self_consistent_metastep ia en es cs omegas Js pc pf steps
      p.acceptanceJs p.JsStepUpperBound p.acceptanceOmega p.killThreshold tries p.reviveScaler
      rng g = opsMeta Cons.ops ia en es rng p tries steps omegas Js pc pf cs g := rfl

/-! ### Maps of constraints -/

theorem ops_prepare (cs : List α) (f : α → α) :
    (if cs ≠ [] then mapList cs f else cs) = cs.map f := by
  cases cs <;> simp [mapList]

section Hom

variable {o : ConsOps α S M K} {o' : ConsOps β S M K} {φ : α → β} (h : o.Hom o' φ)
include h

theorem ConsOps.Hom.xi (coef : K) (incomp : Vec M K) (omegas pot : Mat S M K) (cs : List α)
    (masks : Vec M K) :
    opsXi o' coef incomp omegas pot (cs.map φ) masks = opsXi o coef incomp omegas pot cs masks := by
  unfold opsXi forList
  simp only [List.foldl_map, h.potential]

theorem ConsOps.Hom.local (vi ve xi incomp : Vec M K) (pot pf : Mat S M K) (cs : List α) :
    opsLocal o' vi ve xi incomp pot pf (cs.map φ) = opsLocal o vi ve xi incomp pot pf cs := by
  unfold opsLocal forList
  simp only [List.foldl_map, h.potential, h.volumeDerivative]

theorem ConsOps.Hom.evolveAll (step : K) (masks : Vec M K) (cs : List α) (acc : K) :
    opsEvolve o' step masks (cs.map φ) acc =
      (opsEvolve o step masks cs acc).map fun r => (r.1.map φ, r.2) := by
  induction cs generalizing acc with
  | nil => rfl
  | cons c cs ih =>
    unfold opsEvolve at ih ⊢
    rw [List.map_cons]
    unfold forListUpdM
    beta_reduce
    rw [h.evolve, Py.bind_map]
    cases o.evolve step masks c with
    | error e => rfl
    | ok r =>
      simp only [bind_ok, pure_eq_ok] at ih ⊢
      rw [ih, Py.bind_map, Py.map_bind]
      exact Py.bind_congr rfl fun _ => rfl

/-- Map the constraints of the loop. -/
def PassTuple.map (φ : α → β) (s : PassTuple C S M K G α) : PassTuple C S M K G β :=
  (s.1, s.2.1, s.2.2.1, s.2.2.2.1, s.2.2.2.2.1, s.2.2.2.2.2.1, s.2.2.2.2.2.2.1,
    s.2.2.2.2.2.2.2.1.map φ, s.2.2.2.2.2.2.2.2)

/-- Map the constraints of the outcome. -/
def MetaTuple.map (φ : α → β) (s : MetaTuple C S M K G α) : MetaTuple C S M K G β :=
  (s.1, s.2.1, s.2.2.1, s.2.2.2.1, s.2.2.2.2.1, s.2.2.2.2.2.1.map φ, s.2.2.2.2.2.2)

theorem ConsOps.Hom.pass (ia : InteractionI S M K) (en : EntropyI C S M K) (es : EnsembleI C M K)
    (p : Params K) (q : Vec M K × Mat S M K × G × ℤ) (pc : Mat C M K) (pf : Mat S M K)
    (cs : List α) :
    opsPass o' ia en es p q pc pf (cs.map φ) =
      (opsPass o ia en es p q pc pf cs).map (PassTuple.map φ) := by
  unfold opsPass
  rw [Py.map_bind]
  refine Py.bind_congr rfl fun a => ?_
  rw [Py.map_bind]
  refine Py.bind_congr rfl fun b => ?_
  rw [Py.map_bind]
  refine Py.bind_congr rfl fun f => ?_
  have e : ∀ J mk, (cs.map φ).map (o'.prepare f J mk) = (cs.map (o.prepare f J mk)).map φ :=
    fun J mk => by
      rw [List.map_map, List.map_map]
      exact List.map_congr_left fun c _ => h.prepare _ _ _ c
  simp only [ops_prepare, e]
  generalize List.map (o.prepare _ _ _) cs = cs
  rw [h.xi, h.local]
  rw [Py.map_bind]
  refine Py.bind_congr rfl fun mean => ?_
  rw [Py.map_bind]
  refine Py.bind_congr rfl fun factor => ?_
  rw [Py.map_bind]
  refine Py.bind_congr rfl fun v => ?_
  rw [h.evolveAll, Py.bind_map, Py.map_bind]
  exact Py.bind_congr rfl fun e => rfl

theorem ConsOps.Hom.meta (ia : InteractionI S M K) (en : EntropyI C S M K) (es : EnsembleI C M K)
    (rng : Rng G K) (p : Params K) (tries steps : ℤ) (omegas : Mat S M K)
    (Js : Vec M K) (pc : Mat C M K) (pf : Mat S M K) (cs : List α) (g : G) :
    opsMeta o' ia en es rng p tries steps omegas Js pc pf (cs.map φ) g =
      (opsMeta o ia en es rng p tries steps omegas Js pc pf cs g).map (MetaTuple.map φ) := by
  unfold opsMeta
  rw [Py.map_bind]
  refine (congrArg (· >>= _) (forRangeM_hom (PassTuple.map (C := C) (G := G) φ)
    (s := ((0 : ℤ), Js, omegas, g, (0 : ℤ), pc, pf, cs, none, none, none, none))
    fun _ s => h.pass ia en es p _ _ _ _)).trans ?_
  rw [Py.bind_map]
  refine Py.bind_congr rfl fun s => ?_
  unfold opsFinal
  rw [Py.map_bind]
  refine Py.bind_congr rfl fun x => ?_
  rw [Py.map_bind]
  refine Py.bind_congr rfl fun x => ?_
  rw [Py.map_bind]
  refine Py.bind_congr rfl fun x => ?_
  rw [Py.map_bind]
  exact Py.bind_congr rfl fun x => rfl

end Hom

end Flory
