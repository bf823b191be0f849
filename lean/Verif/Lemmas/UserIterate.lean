import Verif.Lemmas.UserPass
import Verif.Lemmas.Result

/-! # A pass with constraints of any class as a pass of the model

The pass uses only the potentials and volume derivatives of the prepared constraints.  So it is a pass of the
model with constraints that have these numbers as constants, followed by `evolve` of the constraints. -/

set_option linter.unusedSectionVars false

namespace Flory

variable {K G : Type} [Field K] [LinearOrder K] [IsStrictOrderedRing K] [FloorRing K]
  {C S M : ℕ} [NeZero M] {α X : Type}

/-- A constraint of the library with the potential and the volume derivative of a constraint as
constants. -/
def ConsOps.mimic (o : ConsOps α S M K) (c : α) : Cons S M K :=
  .no ⟨o.potential c, o.volumeDerivative c⟩

theorem consPot_mimic (o : ConsOps α S M K) (cs : List α) (r : Fin S) (m : Fin M) :
    consPot (cs.map o.mimic) r m = (cs.map fun c => o.potential c r m).sum := by
  unfold consPot
  rw [List.map_map]
  rfl

theorem consVd_mimic (o : ConsOps α S M K) (cs : List α) (m : Fin M) :
    consVd (cs.map o.mimic) m = (cs.map fun c => o.volumeDerivative c m).sum := by
  unfold consVd
  rw [List.map_map]
  rfl

theorem prepare_mimic (o : ConsOps α S M K) (f : Mat S M K) (J mk : Vec M K) (cs : List α) :
    (cs.map o.mimic).map (Cons.prepare f J mk) = cs.map o.mimic := by
  rw [List.map_map]
  rfl

theorem evolve_mimic (o : ConsOps α S M K) (step : K) (mk : Vec M K) (cs : List α) (acc : K) :
    ∃ r, evolveCons step mk (cs.map o.mimic) acc = .ok (r, cs.map o.mimic) := by
  induction cs generalizing acc with
  | nil => exact ⟨acc, rfl⟩
  | cons c cs ih =>
    obtain ⟨r, hr⟩ := ih (max acc 0)
    refine ⟨r, ?_⟩
    rw [List.map_cons]
    unfold evolveCons
    change (evolveCons step mk (cs.map o.mimic) (max acc 0) >>= fun q =>
      pure (q.1, o.mimic c :: q.2)) = _
    rw [hr]
    rfl

theorem xi_mimic (o : ConsOps α S M K) (coef : K) (incomp : Vec M K) (omegas pot : Mat S M K)
    (cs : List α) (masks : Vec M K) :
    opsXi o coef incomp omegas pot cs masks =
      computeXi coef incomp omegas pot (cs.map o.mimic) masks := by
  unfold opsXi computeXi forList
  simp only [List.foldl_map]
  rfl

theorem local_mimic (o : ConsOps α S M K) (vi ve xi incomp : Vec M K) (pot pf : Mat S M K)
    (cs : List α) :
    opsLocal o vi ve xi incomp pot pf cs = genLocal vi ve xi incomp pot pf (cs.map o.mimic) := by
  unfold opsLocal genLocal forList
  simp only [List.foldl_map]
  rfl

/-- A pass with constraints of any class. -/
structure OpsTrace (C S M : ℕ) (K G α : Type) where
  pass : Trace C S M K G
  prep : List α
  cons : List α
  residue : K

/-- The state of the transcribed loop after a pass. -/
def OpsTrace.gen (t : OpsTrace C S M K G α) : PassTuple C S M K G α :=
  (npInt t.pass.nValid, t.pass.Js, t.pass.omegas, t.pass.g, (t.pass.reviveCount : ℤ),
    t.pass.phisComp, t.pass.phisFeat, t.cons, some t.pass.maxAbsIncomp, some t.pass.maxAbsJsDiff,
    some t.pass.maxAbsOmegaDiff, some t.residue)

/-- A pass with constraints of any class; the constraints of the state are not used. -/
def opsIterate (o : ConsOps α S M K) (ia : InteractionI S M K) (en : EntropyI C S M K)
    (es : EnsembleI C M K) (rng : Rng G K) (p : Params K) (tries : ℤ) (count : ℕ)
    (s : State C S M K G) (cs : List α) : Py (OpsTrace C S M K G α) := do
  let rv := reviveBlock rng p tries s.Js s.omegas s.g count
  let masks := makeMasks rv.Js p.killThreshold
  let J : Vec M K := fun m => rv.Js m * masks m
  let a ← en.partition s.phisComp rv.targets J
  let b ← es.normalize a.1 a.2 masks
  let f ← en.compToFeat s.phisFeat b.1
  let prep := cs.map (o.prepare f J masks)
  let t ← iterate ia en es rng p tries count { s with cons := prep.map o.mimic }
  let e ← opsEvolve o (t.factor * p.acceptanceOmega) masks prep 0
  pure ⟨t, prep, e.1, e.2⟩

theorem opsPass_eq (o : ConsOps α S M K) (ia : InteractionI S M K) (en : EntropyI C S M K)
    (es : EnsembleI C M K) (rng : Rng G K) (p : Params K) (tries : ℤ) (c : ℕ)
    (s : State C S M K G) (cs : List α) (q)
    (hq : q = (fun r : ReviveState S M K G => (r.Js, r.targets, r.g, (r.count : ℤ)))
      (reviveBlock rng p tries s.Js s.omegas s.g c)) :
    opsPass o ia en es p q s.phisComp s.phisFeat cs =
      (opsIterate o ia en es rng p tries c s cs).map OpsTrace.gen := by
  subst hq
  unfold opsPass opsIterate
  cases ha : en.partition s.phisComp (reviveBlock rng p tries s.Js s.omegas s.g c).targets
      (fun m => (reviveBlock rng p tries s.Js s.omegas s.g c).Js m *
        makeMasks (reviveBlock rng p tries s.Js s.omegas s.g c).Js p.killThreshold m) with
  | error e => simp only [ha]; rfl
  | ok a =>
    simp only [ha, bind_ok]
    cases hb : es.normalize a.1 a.2
        (makeMasks (reviveBlock rng p tries s.Js s.omegas s.g c).Js p.killThreshold) with
    | error e => rfl
    | ok b =>
      simp only [bind_ok]
      cases hf : en.compToFeat s.phisFeat b.1 with
      | error e => rfl
      | ok f =>
        simp only [bind_ok, ops_prepare]
        unfold iterate
        simp only [ha, hb, hf, bind_ok, prepare_mimic]
        generalize reviveBlock rng p tries s.Js s.omegas s.g c = rv
        generalize List.map (o.prepare _ _ _) cs = cs
        rw [xi_mimic, local_mimic, genLocal_eq]
        generalize computeXi (K := K) (S := S) (M := M) _ _ _ _ _ _ = xi
        generalize computeLocal (K := K) (S := S) (M := M) _ _ _ _ _ _ _ = w
        obtain ⟨le, ot⟩ := w
        dsimp only [Prod.swap]
        rw [Py.bind_assoc, Py.map_bind]
        refine Py.bind_congr (congrArg (pyDiv _) (npInt_masks _ _)) fun mean => ?_
        rw [Py.bind_assoc, Py.map_bind]
        refine Py.bind_congr rfl fun factor => ?_
        rw [genFields_eq, npInt_masks]
        unfold updateJs
        dsimp only
        generalize updateOmegas (K := K) (S := S) (M := M) _ _ _ _ = u
        rw [Py.bind_assoc, Py.bind_assoc, Py.map_bind]
        refine Py.bind_congr rfl fun v => ?_
        obtain ⟨r, hr⟩ := evolve_mimic o (factor * p.acceptanceOmega)
          (makeMasks rv.Js p.killThreshold) cs 0
        rw [hr, Py.pure_bind, Py.ok_bind, Py.pure_bind]
        dsimp only
        rw [Py.map_bind]
        exact Py.bind_congr rfl fun e => rfl

/-- The facts about a pass. -/
structure OpsFacts (o : ConsOps α S M K) (ia : InteractionI S M K) (en : EntropyI C S M K)
    (es : EnsembleI C M K) (rng : Rng G K) (p : Params K) (tries : ℤ) (count : ℕ)
    (s : State C S M K G) (cs : List α) (t : OpsTrace C S M K G α) : Prop where
  facts : IterFacts ia en es rng p tries count { s with cons := t.prep.map o.mimic } t.pass
  prep : t.prep = cs.map (o.prepare t.pass.phisFeat t.pass.JsOld t.pass.masks)
  consPrep : t.pass.consPrep = t.prep.map o.mimic
  cons : opsEvolve o (t.pass.factor * p.acceptanceOmega) t.pass.masks t.prep 0 =
    .ok (t.cons, t.residue)

theorem opsIterate_facts {o : ConsOps α S M K} {ia : InteractionI S M K} {en : EntropyI C S M K}
    {es : EnsembleI C M K} {rng : Rng G K} {p : Params K} {tries : ℤ} {count : ℕ}
    {s : State C S M K G} {cs : List α} {t : OpsTrace C S M K G α}
    (h : opsIterate o ia en es rng p tries count s cs = .ok t) :
    OpsFacts o ia en es rng p tries count s cs t := by
  unfold opsIterate at h
  obtain ⟨a, ha, h⟩ := bind_eq_ok.mp h
  obtain ⟨b, hb, h⟩ := bind_eq_ok.mp h
  obtain ⟨f, hf, h⟩ := bind_eq_ok.mp h
  obtain ⟨t', ht, h⟩ := bind_eq_ok.mp h
  obtain ⟨e, he, h⟩ := bind_eq_ok.mp h
  cases h
  have F := iterate_facts ht
  have hm : t'.masks = makeMasks (reviveBlock rng p tries s.Js s.omegas s.g count).Js
    p.killThreshold := F.masks
  have hJ : t'.JsOld = fun m => (reviveBlock rng p tries s.Js s.omegas s.g count).Js m *
      makeMasks (reviveBlock rng p tries s.Js s.omegas s.g count).Js p.killThreshold m :=
    funext fun m => by rw [F.JsOld m, hm]
  have hpf : t'.phisFeat = f := by
    obtain ⟨phi0, h1, h2⟩ := F.partition
    have h3 := F.phisFeat
    rw [F.omegasOld, hJ] at h1
    have e1 : a = (phi0, t'.Qs) := Except.ok.inj (ha.symm.trans h1)
    subst e1
    rw [hm] at h2
    have e2 : b = (t'.phisComp, t'.incomp) := Except.ok.inj (hb.symm.trans h2)
    subst e2
    exact Except.ok.inj (h3.symm.trans hf)
  refine ⟨F, ?_, ?_, ?_⟩
  · rw [hpf, hJ, hm]
  · rw [F.consPrep]; exact prepare_mimic _ _ _ _ _
  · rw [hm]; exact he

/-- The passes after the first one. -/
def opsMore (o : ConsOps α S M K) (ia : InteractionI S M K) (en : EntropyI C S M K)
    (es : EnsembleI C M K) (rng : Rng G K) (p : Params K) (tries : ℤ) :
    ℕ → OpsTrace C S M K G α → Py (OpsTrace C S M K G α)
  | 0, t => .ok t
  | n + 1, t => do
    let t ← opsIterate o ia en es rng p tries t.pass.reviveCount t.pass.state t.cons
    opsMore o ia en es rng p tries n t

/-- The metastep. -/
def opsMetastep (o : ConsOps α S M K) (ia : InteractionI S M K) (en : EntropyI C S M K)
    (es : EnsembleI C M K) (rng : Rng G K) (p : Params K) (tries : ℤ) (n : ℕ)
    (s : State C S M K G) (cs : List α) : Py (OpsTrace C S M K G α) :=
  match n with
  | 0 => .error .unboundLocalError
  | n + 1 => do
    let t ← opsIterate o ia en es rng p tries 0 s cs
    opsMore o ia en es rng p tries n t

theorem opsMore_inv {o : ConsOps α S M K} {ia : InteractionI S M K} {en : EntropyI C S M K}
    {es : EnsembleI C M K} {rng : Rng G K} {p : Params K} {tries : ℤ}
    (P : OpsTrace C S M K G α → Prop)
    (hP : ∀ t t', P t →
      opsIterate o ia en es rng p tries t.pass.reviveCount t.pass.state t.cons = .ok t' → P t')
    {n : ℕ} {t t' : OpsTrace C S M K G α} (ht : P t)
    (h : opsMore o ia en es rng p tries n t = .ok t') : P t' := by
  induction n generalizing t with
  | zero => simp only [opsMore] at h; cases h; exact ht
  | succ n ih =>
    simp only [opsMore] at h
    obtain ⟨t1, h1, h2⟩ := bind_eq_ok.mp h
    exact ih (hP t t1 ht h1) h2

theorem opsMetastep_inv {o : ConsOps α S M K} {ia : InteractionI S M K} {en : EntropyI C S M K}
    {es : EnsembleI C M K} {rng : Rng G K} {p : Params K} {tries : ℤ} {n : ℕ}
    {s : State C S M K G} {cs : List α} {t' : OpsTrace C S M K G α}
    (P : OpsTrace C S M K G α → Prop)
    (h : opsMetastep o ia en es rng p tries n s cs = .ok t')
    (h0 : ∀ t, opsIterate o ia en es rng p tries 0 s cs = .ok t → P t)
    (hP : ∀ t t', P t →
      opsIterate o ia en es rng p tries t.pass.reviveCount t.pass.state t.cons = .ok t' → P t') :
    P t' := by
  cases n with
  | zero => cases h
  | succ n =>
    simp only [opsMetastep] at h
    obtain ⟨t1, h1, h2⟩ := bind_eq_ok.mp h
    exact opsMore_inv P hP (h0 _ h1) h2

/-- What the transcribed loop returns after a last pass. -/
def OpsTrace.result (thr : K) (t : OpsTrace C S M K G α) : MetaTuple C S M K G α :=
  ((t.pass.maxAbsIncomp, t.pass.maxAbsOmegaDiff, t.pass.maxAbsJsDiff, t.residue,
    (t.pass.reviveCount : ℤ), decide (t.pass.nValid = ((countValid t.pass.Js thr : ℕ) : K))),
    t.pass.omegas, t.pass.Js, t.pass.phisComp, t.pass.phisFeat, t.cons, t.pass.g)

theorem opsMeta_eq (o : ConsOps α S M K) (ia : InteractionI S M K) (en : EntropyI C S M K)
    (es : EnsembleI C M K) (rng : Rng G K) (p : Params K) (tries steps : ℤ)
    (s : State C S M K G) (cs : List α) :
    opsMeta o ia en es rng p tries steps s.omegas s.Js s.phisComp s.phisFeat cs s.g =
      (opsMetastep o ia en es rng p tries steps.toNat s cs).map
        (OpsTrace.result p.killThreshold) := by
  have hb : ∀ nv (s : State C S M K G) (c : ℕ) (cs : List α) r,
      opsBody o ia en es rng p tries (nv, s.Js, s.omegas, s.g, (c : ℤ), s.phisComp, s.phisFeat,
        cs, r) = (opsIterate o ia en es rng p tries c s cs).map OpsTrace.gen :=
    fun nv s c cs r => opsPass_eq o ia en es rng p tries c s cs _
      (genRevive_eq rng p tries nv s.Js s.omegas s.g c)
  have h1 : ∀ n, ∀ t : OpsTrace C S M K G α,
      forRangeM n t.gen (fun _ => opsBody o ia en es rng p tries) =
        (opsMore o ia en es rng p tries n t).map OpsTrace.gen := by
    intro n
    induction n with
    | zero => intro t; rw [forRangeM_zero]; rfl
    | succ n ih =>
      intro t
      rw [forRangeM_const_succ]
      refine (congrArg (· >>= _) (hb (npInt t.pass.nValid) t.pass.state t.pass.reviveCount t.cons
        _)).trans ?_
      rw [Py.bind_map]
      unfold opsMore
      rw [Py.map_bind]
      exact Py.bind_congr rfl fun t => ih t
  unfold opsMeta
  generalize steps.toNat = n
  cases n with
  | zero => exact Eq.trans (Py.bind_congr (forRangeM_zero _ _) fun _ => rfl) rfl
  | succ n =>
    rw [forRangeM_const_succ]
    refine (congrArg (fun x => (x >>= _) >>= _) (hb 0 s 0 cs
        (none, none, none, none))).trans ?_
    rw [Py.bind_map]
    simp only [opsMetastep]
    cases hi : opsIterate o ia en es rng p tries 0 s cs with
    | error e => rfl
    | ok t =>
      rw [Py.ok_bind, Py.ok_bind, h1]
      cases hm : opsMore o ia en es rng p tries n t with
      | error e => rfl
      | ok t' =>
        obtain ⟨k, hk⟩ := opsMore_inv (fun t => ∃ k : ℕ, t.pass.nValid = (k : K))
          (fun _ _ _ h => by
            have f := (opsIterate_facts h).facts
            exact ⟨_, by rw [f.nValid, f.masks, sum_masks]⟩)
          (by
            have f := (opsIterate_facts hi).facts
            exact ⟨_, by rw [f.nValid, f.masks, sum_masks]⟩) hm
        have hs : decide (npInt t'.pass.nValid =
              Gen.count_valid_compartments t'.pass.Js p.killThreshold) =
            decide (t'.pass.nValid = ((countValid t'.pass.Js p.killThreshold : ℕ) : K)) := by
          rw [hk, npInt_natCast, count_transcript]
          simp only [Nat.cast_inj]
        exact congrArg (fun b => Except.ok ((t'.pass.maxAbsIncomp, t'.pass.maxAbsOmegaDiff,
          t'.pass.maxAbsJsDiff, t'.residue, (t'.pass.reviveCount : ℤ), b), t'.pass.omegas,
          t'.pass.Js, t'.pass.phisComp, t'.pass.phisFeat, t'.cons, t'.pass.g)) hs

end Flory
