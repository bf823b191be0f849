import Verif.Lemmas.Transcript
import Verif.Lemmas.Metastep

/-! # The transcribed loop body is the pass of the model -/

set_option linter.unusedSectionVars false

namespace Flory

variable {K G : Type} [Field K] [LinearOrder K] [IsStrictOrderedRing K] [FloorRing K]
  {C S M : ℕ} [NeZero M]

theorem npInt_natCast (n : ℕ) : npInt ((n : ℕ) : K) = n := by
  unfold npInt
  rw [if_pos (Nat.cast_nonneg n)]
  exact Int.floor_natCast n

theorem npInt_masks (Js : Vec M K) (t : K) :
    ((npInt (∑ m, makeMasks Js t m) : ℤ) : K) = ∑ m, makeMasks Js t m := by
  rw [sum_masks, npInt_natCast]; norm_cast

theorem evolve_transcript (step : K) (masks : Vec M K) (cs : List (Cons S M K)) (acc : K) :
    forListUpdM cs acc (fun cons a => do
      let t ← Cons.evolve step masks cons
      pure (t.2, max a t.1)) = (evolveCons step masks cs acc).map Prod.swap := by
  induction cs generalizing acc with
  | nil => rfl
  | cons c cs ih =>
    unfold forListUpdM evolveCons
    beta_reduce
    cases h : c.evolve step masks with
    | error e => rfl
    | ok r =>
      change (do
        let q ← forListUpdM cs (max acc r.1) fun cons a => do
          let t ← Cons.evolve step masks cons
          pure (t.2, max a t.1)
        pure (r.2 :: q.1, q.2)) = _
      rw [ih, Py.bind_map, Py.map_bind, Py.ok_bind, Py.map_bind]
      exact Py.bind_congr rfl fun _ => rfl

theorem Py.bind_assoc {α β γ : Type} (x : Py α) (f : α → Py β) (g : β → Py γ) :
    x >>= f >>= g = x >>= fun a => f a >>= g := by
  cases x <;> rfl

theorem Py.pure_bind {α β : Type} (x : α) (f : α → Py β) : (pure x : Py α) >>= f = f x := rfl

/-- The state of the transcribed loop after a pass. -/
def Trace.gen (t : Trace C S M K G) : ℤ × Vec M K × Mat S M K × G × ℤ × Mat C M K × Mat S M K ×
    List (Cons S M K) × Option K × Option K × Option K × Option K :=
  (npInt t.nValid, t.Js, t.omegas, t.g, (t.reviveCount : ℤ), t.phisComp, t.phisFeat, t.cons,
    some t.maxAbsIncomp, some t.maxAbsJsDiff, some t.maxAbsOmegaDiff, some t.maxConstraintResidue)

theorem loop_transcript (ia : InteractionI S M K) (en : EntropyI C S M K) (es : EnsembleI C M K)
    (rng : Rng G K) (p : Params K) (tries : ℤ)
    {b : ℤ × Vec M K × Mat S M K × G × ℤ × Mat C M K × Mat S M K × List (Cons S M K) ×
      Option K × Option K × Option K × Option K → Py (ℤ × Vec M K × Mat S M K × G × ℤ × Mat C M K ×
        Mat S M K × List (Cons S M K) × Option K × Option K × Option K × Option K)}
    (hb : ∀ nv J o g (c : ℕ) pc pf cs r, b (nv, J, o, g, (c : ℤ), pc, pf, cs, r) =
      (iterate ia en es rng p tries c ⟨o, J, pc, pf, cs, g⟩).map Trace.gen) (n : ℕ) :
    (∀ t : Trace C S M K G, forRangeM n t.gen (fun _ => b) =
      (iterateMore ia en es rng p tries n t).map Trace.gen) ∧
    ∀ nv J o g pc pf cs r, forRangeM (n + 1) (nv, J, o, g, (0 : ℤ), pc, pf, cs, r) (fun _ => b) =
      (iterate ia en es rng p tries 0 ⟨o, J, pc, pf, cs, g⟩ >>=
        iterateMore ia en es rng p tries n).map Trace.gen := by
  have h1 : ∀ n, ∀ t : Trace C S M K G, forRangeM n t.gen (fun _ => b) =
      (iterateMore ia en es rng p tries n t).map Trace.gen := by
    intro n
    induction n with
    | zero => intro t; rw [forRangeM_zero]; rfl
    | succ n ih =>
      intro t
      rw [forRangeM_const_succ]
      unfold Trace.gen
      rw [hb, Py.bind_map]
      unfold iterateMore
      rw [Py.map_bind]
      exact Py.bind_congr rfl fun t => ih t
  refine ⟨h1 n, fun nv J o g pc pf cs r => ?_⟩
  rw [forRangeM_const_succ, ← Nat.cast_zero, hb, Py.bind_map, Py.map_bind]
  exact Py.bind_congr rfl fun t => h1 n t

theorem prepare_transcript (cs : List (Cons S M K)) (f : Cons S M K → Cons S M K) :
    (if cs ≠ [] then mapList cs f else cs) = cs.map f := by
  cases cs <;> simp [mapList]

/-- The loops that finish `local_energy` and `omega_temp`, as transcribed. -/
def genLocal (vi ve xi incomp : Vec M K) (potential pf : Mat S M K) (cs : List (Cons S M K)) :
    Mat S M K × Vec M K :=
  (fun s : Vec M K × Mat S M K => forRange S (s.2, s.1) fun r q =>
      (setAt q.1 r (fun m => q.1 r m + xi m),
        fun m => q.2 m - setAt q.1 r (fun m => q.1 r m + xi m) r m * pf r m))
    (forList cs ((fun m => vi m + ve m + xi m * incomp m), potential) fun c s =>
      ((fun m => s.1 m + c.volumeDerivative m), fun r m => s.2 r m + c.potential r m))

theorem genLocal_eq (vi ve xi incomp : Vec M K) (potential pf : Mat S M K)
    (cs : List (Cons S M K)) :
    genLocal vi ve xi incomp potential pf cs = (computeLocal vi ve xi incomp potential pf cs).swap :=
  forRange_hom Prod.swap fun _ _ => rfl

/-- The loop over the features that updates the fields, as transcribed. -/
def genFields (step : K) (masks : Vec M K) (ot o : Mat S M K) : Mat S M K × K × Mat S M K :=
  forRange S (ot, (0 : K), o) fun r q =>
    let t := setAt q.1 r (fun m => q.1 r m - q.2.2 r m)
    let t := setAt t r (fun m => t r m * masks m)
    let d := max q.2.1 (npMax fun m => t r m)
    let w := setAt q.2.2 r (fun m => q.2.2 r m + step * t r m)
    let w := setAt w r (fun m => w r m * masks m)
    (t, d, w)

theorem genFields_eq (step : K) (masks : Vec M K) (ot o : Mat S M K) :
    genFields step masks ot o =
    (fun u : K × Mat S M K × Mat S M K => (u.2.1, u.1, u.2.2)) (updateOmegas step masks ot o) :=
  forRange_hom (fun u : K × Mat S M K × Mat S M K => (u.2.1, u.1, u.2.2)) (s := (0, ot, o))
    fun _ _ => rfl

/-- The first lines of the transcribed pass: revival of compartments. -/
def genRevive (rng : Rng G K) (p : Params K) (tries nv : ℤ) (J : Vec M K) (o : Mat S M K) (g : G)
    (c : ℤ) : ℤ × Vec M K × Mat S M K × G × ℤ :=
  if c < tries then
    let n := Gen.count_valid_compartments J p.killThreshold
    let s := if n ≠ ((M : ℕ) : ℤ) then
        let t := Gen.revive_compartments_by_random J o p.killThreshold rng p.reviveScaler g
        (t.2.1, t.2.2.1, t.2.2.2, c + t.1)
      else (J, o, g, c)
    (n, s)
  else (nv, J, o, g, c)

theorem genRevive_eq (rng : Rng G K) (p : Params K) (tries nv : ℤ) (J : Vec M K) (o : Mat S M K)
    (g : G) (c : ℕ) :
    (genRevive rng p tries nv J o g c).2 = (fun r : ReviveState S M K G =>
      (r.Js, r.targets, r.g, (r.count : ℤ))) (reviveBlock rng p tries J o g c) := by
  have hcount : Gen.count_valid_compartments J p.killThreshold
      = ((countValid J p.killThreshold : ℕ) : ℤ) := by
    simp [Gen.count_valid_compartments, countValid]
  unfold genRevive reviveBlock
  by_cases h : (c : ℤ) < tries
  · rw [if_pos h, if_pos h]
    dsimp only
    rw [hcount]
    by_cases hv : countValid J p.killThreshold = M
    · rw [if_neg (by simp [hv]), if_neg (by simp [hv])]
    · rw [if_pos (by exact_mod_cast hv), if_pos hv, revive_transcript]
      simp [ReviveState.tuple]
  · rw [if_neg h, if_neg h]

/-- The transcribed pass after the revival. -/
def genPass (ia : InteractionI S M K) (en : EntropyI C S M K) (es : EnsembleI C M K)
    (p : Params K) (q : Vec M K × Mat S M K × G × ℤ) (pc : Mat C M K) (pf : Mat S M K)
    (cs : List (Cons S M K)) : Py (ℤ × Vec M K × Mat S M K × G × ℤ × Mat C M K × Mat S M K ×
      List (Cons S M K) × Option K × Option K × Option K × Option K) := do
  let masks := makeMasks q.1 p.killThreshold
  let nv := npInt (∑ m, masks m)
  let J : Vec M K := fun m => q.1 m * masks m
  let a ← en.partition pc q.2.1 J
  let b ← es.normalize a.1 a.2 masks
  let f ← en.compToFeat pf b.1
  let cs := if cs ≠ [] then mapList cs (Cons.prepare f J masks) else cs
  let pot := ia.potential f
  let xi := computeXi (ia.incompCoef f) b.2 q.2.1 pot cs masks
  let l := genLocal (ia.volumeDerivative pot f) (en.volumeDerivative b.1) xi b.2 pot f cs
  let mean ← pyDiv (∑ m, l.2 m * J m) ((nv : ℤ) : K)
  let Jd : Vec M K := fun m => (mean - l.2 m) * masks m
  let change := npMax fun m => |Jd m|
  let factor ← pyDiv p.JsStepUpperBound (max (change * p.acceptanceJs) p.JsStepUpperBound)
  let J1 : Vec M K := fun m => J m + factor * p.acceptanceJs * Jd m
  let J1 : Vec M K := fun m => J1 m * masks m
  let v ← pyDiv (∑ m, J1 m) ((nv : ℤ) : K)
  let J2 : Vec M K := fun m => J1 m + (1 - v)
  let J2 : Vec M K := fun m => J2 m * masks m
  let u := genFields (factor * p.acceptanceOmega) masks l.1 q.2.1
  let e ← forListUpdM cs 0 fun cons a => do
      let t ← Cons.evolve (factor * p.acceptanceOmega) masks cons
      pure (t.2, max a t.1)
  pure (nv, J2, u.2.2, q.2.2.1, q.2.2.2, b.1, f, e.1, some (npMax fun m => |b.2 m|), some change,
    some u.2.1, some e.2)

theorem genPass_eq (ia : InteractionI S M K) (en : EntropyI C S M K) (es : EnsembleI C M K)
    (rng : Rng G K) (p : Params K) (tries : ℤ) (c : ℕ) (s : State C S M K G) (q)
    (hq : q = (fun r : ReviveState S M K G => (r.Js, r.targets, r.g, (r.count : ℤ)))
      (reviveBlock rng p tries s.Js s.omegas s.g c)) :
    genPass ia en es p q s.phisComp s.phisFeat s.cons =
      (iterate ia en es rng p tries c s).map Trace.gen := by
  subst hq
  unfold genPass iterate
  generalize reviveBlock rng p tries s.Js s.omegas s.g c = rv
  rw [Py.map_bind]
  refine Py.bind_congr rfl fun a => ?_
  rw [Py.map_bind]
  refine Py.bind_congr rfl fun b => ?_
  rw [Py.map_bind]
  refine Py.bind_congr rfl fun f => ?_
  rw [prepare_transcript]
  dsimp only
  generalize List.map _ s.cons = cs
  generalize computeXi (K := K) (S := S) (M := M) _ _ _ _ _ _ = xi
  rw [genLocal_eq]
  generalize computeLocal (K := K) (S := S) (M := M) _ _ _ _ _ _ _ = w
  obtain ⟨le, ot⟩ := w
  dsimp only [Prod.swap]
  rw [Py.map_bind]
  refine Py.bind_congr (congrArg (pyDiv _) (npInt_masks _ _)) fun mean => ?_
  rw [Py.map_bind]
  refine Py.bind_congr rfl fun factor => ?_
  rw [genFields_eq, evolve_transcript, npInt_masks]
  unfold updateJs
  dsimp only
  generalize updateOmegas (K := K) (S := S) (M := M) _ _ _ _ = u
  rw [Py.map_bind, Py.bind_assoc]
  refine Py.bind_congr rfl fun v => ?_
  rw [Py.bind_map, Py.pure_bind, Py.map_bind]
  exact Py.bind_congr rfl fun e => rfl

theorem count_transcript (J : Vec M K) (t : K) :
    Gen.count_valid_compartments J t = ((countValid J t : ℕ) : ℤ) := by
  unfold Gen.count_valid_compartments countValid
  push_cast
  rfl

theorem iterate_nValid_nat {ia : InteractionI S M K} {en : EntropyI C S M K} {es : EnsembleI C M K}
    {rng : Rng G K} {p : Params K} {tries : ℤ} {c : ℕ} {s : State C S M K G}
    {t : Trace C S M K G} (h : iterate ia en es rng p tries c s = .ok t) :
    ∃ k : ℕ, t.nValid = (k : K) := by
  have f := iterate_facts h
  exact ⟨_, by rw [f.nValid, f.masks, sum_masks]⟩

theorem metastep_transcript (ia : InteractionI S M K) (en : EntropyI C S M K) (es : EnsembleI C M K)
    (rng : Rng G K) (p : Params K) (tries steps : ℤ) (s : State C S M K G) :
    Gen.multicomponent_self_consistent_metastep ia en es s.cons s.omegas s.Js s.phisComp s.phisFeat
      steps p.acceptanceJs p.JsStepUpperBound p.acceptanceOmega p.killThreshold tries
      p.reviveScaler rng s.g =
    (metastep ia en es rng p tries steps.toNat s).map fun r =>
      ((r.last.maxAbsIncomp, r.last.maxAbsOmegaDiff, r.last.maxAbsJsDiff,
        r.last.maxConstraintResidue, (r.last.reviveCount : ℤ), r.isLastStepSafe),
        r.last.omegas, r.last.Js, r.last.phisComp, r.last.phisFeat, r.last.cons, r.last.g) := by
  unfold Gen.multicomponent_self_consistent_metastep
  generalize steps.toNat = n
  cases n with
  | zero => exact Eq.trans (Py.bind_congr (forRangeM_zero _ _) fun _ => rfl) rfl
  | succ n =>
    refine Eq.trans (Py.bind_congr ((loop_transcript ia en es rng p tries ?_ n).2 _ _ _ _ _ _ _ _)
      fun _ => rfl) ?_
    · intro nv J o g c pc pf cs r
      exact genPass_eq ia en es rng p tries c ⟨o, J, pc, pf, cs, g⟩
        (genRevive rng p tries nv J o g c).2 (genRevive_eq rng p tries nv J o g c)
    · rw [Py.bind_map]
      simp only [metastep]
      cases h1 : iterate ia en es rng p tries 0 s with
      | error e => rfl
      | ok t =>
        rw [Py.ok_bind, Py.ok_bind]
        cases h2 : iterateMore ia en es rng p tries n t with
        | error e => rfl
        | ok t' =>
          obtain ⟨k, hk⟩ := iterateMore_inv (fun t => ∃ k : ℕ, t.nValid = (k : K))
            (fun _ _ _ h => iterate_nValid_nat h) (iterate_nValid_nat h1) h2
          have hs : decide (npInt t'.nValid = Gen.count_valid_compartments t'.Js p.killThreshold) =
              decide (t'.nValid = ((countValid t'.Js p.killThreshold : ℕ) : K)) := by
            rw [hk, npInt_natCast, count_transcript]
            simp only [Nat.cast_inj]
          rw [Py.ok_bind, Py.ok_bind]
          exact congrArg (fun b => Except.ok ((t'.maxAbsIncomp, t'.maxAbsOmegaDiff,
            t'.maxAbsJsDiff, t'.maxConstraintResidue, (t'.reviveCount : ℤ), b), t'.omegas, t'.Js,
            t'.phisComp, t'.phisFeat, t'.cons, t'.g)) hs

end Flory
