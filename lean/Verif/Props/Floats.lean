import Verif.Lemmas.Floats
import Verif.Lemmas.Ieee

/-! # C85: convergence is never reported with infinite or undefined fractions -/

set_option linter.unusedSectionVars false

namespace Flory

open Spec

variable {F G : Type} {o : Floats F} {C S M : ℕ} [NeZero M]

/-- **C85**, link to the other models: with exact operations the model with arbitrary arithmetic is the exact
one. -/
theorem C85_exact {K : Type} [Field K] [LinearOrder K] (ex : K → K) (e : RunEnv C S M K G) (maxSteps : ℚ)
    (tolerance : K) (interval : ℤ) (st : State C S M K G) (left : ℤ) :
    runImplF (Floats.exact K ex) e maxSteps tolerance interval st left =
      runImpl e maxSteps tolerance interval st left ∧
    (∀ c : CanonicalC C K, (⟨c.normalizeF (Floats.exact K ex)⟩ : EnsembleI C M K) = c.toI M) ∧
    ∀ c : GrandC C K, (⟨c.normalizeF (Floats.exact K ex)⟩ : EnsembleI C M K) = c.toI M :=
  ⟨runImpl_exact ex e maxSteps tolerance interval st left,
    fun c => congrArg EnsembleI.mk (canonical_exact ex c), fun c => congrArg EnsembleI.mk (grand_exact ex c)⟩

section Rules

variable {Finite : F → Prop} (ho : Ieee o Finite)
include ho

theorem known_finite {es : EnsembleI C M F} (hes : KnownEnsemble o es) {phi0 phis : Mat C M F} {Qs : Vec C F}
    {masks incomp : Vec M F} (h : es.normalize phi0 Qs masks = .ok (phis, incomp)) (m : Fin M)
    (hm : Finite (incomp m)) : Finite (masks m) ∧ ∀ i, Finite (phis i m) := by
  rcases hes with ⟨e, rfl⟩ | ⟨e, rfl⟩
  · exact finite_canonical ho h m hm
  · exact finite_grand ho (Qs := Qs) h m hm

section Pass

variable {ia : InteractionI S M F} {en : EntropyI C S M F} {es : EnsembleI C M F} {rng : Rng G F}
    {p : Params F} {tries : ℤ} {count : ℕ} {s : State C S M F G} {t : Trace C S M F G} {tol : F}
    (h : iterateF o ia en es rng p tries count s = .ok t)
include h

/-- **C85**, one pass: if the reported incompressibility passes the test, all fractions are finite; if also
the reported volume error does, then so is every other intermediate value. -/
theorem C85_pass (hes : KnownEnsemble o es) (hi : o.lt t.maxAbsIncomp tol) :
    (∀ m, Finite (t.incomp m) ∧ Finite (t.masks m) ∧ ∀ i, Finite (t.phisComp i m)) ∧
    (o.lt t.maxAbsJsDiff tol → ∀ m, Finite (t.JsDiff m) ∧ Finite (t.localEnergy m) ∧ Finite (t.xi m) ∧
      Finite (t.JsOld m) ∧
      (∀ r, Finite (t.phisFeat r m) ∧ Finite (t.omegasOld r m) ∧ Finite (t.potential r m)) ∧
      ∀ c ∈ t.consPrep, Finite (c.volumeDerivative m) ∧ ∀ r, Finite (c.potential r m)) := by
  obtain ⟨tmp, f⟩ := iterateF_facts h
  obtain ⟨phi0, -, hn⟩ := f.partition
  rw [f.maxAbsIncomp] at hi
  refine ⟨fun m => ?_, fun hj m => ?_⟩
  · have hm := finite_abs_max ho hi m
    exact ⟨hm, known_finite ho hes hn m hm⟩
  · rw [f.maxAbsJsDiff] at hj
    have hd := finite_abs_max ho hj
    have hd' := hd m
    rw [f.JsDiff] at hd'
    obtain ⟨h1, h2⟩ := ho.sub (ho.mul hd').1
    rw [pyDivF_ok f.mean] at h1
    have hJ := (ho.mul (ho.sum (ho.div h1) m)).2
    have hl : Finite ((computeLocalF o (ia.volumeDerivative t.potential t.phisFeat)
        (en.volumeDerivative t.phisComp) t.xi t.incomp t.potential t.phisFeat t.consPrep).1 m) := by
      rw [← f.loc]; exact h2
    obtain ⟨-, -, hx, -, hv, hr⟩ := finite_local ho hl
    have hx' := hx
    rw [f.xi] at hx'
    obtain ⟨-, -, -, hw, hc⟩ := finite_xi ho hx'
    exact ⟨hd m, h2, hx, hJ, fun r => ⟨(hr r).1, (hw r).1, (hw r).2⟩, fun c hcm => ⟨hv c hcm, hc c hcm⟩⟩

omit h in
theorem max2_lt {a b t : F} (hl : o.lt (o.max2 a b) t) : o.lt a t ∧ (o.eq b b → o.lt b t) := by
  rw [ho.max2] at hl
  split_ifs at hl with hab
  · exact ⟨ho.lt_trans hab hl, fun _ => hl⟩
  · exact ⟨hl, fun hb => ho.lt_of_not_lt hb hab hl⟩

/-- **C85**, fields: the reported field error ignores rows with NaN, but no others. -/
theorem C85_fields (hw : o.lt t.maxAbsOmegaDiff tol) (r : Fin S)
    (hr : ∀ m, o.eq (t.omegaDiff r m) (t.omegaDiff r m)) :
    ∀ m, o.lt (t.omegaDiff r m) tol := by
  obtain ⟨tmp, f⟩ := iterateF_facts h
  have hf := f.omegas
  unfold updateOmegasF at hf
  have inv := forRange_inv (n := S) (s := (o.ofNat 0, tmp, t.omegasOld)) (body := fun r s =>
      let omegaTemp := setAt s.2.1 r fun m => o.sub (s.2.1 r m) (s.2.2 r m)
      let omegaTemp := setAt omegaTemp r fun m => o.mul (omegaTemp r m) (t.masks m)
      let maxDiff := o.max2 s.1 (o.max (omegaTemp r))
      let omegas := setAt s.2.2 r fun m => o.add (s.2.2 r m) (o.mul (o.mul t.factor p.acceptanceOmega)
        (omegaTemp r m))
      let omegas := setAt omegas r fun m => o.mul (omegas r m) (t.masks m)
      (maxDiff, omegaTemp, omegas))
    (P := fun k (s : F × Mat S M F × Mat S M F) => o.lt s.1 tol → ∀ q : Fin S, q.1 < k →
      (∀ m, o.eq (s.2.1 q m) (s.2.1 q m)) → ∀ m, o.lt (s.2.1 q m) tol)
    (fun _ q hq => absurd hq (Nat.not_lt_zero _)) (by
      intro r s ih hl q hq hfin m
      obtain ⟨l1, l2⟩ := max2_lt ho hl
      by_cases hqr : q = r
      · subst hqr
        exact ho.lt_max (l2 (ho.max_number hfin)) m
      · have hne : q.1 ≠ r.1 := fun hc => hqr (Fin.ext hc)
        have e : ∀ m, setAt (setAt s.2.1 r fun m => o.sub (s.2.1 r m) (s.2.2 r m)) r
            (fun m => o.mul (setAt s.2.1 r (fun m => o.sub (s.2.1 r m) (s.2.2 r m)) r m) (t.masks m)) q m =
            s.2.1 q m := fun m => by rw [setAt_ne _ _ hqr, setAt_ne _ _ hqr]
        have hq' := ih l1 q (by omega) (fun m => by rw [← e]; exact hfin m) m
        rw [← e] at hq'
        exact hq')
  rw [← hf] at inv
  exact inv hw r r.2 hr

/-- **C85**, residues: likewise for constraints with NaN among their residues. -/
theorem C85_residues (hw : o.lt t.maxConstraintResidue tol) :
    ∀ c ∈ t.consPrep, Residues (fun x => o.eq x x) c → Residues (fun x => o.lt (o.abs x) tol) c := by
  obtain ⟨tmp, f⟩ := iterateF_facts h
  have key : ∀ (cs : List (Cons S M F)) (acc res : F) (cs' : List (Cons S M F)) (step : F),
      evolveConsF o step t.masks cs acc = .ok (res, cs') → o.lt res tol → o.lt acc tol ∧
      ∀ c ∈ cs, Residues (fun x => o.eq x x) c → Residues (fun x => o.lt (o.abs x) tol) c := by
    intro cs
    induction cs with
    | nil =>
      intro acc res cs' step he hl
      cases he
      exact ⟨hl, fun c hc => absurd hc List.not_mem_nil⟩
    | cons c cs ih =>
      intro acc res cs' step he hl
      unfold evolveConsF at he
      simp only [bind_eq_ok] at he
      obtain ⟨⟨r1, c1⟩, h1, ⟨r2, cs2⟩, h2, he⟩ := he
      cases he
      obtain ⟨a1, a2⟩ := ih _ _ _ _ h2 hl
      obtain ⟨b1, b2⟩ := max2_lt ho a1
      refine ⟨b1, fun d hd hfin => ?_⟩
      rcases List.mem_cons.mp hd with rfl | hd
      · cases d with
        | no c => trivial
        | loc A c =>
          unfold Cons.evolveF LocalC.evolveF at h1
          simp only [bind_eq_ok] at h1
          obtain ⟨⟨r3, c3⟩, ⟨r4, h4, h5⟩, h6⟩ := h1
          cases h5; cases h6
          cases A with
          | zero => cases h4
          | succ A =>
            cases h4
            intro a m
            have n2 := ho.max_number fun a => ho.max_number fun m => ho.abs_number (hfin a m)
            exact ho.lt_max (ho.lt_max (b2 n2) a) m
        | glob A c =>
          unfold Cons.evolveF GlobalC.evolveF at h1
          simp only [bind_eq_ok] at h1
          obtain ⟨⟨r3, c3⟩, ⟨r4, h4, h5⟩, h6⟩ := h1
          cases h5; cases h6
          cases A with
          | zero => cases h4
          | succ A =>
            cases h4
            intro a
            exact ho.lt_max (b2 (ho.max_number fun a => ho.abs_number (hfin a))) a
      · exact a2 d hd hfin
  exact (key _ _ _ _ _ f.cons hw).2

/-- **C85**, local constraints: if the volume error passes the test, their residues are not NaN. -/
theorem C85_local (hj : o.lt t.maxAbsJsDiff tol) (hi : o.lt t.maxAbsIncomp tol) (hes : KnownEnsemble o es)
    (hw : o.lt t.maxConstraintResidue tol) :
    ∀ c ∈ t.consPrep, LocalResidues (fun x => o.lt (o.abs x) tol) c := by
  obtain ⟨-, hfin⟩ := C85_pass ho h hes hi
  intro c hc
  have hr := C85_residues ho h hw c hc
  obtain ⟨tmp, f⟩ := iterateF_facts h
  have hc' := hc
  rw [f.consPrep] at hc'
  obtain ⟨d, -, rfl⟩ := List.mem_map.mp hc'
  cases d with
  | no c => trivial
  | glob A c => trivial
  | loc A c => exact hr fun a m => number_local ho ((hfin hj m).2.2.2.2.2 _ hc).1 a

/-- **C85**, volumes: if the pass is reported as safe, all compartments that were alive in it still have a
volume above the threshold (so not NaN). -/
theorem C85_volumes (hes : KnownEnsemble o es) (hi : o.lt t.maxAbsIncomp tol) (hM : Counts o M)
    (hthr : ¬o.lt p.killThreshold (o.ofNat 0))
    (hsafe : o.eq t.nValid (o.ofNat (countValidF o t.Js p.killThreshold))) :
    ∀ m, t.masks m = o.ofNat 1 ↔ o.lt p.killThreshold (t.Js m) := by
  obtain ⟨hfin, -⟩ := C85_pass ho h hes hi
  obtain ⟨tmp, f⟩ := iterateF_facts h
  have hmask : ∀ m, t.masks m = o.ofNat 0 ∨ t.masks m = o.ofNat 1 := by
    intro m
    have := (hfin m).2.1
    rw [f.masks] at this ⊢
    exact ho.mask this
  have hcount : countValidF o t.Js p.killThreshold = {m | o.lt p.killThreshold (t.Js m)}.ncard := by
    unfold countValidF
    rw [← Finset.card_filter, ← Set.ncard_coe_finset]
    congr 1
    ext m; simp
  have hle : countValidF o t.Js p.killThreshold ≤ M := by
    unfold countValidF
    rw [← Finset.card_filter]
    exact (Finset.card_le_univ _).trans (by simp)
  rw [f.nValid] at hsafe
  have hc := hM t.masks _ hmask hle hsafe
  have hsub : {m | o.lt p.killThreshold (t.Js m)} ⊆ {m | t.masks m = o.ofNat 1} := by
    intro m hm
    have hJ := f.Js
    unfold updateJsF at hJ
    rw [bind_eq_ok] at hJ
    obtain ⟨mean, -, hJ⟩ := hJ
    have hJ := Except.ok.inj hJ
    rcases hmask m with h0 | h1
    · exfalso
      have hm : o.lt p.killThreshold (t.Js m) := hm
      rw [← hJ] at hm
      beta_reduce at hm
      rw [h0] at hm
      exact ho.mul_zero hthr hm
    · exact h1
  have heq := Set.eq_of_subset_of_ncard_le hsub (by rw [hc, hcount]) (Set.toFinite _)
  intro m
  exact (Set.ext_iff.mp heq m).symm

end Pass

section Run

variable {e : RunEnv C S M F G}

omit ho in
theorem copyLoopF_rows {R : ℕ} {P : F → Prop} {rng : Rng G F} {th : F} {d : Fin M} {n : ℕ} {Js : Vec M F}
    {T : Mat R M F} {l : Vec M (Option (Fin M))} {g : G} {k : ℕ} {c : CopyState R M F G}
    (h : copyLoopF o rng th d n Js T l g k = .ok c) (hT : ∀ r m, P (T r m)) : ∀ r m, P (c.targets r m) := by
  induction n generalizing Js T l g k with
  | zero =>
    unfold copyLoopF Rng.integersPy at h
    rw [if_pos rfl] at h; cases h
  | succ n ih =>
    unfold copyLoopF at h
    simp only [bind_eq_ok] at h
    obtain ⟨⟨pos, g'⟩, -, x, -, h⟩ := h
    cases x with
    | none => cases h
    | some ref =>
      dsimp only at h
      split_ifs at h
      · rw [bind_eq_ok] at h
        obtain ⟨l', -, h⟩ := h
        cases h
        intro r m
        dsimp only
        split_ifs
        · exact hT r ref
        · exact hT r m
      · simp only [bind_eq_ok] at h
        obtain ⟨_, -, _, -, _, -, h⟩ := h
        exact ih h hT

omit ho in
theorem reviveByCopyF_rows {R : ℕ} {P : F → Prop} {rng : Rng G F} {th : F} {Js : Vec M F} {T : Mat R M F}
    {g : G} {c : CopyState R M F G} (h : reviveByCopyF o rng Js T th g = .ok c) (hT : ∀ r m, P (T r m)) :
    ∀ r m, P (c.targets r m) := by
  unfold reviveByCopyF at h
  rw [bind_eq_ok] at h
  obtain ⟨⟨dead, nd, living, nl⟩, -, h⟩ := h
  have key : ∀ (l : List (Option (Fin M))) (s : CopyState R M F G), copyDeadF o rng th l s = .ok c →
      (∀ r m, P (s.targets r m)) → ∀ r m, P (c.targets r m) := by
    intro l
    induction l with
    | nil => intro s hs hP; cases hs; exact hP
    | cons d l ih =>
      intro s hs hP
      cases d with
      | none => cases hs
      | some d =>
        unfold copyDeadF at hs
        rw [bind_eq_ok] at hs
        obtain ⟨s', h1, h2⟩ := hs
        exact ih s' h2 (copyLoopF_rows h1 hP)
  exact key _ _ h hT

omit ho in
theorem metastepF_pass {tries : ℤ} {n : ℕ} {s : State C S M F G} {r : MetaResult C S M F G}
    (h : metastepF o e.ia e.en e.es e.rng e.params tries n s = .ok r) :
    ∃ k s', iterateF o e.ia e.en e.es e.rng e.params tries k s' = .ok r.last := by
  cases n with
  | zero => cases h
  | succ n =>
    unfold metastepF at h
    simp only [bind_eq_ok] at h
    obtain ⟨t, h1, t', h2, h3⟩ := h
    cases h3
    have key : ∀ (n : ℕ) (t t' : Trace C S M F G), (∃ k s',
        iterateF o e.ia e.en e.es e.rng e.params tries k s' = .ok t) →
        iterateMoreF o e.ia e.en e.es e.rng e.params tries n t = .ok t' →
        ∃ k s', iterateF o e.ia e.en e.es e.rng e.params tries k s' = .ok t' := by
      intro n
      induction n with
      | zero => intro t t' ht h; cases h; exact ht
      | succ n ih =>
        intro t t' _ h
        unfold iterateMoreF at h
        rw [bind_eq_ok] at h
        obtain ⟨t1, a, b⟩ := h
        exact ih t1 t' ⟨_, _, a⟩ b
    exact key n t t' ⟨_, _, h1⟩ h2

omit ho in
theorem runLoopF_last {tol : F} {inner n : ℕ} {s s' : RunState C S M F G} {x : Py Unit}
    (hs : ∀ r, s.last = some r → s.st = r.last.state ∧ ∃ tries k s',
      iterateF o e.ia e.en e.es e.rng e.params tries k s' = .ok r.last)
    (h : runLoopF o e tol inner n s = (s', x)) (hx : x = .ok ()) :
    ∀ r, s'.last = some r → s'.st = r.last.state ∧ ∃ tries k s',
      iterateF o e.ia e.en e.es e.rng e.params tries k s' = .ok r.last := by
  induction n generalizing s with
  | zero => cases h; exact hs
  | succ n ih =>
    unfold runLoopF at h
    cases hm : metastepF o e.ia e.en e.es e.rng e.params s.reviveLeft inner s.st with
    | error err => rw [hm] at h; cases h; cases hx
    | ok r =>
      rw [hm] at h
      dsimp only at h
      have hr : ∀ q, some r = some q → r.last.state = q.last.state ∧ ∃ tries k s',
          iterateF o e.ia e.en e.es e.rng e.params tries k s' = .ok q.last := by
        intro q hq
        cases hq
        obtain ⟨k, s1, h1⟩ := metastepF_pass hm
        exact ⟨rfl, _, k, s1, h1⟩
      split_ifs at h
      · cases h; exact hr
      · exact ih hr h
      · cases h; cases hx

/-- **C85**, runs: whenever `run` returns and its diagnostics report an incompressibility below any number,
all fractions of the returned phases are finite. -/
theorem C85_run (hes : KnownEnsemble o e.es) {maxSteps : ℚ} {tol tol' : F} {interval : ℤ}
    {st : State C S M F G} {left : ℤ} {s : RunState C S M F G} {x : Phases M C F} {d : Diagnostics F}
    (h : runImplF o e maxSteps tol interval st left = (s, .ok (x, d))) (hd : o.lt d.maxAbsIncomp tol') :
    ∀ m i, Finite (x.fractions m i) := by
  unfold runImplF at h
  dsimp only at h
  split at h
  · cases h
  split at h
  · cases h
  split at h
  · cases h
  next tracker _ inner _ s1 hl =>
  unfold runFinalF at h
  split at h
  · cases h
  next c hc =>
  dsimp only at h
  split at h
  · cases h
  next r hr =>
  cases h
  obtain ⟨hst, tries, k, s', hp⟩ := runLoopF_last (fun r hr => by cases hr) hl rfl r hr
  obtain ⟨hfin, -⟩ := C85_pass ho hp hes hd
  intro m i
  refine reviveByCopyF_rows (P := Finite) hc (fun i m => ?_) i m
  rw [hst]
  exact (hfin m).2.2 i

/-- **C85**: if the finder reports convergence, then in the last pass all fractions, the incompressibility, the
volume error, the total fields, the interaction and constraint potentials are finite; rows of field
differences and residues of constraints without NaN are below the tolerance, as are all residues of local
constraints; and the volumes of all compartments in use are above the threshold (so not NaN). -/
theorem C85_converged (hes : KnownEnsemble o e.es) (hM : Counts o M)
    (hthr : ¬o.lt e.params.killThreshold (o.ofNat 0)) {tries : ℤ} {n : ℕ} {tol : F} {s : State C S M F G}
    {r : MetaResult C S M F G} (h : metastepF o e.ia e.en e.es e.rng e.params tries n s = .ok r)
    (hc : convergedF o tol r = true) :
    (∀ m, Finite (r.last.incomp m) ∧ Finite (r.last.JsDiff m) ∧ Finite (r.last.localEnergy m) ∧
      Finite (r.last.xi m) ∧ (∀ i, Finite (r.last.phisComp i m)) ∧
      (∀ q, Finite (r.last.phisFeat q m) ∧ Finite (r.last.omegasOld q m) ∧ Finite (r.last.potential q m)) ∧
      (∀ c ∈ r.last.consPrep, Finite (c.volumeDerivative m) ∧ ∀ q, Finite (c.potential q m)) ∧
      (r.last.masks m = o.ofNat 0 ∨ r.last.masks m = o.ofNat 1) ∧
      (r.last.masks m = o.ofNat 1 ↔ o.lt e.params.killThreshold (r.last.Js m))) ∧
    (∀ q, (∀ m, o.eq (r.last.omegaDiff q m) (r.last.omegaDiff q m)) → ∀ m, o.lt (r.last.omegaDiff q m) tol) ∧
    ∀ c ∈ r.last.consPrep, LocalResidues (fun x => o.lt (o.abs x) tol) c ∧
      (Residues (fun x => o.eq x x) c → Residues (fun x => o.lt (o.abs x) tol) c) := by
  obtain ⟨k, s', hp⟩ := metastepF_pass h
  unfold convergedF at hc
  simp only [Bool.and_eq_true, decide_eq_true_eq] at hc
  obtain ⟨⟨⟨⟨hsafe, hi⟩, hw⟩, hj⟩, hr⟩ := hc
  have hsafe' : o.eq r.last.nValid (o.ofNat (countValidF o r.last.Js e.params.killThreshold)) := by
    cases n with
    | zero => cases h
    | succ n =>
      unfold metastepF at h
      simp only [bind_eq_ok] at h
      obtain ⟨t, h1, t', h2, h3⟩ := h
      cases h3
      exact of_decide_eq_true hsafe
  obtain ⟨f1, f2⟩ := C85_pass ho hp hes hi
  have hv := C85_volumes ho hp hes hi hM hthr hsafe'
  refine ⟨fun m => ⟨(f1 m).1, (f2 hj m).1, (f2 hj m).2.1, (f2 hj m).2.2.1, (f1 m).2.2, (f2 hj m).2.2.2.2.1,
    (f2 hj m).2.2.2.2.2, ?_, hv m⟩, fun q => C85_fields ho hp hw q, fun c hcm =>
    ⟨C85_local ho hp hj hi hes hr c hcm, C85_residues ho hp hr c hcm⟩⟩
  obtain ⟨tmp, f⟩ := iterateF_facts hp
  have := (f1 m).2.1
  rw [f.masks] at this ⊢
  exact ho.mask this

end Run

end Rules

/-- **C85**, the reported field error alone says nothing: in double precision it is zero if all fields are
NaN. -/
theorem C85_blind {ia : InteractionI S M XReal} {en : EntropyI C S M XReal} {es : EnsembleI C M XReal}
    {rng : Rng G XReal} {p : Params XReal} {tries : ℤ} {count : ℕ} {s : State C S M XReal G}
    {t : Trace C S M XReal G} (h : iterateF doubles ia en es rng p tries count s = .ok t)
    (hn : ∀ r m, t.omegasOld r m = .nan) : t.maxAbsOmegaDiff = .fin 0 := by
  obtain ⟨tmp, f⟩ := iterateF_facts h
  have hf := f.omegas
  unfold updateOmegasF at hf
  have hmax : ∀ v : Vec M XReal, (∀ m, v m = .nan) → doubles.max v = .nan := by
    intro v hv
    exact forRange_inv (n := M) (s := v 0) (body := fun i acc => maxNan acc (v i)) (P := fun _ a => a = .nan)
      (hv 0) (fun i a ha => by rw [ha]; exact if_pos (fun h => h))
  have inv := forRange_inv (n := S) (s := (doubles.ofNat 0, tmp, t.omegasOld)) (body := fun r s =>
      let omegaTemp := setAt s.2.1 r fun m => doubles.sub (s.2.1 r m) (s.2.2 r m)
      let omegaTemp := setAt omegaTemp r fun m => doubles.mul (omegaTemp r m) (t.masks m)
      let maxDiff := doubles.max2 s.1 (doubles.max (omegaTemp r))
      let omegas := setAt s.2.2 r fun m => doubles.add (s.2.2 r m)
        (doubles.mul (doubles.mul t.factor p.acceptanceOmega) (omegaTemp r m))
      let omegas := setAt omegas r fun m => doubles.mul (omegas r m) (t.masks m)
      (maxDiff, omegaTemp, omegas))
    (P := fun k (s : XReal × Mat S M XReal × Mat S M XReal) => s.1 = .fin 0 ∧
      ∀ q : Fin S, k ≤ q.1 → ∀ m, s.2.2 q m = .nan)
    ⟨doubles_zero, fun q _ m => hn q m⟩ (by
      intro r s ⟨h1, h2⟩
      refine ⟨?_, fun q hq m => ?_⟩
      · dsimp only
        rw [setAt_same, hmax, h1]
        · exact if_neg (fun h => h)
        · intro m
          rw [setAt_same, h2 r le_rfl m]
          cases s.2.1 r m <;> cases t.masks m <;> rfl
      · have hne : q ≠ r := fun hc => by rw [hc] at hq; omega
        dsimp only
        rw [setAt_ne _ _ hne, setAt_ne _ _ hne]
        exact h2 q (by omega) m)
  rw [← hf] at inv
  exact inv.1

namespace FloatsExample

/-- One component without interaction in two equal compartments, in double precision. -/
noncomputable def entropy : EntropyI 1 1 2 XReal where
  partition _ w J := .ok (fun i m => doubles.exp (doubles.neg (w i m)),
    fun i => doubles.div (doubles.dot (fun m => doubles.exp (doubles.neg (w i m))) J) (doubles.sum J))
  compToFeat _ p := .ok p
  volumeDerivative _ _ := .fin 0

/-- No interaction. -/
noncomputable def interaction : InteractionI 1 2 XReal where
  potential _ _ _ := .fin 0
  volumeDerivative _ _ _ := .fin 0
  incompCoef _ := .fin 0

/-- Mean fraction one. -/
noncomputable def ensemble : EnsembleI 1 2 XReal := ⟨CanonicalC.normalizeF doubles ⟨fun _ => .fin 1⟩⟩

/-- Parameters. -/
noncomputable def params : Params XReal := ⟨.fin 1, .fin 1, .fin 1, .fin 0, .fin 1⟩

/-- Initial state. -/
def state : State 1 1 2 XReal Unit where
  omegas _ _ := .fin 0
  Js _ := .fin 1
  phisComp _ _ := .fin 1
  phisFeat _ _ := .fin 1
  cons := []
  g := ()

/-- A generator. -/
def rng : Rng Unit XReal := ⟨fun _ => (.fin 0, ()), fun _ => (.fin 0, ()), fun _ _ => (0, ())⟩

theorem converged : ∃ r, metastepF doubles interaction entropy ensemble rng params 0 1 state = .ok r ∧
    convergedF doubles (.fin 1) r = true ∧ r.last.Js = fun _ => .fin 1 := by
  have hr : reviveBlockF doubles rng params 0 state.Js state.omegas () 0 =
    ⟨fun _ => .fin 1, fun _ _ => .fin 0, (), 0⟩ := rfl
  have hm : makeMasksF doubles (fun _ : Fin 2 => XReal.fin 1) params.killThreshold = fun _ => .fin 1 := by
    funext m
    show doubles.clip0 (doubles.sign (doubles.sub (.fin 1) (.fin 0))) = _
    rw [doubles_sub, neg_zero, add_zero, toDouble_one, doubles_mask]
  have hJ : doubles.sum (fun _ : Fin 2 => XReal.fin 1) = .fin 2 := by
    show doubles.add (doubles.add (.fin 0) (.fin 1)) (.fin 1) = _
    rw [doubles_add, zero_add, toDouble_one, doubles_add, one_add_one_eq_two, toDouble_two]
  have h11 : doubles.mul (.fin 1) (.fin 1) = .fin 1 := by rw [doubles_mul, mul_one, toDouble_one]
  have h10 : ∀ x, doubles.mul (.fin x) (.fin 0) = .fin 0 := fun x => by rw [doubles_mul, mul_zero, toDouble_zero]
  have h01 : ∀ x, doubles.mul (.fin 0) (.fin x) = .fin 0 := fun x => by rw [doubles_mul, zero_mul, toDouble_zero]
  have a00 : doubles.add (.fin 0) (.fin 0) = .fin 0 := by rw [doubles_add, add_zero, toDouble_zero]
  have s00 : doubles.sub (.fin 0) (.fin 0) = .fin 0 := by rw [doubles_sub, neg_zero, add_zero, toDouble_zero]
  have a01 : doubles.add (.fin 0) (.fin 1) = .fin 1 := by rw [doubles_add, zero_add, toDouble_one]
  have a10 : doubles.add (.fin 1) (.fin 0) = .fin 1 := by rw [doubles_add, add_zero, toDouble_one]
  have n0 : doubles.ofNat 0 = .fin 0 := by rw [doubles_nat, Nat.cast_zero, toDouble_zero]
  have n1 : doubles.ofNat 1 = .fin 1 := by rw [doubles_nat, Nat.cast_one, toDouble_one]
  have e0 : doubles.exp (doubles.neg (.fin 0)) = .fin 1 := by
    rw [doubles_neg, neg_zero, doubles_exp, Real.exp_zero, toDouble_one]
  have hdot : doubles.dot (fun _ : Fin 2 => XReal.fin 1) (fun _ => .fin 1) = .fin 2 := by
    rw [doubles_dot, h11, a01, doubles_add, one_add_one_eq_two, toDouble_two]
  have h22 : doubles.div (.fin 2) (.fin 2) = .fin 1 := by
    rw [doubles_div two_ne_zero, div_self two_ne_zero, toDouble_one]
  have hm1 : doubles.mul (doubles.neg (.fin 1)) (.fin 1) = .fin (-1) := by
    rw [doubles_neg, doubles_mul, mul_one, toDouble_neg_one]
  have am1 : doubles.add (.fin (-1)) (.fin 1) = .fin 0 := by
    rw [doubles_add, neg_add_cancel, toDouble_zero]
  have p11 : doubles.pyDiv (.fin 1) (.fin 1) = .ok (.fin 1) := by
    unfold Floats.pyDiv
    rw [n0, doubles_div one_ne_zero, div_one, toDouble_one, if_neg (by rw [doubles_eq]; norm_num)]
  have hn : ensemble.normalize (fun _ _ => .fin 1) (fun _ => .fin 1) (fun _ => .fin 1) =
      .ok (fun _ _ => .fin 1, fun _ => .fin 0) := by
    show CanonicalC.normalizeF doubles ⟨fun _ => .fin 1⟩ (fun _ _ => .fin 1) (fun _ => .fin 1) (fun _ => .fin 1) = _
    unfold CanonicalC.normalizeF
    simp only [forRangeM_succ, forRangeM_zero, p11, n1, hm1, h11, bind, Except.bind, pure, Except.pure]
    congr 2
    · funext i m
      rw [show i = Fin.last 0 from Subsingleton.elim _ _, setAt_same]
    · funext m
      rw [setAt_same, am1, h01]
  have hp : entropy.partition state.phisComp (fun _ _ => .fin 0) (fun _ => .fin 1) =
      .ok (fun _ _ => .fin 1, fun _ => .fin 1) := by
    show Except.ok _ = _
    simp only [e0, hdot, hJ, h22]
  have d01 : doubles.div (.fin 0) (.fin 1) = .fin 0 := by rw [doubles_div one_ne_zero, div_one, toDouble_zero]
  have d02 : doubles.pyDiv (.fin 0) (.fin 2) = .ok (.fin 0) := by
    unfold Floats.pyDiv
    rw [n0, doubles_div two_ne_zero, zero_div, toDouble_zero, if_neg (by rw [doubles_eq]; norm_num)]
  have d22 : doubles.pyDiv (.fin 2) (.fin 2) = .ok (.fin 1) := by
    unfold Floats.pyDiv
    rw [n0, h22, if_neg (by rw [doubles_eq]; norm_num)]
  have s11 : doubles.sub (.fin 1) (.fin 1) = .fin 0 := by rw [doubles_sub, add_neg_cancel, toDouble_zero]
  have hx : computeXiF (S := 1) doubles (.fin 0) (fun _ => .fin 0) (fun _ _ => .fin 0) (fun _ _ => .fin 0) []
      (fun _ => .fin 1) = (fun _ => .fin 0 : Vec 2 XReal) := by
    unfold computeXiF
    simp only [forRange_succ, forRange_zero, List.foldl_nil, h10, h01, s00, a00, n1, d01]
  have hset : ∀ (x : Mat 1 2 XReal) (y : Vec 2 XReal), setAt x (Fin.last 0) y = fun _ => y := by
    intro x y
    funext i
    rw [show i = Fin.last 0 from Subsingleton.elim _ _, setAt_same]
  have hl : computeLocalF (S := 1) doubles (fun _ => .fin 0) (fun _ => .fin 0) (fun _ => .fin 0) (fun _ => .fin 0)
      (fun _ _ => .fin 0) (fun _ _ => .fin 1) [] = (fun _ => .fin 0, (fun _ _ => .fin 0 : Mat 1 2 XReal)) := by
    unfold computeLocalF
    simp only [forRange_succ, forRange_zero, List.foldl_nil, h10, h01, s00, a00, hset]
  have hs0 : doubles.sum (fun _ : Fin 2 => XReal.fin 0) = .fin 0 := by
    rw [doubles_sum, a00, a00]
  have hmx : doubles.max (fun _ : Fin 2 => XReal.fin 0) = .fin 0 := by
    rw [doubles_max, doubles_maxNan, doubles_maxNan]
  have hj : updateJsF doubles (.fin 1) (.fin 1) (fun _ : Fin 2 => XReal.fin 0) (fun _ => .fin 1) (.fin 2)
      (fun _ => .fin 1) = .ok fun _ => .fin 1 := by
    unfold updateJsF
    simp only [h11, h10, a10, hJ, d22, n1, s11, bind, Except.bind, pure, Except.pure]
  have hw : updateOmegasF (S := 1) doubles (.fin 1) (fun _ : Fin 2 => XReal.fin 1) (fun _ _ => .fin 0)
      (fun _ _ => .fin 0) = (.fin 0, fun _ _ => .fin 0, fun _ _ => .fin 0) := by
    unfold updateOmegasF
    simp only [forRange_succ, forRange_zero, hset, s00, h01, h10, n0, a00, hmx, doubles_max2 le_rfl]
  have hcount : countValidF doubles (fun _ : Fin 2 => XReal.fin 1) (.fin 0) = 2 := by
    unfold countValidF
    simp [doubles_lt]
  have h01' : doubles.eq (.fin 2) (doubles.ofNat 2) := by
    rw [doubles_nat]; norm_num [toDouble_two, doubles_eq]
  obtain ⟨t, ht, a, b, c, d, e, f⟩ : ∃ t, iterateF doubles interaction entropy ensemble rng params 0 0
      state = .ok t ∧ t.nValid = .fin 2 ∧ t.Js = (fun _ => .fin 1) ∧ t.maxAbsIncomp = .fin 0 ∧
      t.maxAbsOmegaDiff = .fin 0 ∧ t.maxAbsJsDiff = .fin 0 ∧ t.maxConstraintResidue = .fin 0 := by
    have hf : entropy.compToFeat state.phisFeat (fun _ _ => .fin 1) = .ok fun _ _ => .fin 1 := rfl
    have hc : state.cons = [] := rfl
    have hq : (fun _ : Fin 2 => doubles.abs (XReal.fin 0)) = fun _ => .fin 0 := by
      funext m; rw [doubles_abs, abs_zero]
    have i1 : interaction.potential = fun _ _ _ => .fin 0 := rfl
    have i2 : interaction.volumeDerivative = fun _ _ _ => .fin 0 := rfl
    have i3 : interaction.incompCoef = fun _ => .fin 0 := rfl
    have i4 : entropy.volumeDerivative = fun _ _ => .fin 0 := rfl
    have j1 : params.acceptanceJs = .fin 1 := rfl
    have j2 : params.JsStepUpperBound = .fin 1 := rfl
    have j3 : params.acceptanceOmega = .fin 1 := rfl
    unfold iterateF
    simp only [show state.g = () from rfl, hr, hm, h11, hJ, doubles_whole, hp, hn, bind, Except.bind, hf, hc,
      List.map_nil, i1, i2, i3, i4, hx, hl, h01, hs0, d02, s00, hq, hmx, j1, j2, j3, doubles_max2 zero_le_one, p11,
      hj, hw, evolveConsF, pure, Except.pure, n0]
    exact ⟨_, rfl, rfl, rfl, rfl, rfl, rfl, rfl⟩
  refine ⟨⟨t, true⟩, ?_, ?_, b⟩
  · unfold metastepF
    simp only [ht, bind, Except.bind, iterateMoreF, a, b, pure, Except.pure]
    rw [show params.killThreshold = .fin 0 from rfl, hcount, decide_eq_true h01']
  · have hlt : doubles.lt (.fin 0) (.fin 1) := by rw [doubles_lt]; exact one_pos
    unfold convergedF
    simp only [c, d, e, f, decide_eq_true hlt, Bool.and_self]

example : Ieee doubles XReal.IsFin ∧ Counts doubles 2 ∧ KnownEnsemble doubles ensemble ∧
    ¬doubles.lt params.killThreshold (doubles.ofNat 0) := by
  refine ⟨ieee_doubles, counts_doubles (by norm_num), Or.inl ⟨_, rfl⟩, ?_⟩
  rw [doubles_zero]
  exact lt_irrefl (0 : ℝ)

/-- The environment of a run. -/
noncomputable def env : RunEnv 1 1 2 XReal Unit :=
  ⟨interaction, entropy, ensemble, rng, params, "standard", fun s => s⟩

example : ∃ r, metastepF doubles env.ia env.en env.es env.rng env.params 0 1 state = .ok r ∧
    convergedF doubles (.fin 1) r = true ∧ ∀ i m, (r.last.phisComp i m).IsFin := by
  obtain ⟨r, h, hc, -⟩ := converged
  have hc' := C85_converged (e := env) ieee_doubles (Or.inl ⟨_, rfl⟩) (counts_doubles (by norm_num))
    (by rw [doubles_zero]; exact lt_irrefl (0 : ℝ)) h hc
  exact ⟨r, h, hc, fun i m => (hc'.1 m).2.2.2.2.1 i⟩

/-- A run of one step that converges. -/
theorem run_returns : ∃ s x d, runImplF doubles env 1 (.fin 1) 1 state 0 = (s, .ok (x, d)) ∧
    doubles.lt d.maxAbsIncomp (.fin 1) := by
  obtain ⟨r, h, hc, hJ⟩ := converged
  have ht : stepsTracker 1 1 = .ok 1 := by unfold stepsTracker; norm_num
  have hi : stepsInner 1 1 = .ok 1 := by unfold stepsInner; norm_num
  have hl : doubles.lt (doubles.mul (doubles.ofNat 2) (.fin 0)) (.fin 1) := by
    rw [doubles_nat, show ((2 : ℕ) : ℝ) = 2 by norm_num, toDouble_two, doubles_mul, mul_zero, toDouble_zero,
      doubles_lt]
    exact one_pos
  have hcopy : ∃ c, reviveByCopyF doubles env.rng r.last.state.Js r.last.state.phisComp env.params.killThreshold
      r.last.state.g = .ok c := by
    have hJ' : r.last.state.Js = fun _ => .fin 1 := hJ
    rw [hJ', show env.params.killThreshold = .fin 0 from rfl]
    unfold reviveByCopyF classifyF
    simp only [forRangeM_succ, forRangeM_zero, hl, if_true, bind, Except.bind, pure, Except.pure]
    exact ⟨_, rfl⟩
  obtain ⟨c, hcopy⟩ := hcopy
  have hrun : runLoopF doubles env (.fin 1) 1 1 ⟨state, 0, 0, none⟩ =
      (⟨r.last.state, 0 - r.last.reviveCount, 0 + 1, some r⟩, .ok ()) := by
    unfold runLoopF
    have h' : metastepF doubles env.ia env.en env.es env.rng env.params 0 1 state = .ok r := h
    dsimp only
    rw [h']
    dsimp only
    rw [if_pos (show env.criterion = "standard" from rfl), if_pos hc]
  unfold runImplF
  dsimp only
  rw [ht]
  dsimp only
  rw [hi]
  dsimp only
  rw [show (1 : ℤ).toNat = 1 from rfl, hrun]
  unfold runFinalF
  dsimp only
  rw [hcopy]
  refine ⟨_, _, _, rfl, ?_⟩
  unfold convergedF at hc
  simp only [Bool.and_eq_true, decide_eq_true_eq] at hc
  exact hc.1.1.1.2

example : ∃ s x d, runImplF doubles env 1 (.fin 1) 1 state 0 = (s, .ok (x, d)) ∧
    ∀ m i, (x.fractions m i).IsFin := by
  obtain ⟨s, x, d, h, hd⟩ := run_returns
  exact ⟨s, x, d, h, C85_run ieee_doubles (Or.inl ⟨_, rfl⟩) h hd⟩

/-- The state with fields that are NaN. -/
def nanState : State 1 1 2 XReal Unit := { state with omegas := fun _ _ => .nan }

theorem nan_pass : ∃ t, iterateF doubles interaction entropy ensemble rng params 0 0 nanState = .ok t ∧
    ∀ r m, t.omegasOld r m = .nan := by
  have hm : makeMasksF doubles (fun _ : Fin 2 => XReal.fin 1) params.killThreshold = fun _ => .fin 1 := by
    funext m
    show doubles.clip0 (doubles.sign (doubles.sub (.fin 1) (.fin 0))) = _
    rw [doubles_sub, neg_zero, add_zero, toDouble_one, doubles_mask]
  have hJ : doubles.sum (fun _ : Fin 2 => XReal.fin 1) = .fin 2 := by
    show doubles.add (doubles.add (.fin 0) (.fin 1)) (.fin 1) = _
    rw [doubles_add, zero_add, toDouble_one, doubles_add, one_add_one_eq_two, toDouble_two]
  have h11 : doubles.mul (.fin 1) (.fin 1) = .fin 1 := by rw [doubles_mul, mul_one, toDouble_one]
  have hr : reviveBlockF doubles rng params 0 nanState.Js nanState.omegas () 0 =
    ⟨fun _ => .fin 1, fun _ _ => .nan, (), 0⟩ := rfl
  have hp : entropy.partition nanState.phisComp (fun _ _ => .nan) (fun _ => .fin 1) =
      .ok (fun _ _ => .nan, fun _ => .nan) := by
    show Except.ok _ = _
    rw [hJ]; rfl
  have hn : ∃ x, ensemble.normalize (fun _ _ => .nan) (fun _ => .nan) (fun _ => .fin 1) = .ok x := by
    have hd : doubles.pyDiv (.fin 1) .nan = .ok .nan := if_neg (by rw [doubles_zero]; exact fun h => h)
    show ∃ x, CanonicalC.normalizeF doubles ⟨fun _ => .fin 1⟩ (fun _ _ => .nan) (fun _ => .nan)
      (fun _ => .fin 1) = .ok x
    unfold CanonicalC.normalizeF
    simp only [forRangeM_succ, forRangeM_zero, hd, bind, Except.bind, pure, Except.pure]
    exact ⟨_, rfl⟩
  obtain ⟨x, hn⟩ := hn
  have d2 : ∀ a, doubles.pyDiv a (.fin 2) = .ok (doubles.div a (.fin 2)) := fun a =>
    if_neg (by rw [doubles_zero, doubles_eq]; norm_num)
  have dm : ∀ a b, doubles.pyDiv a (doubles.max2 b (.fin 1)) = .ok (doubles.div a (doubles.max2 b (.fin 1))) := by
    intro a b
    refine if_neg ?_
    rw [doubles_zero]
    rcases Classical.em (ltX b (.fin 1)) with h | h
    · rw [show doubles.max2 b (.fin 1) = .fin 1 from if_pos h, doubles_eq]; norm_num
    · rw [show doubles.max2 b (.fin 1) = b from if_neg h]
      intro hb
      cases b with
      | fin b => exact h (by show b < 1; rw [show b = 0 from hb]; exact one_pos)
      | pinf => exact hb
      | ninf => exact hb
      | nan => exact hb
  have hf : ∀ y, entropy.compToFeat nanState.phisFeat y = .ok y := fun _ => rfl
  have hc : nanState.cons = [] := rfl
  have j2 : params.JsStepUpperBound = .fin 1 := rfl
  unfold iterateF
  simp only [show nanState.g = () from rfl, hr, hm, h11, hJ, doubles_whole, hp, hn, bind, Except.bind, hf, hc,
    List.map_nil, d2, j2, dm, updateJsF, evolveConsF, pure, Except.pure]
  exact ⟨_, rfl, fun _ _ => rfl⟩

example : ∃ t, iterateF doubles interaction entropy ensemble rng params 0 0 nanState = .ok t ∧
    (∀ r m, t.omegasOld r m = .nan) ∧ t.maxAbsOmegaDiff = .fin 0 := by
  obtain ⟨t, h, hn⟩ := nan_pass
  exact ⟨t, h, hn, C85_blind h hn⟩

end FloatsExample

end Flory
