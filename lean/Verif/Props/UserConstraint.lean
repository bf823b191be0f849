import Verif.Lemmas.UserOk
import Verif.Props.TranscriptFinder

/-!
# Constraints of any class (C112)

`Verif/Gen/UserFinderImpl.lean` and `Verif/Gen/UserFinder.lean` contain the core loop and the finder as translated
from the Python text, for constraints of any class: only the methods of `ConstraintBaseCompiled` are
used.
-/

set_option linter.unusedSectionVars false

namespace Flory

open Spec

section Library

variable {K G : Type} [Field K] [LinearOrder K] [IsStrictOrderedRing K] [FloorRing K]
  {C S M : ℕ} [NeZero M]

theorem library_hom : (Cons.ops (S := S) (M := M) (K := K)).Hom UserCons.ops ofLibrary where
  prepare _ _ _ _ := rfl
  potential _ := rfl
  volumeDerivative _ := rfl
  evolve _ _ _ := rfl

/-- **C112**, the library: with the constraints of the library, the core loop for constraints of any
class is the core loop of the other claims. -/
theorem C112_library_metastep (ia : InteractionI S M K) (en : EntropyI C S M K)
    (es : EnsembleI C M K) (cs : List (Cons S M K)) (omegas : Mat S M K) (Js : Vec M K)
    (pc : Mat C M K) (pf : Mat S M K) (steps tries : ℤ) (p : Params K) (rng : Rng G K) (g : G) :
    Gen.User.multicomponent_self_consistent_metastep ia en es (cs.map ofLibrary) omegas Js pc pf
      steps p.acceptanceJs p.JsStepUpperBound p.acceptanceOmega p.killThreshold tries p.reviveScaler
      rng g =
    (Gen.multicomponent_self_consistent_metastep ia en es cs omegas Js pc pf
      steps p.acceptanceJs p.JsStepUpperBound p.acceptanceOmega p.killThreshold tries p.reviveScaler
      rng g).map fun (r, o, J, c, f, cs, g) => (r, o, J, c, f, cs.map ofLibrary, g) := by
  rw [meta_user, meta_library, library_hom.meta]
  rfl

/-- **C112**, volumes: whatever the objects do, when the core loop returns, the volumes add up to a
number of compartments, some volume is at least one, and if the last step is reported safe the number is
that of the compartments above the threshold. -/
theorem C112_volumes {X : Type} {ia : InteractionI S M K} {en : EntropyI C S M K}
    {es : EnsembleI C M K} {us us' : List (UserCons X S M K)} {omegas o : Mat S M K} {Js J : Vec M K}
    {pc c' : Mat C M K} {pf f : Mat S M K} {steps tries : ℤ} {p : Params K} {rng : Rng G K} {g g' : G}
    {a b c d : K} {n : ℤ} {safe : Bool}
    (h : Gen.User.multicomponent_self_consistent_metastep ia en es us omegas Js pc pf
      steps p.acceptanceJs p.JsStepUpperBound p.acceptanceOmega p.killThreshold tries p.reviveScaler
      rng g = .ok ((a, b, c, d, n, safe), o, J, c', f, us', g')) :
    (∃ k : ℕ, 1 ≤ k ∧ k ≤ M ∧ ∑ m, J m = (k : K)) ∧ (∃ m, 1 ≤ J m) ∧ 0 ≤ n ∧ 0 ≤ d ∧
      us'.length = us.length ∧
      (safe = true → ∑ m, J m = (Fintype.card {m // p.killThreshold < J m} : K)) := by
  rw [meta_user] at h
  have hm := opsMeta_eq UserCons.ops ia en es rng p tries steps ⟨omegas, Js, pc, pf, [], g⟩ us
  dsimp only at hm
  rw [hm] at h
  cases ht : opsMetastep UserCons.ops ia en es rng p tries steps.toNat ⟨omegas, Js, pc, pf, [], g⟩ us with
  | error e => rw [ht] at h; cases h
  | ok t =>
    rw [ht] at h
    have he := Except.ok.inj h
    simp only [OpsTrace.result, Prod.mk.injEq] at he
    obtain ⟨⟨-, -, -, rfl, rfl, rfl⟩, -, rfl, -, -, rfl, -⟩ := he
    obtain ⟨⟨count, st, cs, hF⟩, hl⟩ := opsMetastep_inv
      (fun t => (∃ count st cs, OpsFacts UserCons.ops ia en es rng p tries count st cs t) ∧
        t.cons.length = us.length) ht
      (fun t ht => by
        have hF := opsIterate_facts ht
        refine ⟨⟨_, _, _, hF⟩, ?_⟩
        rw [← (opsEvolve_spec hF.cons).2.1.length_eq, hF.prep, List.length_map])
      (fun t t' ih ht => by
        have hF := opsIterate_facts ht
        refine ⟨⟨_, _, _, hF⟩, ?_⟩
        rw [← (opsEvolve_spec hF.cons).2.1.length_eq, hF.prep, List.length_map, ih.2])
    have f := hF.facts
    refine ⟨⟨_, ?_, ?_, by rw [f.sum_Js, f.nValid_card]⟩, ?_, by omega,
      (opsEvolve_spec hF.cons).1, hl, fun hs => ?_⟩
    · refine Finset.card_pos.mpr (Finset.nonempty_iff_ne_empty.mpr fun h0 => f.nValid_ne ?_)
      rw [f.nValid_card, h0, Finset.card_empty, Nat.cast_zero]
    · exact (Finset.card_le_univ _).trans_eq (Fintype.card_fin M)
    · obtain ⟨m, -, hm⟩ := f.exists_Js_ge_one
      exact ⟨m, hm⟩
    · rw [f.sum_Js, of_decide_eq_true hs, countValid_eq, Fintype.card_subtype]

end Library

section Run

variable {G X : Type} {C S M : ℕ} [NeZero M]

/-- **C112**, the library: with the constraints of the library, `run` for constraints of any class is
`run` of the other claims. -/
theorem C112_library_run (a : FinderAttrs C S M) (ms : Option ℚ) (tol : Option ℝ) (iv : Option ℤ)
    (rng : Rng G ℝ) (g : G) :
    Gen.User.Finder.run (ofLibraryAttrs a) ms tol iv rng g =
      (Gen.Finder.run a ms tol iv rng g).map fun (ph, a, g) => (ph, ofLibraryAttrs a, g) := by
  rw [run_user, run_library]
  have h := (library_hom (S := S) (M := M) (K := ℝ)).run (e := a.opsEnv rng)
    (ms.getD a.maxSteps) (tol.getD a.tolerance) (iv.getD a.interval) (a.start g)
  refine (congrArg (Except.map _) h).trans ?_
  generalize opsRun (a.opsEnv rng) (ms.getD a.maxSteps) (tol.getD a.tolerance) (iv.getD a.interval)
    (a.start g) = r
  cases r with
  | error e => rfl
  | ok r => rfl

/-- **C112**, the library: the same for the methods that start a run. -/
theorem C112_library_reinitialize (a : FinderAttrs C S M) (rng : Rng G ℝ) (g : G)
    (arr : NDArr ℝ) :
    Gen.User.Finder.reinitialize_random (ofLibraryAttrs a) rng g =
      (Gen.Finder.reinitialize_random a rng g).map (fun (a, g) => (ofLibraryAttrs a, g)) ∧
    Gen.User.Finder.reinitialize_from_omegas (ofLibraryAttrs a) arr =
      (Gen.Finder.reinitialize_from_omegas a arr).map ofLibraryAttrs ∧
    Gen.User.Finder.reinitialize_from_phis (ofLibraryAttrs a) arr =
      (Gen.Finder.reinitialize_from_phis a arr).map ofLibraryAttrs := by
  have hc : (a.constraints.map ofLibrary).map UserCons.initialize =
      (a.constraints.map Cons.reset).map ofLibrary := by
    rw [List.map_map, List.map_map]
    rfl
  refine ⟨?_, ?_, ?_⟩
  · unfold Gen.User.Finder.reinitialize_random Gen.Finder.reinitialize_random
    dsimp only
    rw [Py.map_bind]
    refine Py.bind_congr rfl fun d => ?_
    refine congrArg Except.ok (Prod.ext ?_ rfl)
    show ({ ofLibraryAttrs a with constraints := _, omegas := _, Js := _, reviveLeft := _ } :
      UserAttrs _ C S M) = _
    refine congrArg (fun cs => ({ ofLibraryAttrs a with
      constraints := cs, omegas := d.1, Js := fun _ => 1, reviveLeft := a.maxRevive * ((M : ℕ) : ℤ) } :
      UserAttrs _ C S M)) hc
  · unfold Gen.User.Finder.reinitialize_from_omegas Gen.Finder.reinitialize_from_omegas
    dsimp only
    rw [Py.map_bind]
    refine Py.bind_congr rfl fun d => ?_
    refine congrArg (fun cs => (Except.ok { ofLibraryAttrs a with
      constraints := cs, omegas := d.toMat S M, Js := fun _ => 1
      reviveLeft := a.maxRevive * ((M : ℕ) : ℤ) } : Py (UserAttrs _ C S M))) hc
  · unfold Gen.User.Finder.reinitialize_from_phis Gen.Finder.reinitialize_from_phis
    dsimp only
    rw [Py.map_bind]
    refine Py.bind_congr rfl fun d => ?_
    refine congrArg (fun cs => (Except.ok { ofLibraryAttrs a with
      constraints := cs, omegas := a.interaction.potential (d.toMat S M), Js := fun _ => 1
      reviveLeft := a.maxRevive * ((M : ℕ) : ℤ) } : Py (UserAttrs _ C S M))) hc

/-- **C112**, start: the methods that start a run initialize every constraint, set all volumes to one and
the number of revivals to its maximum, and change nothing else but the fields; fields of another shape
are refused. -/
theorem C112_starts (a : UserAttrs X C S M) (rng : Rng G ℝ) (g : G) (arr : NDArr ℝ) :
    (∀ b g', Gen.User.Finder.reinitialize_random a rng g = .ok (b, g') →
      b.constraints = a.constraints.map (fun c => { c with data := c.methods.reset c.data }) ∧
      unconstrained b = { unconstrained a with
        omegas := b.omegas, Js := fun _ => 1, reviveLeft := a.maxRevive * M }) ∧
    (∀ b, Gen.User.Finder.reinitialize_from_omegas a arr = .ok b ↔ arr.shape = [S, M] ∧
      b.constraints = a.constraints.map (fun c => { c with data := c.methods.reset c.data }) ∧
      unconstrained b = { unconstrained a with
        omegas := arr.toMat S M, Js := fun _ => 1, reviveLeft := a.maxRevive * M }) ∧
    (∀ b, Gen.User.Finder.reinitialize_from_phis a arr = .ok b ↔ arr.shape = [S, M] ∧
      b.constraints = a.constraints.map (fun c => { c with data := c.methods.reset c.data }) ∧
      unconstrained b = { unconstrained a with
        omegas := a.interaction.potential (arr.toMat S M), Js := fun _ => 1
        reviveLeft := a.maxRevive * M }) := by
  have hext : ∀ b : UserAttrs X C S M, ∀ o,
      ({ a with
        constraints := a.constraints.map UserCons.initialize, omegas := o, Js := fun _ => 1
        reviveLeft := a.maxRevive * M } : UserAttrs X C S M) = b ↔
      b.constraints = a.constraints.map (fun c => { c with data := c.methods.reset c.data }) ∧
      unconstrained b = { unconstrained a with
        omegas := o, Js := fun _ => 1, reviveLeft := a.maxRevive * M } := by
    intro b o
    constructor
    · rintro rfl
      exact ⟨rfl, rfl⟩
    · intro ⟨h1, h2⟩
      cases b
      simp only [unconstrained, FinderAttrs.mk.injEq] at h2
      simp_all
      exact fun _ _ => rfl
  refine ⟨fun b g' h => ?_, fun b => ?_, fun b => ?_⟩
  · unfold Gen.User.Finder.reinitialize_random at h
    obtain ⟨d, -, h⟩ := bind_eq_ok.mp h
    obtain ⟨rfl, -⟩ := Prod.mk.inj (Except.ok.inj h)
    exact ⟨rfl, rfl⟩
  · unfold Gen.User.Finder.reinitialize_from_omegas Gen.User.Finder.check_field
    by_cases hs : arr.shape = [S, M]
    · simp only [hs, ne_eq, not_true_eq_false, if_false, true_and]
      exact ⟨fun h => (hext b _).mp (Except.ok.inj h), fun h => congrArg Except.ok ((hext b _).mpr h)⟩
    · simp only [hs, ne_eq, not_false_eq_true, if_true, false_and, iff_false]
      exact fun h => by cases h
  · unfold Gen.User.Finder.reinitialize_from_phis Gen.User.Finder.check_field
    by_cases hs : arr.shape = [S, M]
    · simp only [hs, ne_eq, not_true_eq_false, if_false, true_and]
      exact ⟨fun h => (hext b _).mp (Except.ok.inj h), fun h => congrArg Except.ok ((hext b _).mpr h)⟩
    · simp only [hs, ne_eq, not_false_eq_true, if_true, false_and, iff_false]
      exact fun h => by cases h

theorem run_from {Y : Type} {o : ConsOps X S M ℝ} {ψ : X → UserCons Y S M ℝ}
    (hψ : o.Hom UserCons.ops ψ) {a : UserAttrs Y C S M} {xs : List X}
    (ha : a.constraints = xs.map ψ) (ms : Option ℚ) (tol : Option ℝ) (iv : Option ℤ)
    (rng : Rng G ℝ) (g : G) :
    (Gen.User.Finder.run a ms tol iv rng g).map (fun (ph, a, g) => (ph, unconstrained a, g)) =
      (opsRun ⟨o, (unconstrained a).interaction, (unconstrained a).entropy,
        (unconstrained a).ensemble, rng, (unconstrained a).params, (unconstrained a).criterion⟩
        (ms.getD (unconstrained a).maxSteps) (tol.getD (unconstrained a).tolerance)
        (iv.getD (unconstrained a).interval)
        ((unconstrained a).omegas, (unconstrained a).Js, (unconstrained a).phisComp,
          (unconstrained a).phisFeat, xs, g, (0 : ℤ), (unconstrained a).reviveLeft, none, none, none,
          none)).map fun r =>
      (⟨r.1.2.1, fun i j => r.1.2.2.1 j i⟩,
        { unconstrained a with
          diagnostics := some ⟨r.2.1.2.2.2.2.2.2.1, r.2.2.1, r.2.2.2.1, r.2.2.2.2.1, r.2.2.2.2.2,
            r.2.1.2.2.2.2.2.2.2.1⟩
          omegas := r.2.1.1
          Js := r.2.1.2.1
          phisFeat := r.2.1.2.2.2.1
          phisComp := r.2.1.2.2.1
          reviveLeft := r.2.1.2.2.2.2.2.2.2.1 }, r.1.2.2.2) := by
  rw [run_user]
  have hs : a.start g = OpsRunTuple.map ψ (a.omegas, a.Js, a.phisComp, a.phisFeat, xs, g, (0 : ℤ),
      a.reviveLeft, none, none, none, none) := by
    unfold UserAttrs.start OpsRunTuple.map
    rw [ha]
  rw [hs]
  have h := ConsOps.Hom.run (e := ⟨o, a.interaction, a.entropy, a.ensemble, rng, a.params,
    a.criterion⟩) hψ (ms.getD a.maxSteps) (tol.getD a.tolerance) (iv.getD a.interval)
    (a.omegas, a.Js, a.phisComp, a.phisFeat, xs, g, (0 : ℤ), a.reviveLeft, none, none, none, none)
  refine (congrArg (fun r => Except.map _ (Except.map _ r)) h).trans ?_
  generalize hr : opsRun (⟨o, a.interaction, a.entropy, a.ensemble, rng, a.params,
    a.criterion⟩ : OpsEnv C S M G X) (ms.getD a.maxSteps) (tol.getD a.tolerance)
    (iv.getD a.interval) (a.omegas, a.Js, a.phisComp, a.phisFeat, xs, g, (0 : ℤ), a.reviveLeft,
      none, none, none, none) = r
  refine Eq.trans ?_ (congrArg (Except.map _) hr.symm)
  cases r with
  | error e => rfl
  | ok r => rfl

/-- **C112**, only the methods matter: two classes of constraints whose methods do the same on
translated data give the same phases, fields, diagnostics and exceptions. -/
theorem C112_simulation {Y : Type} {φ : X → Y} {mX : ConstraintI X S M ℝ} {mY : ConstraintI Y S M ℝ}
    (hsim : Simulates φ mX mY) {a : UserAttrs X C S M} {b : UserAttrs Y C S M}
    (hab : unconstrained a = unconstrained b) {xs : List X}
    (ha : a.constraints = xs.map fun x => ⟨mX, x⟩) (hb : b.constraints = xs.map fun x => ⟨mY, φ x⟩)
    (ms : Option ℚ) (tol : Option ℝ) (iv : Option ℤ) (rng : Rng G ℝ) (g : G) :
    (Gen.User.Finder.run a ms tol iv rng g).map (fun (ph, a, g) => (ph, unconstrained a, g)) =
      (Gen.User.Finder.run b ms tol iv rng g).map (fun (ph, b, g) => (ph, unconstrained b, g)) := by
  let o : ConsOps X S M ℝ := ⟨mX.prepare, mX.potential, mX.volumeDerivative, mX.evolve⟩
  have h1 : o.Hom UserCons.ops fun x => ⟨mX, x⟩ := ⟨fun _ _ _ _ => rfl, fun _ => rfl, fun _ => rfl,
    fun _ _ _ => rfl⟩
  have h2 : o.Hom UserCons.ops fun x => ⟨mY, φ x⟩ := by
    refine ⟨fun f J mk x => ?_, fun x => hsim.potential x, fun x => hsim.volumeDerivative x,
      fun step mk x => ?_⟩
    · show UserCons.mk mY (mY.prepare f J mk (φ x)) = _
      rw [hsim.prepare]
    · show (mY.evolve step mk (φ x)).map _ = _
      rw [hsim.evolve]
      show _ = (mX.evolve step mk x).map _
      cases mX.evolve step mk x <;> rfl
  rw [run_from h1 ha, run_from h2 hb, hab]

/-- **C112**, no failure: for constraints of any class whose `evolve` does not raise, `run` returns
under the conditions of C103. -/
theorem C112_returns (en : EntropyInst C S) (es : EnsembleInst C)
    {sizes : Vec C ℝ} {feat : Fin C → Fin S} (hen : IsIdealGas (Gen.entropyObj M en) sizes feat)
    {rng : Rng G ℝ} (hok : rng.Ok) {a : UserAttrs X C S M}
    (hae : a.entropy = Gen.entropyObj M en) (has : a.ensemble = Gen.ensembleObj M es)
    (hthr : 0 ≤ a.params.killThreshold) (hthr1 : a.params.killThreshold < 1)
    (hthr2 : 2 * a.params.killThreshold * ((M : ℝ) - 1) < 1) (hb : 0 < a.params.JsStepUpperBound)
    (hstd : a.criterion = "standard") {ms : Option ℚ} {tol : Option ℝ} {iv : Option ℤ}
    (h1 : 0 < ms.getD a.maxSteps) (h2 : 0 < iv.getD a.interval)
    (hcons : ∀ c ∈ a.constraints, ∀ d, Grown c d → ∀ step masks,
      ∃ r x, d.methods.evolve step masks d.data = .ok (r, x))
    (halive : (∃ m, a.params.killThreshold < a.Js m) ∨ 0 < a.reviveLeft) (g : G) :
    ∃ ph a' g', Gen.User.Finder.run a ms tol iv rng g = .ok (ph, a', g') := by
  have hes : a.ensemble.Total := by
    rw [has, C102_entropies (S := S) |>.2.2.2.2.2 es]; exact es.total M
  have hP : OpsKeeps (a.env rng).ops fun d => ∃ c ∈ a.constraints, Grown c d := by
    constructor
    · rintro d f J mk ⟨c, hc, hd⟩
      exact ⟨c, hc, .prepare f J mk hd⟩
    · rintro d step mk ⟨c, hc, hd⟩
      obtain ⟨r, x, hx⟩ := hcons c hc d hd step mk
      refine ⟨r, { d with data := x }, ?_, c, hc, .evolve hd hx⟩
      show UserCons.evolve step mk d = _
      unfold UserCons.evolve
      rw [hx]
      rfl
  obtain ⟨r, hr⟩ := opsRun_ok (e := a.env rng) (tol := tol.getD a.tolerance) hP hok
    (hae ▸ hen : IsIdealGas a.entropy sizes feat) hes hthr hthr1 hthr2 hb hstd h1 h2 (a.start g)
    (fun c hc => ⟨c, hc, .refl c⟩) halive
  rw [run_user, hr]
  exact ⟨_, _, _, rfl⟩

theorem evolve_inv {step x : ℝ} {mk : Vec M ℝ} {c c' : UserCons X S M ℝ}
    (h : UserCons.ops.evolve step mk c = .ok (x, c')) :
    ∃ y, c.methods.evolve step mk c.data = .ok (x, y) ∧ c' = { c with data := y } := by
  have h : UserCons.evolve step mk c = .ok (x, c') := h
  unfold UserCons.evolve at h
  cases hq : c.methods.evolve step mk c.data with
  | error e => rw [hq] at h; cases h
  | ok r =>
    rw [hq] at h
    obtain ⟨e1, e2⟩ := Prod.mk.inj (Except.ok.inj h)
    exact ⟨r.2, by rw [← e1], e2.symm⟩

/-- **C112**, results: when `run` returns for constraints of any class, there were a last pass with
volumes `J`, masks, and constraints `cs` that come from those of the finder by calls of `prepare` and
`evolve`.  The stored constraints are those after `prepare` with the stored fractions and `evolve`, the
reported residue is the largest one returned by `evolve` (or zero).  Every returned compartment is
one of those that were computed, and with the potentials of the prepared constraints the chemical
potentials are balanced up to the reported errors. -/
theorem C112_result {rng : Rng G ℝ} (hok : rng.Ok) {chis : Mat S S ℝ} {shift : ℝ}
    {en : EntropyInst C S} {sizes : Vec C ℝ} {feat : Fin C → Fin S}
    (hen : IsIdealGas (Gen.entropyObj M en) sizes feat) {a a' : UserAttrs X C S M}
    (hai : a.interaction = Gen.FHCompiled.obj (Gen.FHCompiled.init chis shift) M)
    (hae : a.entropy = Gen.entropyObj M en) {es : EnsembleInst C}
    (has : a.ensemble = Gen.ensembleObj M es)
    (hthr : 0 ≤ a.params.killThreshold) (hub : 0 < a.params.JsStepUpperBound)
    {ms : Option ℚ} {tol : Option ℝ} {iv : Option ℤ} {g g' : G} {ph : Phases M C ℝ}
    (h : Gen.User.Finder.run a ms tol iv rng g = .ok (ph, a', g')) :
    ∃ d cs J masks factor, ∃ place : Fin M → Fin M, a'.diagnostics = some d ∧
      List.Forall₂ Grown a.constraints cs ∧ 0 < factor ∧ factor ≤ 1 ∧
      (∀ r m, a'.phisFeat r m = ∑ i, if feat i = r then a'.phisComp i m else 0) ∧
      (∀ m, masks m = if a.params.killThreshold < J m then 1 else 0) ∧
      (∃ prep : List (UserCons X S M ℝ),
        prep = cs.map (fun c => { c with data := c.methods.prepare a'.phisFeat J masks c.data }) ∧
        List.Forall₂ (fun c c' => ∃ x r, c' = { c with data := x } ∧ r ≤ d.maxConstraintResidue ∧
          c.methods.evolve (factor * a.params.acceptanceOmega) masks c.data = .ok (r, x))
          prep a'.constraints ∧
        0 ≤ d.maxConstraintResidue ∧
        (d.maxConstraintResidue = 0 ∨ ∃ c ∈ prep, ∃ x, c.methods.evolve
          (factor * a.params.acceptanceOmega) masks c.data = .ok (d.maxConstraintResidue, x)) ∧
        ∀ i, sizes i ≠ 0 → 0 < supply es i → ∀ p q,
          |(chemPot (liftChis chis feat) sizes (ph.fractions p) i
              + totalPotential prep (feat i) (place p) + totalVolumeDerivative prep (place p)
              - ∑ j, totalPotential prep (feat j) (place p) * ph.fractions p j)
            - (chemPot (liftChis chis feat) sizes (ph.fractions q) i
              + totalPotential prep (feat i) (place q) + totalVolumeDerivative prep (place q)
              - ∑ j, totalPotential prep (feat j) (place q) * ph.fractions q j)| ≤
          S * d.maxAbsOmegaDiff + |(∑ r, ∑ q, chis r q) + shift * S * S| * d.maxAbsIncomp
            + 2 * d.maxAbsJsDiff) ∧
      ∀ p, (∀ i, ph.fractions p i = a'.phisComp i (place p)) ∧ masks (place p) = 1 ∧
        a.params.killThreshold < ph.volumes p ∧
        |∑ i, ph.fractions p i - 1| ≤ d.maxAbsIncomp ∧
        ∀ i, 0 < supply es i → 0 < ph.fractions p i := by
  obtain ⟨d, tries, count, st, cs, t, hS⟩ := user_run_source hok hthr h
  have hO := hS.facts
  have hF := hO.facts
  rw [hai] at hF
  have hgas : IsIdealGas a.entropy sizes feat := hae ▸ hen
  rw [show Gen.FHCompiled.obj (Gen.FHCompiled.init chis shift) M =
    (Gen.FHCompiled.init chis shift).toI M from rfl] at hF
  obtain ⟨w, hsc, hw⟩ : ∃ w, Scales a.ensemble w ∧
      ∀ i, 0 < supply es i → ∀ Q, (∀ j, 0 < Q j) → 0 < w Q i := by
    cases es with
    | canonical e =>
      exact ⟨_, has.trans (C102_interaction_and_ensembles (S := 0) |>.2.2.1 _) ▸ CanonicalC.scales e,
        fun i hi Q hQ => div_pos hi (hQ i)⟩
    | grand e =>
      exact ⟨_, show Scales a.ensemble fun _ => e.scaledActivity from
        has ▸ GrandC.scales (M := M) e, fun i hi Q hQ => hi⟩
  choose place hp1 hp2 hp3 using hS.rows
  obtain ⟨e1, e2, e3⟩ := opsEvolve_spec hO.cons
  have hpf : a'.phisFeat = t.pass.phisFeat := by rw [hS.finish]
  have hpc : a'.phisComp = t.pass.phisComp := by rw [hS.finish]
  have hcs : a'.constraints = t.cons := by rw [hS.finish]
  have hdiag : a'.diagnostics = some d := by rw [hS.finish]
  refine ⟨d, cs, t.pass.JsOld, t.pass.masks, t.pass.factor, place, hdiag, hS.rel, ?_, ?_,
    fun r m => ?_, fun m => ?_, ⟨t.prep, ?_, ?_, ?_, ?_, fun i hl hi p q => ?_⟩, fun p => ⟨fun i => ?_, hp1 p,
    hS.volumes p, ?_, fun i hi => ?_⟩⟩
  · exact (hF.factor_le_one hub).1
  · exact (hF.factor_le_one hub).2
  · rw [hpf, hpc]; exact hF.phisFeat_eq hgas r m
  · rcases hF.mask_cases m with e | e
    · rw [e, if_pos (hF.JsOld_gt e)]
    · rw [e, if_neg]
      rw [hF.JsOld, e, mul_zero]
      exact not_lt.mpr hthr
  · rw [hpf]; exact hO.prep
  · rw [hcs, hS.residue]
    refine e2.imp fun c c' hc => ?_
    obtain ⟨x, hx, hle⟩ := hc
    obtain ⟨y, hy, rfl⟩ := evolve_inv hx
    exact ⟨y, x, rfl, hle, hy⟩
  · rw [hS.residue]; exact e1
  · rw [hS.residue]
    rcases e3 with e3 | ⟨c, hc, c', e3⟩
    · exact Or.inl e3
    · obtain ⟨y, hy, -⟩ := evolve_inv e3
      exact Or.inr ⟨c, hc, y, hy⟩
  · have hid : ∀ p, chemPot (liftChis chis feat) sizes (ph.fractions p) i
        + totalPotential t.prep (feat i) (place p) + totalVolumeDerivative t.prep (place p)
        - ∑ j, totalPotential t.prep (feat j) (place p) * ph.fractions p j =
        (Real.log (w t.pass.Qs i) + 1) / sizes i + t.pass.omegaDiff (feat i) (place p)
          + t.pass.localEnergy (place p) := by
      intro p
      have h1 := hF.chemPot_identity hgas hsc (hp1 p) hl (hw i hi _ fun j => hF.Qs_pos hgas hthr j)
      have hrow : ph.fractions p = fun j => t.pass.phisComp j (place p) := funext (hp3 p)
      have hP : ∀ r, consPot t.pass.consPrep r (place p) = totalPotential t.prep r (place p) := by
        intro r
        rw [hO.consPrep, consPot_mimic]
        rfl
      have hV : consVd t.pass.consPrep (place p) = totalVolumeDerivative t.prep (place p) := by
        rw [hO.consPrep, consVd_mimic]
        rfl
      have hsum := hF.sum_mul_phisFeat hgas (fun r => totalPotential t.prep r (place p)) (place p)
      unfold consShift at h1
      simp only [hP, hV] at h1
      rw [hsum] at h1
      rw [hrow]
      show chemPot (liftChis (Gen.FHCompiled.init chis shift).chis feat) sizes _ i + _ + _ - _ = _
      rw [h1]
      ring
    rw [hid p, hid q, hS.omega, hS.js, hS.incomp]
    have h1 := hF.omega_diff (feat i) (feat i) (place p) (place q)
    have h2 := hF.local_diff (hp1 p) (hp1 q)
    have hco : (Gen.FHCompiled.init chis shift).coef = (∑ r, ∑ q, chis r q) + shift * S * S := rfl
    rw [hco] at h1
    rw [abs_le] at h1 h2 ⊢
    constructor <;> linarith [h1.1, h1.2, h2.1, h2.2]
  · rw [hpc]; exact hp3 p i
  · have := hF.incomp_le (place p)
    rw [hF.incomp_eq hsc, hp1 p, mul_one] at this
    rw [hS.incomp, Finset.sum_congr rfl fun i _ => hp3 p i]
    exact this
  · rw [hp3, hF.phis_eq hgas hsc, hp1 p, mul_one]
    exact mul_pos (hw i hi _ fun j => hF.Qs_pos hgas hthr j) (Real.exp_pos _)

/-- Constraints of classes without potentials and volume derivatives have none after any calls. -/
theorem grown_silent {l cs prep : List (UserCons X S M ℝ)} {pf : Mat S M ℝ} {J masks : Vec M ℝ}
    (hcons : ∀ c ∈ l, ∀ x, (∀ r m, c.methods.potential x r m = 0) ∧
      ∀ m, c.methods.volumeDerivative x m = 0) (hrel : List.Forall₂ Grown l cs)
    (hprep : prep = cs.map fun c => { c with data := c.methods.prepare pf J masks c.data }) :
    (∀ r m, totalPotential prep r m = 0) ∧ ∀ m, totalVolumeDerivative prep m = 0 := by
  have hg : ∀ c e : UserCons X S M ℝ, Grown c e → e.methods = c.methods := by
    intro c e he
    induction he with
    | refl => rfl
    | prepare _ _ _ _ ih => exact ih
    | evolve _ _ ih => exact ih
  have hz : ∀ c ∈ prep, (∀ r m, c.methods.potential c.data r m = 0) ∧
      ∀ m, c.methods.volumeDerivative c.data m = 0 := by
    rw [hprep]
    clear hprep
    revert hcons
    induction hrel with
    | nil => simp
    | @cons c e l l' hce _ ih =>
      intro hcons x hx
      rw [List.map_cons, List.mem_cons] at hx
      rcases hx with rfl | hx
      · have := hcons c (by simp)
        rw [← hg c e hce] at this
        exact this _
      · exact ih (fun k hk => hcons k (List.mem_cons_of_mem _ hk)) x hx
  have hp : ∀ r m, totalPotential prep r m = 0 := fun r m => List.sum_eq_zero fun x hx => by
    obtain ⟨c, hc, rfl⟩ := List.mem_map.mp hx
    exact (hz c hc).1 r m
  have hv : ∀ m, totalVolumeDerivative prep m = 0 := fun m => List.sum_eq_zero fun x hx => by
    obtain ⟨c, hc, rfl⟩ := List.mem_map.mp hx
    exact (hz c hc).2 m
  exact ⟨hp, hv⟩

/-- **C112**, balance: with constraints of any class whose potentials and volume derivatives are always
zero, the chemical potentials are balanced as without constraints. -/
theorem C112_balance {rng : Rng G ℝ} (hok : rng.Ok) {chis : Mat S S ℝ} {shift : ℝ}
    {en : EntropyInst C S} {sizes : Vec C ℝ} {feat : Fin C → Fin S}
    (hen : IsIdealGas (Gen.entropyObj M en) sizes feat) {a a' : UserAttrs X C S M}
    (hai : a.interaction = Gen.FHCompiled.obj (Gen.FHCompiled.init chis shift) M)
    (hae : a.entropy = Gen.entropyObj M en) {es : EnsembleInst C}
    (has : a.ensemble = Gen.ensembleObj M es)
    (hthr : 0 ≤ a.params.killThreshold) (hub : 0 < a.params.JsStepUpperBound)
    (hcons : ∀ c ∈ a.constraints, ∀ x, (∀ r m, c.methods.potential x r m = 0) ∧
      ∀ m, c.methods.volumeDerivative x m = 0)
    {ms : Option ℚ} {tol : Option ℝ} {iv : Option ℤ} {g g' : G} {ph : Phases M C ℝ}
    (h : Gen.User.Finder.run a ms tol iv rng g = .ok (ph, a', g')) :
    ∃ d, a'.diagnostics = some d ∧ ∀ i, sizes i ≠ 0 → 0 < supply es i → ∀ p q,
      |chemPot (liftChis chis feat) sizes (ph.fractions p) i
        - chemPot (liftChis chis feat) sizes (ph.fractions q) i| ≤
      S * d.maxAbsOmegaDiff + |(∑ r, ∑ q, chis r q) + shift * S * S| * d.maxAbsIncomp
        + 2 * d.maxAbsJsDiff := by
  obtain ⟨d, cs, J, masks, factor, place, hd, hrel, -, -, -, -, ⟨prep, hprep, -, -, -, hb⟩, -⟩ :=
    C112_result hok hen hai hae has hthr hub h
  obtain ⟨hp, hv⟩ := grown_silent hcons hrel hprep
  refine ⟨d, hd, fun i hl hi p q => ?_⟩
  have := hb i hl hi p q
  simpa only [hp, hv, add_zero, zero_mul, Finset.sum_const_zero, sub_zero] using this

end Run

namespace Demo

/-- The data of a constraint as a user may write it: `φ₀ φ₁ = 1/8` in every compartment. -/
structure Product where
  multiplier : Vec 2 ℝ
  residue : Vec 2 ℝ
  fractions : Mat 2 2 ℝ

/-- Its methods, with Lagrange multipliers and a quadratic penalty. -/
noncomputable def product : ConstraintI Product 2 2 ℝ where
  reset _ := ⟨fun _ => 0, fun _ => 0, fun _ _ => 0⟩
  prepare f _ masks x := { x with
    residue := fun m => (f 0 m * f 1 m - 1 / 8) * masks m
    fractions := fun r m => f r m * masks m }
  potential x := fun r m => (x.multiplier m + 2 * x.residue m) * x.fractions (1 - r) m
  volumeDerivative x := fun m => x.multiplier m * x.residue m + x.residue m ^ 2
  evolve step _ x := .ok (npMax fun m => |x.residue m|,
    { x with multiplier := fun m => x.multiplier m + step * x.residue m })

/-- The demo mixture with other constraints. -/
noncomputable def userAttrs {X : Type} (cs : List (UserCons X 2 2 ℝ)) : UserAttrs X 2 2 2 where
  interaction := coexAttrs.interaction
  entropy := coexAttrs.entropy
  ensemble := coexAttrs.ensemble
  constraints := cs
  maxSteps := coexAttrs.maxSteps
  criterion := coexAttrs.criterion
  tolerance := coexAttrs.tolerance
  interval := coexAttrs.interval
  randomStd := coexAttrs.randomStd
  params := coexAttrs.params
  maxRevive := coexAttrs.maxRevive
  diagnostics := coexAttrs.diagnostics
  omegas := coexAttrs.omegas
  Js := coexAttrs.Js
  phisFeat := coexAttrs.phisFeat
  phisComp := coexAttrs.phisComp
  reviveLeft := coexAttrs.reviveLeft

theorem userAttrs_returns {X : Type} {cs : List (UserCons X 2 2 ℝ)}
    (hcons : ∀ c ∈ cs, ∀ d, Grown c d → ∀ step masks,
      ∃ r x, d.methods.evolve step masks d.data = .ok (r, x)) :
    ∃ ph a' g', Gen.User.Finder.run (userAttrs cs) none none (some 5000) (rngZero ℝ) () =
      .ok (ph, a', g') :=
  C112_returns (.ideal (Gen.IdealC.init fun _ => 1))
    (.canonical (Gen.CanonicalC.init ![5 / 8, 3 / 8])) coexAttrs_gas (rngZero_ok ℝ)
    (a := userAttrs cs) rfl rfl (by simp [userAttrs, coexAttrs, params])
    (by simp [userAttrs, coexAttrs, params]) (by simp [userAttrs, coexAttrs, params])
    (by simp [userAttrs, coexAttrs, params]) rfl (ms := none) (tol := none) (iv := some 5000)
    (by norm_num [userAttrs, coexAttrs]) (by norm_num) hcons
    (Or.inr (by norm_num [userAttrs, coexAttrs])) ()

theorem product_grown {x : Product} {d : UserCons Product 2 2 ℝ} (h : Grown ⟨product, x⟩ d) :
    d.methods = product := by
  generalize hc : (⟨product, x⟩ : UserCons Product 2 2 ℝ) = c at h
  induction h with
  | refl => rw [← hc]
  | prepare _ _ _ _ ih => exact ih
  | evolve _ _ ih => exact ih

end Demo

/-- The demo mixture with the constraint `φ₀ φ₁ = 1/8` of a user: `run` returns, and in every returned
phase the product is `1/8` up to the reported residue. -/
example (x : Demo.Product) : ∃ ph a' g' d,
    Gen.User.Finder.run (Demo.userAttrs [⟨Demo.product, x⟩]) none none (some 5000) (rngZero ℝ) () =
      .ok (ph, a', g') ∧ a'.diagnostics = some d ∧
    ∀ p, |ph.fractions p 0 * ph.fractions p 1 - 1 / 8| ≤ d.maxConstraintResidue ∧
      0 < ph.fractions p 0 ∧ |ph.fractions p 0 + ph.fractions p 1 - 1| ≤ d.maxAbsIncomp := by
  obtain ⟨ph, a', g', h⟩ := Demo.userAttrs_returns (cs := [⟨Demo.product, x⟩]) (by
    intro c hc d hd step masks
    obtain rfl := List.mem_singleton.mp hc
    rw [Demo.product_grown hd]
    exact ⟨_, _, rfl⟩)
  obtain ⟨d, cs, J, masks, factor, place, hd, hrel, -, -, hfeat, -, ⟨prep, hprep, hev, -, -, -⟩, hrow⟩ :=
    C112_result (rngZero_ok ℝ) Demo.coexAttrs_gas (a := Demo.userAttrs [⟨Demo.product, x⟩])
      (es := .canonical (Gen.CanonicalC.init ![5 / 8, 3 / 8])) rfl rfl rfl
      (by simp [Demo.userAttrs, Demo.coexAttrs, Demo.params])
      (by simp [Demo.userAttrs, Demo.coexAttrs, Demo.params]) h
  refine ⟨ph, a', g', d, h, hd, fun p => ⟨?_, (hrow p).2.2.2.2 0 ?_, ?_⟩⟩
  · cases hrel with
    | cons hg hnil =>
    cases hnil
    rw [List.map_cons, List.map_nil] at hprep
    subst hprep
    generalize a'.constraints = l at hev
    cases hev with
    | cons he hnil =>
    obtain ⟨y, r, -, hr, he⟩ := he
    dsimp only at he
    rw [Demo.product_grown hg] at he
    have hr' := (Prod.mk.inj (Except.ok.inj he)).1
    have hle := le_npMax (fun m => |(a'.phisFeat 0 m * a'.phisFeat 1 m - 1 / 8) * masks m|) (place p)
    obtain ⟨h1, h2, -⟩ := hrow p
    rw [h2, mul_one, hfeat, hfeat] at hle
    simp only [id, Finset.sum_ite_eq', Finset.mem_univ, if_true] at hle
    rw [← h1, ← h1] at hle
    exact hle.trans (le_of_eq_of_le hr' hr)
  · show (0 : ℝ) < ![5 / 8, 3 / 8] 0
    norm_num
  · have := (hrow p).2.2.2.1
    rwa [Fin.sum_univ_two] at this

/-- Another class of the same constraint, which keeps twice the multipliers, gives the same phases. -/
example (x : Demo.Product) :
    let doubled : ConstraintI Demo.Product 2 2 ℝ :=
      { reset := Demo.product.reset
        prepare := Demo.product.prepare
        potential := fun x r m => (x.multiplier m / 2 + 2 * x.residue m) * x.fractions (1 - r) m
        volumeDerivative := fun x m => x.multiplier m / 2 * x.residue m + x.residue m ^ 2
        evolve := fun step _ x => .ok (npMax fun m => |x.residue m|,
          { x with multiplier := fun m => x.multiplier m + 2 * (step * x.residue m) }) }
    (Gen.User.Finder.run (Demo.userAttrs [⟨Demo.product, x⟩]) none none none (rngZero ℝ) ()).map
        (fun r => r.1) =
      (Gen.User.Finder.run
        (Demo.userAttrs [⟨doubled, { x with multiplier := fun m => 2 * x.multiplier m }⟩])
        none none none (rngZero ℝ) ()).map (fun r => r.1) := by
  intro doubled
  have hsim : Simulates (fun x : Demo.Product => { x with multiplier := fun m => 2 * x.multiplier m })
      Demo.product doubled := by
    refine ⟨fun x => ?_, fun f J masks x => rfl, fun x => ?_, fun x => ?_, fun step masks x => ?_⟩
    · show Demo.Product.mk _ _ _ = Demo.Product.mk _ _ _
      simp [Demo.product]
    · funext r m
      show (2 * x.multiplier m / 2 + _) * _ = (x.multiplier m + _) * _
      rw [mul_div_cancel_left₀ _ two_ne_zero]
    · funext m
      show 2 * x.multiplier m / 2 * _ + _ = x.multiplier m * _ + _
      rw [mul_div_cancel_left₀ _ two_ne_zero]
    · refine congrArg Except.ok (Prod.ext rfl ?_)
      show Demo.Product.mk _ _ _ = Demo.Product.mk _ _ _
      congr 1
      funext m
      show 2 * x.multiplier m + 2 * (step * x.residue m) = 2 * (x.multiplier m + step * x.residue m)
      ring
  have h := C112_simulation hsim (a := Demo.userAttrs [⟨Demo.product, x⟩])
    (b := Demo.userAttrs [⟨doubled, { x with multiplier := fun m => 2 * x.multiplier m }⟩]) rfl
    (xs := [x]) rfl rfl none none none (rngZero ℝ) ()
  have h2 := congrArg (Except.map Prod.fst) h
  cases hr : Gen.User.Finder.run (Demo.userAttrs [⟨Demo.product, x⟩]) none none none (rngZero ℝ) () <;>
    cases hr' : Gen.User.Finder.run
      (Demo.userAttrs [⟨doubled, { x with multiplier := fun m => 2 * x.multiplier m }⟩])
      none none none (rngZero ℝ) () <;> rw [hr, hr'] at h2 <;> exact h2

/-- The constraints of the library by the loop for constraints of any class. -/
example : ∃ ph a' g', Gen.User.Finder.run (ofLibraryAttrs Demo.coexAttrs) none none (some 5000)
    (rngZero ℝ) () = .ok (ph, ofLibraryAttrs a', g') := by
  obtain ⟨ph, a', g', d, h, -⟩ := C103_returns (.ideal (Gen.IdealC.init fun _ => 1))
    (.canonical (Gen.CanonicalC.init ![5 / 8, 3 / 8])) Demo.coexAttrs_gas (rngZero_ok ℝ)
    (a := Demo.coexAttrs) rfl rfl (by simp [Demo.coexAttrs, Demo.params])
    (by simp [Demo.coexAttrs, Demo.params]) (by simp [Demo.coexAttrs, Demo.params])
    (by simp [Demo.coexAttrs, Demo.params]) rfl (ms := none) (tol := none) (iv := some 5000)
    (by norm_num [Demo.coexAttrs]) (by norm_num)
    (by simp [Demo.coexAttrs, Demo.coexState, Cons.Proper])
    (Or.inr (by norm_num [Demo.coexAttrs])) ()
  refine ⟨ph, a', g', ?_⟩
  rw [C112_library_run, h]
  rfl

/-- A constraint that only counts how often it was evolved does not disturb the balance. -/
example : ∃ ph a' g' d,
    Gen.User.Finder.run (Demo.userAttrs (X := ℕ) [⟨⟨fun _ => 0, fun _ _ _ n => n, fun _ _ _ => 0,
      fun _ _ => 0, fun _ _ n => .ok (0, n + 1)⟩, 0⟩]) none none (some 5000) (rngZero ℝ) () =
      .ok (ph, a', g') ∧ a'.diagnostics = some d ∧
    |chemPot (liftChis ![![0, 2 * Real.log 3], ![2 * Real.log 3, 0]] id) (fun _ => 1)
        (ph.fractions 0) 1
      - chemPot (liftChis ![![0, 2 * Real.log 3], ![2 * Real.log 3, 0]] id) (fun _ => 1)
        (ph.fractions 1) 1| ≤
      2 * d.maxAbsOmegaDiff + |(4 * Real.log 3) + 4| * d.maxAbsIncomp + 2 * d.maxAbsJsDiff := by
  obtain ⟨ph, a', g', h⟩ := Demo.userAttrs_returns (X := ℕ)
    (cs := [⟨⟨fun _ => 0, fun _ _ _ n => n, fun _ _ _ => 0, fun _ _ => 0,
      fun _ _ n => .ok (0, n + 1)⟩, 0⟩]) (by
    intro c hc d hd step masks
    have hm : d.methods = c.methods := by
      clear hc
      induction hd with
      | refl => rfl
      | prepare _ _ _ _ ih => exact ih
      | evolve _ _ ih => exact ih
    obtain rfl := List.mem_singleton.mp hc
    rw [hm]
    exact ⟨_, _, rfl⟩)
  obtain ⟨d, hd, hb⟩ := C112_balance (rngZero_ok ℝ) Demo.coexAttrs_gas
    (es := .canonical (Gen.CanonicalC.init ![5 / 8, 3 / 8])) rfl rfl rfl
    (by simp [Demo.userAttrs, Demo.coexAttrs, Demo.params])
    (by simp [Demo.userAttrs, Demo.coexAttrs, Demo.params])
    (by
      intro c hc x
      obtain rfl := List.mem_singleton.mp hc
      exact ⟨fun _ _ => rfl, fun _ => rfl⟩) h
  refine ⟨ph, a', g', d, h, hd, ?_⟩
  have := hb 1 one_ne_zero (by show (0 : ℝ) < ![5 / 8, 3 / 8] 1; norm_num) 0 1
  have e : (∑ r : Fin 2, ∑ q : Fin 2,
      (![![0, 2 * Real.log 3], ![2 * Real.log 3, 0]] : Mat 2 2 ℝ) r q) +
        1 * ((2 : ℕ) : ℝ) * ((2 : ℕ) : ℝ) = 4 * Real.log 3 + 4 := by
    simp [Fin.sum_univ_two]; ring
  rw [e] at this
  exact_mod_cast this

/-- Seven steps of the core loop with the constraint of a user: the two volumes add up to one or two. -/
example (x : Demo.Product) : ∃ r o J c f us g,
    Gen.User.multicomponent_self_consistent_metastep Demo.coexAttrs.interaction Demo.coexAttrs.entropy
      Demo.coexAttrs.ensemble [⟨Demo.product, x⟩] Demo.coexAttrs.omegas Demo.coexAttrs.Js
      Demo.coexAttrs.phisComp Demo.coexAttrs.phisFeat 7 Demo.coexAttrs.params.acceptanceJs
      Demo.coexAttrs.params.JsStepUpperBound Demo.coexAttrs.params.acceptanceOmega
      Demo.coexAttrs.params.killThreshold 5 Demo.coexAttrs.params.reviveScaler (rngZero ℝ) () =
      .ok (r, o, J, c, f, us, g) ∧ (J 0 + J 1 = 1 ∨ J 0 + J 1 = 2) := by
  obtain ⟨t, ht, -⟩ := opsMetastep_ok (e := (Demo.userAttrs [⟨Demo.product, x⟩]).env (rngZero ℝ))
    (P := fun d => d.methods = Demo.product) (sizes := fun _ => 1) (feat := id) (tries := 5) (n := 7)
    (s := ⟨Demo.coexAttrs.omegas, Demo.coexAttrs.Js, Demo.coexAttrs.phisComp,
      Demo.coexAttrs.phisFeat, [], ()⟩) (cs := [⟨Demo.product, x⟩])
    ⟨fun _ _ _ _ h => h, fun c step mk (h : c.methods = Demo.product) =>
      ⟨_, ⟨Demo.product, _⟩, by
        show UserCons.evolve step mk c = _
        unfold UserCons.evolve
        rw [h]
        rfl, rfl⟩⟩
    (rngZero_ok ℝ) Demo.coexAttrs_gas
    (by
      show Demo.coexAttrs.ensemble.Total
      rw [show Demo.coexAttrs.ensemble = Gen.ensembleObj 2
        (.canonical (Gen.CanonicalC.init ![5 / 8, 3 / 8])) from rfl,
        C102_entropies (S := 2) |>.2.2.2.2.2]
      exact EnsembleInst.total _ 2)
    (by simp [UserAttrs.env, Demo.userAttrs, Demo.coexAttrs, Demo.params])
    (by simp [UserAttrs.env, Demo.userAttrs, Demo.coexAttrs, Demo.params])
    (by simp [UserAttrs.env, Demo.userAttrs, Demo.coexAttrs, Demo.params])
    (by norm_num) (by simp) (Or.inr (by norm_num))
  have hm := opsMeta_eq UserCons.ops Demo.coexAttrs.interaction Demo.coexAttrs.entropy
    Demo.coexAttrs.ensemble (rngZero ℝ) Demo.coexAttrs.params 5 7
    ⟨Demo.coexAttrs.omegas, Demo.coexAttrs.Js, Demo.coexAttrs.phisComp, Demo.coexAttrs.phisFeat, [],
      ()⟩ [⟨Demo.product, x⟩]
  have hm := hm.trans (congrArg (Except.map _) ht)
  dsimp only at hm
  rw [← meta_user] at hm
  generalize hr : OpsTrace.result Demo.coexAttrs.params.killThreshold t = r at hm
  obtain ⟨r1, r2, r3, r4, r5, r6, r7⟩ := r
  have hm := hm.trans (congrArg Except.ok hr)
  refine ⟨r1, r2, r3, r4, r5, r6, r7, hm, ?_⟩
  obtain ⟨⟨k, h1, h2, h3⟩, -⟩ := C112_volumes (p := Demo.coexAttrs.params) hm
  rw [Fin.sum_univ_two] at h3
  rcases (by omega : k = 1 ∨ k = 2) with rfl | rfl
  · exact Or.inl (by simpa using h3)
  · exact Or.inr (by simpa using h3)

/-- Fields given by hand reset the multipliers of the constraint of a user. -/
example (x : Demo.Product) : ∃ b, Gen.User.Finder.reinitialize_from_omegas
      (Demo.userAttrs [⟨Demo.product, x⟩]) Demo.homFields = .ok b ∧
    b.constraints = [⟨Demo.product, ⟨fun _ => 0, fun _ => 0, fun _ _ => 0⟩⟩] := by
  obtain ⟨b, h⟩ : ∃ b, Gen.User.Finder.reinitialize_from_omegas
      (Demo.userAttrs [⟨Demo.product, x⟩]) Demo.homFields = .ok b := ⟨_, rfl⟩
  exact ⟨b, h, (((C112_starts _ (rngZero ℝ) () _).2.1 b).mp h).2.1⟩

end Flory
