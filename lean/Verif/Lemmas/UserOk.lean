import Verif.Lemmas.UserRun

/-! # Runs with constraints of any class return -/

set_option linter.unusedSectionVars false

namespace Flory

open Spec

variable {G : Type} {C S M : ℕ} [NeZero M] {α : Type}

/-- What is needed of the constraints: the property `P` is kept and `evolve` does not raise. -/
structure OpsKeeps (o : ConsOps α S M ℝ) (P : α → Prop) : Prop where
  prepare : ∀ c f J mk, P c → P (o.prepare f J mk c)
  evolve : ∀ c step mk, P c → ∃ r c', o.evolve step mk c = .ok (r, c') ∧ P c'

variable {e : OpsEnv C S M G α} {P : α → Prop} {sizes : Vec C ℝ} {feat : Fin C → Fin S}

theorem opsIterate_ok (hP : OpsKeeps e.ops P) (hok : e.rng.Ok) (hen : IsIdealGas e.en sizes feat)
    (hes : e.es.Total) (hthr : 0 ≤ e.params.killThreshold) (hthr1 : e.params.killThreshold < 1)
    (hb : 0 < e.params.JsStepUpperBound) {tries : ℤ} {count : ℕ} {s : State C S M ℝ G}
    {cs : List α} (hcs : ∀ c ∈ cs, P c)
    (halive : (∃ m, e.params.killThreshold < s.Js m) ∨ (count : ℤ) < tries) :
    ∃ t, opsIterate e.ops e.ia e.en e.es e.rng e.params tries count s cs = .ok t ∧
      ∀ c ∈ t.cons, P c := by
  obtain ⟨t0, h0, -⟩ := iterate_ok (ia := e.ia) (s := { s with cons := [] }) hok hen hes hthr hthr1 hb
    (by simp) halive
  have F := iterate_facts h0
  obtain ⟨phi0, h1, h2⟩ := F.partition
  have h3 := F.phisFeat
  have hm : t0.masks = makeMasks (reviveBlock e.rng e.params tries s.Js s.omegas s.g count).Js
    e.params.killThreshold := F.masks
  have hJ : t0.JsOld = fun m => (reviveBlock e.rng e.params tries s.Js s.omegas s.g count).Js m *
      makeMasks (reviveBlock e.rng e.params tries s.Js s.omegas s.g count).Js
        e.params.killThreshold m :=
    funext fun m => by rw [F.JsOld m, hm]
  rw [F.omegasOld, hJ] at h1
  rw [hm] at h2
  obtain ⟨t, h4, -⟩ := iterate_ok (ia := e.ia) (s := { s with cons :=
      (cs.map (e.ops.prepare t0.phisFeat t0.JsOld t0.masks)).map e.ops.mimic }) hok hen hes hthr
    hthr1 hb (by
      intro c hc
      obtain ⟨d, -, rfl⟩ := List.mem_map.mp hc
      trivial) halive
  obtain ⟨cs', r, h5, h6⟩ := opsEvolve_ok P (t.factor * e.params.acceptanceOmega) t0.masks
    (fun c hc => hP.evolve c _ _ hc) (cs.map (e.ops.prepare t0.phisFeat t0.JsOld t0.masks)) (by
      intro c hc
      obtain ⟨d, hd, rfl⟩ := List.mem_map.mp hc
      exact hP.prepare d _ _ _ (hcs d hd)) 0
  rw [hJ, hm] at h4 h5
  refine ⟨⟨t, cs.map (e.ops.prepare t0.phisFeat t0.JsOld t0.masks), cs', r⟩, ?_, h6⟩
  rw [hJ, hm]
  unfold opsIterate
  dsimp only at h1 h2 h3 h4 ⊢
  rw [h1, Py.ok_bind, h2, Py.ok_bind, h3, Py.ok_bind, h4, Py.ok_bind, h5]
  rfl

theorem opsMetastep_ok (hP : OpsKeeps e.ops P) (hok : e.rng.Ok) (hen : IsIdealGas e.en sizes feat)
    (hes : e.es.Total) (hthr : 0 ≤ e.params.killThreshold) (hthr1 : e.params.killThreshold < 1)
    (hb : 0 < e.params.JsStepUpperBound) {tries : ℤ} {n : ℕ} (hn : n ≠ 0) {s : State C S M ℝ G}
    {cs : List α} (hcs : ∀ c ∈ cs, P c)
    (halive : (∃ m, e.params.killThreshold < s.Js m) ∨ 0 < tries) :
    ∃ t, opsMetastep e.ops e.ia e.en e.es e.rng e.params tries n s cs = .ok t ∧
      (∀ c ∈ t.cons, P c) ∧ ∃ m, 1 ≤ t.pass.Js m := by
  obtain ⟨n, rfl⟩ := Nat.exists_eq_succ_of_ne_zero hn
  obtain ⟨t1, h1, h2⟩ := opsIterate_ok (tries := tries) (count := 0) hP hok hen hes hthr hthr1 hb hcs
    (by simpa using halive)
  have h3 : ∃ m, 1 ≤ t1.pass.Js m := by
    obtain ⟨m, -, hm⟩ := (opsIterate_facts h1).facts.exists_Js_ge_one
    exact ⟨m, hm⟩
  have key : ∀ (n : ℕ) (t1 : OpsTrace C S M ℝ G α), (∀ c ∈ t1.cons, P c) →
      (∃ m, 1 ≤ t1.pass.Js m) →
      ∃ t, opsMore e.ops e.ia e.en e.es e.rng e.params tries n t1 = .ok t ∧
        (∀ c ∈ t.cons, P c) ∧ ∃ m, 1 ≤ t.pass.Js m := by
    intro n
    induction n with
    | zero => exact fun t1 k1 k2 => ⟨t1, rfl, k1, k2⟩
    | succ n ih =>
      intro t1 k1 ⟨m, k2⟩
      obtain ⟨t2, k3, k4⟩ := opsIterate_ok (tries := tries) (count := t1.pass.reviveCount)
        (s := t1.pass.state) hP hok hen hes hthr hthr1 hb k1 (Or.inl ⟨m, hthr1.trans_le k2⟩)
      obtain ⟨m', -, hm'⟩ := (opsIterate_facts k3).facts.exists_Js_ge_one
      obtain ⟨t, k5, k6⟩ := ih t2 k4 ⟨m', hm'⟩
      exact ⟨t, by simp only [opsMore, k3, bind_ok, k5], k6⟩
  obtain ⟨t, h4, h5⟩ := key n t1 h2 h3
  exact ⟨t, by simp only [opsMetastep, h1, bind_ok, h4], h5⟩

theorem opsLoop_ok (hP : OpsKeeps e.ops P) (hok : e.rng.Ok) (hen : IsIdealGas e.en sizes feat)
    (hes : e.es.Total) (hthr : 0 ≤ e.params.killThreshold) (hthr1 : e.params.killThreshold < 1)
    (hb : 0 < e.params.JsStepUpperBound) (hstd : e.criterion = "standard") {tol : ℝ} {inner : ℤ}
    (hin : 1 ≤ inner) (n : ℕ) (s : OpsRunTuple C S M G α) (hcs : ∀ c ∈ s.2.2.2.2.1, P c)
    (halive : (∃ m, e.params.killThreshold < s.2.1 m) ∨ 0 < s.2.2.2.2.2.2.2.1) :
    ∃ s', forBreakM n s (opsRunBody e tol inner) = .ok s' ∧
      (n ≠ 0 → (∃ m, 1 ≤ s'.2.1 m) ∧ ∃ x1 x2 x3 x4,
        s'.2.2.2.2.2.2.2.2 = (some x1, some x2, some x3, some x4)) := by
  induction n generalizing s with
  | zero => exact ⟨s, rfl, fun h => absurd rfl h⟩
  | succ n ih =>
    obtain ⟨t, h1, h2, m, h3⟩ := opsMetastep_ok (tries := s.2.2.2.2.2.2.2.1) (n := inner.toNat)
      (s := ⟨s.1, s.2.1, s.2.2.1, s.2.2.2.1, [], s.2.2.2.2.2.1⟩) hP hok hen hes hthr hthr1 hb
      (by omega) hcs halive
    have hm := opsMeta_eq e.ops e.ia e.en e.es e.rng e.params s.2.2.2.2.2.2.2.1 inner
      ⟨s.1, s.2.1, s.2.2.1, s.2.2.2.1, [], s.2.2.2.2.2.1⟩ s.2.2.2.2.1
    rw [h1] at hm
    dsimp only at hm
    have hb' : ∃ b, opsRunBody e tol inner s = .ok ((t.pass.omegas, t.pass.Js, t.pass.phisComp,
        t.pass.phisFeat, t.cons, t.pass.g, s.2.2.2.2.2.2.1 + inner,
        s.2.2.2.2.2.2.2.1 - (t.pass.reviveCount : ℤ), some t.pass.maxAbsIncomp,
        some t.pass.maxAbsOmegaDiff, some t.pass.maxAbsJsDiff, some t.residue), b) := by
      unfold opsRunBody
      rw [hm]
      simp only [Except.map, bind_ok, if_pos hstd]
      split
      · exact ⟨true, rfl⟩
      · exact ⟨false, rfl⟩
    obtain ⟨b, hb'⟩ := hb'
    unfold forBreakM
    rw [hb', Py.ok_bind]
    cases b with
    | true => exact ⟨_, rfl, fun _ => ⟨⟨m, h3⟩, _, _, _, _, rfl⟩⟩
    | false =>
      obtain ⟨s', k1, k2⟩ := ih (t.pass.omegas, t.pass.Js, t.pass.phisComp,
        t.pass.phisFeat, t.cons, t.pass.g, s.2.2.2.2.2.2.1 + inner,
        s.2.2.2.2.2.2.2.1 - (t.pass.reviveCount : ℤ), some t.pass.maxAbsIncomp,
        some t.pass.maxAbsOmegaDiff, some t.pass.maxAbsJsDiff, some t.residue) h2
        (Or.inl ⟨m, hthr1.trans_le h3⟩)
      refine ⟨s', k1, fun _ => ?_⟩
      by_cases hn : n = 0
      · subst hn
        obtain rfl := Except.ok.inj k1
        exact ⟨⟨m, h3⟩, _, _, _, _, rfl⟩
      · exact k2 hn

theorem opsRun_ok (hP : OpsKeeps e.ops P) (hok : e.rng.Ok) (hen : IsIdealGas e.en sizes feat)
    (hes : e.es.Total) (hthr : 0 ≤ e.params.killThreshold) (hthr1 : e.params.killThreshold < 1)
    (hthr2 : 2 * e.params.killThreshold * ((M : ℝ) - 1) < 1)
    (hb : 0 < e.params.JsStepUpperBound) (hstd : e.criterion = "standard") {tol : ℝ} {ms : ℚ} {iv : ℤ}
    (h1 : 0 < ms) (h2 : 0 < iv) (s : OpsRunTuple C S M G α) (hcs : ∀ c ∈ s.2.2.2.2.1, P c)
    (halive : (∃ m, e.params.killThreshold < s.2.1 m) ∨ 0 < s.2.2.2.2.2.2.2.1) :
    ∃ r, opsRun e ms tol iv s = .ok r := by
  have hiv : ((iv : ℤ) : ℚ) ≠ 0 := by exact_mod_cast h2.ne'
  have hq : 0 < ⌈ms / ((iv : ℤ) : ℚ)⌉ := Int.ceil_pos.mpr (div_pos h1 (by exact_mod_cast h2))
  obtain ⟨s', k1, k2⟩ := opsLoop_ok (tol := tol) (inner := max 1 (Int.fdiv ⌈ms⌉ ⌈ms / ((iv : ℤ) : ℚ)⌉))
    hP hok hen hes hthr hthr1 hb hstd (le_max_left _ _) (⌈ms / ((iv : ℤ) : ℚ)⌉).toNat s hcs halive
  obtain ⟨⟨m, hm⟩, x1, x2, x3, x4, hx⟩ := k2 (by omega)
  have hmass : 2 * e.params.killThreshold * ((M : ℝ) - 1) <
      ∑ m with e.params.killThreshold < s'.2.1 m, s'.2.1 m := by
    refine hthr2.trans_le (hm.trans ?_)
    refine Finset.single_le_sum (f := fun m => s'.2.1 m) (fun i hi => ?_) ?_
    · exact hthr.trans (by simpa using hi : e.params.killThreshold < s'.2.1 i).le
    · simpa using lt_of_lt_of_le hthr1 hm
  obtain ⟨c, hc⟩ := C33_copy_revival_succeeds hok s'.2.1 s'.2.2.1 hthr s'.2.2.2.2.2.1 hmass
  unfold opsRun
  rw [pyDiv_ok hiv, Py.ok_bind]
  unfold pyFloorDiv
  rw [if_neg hq.ne', Py.ok_bind, k1, Py.ok_bind, copy_transcript hok, hc, hx]
  exact ⟨_, rfl⟩

end Flory
