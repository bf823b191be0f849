import Verif.Lemmas.Resume
import Verif.Props.Relabel
import Verif.Props.FinderHistory

/-! # What the result of a run does not depend on, and runs in pieces

C71: generator and revival parameters.  C72: a constant added to all fields.  C73: interruptions. -/

set_option linter.unusedSectionVars false

namespace Flory

open Spec

variable {G : Type}

/-- Runs of a finder with equal volumes that are too short for any compartment to die. -/
theorem finder_short_run {env : FinderEnv G} {f f1 : Finder G} {ms : ℚ} {tol : Option ℝ} {int : ℤ}
    {out : RunOut} (hthr : 0 ≤ f.params.killThreshold) (hb : 0 < f.params.JsStepUpperBound)
    (hacc : 0 ≤ f.params.acceptanceJs) (h1 : 0 < ms) (h2 : 0 < int) (hJ : ∀ m, f.Js m = 1)
    (hshort : (⌈ms⌉ : ℝ) * (2 * f.params.JsStepUpperBound) < 1 - f.params.killThreshold)
    (h : f.run env (some ms) tol (some int) = (f1, .ok out)) :
    out.diagnostics.reviveCountLeft = f.reviveLeft ∧ ∀ m, f.params.killThreshold < f1.Js m := by
  obtain ⟨p, hM, rs, ph, d, k1, k2, rfl, rfl⟩ := run_inv h
  exact short_run (e := f.runEnv env p) hthr hb hacc h1 h2 hJ hshort k2

namespace Demo

/-- The demo finder, whose runs of at most 400 steps return without deaths. -/
theorem short : ∃ f ia cs, Finder.create fenv () fhPy.obj gasObj.obj canonicalObj.obj
      (.many [locObj.obj, globObj.obj]) args = .ok f ∧
    Created args ia ⟨2, 2, .ideal ⟨![1, 2]⟩⟩ ⟨2, .canonical ⟨![1 / 2, 1 / 2]⟩⟩ cs f ∧
    ∀ n k : ℕ, 0 < n → n ≤ 400 → 0 < k → ∃ f1 out,
      f.run fenv (some (n : ℚ)) none (some (k : ℤ)) = (f1, .ok out) ∧
      out.diagnostics.reviveCountLeft = f.reviveLeft ∧ ∀ m, f.params.killThreshold < f1.Js m := by
  obtain ⟨f, ia, cs, hf, hc, -⟩ := created
  refine ⟨f, ia, cs, hf, hc, fun n k h1 h2 h3 => ?_⟩
  obtain ⟨out, hout⟩ := (C34_histories (env := fenv) (rngZero_ok ℝ) hf
    (ops := []) (by
      intro kw x hx
      cases hx
      exact ⟨⟨trivial, trivial⟩, by decide⟩) (by
      intro o ho kw x hx
      simp only [consObjs, List.mem_cons, List.not_mem_nil, or_false] at ho
      rcases ho with rfl | rfl <;>
      · cases hx
        simp [NonEmpty, locObj, globObj]) (by norm_num [args]) (by norm_num [args])
      (by norm_num [args]) (by simp) (by simp [SetsAccepted])).2 rfl (by norm_num [args])
    (some (n : ℚ)) none (some (k : ℤ)) (by simpa using h1) (by simpa using h3)
  have hrun : f.run fenv (some (n : ℚ)) none (some (k : ℤ)) =
      ((f.run fenv (some (n : ℚ)) none (some (k : ℤ))).1, .ok out) := Prod.ext rfl hout
  obtain ⟨k1, k2⟩ := finder_short_run (by rw [hc.params]; norm_num [args])
    (by rw [hc.params]; norm_num [args]) (by rw [hc.params]; norm_num [args]) (by simpa using h1)
    (by simpa using h3) hc.Js (by
      rw [hc.params]
      have : (n : ℝ) ≤ 400 := by exact_mod_cast h2
      norm_num [args]
      linarith) hrun
  exact ⟨_, out, hrun, k1, k2⟩

end Demo

/-! ## C71 -/

/-- **C71**. If a run revives nothing and ends with all volumes above the threshold then a finder with
the same arrays and instances but another random generator (`env'`, `g'`), another revive budget
(`b'`, `mr`) and another revive scaler (`sc`) returns the same phases and reports the same
diagnostics, except for the remaining budget, and is left with the same arrays. -/
theorem C71_generator {env env' : FinderEnv G} (hrng : env.rng.Ok) {f f1 : Finder G}
    (hthr : 0 ≤ f.params.killThreshold) {ms : Option ℚ} {tol : Option ℝ} {int : Option ℤ}
    {out : RunOut} (h : f.run env ms tol int = (f1, .ok out))
    (hrev : out.diagnostics.reviveCountLeft = f.reviveLeft)
    (halive : ∀ m, f.params.killThreshold < f1.Js m) (g' : G) (b' mr : ℤ) (sc : ℝ) :
    ({ f with g := g', reviveLeft := b', maxRevive := mr,
              params := { f.params with reviveScaler := sc } } : Finder G).run env' ms tol int =
      ({ f1 with g := g', reviveLeft := b', maxRevive := mr,
                 params := { f.params with reviveScaler := sc },
                 diagnostics := some { out.diagnostics with reviveCountLeft := b' } },
        .ok { out with diagnostics := { out.diagnostics with reviveCountLeft := b' } }) := by
  obtain ⟨p, hM, rs, ph, d, h1, h2, rfl, rfl⟩ := run_inv h
  set f' : Finder G := {
    f with
    g := g'
    reviveLeft := b'
    maxRevive := mr
    params := { f.params with reviveScaler := sc } } with hf'
  have hp' : f'.parts = some p := h1
  have hM' : NeZero f'.numPart := hM
  obtain ⟨rs', k1, k2, ⟨k3, k4⟩, -, -⟩ := (sim_generator (e := f.runEnv env p)
    (e' := f'.runEnv env' p) ⟨rfl, rfl, rfl, rfl, rfl⟩ g').run hrng hthr (st := f.state p.cons)
    (st' := f'.state p.cons) (b' := b') (f := rs) (d := d) ⟨⟨rfl, rfl, rfl, rfl, rfl⟩, rfl⟩ h2 hrev halive
  rw [run_some hp', show runImpl (f'.runEnv env' p) (ms.getD f'.maxSteps) (tol.getD f'.tolerance)
    (int.getD f'.interval) (f'.state p.cons) f'.reviveLeft = _ from k1]
  simp only [Finder.finish, Finder.store, Finder.storeArrays, k2, k3.omegas, k3.Js, k3.phisComp,
    k3.phisFeat, k3.cons, k4]
  rfl

-- The demo finder with another stream of random numbers, without revivals.
example : ∃ f f1 out d', Finder.create Demo.fenv () Demo.fhPy.obj Demo.gasObj.obj
      Demo.canonicalObj.obj (.many [Demo.locObj.obj, Demo.globObj.obj]) Demo.args = .ok f ∧
    f.run Demo.fenv (some (100 : ℕ)) none (some (7 : ℕ)) = (f1, .ok out) ∧
    ({ f with reviveLeft := 0, maxRevive := 0 } : Finder Unit).run
      ⟨⟨fun g => (1 / 2, g), fun g => (1, g), fun g n => (n - 1, g)⟩, fun _ _ _ s => s⟩
      (some (100 : ℕ)) none (some (7 : ℕ)) =
      ({ f1 with g := (), reviveLeft := 0, maxRevive := 0, params := f.params,
                 diagnostics := some d' }, .ok { out with diagnostics := d' }) := by
  obtain ⟨f, ia, cs, hf, hc, h⟩ := Demo.short
  obtain ⟨f1, out, h1, h2, h3⟩ := h 100 7 (by norm_num) (by norm_num) (by norm_num)
  exact ⟨f, f1, out, _, hf, h1,
    C71_generator (rngZero_ok ℝ) (by rw [hc.params]; norm_num [Demo.args]) h1 h2 h3 () 0 0
      f.params.reviveScaler⟩

/-! ## C72 -/

/-- **C72**. In the canonical ensemble adding the same constant to all fields changes neither the
returned phases nor the diagnostics of a run without deaths that starts with volumes of average one;
the fields at the end differ by the same constant. -/
theorem C72_gauge {env : FinderEnv G} (hrng : env.rng.Ok) {f f1 : Finder G}
    (hthr : 0 ≤ f.params.killThreshold) (hthr1 : f.params.killThreshold < 1)
    (hb : 0 < f.params.JsStepUpperBound) (hen : GoodEntropy f.entropy) {C : ℕ} {es : CanonicalC C ℝ}
    (hes : f.ensemble = ⟨C, .canonical es⟩) (hsum : ∑ m, f.Js m = f.numPart)
    {ms : Option ℚ} {tol : Option ℝ} {int : Option ℤ}
    {out : RunOut} (h : f.run env ms tol int = (f1, .ok out))
    (hrev : out.diagnostics.reviveCountLeft = f.reviveLeft)
    (halive : ∀ m, f.params.killThreshold < f1.Js m) (c : ℝ) :
    ∃ g', ({ f with omegas := fun r m => f.omegas r m + c } : Finder G).run env ms tol int =
      ({ f1 with omegas := fun r m => f1.omegas r m + c, g := g' }, .ok out) := by
  obtain ⟨p, hM, rs, ph, d, h1, h2, rfl, rfl⟩ := run_inv h
  set f' : Finder G := { f with omegas := fun r m => f.omegas r m + c } with hf'
  have hp' : f'.parts = some p := h1
  have hM' : NeZero f'.numPart := hM
  obtain ⟨h3, h4, h5, h6⟩ := parts_eq.mp h1
  rw [h4] at hen
  obtain ⟨sizes, feat, hgas⟩ := p.en.isIdealGas hen.1 hen.2 f.numPart
  obtain ⟨pm, hpm⟩ : ∃ pm : CanonicalC f.numComp ℝ, p.es = .canonical pm := by
    rw [hes] at h5
    obtain ⟨rfl, hh⟩ := Sigma.mk.inj h5
    exact ⟨es, (eq_of_heq hh).symm⟩
  have hes' : (f.runEnv env p).es = pm.toI f.numPart := by
    simp only [Finder.runEnv, hpm, EnsembleInst.toI]
  obtain ⟨rs', k1, k2, ⟨k3, -⟩, -, -⟩ := (sim_gauge (e := f.runEnv env p) (sizes := sizes)
    (feat := feat) (pm := pm.phiMeans) hrng hgas (hes' ▸ pm.scales) (hes' ▸ pm.total)
    hthr hthr1 hb c).run hrng hthr (st := f.state p.cons) (st' := f'.state p.cons)
    (b' := f.reviveLeft) (f := rs) (d := d)
    ⟨⟨fun _ _ => rfl, rfl, rfl, rfl, rfl⟩, hsum⟩ h2 hrev halive
  refine ⟨rs'.st.g, ?_⟩
  rw [run_some hp', show runImpl (f'.runEnv env p) (ms.getD f'.maxSteps) (tol.getD f'.tolerance)
    (int.getD f'.interval) (f'.state p.cons) f'.reviveLeft = _ from k1]
  have hd : ({ d with reviveCountLeft := f.reviveLeft } : Diagnostics ℝ) = d := by
    rw [← hrev]
  have hrl : rs.reviveLeft = f.reviveLeft := by
    obtain ⟨_, _, _, _, _, -, -, hfacts⟩ := run_facts hthr h2
    rw [← hrev]
    exact (congrArg Diagnostics.reviveCountLeft hfacts.diag).symm
  have hom : rs'.st.omegas = fun r m => rs.st.omegas r m + c :=
    funext fun r => funext fun m => k3.omegas r m
  simp only [Finder.finish, Finder.store, Finder.storeArrays, k2, k3.Js, k3.phisComp,
    k3.phisFeat, k3.cons, hom, hd, hrl]
  rfl

/-- **C72** for a different constant for each feature: a pass without dead compartments computes the
same fractions, volumes, constraint multipliers and errors, except for the errors of the fields. -/
theorem C72_pass {C S M : ℕ} [NeZero M] {ia : InteractionI S M ℝ} {en : EntropyI C S M ℝ}
    {es : CanonicalC C ℝ} {rng rng' : Rng G ℝ} {p : Params ℝ} {tries tries' : ℤ} {count count' : ℕ}
    {s s' : State C S M ℝ G} {t t' : Trace C S M ℝ G} {sizes : Vec C ℝ} {feat : Fin C → Fin S}
    (hen : IsIdealGas en sizes feat) (ha : ∀ m, p.killThreshold < s.Js m)
    (hsum : ∑ m, s.Js m = M) (hJ : s'.Js = s.Js) {c : Vec S ℝ}
    (hom : ∀ r m, s'.omegas r m = s.omegas r m + c r) (hcons : s'.cons = s.cons)
    (h : iterate ia en (es.toI M) rng p tries count s = .ok t)
    (h' : iterate ia en (es.toI M) rng' p tries' count' s' = .ok t') :
    t'.Js = t.Js ∧ t'.phisComp = t.phisComp ∧ t'.phisFeat = t.phisFeat ∧ t'.cons = t.cons ∧
    t'.maxAbsIncomp = t.maxAbsIncomp ∧ t'.maxAbsJsDiff = t.maxAbsJsDiff ∧
    t'.maxConstraintResidue = t.maxConstraintResidue ∧
    ∃ c' : Vec S ℝ, ∑ r, c' r = ∑ r, c r ∧ ∀ r m, t'.omegas r m = t.omegas r m + c' r := by
  obtain ⟨k1, k2, k3, k4, k5, k6, k7, k8, k9, k10, k11⟩ := gauge_pass hen es.scales ha hsum hJ hom
    hcons h h'
  refine ⟨k1, k2, k3, k4, ?_, ?_, k8, _, ?_, k11⟩
  · rw [(iterate_facts h).maxAbsIncomp, (iterate_facts h').maxAbsIncomp, k5]
  · rw [(iterate_facts h).maxAbsJsDiff, (iterate_facts h').maxAbsJsDiff, k6]
  · rw [Finset.sum_add_distrib, ← Finset.mul_sum, Finset.sum_sub_distrib, Finset.sum_const,
      Finset.card_univ, Fintype.card_fin, nsmul_eq_mul]
    by_cases hS : S = 0
    · subst hS; simp
    · have : (S : ℝ) ≠ 0 := by exact_mod_cast hS
      rw [mul_div_cancel₀ _ this, sub_self, mul_zero, add_zero]

-- The demo finder with fields shifted by five.
example : ∃ f f1 out g', Finder.create Demo.fenv () Demo.fhPy.obj Demo.gasObj.obj
      Demo.canonicalObj.obj (.many [Demo.locObj.obj, Demo.globObj.obj]) Demo.args = .ok f ∧
    f.run Demo.fenv (some (100 : ℕ)) none (some (7 : ℕ)) = (f1, .ok out) ∧
    ({ f with omegas := fun r m => f.omegas r m + 5 } : Finder Unit).run Demo.fenv
      (some (100 : ℕ)) none (some (7 : ℕ)) =
      ({ f1 with omegas := fun r m => f1.omegas r m + 5, g := g' }, .ok out) := by
  obtain ⟨f, ia, cs, hf, hc, h⟩ := Demo.short
  obtain ⟨f1, out, h1, h2, h3⟩ := h 100 7 (by norm_num) (by norm_num) (by norm_num)
  obtain ⟨g', hg⟩ := C72_gauge (rngZero_ok ℝ) (by rw [hc.params]; norm_num [Demo.args])
    (by rw [hc.params]; norm_num [Demo.args]) (by rw [hc.params]; norm_num [Demo.args])
    (by rw [hc.entropy]; exact ⟨trivial, trivial⟩) hc.ensemble (by simp [hc.Js]) h1 h2 h3 5
  exact ⟨f, f1, out, g', hf, h1, hg⟩

-- A pass of the demo mixture with the first field shifted by seven.
example : ∃ t t', iterate (Demo.fh.toI 3) (Demo.gas.toI 3) (Demo.canonical.toI 3) (rngZero ℝ)
      Demo.params 0 0 { Demo.state Demo.allCons with Js := fun _ => 1 } = .ok t ∧
    iterate (Demo.fh.toI 3) (Demo.gas.toI 3) (Demo.canonical.toI 3) (rngZero ℝ)
      Demo.params 0 0 { Demo.state Demo.allCons with
        omegas := fun r m => (Demo.state Demo.allCons).omegas r m + ![7, 0] r
        Js := fun _ => 1 } = .ok t' ∧
    t'.phisComp = t.phisComp := by
  have key : ∀ s : State 2 2 3 ℝ Unit, s.cons = Demo.allCons → s.Js = (fun _ => 1) →
      ∃ t, iterate (Demo.fh.toI 3) (Demo.gas.toI 3) (Demo.canonical.toI 3) (rngZero ℝ)
        Demo.params 0 0 s = .ok t := by
    intro s hs hJ
    obtain ⟨t, ht, -⟩ := iterate_ok (ia := Demo.fh.toI 3) (tries := 0) (count := 0)
      (s := s) (rngZero_ok ℝ) Demo.gas.isIdealGas Demo.canonical.total (p := Demo.params)
      (by simp [Demo.params]) (by simp [Demo.params]) (by simp [Demo.params])
      (by rw [hs]; exact Demo.allCons_proper) (Or.inl ⟨0, by simp [Demo.params, hJ]⟩)
    exact ⟨t, ht⟩
  have hs : ∃ s : State 2 2 3 ℝ Unit, s = { Demo.state Demo.allCons with Js := fun _ => 1 } := ⟨_, rfl⟩
  obtain ⟨s, hs⟩ := hs
  have hs' : ∃ s' : State 2 2 3 ℝ Unit, s' = { Demo.state Demo.allCons with
        omegas := fun r m => (Demo.state Demo.allCons).omegas r m + ![7, 0] r
        Js := fun _ => 1 } := ⟨_, rfl⟩
  obtain ⟨s', hs'⟩ := hs'
  rw [← hs, ← hs']
  obtain ⟨t, ht⟩ := key s (by rw [hs]; rfl) (by rw [hs])
  obtain ⟨t', ht'⟩ := key s' (by rw [hs']; rfl) (by rw [hs'])
  have h2 := (C72_pass (s := s) (s' := s') Demo.gas.isIdealGas (by simp [Demo.params, hs])
    (by simp [hs]) (by rw [hs, hs']) (c := ![7, 0]) (by simp [hs, hs']) (by rw [hs, hs']) ht ht').2.1
  exact ⟨t, t', ht, ht', h2⟩

/-! ## C73 -/

/-- All errors below the tolerance. -/
def Spec.Within (tol : ℝ) (d : Diagnostics ℝ) : Prop :=
  d.maxAbsIncomp < tol ∧ d.maxAbsOmegaDiff < tol ∧ d.maxAbsJsDiff < tol ∧ d.maxConstraintResidue < tol

theorem resume_impl {C S M : ℕ} [NeZero M] {e : RunEnv C S M ℝ G}
    (hthr : 0 ≤ e.params.killThreshold) {n1 n2 k : ℕ} (hn1 : n1 ≠ 0) (hn2 : n2 ≠ 0) (hk : k ≠ 0)
    {tol : ℝ} {st : State C S M ℝ G} {b : ℤ} {f : RunState C S M ℝ G} {ph : Phases M C ℝ}
    {d : Diagnostics ℝ}
    (h : runImpl e ((n1 * k : ℕ) : ℚ) tol k st b = (f, .ok (ph, d)))
    (ha : ∀ m, e.params.killThreshold < f.st.Js m) :
    (Within tol d → runImpl e (((n1 + n2) * k : ℕ) : ℚ) tol k st b = (f, .ok (ph, d))) ∧
    (¬ Within tol d →
      (∀ f2 ph2 d2, runImpl e ((n2 * k : ℕ) : ℚ) tol k f.st f.reviveLeft = (f2, .ok (ph2, d2)) →
        ∃ f3, runImpl e (((n1 + n2) * k : ℕ) : ℚ) tol k st b =
          (f3, .ok (ph2, { d2 with steps := n1 * k + d2.steps })) ∧ f3.st = f2.st ∧
          f3.reviveLeft = f2.reviveLeft) ∧
      (∀ f2 err, runImpl e ((n2 * k : ℕ) : ℚ) tol k f.st f.reviveLeft = (f2, .error err) →
        ∃ f3, runImpl e (((n1 + n2) * k : ℕ) : ℚ) tol k st b = (f3, .error err) ∧ f3.st = f2.st ∧
          f3.reviveLeft = f2.reviveLeft)) := by
  rw [runImpl_multiple hn1 hk] at h
  rcases hl : runLoop e tol k n1 ⟨st, b, 0, none⟩ with ⟨s1, r1⟩
  rw [hl] at h
  cases r1 with
  | error err => simp at h
  | ok u =>
    simp only at h
    obtain ⟨q1, -, -, -⟩ := runFinal_ok h
    have ha1 : ∀ m, e.params.killThreshold < s1.st.Js m := by rw [← q1]; exact ha
    obtain ⟨r, hr1, hr2, hr3⟩ := runLoop_safe hthr hl hn1 ha1
    have hfin := h
    rw [runFinal_alive hthr ha1 hr1] at h
    simp only [Prod.mk.injEq, Except.ok.injEq] at h
    obtain ⟨rfl, rfl, rfl⟩ := h
    have hconv : converged tol r = true ↔ Within tol ⟨s1.steps, r.last.maxAbsIncomp,
        r.last.maxAbsOmegaDiff, r.last.maxAbsJsDiff, r.last.maxConstraintResidue, s1.reviveLeft⟩ := by
      unfold converged Within
      simp [hr3, and_assoc]
    have hsteps : ¬ Within tol ⟨s1.steps, r.last.maxAbsIncomp,
        r.last.maxAbsOmegaDiff, r.last.maxAbsJsDiff, r.last.maxConstraintResidue, s1.reviveLeft⟩ →
        s1.steps = n1 * k := by
      intro hnw
      obtain ⟨ts, s', b', -, -, -, c4, c5⟩ := runLoop_chain (e := e) hthr (tol := tol)
        (inner := k) n1 ⟨st, b, 0, none⟩
      rw [hl] at c4 c5
      simp only [Nat.zero_add] at c4
      rcases c5 with ⟨-, -, -, -, c5, c6⟩ | ⟨err, c5, -⟩ | ⟨c5, -⟩
      · rcases c5 with c5 | ⟨t, ht, hmet⟩
        · rw [c4, c5]
        · exfalso
          rcases c6 with ⟨rfl, -⟩ | ⟨t', r', ht', c6, c7⟩
          · simp at ht
          · obtain rfl : t = t' := by
              rw [ht'] at ht
              exact (Option.mem_some_iff.mp ht).symm
            rw [hr1] at c6
            cases c6
            exact hnw ⟨by rw [c7]; exact hmet.2.1, by rw [c7]; exact hmet.2.2.1,
              by rw [c7]; exact hmet.2.2.2.1, by rw [c7]; exact hmet.2.2.2.2⟩
      · cases c5
      · cases c5
    refine ⟨fun hw => ?_, fun hw => ?_⟩
    · rw [runImpl_multiple (by omega) hk]
      obtain ⟨n, rfl⟩ := Nat.exists_eq_succ_of_ne_zero hn1
      rw [runLoop_stopped hl hr1 (hconv.mpr hw)]
      exact hfin
    · have hnc : ∀ r', s1.last = some r' → converged tol r' = false := by
        intro r' hr'
        rw [hr1] at hr'
        cases hr'
        rw [Bool.eq_false_iff, ne_eq, hconv]
        exact hw
      obtain ⟨o1, o2, o3, o4, o5⟩ := runLoop_offset (e := e) tol k n2 ⟨s1.st, s1.reviveLeft, 0, none⟩
        s1.steps s1.last
      simp only [Nat.add_zero] at o1 o2 o3 o4 o5
      have hlong : runImpl e (((n1 + n2) * k : ℕ) : ℚ) tol k st b =
          match runLoop e tol k n2 s1 with
          | (s, .error err) => (s, .error err)
          | (s, .ok ()) => runFinal e s := by
        rw [runImpl_multiple (by omega) hk, runLoop_append hl hnc]
        rcases runLoop e tol k n2 s1 with ⟨_, _ | _⟩ <;> rfl
      have hs := hsteps hw
      rcases hA : runLoop e tol k n2 ⟨s1.st, s1.reviveLeft, 0, none⟩ with ⟨sA, rA⟩
      rcases hB : runLoop e tol k n2 s1 with ⟨sB, rB⟩
      rw [hA, show (⟨s1.st, s1.reviveLeft, s1.steps, s1.last⟩ : RunState C S M ℝ G) = s1 from rfl,
        hB] at o1 o2 o3 o4 o5
      simp only at o1 o2 o3 o4 o5
      subst o1
      rw [hB] at hlong
      refine ⟨fun f2 ph2 d2 h2 => ?_, fun f2 err h2 => ?_⟩
      · rw [runImpl_multiple hn2 hk, hA] at h2
        cases rB with
        | error err => simp at h2
        | ok u =>
          simp only at h2 hlong
          have hlast := o5 hn2 rfl
          unfold runFinal at h2 hlong
          rw [o2] at hlong
          cases hcp : reviveByCopy e.rng sA.st.Js sA.st.phisComp e.params.killThreshold sA.st.g with
          | error err => rw [hcp] at h2; simp at h2
          | ok c =>
            rw [hcp] at h2 hlong
            simp only at h2 hlong
            cases hla : sA.last with
            | none => rw [hla] at h2; simp at h2
            | some r' =>
              rw [hla] at h2 hlast
              rw [hlast] at hlong
              simp only [Prod.mk.injEq, Except.ok.injEq] at h2
              obtain ⟨rfl, rfl, rfl⟩ := h2
              simp only [o4, hs, o3] at hlong
              exact ⟨_, hlong, rfl, rfl⟩
      · rw [runImpl_multiple hn2 hk, hA] at h2
        cases rB with
        | error err' =>
          simp only [Prod.mk.injEq, Except.error.injEq] at h2
          obtain ⟨rfl, rfl⟩ := h2
          exact ⟨sB, hlong, o2, o3⟩
        | ok u =>
          simp only at h2 hlong
          have hlast := o5 hn2 rfl
          unfold runFinal at h2 hlong
          rw [o2] at hlong
          cases hcp : reviveByCopy e.rng sA.st.Js sA.st.phisComp e.params.killThreshold sA.st.g with
          | error err' =>
            rw [hcp] at h2 hlong
            simp only [Prod.mk.injEq, Except.error.injEq] at h2 hlong
            obtain ⟨rfl, rfl⟩ := h2
            exact ⟨sB, hlong, o2, o3⟩
          | ok c =>
            rw [hcp] at h2 hlong
            simp only at h2 hlong
            cases hla : sA.last with
            | none =>
              rw [hla] at h2 hlast
              rw [hlast] at hlong
              simp only [Prod.mk.injEq, Except.error.injEq] at h2
              obtain ⟨rfl, rfl⟩ := h2
              exact ⟨_, hlong, rfl, o3⟩
            | some r' => rw [hla] at h2; simp at h2

/-- **C73**. Interrupting a run: if a run of `n1` intervals ends with all volumes above the threshold
then running `n2` further intervals gives what one run of `n1 + n2` intervals gives: the same phases,
errors, arrays, generator and budget (or the same exception), and the numbers of steps add up.  If
the first run met the tolerance then the long run returns its result. -/
theorem C73_resume {env : FinderEnv G} {f f1 : Finder G} (hthr : 0 ≤ f.params.killThreshold)
    {n1 n2 k : ℕ} (hn1 : n1 ≠ 0) (hn2 : n2 ≠ 0) (hk : k ≠ 0) {tol : Option ℝ} {out : RunOut}
    (h : f.run env (some ((n1 * k : ℕ) : ℚ)) tol (some k) = (f1, .ok out))
    (halive : ∀ m, f.params.killThreshold < f1.Js m) :
    (Within (tol.getD f.tolerance) out.diagnostics →
      f.run env (some (((n1 + n2) * k : ℕ) : ℚ)) tol (some k) = (f1, .ok out)) ∧
    (¬ Within (tol.getD f.tolerance) out.diagnostics →
      (∀ f2 out2, f1.run env (some ((n2 * k : ℕ) : ℚ)) tol (some k) = (f2, .ok out2) →
        f.run env (some (((n1 + n2) * k : ℕ) : ℚ)) tol (some k) =
          ({ f2 with
              diagnostics := some { out2.diagnostics with steps := n1 * k + out2.diagnostics.steps } },
            .ok { out2 with
              diagnostics := { out2.diagnostics with steps := n1 * k + out2.diagnostics.steps } })) ∧
      (∀ f2 err, f1.run env (some ((n2 * k : ℕ) : ℚ)) tol (some k) = (f2, .error err) →
        f.run env (some (((n1 + n2) * k : ℕ) : ℚ)) tol (some k) =
          ({ f2 with diagnostics := f.diagnostics }, .error err))) := by
  obtain ⟨p, hM, rs, ph, d, h1, h2, rfl, rfl⟩ := run_inv h
  obtain ⟨r1, r2⟩ := resume_impl (e := f.runEnv env p) (n1 := n1) (n2 := n2) (k := k) hthr hn1 hn2 hk
    (tol := tol.getD f.tolerance) h2 halive
  refine ⟨fun hw => ?_, fun hw => ?_⟩
  · rw [run_some h1]
    have := r1 hw
    simp only [Option.getD_some] at this ⊢
    rw [this]
    rfl
  · obtain ⟨r3, r4⟩ := r2 hw
    set f1 : Finder G := { f.store rs with diagnostics := some d } with hf1
    let p1 : Finder.Parts f1.numComp f1.numFeat f1.numPart := ⟨p.ia, p.en, p.es, rs.st.cons⟩
    obtain ⟨h3, h4, h5, h6⟩ := parts_eq.mp h1
    have hp1 : f1.parts = some p1 := parts_eq.mpr ⟨h3, h4, h5, rfl⟩
    have hM1 : NeZero f1.numPart := hM
    have hrun1 : f1.run env (some ((n2 * k : ℕ) : ℚ)) tol (some k) = f1.finish
        (runImpl (f.runEnv env p) ((n2 * k : ℕ) : ℚ) (tol.getD f.tolerance) k rs.st rs.reviveLeft) :=
      run_some hp1 _ _ _
    have hrun : f.run env (some (((n1 + n2) * k : ℕ) : ℚ)) tol (some k) = f.finish
        (runImpl (f.runEnv env p) (((n1 + n2) * k : ℕ) : ℚ) (tol.getD f.tolerance) k
          (f.state p.cons) f.reviveLeft) := run_some h1 _ _ _
    refine ⟨fun f2 out2 hr => ?_, fun f2 err hr => ?_⟩
    · rcases hR : runImpl (f.runEnv env p) ((n2 * k : ℕ) : ℚ) (tol.getD f.tolerance) k rs.st
        rs.reviveLeft with ⟨s2, res⟩
      replace hr : f1.finish (s2, res) = _ := (congrArg f1.finish hR).symm.trans (hrun1.symm.trans hr)
      cases res with
      | error err => simp [Finder.finish] at hr
      | ok x =>
        obtain ⟨ph2, d2⟩ := x
        obtain ⟨f3, j1, j2, j3⟩ := r3 s2 ph2 d2 hR
        obtain rfl : { f1.store s2 with diagnostics := some d2 } = f2 := congrArg Prod.fst hr
        obtain rfl : ⟨_, _, ph2, d2⟩ = out2 := Except.ok.inj (congrArg Prod.snd hr)
        refine hrun.trans ((congrArg f.finish j1).trans ?_)
        simp only [Finder.finish, Finder.store, Finder.storeArrays, j2, j3]
        rfl
    · rcases hR : runImpl (f.runEnv env p) ((n2 * k : ℕ) : ℚ) (tol.getD f.tolerance) k rs.st
        rs.reviveLeft with ⟨s2, res⟩
      replace hr : f1.finish (s2, res) = _ := (congrArg f1.finish hR).symm.trans (hrun1.symm.trans hr)
      cases res with
      | ok x =>
        obtain ⟨ph2, d2⟩ := x
        simp [Finder.finish] at hr
      | error err' =>
        obtain ⟨f3, j1, j2, j3⟩ := r4 s2 err' hR
        have hst : f.store f3 = f.store s2 := by
          simp only [Finder.store, Finder.storeArrays, j2, j3]
        obtain rfl : f1.store s2 = f2 := congrArg Prod.fst hr
        obtain rfl : err' = err := Except.error.inj (congrArg Prod.snd hr)
        refine hrun.trans ((congrArg f.finish j1).trans ?_)
        simp only [Finder.finish, hst]
        rfl

-- The demo finder: 4 intervals of 7 steps, then 5 more.
example : ∃ f f1 out, Finder.create Demo.fenv () Demo.fhPy.obj Demo.gasObj.obj Demo.canonicalObj.obj
      (.many [Demo.locObj.obj, Demo.globObj.obj]) Demo.args = .ok f ∧
    f.run Demo.fenv (some ((4 * 7 : ℕ) : ℚ)) none (some (7 : ℕ)) = (f1, .ok out) ∧
    (¬ Within f.tolerance out.diagnostics → ∀ f2 out2,
      f1.run Demo.fenv (some ((5 * 7 : ℕ) : ℚ)) none (some (7 : ℕ)) = (f2, .ok out2) →
      ∃ out3, (f.run Demo.fenv (some (((4 + 5) * 7 : ℕ) : ℚ)) none (some (7 : ℕ))).2 = .ok out3 ∧
        out3.diagnostics.steps = 28 + out2.diagnostics.steps) := by
  obtain ⟨f, ia, cs, hf, hc, h⟩ := Demo.short
  obtain ⟨f1, out, h1, h2, h3⟩ := h (4 * 7) 7 (by norm_num) (by norm_num) (by norm_num)
  refine ⟨f, f1, out, hf, h1, fun hw f2 out2 hr => ?_⟩
  have := ((C73_resume (n2 := 5) (by rw [hc.params]; norm_num [Demo.args]) (by norm_num) (by norm_num)
    (by norm_num) h1 h3).2 hw).1 f2 out2 hr
  exact ⟨_, by rw [this], rfl⟩

end Flory
