import Verif.Props.Initial
import Verif.Props.Run

/-!
# C78: what the arguments of the constructor of `CoexistingPhasesFinder` default to
-/

set_option linter.unusedSectionVars false

namespace Flory

open Spec

variable {G : Type}

/-- **C78**, defaults: a finder made without any option has eight compartments per component, fields
drawn with standard deviation 5, 16 revivals per compartment, and the documented tolerances, step limits
and acceptances. -/
theorem C78_defaults {env : FinderEnv G} {g : G} {interaction : InstObj AnyInteraction}
    {entropy : InstObj AnyEntropy} {ensemble : InstObj AnyEnsemble} {constraints : ConsArg} {f : Finder G}
    (h : Finder.create env g interaction entropy ensemble constraints {} = .ok f) :
    f.numPart = 8 * f.numComp ∧ f.reviveLeft = 128 * f.numComp ∧
    (∀ r m, f.omegas r m = 5 * normalDraw env.rng g (r * f.numPart + m)) ∧
    f.maxSteps = 10 ^ 6 ∧ f.interval = 10 ^ 4 ∧ f.tolerance = 10⁻¹ ^ 5 ∧ f.criterion = "standard" ∧
    f.randomStd = 5 ∧ f.maxRevive = 16 ∧ f.kwargs = [] ∧
    f.params.acceptanceJs = 2 * 10⁻¹ ^ 4 ∧ f.params.acceptanceOmega = 2 * 10⁻¹ ^ 3 ∧
    f.params.JsStepUpperBound = 10⁻¹ ^ 3 ∧ f.params.killThreshold = 0 ∧ f.params.reviveScaler = 1 := by
  obtain ⟨-, w, -, -, -, -, -, -, -⟩ := C78_created h
  obtain ⟨ia, en, es, -, -, -, -, -, hc⟩ := create_ok h
  have hp : f.numPart = 8 * f.numComp := by
    rw [hc.numPart, hc.numComp, mul_comm 8]
    rfl
  refine ⟨hp, ?_, w, ?_, ?_, ?_, hc.criterion, hc.randomStd, hc.maxRevive, hc.kwargs, ?_⟩
  · rw [hc.reviveLeft, hp]
    push_cast
    ring
  · rw [hc.maxSteps]; norm_num
  · rw [hc.interval]; norm_num
  · rw [hc.tolerance]; norm_num
  · rw [hc.params]
    norm_num

/-- **C78**, a run by default: a new finder without any option, run without arguments, makes 10000 passes
between two checks and at most a million altogether; if it stops before, all residues it reports are below
`1e-5`. -/
theorem C78_default_run {env : FinderEnv G} {g : G} {interaction : InstObj AnyInteraction}
    {entropy : InstObj AnyEntropy} {ensemble : InstObj AnyEnsemble} {constraints : ConsArg}
    {f f' : Finder G} {out : RunOut}
    (h : Finder.create env g interaction entropy ensemble constraints {} = .ok f)
    (hr : f.run env none none none = (f', .ok out)) :
    ∃ n, 1 ≤ n ∧ n ≤ 100 ∧ out.diagnostics.steps = n * 10000 ∧
      (n < 100 → out.diagnostics.maxAbsIncomp < 1 / 100000 ∧
        out.diagnostics.maxAbsOmegaDiff < 1 / 100000 ∧ out.diagnostics.maxAbsJsDiff < 1 / 100000 ∧
        out.diagnostics.maxConstraintResidue < 1 / 100000) := by
  obtain ⟨-, -, -, hs, hi, ht, -, -, -, -, -, -, -, hk, -⟩ := C78_defaults h
  unfold Finder.run at hr
  split at hr
  · simp at hr
  · rename_i p hp
    split at hr
    · simp at hr
    · rename_i h0
      have : NeZero f.numPart := ⟨h0⟩
      dsimp only at hr
      simp only [Option.getD_none, hs, hi, ht] at hr
      rcases hrun : runImpl (f.runEnv env p) (10 ^ 6) (10⁻¹ ^ 5 : ℝ) (10 ^ 4) (f.state p.cons)
        f.reviveLeft with ⟨s', r⟩
      rw [hrun] at hr
      cases r with
      | error e => simp at hr
      | ok q =>
        obtain ⟨ph, d⟩ := q
        simp only [Prod.mk.injEq, Except.ok.injEq] at hr
        obtain ⟨-, rfl⟩ := hr
        obtain ⟨tr, inner, ts, t, c, htr, hin, hf⟩ :=
          run_facts (e := f.runEnv env p) (show (0 : ℝ) ≤ f.params.killThreshold from hk.ge) hrun
        have e1 : tr = 100 := by
          have : stepsTracker (10 ^ 6) (10 ^ 4) = .ok 100 := by
            unfold stepsTracker
            norm_num
          exact Except.ok.inj (htr.symm.trans this)
        subst e1
        have e2 : inner = 10000 := by
          have : stepsInner (10 ^ 6) 100 = .ok 10000 := by
            unfold stepsInner
            have : ⌈(10 ^ 6 : ℚ)⌉ = 1000000 := by norm_num
            rw [this]
            rfl
          exact Except.ok.inj (hin.symm.trans this)
        subst e2
        have hc := hf.count
        have hst := hf.stop
        rw [hf.diag]
        refine ⟨ts.length + 1, by omega, by simpa using hc, rfl, fun hlt => ?_⟩
        rcases hst with hst | ⟨-, m1, m2, m3, m4⟩
        · exfalso
          have : ts.length + 1 = 100 := by simpa using hst
          omega
        · have e : (10⁻¹ ^ 5 : ℝ) = 1 / 100000 := by norm_num
          rw [e] at m1 m2 m3 m4
          exact ⟨m1, m2, m3, m4⟩

-- An unconstrained demo finder made without any option: sixteen compartments, and its run returns.
example : ∃ f f' out, Finder.create Demo.fenv () Demo.fhPy.obj Demo.gasObj.obj Demo.canonicalObj.obj .none
      {} = .ok f ∧ f.numPart = 16 ∧ f.run Demo.fenv none none none = (f', .ok out) := by
  obtain ⟨x, hx⟩ := Demo.fh_compiled []
  obtain ⟨-, -, -, h4⟩ := create_of_compiled (env := Demo.fenv) (g := ()) (constraints := .none) (a := {})
    hx (Demo.gas_compiled []) (Demo.canonical_compiled []) rfl (by norm_num)
  obtain ⟨f, hf, hc⟩ := h4 rfl rfl (by
    intro c hc
    simp only [initConstraints, List.mem_singleton] at hc
    rw [hc]
    rfl)
  have hM : f.numPart = 16 := by rw [hc.numPart]; rfl
  obtain ⟨-, hrun⟩ := C34_histories (env := Demo.fenv) (rngZero_ok ℝ) hf (ops := []) (by
      intro kw x hx
      cases hx
      exact ⟨⟨trivial, trivial⟩, by decide⟩) (by simp [consObjs]) (by norm_num) (by norm_num)
    (by norm_num) (by simp) (by intro pre op post he; simp at he)
  obtain ⟨out, ho⟩ := hrun rfl (by norm_num) none none none (by norm_num) (by norm_num)
  exact ⟨f, _, out, hf, hM, Prod.ext rfl ho⟩

end Flory
