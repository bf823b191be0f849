import Verif.Lemmas.Result
import Verif.Props.Instances
import Verif.Props.Demo

/-! # Properties of `run` -/

set_option linter.unusedSectionVars false

namespace Flory

open Spec

/-! ### Accounting (any numbers) -/

section Accounting

variable {K G : Type} [Field K] [LinearOrder K] [IsStrictOrderedRing K] {C S M : ℕ} [NeZero M]
variable {e : RunEnv C S M K G} {maxSteps : ℚ} {tol : K} {interval : ℤ} {st : State C S M K G} {b : ℤ}
  {s' : RunState C S M K G} {ph : Phases M C K} {d : Diagnostics K}

/-- **C41**. A successful run consists of `ts.length + 1` groups of `inner` passes each (`Chain`), with
`1 ≤ inner ≤ interval`.  The reported number of steps is the number of passes, which is at most
`⌈max_steps⌉`.  No check before the last one met the criterion; if the last one did not either, then
more than `max_steps` minus the number of checks passes have been made. -/
theorem C41_step_accounting (hthr : 0 ≤ e.params.killThreshold) (h1 : 0 < maxSteps)
    (h2 : 0 < interval) (h : runImpl e maxSteps tol interval st b = (s', .ok (ph, d))) :
    ∃ inner ts t, Chain e inner (ts ++ [t]) st b t.state s'.reviveLeft ∧ 1 ≤ inner ∧
      (inner : ℤ) ≤ interval ∧ d.steps = (ts.length + 1) * inner ∧ (d.steps : ℤ) ≤ ⌈maxSteps⌉ ∧
      (∀ t' ∈ ts, ¬ Met e.params.killThreshold tol t') ∧
      (Met e.params.killThreshold tol t ∨ maxSteps - ((ts.length + 1 : ℕ) : ℚ) < d.steps) := by
  obtain ⟨tracker, inner, ts, t, c, ht, hi, hf⟩ := run_facts hthr h
  obtain ⟨k, hk, hk1, hk2⟩ := stepsTracker_pos h1 h2
  obtain ⟨inner', hi1, hi2, hi3, hi4, hi5⟩ := stepsInner_spec h1 h2 hk hk2
  have e1 : tracker = k := Except.ok.inj (ht.symm.trans hk1)
  subst e1
  have e2 : inner = inner' := Except.ok.inj (hi.symm.trans hi1)
  subst e2
  have hcount := hf.count
  have hstop := hf.stop
  rw [Int.toNat_natCast] at hcount hstop
  have hd : d.steps = (ts.length + 1) * inner := by rw [hf.diag]
  refine ⟨inner, ts, t, hf.chain, hi2, hi3, hd, ?_, hf.notMet, ?_⟩
  · refine le_trans ?_ hi4
    rw [hd]
    exact_mod_cast Nat.mul_le_mul_right inner hcount
  · rcases hstop with hs | hs
    · right
      rw [hd, hs]
      push_cast at hi5 ⊢
      linarith
    · exact Or.inl hs

/-- The budget of a group of passes. -/
theorem passes_revivals {n : ℕ} {b : ℤ} {s : State C S M K G} {t : Trace C S M K G} (hok : e.rng.Ok)
    (h : Passes e b n 0 s t) :
    (b ≤ 0 → t.reviveCount = 0) ∧ (0 < b → (t.reviveCount : ℤ) < b + M) := by
  have step : ∀ count (s : State C S M K G) t',
      iterate e.ia e.en e.es e.rng e.params b count s = .ok t' →
      (b ≤ 0 → count = 0 → t'.reviveCount = 0) ∧
      (0 < b → (count : ℤ) < b + M → (t'.reviveCount : ℤ) < b + M) := by
    intro count s t' ht
    have hf := iterate_facts ht
    obtain ⟨-, h2⟩ := reviveBlock_spec (S := S) (p := e.params) (tries := b) (Js := s.Js)
      (om := s.omegas) (g := s.g) (count := count) hok
    constructor
    · intro h0 hc
      rw [if_neg (by omega)] at h2
      rw [hf.reviveCount, h2, hc]
    · intro h0 hc
      split at h2
      · rename_i hlt
        have : (Finset.univ.filter fun m => s.Js m ≤ e.params.killThreshold).card ≤ M := by
          simpa using Finset.card_filter_le (Finset.univ : Finset (Fin M))
            fun m => s.Js m ≤ e.params.killThreshold
        rw [hf.reviveCount, h2.1]
        push_cast
        omega
      · rw [hf.reviveCount, h2]; exact hc
  refine ⟨fun h0 => ?_, fun h0 => ?_⟩
  · exact h.inv (fun t => t.reviveCount = 0) (fun t ht => (step 0 s t ht).1 h0 rfl)
      (fun t t' hc ht => (step _ _ t' ht).1 h0 hc)
  · exact h.inv (fun t => (t.reviveCount : ℤ) < b + M)
      (fun t ht => (step 0 s t ht).2 h0 (by have := NeZero.pos M; push_cast; omega))
      (fun t t' hc ht => (step _ _ t' ht).2 h0 hc)

/-- **C36**, one run, whether it returns or raises: the budget never grows, it stays above minus the
number of compartments, and an exhausted budget stays as it is. -/
theorem C36_budget_of_run (hok : e.rng.Ok) (hthr : 0 ≤ e.params.killThreshold) :
    (-(M : ℤ) < b → -(M : ℤ) < (runImpl e maxSteps tol interval st b).1.reviveLeft) ∧
    (runImpl e maxSteps tol interval st b).1.reviveLeft ≤ b ∧
    (b ≤ 0 → (runImpl e maxSteps tol interval st b).1.reviveLeft = b) := by
  have hM := NeZero.pos M
  have key : ∀ inner n,
      (-(M : ℤ) < b → -(M : ℤ) < (runLoop e tol inner n ⟨st, b, 0, none⟩).1.reviveLeft) ∧
      (runLoop e tol inner n ⟨st, b, 0, none⟩).1.reviveLeft ≤ b ∧
      (b ≤ 0 → (runLoop e tol inner n ⟨st, b, 0, none⟩).1.reviveLeft = b) := by
    intro inner n
    obtain ⟨ts, s1, b1, h1, -, h3, -⟩ := runLoop_chain (e := e) hthr (tol := tol)
      (inner := inner) n ⟨st, b, 0, none⟩
    rw [h3]
    refine h1.inv (fun _ b' => (-(M : ℤ) < b → -(M : ℤ) < b') ∧ b' ≤ b ∧ (b ≤ 0 → b' = b))
      ⟨id, le_rfl, fun _ => rfl⟩ ?_
    rintro s b' t ⟨i1, i2, i3⟩ hp
    obtain ⟨p1, p2⟩ := passes_revivals hok hp
    by_cases h0 : b' ≤ 0
    · rw [p1 h0]
      exact ⟨by simpa using i1, by simpa using i2, fun hb0 => by simpa using i3 hb0⟩
    · have := p2 (not_le.mp h0)
      exact ⟨by omega, by omega, fun hb0 => absurd (i3 hb0 ▸ hb0) h0⟩
  unfold runImpl
  simp only
  cases stepsTracker maxSteps interval with
  | error err => exact ⟨id, le_rfl, fun _ => rfl⟩
  | ok tracker =>
    simp only
    cases stepsInner maxSteps tracker with
    | error err => exact ⟨id, le_rfl, fun _ => rfl⟩
    | ok inner =>
      simp only
      have hk := key inner tracker.toNat
      rcases hl : runLoop e tol inner tracker.toNat ⟨st, b, 0, none⟩ with ⟨s2, r2⟩
      rw [hl] at hk
      cases r2 with
      | error err => exact hk
      | ok u =>
        simp only
        unfold runFinal
        cases reviveByCopy e.rng s2.st.Js s2.st.phisComp e.params.killThreshold s2.st.g with
        | error err => exact hk
        | ok c =>
          simp only
          cases s2.last with
          | none => exact hk
          | some r => exact hk

end Accounting

namespace Demo

/-- The demo mixture in a given ensemble. -/
noncomputable def env (es : EnsembleI 2 3 ℝ) : RunEnv 2 2 3 ℝ Unit :=
  ⟨fh.toI 3, gas.toI 3, es, rngZero ℝ, params, "standard", id⟩

theorem run_demo (es : EnsembleI 2 3 ℝ) (hes : es.Total) (cons : List (Cons 2 3 ℝ))
    (hc : ∀ c ∈ cons, c.Proper) (tol : ℝ) (b : ℤ) {maxSteps : ℚ} {interval : ℤ} (h1 : 0 < maxSteps)
    (h2 : 0 < interval) :
    ∃ s' ph d, runImpl (env es) maxSteps tol interval (state cons) b = (s', .ok (ph, d)) :=
  run_ok (e := env es) (rngZero_ok ℝ) gas.isIdealGas hes (by simp [env, params])
    (by simp [env, params]) (by simp [env, params]) (by simp [env, params]) rfl h1 h2 (state cons) b
    hc (Or.inl ⟨0, by simp [env, params, state]⟩)

/-- A global constraint only. -/
noncomputable def globCons : List (Cons 2 3 ℝ) := [.no NoC.new, .glob 1 consGlob]

theorem globCons_proper : ∀ c ∈ globCons, c.Proper := by
  intro c hc
  simp only [globCons, List.mem_cons, List.not_mem_nil, or_false] at hc
  rcases hc with rfl | rfl <;> simp [Cons.Proper]

theorem globCons_notLocal : ∀ c ∈ globCons, c.NotLocal := by
  intro c hc
  simp only [globCons, List.mem_cons, List.not_mem_nil, or_false] at hc
  rcases hc with rfl | rfl <;> simp [Cons.NotLocal, NoC.new]

end Demo

-- A run with a revival budget, all kinds of constraints, 25/2 steps and interval 5.
example : ∃ s' ph d, runImpl (Demo.env (Demo.canonical.toI 3)) (25 / 2) (1 / 100000) 5
    (Demo.state Demo.allCons) 4 = (s', .ok (ph, d)) :=
  Demo.run_demo _ Demo.canonical.total _ Demo.allCons_proper _ _ (by norm_num) (by norm_num)

/-! ### Physics -/

section Physics

variable {G : Type} {C S M : ℕ} [NeZero M]
variable {e : RunEnv C S M ℝ G} {maxSteps : ℚ} {tol : ℝ} {interval : ℤ} {st : State C S M ℝ G} {b : ℤ}
  {s' : RunState C S M ℝ G} {ph : Phases M C ℝ} {d : Diagnostics ℝ}
  {ia : FHCompiled S ℝ} {sizes : Vec C ℝ} {feat : Fin C → Fin S} {a : Vec C ℝ → Vec C ℝ}

/-- **C34**, one run: for `kill_threshold` below one (and small enough that the living volume can be
shared, which always holds for the default zero) a run with a living compartment or revive budget
returns a result; in particular nothing divides by zero. -/
theorem C34_run_never_fails (hok : e.rng.Ok) (hen : IsIdealGas e.en sizes feat) (hes : e.es.Total)
    (hthr : 0 ≤ e.params.killThreshold) (hthr1 : e.params.killThreshold < 1)
    (hthr2 : 2 * e.params.killThreshold * ((M : ℝ) - 1) < 1)
    (hb : 0 < e.params.JsStepUpperBound) (hstd : e.criterion = "standard")
    (h1 : 0 < maxSteps) (h2 : 0 < interval) (hcons : ∀ c ∈ st.cons, c.Proper)
    (halive : (∃ m, e.params.killThreshold < st.Js m) ∨ 0 < b) :
    ∃ s' ph d, runImpl e maxSteps tol interval st b = (s', .ok (ph, d)) :=
  run_ok hok hen hes hthr hthr1 hthr2 hb hstd h1 h2 st b hcons halive

/-- **C39**. For every result of a run without local constraints (`NotLocal`), in any ensemble that
scales the Boltzmann weights with positive factors for component `i` (canonical and grand canonical,
see below), the chemical potentials of component `i` in any two returned compartments differ by no
more than the stated combination of reported errors. -/
theorem C39_chemical_balance (hok : e.rng.Ok) (hthr : 0 ≤ e.params.killThreshold)
    (hia : e.ia = ia.toI M) (hen : IsIdealGas e.en sizes feat) (hes : Scales e.es a)
    (hcons : ∀ c ∈ st.cons, c.NotLocal)
    (h : runImpl e maxSteps tol interval st b = (s', .ok (ph, d)))
    {i : Fin C} (hl : sizes i ≠ 0) (ha : ∀ Q, (∀ j, 0 < Q j) → 0 < a Q i) (p q : Fin M) :
    |chemPot (liftChis ia.chis feat) sizes (ph.fractions p) i
      - chemPot (liftChis ia.chis feat) sizes (ph.fractions q) i| ≤
      S * d.maxAbsOmegaDiff + |ia.coef| * d.maxAbsIncomp + 2 * d.maxAbsJsDiff := by
  obtain ⟨b₀, count, s, t, hs⟩ := run_source hok hthr h
  have hF := iterate_facts hs.pass
  rw [hia] at hF
  have hcs := hs.inv Cons.NotLocal (fun c pf J mk hc => hc.prepare pf J mk)
    (fun c step mk res c' hc he => hc.evolve he) hcons
  obtain ⟨m, hm, -, hpm⟩ := hs.rows p
  obtain ⟨n, hn, -, hqn⟩ := hs.rows q
  have ha' := ha t.Qs fun j => hF.Qs_pos hen hthr j
  rw [show ph.fractions p = fun j => t.phisComp j m from funext hpm,
    show ph.fractions q = fun j => t.phisComp j n from funext hqn,
    hF.chemPot_identity hen hes hm hl ha', hF.chemPot_identity hen hes hn hl ha',
    hF.consShift_const hcs hm hn, hs.omega, hs.incomp, hs.js]
  have e1 := hF.omega_diff (feat i) (feat i) m n
  have e2 := hF.local_diff hm hn
  have : ∀ x y z u v w : ℝ, x + y + z + u - (x + v + w + u) = (y - v) + (z - w) := by intros; ring
  rw [this]
  exact (abs_add_le _ _).trans (add_le_add e1 e2)

/-- **C39** for the canonical ensemble and the ideal gas: every component with a positive mean fraction
is balanced, with the interaction matrix itself. -/
theorem C39_canonical {e : RunEnv C C M ℝ G} {st : State C C M ℝ G} {s' : RunState C C M ℝ G}
    {ia : FHCompiled C ℝ} {gas : IdealC C} {es : CanonicalC C ℝ}
    (hok : e.rng.Ok) (hthr : 0 ≤ e.params.killThreshold)
    (hia : e.ia = ia.toI M) (hen : e.en = gas.toI M) (hes : e.es = es.toI M)
    (hcons : ∀ c ∈ st.cons, c.NotLocal)
    (h : runImpl e maxSteps tol interval st b = (s', .ok (ph, d)))
    {i : Fin C} (hl : 0 < gas.sizes i) (hphi : 0 < es.phiMeans i) (p q : Fin M) :
    |chemPot ia.chis gas.sizes (ph.fractions p) i - chemPot ia.chis gas.sizes (ph.fractions q) i| ≤
      C * d.maxAbsOmegaDiff + |ia.coef| * d.maxAbsIncomp + 2 * d.maxAbsJsDiff :=
  C39_chemical_balance (feat := id) hok hthr hia (hen ▸ gas.isIdealGas) (hes ▸ es.scales) hcons h
    hl.ne' (fun _ hQ => div_pos hphi (hQ i)) p q

/-- **C39** for the grand canonical ensemble and the ideal gas. -/
theorem C39_grand {e : RunEnv C C M ℝ G} {st : State C C M ℝ G} {s' : RunState C C M ℝ G}
    {ia : FHCompiled C ℝ} {gas : IdealC C} {es : GrandC C ℝ}
    (hok : e.rng.Ok) (hthr : 0 ≤ e.params.killThreshold)
    (hia : e.ia = ia.toI M) (hen : e.en = gas.toI M) (hes : e.es = es.toI M)
    (hcons : ∀ c ∈ st.cons, c.NotLocal)
    (h : runImpl e maxSteps tol interval st b = (s', .ok (ph, d)))
    {i : Fin C} (hl : 0 < gas.sizes i) (hact : 0 < es.scaledActivity i) (p q : Fin M) :
    |chemPot ia.chis gas.sizes (ph.fractions p) i - chemPot ia.chis gas.sizes (ph.fractions q) i| ≤
      C * d.maxAbsOmegaDiff + |ia.coef| * d.maxAbsIncomp + 2 * d.maxAbsJsDiff :=
  C39_chemical_balance (feat := id) hok hthr hia (hen ▸ gas.isIdealGas) (hes ▸ es.scales) hcons h
    hl.ne' (fun _ _ => hact) p q

/-- **C39**, converged runs: balance up to a multiple of the tolerance. -/
theorem C39_converged (hok : e.rng.Ok) (hthr : 0 ≤ e.params.killThreshold)
    (hia : e.ia = ia.toI M) (hen : IsIdealGas e.en sizes feat) (hes : Scales e.es a)
    (hcons : ∀ c ∈ st.cons, c.NotLocal)
    (h : runImpl e maxSteps tol interval st b = (s', .ok (ph, d)))
    (hconv : d.maxAbsOmegaDiff < tol ∧ d.maxAbsIncomp < tol ∧ d.maxAbsJsDiff < tol)
    {i : Fin C} (hl : sizes i ≠ 0) (ha : ∀ Q, (∀ j, 0 < Q j) → 0 < a Q i) (p q : Fin M) :
    |chemPot (liftChis ia.chis feat) sizes (ph.fractions p) i
      - chemPot (liftChis ia.chis feat) sizes (ph.fractions q) i| ≤ (S + |ia.coef| + 2) * tol := by
  refine (C39_chemical_balance hok hthr hia hen hes hcons h hl ha p q).trans ?_
  obtain ⟨h1, h2, h3⟩ := hconv
  have e1 := mul_le_mul_of_nonneg_left h1.le (Nat.cast_nonneg (α := ℝ) S)
  have e2 := mul_le_mul_of_nonneg_left h2.le (abs_nonneg ia.coef)
  linarith

-- A run with a dead compartment, with a global constraint; both components have positive means.
example : ∃ s' ph d, runImpl (Demo.env (Demo.canonical.toI 3)) 10 (1 / 100000) 5
    (Demo.state Demo.globCons) 0 = (s', .ok (ph, d)) ∧
    |chemPot Demo.fh.chis ![1, 2] (ph.fractions 0) 1 - chemPot Demo.fh.chis ![1, 2] (ph.fractions 2) 1|
      ≤ 2 * d.maxAbsOmegaDiff + |Demo.fh.coef| * d.maxAbsIncomp + 2 * d.maxAbsJsDiff := by
  obtain ⟨s', ph, d, h⟩ := Demo.run_demo (Demo.canonical.toI 3) Demo.canonical.total Demo.globCons
    Demo.globCons_proper (1 / 100000) 0 (maxSteps := 10) (interval := 5) (by norm_num) (by norm_num)
  refine ⟨s', ph, d, h, ?_⟩
  have := C39_canonical (e := Demo.env (Demo.canonical.toI 3)) (gas := Demo.gas)
    (es := Demo.canonical) (ia := Demo.fh) (rngZero_ok ℝ) (by simp [Demo.env, Demo.params]) rfl rfl rfl
    Demo.globCons_notLocal h (i := 1) (by simp [Demo.gas]) (by simp [Demo.canonical]) 0 2
  simpa [Demo.gas] using this

/-- **C25**. In a run of the grand canonical ensemble made from chemical potentials `mus` (without
constraints) the exchange chemical potential of any two components in any returned compartment differs
from the prescribed one by no more than the reported errors.  The constant `(1 + ln l)/l` of each
component is part of the conventions. -/
theorem C25_prescribed_potentials {mus : Vec C ℝ} (hok : e.rng.Ok)
    (hthr : 0 ≤ e.params.killThreshold) (hia : e.ia = ia.toI M) (hen : IsIdealGas e.en sizes feat)
    (hes : e.es = (GrandC.fromChemicalPotential mus sizes).toI M)
    (hcons : ∀ c ∈ st.cons, c.Trivial)
    (h : runImpl e maxSteps tol interval st b = (s', .ok (ph, d)))
    {i k : Fin C} (hi : 0 < sizes i) (hk : 0 < sizes k) (p : Fin M) :
    |(chemPot (liftChis ia.chis feat) sizes (ph.fractions p) i
        - chemPot (liftChis ia.chis feat) sizes (ph.fractions p) k)
      - ((mus i + (1 + Real.log (sizes i)) / sizes i) - (mus k + (1 + Real.log (sizes k)) / sizes k))| ≤
      S * d.maxAbsOmegaDiff + |ia.coef| * d.maxAbsIncomp := by
  obtain ⟨b₀, count, s, t, hs⟩ := run_source hok hthr h
  have hF := iterate_facts hs.pass
  rw [hia] at hF
  have hcs := hs.inv Cons.Trivial (fun c pf J mk hc => hc.prepare pf J mk)
    (fun c step mk res c' hc he => hc.evolve he) hcons
  obtain ⟨m, hm, -, hpm⟩ := hs.rows p
  have hsc : Scales e.es fun _ i => (GrandC.fromChemicalPotential mus sizes).scaledActivity i :=
    hes ▸ GrandC.scales _
  have hpos : ∀ j, 0 < sizes j → 0 < (GrandC.fromChemicalPotential mus sizes).scaledActivity j :=
    fun j hj => mul_pos hj (Real.exp_pos _)
  have hconst : ∀ j, 0 < sizes j →
      (Real.log ((GrandC.fromChemicalPotential mus sizes).scaledActivity j) + 1) / sizes j =
        mus j + (1 + Real.log (sizes j)) / sizes j := by
    intro j hj
    show (Real.log (sizes j * Real.exp (sizes j * mus j)) + 1) / sizes j = _
    rw [Real.log_mul hj.ne' (Real.exp_pos _).ne', Real.log_exp]
    field_simp
    ring
  rw [show ph.fractions p = fun j => t.phisComp j m from funext hpm,
    hF.chemPot_identity hen hsc hm hi.ne' (hpos i hi),
    hF.chemPot_identity hen hsc hm hk.ne' (hpos k hk),
    hF.consShift_zero hcs, hF.consShift_zero hcs, hconst i hi, hconst k hk, hs.omega, hs.incomp]
  have : ∀ x y z u v : ℝ, (x + y + z + 0 - (u + v + z + 0)) - (x - u) = y - v := by intros; ring
  rw [this]
  exact hF.omega_diff (feat i) (feat k) m m

-- The demo activities are of this form, and the hypotheses are met by a run.
example : ∃ s' ph d, runImpl (Demo.env ((GrandC.fromChemicalPotential ![1, -2] ![1, 2]).toI 3)) 10
    (1 / 100000) 5 (Demo.state [.no NoC.new]) 0 = (s', .ok (ph, d)) ∧
    ∀ c ∈ (Demo.state [.no NoC.new]).cons, c.Trivial := by
  obtain ⟨s', ph, d, h⟩ := Demo.run_demo ((GrandC.fromChemicalPotential ![1, -2] ![1, 2]).toI 3)
    (GrandC.total _) [.no NoC.new] (by simp [Cons.Proper]) (1 / 100000) 0 (maxSteps := 10)
    (interval := 5) (by norm_num) (by norm_num)
  exact ⟨s', ph, d, h, by simp [Demo.state, Cons.Trivial, NoC.new]⟩

/-- **C40**. Every result of a run is physical: volumes above the kill threshold, positive fractions of
components with positive mean fraction or activity, and row sums within the reported
`max_abs_incomp` of one. -/
theorem C40_physical (hok : e.rng.Ok) (hthr : 0 ≤ e.params.killThreshold)
    (hia : e.ia = ia.toI M) (hen : IsIdealGas e.en sizes feat) (hes : Scales e.es a)
    (h : runImpl e maxSteps tol interval st b = (s', .ok (ph, d))) (p : Fin M) :
    e.params.killThreshold < ph.volumes p ∧
    (∀ i, (∀ Q, (∀ j, 0 < Q j) → 0 < a Q i) → 0 < ph.fractions p i) ∧
    (∀ i, (∀ Q, (∀ j, 0 < Q j) → 0 ≤ a Q i) → 0 ≤ ph.fractions p i) ∧
    |∑ i, ph.fractions p i - 1| ≤ d.maxAbsIncomp := by
  obtain ⟨b₀, count, s, t, hs⟩ := run_source hok hthr h
  have hF := iterate_facts hs.pass
  rw [hia] at hF
  obtain ⟨m, hm, -, hpm⟩ := hs.rows p
  refine ⟨hs.volumes p, fun i ha => ?_, fun i ha => ?_, ?_⟩
  · rw [hpm, hF.phis_eq hen hes, hm, mul_one]
    exact mul_pos (ha _ fun j => hF.Qs_pos hen hthr j) (Real.exp_pos _)
  · rw [hpm, hF.phis_eq hen hes, hm, mul_one]
    exact mul_nonneg (ha _ fun j => hF.Qs_pos hen hthr j) (Real.exp_pos _).le
  · have := hF.incomp_le m
    rw [hF.incomp_eq hes, hm, mul_one] at this
    rw [hs.incomp, Finset.sum_congr rfl fun i _ => hpm i]
    exact this

/-- **C40** for the canonical and the grand canonical ensemble. -/
theorem C40_ensembles (hok : e.rng.Ok) (hthr : 0 ≤ e.params.killThreshold)
    (hia : e.ia = ia.toI M) (hen : IsIdealGas e.en sizes feat)
    (h : runImpl e maxSteps tol interval st b = (s', .ok (ph, d))) (p : Fin M) :
    (∀ es : CanonicalC C ℝ, e.es = es.toI M → ∀ i,
      (0 < es.phiMeans i → 0 < ph.fractions p i) ∧ (0 ≤ es.phiMeans i → 0 ≤ ph.fractions p i)) ∧
    (∀ es : GrandC C ℝ, e.es = es.toI M → ∀ i,
      (0 < es.scaledActivity i → 0 < ph.fractions p i) ∧
      (0 ≤ es.scaledActivity i → 0 ≤ ph.fractions p i)) := by
  constructor
  · intro es hes i
    obtain ⟨-, h2, h3, -⟩ := C40_physical hok hthr hia hen (hes ▸ es.scales) h p
    exact ⟨fun hp => h2 i fun Q hQ => div_pos hp (hQ i), fun hp => h3 i fun Q hQ =>
      div_nonneg hp (hQ i).le⟩
  · intro es hes i
    obtain ⟨-, h2, h3, -⟩ := C40_physical hok hthr hia hen (hes ▸ es.scales) h p
    exact ⟨fun hp => h2 i fun Q hQ => hp, fun hp => h3 i fun Q hQ => hp⟩

example : ∃ s' ph d, runImpl (Demo.env (Demo.canonical.toI 3)) 10 (1 / 100000) 5
    (Demo.state Demo.allCons) 0 = (s', .ok (ph, d)) ∧ ∀ p i, 0 < ph.fractions p i := by
  obtain ⟨s', ph, d, h⟩ := Demo.run_demo (Demo.canonical.toI 3) Demo.canonical.total Demo.allCons
    Demo.allCons_proper (1 / 100000) 0 (maxSteps := 10) (interval := 5) (by norm_num) (by norm_num)
  refine ⟨s', ph, d, h, fun p i => ?_⟩
  refine ((C40_ensembles (e := Demo.env (Demo.canonical.toI 3)) (ia := Demo.fh) (rngZero_ok ℝ)
    (by simp [Demo.env, Demo.params]) rfl Demo.gas.isIdealGas h p).1 Demo.canonical rfl i).1 ?_
  fin_cases i <;> simp [Demo.canonical]

/-- The fractions of the features of a returned compartment. -/
def featFractions (feat : Fin C → Fin S) (row : Vec C ℝ) (r : Fin S) : ℝ :=
  ∑ i with feat i = r, row i

/-- **C29**. The residue reported by a run bounds the violation of each of its local constraints in
every returned compartment; and it is the smallest number from zero on up to which all constraints
(local and global ones) are satisfied by the last iterate. -/
theorem C29_residue_of_run (hok : e.rng.Ok) (hthr : 0 ≤ e.params.killThreshold)
    (hen : IsIdealGas e.en sizes feat)
    (h : runImpl e maxSteps tol interval st b = (s', .ok (ph, d))) :
    (∀ A c, Cons.loc A c ∈ st.cons → ∀ p a,
      |(∑ r, c.Cs a r * featFractions feat (ph.fractions p) r) - c.Ts a| ≤ d.maxConstraintResidue) ∧
    ∃ b₀ count s t, iterate e.ia e.en e.es e.rng e.params b₀ count s = .ok t ∧
      (∀ p, ∃ m, t.masks m = 1 ∧ ∀ i, ph.fractions p i = t.phisComp i m) ∧
      (∀ x, 0 ≤ x → (d.maxConstraintResidue ≤ x ↔
        ∀ k ∈ st.cons, Satisfied t.phisFeat t.JsOld t.masks x k)) ∧
      (d.maxConstraintResidue = 0 ↔ ∀ k ∈ st.cons, Satisfied t.phisFeat t.JsOld t.masks 0 k) := by
  obtain ⟨b₀, count, s, t, hs⟩ := run_source hok hthr h
  have hF := iterate_facts hs.pass
  obtain ⟨r1, r2, r3⟩ := C29_residue_of_pass hs.pass
  have hsat : ∀ (phi : Mat S M ℝ) (J mk : Vec M ℝ) (x : ℝ) (c : Cons S M ℝ),
      Satisfied phi J mk x c ↔ Satisfied phi J mk x c.plain := by
    intro phi J mk x c
    cases c <;> rfl
  have htr : ∀ (phi : Mat S M ℝ) (J mk : Vec M ℝ) (x : ℝ),
      (∀ k ∈ s.cons, Satisfied phi J mk x k) ↔ ∀ k ∈ st.cons, Satisfied phi J mk x k := by
    intro phi J mk x
    have conv : ∀ cs : List (Cons S M ℝ), (∀ k ∈ cs, Satisfied phi J mk x k) ↔
        ∀ k ∈ cs.map Cons.plain, Satisfied phi J mk x k := by
      intro cs
      simp only [List.mem_map, forall_exists_index, and_imp, forall_apply_eq_imp_iff₂]
      exact forall₂_congr fun k _ => hsat phi J mk x k
    rw [conv s.cons, conv st.cons, hs.plain]
  simp only [htr] at r2 r3
  refine ⟨fun A c hc p a => ?_, b₀, count, s, t, hs.pass, fun p => ?_, ?_, ?_⟩
  · obtain ⟨m, hm, -, hpm⟩ := hs.rows p
    have := (r2 t.maxConstraintResidue r1).mp le_rfl _ hc a m hm
    have hfeat : ∀ r, featFractions feat (ph.fractions p) r = t.phisFeat r m := by
      intro r
      rw [hF.phisFeat_eq hen, featFractions, Finset.sum_filter]
      exact Finset.sum_congr rfl fun i _ => by rw [hpm]
    rw [hs.residue]
    simp only [hfeat]
    exact this
  · obtain ⟨m, hm, -, hpm⟩ := hs.rows p
    exact ⟨m, hm, hpm⟩
  · rw [hs.residue]; exact r2
  · rw [hs.residue]; exact r3

example : ∃ s' ph d, runImpl (Demo.env (Demo.canonical.toI 3)) 10 (1 / 100000) 5
    (Demo.state Demo.allCons) 0 = (s', .ok (ph, d)) ∧
    Cons.loc 1 Demo.consLoc ∈ (Demo.state Demo.allCons).cons := by
  obtain ⟨s', ph, d, h⟩ := Demo.run_demo (Demo.canonical.toI 3) Demo.canonical.total Demo.allCons
    Demo.allCons_proper (1 / 100000) 0 (maxSteps := 10) (interval := 5) (by norm_num) (by norm_num)
  exact ⟨s', ph, d, h, by simp [Demo.state, Demo.allCons]⟩

end Physics

end Flory
