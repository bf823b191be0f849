import Verif.Spec.Run
import Verif.Lemmas.Metastep
import Mathlib.Algebra.Order.Floor.Ring

/-! # Lemmas about `run` -/

set_option linter.unusedSectionVars false

namespace Flory

open Spec

variable {K G : Type} [Field K] [LinearOrder K] [IsStrictOrderedRing K] {C S M : ℕ} [NeZero M]
variable {e : RunEnv C S M K G}

theorem iterateMore_passes {tries : ℤ} {n k count : ℕ} {s : State C S M K G}
    {t t' : Trace C S M K G} (hp : Passes e tries k count s t)
    (h : iterateMore e.ia e.en e.es e.rng e.params tries n t = .ok t') :
    Passes e tries (k + n) count s t' := by
  induction n generalizing t k with
  | zero => simp only [iterateMore] at h; cases h; exact hp
  | succ n ih =>
    simp only [iterateMore] at h
    obtain ⟨t1, h1, h2⟩ := bind_eq_ok.mp h
    have := ih (hp.more h1) h2
    rwa [Nat.add_assoc, Nat.add_comm 1 n] at this

/-- A successful metastep is a sequence of exactly `n` passes. -/
theorem metastep_passes {tries : ℤ} {n : ℕ} {s : State C S M K G} {r : MetaResult C S M K G}
    (h : metastep e.ia e.en e.es e.rng e.params tries n s = .ok r) :
    Passes e tries n 0 s r.last := by
  cases n with
  | zero => simp [metastep] at h
  | succ n =>
    simp only [metastep] at h
    obtain ⟨t, h1, h2⟩ := bind_eq_ok.mp h
    obtain ⟨t', h3, h4⟩ := bind_eq_ok.mp h2
    cases h4
    have := iterateMore_passes (.one h1) h3
    rwa [Nat.add_comm] at this

theorem Spec.Passes.facts {tries : ℤ} {n count : ℕ} {s : State C S M K G} {t : Trace C S M K G}
    (h : Passes e tries n count s t) :
    ∃ count' s', IterFacts e.ia e.en e.es e.rng e.params tries count' s' t := by
  cases h with
  | one h => exact ⟨_, _, iterate_facts h⟩
  | more _ h => exact ⟨_, _, iterate_facts h⟩

theorem Spec.Passes.pos {tries : ℤ} {n count : ℕ} {s : State C S M K G} {t : Trace C S M K G}
    (h : Passes e tries n count s t) : 0 < n := by
  cases h <;> omega

/-- Passes keep an invariant of the traces. -/
theorem Spec.Passes.inv {tries : ℤ} (P : Trace C S M K G → Prop) {n count : ℕ}
    {s : State C S M K G} {t : Trace C S M K G} (h : Passes e tries n count s t)
    (h0 : ∀ t, iterate e.ia e.en e.es e.rng e.params tries count s = .ok t → P t)
    (hs : ∀ t t', P t → iterate e.ia e.en e.es e.rng e.params tries t.reviveCount t.state = .ok t' →
      P t') : P t := by
  induction h with
  | one h => exact h0 _ h
  | more _ h2 ih => exact hs _ _ (ih h0) h2

/-- The model's convergence flag is the documented criterion. -/
theorem converged_iff {tries : ℤ} {n : ℕ} {s : State C S M K G} {r : MetaResult C S M K G}
    (hthr : 0 ≤ e.params.killThreshold)
    (h : metastep e.ia e.en e.es e.rng e.params tries n s = .ok r) (tol : K) :
    converged tol r = true ↔ Met e.params.killThreshold tol r.last := by
  obtain ⟨count, s', hf⟩ := metastep_facts h
  have h1 := metastep_safe h
  have hiff : ∀ m, r.last.masks m = 1 ↔ e.params.killThreshold < r.last.JsOld m := by
    intro m
    refine ⟨hf.JsOld_gt, fun hlt => ?_⟩
    rcases hf.mask_cases m with e | e
    · exact e
    · rw [hf.JsOld_dead e] at hlt; exact absurd hlt (not_lt.mpr hthr)
  have h2 : r.last.nValid = (Fintype.card {m // e.params.killThreshold < r.last.JsOld m} : K) := by
    rw [hf.nValid_card, Fintype.card_subtype]
    simp only [hiff]
  have h3 : countValid r.last.Js e.params.killThreshold =
      Fintype.card {m // e.params.killThreshold < r.last.Js m} := by
    rw [countValid_eq, Fintype.card_subtype]
  rw [h2, h3] at h1
  unfold converged Met
  simp only [Bool.and_eq_true, decide_eq_true_eq, h1, and_assoc, gt_iff_lt, Nat.cast_inj]

theorem Spec.Chain.snoc {inner : ℕ} {ts : List (Trace C S M K G)} {s s' : State C S M K G} {b b' : ℤ}
    {t : Trace C S M K G} (h : Chain e inner ts s b s' b') (hp : Passes e b' inner 0 s' t) :
    Chain e inner (ts ++ [t]) s b t.state (b' - t.reviveCount) := by
  induction h with
  | nil => exact .cons hp .nil
  | cons h1 _ ih => exact .cons h1 (ih hp)

theorem Spec.Chain.last {inner : ℕ} {ts : List (Trace C S M K G)} {s s' : State C S M K G} {b b' : ℤ}
    {t : Trace C S M K G} (h : Chain e inner (ts ++ [t]) s b s' b') :
    ∃ s₀ b₀, Chain e inner ts s b s₀ b₀ ∧ Passes e b₀ inner 0 s₀ t ∧ s' = t.state ∧
      b' = b₀ - t.reviveCount := by
  induction ts generalizing s b with
  | nil =>
    cases h with
    | cons h1 h2 =>
      cases h2
      exact ⟨_, _, .nil, h1, rfl, rfl⟩
  | cons t' ts ih =>
    cases h with
    | cons h1 h2 =>
      obtain ⟨s₀, b₀, c1, c2⟩ := ih h2
      exact ⟨s₀, b₀, .cons h1 c1, c2⟩

/-- Any predicate on arrays and budget that groups of passes keep is kept by a chain. -/
theorem Spec.Chain.inv {inner : ℕ} (P : State C S M K G → ℤ → Prop)
    {ts : List (Trace C S M K G)} {s s' : State C S M K G} {b b' : ℤ}
    (h : Chain e inner ts s b s' b') (h0 : P s b)
    (hs : ∀ s b t, P s b → Passes e b inner 0 s t → P t.state (b - t.reviveCount)) : P s' b' := by
  induction h with
  | nil => exact h0
  | cons h1 _ ih => exact ih (hs _ _ _ h0 h1)

/-- Outcome of the loop. -/
theorem runLoop_chain (hthr : 0 ≤ e.params.killThreshold) {tol : K} {inner : ℕ} (n : ℕ)
    (s : RunState C S M K G) :
    ∃ ts s' b', Chain e inner ts s.st s.reviveLeft s' b' ∧ ts.length ≤ n ∧
      ((runLoop e tol inner n s).1.reviveLeft = b') ∧
      ((runLoop e tol inner n s).1.steps = s.steps + ts.length * inner) ∧
      (((runLoop e tol inner n s).2 = .ok () ∧ (runLoop e tol inner n s).1.st = s' ∧
          (e.criterion = "standard" ∨ n = 0) ∧
          (∀ t ∈ ts.dropLast, ¬ Met e.params.killThreshold tol t) ∧
          (ts.length = n ∨ ∃ t ∈ ts.getLast?, Met e.params.killThreshold tol t) ∧
          ((ts = [] ∧ (runLoop e tol inner n s).1.last = s.last) ∨
            ∃ t r, ts.getLast? = some t ∧ (runLoop e tol inner n s).1.last = some r ∧
              r.last = t)) ∨
        (∃ err, (runLoop e tol inner n s).2 = .error err ∧
          (runLoop e tol inner n s).1.st = e.crash s' ∧
          metastep e.ia e.en e.es e.rng e.params b' inner s' = .error err) ∨
        ((runLoop e tol inner n s).2 = .error .valueError ∧ e.criterion ≠ "standard" ∧
          (runLoop e tol inner n s).1.st = s' ∧ ts.length = 1)) := by
  induction n generalizing s with
  | zero =>
    exact ⟨[], s.st, s.reviveLeft, .nil, le_rfl, rfl, by simp [runLoop],
      Or.inl ⟨rfl, rfl, Or.inr rfl, by simp, Or.inl rfl, Or.inl ⟨rfl, rfl⟩⟩⟩
  | succ n ih =>
    cases hm : metastep e.ia e.en e.es e.rng e.params s.reviveLeft inner s.st with
    | error err =>
      have hr : runLoop e tol inner (n + 1) s = ({ s with st := e.crash s.st }, .error err) := by
        simp only [runLoop, hm]
      exact ⟨[], s.st, s.reviveLeft, .nil, by simp, by rw [hr], by rw [hr]; simp,
        Or.inr (Or.inl ⟨err, by rw [hr], by rw [hr], hm⟩)⟩
    | ok r =>
      have hp := metastep_passes hm
      set s1 : RunState C S M K G := ⟨r.last.state, s.reviveLeft - r.last.reviveCount,
        s.steps + inner, some r⟩ with hs1
      by_cases hc : e.criterion = "standard"
      · by_cases hv : converged tol r = true
        · have hr : runLoop e tol inner (n + 1) s = (s1, .ok ()) := by
            simp only [runLoop, hm, hc, hv, if_true, hs1]
          refine ⟨[r.last], r.last.state, s.reviveLeft - r.last.reviveCount, .cons hp .nil,
            by simp, by rw [hr], by rw [hr]; simp [hs1],
            Or.inl ⟨by rw [hr], by rw [hr], Or.inl hc, by simp, Or.inr ⟨r.last, by simp, ?_⟩,
              Or.inr ⟨r.last, r, by simp, by rw [hr], rfl⟩⟩⟩
          exact (converged_iff hthr hm tol).mp hv
        · have hr : runLoop e tol inner (n + 1) s = runLoop e tol inner n s1 := by
            simp only [runLoop, hm, hc, hv, if_true, hs1, Bool.false_eq_true, if_false]
          have hnot : ¬ Met e.params.killThreshold tol r.last :=
            fun hmet => hv ((converged_iff hthr hm tol).mpr hmet)
          obtain ⟨ts, s', b', h1, h2, h3, h4, h5⟩ := ih s1
          refine ⟨r.last :: ts, s', b', .cons hp h1, by simpa using h2, by rw [hr, h3], ?_, ?_⟩
          · rw [hr, h4]
            simp only [hs1, List.length_cons]
            ring
          · rw [hr]
            rcases h5 with ⟨c1, c2, -, c4, c5, c6⟩ | h5 | ⟨c1, c2, c3, c4⟩
            · refine Or.inl ⟨c1, c2, Or.inl hc, ?_, ?_, ?_⟩
              · cases ts with
                | nil => simp
                | cons t ts =>
                  rw [List.dropLast_cons_cons]
                  intro t' ht'
                  rcases List.mem_cons.mp ht' with rfl | ht'
                  · exact hnot
                  · exact c4 t' ht'
              · rcases c5 with c5 | ⟨t, ht, hmet⟩
                · exact Or.inl (by simp [c5])
                · cases ts with
                  | nil => simp at ht
                  | cons t' ts =>
                    exact Or.inr ⟨t, by rw [List.getLast?_cons_cons]; exact ht, hmet⟩
              · rcases c6 with ⟨rfl, c6⟩ | ⟨t, r', ht, c6, c7⟩
                · exact Or.inr ⟨r.last, r, by simp, c6, rfl⟩
                · cases ts with
                  | nil => simp at ht
                  | cons t' ts =>
                    exact Or.inr ⟨t, r', by rw [List.getLast?_cons_cons]; exact ht, c6, c7⟩
            · exact Or.inr (Or.inl h5)
            · exact absurd hc c2
      · have hr : runLoop e tol inner (n + 1) s = (s1, .error .valueError) := by
          simp only [runLoop, hm, if_neg hc, hs1]
        exact ⟨[r.last], r.last.state, s.reviveLeft - r.last.reviveCount, .cons hp .nil,
          by simp, by rw [hr], by rw [hr]; simp [hs1],
          Or.inr (Or.inr ⟨by rw [hr], hc, by rw [hr], by simp⟩)⟩

theorem stepsTracker_pos {maxSteps : ℚ} {interval : ℤ} (h1 : 0 < maxSteps) (h2 : 0 < interval) :
    ∃ k : ℕ, 0 < k ∧ stepsTracker maxSteps interval = .ok k ∧ (k : ℤ) = ⌈maxSteps / interval⌉ := by
  have hpos : 0 < ⌈maxSteps / interval⌉ := Int.ceil_pos.mpr (div_pos h1 (by exact_mod_cast h2))
  refine ⟨⌈maxSteps / interval⌉.toNat, by omega, ?_, Int.toNat_of_nonneg hpos.le⟩
  unfold stepsTracker
  rw [if_neg h2.ne', Int.toNat_of_nonneg hpos.le]

/-- Arithmetic of the step numbers. -/
theorem stepsInner_spec {maxSteps : ℚ} {interval : ℤ} (h1 : 0 < maxSteps) (h2 : 0 < interval) {k : ℕ}
    (hk : 0 < k) (hke : (k : ℤ) = ⌈maxSteps / interval⌉) :
    ∃ inner : ℕ, stepsInner maxSteps k = .ok inner ∧ 0 < inner ∧ (inner : ℤ) ≤ interval ∧
      ((k * inner : ℕ) : ℤ) ≤ ⌈maxSteps⌉ ∧ maxSteps < ((k * inner + k : ℕ) : ℚ) := by
  have hkz : (0 : ℤ) < k := by exact_mod_cast hk
  set c := ⌈maxSteps⌉ with hc
  set q := Int.fdiv c k with hq
  have hqe : q = c / k := by rw [hq, Int.fdiv_eq_ediv_of_nonneg _ hkz.le]
  have hint : (0 : ℚ) < interval := by exact_mod_cast h2
  have hle : (k : ℤ) ≤ c := by
    rw [hke]
    refine Int.ceil_mono ?_
    rw [div_le_iff₀ hint]
    have : (1 : ℚ) ≤ interval := by exact_mod_cast h2
    nlinarith
  have hge : c ≤ k * interval := by
    rw [hc, Int.ceil_le]
    have := Int.le_ceil (maxSteps / interval)
    rw [← hke, div_le_iff₀ hint] at this
    exact_mod_cast this
  have hq1 : 1 ≤ q := by
    rw [hqe, Int.le_ediv_iff_mul_le hkz]; simpa using hle
  have hq2 : q ≤ interval := by
    rw [hqe]
    refine Int.ediv_le_of_le_mul hkz ?_
    rwa [mul_comm] at hge
  have hq3 : k * q ≤ c := by rw [hqe]; exact Int.mul_ediv_self_le hkz.ne'
  have hq4 : c < k * q + k := by
    have := Int.lt_ediv_add_one_mul_self c hkz
    rw [hqe]; linarith
  refine ⟨q.toNat, ?_, by omega, by omega, ?_, ?_⟩
  · unfold stepsInner
    rw [if_neg hkz.ne', ← hc, ← hq, max_eq_right hq1]
  · push_cast
    rw [Int.toNat_of_nonneg (by omega)]
    exact hq3
  · have h5 : maxSteps ≤ (c : ℚ) := Int.le_ceil maxSteps
    have h6 : ((c : ℤ) : ℚ) < ((k * q + k : ℤ) : ℚ) := by exact_mod_cast hq4
    have h7 : ((k * q.toNat + k : ℕ) : ℚ) = ((k * q + k : ℤ) : ℚ) := by
      have : ((q.toNat : ℕ) : ℤ) = q := Int.toNat_of_nonneg (by omega)
      have h8 : ((q.toNat : ℕ) : ℚ) = (q : ℚ) := by exact_mod_cast congrArg (Int.cast (R := ℚ)) this
      push_cast
      rw [h8]
    rw [h7]
    exact lt_of_le_of_lt h5 h6

/-- Everything a successful run consists of. -/
structure RunFacts (e : RunEnv C S M K G) (tol : K) (inner k : ℕ) (st : State C S M K G) (b : ℤ)
    (s' : RunState C S M K G) (ph : Phases M C K) (d : Diagnostics K)
    (ts : List (Trace C S M K G)) (t : Trace C S M K G) (c : CopyState C M K G) : Prop where
  chain : Chain e inner (ts ++ [t]) st b t.state s'.reviveLeft
  standard : e.criterion = "standard"
  count : ts.length + 1 ≤ k
  notMet : ∀ t' ∈ ts, ¬ Met e.params.killThreshold tol t'
  stop : ts.length + 1 = k ∨ Met e.params.killThreshold tol t
  copy : reviveByCopy e.rng t.Js t.phisComp e.params.killThreshold t.g = .ok c
  arrays : s'.st = { t.state with g := c.g }
  volumes : ph.volumes = c.Js
  fractions : ph.fractions = fun m i => c.targets i m
  diag : d = ⟨(ts.length + 1) * inner, t.maxAbsIncomp, t.maxAbsOmegaDiff, t.maxAbsJsDiff,
    t.maxConstraintResidue, s'.reviveLeft⟩

theorem run_facts (hthr : 0 ≤ e.params.killThreshold) {maxSteps : ℚ} {tol : K} {interval : ℤ}
    {st : State C S M K G} {b : ℤ} {s' : RunState C S M K G} {ph : Phases M C K} {d : Diagnostics K}
    (h : runImpl e maxSteps tol interval st b = (s', .ok (ph, d))) :
    ∃ tracker inner ts t c, stepsTracker maxSteps interval = .ok tracker ∧
      stepsInner maxSteps tracker = .ok inner ∧
      RunFacts e tol inner tracker.toNat st b s' ph d ts t c := by
  unfold runImpl at h
  simp only at h
  cases htr : stepsTracker maxSteps interval with
  | error err => rw [htr] at h; simp at h
  | ok tracker =>
    rw [htr] at h
    simp only at h
    cases hin : stepsInner maxSteps tracker with
    | error err => rw [hin] at h; simp at h
    | ok inner =>
      rw [hin] at h
      simp only at h
      obtain ⟨ts, s1, b1, h1, h2, h3, h4, h5⟩ := runLoop_chain (e := e) hthr (tol := tol)
        (inner := inner) tracker.toNat ⟨st, b, 0, none⟩
      rcases h5 with ⟨c1, c2, c3, c4, c5, c6⟩ | ⟨err, c1, -, -⟩ | ⟨c1, -, -, -⟩
      · rcases hl : runLoop e tol inner tracker.toNat ⟨st, b, 0, none⟩ with ⟨s2, r2⟩
        rw [hl] at h c1 c2 c6 h3 h4
        simp only at c1 c2 c6 h3 h4
        subst c1
        simp only at h
        unfold runFinal at h
        cases hcp : reviveByCopy e.rng s2.st.Js s2.st.phisComp e.params.killThreshold s2.st.g with
        | error err => rw [hcp] at h; simp at h
        | ok c =>
          rw [hcp] at h
          simp only at h
          rcases c6 with ⟨-, c6⟩ | ⟨t, r, ht, c6, c7⟩
          · rw [c6] at h; simp at h
          · rw [c6] at h
            simp only [Prod.mk.injEq, Except.ok.injEq] at h
            obtain ⟨rfl, rfl, rfl⟩ := h
            obtain ⟨ts', rfl⟩ : ∃ ts', ts = ts' ++ [t] := by
              obtain ⟨ts', hts'⟩ := List.getLast?_eq_some_iff.mp ht
              exact ⟨ts', hts'⟩
            obtain ⟨s₀, b₀, -, -, e1, e2⟩ := h1.last
            have hst : s2.st = t.state := c2.trans e1
            refine ⟨tracker, inner, ts', t, c, rfl, hin, ⟨?_, ?_, by simpa using h2, ?_, ?_, ?_, ?_,
              rfl, rfl, ?_⟩⟩
            · rw [e1] at h1
              rw [h3]
              exact h1
            · refine c3.resolve_right fun h0 => ?_
              rw [h0] at h2
              simp at h2
            · intro t' ht'
              exact c4 t' (by simpa using ht')
            · rcases c5 with c5 | ⟨t', ht', hmet⟩
              · exact Or.inl (by simpa using c5)
              · right
                have : t' = t := by
                  rw [List.getLast?_concat] at ht'
                  exact (Option.mem_some_iff.mp ht').symm
                rwa [← this]
            · rw [hst] at hcp
              exact hcp
            · rw [hst]
            · subst c7
              simp only [h4, List.length_append, List.length_cons, List.length_nil]
              simp
      · rcases hl : runLoop e tol inner tracker.toNat ⟨st, b, 0, none⟩ with ⟨s2, r2⟩
        rw [hl] at h c1
        simp only at c1
        subst c1
        simp at h
      · rcases hl : runLoop e tol inner tracker.toNat ⟨st, b, 0, none⟩ with ⟨s2, r2⟩
        rw [hl] at h c1
        simp only at c1
        subst c1
        simp at h

end Flory
