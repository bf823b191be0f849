import Verif.Lemmas.Gauge

/-! # Runs in pieces; runs of finders as runs of the main part -/

set_option linter.unusedSectionVars false

namespace Flory

open Spec

section Loop

variable {K G : Type} [Field K] [LinearOrder K] [IsStrictOrderedRing K] {C S M : ℕ} [NeZero M]
variable {e : RunEnv C S M K G}

theorem runLoop_append {tol : K} {inner n1 n2 : ℕ} {s s1 : RunState C S M K G}
    (h : runLoop e tol inner n1 s = (s1, .ok ()))
    (hn : ∀ r, s1.last = some r → converged tol r = false) :
    runLoop e tol inner (n1 + n2) s = runLoop e tol inner n2 s1 := by
  induction n1 generalizing s with
  | zero =>
    simp only [runLoop, Prod.mk.injEq, and_true] at h
    rw [h, Nat.zero_add]
  | succ n1 ih =>
    rw [Nat.add_right_comm]
    cases hm : metastep e.ia e.en e.es e.rng e.params s.reviveLeft inner s.st with
    | error err => simp [runLoop, hm] at h
    | ok r =>
      simp only [runLoop, hm] at h ⊢
      split at h
      · split at h
        · rename_i hconv
          obtain ⟨rfl, -⟩ := Prod.mk.inj h
          rw [hn r rfl] at hconv
          cases hconv
        · rename_i hc hv
          rw [if_pos hc, if_neg hv]
          exact ih h
      · simp at h

theorem runLoop_stopped {tol : K} {inner n1 n2 : ℕ} {s s1 : RunState C S M K G}
    (h : runLoop e tol inner (n1 + 1) s = (s1, .ok ())) {r : MetaResult C S M K G}
    (hl : s1.last = some r) (hr : converged tol r = true) :
    runLoop e tol inner (n1 + 1 + n2) s = (s1, .ok ()) := by
  induction n1 generalizing s with
  | zero =>
    rw [Nat.zero_add, Nat.add_comm]
    cases hm : metastep e.ia e.en e.es e.rng e.params s.reviveLeft inner s.st with
    | error err => simp [runLoop, hm] at h
    | ok r' =>
      simp only [runLoop, hm] at h ⊢
      split at h
      · rename_i hc
        rw [if_pos hc]
        split at h
        · rename_i hv
          rw [if_pos hv]
          exact h
        · rename_i hv
          obtain ⟨rfl, -⟩ := Prod.mk.inj h
          cases hl
          exact absurd hr hv
      · simp at h
  | succ n1 ih =>
    rw [Nat.add_right_comm]
    cases hm : metastep e.ia e.en e.es e.rng e.params s.reviveLeft inner s.st with
    | error err => rw [runLoop] at h; simp [hm] at h
    | ok r' =>
      rw [runLoop] at h ⊢
      simp only [hm] at h ⊢
      split at h
      · rename_i hc
        rw [if_pos hc]
        split at h
        · rename_i hv
          rw [if_pos hv]
          exact h
        · rename_i hv
          rw [if_neg hv]
          exact ih h
      · simp at h

/-- The loop does not look at the step counter or the last result. -/
theorem runLoop_offset (tol : K) (inner n : ℕ) (s : RunState C S M K G) (k : ℕ)
    (l : Option (MetaResult C S M K G)) :
    (runLoop e tol inner n { s with steps := k + s.steps, last := l }).2 =
      (runLoop e tol inner n s).2 ∧
    (runLoop e tol inner n { s with steps := k + s.steps, last := l }).1.st =
      (runLoop e tol inner n s).1.st ∧
    (runLoop e tol inner n { s with steps := k + s.steps, last := l }).1.reviveLeft =
      (runLoop e tol inner n s).1.reviveLeft ∧
    (runLoop e tol inner n { s with steps := k + s.steps, last := l }).1.steps =
      k + (runLoop e tol inner n s).1.steps ∧
    (n ≠ 0 → (runLoop e tol inner n s).2 = .ok () →
      (runLoop e tol inner n { s with steps := k + s.steps, last := l }).1.last =
        (runLoop e tol inner n s).1.last) := by
  cases n with
  | zero => exact ⟨rfl, rfl, rfl, rfl, fun h => absurd rfl h⟩
  | succ n =>
    cases hm : metastep e.ia e.en e.es e.rng e.params s.reviveLeft inner s.st with
    | error err =>
      simp only [runLoop, hm]
      exact ⟨trivial, trivial, trivial, trivial, fun _ h => by cases h⟩
    | ok r =>
      simp only [runLoop, hm]
      split
      · split
        · exact ⟨rfl, rfl, rfl, by simp only; omega, fun _ _ => rfl⟩
        · have := runLoop_offset tol inner n
            ⟨r.last.state, s.reviveLeft - r.last.reviveCount, s.steps + inner, some r⟩ k (some r)
          simp only [← Nat.add_assoc] at this ⊢
          refine ⟨this.1, this.2.1, this.2.2.1, this.2.2.2.1, fun _ h => ?_⟩
          by_cases hn : n = 0
          · subst hn; rfl
          · exact this.2.2.2.2 hn h
      · exact ⟨rfl, rfl, rfl, by simp only; omega, fun _ h => by cases h⟩

theorem stepsTracker_multiple {n k : ℕ} (hk : k ≠ 0) :
    stepsTracker ((n * k : ℕ) : ℚ) k = .ok n := by
  have : (k : ℚ) ≠ 0 := by exact_mod_cast hk
  unfold stepsTracker
  rw [if_neg (by exact_mod_cast hk)]
  congr 1
  push_cast
  rw [mul_div_assoc, div_self this, mul_one]
  exact Int.ceil_natCast n

theorem stepsInner_multiple {n k : ℕ} (hn : n ≠ 0) (hk : k ≠ 0) :
    stepsInner ((n * k : ℕ) : ℚ) n = .ok k := by
  unfold stepsInner
  rw [if_neg (by exact_mod_cast hn)]
  congr 1
  rw [Int.ceil_natCast, Int.fdiv_eq_ediv_of_nonneg _ (by positivity)]
  have : (((n * k : ℕ) : ℤ) / (n : ℤ)) = k := by
    push_cast
    exact Int.mul_ediv_cancel_left _ (by exact_mod_cast hn)
  rw [this, max_eq_right (by omega), Int.toNat_natCast]

/-- `run` for a multiple of the interval. -/
theorem runImpl_multiple {n k : ℕ} (hn : n ≠ 0) (hk : k ≠ 0) (tol : K) (st : State C S M K G) (b : ℤ) :
    runImpl e ((n * k : ℕ) : ℚ) tol k st b =
      match runLoop e tol k n ⟨st, b, 0, none⟩ with
      | (s, .error err) => (s, .error err)
      | (s, .ok ()) => runFinal e s := by
  unfold runImpl
  simp only [stepsTracker_multiple hk, stepsInner_multiple hn hk, Int.toNat_natCast]
  rfl

/-- All compartments alive at the end of a loop: its last step is safe. -/
theorem runLoop_safe (hthr : 0 ≤ e.params.killThreshold) {tol : K} {inner n : ℕ}
    {s s1 : RunState C S M K G} (h : runLoop e tol inner n s = (s1, .ok ())) (hn : n ≠ 0)
    (ha : ∀ m, e.params.killThreshold < s1.st.Js m) :
    ∃ r, s1.last = some r ∧ s1.st = r.last.state ∧ r.isLastStepSafe = true := by
  cases n with
  | zero => exact absurd rfl hn
  | succ n =>
    clear hn
    have key : ∀ (s : RunState C S M K G) (r : MetaResult C S M K G),
        metastep e.ia e.en e.es e.rng e.params s.reviveLeft inner s.st = .ok r →
        (∀ m, e.params.killThreshold < r.last.Js m) → r.isLastStepSafe = true := by
      intro s r hm ha
      obtain ⟨count, s', hf⟩ := metastep_facts hm
      have hsafe := metastep_safe hm
      rw [hsafe]
      have hmask : ∀ m, r.last.masks m = 1 := by
        intro m
        rcases hf.mask_cases m with e1 | e1
        · exact e1
        · have := ha m
          rw [hf.Js_dead e1] at this
          exact absurd this (not_lt.mpr hthr)
      rw [hf.nValid, countValid_eq, Finset.filter_true_of_mem fun m _ => ha m]
      simp [hmask]
    induction n generalizing s with
    | zero =>
      cases hm : metastep e.ia e.en e.es e.rng e.params s.reviveLeft inner s.st with
      | error err => simp [runLoop, hm] at h
      | ok r =>
        simp only [runLoop, hm] at h
        split at h
        · split at h
          · obtain ⟨rfl, -⟩ := Prod.mk.inj h
            exact ⟨r, rfl, rfl, key s r hm ha⟩
          · obtain ⟨rfl, -⟩ := Prod.mk.inj h
            exact ⟨r, rfl, rfl, key s r hm ha⟩
        · simp at h
    | succ n ih =>
      cases hm : metastep e.ia e.en e.es e.rng e.params s.reviveLeft inner s.st with
      | error err => rw [runLoop] at h; simp [hm] at h
      | ok r =>
        rw [runLoop] at h
        simp only [hm] at h
        split at h
        · split at h
          · obtain ⟨rfl, -⟩ := Prod.mk.inj h
            exact ⟨r, rfl, rfl, key s r hm ha⟩
          · exact ih h
        · simp at h

end Loop

section Finders

variable {G : Type}

/-- A successful run of a finder. -/
theorem run_inv {env : FinderEnv G} {f f1 : Finder G} {ms : Option ℚ} {tol : Option ℝ}
    {int : Option ℤ} {out : RunOut} (h : f.run env ms tol int = (f1, .ok out)) :
    ∃ (p : Finder.Parts f.numComp f.numFeat f.numPart) (_ : NeZero f.numPart)
      (rs : RunState f.numComp f.numFeat f.numPart ℝ G) (ph : Phases f.numPart f.numComp ℝ)
      (d : Diagnostics ℝ), f.parts = some p ∧
      runImpl (f.runEnv env p) (ms.getD f.maxSteps) (tol.getD f.tolerance)
        (int.getD f.interval) (f.state p.cons) f.reviveLeft = (rs, .ok (ph, d)) ∧
      f1 = { f.store rs with diagnostics := some d } ∧ out = ⟨_, _, ph, d⟩ := by
  cases hp : f.parts with
  | none => rw [run_none hp] at h; cases h
  | some p =>
    by_cases hM : f.numPart = 0
    · rw [run_zero hp hM] at h; cases h
    · have hM' : NeZero f.numPart := ⟨hM⟩
      rw [run_some hp] at h
      rcases hr : runImpl (f.runEnv env p) (ms.getD f.maxSteps) (tol.getD f.tolerance)
        (int.getD f.interval) (f.state p.cons) f.reviveLeft with ⟨rs, res⟩
      rw [hr] at h
      cases res with
      | error err => simp [Finder.finish] at h
      | ok x =>
        obtain ⟨ph, d⟩ := x
        simp only [Finder.finish, Prod.mk.injEq, Except.ok.injEq] at h
        exact ⟨p, hM', rs, ph, d, rfl, hr, h.1.symm, h.2.symm⟩

end Finders

end Flory
