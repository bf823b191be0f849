import Verif.Lemmas.Units
import Verif.Lemmas.Metastep
import Verif.Model.Finder

/-! # Whole runs in another unit of molecular size -/

set_option linter.unusedSectionVars false

namespace Flory.SizeUnit

variable {K G : Type} [Field K] [LinearOrder K] [IsStrictOrderedRing K] {C S M : ℕ} [NeZero M]
  {k : K}

/-- With tolerance zero the convergence test never succeeds. -/
theorem not_converged {ia : InteractionI S M K} {en : EntropyI C S M K} {es : EnsembleI C M K}
    {rng : Rng G K} {p : Params K} {tries : ℤ} {n : ℕ} {s : State C S M K G}
    {r : MetaResult C S M K G} (h : metastep ia en es rng p tries n s = .ok r) :
    converged 0 r = false := by
  obtain ⟨count, s', hf⟩ := metastep_facts h
  have : ¬ (0 : K) > r.last.maxAbsIncomp := by
    rw [hf.maxAbsIncomp, gt_iff_lt, not_lt]
    exact (abs_nonneg _).trans (le_npMax (fun m => |r.last.incomp m|) 0)
  simp [converged, this]

/-- A loop that returned, in another unit: as many metasteps with tolerance zero. -/
theorem loop_inUnit (hk : 0 < k) {e e' : RunEnv C S M K G} (h : InUnit k e e') {tol : K}
    {inner n : ℕ} {s s1 : RunState C S M K G} (hr : runLoop e tol inner n s = (s1, .ok ())) :
    ∃ n' ≤ n, s1.steps = s.steps + n' * inner ∧ (s1.last = none → s.last = none ∧ n' = 0) ∧
      runLoop e' 0 inner n' (s.inUnit k) = (s1.inUnit k, .ok ()) := by
  induction n generalizing s with
  | zero =>
    unfold runLoop at hr
    obtain rfl := (Prod.ext_iff.mp hr).1
    exact ⟨0, le_rfl, by simp, fun h => ⟨h, rfl⟩, rfl⟩
  | succ n ih =>
    unfold runLoop at hr
    have hm := metastep_inUnit hk h s.reviveLeft inner s.st
    cases hr' : metastep e.ia e.en e.es e.rng e.params s.reviveLeft inner s.st with
    | error x => simp [hr'] at hr
    | ok r =>
      rw [hr'] at hr hm
      dsimp only at hr
      split at hr
      · rename_i hc
        have hstep : ∀ n', runLoop e' 0 inner (n' + 1) (s.inUnit k) = runLoop e' 0 inner n'
            (RunState.inUnit k ⟨r.last.state, s.reviveLeft - r.last.reviveCount,
              s.steps + inner, some r⟩) := by
          intro n'
          conv_lhs => unfold runLoop
          have hm' : metastep e'.ia e'.en e'.es e'.rng e'.params (s.inUnit k).reviveLeft inner
              (s.inUnit k).st = .ok (r.inUnit k) := hm
          rw [hm']
          dsimp only
          rw [if_pos (h.criterion.trans hc), if_neg (by rw [not_converged hm']; simp)]
          rfl
        split at hr
        · obtain rfl := (Prod.ext_iff.mp hr).1
          exact ⟨1, by omega, by simp, fun h => by simp at h, by rw [hstep]; rfl⟩
        · obtain ⟨n', h1, h2, h3, h4⟩ := ih hr
          refine ⟨n' + 1, by omega, by rw [h2]; dsimp only; ring, fun h => ?_, by rw [hstep, h4]⟩
          simpa using (h3 h).1
      · simp at hr

theorem final_inUnit {e e' : RunEnv C S M K G} (h : InUnit k e e')
    (s : RunState C S M K G) :
    runFinal e' (s.inUnit k) = ((runFinal e s).1.inUnit k,
      (runFinal e s).2.map fun r => (r.1, r.2.inUnit k)) := by
  unfold runFinal
  rw [h.rng, h.kill]
  show (match reviveByCopy e.rng s.st.Js s.st.phisComp e.params.killThreshold s.st.g with
    | .error err => _
    | .ok c => _) = _
  cases reviveByCopy e.rng s.st.Js s.st.phisComp e.params.killThreshold s.st.g with
  | error x => rfl
  | ok c =>
    obtain ⟨st, left, steps, last⟩ := s
    cases last <;> rfl

theorem tracker_mul {n inner : ℕ} (hn : 0 < n) (hi : 0 < inner) :
    stepsTracker ((n * inner : ℕ) : ℚ) (inner : ℤ) = .ok (n : ℤ) ∧
      stepsInner ((n * inner : ℕ) : ℚ) (n : ℤ) = .ok inner := by
  constructor
  · unfold stepsTracker
    rw [if_neg (by omega)]
    congr 1
    have : ((n * inner : ℕ) : ℚ) / ((inner : ℤ) : ℚ) = ((n : ℤ) : ℚ) := by
      have : (inner : ℚ) ≠ 0 := by positivity
      push_cast
      field_simp
    rw [this, Int.ceil_intCast]
  · unfold stepsInner
    rw [if_neg (by omega)]
    congr 1
    have h1 : ⌈((n * inner : ℕ) : ℚ)⌉ = ((n * inner : ℕ) : ℤ) := Int.ceil_natCast _
    have h2 : Int.fdiv ((n * inner : ℕ) : ℤ) (n : ℤ) = inner := by
      push_cast
      exact Int.mul_fdiv_cancel_left _ (by omega)
    rw [h1, h2]
    omega

/-- A run that returned, in another unit. -/
theorem run_inUnit (hk : 0 < k) {e e' : RunEnv C S M K G} (h : InUnit k e e') {maxSteps : ℚ} {tol : K}
    {interval : ℤ} {st : State C S M K G} {left : ℤ} {f : RunState C S M K G} {ph : Phases M C K}
    {d : Diagnostics K}
    (hr : runImpl e maxSteps tol interval st left = (f, .ok (ph, d))) :
    ∃ n inner : ℕ, 0 < n ∧ 0 < inner ∧ d.steps = n * inner ∧
      runImpl e' (n * inner : ℕ) 0 inner (st.inUnit k) left =
        (f.inUnit k, .ok (ph, d.inUnit k)) := by
  unfold runImpl at hr
  dsimp only at hr
  cases ht : stepsTracker maxSteps interval with
  | error x => simp [ht] at hr
  | ok tracker =>
  simp only [ht] at hr
  cases hi : stepsInner maxSteps tracker with
  | error x => simp [hi] at hr
  | ok inner =>
  simp only [hi] at hr
  rcases hl : runLoop e tol inner tracker.toNat ⟨st, left, 0, none⟩ with ⟨s1, res⟩
  rw [hl] at hr
  cases res with
  | error x => simp at hr
  | ok u =>
  obtain ⟨n', -, h2, h3, h4⟩ := loop_inUnit hk h hl
  have hfin := final_inUnit h s1
  dsimp only at hr
  rw [hr] at hfin
  have hinner : 0 < inner := by
    unfold stepsInner at hi
    split at hi
    · simp at hi
    · have := Except.ok.inj hi
      omega
  have hsteps : d.steps = s1.steps ∧ s1.last ≠ none := by
    unfold runFinal at hr
    cases hc : reviveByCopy e.rng s1.st.Js s1.st.phisComp e.params.killThreshold s1.st.g with
    | error x => simp [hc] at hr
    | ok c =>
      rw [hc] at hr
      dsimp only at hr
      cases hlast : s1.last with
      | none => simp [hlast] at hr
      | some r =>
        rw [hlast] at hr
        have := (Prod.ext_iff.mp (Except.ok.inj (Prod.ext_iff.mp hr).2)).2
        exact ⟨(congrArg Diagnostics.steps this).symm, by simp⟩
  have hn : 0 < n' := by
    rcases Nat.eq_zero_or_pos n' with h0 | h0
    · subst h0
      unfold runLoop at h4
      have : s1.last.map (MetaResult.inUnit k) = none := by
        have := (Prod.ext_iff.mp h4).1
        exact (congrArg RunState.last this).symm
      exact absurd (Option.map_eq_none_iff.mp this) hsteps.2
    · exact h0
  refine ⟨n', inner, hn, hinner, by rw [hsteps.1, h2]; simp, ?_⟩
  obtain ⟨t1, t2⟩ := tracker_mul hn hinner
  unfold runImpl
  rw [t1]
  dsimp only
  rw [t2]
  dsimp only
  have h5 : runLoop e' 0 inner (n' : ℤ).toNat ⟨st.inUnit k, left, 0, none⟩ =
      (s1.inUnit k, .ok ()) := h4
  rw [h5]
  exact hfin

/-- Normal draws in another unit. -/
theorem drawNormal_mul {k : ℝ} (rng : Rng G ℝ) (std : ℝ) (rows cols : ℕ) (g : G) :
    Finder.drawNormal rng (k * std) rows cols g =
      (fun r m => k * (Finder.drawNormal rng std rows cols g).1 r m,
        (Finder.drawNormal rng std rows cols g).2) := by
  unfold Finder.drawNormal
  let φ : Mat rows cols ℝ × G → Mat rows cols ℝ × G := fun s => (fun r m => k * s.1 r m, s.2)
  have h0 : ((fun _ _ => 0, g) : Mat rows cols ℝ × G) = φ (fun _ _ => 0, g) := by simp [φ]
  conv_lhs => rw [h0]
  refine forRange_hom (φ := φ) fun r s => ?_
  refine forRange_hom (φ := φ) fun m s => ?_
  refine Prod.ext (funext fun r' => funext fun m' => ?_) rfl
  simp only [φ]
  unfold setAt2
  split <;> ring

end Flory.SizeUnit
