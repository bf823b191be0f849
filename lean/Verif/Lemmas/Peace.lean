import Verif.Lemmas.Relabel

/-! # Runs in which no compartment dies -/

set_option linter.unusedSectionVars false

namespace Flory

open Spec

variable {K G : Type} [Field K] [LinearOrder K] [IsStrictOrderedRing K] {C S M : ℕ} [NeZero M]

section Pass

variable {ia : InteractionI S M K} {en : EntropyI C S M K} {es : EnsembleI C M K}
  {rng : Rng G K} {p : Params K} {tries : ℤ} {count : ℕ} {s : State C S M K G}
  {t : Trace C S M K G}

theorem IterFacts.count_le (hok : rng.Ok) (h : IterFacts ia en es rng p tries count s t) :
    count ≤ t.reviveCount := by
  obtain ⟨-, h2⟩ := reviveBlock_spec (S := S) (p := p) (tries := tries) (Js := s.Js)
    (om := s.omegas) (g := s.g) (count := count) hok
  rw [h.reviveCount]
  split at h2
  · rw [h2.1]; omega
  · rw [h2]

/-- If a pass revives nothing and no compartment is dead afterwards then none was dead before. -/
theorem IterFacts.alive_before (hok : rng.Ok) (hthr : 0 ≤ p.killThreshold)
    (h : IterFacts ia en es rng p tries count s t) (hc : t.reviveCount = count)
    (ha : ∀ m, p.killThreshold < t.Js m) : ∀ m, p.killThreshold < s.Js m := by
  obtain ⟨-, h2⟩ := reviveBlock_spec (S := S) (p := p) (tries := tries) (Js := s.Js)
    (om := s.omegas) (g := s.g) (count := count) hok
  intro m
  by_contra hm
  rw [h.reviveCount] at hc
  split at h2
  · have : 0 < (Finset.univ.filter fun m => s.Js m ≤ p.killThreshold).card :=
      Finset.card_pos.mpr ⟨m, by simpa using hm⟩
    omega
  · have hmask : t.masks m = 0 := by rw [h.mask_eq, h2, if_neg hm]
    have := ha m
    rw [h.Js_dead hmask] at this
    exact absurd this (not_lt.mpr hthr)

/-- All compartments alive before: the masks are one. -/
theorem IterFacts.masks_one (h : IterFacts ia en es rng p tries count s t)
    (ha : ∀ m, p.killThreshold < s.Js m) :
    (∀ m, t.masks m = 1) ∧ t.JsOld = s.Js ∧ t.omegasOld = s.omegas ∧ t.reviveCount = count ∧
      t.nValid = M := by
  have hr := reviveBlock_all_alive (rng := rng) (p := p) (tries := tries) (om := s.omegas) (g := s.g)
    (count := count) ha
  have hm : ∀ m, t.masks m = 1 := fun m => by rw [h.mask_eq, hr, if_pos (ha m)]
  refine ⟨hm, funext fun m => ?_, ?_, ?_, ?_⟩
  · rw [h.JsOld, hm, hr, mul_one]
  · rw [h.omegasOld, hr]
  · rw [h.reviveCount, hr]
  · rw [h.nValid]; simp [hm]

end Pass

section Sim

variable {S' : ℕ} {e : RunEnv C S M K G} {G' : Type} {e' : RunEnv C S' M K G'}

/-- What two passes have to agree on for the results of runs to be the same. -/
structure SameReport (t : Trace C S M K G) (t' : Trace C S' M K G') : Prop where
  Js : t'.Js = t.Js
  phisComp : t'.phisComp = t.phisComp
  nValid : t'.nValid = t.nValid
  incomp : t'.maxAbsIncomp = t.maxAbsIncomp
  omega : t'.maxAbsOmegaDiff = t.maxAbsOmegaDiff
  JsDiff : t'.maxAbsJsDiff = t.maxAbsJsDiff
  residue : t'.maxConstraintResidue = t.maxConstraintResidue

/-- `R` relates states of two runs such that passes without dead compartments report the same. -/
structure Sim (e : RunEnv C S M K G) (e' : RunEnv C S' M K G')
    (R : State C S M K G → State C S' M K G' → Prop) : Prop where
  thr : e'.params.killThreshold = e.params.killThreshold
  criterion : e'.criterion = e.criterion
  pass : ∀ {tries tries' count count' s s' t}, (∀ m, e.params.killThreshold < s.Js m) → R s s' →
    iterate e.ia e.en e.es e.rng e.params tries count s = .ok t →
    ∃ t', iterate e'.ia e'.en e'.es e'.rng e'.params tries' count' s' = .ok t' ∧
      t'.reviveCount = count' ∧ SameReport t t' ∧ R t.state t'.state

variable {R : State C S M K G → State C S' M K G' → Prop}

theorem iterateMore_count (hok : e.rng.Ok) {tries : ℤ} {n : ℕ} {t t1 : Trace C S M K G}
    (h : iterateMore e.ia e.en e.es e.rng e.params tries n t = .ok t1) :
    t.reviveCount ≤ t1.reviveCount := by
  induction n generalizing t with
  | zero => simp only [iterateMore] at h; cases h; exact le_rfl
  | succ n ih =>
    simp only [iterateMore] at h
    obtain ⟨t2, h1, h2⟩ := bind_eq_ok.mp h
    exact ((iterate_facts h1).count_le hok).trans (ih h2)

theorem iterateMore_alive (hok : e.rng.Ok) (hthr : 0 ≤ e.params.killThreshold) {tries : ℤ}
    {n : ℕ} {t t1 : Trace C S M K G}
    (h : iterateMore e.ia e.en e.es e.rng e.params tries n t = .ok t1)
    (hc : t1.reviveCount = t.reviveCount) (ha : ∀ m, e.params.killThreshold < t1.Js m) :
    ∀ m, e.params.killThreshold < t.Js m := by
  induction n generalizing t with
  | zero => simp only [iterateMore] at h; cases h; exact ha
  | succ n ih =>
    simp only [iterateMore] at h
    obtain ⟨t2, h1, h2⟩ := bind_eq_ok.mp h
    have hf := iterate_facts h1
    have k1 := hf.count_le hok
    have k2 := iterateMore_count hok h2
    exact hf.alive_before (s := t.state) hok hthr (by omega) (ih h2 (by omega))

theorem metastep_alive (hok : e.rng.Ok) (hthr : 0 ≤ e.params.killThreshold) {tries : ℤ}
    {n : ℕ} {s : State C S M K G} {r : MetaResult C S M K G}
    (h : metastep e.ia e.en e.es e.rng e.params tries n s = .ok r)
    (hc : r.last.reviveCount = 0) (ha : ∀ m, e.params.killThreshold < r.last.Js m) :
    ∀ m, e.params.killThreshold < s.Js m := by
  cases n with
  | zero => simp [metastep] at h
  | succ n =>
    simp only [metastep] at h
    obtain ⟨t, h1, h2⟩ := bind_eq_ok.mp h
    obtain ⟨t', h3, h4⟩ := bind_eq_ok.mp h2
    cases h4
    have k2 := iterateMore_count hok h3
    simp only at hc ha
    have hz : t.reviveCount = 0 := by omega
    exact (iterate_facts h1).alive_before hok hthr hz
      (iterateMore_alive hok hthr h3 (by omega) ha)

theorem Sim.iterateMore (hS : Sim e e' R) (hok : e.rng.Ok) (hthr : 0 ≤ e.params.killThreshold)
    {tries tries' : ℤ} {n : ℕ} {t t1 : Trace C S M K G} {t' : Trace C S' M K G'}
    (h : Flory.iterateMore e.ia e.en e.es e.rng e.params tries n t = .ok t1)
    (hc : t1.reviveCount = t.reviveCount) (ha : ∀ m, e.params.killThreshold < t1.Js m)
    (hr : SameReport t t') (hR : R t.state t'.state) :
    ∃ t1', Flory.iterateMore e'.ia e'.en e'.es e'.rng e'.params tries' n t' = .ok t1' ∧
      t1'.reviveCount = t'.reviveCount ∧ SameReport t1 t1' ∧ R t1.state t1'.state := by
  induction n generalizing t t' with
  | zero =>
    simp only [Flory.iterateMore] at h
    cases h
    exact ⟨t', rfl, rfl, hr, hR⟩
  | succ n ih =>
    have hal := iterateMore_alive hok hthr h hc ha
    simp only [Flory.iterateMore] at h
    obtain ⟨t2, h1, h2⟩ := bind_eq_ok.mp h
    have k1 := (iterate_facts h1).count_le hok
    have k2 := iterateMore_count hok h2
    obtain ⟨t2', g1, g2, g3, g4⟩ := hS.pass (tries' := tries') (count' := t'.reviveCount)
      (s := t.state) hal hR h1
    obtain ⟨t1', j1, j2, j3, j4⟩ := ih h2 (by omega) g3 g4
    exact ⟨t1', by simp only [Flory.iterateMore, g1, bind_ok, j1], by rw [j2, g2], j3, j4⟩

theorem Sim.metastep (hS : Sim e e' R) (hok : e.rng.Ok) (hthr : 0 ≤ e.params.killThreshold)
    {tries tries' : ℤ} {n : ℕ} {s : State C S M K G} {s' : State C S' M K G'}
    {r : MetaResult C S M K G} (h : Flory.metastep e.ia e.en e.es e.rng e.params tries n s = .ok r)
    (hc : r.last.reviveCount = 0) (ha : ∀ m, e.params.killThreshold < r.last.Js m) (hR : R s s') :
    ∃ r', Flory.metastep e'.ia e'.en e'.es e'.rng e'.params tries' n s' = .ok r' ∧
      r'.last.reviveCount = 0 ∧ SameReport r.last r'.last ∧ R r.last.state r'.last.state ∧
      r'.isLastStepSafe = r.isLastStepSafe := by
  have hal := metastep_alive hok hthr h hc ha
  cases n with
  | zero => simp [Flory.metastep] at h
  | succ n =>
    simp only [Flory.metastep] at h
    obtain ⟨t, h1, h2⟩ := bind_eq_ok.mp h
    obtain ⟨t1, h3, h4⟩ := bind_eq_ok.mp h2
    cases h4
    simp only at hc ha
    have k2 := iterateMore_count hok h3
    obtain ⟨t', g1, g2, g3, g4⟩ := hS.pass (tries' := tries') (count' := 0) hal hR h1
    obtain ⟨t1', j1, j2, j3, j4⟩ := hS.iterateMore (tries' := tries') hok hthr h3 (by omega) ha g3 g4
    refine ⟨⟨t1', decide (t1'.nValid = (countValid t1'.Js e'.params.killThreshold : K))⟩, ?_,
      by rw [j2, g2], j3, j4, ?_⟩
    · simp only [Flory.metastep, g1, bind_ok, j1, pure_eq_ok]
    · rw [j3.nValid, j3.Js, hS.thr]

theorem SameReport.converged {r : MetaResult C S M K G} {r' : MetaResult C S' M K G'}
    (h : SameReport r.last r'.last) (hs : r'.isLastStepSafe = r.isLastStepSafe) (tol : K) :
    Flory.converged tol r' = Flory.converged tol r := by
  unfold Flory.converged
  rw [hs, h.incomp, h.omega, h.JsDiff, h.residue]

/-- The budget never grows. -/
theorem runLoop_mono {tol : K} {inner n : ℕ} {s : RunState C S M K G} :
    (runLoop e tol inner n s).1.reviveLeft ≤ s.reviveLeft := by
  induction n generalizing s with
  | zero => exact le_rfl
  | succ n ih =>
    cases hm : metastep e.ia e.en e.es e.rng e.params s.reviveLeft inner s.st with
    | error err => simp only [runLoop, hm]; exact le_rfl
    | ok r =>
      simp only [runLoop, hm]
      split
      · split
        · simp only; omega
        · refine ih.trans ?_
          simp only; omega
      · simp only; omega

/-- Compartments alive at the end of the loop, nothing revived: alive at its start. -/
theorem runLoop_alive (hok : e.rng.Ok) (hthr : 0 ≤ e.params.killThreshold) {tol : K} {inner n : ℕ}
    {s s1 : RunState C S M K G} (h : runLoop e tol inner n s = (s1, .ok ()))
    (hb : s1.reviveLeft = s.reviveLeft) (ha : ∀ m, e.params.killThreshold < s1.st.Js m) :
    ∀ m, e.params.killThreshold < s.st.Js m := by
  induction n generalizing s with
  | zero => simp only [runLoop, Prod.mk.injEq, and_true] at h; rw [h]; exact ha
  | succ n ih =>
    cases hm : Flory.metastep e.ia e.en e.es e.rng e.params s.reviveLeft inner s.st with
    | error err => simp [runLoop, hm] at h
    | ok r =>
      simp only [runLoop, hm] at h
      split at h
      · split at h
        · obtain ⟨rfl, -⟩ := Prod.mk.inj h
          simp only at hb ha
          exact metastep_alive hok hthr hm (by omega) ha
        · have k := runLoop_mono (e := e) (tol := tol) (inner := inner) (n := n)
            (s := ⟨r.last.state, s.reviveLeft - r.last.reviveCount, s.steps + inner, some r⟩)
          rw [h] at k
          simp only at k
          have hz : r.last.reviveCount = 0 := by omega
          exact metastep_alive hok hthr hm hz (ih h (by simp only; omega))
      · simp at h

/-- Related states of the two loops. -/
structure SimRun (R : State C S M K G → State C S' M K G' → Prop) (s : RunState C S M K G)
    (s' : RunState C S' M K G') : Prop where
  st : R s.st s'.st
  steps : s'.steps = s.steps
  last : (s.last = none ∧ s'.last = none) ∨ ∃ r r', s.last = some r ∧ s'.last = some r' ∧
    SameReport r.last r'.last ∧ s.st = r.last.state ∧ s'.st = r'.last.state

theorem Sim.runLoop (hS : Sim e e' R) (hok : e.rng.Ok) (hthr : 0 ≤ e.params.killThreshold)
    {tol : K} {inner n : ℕ} {s s1 : RunState C S M K G} {s' : RunState C S' M K G'}
    (h : Flory.runLoop e tol inner n s = (s1, .ok ()))
    (hb : s1.reviveLeft = s.reviveLeft) (ha : ∀ m, e.params.killThreshold < s1.st.Js m)
    (hR : SimRun R s s') :
    ∃ s1', Flory.runLoop e' tol inner n s' = (s1', .ok ()) ∧ s1'.reviveLeft = s'.reviveLeft ∧
      SimRun R s1 s1' := by
  induction n generalizing s s' with
  | zero =>
    simp only [Flory.runLoop, Prod.mk.injEq, and_true] at h
    exact ⟨s', rfl, rfl, h ▸ hR⟩
  | succ n ih =>
    cases hm : Flory.metastep e.ia e.en e.es e.rng e.params s.reviveLeft inner s.st with
    | error err => simp [Flory.runLoop, hm] at h
    | ok r =>
      simp only [Flory.runLoop, hm] at h
      split at h
      · rename_i hcrit
        split at h
        · rename_i hconv
          obtain ⟨rfl, -⟩ := Prod.mk.inj h
          simp only at hb ha
          obtain ⟨r', g1, g2, g3, g4, g5⟩ := hS.metastep (tries' := s'.reviveLeft) (s' := s'.st)
            hok hthr hm (by omega) ha hR.st
          refine ⟨⟨r'.last.state, s'.reviveLeft - r'.last.reviveCount, s'.steps + inner, some r'⟩,
            ?_, by simp [g2], g4, by simp [hR.steps], Or.inr ⟨r, r', rfl, rfl, g3, rfl, rfl⟩⟩
          simp only [Flory.runLoop, g1, hS.criterion, hcrit, if_true,
            g3.converged g5 tol, hconv]
        · rename_i hconv
          have k := runLoop_mono (e := e) (tol := tol) (inner := inner) (n := n)
            (s := ⟨r.last.state, s.reviveLeft - r.last.reviveCount, s.steps + inner, some r⟩)
          rw [h] at k
          simp only at k
          have hz : r.last.reviveCount = 0 := by omega
          have hal := runLoop_alive hok hthr h (by simp only; omega) ha
          obtain ⟨r', g1, g2, g3, g4, g5⟩ := hS.metastep (tries' := s'.reviveLeft) (s' := s'.st)
            hok hthr hm hz hal hR.st
          obtain ⟨s1', j1, j2, j3⟩ := ih (s' := ⟨r'.last.state, s'.reviveLeft - r'.last.reviveCount,
            s'.steps + inner, some r'⟩) h (by simp only; omega)
            ⟨g4, by simp [hR.steps], Or.inr ⟨r, r', rfl, rfl, g3, rfl, rfl⟩⟩
          refine ⟨s1', ?_, by rw [j2]; simp [g2], j3⟩
          simp only [Flory.runLoop, g1, hS.criterion, hcrit, if_true,
            g3.converged g5 tol, hconv, Bool.false_eq_true, if_false]
          exact j1
      · simp at h

/-- At the end of a run without dead compartments the arrays are the result. -/
theorem runFinal_alive {s : RunState C S M K G} (hthr : 0 ≤ e.params.killThreshold)
    (ha : ∀ m, e.params.killThreshold < s.st.Js m) {r : MetaResult C S M K G}
    (hl : s.last = some r) :
    runFinal e s = (s, .ok (⟨s.st.Js, fun m i => s.st.phisComp i m⟩,
        { steps := s.steps
          maxAbsIncomp := r.last.maxAbsIncomp
          maxAbsOmegaDiff := r.last.maxAbsOmegaDiff
          maxAbsJsDiff := r.last.maxAbsJsDiff
          maxConstraintResidue := r.last.maxConstraintResidue
          reviveCountLeft := s.reviveLeft })) := by
  obtain ⟨l, n, hc⟩ := reviveByCopy_all_alive (rng := e.rng) (T := s.st.phisComp) (g := s.st.g) hthr ha
  unfold runFinal
  simp only [hc, hl]
  rw [← hl]

theorem runFinal_ok {s f : RunState C S M K G} {ph : Phases M C K} {d : Diagnostics K}
    (h : runFinal e s = (f, .ok (ph, d))) :
    f.st.Js = s.st.Js ∧ f.reviveLeft = s.reviveLeft ∧ d.reviveCountLeft = s.reviveLeft ∧
      ∃ r, s.last = some r := by
  unfold runFinal at h
  cases hcp : reviveByCopy e.rng s.st.Js s.st.phisComp e.params.killThreshold s.st.g with
  | error err => rw [hcp] at h; simp at h
  | ok c =>
    rw [hcp] at h
    simp only at h
    cases hl : s.last with
    | none => rw [hl] at h; simp at h
    | some r =>
      rw [hl] at h
      simp only [Prod.mk.injEq, Except.ok.injEq] at h
      obtain ⟨rfl, -, rfl⟩ := h
      exact ⟨rfl, rfl, rfl, r, rfl⟩

/-- A run that revives nothing and ends without dead compartments is simulated. -/
theorem Sim.run (hS : Sim e e' R) (hok : e.rng.Ok) (hthr : 0 ≤ e.params.killThreshold)
    {maxSteps : ℚ} {tol : K} {interval b b' : ℤ} {st : State C S M K G} {st' : State C S' M K G'}
    {f : RunState C S M K G} {ph : Phases M C K} {d : Diagnostics K} (hR : R st st')
    (h : runImpl e maxSteps tol interval st b = (f, .ok (ph, d)))
    (hrev : d.reviveCountLeft = b) (halive : ∀ m, e.params.killThreshold < f.st.Js m) :
    ∃ f', runImpl e' maxSteps tol interval st' b' =
        (f', .ok (ph, { d with reviveCountLeft := b' })) ∧
      f'.reviveLeft = b' ∧ R f.st f'.st ∧ f'.st.Js = f.st.Js ∧ f'.st.phisComp = f.st.phisComp := by
  unfold runImpl at h
  simp only at h
  cases htr : stepsTracker maxSteps interval with
  | error err => rw [htr] at h; simp at h
  | ok tracker =>
    rw [htr] at h
    simp only at h
    cases hin : stepsInner maxSteps tracker with
    | error err => rw [hin] at h; simp at h
    | ok inner =>
      rw [hin] at h
      simp only at h
      rcases hl : Flory.runLoop e tol inner tracker.toNat ⟨st, b, 0, none⟩ with ⟨s2, r2⟩
      rw [hl] at h
      cases r2 with
      | error err => simp at h
      | ok u =>
        simp only at h
        obtain ⟨k1, k2, k3, r, k4⟩ := runFinal_ok h
        have hal2 : ∀ m, e.params.killThreshold < s2.st.Js m := by rw [← k1]; exact halive
        obtain ⟨s2', j1, j2, j3⟩ := hS.runLoop hok hthr (s' := ⟨st', b', 0, none⟩) hl
          (by rw [← k3, hrev]) hal2 ⟨hR, rfl, Or.inl ⟨rfl, rfl⟩⟩
        rcases j3.last with ⟨q, -⟩ | ⟨r0, r', q1, q2, q3, q4, q5⟩
        · rw [q] at k4; cases k4
        · have hJ : s2'.st.Js = s2.st.Js := by rw [q4, q5]; exact q3.Js
          have hP : s2'.st.phisComp = s2.st.phisComp := by rw [q4, q5]; exact q3.phisComp
          rw [runFinal_alive hthr hal2 q1] at h
          simp only [Prod.mk.injEq, Except.ok.injEq] at h
          obtain ⟨rfl, rfl, rfl⟩ := h
          have hfin := runFinal_alive (e := e') (s := s2') (by rw [hS.thr]; exact hthr)
            (by rw [hS.thr, hJ]; exact hal2) q2
          refine ⟨s2', ?_, j2, j3.st, hJ, hP⟩
          unfold runImpl
          simp only [htr, hin, j1, hfin, hJ, hP, q3.incomp, q3.omega, q3.JsDiff, q3.residue,
            j3.steps, j2]

end Sim

end Flory
