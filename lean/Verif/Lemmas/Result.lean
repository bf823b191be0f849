import Verif.Lemmas.Balance
import Verif.Props.Compartments
import Verif.Props.Constraint

/-! # Lemmas about the result of `run` -/

set_option linter.unusedSectionVars false

namespace Flory

open Spec

section Plain

variable {K G : Type} [Field K] [LinearOrder K] [IsStrictOrderedRing K] {C S M : ℕ} [NeZero M]

/-- What a constraint demands, without the state of its multipliers. -/
def Cons.plain : Cons S M K → Cons S M K
  | .no _ => .no NoC.new
  | .loc A c => .loc A (LocalC.new c.Cs c.Ts c.acceptanceRatio c.elasticity)
  | .glob A c => .glob A (GlobalC.new c.Cs c.Ts c.acceptanceRatio c.elasticity)

theorem Cons.plain_prepare (pf : Mat S M K) (J mk : Vec M K) (c : Cons S M K) :
    (Cons.prepare pf J mk c).plain = c.plain := by
  cases c <;> rfl

theorem Cons.plain_reset (c : Cons S M K) : c.reset.plain = c.plain := by
  cases c <;> rfl

theorem Cons.plain_evolve {step res : K} {mk : Vec M K} {c c' : Cons S M K}
    (h : c.evolve step mk = .ok (res, c')) : c'.plain = c.plain := by
  cases c with
  | no c => rw [Cons.evolve_no h]
  | loc A c =>
    simp only [Cons.evolve] at h
    obtain ⟨⟨r, c1⟩, h1, h2⟩ := bind_eq_ok.mp h
    obtain ⟨-, rfl⟩ := Prod.mk.inj (Except.ok.inj h2)
    simp only [LocalC.evolve] at h1
    obtain ⟨r', -, h3⟩ := bind_eq_ok.mp h1
    obtain ⟨-, rfl⟩ := Prod.mk.inj (Except.ok.inj h3)
    rfl
  | glob A c =>
    simp only [Cons.evolve] at h
    obtain ⟨⟨r, c1⟩, h1, h2⟩ := bind_eq_ok.mp h
    obtain ⟨-, rfl⟩ := Prod.mk.inj (Except.ok.inj h2)
    simp only [GlobalC.evolve] at h1
    obtain ⟨r', -, h3⟩ := bind_eq_ok.mp h1
    obtain ⟨-, rfl⟩ := Prod.mk.inj (Except.ok.inj h3)
    rfl

theorem evolveCons_plain {cs cs' : List (Cons S M K)} {step acc res : K} {mk : Vec M K}
    (h : evolveCons step mk cs acc = .ok (res, cs')) :
    cs'.map Cons.plain = cs.map Cons.plain := by
  induction cs generalizing acc cs' res with
  | nil =>
    obtain ⟨-, rfl⟩ := Prod.mk.inj (Except.ok.inj h)
    rfl
  | cons k ks ih =>
    simp only [evolveCons] at h
    obtain ⟨⟨r1, k1⟩, h1, h2⟩ := bind_eq_ok.mp h
    obtain ⟨⟨r2, ks2⟩, h3, h4⟩ := bind_eq_ok.mp h2
    obtain ⟨-, rfl⟩ := Prod.mk.inj (Except.ok.inj h4)
    simp only [List.map_cons, Cons.plain_evolve h1, ih h3]

variable {ia : InteractionI S M K} {en : EntropyI C S M K} {es : EnsembleI C M K}
  {rng : Rng G K} {p : Params K} {tries : ℤ} {count : ℕ} {s : State C S M K G}
  {t : Trace C S M K G}

theorem IterFacts.cons_plain (h : IterFacts ia en es rng p tries count s t) :
    t.cons.map Cons.plain = s.cons.map Cons.plain := by
  rw [evolveCons_plain h.cons, h.consPrep, List.map_map]
  exact List.map_congr_left fun c _ => Cons.plain_prepare _ _ _ c

variable {e : RunEnv C S M K G}

theorem Spec.Passes.cons_plain {b : ℤ} {n : ℕ} (h : Passes e b n count s t) :
    t.cons.map Cons.plain = s.cons.map Cons.plain := by
  induction h with
  | one h => exact (iterate_facts h).cons_plain
  | more _ h2 ih => exact (iterate_facts h2).cons_plain.trans ih

theorem Spec.Chain.cons_plain {b b' : ℤ} {inner : ℕ} {ts : List (Trace C S M K G)}
    {s s' : State C S M K G} (h : Chain e inner ts s b s' b') :
    s'.cons.map Cons.plain = s.cons.map Cons.plain := by
  induction h with
  | nil => rfl
  | cons h1 _ ih => exact ih.trans h1.cons_plain

/-- The last of a group of passes. -/
theorem Spec.Passes.lastPass {b : ℤ} {n : ℕ} (h : Passes e b n count s t) :
    ∃ count' s', iterate e.ia e.en e.es e.rng e.params b count' s' = .ok t ∧
      s'.cons.map Cons.plain = s.cons.map Cons.plain ∧
      ∀ P : Cons S M K → Prop, (∀ c pf J mk, P c → P (Cons.prepare pf J mk c)) →
        (∀ c step mk res c', P c → c.evolve step mk = .ok (res, c') → P c') →
        (∀ c ∈ s.cons, P c) → ∀ c ∈ s'.cons, P c := by
  cases h with
  | one h => exact ⟨_, _, h, rfl, fun P _ _ h => h⟩
  | more h1 h2 => exact ⟨_, _, h2, h1.cons_plain, fun P hp he hs => (h1.cons_inv P hp he hs).2⟩

/-- What a successful run returns: the reported errors are those of its last pass, and every returned
compartment is a living compartment of that pass. -/
structure Source (e : RunEnv C S M K G) (st : State C S M K G) (ph : Phases M C K)
    (d : Diagnostics K) (b : ℤ) (count : ℕ) (s : State C S M K G) (t : Trace C S M K G) : Prop where
  pass : iterate e.ia e.en e.es e.rng e.params b count s = .ok t
  plain : s.cons.map Cons.plain = st.cons.map Cons.plain
  inv : ∀ P : Cons S M K → Prop, (∀ c pf J mk, P c → P (Cons.prepare pf J mk c)) →
        (∀ c step mk res c', P c → c.evolve step mk = .ok (res, c') → P c') →
        (∀ c ∈ st.cons, P c) → ∀ c ∈ s.cons, P c
  incomp : d.maxAbsIncomp = t.maxAbsIncomp
  omega : d.maxAbsOmegaDiff = t.maxAbsOmegaDiff
  js : d.maxAbsJsDiff = t.maxAbsJsDiff
  residue : d.maxConstraintResidue = t.maxConstraintResidue
  volumes : ∀ q, e.params.killThreshold < ph.volumes q
  rows : ∀ q, ∃ m, t.masks m = 1 ∧ e.params.killThreshold < t.Js m ∧
    ∀ i, ph.fractions q i = t.phisComp i m
  conserve : ∀ w : (Fin C → K) → K, ∑ q, ph.volumes q * w (ph.fractions q) =
    ∑ m with e.params.killThreshold < t.Js m, t.Js m * w (fun i => t.phisComp i m)

theorem RunFacts.source {tol : K} {inner k : ℕ} {st : State C S M K G} {b : ℤ}
    {s' : RunState C S M K G} {ph : Phases M C K} {d : Diagnostics K} {ts : List (Trace C S M K G)}
    {c : CopyState C M K G} (hf : RunFacts e tol inner k st b s' ph d ts t c) (hok : e.rng.Ok)
    (hthr : 0 ≤ e.params.killThreshold) {b₀ : ℤ}
    (h3 : iterate e.ia e.en e.es e.rng e.params b₀ count s = .ok t)
    (h4 : s.cons.map Cons.plain = st.cons.map Cons.plain)
    (h5 : ∀ P : Cons S M K → Prop, (∀ c pf J mk, P c → P (Cons.prepare pf J mk c)) →
        (∀ c step mk res c', P c → c.evolve step mk = .ok (res, c') → P c') →
        (∀ c ∈ st.cons, P c) → ∀ c ∈ s.cons, P c) : Source e st ph d b₀ count s t := by
  obtain ⟨c1, c2, c3, -, -, c6, -⟩ := C32_copy_revival_conserves hok _ _ hthr _ hf.copy
  have hF := iterate_facts h3
  have hm : ∀ m, e.params.killThreshold < t.Js m → t.masks m = 1 := fun m hm =>
    (hF.mask_cases m).resolve_right fun h0 => absurd (hF.Js_dead h0 ▸ hm) (not_lt.mpr hthr)
  refine ⟨h3, h4, h5, by rw [hf.diag], by rw [hf.diag],
    by rw [hf.diag], by rw [hf.diag], fun q => by rw [hf.volumes]; exact c3 q, fun q => ?_, ?_⟩
  · rw [hf.fractions]
    by_cases hq : e.params.killThreshold < t.Js q
    · exact ⟨q, hm q hq, hq, fun i => (c1 q hq).1 i⟩
    · obtain ⟨k, hk, hk2⟩ := c2 q (not_lt.mp hq)
      exact ⟨k, hm k hk, hk, fun i => hk2 i⟩
  · rw [hf.volumes, hf.fractions]
    exact c6

theorem run_source (hok : e.rng.Ok) (hthr : 0 ≤ e.params.killThreshold) {maxSteps : ℚ} {tol : K}
    {interval : ℤ} {st : State C S M K G} {b : ℤ} {s' : RunState C S M K G} {ph : Phases M C K}
    {d : Diagnostics K} (h : runImpl e maxSteps tol interval st b = (s', .ok (ph, d))) :
    ∃ b₀ count s t, Source e st ph d b₀ count s t := by
  obtain ⟨tracker, inner, ts, t, c, -, -, hf⟩ := run_facts hthr h
  obtain ⟨s₀, b₀, h1, h2, -, -⟩ := hf.chain.last
  obtain ⟨count, s, h3, h4, h5⟩ := h2.lastPass
  exact ⟨b₀, count, s, t, hf.source hok hthr h3 (h4.trans h1.cons_plain)
    fun P hp he hs => h5 P hp he (h1.cons_inv P hp he hs)⟩

end Plain

section Ok

variable {G : Type} {C S M : ℕ} [NeZero M] {e : RunEnv C S M ℝ G} {sizes : Vec C ℝ}
  {feat : Fin C → Fin S}

theorem runLoop_ok (hok : e.rng.Ok) (hen : IsIdealGas e.en sizes feat) (hes : e.es.Total)
    (hthr : 0 ≤ e.params.killThreshold) (hthr1 : e.params.killThreshold < 1)
    (hb : 0 < e.params.JsStepUpperBound) (hstd : e.criterion = "standard") {tol : ℝ} {inner : ℕ}
    (hinner : inner ≠ 0) (n : ℕ) (s : RunState C S M ℝ G) (hcons : ∀ c ∈ s.st.cons, c.Proper)
    (halive : (∃ m, e.params.killThreshold < s.st.Js m) ∨ 0 < s.reviveLeft) :
    (runLoop e tol inner n s).2 = .ok () ∧
    (∀ c ∈ (runLoop e tol inner n s).1.st.cons, c.Proper) ∧
    (n ≠ 0 → (∃ r, (runLoop e tol inner n s).1.last = some r) ∧
      ∃ m, 1 ≤ (runLoop e tol inner n s).1.st.Js m) := by
  induction n generalizing s with
  | zero => exact ⟨rfl, hcons, by simp⟩
  | succ n ih =>
    obtain ⟨r, hr, h1, m, hm⟩ := metastep_ok (ia := e.ia) (tries := s.reviveLeft) hok hen hes hthr
      hthr1 hb hinner hcons halive
    obtain ⟨count', s', hF⟩ := metastep_facts hr
    obtain ⟨k, -, hk⟩ := hF.exists_Js_ge_one
    by_cases hv : converged tol r = true
    · have he : runLoop e tol inner (n + 1) s = (⟨r.last.state, s.reviveLeft - r.last.reviveCount,
          s.steps + inner, some r⟩, .ok ()) := by
        simp only [runLoop, hr, hstd, hv, if_true]
      rw [he]
      exact ⟨rfl, h1, fun _ => ⟨⟨r, rfl⟩, k, hk⟩⟩
    · have he : runLoop e tol inner (n + 1) s = runLoop e tol inner n
          ⟨r.last.state, s.reviveLeft - r.last.reviveCount, s.steps + inner, some r⟩ := by
        simp only [runLoop, hr, hstd, hv, if_true, Bool.false_eq_true, if_false]
      rw [he]
      obtain ⟨i1, i2, i3⟩ := ih ⟨r.last.state, s.reviveLeft - r.last.reviveCount, s.steps + inner,
        some r⟩ h1 (Or.inl ⟨m, hm⟩)
      refine ⟨i1, i2, fun _ => ?_⟩
      by_cases hn : n = 0
      · subst hn
        exact ⟨⟨r, rfl⟩, k, hk⟩
      · exact i3 hn

/-- A run with valid arguments returns a result. -/
theorem run_ok (hok : e.rng.Ok) (hen : IsIdealGas e.en sizes feat) (hes : e.es.Total)
    (hthr : 0 ≤ e.params.killThreshold) (hthr1 : e.params.killThreshold < 1)
    (hthr2 : 2 * e.params.killThreshold * ((M : ℝ) - 1) < 1)
    (hb : 0 < e.params.JsStepUpperBound) (hstd : e.criterion = "standard") {tol : ℝ}
    {maxSteps : ℚ} {interval : ℤ} (h1 : 0 < maxSteps) (h2 : 0 < interval) (st : State C S M ℝ G)
    (b : ℤ) (hcons : ∀ c ∈ st.cons, c.Proper)
    (halive : (∃ m, e.params.killThreshold < st.Js m) ∨ 0 < b) :
    ∃ s' ph d, runImpl e maxSteps tol interval st b = (s', .ok (ph, d)) := by
  obtain ⟨k, hk, hk1, hk2⟩ := stepsTracker_pos h1 h2
  obtain ⟨inner, hi1, hi2, -⟩ := stepsInner_spec h1 h2 hk hk2
  obtain ⟨l1, -, l2⟩ := runLoop_ok hok hen hes hthr hthr1 hb hstd (tol := tol) hi2.ne' k
    ⟨st, b, 0, none⟩ hcons halive
  obtain ⟨⟨r, hr⟩, m, hm⟩ := l2 hk.ne'
  unfold runImpl
  simp only [hk1, hi1, Int.toNat_natCast]
  rcases hl : runLoop e tol inner k ⟨st, b, 0, none⟩ with ⟨s2, r2⟩
  rw [hl] at l1 hr hm
  simp only at l1 hr hm
  subst l1
  simp only
  have hmass : 2 * e.params.killThreshold * ((M : ℝ) - 1) <
      ∑ m with e.params.killThreshold < s2.st.Js m, s2.st.Js m := by
    refine hthr2.trans_le (hm.trans ?_)
    refine Finset.single_le_sum (f := fun m => s2.st.Js m) (fun i hi => ?_) ?_
    · exact hthr.trans (by simpa using hi : e.params.killThreshold < s2.st.Js i).le
    · simpa using lt_of_lt_of_le hthr1 hm
  obtain ⟨c, hc⟩ := C33_copy_revival_succeeds hok s2.st.Js s2.st.phisComp hthr s2.st.g hmass
  unfold runFinal
  simp only [hc, hr]
  exact ⟨_, _, _, rfl⟩

end Ok

end Flory
