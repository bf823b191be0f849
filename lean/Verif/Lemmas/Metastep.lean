import Verif.Lemmas.Gas

/-! # Several passes -/

set_option linter.unusedSectionVars false

namespace Flory

section General

variable {K G : Type} [Field K] [LinearOrder K] [IsStrictOrderedRing K]
variable {C S M : ℕ} [NeZero M]
variable {ia : InteractionI S M K} {en : EntropyI C S M K} {es : EnsembleI C M K}
  {rng : Rng G K} {p : Params K} {tries : ℤ}

/-- Passes keep an invariant. -/
theorem iterateMore_inv (P : Trace C S M K G → Prop)
    (hP : ∀ t t', P t → iterate ia en es rng p tries t.reviveCount t.state = .ok t' → P t')
    {n : ℕ} {t t' : Trace C S M K G} (ht : P t)
    (h : iterateMore ia en es rng p tries n t = .ok t') : P t' := by
  induction n generalizing t with
  | zero => simp only [iterateMore] at h; cases h; exact ht
  | succ n ih =>
    simp only [iterateMore] at h
    obtain ⟨t1, h1, h2⟩ := bind_eq_ok.mp h
    exact ih (hP t t1 ht h1) h2

/-- A successful metastep consists of passes. -/
theorem metastep_inv (P : Trace C S M K G → Prop) {n : ℕ} {s : State C S M K G}
    {r : MetaResult C S M K G} (h : metastep ia en es rng p tries n s = .ok r)
    (h0 : ∀ t, iterate ia en es rng p tries 0 s = .ok t → P t)
    (hP : ∀ t t', P t → iterate ia en es rng p tries t.reviveCount t.state = .ok t' → P t') :
    P r.last := by
  cases n with
  | zero => simp [metastep] at h
  | succ n =>
    simp only [metastep] at h
    obtain ⟨t, h1, h2⟩ := bind_eq_ok.mp h
    obtain ⟨t', h3, h4⟩ := bind_eq_ok.mp h2
    cases h4
    exact iterateMore_inv P hP (h0 t h1) h3

/-- The last trace of a metastep is the trace of a pass from some state. -/
theorem metastep_facts {n : ℕ} {s : State C S M K G}
    {r : MetaResult C S M K G} (h : metastep ia en es rng p tries n s = .ok r) :
    ∃ count s', IterFacts ia en es rng p tries count s' r.last :=
  metastep_inv (fun t => ∃ count s', IterFacts ia en es rng p tries count s' t) h
    (fun _ ht => ⟨_, _, iterate_facts ht⟩) (fun _ _ _ ht => ⟨_, _, iterate_facts ht⟩)

theorem metastep_safe {n : ℕ} {s : State C S M K G}
    {r : MetaResult C S M K G} (h : metastep ia en es rng p tries n s = .ok r) :
    r.isLastStepSafe = decide (r.last.nValid = (countValid r.last.Js p.killThreshold : K)) := by
  cases n with
  | zero => simp [metastep] at h
  | succ n =>
    simp only [metastep] at h
    obtain ⟨t, h1, h2⟩ := bind_eq_ok.mp h
    obtain ⟨t', h3, h4⟩ := bind_eq_ok.mp h2
    cases h4
    rfl

end General

section Gas

variable {G : Type} {C S M : ℕ} [NeZero M]
variable {ia : InteractionI S M ℝ} {en : EntropyI C S M ℝ} {es : EnsembleI C M ℝ}
  {rng : Rng G ℝ} {p : Params ℝ} {tries : ℤ} {s : State C S M ℝ G}
  {sizes : Vec C ℝ} {feat : Fin C → Fin S}

theorem iterateMore_ok (hok : rng.Ok) (hen : IsIdealGas en sizes feat) (hes : es.Total)
    (hthr : 0 ≤ p.killThreshold) (hthr1 : p.killThreshold < 1)
    (hb : 0 < p.JsStepUpperBound) (n : ℕ) (t : Trace C S M ℝ G)
    (hcons : ∀ c ∈ t.cons, c.Proper) (halive : ∃ m, p.killThreshold < t.Js m) :
    ∃ t', iterateMore ia en es rng p tries n t = .ok t' ∧ (∀ c ∈ t'.cons, c.Proper) ∧
      ∃ m, p.killThreshold < t'.Js m := by
  induction n generalizing t with
  | zero => exact ⟨t, rfl, hcons, halive⟩
  | succ n ih =>
    obtain ⟨t1, h1, h2⟩ := iterate_ok (ia := ia) (tries := tries) (count := t.reviveCount)
      (s := t.state) hok hen hes hthr hthr1 hb hcons (Or.inl halive)
    obtain ⟨m, -, hm⟩ := (iterate_facts h1).exists_Js_ge_one
    obtain ⟨t', h3, h4⟩ := ih t1 h2 ⟨m, lt_of_lt_of_le hthr1 hm⟩
    exact ⟨t', by simp only [iterateMore, h1, bind_ok, h3], h4⟩

theorem metastep_ok (hok : rng.Ok) (hen : IsIdealGas en sizes feat) (hes : es.Total)
    (hthr : 0 ≤ p.killThreshold) (hthr1 : p.killThreshold < 1)
    (hb : 0 < p.JsStepUpperBound) {n : ℕ} (hn : n ≠ 0)
    (hcons : ∀ c ∈ s.cons, c.Proper)
    (halive : (∃ m, p.killThreshold < s.Js m) ∨ 0 < tries) :
    ∃ r, metastep ia en es rng p tries n s = .ok r ∧ (∀ c ∈ r.last.cons, c.Proper) ∧
      ∃ m, p.killThreshold < r.last.Js m := by
  obtain ⟨n, rfl⟩ := Nat.exists_eq_succ_of_ne_zero hn
  obtain ⟨t1, h1, h2⟩ := iterate_ok (ia := ia) (tries := tries) (count := 0)
    (s := s) hok hen hes hthr hthr1 hb hcons (by simpa using halive)
  obtain ⟨m, -, hm⟩ := (iterate_facts h1).exists_Js_ge_one
  obtain ⟨t', h3, h4⟩ := iterateMore_ok (ia := ia) (tries := tries) hok hen hes hthr hthr1 hb n t1
    h2 ⟨m, lt_of_lt_of_le hthr1 hm⟩
  exact ⟨⟨t', _⟩, by simp only [metastep, h1, bind_ok, h3, pure_eq_ok]; rfl, h4⟩

end Gas

end Flory
