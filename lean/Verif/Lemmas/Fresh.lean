import Verif.Spec.Finder
import Verif.Lemmas.Result

/-! # What the outcome of a run depends on -/

set_option linter.unusedSectionVars false

namespace Flory

open Spec

/-! ### Loops with two different starting states -/

/-- Two executions of a loop with bodies that keep a relation and raise together. -/
theorem forRangeM_rel {σ : Type} {n : ℕ} {s s' : σ} {body : Fin n → σ → Py σ} (R : ℕ → σ → σ → Prop)
    (h0 : R 0 s s')
    (hs : ∀ (i : Fin n) s s', R i s s' → (∃ e, body i s = .error e ∧ body i s' = .error e) ∨
      ∃ t t', body i s = .ok t ∧ body i s' = .ok t' ∧ R (i + 1) t t') :
    (∃ e, forRangeM n s body = .error e ∧ forRangeM n s' body = .error e) ∨
      ∃ t t', forRangeM n s body = .ok t ∧ forRangeM n s' body = .ok t' ∧ R n t t' := by
  induction n with
  | zero => exact Or.inr ⟨s, s', by rw [forRangeM_zero], by rw [forRangeM_zero], h0⟩
  | succ n ih =>
    rw [forRangeM_succ, forRangeM_succ]
    rcases ih (body := fun i s => body i.castSucc s) (fun i s s' h => hs i.castSucc s s' h) with
      ⟨e, h1, h2⟩ | ⟨t, t', h1, h2, h3⟩
    · left; exact ⟨e, by rw [h1]; rfl, by rw [h2]; rfl⟩
    · rw [h1, h2]
      simp only [bind_ok]
      exact hs (Fin.last n) t t' h3

/-- The methods of an entropy overwrite their output arguments completely. -/
structure EntropyI.Fresh {C S M : ℕ} {K : Type} (en : EntropyI C S M K) : Prop where
  partition : ∀ ph ph' om J, en.partition ph om J = en.partition ph' om J
  compToFeat : ∀ pf pf' ph, en.compToFeat pf ph = en.compToFeat pf' ph

theorem pyDiv_cases (a b : ℝ) : (∃ e, pyDiv a b = .error e) ∨ ∃ x, pyDiv a b = .ok x := by
  cases pyDiv a b with
  | error e => exact Or.inl ⟨e, rfl⟩
  | ok x => exact Or.inr ⟨x, rfl⟩

theorem IdealC.fresh {C M : ℕ} (e : IdealC C) : (e.toI M).Fresh where
  partition := by
    intro ph ph' om J
    show e.partition ph om J = e.partition ph' om J
    unfold IdealC.partition
    rcases forRangeM_rel (n := C) (s := (ph, fun _ => 0)) (s' := (ph', fun _ => 0))
      (body := fun i (s : Mat C M ℝ × Vec C ℝ) => do
        let row : Vec M ℝ := fun m => Real.exp (-om i m * e.sizes i)
        let phis := setAt s.1 i row
        let q ← pyDiv (∑ m, row m * J m) (∑ m, J m)
        return (phis, setAt s.2 i q))
      (fun k s s' => s.2 = s'.2 ∧ ∀ j : Fin C, (j : ℕ) < k → s.1 j = s'.1 j) (by simp) (by
        rintro i ⟨a, q⟩ ⟨a', q'⟩ ⟨h1, h2⟩
        simp only at h1 h2
        subst h1
        dsimp only
        rcases pyDiv_cases (∑ m, Real.exp (-om i m * e.sizes i) * J m) (∑ m, J m) with
          ⟨er, h⟩ | ⟨x, h⟩
        · left; exact ⟨er, by rw [h]; rfl, by rw [h]; rfl⟩
        · right
          rw [h]
          refine ⟨_, _, rfl, rfl, rfl, fun j hj => ?_⟩
          by_cases hji : j = i
          · subst hji; simp
          · show setAt a i _ j = setAt a' i _ j
            rw [setAt_ne _ _ hji, setAt_ne _ _ hji]
            exact h2 j (by have : (j : ℕ) ≠ i := fun e => hji (Fin.ext e); omega)) with
      ⟨er, h1, h2⟩ | ⟨t, t', h1, h2, h3, h4⟩
    · exact h1.trans h2.symm
    · refine h1.trans (Eq.trans ?_ h2.symm)
      congr 1
      exact Prod.ext (funext fun j => h4 j j.2) h3
  compToFeat := by
    intro pf pf' ph
    show e.compToFeat pf ph = e.compToFeat pf' ph
    unfold IdealC.compToFeat
    rw [forRange_setAt pf (fun i _ => ph i), forRange_setAt pf' (fun i _ => ph i)]

theorem PolyC.fresh {C S M : ℕ} (e : PolyC C S) (hC : C = ∑ r, e.perFeat r) : (e.toI M).Fresh where
  partition := by
    intro ph ph' om J
    show e.partition ph om J = e.partition ph' om J
    unfold PolyC.partition
    simp only
    have key : ∀ (r : Fin S) (j : Fin (e.perFeat r)) (s s' : Mat C M ℝ × Vec C ℝ × ℕ),
        (s.2 = s'.2 ∧ s.2.2 = offset e.perFeat r + j ∧
          ∀ i : Fin C, (i : ℕ) < offset e.perFeat r + j → s.1 i = s'.1 i) →
        (∃ er, (do
          let (phis, Qs, itr) := s
          let size ← readAt e.sizes itr
          let row : Vec M ℝ := fun m => Real.exp (-om r m * size)
          let phis ← writeAt phis itr row
          let q ← pyDiv (∑ m, row m * J m) (∑ m, J m)
          let Qs ← writeAt Qs itr q
          return (phis, Qs, itr + 1) : Py (Mat C M ℝ × Vec C ℝ × ℕ)) = .error er ∧ (do
          let (phis, Qs, itr) := s'
          let size ← readAt e.sizes itr
          let row : Vec M ℝ := fun m => Real.exp (-om r m * size)
          let phis ← writeAt phis itr row
          let q ← pyDiv (∑ m, row m * J m) (∑ m, J m)
          let Qs ← writeAt Qs itr q
          return (phis, Qs, itr + 1) : Py (Mat C M ℝ × Vec C ℝ × ℕ)) = .error er) ∨
        ∃ t t', (do
          let (phis, Qs, itr) := s
          let size ← readAt e.sizes itr
          let row : Vec M ℝ := fun m => Real.exp (-om r m * size)
          let phis ← writeAt phis itr row
          let q ← pyDiv (∑ m, row m * J m) (∑ m, J m)
          let Qs ← writeAt Qs itr q
          return (phis, Qs, itr + 1) : Py (Mat C M ℝ × Vec C ℝ × ℕ)) = .ok t ∧ (do
          let (phis, Qs, itr) := s'
          let size ← readAt e.sizes itr
          let row : Vec M ℝ := fun m => Real.exp (-om r m * size)
          let phis ← writeAt phis itr row
          let q ← pyDiv (∑ m, row m * J m) (∑ m, J m)
          let Qs ← writeAt Qs itr q
          return (phis, Qs, itr + 1) : Py (Mat C M ℝ × Vec C ℝ × ℕ)) = .ok t' ∧
          (t.2 = t'.2 ∧ t.2.2 = offset e.perFeat r + (j + 1) ∧
            ∀ i : Fin C, (i : ℕ) < offset e.perFeat r + (j + 1) → t.1 i = t'.1 i) := by
      rintro r j ⟨a, q, itr⟩ ⟨a', q', itr'⟩ ⟨h1, h2, h3⟩
      simp only [Prod.mk.injEq] at h1 h2 h3
      obtain ⟨rfl, rfl⟩ := h1
      have hlt : itr < C := by
        have := offset_add_le e.perFeat r
        have := j.2
        omega
      simp only [readAt_ok _ hlt, writeAt_ok _ _ hlt, bind_ok, pure_eq_ok]
      rcases pyDiv_cases (∑ m, Real.exp (-om r m * e.sizes ⟨itr, hlt⟩) * J m) (∑ m, J m) with
        ⟨er, h⟩ | ⟨x, h⟩
      · left; exact ⟨er, by rw [h]; rfl, by rw [h]; rfl⟩
      · right
        rw [h]
        refine ⟨_, _, rfl, rfl, rfl, by simp only; omega, fun i hi => ?_⟩
        by_cases hii : i = ⟨itr, hlt⟩
        · subst hii; simp
        · show setAt a _ _ i = setAt a' _ _ i
          rw [setAt_ne _ _ hii, setAt_ne _ _ hii]
          exact h3 i (by have : (i : ℕ) ≠ itr := fun e => hii (Fin.ext e); omega)
    have outer := forRangeM_rel (n := S) (s := (ph, ((fun _ => 0 : Vec C ℝ), 0)))
      (s' := (ph', ((fun _ => 0 : Vec C ℝ), 0)))
      (body := fun r s => forRangeM (e.perFeat r) s fun _ s => do
        let (phis, Qs, itr) := s
        let size ← readAt e.sizes itr
        let row : Vec M ℝ := fun m => Real.exp (-om r m * size)
        let phis ← writeAt phis itr row
        let q ← pyDiv (∑ m, row m * J m) (∑ m, J m)
        let Qs ← writeAt Qs itr q
        return (phis, Qs, itr + 1))
      (fun k s s' => s.2 = s'.2 ∧ s.2.2 = offset e.perFeat k ∧
        ∀ i : Fin C, (i : ℕ) < offset e.perFeat k → s.1 i = s'.1 i) (by simp [offset_zero])
      (fun r s s' h => by
        rw [offset_succ]
        exact forRangeM_rel (fun j s s' => s.2 = s'.2 ∧ s.2.2 = offset e.perFeat r + j ∧
          ∀ i : Fin C, (i : ℕ) < offset e.perFeat r + j → s.1 i = s'.1 i)
          (by simpa using h) (fun j s s' h => key r j s s' h))
    rcases outer with ⟨er, h1, h2⟩ | ⟨t, t', h1, h2, h3, -, h4⟩
    · refine Eq.trans (b := Except.error er) ?_ ?_
      · exact (congrArg (· >>= fun s => (Except.ok (s.1, s.2.1) : Py _)) h1)
      · exact (congrArg (· >>= fun s => (Except.ok (s.1, s.2.1) : Py _)) h2).symm
    · refine Eq.trans (b := Except.ok (t.1, t.2.1)) ?_ (Eq.trans (b := Except.ok (t'.1, t'.2.1)) ?_ ?_)
      · exact (congrArg (· >>= fun s => (Except.ok (s.1, s.2.1) : Py _)) h1)
      · congr 1
        refine Prod.ext (funext fun j => h4 j ?_) (by rw [h3])
        rw [offset_all, ← hC]; exact j.2
      · exact (congrArg (· >>= fun s => (Except.ok (s.1, s.2.1) : Py _)) h2).symm
  compToFeat := by
    intro pf pf' ph
    show e.compToFeat pf ph = e.compToFeat pf' ph
    unfold PolyC.compToFeat
    have rd : ∀ i, (∃ er, readAt ph i = .error er) ∨ ∃ x, readAt ph i = .ok x := by
      intro i
      cases readAt ph i with
      | error e => exact Or.inl ⟨e, rfl⟩
      | ok x => exact Or.inr ⟨x, rfl⟩
    have outer := forRangeM_rel (n := S) (s := (pf, 0)) (s' := (pf', 0))
      (body := fun r s => do
        let (feat, itr) := s
        let row ← readAt ph itr
        let feat := setAt feat r row
        forRangeM (e.perFeat r - 1) (feat, itr + 1) fun _ s => do
          let (feat, itr) := s
          let row ← readAt ph itr
          return (setAt feat r fun m => feat r m + row m, itr + 1))
      (fun k s s' => s.2 = s'.2 ∧ ∀ r : Fin S, (r : ℕ) < k → s.1 r = s'.1 r) (by simp) (by
        rintro r ⟨a, itr⟩ ⟨a', itr'⟩ ⟨h1, h2⟩
        simp only at h1 h2
        subst h1
        dsimp only
        rcases rd itr with ⟨er, h⟩ | ⟨x, h⟩
        · left; exact ⟨er, by rw [h]; rfl, by rw [h]; rfl⟩
        · rw [h]
          simp only [bind_ok]
          refine forRangeM_rel (σ := Mat S M ℝ × ℕ) (fun _ s s' => s.2 = s'.2 ∧
            ∀ q : Fin S, (q : ℕ) < r + 1 → s.1 q = s'.1 q) ⟨rfl, fun q hq => ?_⟩ ?_
          · by_cases hqr : q = r
            · subst hqr; simp
            · show setAt a _ _ q = setAt a' _ _ q
              rw [setAt_ne _ _ hqr, setAt_ne _ _ hqr]
              exact h2 q (by have : (q : ℕ) ≠ r := fun e => hqr (Fin.ext e); omega)
          · rintro j ⟨b, it⟩ ⟨b', it'⟩ ⟨g1, g2⟩
            simp only at g1 g2
            subst g1
            dsimp only
            rcases rd it with ⟨er, h⟩ | ⟨y, h⟩
            · left; exact ⟨er, by rw [h]; rfl, by rw [h]; rfl⟩
            · right
              rw [h]
              refine ⟨_, _, rfl, rfl, rfl, fun q hq => ?_⟩
              by_cases hqr : q = r
              · subst hqr
                show setAt b q _ q = setAt b' q _ q
                rw [setAt_same, setAt_same, g2 q (by omega)]
              · show setAt b _ _ q = setAt b' _ _ q
                rw [setAt_ne _ _ hqr, setAt_ne _ _ hqr]
                exact g2 q hq)
    rcases outer with ⟨er, h1, h2⟩ | ⟨t, t', h1, h2, h3, h4⟩
    · refine Eq.trans (b := Except.error er) ?_ ?_
      · exact (congrArg (· >>= fun s => (Except.ok s.1 : Py _)) h1)
      · exact (congrArg (· >>= fun s => (Except.ok s.1 : Py _)) h2).symm
    · refine Eq.trans (b := Except.ok t.1) ?_ (Eq.trans (b := Except.ok t'.1) ?_ ?_)
      · exact (congrArg (· >>= fun s => (Except.ok s.1 : Py _)) h1)
      · congr 1
        exact funext fun j => h4 j j.2
      · exact (congrArg (· >>= fun s => (Except.ok s.1 : Py _)) h2).symm

theorem EntropyInst.fresh {C S : ℕ} (en : EntropyInst C S) (h : Sized en) (M : ℕ) :
    (en.toI M).Fresh := by
  cases en with
  | ideal e => exact e.fresh
  | poly e => exact e.fresh h

/-! ### One pass and a whole run -/

section Run

variable {G : Type} {C S M : ℕ} [NeZero M]

/-- Two states that differ only in data that is overwritten before it is read. -/
structure SameStart (s s' : State C S M ℝ G) : Prop where
  omegas : s.omegas = s'.omegas
  Js : s.Js = s'.Js
  g : s.g = s'.g
  cons : ∀ pf J mk, s.cons.map (Cons.prepare pf J mk) = s'.cons.map (Cons.prepare pf J mk)

theorem iterate_sameStart {ia : InteractionI S M ℝ} {en : EntropyI C S M ℝ} {es : EnsembleI C M ℝ}
    {rng : Rng G ℝ} {p : Params ℝ} {tries : ℤ} {count : ℕ} {s s' : State C S M ℝ G}
    (hen : en.Fresh) (h : SameStart s s') :
    iterate ia en es rng p tries count s = iterate ia en es rng p tries count s' := by
  unfold iterate
  simp only [h.omegas, h.Js, h.g, h.cons, hen.partition s.phisComp s'.phisComp,
    hen.compToFeat s.phisFeat s'.phisFeat]

theorem metastep_sameStart {ia : InteractionI S M ℝ} {en : EntropyI C S M ℝ} {es : EnsembleI C M ℝ}
    {rng : Rng G ℝ} {p : Params ℝ} {tries : ℤ} {n : ℕ} {s s' : State C S M ℝ G}
    (hen : en.Fresh) (h : SameStart s s') :
    metastep ia en es rng p tries n s = metastep ia en es rng p tries n s' := by
  cases n with
  | zero => rfl
  | succ n => simp only [metastep, iterate_sameStart hen h]

theorem runLoop_sameStart {e : RunEnv C S M ℝ G} {tol : ℝ} {inner : ℕ} {n : ℕ}
    {s s' : State C S M ℝ G} {b : ℤ} (hen : e.en.Fresh) (h : SameStart s s') :
    (runLoop e tol inner (n + 1) ⟨s, b, 0, none⟩).2 = (runLoop e tol inner (n + 1) ⟨s', b, 0, none⟩).2 ∧
    ((runLoop e tol inner (n + 1) ⟨s, b, 0, none⟩).2 = .ok () →
      runLoop e tol inner (n + 1) ⟨s, b, 0, none⟩ = runLoop e tol inner (n + 1) ⟨s', b, 0, none⟩) := by
  have hm := metastep_sameStart (ia := e.ia) (es := e.es) (rng := e.rng) (p := e.params) (tries := b)
    (n := inner) hen h
  simp only [runLoop, hm]
  cases metastep e.ia e.en e.es e.rng e.params b inner s' with
  | error err => exact ⟨rfl, fun h => by simp at h⟩
  | ok r => exact ⟨rfl, fun _ => rfl⟩

/-- The result of a run depends on the start only through fields, volumes, generator and what
`prepare` does to the constraints.  A successful run also leaves the same state behind. -/
theorem run_sameStart {e : RunEnv C S M ℝ G} {maxSteps : ℚ} {tol : ℝ} {interval : ℤ}
    {s s' : State C S M ℝ G} {b : ℤ} (hen : e.en.Fresh) (h : SameStart s s') (h1 : 0 < maxSteps)
    (h2 : 0 < interval) :
    (runImpl e maxSteps tol interval s b).2 = (runImpl e maxSteps tol interval s' b).2 ∧
    (∀ x, (runImpl e maxSteps tol interval s b).2 = .ok x →
      runImpl e maxSteps tol interval s b = runImpl e maxSteps tol interval s' b) := by
  obtain ⟨k, hk, hk1, hk2⟩ := stepsTracker_pos h1 h2
  obtain ⟨inner, hi1, hi2, -⟩ := stepsInner_spec h1 h2 hk hk2
  obtain ⟨k, rfl⟩ := Nat.exists_eq_succ_of_ne_zero hk.ne'
  unfold runImpl
  simp only [hk1, hi1, Int.toNat_natCast]
  obtain ⟨l1, l2⟩ := runLoop_sameStart (e := e) (tol := tol) (inner := inner) (n := k) (b := b) hen h
  rcases hl : runLoop e tol inner (k + 1) ⟨s, b, 0, none⟩ with ⟨s2, r2⟩
  rcases hl' : runLoop e tol inner (k + 1) ⟨s', b, 0, none⟩ with ⟨s3, r3⟩
  rw [hl, hl'] at l1
  rw [hl, hl'] at l2
  simp only at l1
  subst l1
  simp only [Nat.succ_eq_add_one, hl, hl'] at *
  cases r2 with
  | error err => exact ⟨rfl, fun x hx => by simp at hx⟩
  | ok u =>
    have : s2 = s3 := by
      have := l2 rfl
      exact congrArg Prod.fst this
    subst this
    exact ⟨rfl, fun _ _ => rfl⟩

end Run

/-! ### Constraints -/

section ConsParams

variable {S M : ℕ}

theorem consParams_prepare (c : Cons S M ℝ) (pf : Mat S M ℝ) (J mk : Vec M ℝ) :
    consParams (c.prepare pf J mk) = consParams c := by cases c <;> rfl

theorem consParams_reset (c : Cons S M ℝ) : consParams c.reset = consParams c := by cases c <;> rfl

theorem consParams_start (c : ConsNew S) : consParams (c.start M) = c := by cases c <;> rfl

theorem consParams_evolve [NeZero M] {c c' : Cons S M ℝ} {step r : ℝ} {mk : Vec M ℝ}
    (h : c.evolve step mk = .ok (r, c')) : consParams c' = consParams c := by
  cases c with
  | no c =>
    simp only [Cons.evolve, NoC.evolve, bind_ok, pure_eq_ok, Except.ok.injEq, Prod.mk.injEq] at h
    rw [← h.2]
  | loc A c =>
    obtain ⟨⟨r1, c1⟩, h1, h2⟩ := bind_eq_ok.mp h
    obtain ⟨r2, -, h3⟩ := bind_eq_ok.mp h1
    cases h3
    cases h2
    rfl
  | glob A c =>
    obtain ⟨⟨r1, c1⟩, h1, h2⟩ := bind_eq_ok.mp h
    obtain ⟨r2, -, h3⟩ := bind_eq_ok.mp h1
    cases h3
    cases h2
    rfl

theorem consParams_evolveCons [NeZero M] {step : ℝ} {mk : Vec M ℝ} {cs cs' : List (Cons S M ℝ)}
    {acc r : ℝ} (h : evolveCons step mk cs acc = .ok (r, cs')) :
    cs'.map consParams = cs.map consParams := by
  induction cs generalizing acc cs' r with
  | nil => simp only [evolveCons, Except.ok.injEq, Prod.mk.injEq] at h; rw [← h.2]
  | cons c cs ih =>
    simp only [evolveCons] at h
    obtain ⟨⟨r1, c1⟩, h1, h2⟩ := bind_eq_ok.mp h
    obtain ⟨⟨r2, cs2⟩, h3, h4⟩ := bind_eq_ok.mp h2
    cases h4
    simp only [List.map_cons, consParams_evolve h1, ih h3]

/-- After `initialize` only the parameters of a constraint matter. -/
theorem prepare_reset {c c' : Cons S M ℝ} (h : consParams c = consParams c') (pf : Mat S M ℝ)
    (J mk : Vec M ℝ) : c.reset.prepare pf J mk = c'.reset.prepare pf J mk := by
  cases c with
  | no c => cases c' <;> first | rfl | simp [consParams] at h
  | loc A c =>
    cases c' with
    | no c' => simp [consParams] at h
    | glob A' c' => simp [consParams] at h
    | loc A' c' =>
      obtain ⟨Cs, Ts, a, e, m, r, p, v⟩ := c
      obtain ⟨Cs', Ts', a', e', m', r', p', v'⟩ := c'
      simp only [consParams, ConsNew.loc.injEq] at h
      obtain ⟨rfl, h1, h2, rfl, rfl⟩ := h
      obtain rfl := eq_of_heq h1
      obtain rfl := eq_of_heq h2
      rfl
  | glob A c =>
    cases c' with
    | no c' => simp [consParams] at h
    | loc A' c' => simp [consParams] at h
    | glob A' c' =>
      obtain ⟨Cs, Ts, a, e, m, r, p, v⟩ := c
      obtain ⟨Cs', Ts', a', e', m', r', p', v'⟩ := c'
      simp only [consParams, ConsNew.glob.injEq] at h
      obtain ⟨rfl, h1, h2, rfl, rfl⟩ := h
      obtain rfl := eq_of_heq h1
      obtain rfl := eq_of_heq h2
      rfl

theorem proper_iff (c : Cons S M ℝ) : c.Proper ↔ NonEmpty (consParams c) := by cases c <;> rfl

end ConsParams

section RunCons

variable {G : Type} {C S M : ℕ} [NeZero M]

theorem iterate_consParams {ia : InteractionI S M ℝ} {en : EntropyI C S M ℝ} {es : EnsembleI C M ℝ}
    {rng : Rng G ℝ} {p : Params ℝ} {tries : ℤ} {count : ℕ} {s : State C S M ℝ G}
    {t : Trace C S M ℝ G} (h : iterate ia en es rng p tries count s = .ok t) :
    t.cons.map consParams = s.cons.map consParams := by
  have hf := iterate_facts h
  rw [consParams_evolveCons hf.cons, hf.consPrep, List.map_map]
  refine List.map_congr_left fun c _ => consParams_prepare c _ _ _

theorem metastep_consParams {ia : InteractionI S M ℝ} {en : EntropyI C S M ℝ} {es : EnsembleI C M ℝ}
    {rng : Rng G ℝ} {p : Params ℝ} {tries : ℤ} {n : ℕ} {s : State C S M ℝ G}
    {r : MetaResult C S M ℝ G} (h : metastep ia en es rng p tries n s = .ok r) :
    r.last.cons.map consParams = s.cons.map consParams :=
  metastep_inv (fun t => t.cons.map consParams = s.cons.map consParams) h
    (fun _ ht => iterate_consParams ht)
    (fun _ _ hp ht => (iterate_consParams ht).trans hp)

/-- Compiled code that raises leaves the parameters of the constraints alone. -/
def RunEnv.CrashKeeps (e : RunEnv C S M ℝ G) : Prop :=
  ∀ st, (e.crash st).cons.map consParams = st.cons.map consParams

theorem runLoop_consParams {e : RunEnv C S M ℝ G} (hc : e.CrashKeeps) {tol : ℝ} {inner n : ℕ}
    (s : RunState C S M ℝ G) :
    (runLoop e tol inner n s).1.st.cons.map consParams = s.st.cons.map consParams := by
  induction n generalizing s with
  | zero => rfl
  | succ n ih =>
    cases hm : metastep e.ia e.en e.es e.rng e.params s.reviveLeft inner s.st with
    | error err => simp only [runLoop, hm]; exact hc _
    | ok r =>
      have := metastep_consParams hm
      simp only [runLoop, hm]
      split
      · split
        · exact this
        · rw [ih]; exact this
      · exact this

theorem run_consParams {e : RunEnv C S M ℝ G} (hc : e.CrashKeeps) (maxSteps : ℚ) (tol : ℝ)
    (interval : ℤ) (st : State C S M ℝ G) (b : ℤ) :
    (runImpl e maxSteps tol interval st b).1.st.cons.map consParams = st.cons.map consParams := by
  unfold runImpl
  simp only
  cases stepsTracker maxSteps interval with
  | error err => rfl
  | ok tracker =>
    simp only
    cases stepsInner maxSteps tracker with
    | error err => rfl
    | ok inner =>
      simp only
      have := runLoop_consParams hc (tol := tol) (inner := inner) (n := tracker.toNat) ⟨st, b, 0, none⟩
      rcases hl : runLoop e tol inner tracker.toNat ⟨st, b, 0, none⟩ with ⟨s2, r2⟩
      rw [hl] at this
      cases r2 with
      | error err => exact this
      | ok u =>
        simp only
        unfold runFinal
        cases reviveByCopy e.rng s2.st.Js s2.st.phisComp e.params.killThreshold s2.st.g with
        | error err => exact this
        | ok c =>
          simp only
          cases s2.last with
          | none => exact this
          | some r => exact this

end RunCons

end Flory
