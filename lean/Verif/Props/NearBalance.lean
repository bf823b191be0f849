import Verif.Lemmas.NearBalance
import Verif.Lemmas.Binary
import Verif.Props.Run
import Verif.Props.Equilibrium

/-! # Accurate runs are close to equilibrium; binary mixtures

C74: small reported errors imply phases close to an exact equilibrium.
C75: binary mixtures have at most two phases, which do not depend on the mean composition. -/

set_option linter.unusedSectionVars false

namespace Flory

open Spec

/-- All reported errors of the result are at most `δ`. -/
def Spec.ErrorsLE (δ : ℝ) (d : Diagnostics ℝ) : Prop :=
  d.maxAbsIncomp ≤ δ ∧ d.maxAbsOmegaDiff ≤ δ ∧ d.maxAbsJsDiff ≤ δ

section Run

variable {G : Type} {C S M : ℕ} [NeZero M] {e : RunEnv C S M ℝ G} {ia : FHCompiled S ℝ}
  {sizes : Vec C ℝ} {feat : Fin C → Fin S} {a : Vec C ℝ → Vec C ℝ} {maxSteps : ℚ} {tol : ℝ}
  {interval : ℤ} {st : State C S M ℝ G} {b : ℤ} {s' : RunState C S M ℝ G} {ph : Phases M C ℝ}
  {d : Diagnostics ℝ}

/-- Results of runs are nearly balanced. -/
theorem run_nearBalanced (hok : e.rng.Ok) (hthr : 0 ≤ e.params.killThreshold)
    (hia : e.ia = ia.toI M) (hen : IsIdealGas e.en sizes feat) (hes : Scales e.es a)
    (hcons : ∀ c ∈ st.cons, c.NotLocal)
    (h : runImpl e maxSteps tol interval st b = (s', .ok (ph, d))) (hl : ∀ i, 0 < sizes i)
    (ha : ∀ i Q, (∀ j, 0 < Q j) → 0 < a Q i) {δ : ℝ} (hδ : 0 ≤ δ) (hd : ErrorsLE δ d) :
    NearBalanced (liftChis ia.chis feat) sizes ((S + |ia.coef| + 3) * δ) ph.fractions := by
  obtain ⟨h1, h2, h3⟩ := hd
  have hS : (0 : ℝ) ≤ S := Nat.cast_nonneg S
  have hc := abs_nonneg ia.coef
  refine ⟨fun p i => (C40_physical hok hthr hia hen hes h p).2.1 i (ha i), fun p => ?_, fun p q i => ?_⟩
  · refine ((C40_physical hok hthr hia hen hes h p).2.2.2.trans h1).trans ?_
    have : 0 ≤ (S + |ia.coef| + 2) * δ := by positivity
    linarith
  · refine (C39_chemical_balance hok hthr hia hen hes hcons h (hl i).ne' (ha i) p q).trans ?_
    have e1 := mul_le_mul_of_nonneg_left h2 hS
    have e2 := mul_le_mul_of_nonneg_left h1 hc
    linarith

end Run

theorem Spec.NearBalanced.mono {ι : Type} {C : ℕ} {chis : Mat C C ℝ} {l : Vec C ℝ} {δ δ' : ℝ}
    {phi : ι → Vec C ℝ} (h : NearBalanced chis l δ phi) (hδ : δ ≤ δ') : NearBalanced chis l δ' phi :=
  ⟨h.pos, fun p => (h.fill p).trans hδ, fun p q i => (h.balance p q i).trans hδ⟩

/-- Any selection of nearly balanced phases is nearly balanced. -/
theorem Spec.NearBalanced.pick {ι κ : Type} {C : ℕ} {chis : Mat C C ℝ} {l : Vec C ℝ} {δ : ℝ}
    {phi : ι → Vec C ℝ} (h : NearBalanced chis l δ phi) (psi : κ → Vec C ℝ)
    (hp : ∀ k, ∃ p, psi k = phi p) : NearBalanced chis l δ psi := by
  choose f hf using hp
  refine ⟨fun k i => ?_, fun k => ?_, fun k k' i => ?_⟩
  · rw [hf]
    exact h.pos _ i
  · rw [hf]
    exact h.fill _
  · rw [hf, hf]
    exact h.balance _ _ i

/-! ## C74 -/

/-- Nearly balanced phases in which no component is missing altogether are close to exactly balanced
ones. -/
theorem close_to_balanced {C M : ℕ} {chis : Mat C C ℝ} {l : Vec C ℝ} (hl : ∀ i, 0 < l i) {ε η : ℝ}
    (hε : 0 < ε) (hη : 0 < η) :
    ∃ δ : ℝ, 0 < δ ∧ ∀ phi : Fin M → Vec C ℝ, NearBalanced chis l δ phi → (∀ i, ∃ p, η ≤ phi p i) →
      ∃ psi, Balanced chis l psi ∧ ∀ p i, |phi p i - psi p i| < ε := by
  have hclosed : IsClosed {phi : Fin M → Vec C ℝ | (∀ i, ∃ p, η ≤ phi p i) ∧
      ∀ psi, Balanced chis l psi → ∃ p i, ε ≤ |phi p i - psi p i|} := by
    have e1 : {phi : Fin M → Vec C ℝ | (∀ i, ∃ p, η ≤ phi p i) ∧
        ∀ psi, Balanced chis l psi → ∃ p i, ε ≤ |phi p i - psi p i|} =
        (⋂ i, ⋃ p, {phi : Fin M → Vec C ℝ | η ≤ phi p i}) ∩
        ⋂ (psi : Fin M → Vec C ℝ) (_ : Balanced chis l psi), ⋃ p, ⋃ i,
          {phi : Fin M → Vec C ℝ | ε ≤ |phi p i - psi p i|} := by
      ext phi
      simp
    rw [e1]
    refine IsClosed.inter (isClosed_iInter fun i => isClosed_iUnion_of_finite fun p => ?_)
      (isClosed_iInter fun psi => isClosed_iInter fun _ => isClosed_iUnion_of_finite fun p =>
        isClosed_iUnion_of_finite fun i => ?_)
    · exact isClosed_le continuous_const (by fun_prop)
    · exact isClosed_le continuous_const (by fun_prop)
  obtain ⟨δ, hδ, h⟩ := near_balanced_empty (chis := chis) hl hclosed
    (fun v hv _ _ i => (hv.1 i).imp fun p hp => lt_of_lt_of_le hη hp)
    (fun v hv hb => by
      obtain ⟨p, i, hp⟩ := hv.2 v hb
      rw [sub_self, abs_zero] at hp
      linarith)
  refine ⟨δ, hδ, fun phi hphi hex => ?_⟩
  by_contra hcon
  push Not at hcon
  exact h phi ⟨hex, hcon⟩ hphi

/-- **C74**. Given the interaction, the sizes and the number of compartments, for every accuracy
`ε > 0` and every `η > 0` there is `δ > 0` such that each run whose reported errors are at most `δ`,
whatever the ensemble, the global constraints, the parameters, the initial fields and the random
numbers, returns phases that are within `ε` of an exact equilibrium, provided that every component has
a fraction of at least `η` in some returned phase. -/
theorem C74_close_to_equilibrium {C S M : ℕ} [NeZero M] (ia : FHCompiled S ℝ) {sizes : Vec C ℝ}
    (feat : Fin C → Fin S) (hl : ∀ i, 0 < sizes i) {ε η : ℝ} (hε : 0 < ε) (hη : 0 < η) :
    ∃ δ : ℝ, 0 < δ ∧ ∀ {G : Type} (e : RunEnv C S M ℝ G) (a : Vec C ℝ → Vec C ℝ) (maxSteps : ℚ)
      (tol : ℝ) (interval b : ℤ) (st : State C S M ℝ G) (s' : RunState C S M ℝ G) (ph : Phases M C ℝ)
      (d : Diagnostics ℝ), e.rng.Ok → 0 ≤ e.params.killThreshold → e.ia = ia.toI M →
      IsIdealGas e.en sizes feat → Scales e.es a → (∀ i Q, (∀ j, 0 < Q j) → 0 < a Q i) →
      (∀ c ∈ st.cons, c.NotLocal) →
      runImpl e maxSteps tol interval st b = (s', .ok (ph, d)) → ErrorsLE δ d →
      (∀ i, ∃ p, η ≤ ph.fractions p i) →
      ∃ psi : Fin M → Vec C ℝ, Balanced (liftChis ia.chis feat) sizes psi ∧
        ∀ p i, |ph.fractions p i - psi p i| < ε := by
  obtain ⟨δ, hδ, h⟩ := close_to_balanced (M := M) (chis := liftChis ia.chis feat) hl hε hη
  have hK : (0 : ℝ) < S + |ia.coef| + 3 := by
    have := Nat.cast_nonneg (α := ℝ) S
    have := abs_nonneg ia.coef
    linarith
  refine ⟨δ / (S + |ia.coef| + 3), by positivity, ?_⟩
  intro G e a maxSteps tol interval b st s' ph d hok hthr hia hen hes ha hcons hr hd hex
  refine h ph.fractions ?_ hex
  have := run_nearBalanced hok hthr hia hen hes hcons hr hl ha (by positivity) hd
  rwa [mul_div_cancel₀ _ hK.ne'] at this

/-! ## C75 -/

section Binary

variable {chis : Mat 2 2 ℝ} {l : Vec 2 ℝ}

/-- Balanced phases of a binary mixture lie on a common tangent. -/
theorem balanced_touches {ι : Type} (hs : chis 0 1 = chis 1 0) {phi : ι → Vec 2 ℝ}
    (h : Balanced chis l phi) (q : ι) (p : ι) :
    Binary.Touches (l 0) (l 1) (1 / 2 * (chis 0 0 + chis 1 1) - chis 0 1) (chis 0 1 - chis 1 1)
      (1 / 2 * chis 1 1) (chemPot chis l (phi q) 1)
      (chemPot chis l (phi q) 0 - chemPot chis l (phi q) 1) (phi p 0) := by
  have hf := h.fill p
  rw [Fin.sum_univ_two] at hf
  have h1 : phi p 1 = 1 - phi p 0 := by linarith
  have b0 := h.balance p q 0
  have b1 := h.balance p q 1
  rw [← b0, ← b1]
  have hp0 := h.pos p 0
  have hp1 := h.pos p 1
  refine ⟨hp0, by linarith, ?_, ?_⟩
  · unfold Binary.G chemPot
    simp only [Fin.sum_univ_two, h1, ← hs]
    ring
  · unfold Binary.G1 chemPot
    simp only [Fin.sum_univ_two, h1, ← hs]
    ring

theorem eq_of_first {x y : Vec 2 ℝ} (hx : ∑ i, x i = 1) (hy : ∑ i, y i = 1) (h : x 0 = y 0) : x = y := by
  rw [Fin.sum_univ_two] at hx hy
  funext i
  fin_cases i
  · exact h
  · show x 1 = y 1
    linarith

/-- **C75**, at most two phases: of any three phases of a binary mixture in equilibrium two are equal. -/
theorem C75_phase_rule {ι : Type} (hs : chis 0 1 = chis 1 0) (hl : ∀ i, 0 < l i) {phi : ι → Vec 2 ℝ}
    (h : Balanced chis l phi) (p q r : ι) : phi p = phi q ∨ phi q = phi r ∨ phi p = phi r := by
  by_contra hcon
  push Not at hcon
  obtain ⟨n1, n2, n3⟩ := hcon
  have m1 : phi p 0 ≠ phi q 0 := fun e => n1 (eq_of_first (h.fill p) (h.fill q) e)
  have m2 : phi q 0 ≠ phi r 0 := fun e => n2 (eq_of_first (h.fill q) (h.fill r) e)
  have m3 : phi p 0 ≠ phi r 0 := fun e => n3 (eq_of_first (h.fill p) (h.fill r) e)
  have t := balanced_touches hs h p
  have key := fun u v w => Binary.no_three_phases (hl 0) (hl 1) (t u) (t v) (t w)
  rcases lt_or_gt_of_ne m1 with a1 | a1 <;> rcases lt_or_gt_of_ne m2 with a2 | a2 <;>
    rcases lt_or_gt_of_ne m3 with a3 | a3
  · exact key p q r a1 a2
  · linarith
  · exact key p r q a3 a2
  · exact key r p q a3 a1
  · exact key q p r a1 a3
  · exact key q r p a2 a3
  · linarith
  · exact key r q p a2 a1

/-- **C75**, the binodal: two equilibria of the same binary mixture with two phases each consist of the
same phases, whatever their volumes and mean compositions. -/
theorem C75_binodal {ι κ : Type} (hs : chis 0 1 = chis 1 0) (hl : ∀ i, 0 < l i) {phi : ι → Vec 2 ℝ}
    {psi : κ → Vec 2 ℝ} (h : Balanced chis l phi) (h' : Balanced chis l psi) {p q : ι} {p' q' : κ}
    (hpq : phi p 0 < phi q 0) (hpq' : psi p' 0 < psi q' 0) : phi p = psi p' ∧ phi q = psi q' := by
  obtain ⟨e1, e2⟩ := Binary.unique_binodal (hl 0) (hl 1) (balanced_touches hs h p p)
    (balanced_touches hs h p q) hpq (balanced_touches hs h' p' p') (balanced_touches hs h' p' q') hpq'
  exact ⟨eq_of_first (h.fill p) (h'.fill p') e1, eq_of_first (h.fill q) (h'.fill q') e2⟩

theorem present_of_apart {v : Fin 2 → Vec 2 ℝ} {ε : ℝ} (hε : 0 < ε) (hn : ∀ p i, 0 ≤ v p i)
    (hf : ∀ p, ∑ i, v p i = 1) (h : v 0 0 + ε ≤ v 1 0) (i : Fin 2) : ∃ p, 0 < v p i := by
  fin_cases i
  · refine ⟨1, ?_⟩
    have := hn 0 0
    show 0 < v 1 0
    linarith
  · refine ⟨0, ?_⟩
    have := hn 1 1
    have e0 := hf 0
    have e1 := hf 1
    rw [Fin.sum_univ_two] at e0 e1
    show 0 < v 0 1
    linarith

theorem near_phase_rule (hs : chis 0 1 = chis 1 0) (hl : ∀ i, 0 < l i) {ε : ℝ} (hε : 0 < ε) :
    ∃ δ : ℝ, 0 < δ ∧ ∀ phi : Fin 3 → Vec 2 ℝ, NearBalanced chis l δ phi →
      ¬ (phi 0 0 + ε ≤ phi 1 0 ∧ phi 1 0 + ε ≤ phi 2 0) := by
  obtain ⟨δ, hδ, h⟩ := near_balanced_empty (chis := chis) (l := l) hl
    (X := {phi : Fin 3 → Vec 2 ℝ | phi 0 0 + ε ≤ phi 1 0 ∧ phi 1 0 + ε ≤ phi 2 0})
    (IsClosed.and (isClosed_le (f := fun phi : Fin 3 → Vec 2 ℝ => phi 0 0 + ε)
        (g := fun phi => phi 1 0) (by fun_prop) (by fun_prop))
      (isClosed_le (f := fun phi : Fin 3 → Vec 2 ℝ => phi 1 0 + ε) (g := fun phi => phi 2 0)
        (by fun_prop) (by fun_prop)))
    (fun v hv hn hf i => by
      obtain ⟨p, hp⟩ := present_of_apart (v := ![v 0, v 1]) hε
        (by intro p i; fin_cases p <;> exact hn _ i) (by intro p; fin_cases p <;> exact hf _) hv.1 i
      fin_cases p
      · exact ⟨0, hp⟩
      · exact ⟨1, hp⟩)
    (fun v hv hb => by
      have h1 := hv.1
      have h2 := hv.2
      rcases C75_phase_rule hs hl hb 0 1 2 with e | e | e <;> have := congrFun e 0 <;> linarith)
  exact ⟨δ, hδ, fun phi hphi hv => h phi hv hphi⟩

/-- **C75** for runs: for every `ε > 0` there is `δ > 0` such that every run of the binary mixture with
reported errors of at most `δ`, whatever the number of compartments, the ensemble, the global
constraints, parameters, initial fields and random numbers, returns at most two phases up to `ε`. -/
theorem C75_phase_rule_runs {S : ℕ} (ia : FHCompiled S ℝ) {sizes : Vec 2 ℝ} (feat : Fin 2 → Fin S)
    (hs : ∀ r q, ia.chis r q = ia.chis q r) (hl : ∀ i, 0 < sizes i) {ε : ℝ} (hε : 0 < ε) :
    ∃ δ : ℝ, 0 < δ ∧ ∀ {G : Type} (M : ℕ) [NeZero M] (e : RunEnv 2 S M ℝ G) (a : Vec 2 ℝ → Vec 2 ℝ)
      (maxSteps : ℚ) (tol : ℝ) (interval b : ℤ) (st : State 2 S M ℝ G) (s' : RunState 2 S M ℝ G)
      (ph : Phases M 2 ℝ) (d : Diagnostics ℝ), e.rng.Ok → 0 ≤ e.params.killThreshold →
      e.ia = ia.toI M → IsIdealGas e.en sizes feat → Scales e.es a →
      (∀ i Q, (∀ j, 0 < Q j) → 0 < a Q i) → (∀ c ∈ st.cons, c.NotLocal) →
      runImpl e maxSteps tol interval st b = (s', .ok (ph, d)) → ErrorsLE δ d →
      ∀ p q r, ¬ (ph.fractions p 0 + ε ≤ ph.fractions q 0 ∧ ph.fractions q 0 + ε ≤ ph.fractions r 0) := by
  obtain ⟨δ, hδ, h⟩ := near_phase_rule (chis := liftChis ia.chis feat) (l := sizes) (hs _ _) hl hε
  have hK : (0 : ℝ) < S + |ia.coef| + 3 := by
    have := Nat.cast_nonneg (α := ℝ) S
    have := abs_nonneg ia.coef
    linarith
  refine ⟨δ / (S + |ia.coef| + 3), by positivity, ?_⟩
  intro G M hM e a maxSteps tol interval b st s' ph d hok hthr hia hen hes ha hcons hr hd p q r
  have hb := run_nearBalanced hok hthr hia hen hes hcons hr hl ha (by positivity) hd
  rw [mul_div_cancel₀ _ hK.ne'] at hb
  exact h ![ph.fractions p, ph.fractions q, ph.fractions r]
    (hb.pick _ (by intro k; fin_cases k <;> exact ⟨_, rfl⟩))

theorem near_binodal (hs : chis 0 1 = chis 1 0) (hl : ∀ i, 0 < l i) {ε : ℝ} (hε : 0 < ε) :
    ∃ δ : ℝ, 0 < δ ∧ ∀ phi psi : Fin 2 → Vec 2 ℝ, NearBalanced chis l δ phi → NearBalanced chis l δ psi →
      phi 0 0 + ε ≤ phi 1 0 → psi 0 0 + ε ≤ psi 1 0 →
      ∀ p i, |phi p i - psi p i| < ε := by
  obtain ⟨δ, hδ, h⟩ := close_to_balanced (M := 2) (chis := chis) (l := l) hl (ε := ε / 3) (η := ε / 2)
    (by linarith) (by linarith)
  have aux : ∀ phi : Fin 2 → Vec 2 ℝ, NearBalanced chis l (min δ (ε / 4)) phi →
      phi 0 0 + ε ≤ phi 1 0 → ∃ ps, Balanced chis l ps ∧ ps 0 0 < ps 1 0 ∧
        ∀ p i, |phi p i - ps p i| < ε / 3 := by
    intro phi hb ha
    obtain ⟨ps, h1, h2⟩ := h phi (hb.mono (min_le_left _ _)) (fun i => by
      have f0 := abs_le.mp ((hb.fill 0).trans (min_le_right _ _))
      have f1 := abs_le.mp ((hb.fill 1).trans (min_le_right _ _))
      rw [Fin.sum_univ_two] at f0 f1
      have p0 := hb.pos 0 0
      have p1 := hb.pos 1 1
      fin_cases i
      · exact ⟨1, show ε / 2 ≤ phi 1 0 by linarith⟩
      · exact ⟨0, show ε / 2 ≤ phi 0 1 by linarith [f0.1, f1.2]⟩)
    have g0 := abs_lt.mp (h2 0 0)
    have g1 := abs_lt.mp (h2 1 0)
    exact ⟨ps, h1, by linarith [g0.1, g1.2], h2⟩
  refine ⟨min δ (ε / 4), lt_min hδ (by linarith), fun phi psi h1 h2 h3 h4 p i => ?_⟩
  obtain ⟨x, x1, x2, x3⟩ := aux phi h1 h3
  obtain ⟨y, y1, y2, y3⟩ := aux psi h2 h4
  obtain ⟨e0, e1⟩ := C75_binodal hs hl x1 y1 x2 y2
  have e : x p i = y p i := by
    fin_cases p
    · exact congrFun e0 i
    · exact congrFun e1 i
  have a1 := abs_lt.mp (x3 p i)
  have a2 := abs_lt.mp (y3 p i)
  rw [abs_lt]
  constructor <;> linarith [a1.1, a1.2, a2.1, a2.2]

/-- **C75** for runs: for every `ε > 0` there is `δ > 0` such that any two runs of the same binary
mixture with reported errors of at most `δ` that return phases at least `ε` apart return the same phases
up to `ε`. The runs may differ in the number of compartments, the ensemble, the mean composition,
parameters, initial fields and random numbers. -/
theorem C75_binodal_runs {S : ℕ} (ia : FHCompiled S ℝ) {sizes : Vec 2 ℝ} (feat : Fin 2 → Fin S)
    (hs : ∀ r q, ia.chis r q = ia.chis q r) (hl : ∀ i, 0 < sizes i) {ε : ℝ} (hε : 0 < ε) :
    ∃ δ : ℝ, 0 < δ ∧ ∀ {G G' : Type} (M M' : ℕ) [NeZero M] [NeZero M'] (e : RunEnv 2 S M ℝ G)
      (e' : RunEnv 2 S M' ℝ G') (a a' : Vec 2 ℝ → Vec 2 ℝ) (maxSteps maxSteps' : ℚ) (tol tol' : ℝ)
      (interval interval' b b' : ℤ) (st : State 2 S M ℝ G) (st' : State 2 S M' ℝ G')
      (s : RunState 2 S M ℝ G) (s' : RunState 2 S M' ℝ G') (ph : Phases M 2 ℝ) (ph' : Phases M' 2 ℝ)
      (d d' : Diagnostics ℝ), e.rng.Ok → e'.rng.Ok → 0 ≤ e.params.killThreshold →
      0 ≤ e'.params.killThreshold → e.ia = ia.toI M → e'.ia = ia.toI M' →
      IsIdealGas e.en sizes feat → IsIdealGas e'.en sizes feat → Scales e.es a → Scales e'.es a' →
      (∀ i Q, (∀ j, 0 < Q j) → 0 < a Q i) → (∀ i Q, (∀ j, 0 < Q j) → 0 < a' Q i) →
      (∀ c ∈ st.cons, c.NotLocal) → (∀ c ∈ st'.cons, c.NotLocal) →
      runImpl e maxSteps tol interval st b = (s, .ok (ph, d)) →
      runImpl e' maxSteps' tol' interval' st' b' = (s', .ok (ph', d')) →
      ErrorsLE δ d → ErrorsLE δ d' →
      ∀ p q p' q', ph.fractions p 0 + ε ≤ ph.fractions q 0 →
        ph'.fractions p' 0 + ε ≤ ph'.fractions q' 0 →
        ∀ i, |ph.fractions p i - ph'.fractions p' i| < ε ∧ |ph.fractions q i - ph'.fractions q' i| < ε := by
  obtain ⟨δ, hδ, h⟩ := near_binodal (chis := liftChis ia.chis feat) (l := sizes) (hs _ _) hl hε
  have hK : (0 : ℝ) < S + |ia.coef| + 3 := by
    have := Nat.cast_nonneg (α := ℝ) S
    have := abs_nonneg ia.coef
    linarith
  refine ⟨δ / (S + |ia.coef| + 3), by positivity, ?_⟩
  intro G G' M M' hM hM' e e' a a' ms ms' tol tol' iv iv' b b' st st' s s' ph ph' d d' hok hok' hthr
    hthr' hia hia' hen hen' hes hes' ha ha' hcons hcons' hr hr' hd hd' p q p' q' hpq hpq' i
  have hb := run_nearBalanced hok hthr hia hen hes hcons hr hl ha (by positivity) hd
  have hb' := run_nearBalanced hok' hthr' hia' hen' hes' hcons' hr' hl ha' (by positivity) hd'
  rw [mul_div_cancel₀ _ hK.ne'] at hb hb'
  have key := h ![ph.fractions p, ph.fractions q] ![ph'.fractions p', ph'.fractions q']
    (hb.pick _ (by intro k; fin_cases k <;> exact ⟨_, rfl⟩))
    (hb'.pick _ (by intro k; fin_cases k <;> exact ⟨_, rfl⟩)) hpq hpq'
  exact ⟨key 0 i, key 1 i⟩

theorem Spec.Coexistence.balanced {C S M : ℕ} {X : Mat S S ℝ} {feat : Fin C → Fin S}
    {l phiMeans : Vec C ℝ} {J : Vec M ℝ} {phi : Mat C M ℝ} (h : Coexistence X feat l phiMeans J phi) :
    Balanced (liftChis X feat) l (fun m i => phi i m) := by
  obtain ⟨mu, hmu⟩ := h.balance
  exact ⟨fun p i => h.pos i p, h.incompressible, fun p q i => (hmu i p).trans (hmu i q).symm⟩

/-- **C75**, the lever rule: in an equilibrium of a binary mixture with different phases, the compartments
in the phase rich in the first component together have the volume that follows from the mean
composition. -/
theorem C75_lever_rule {S M : ℕ} {X : Mat S S ℝ} {feat : Fin 2 → Fin S} {l phiMeans : Vec 2 ℝ}
    {J : Vec M ℝ} {phi : Mat 2 M ℝ} (hs : ∀ r q, X r q = X q r) (hl : ∀ i, 0 < l i)
    (h : Coexistence X feat l phiMeans J phi) {p q : Fin M} (hpq : phi 0 p < phi 0 q) :
    ∑ m, (if phi 0 m = phi 0 q then J m else 0) = M * ((phiMeans 0 - phi 0 p) / (phi 0 q - phi 0 p)) := by
  have hm : ∀ m, J m * phi 0 m =
      J m * phi 0 p + (if phi 0 m = phi 0 q then J m else 0) * (phi 0 q - phi 0 p) := by
    intro m
    rcases C75_phase_rule (hs _ _) hl h.balanced m p q with e | e | e
    · have e : phi 0 m = phi 0 p := congrFun e 0
      rw [e, if_neg hpq.ne]
      ring
    · exact absurd (congrFun e 0) hpq.ne
    · have e : phi 0 m = phi 0 q := congrFun e 0
      rw [e, if_pos rfl]
      ring
  have hsum := h.mean 0
  rw [Finset.sum_congr rfl fun m _ => hm m, Finset.sum_add_distrib, ← Finset.sum_mul, ← Finset.sum_mul,
    h.volumes] at hsum
  have hne : phi 0 q - phi 0 p ≠ 0 := sub_ne_zero.mpr hpq.ne'
  field_simp
  linarith

end Binary

/-! ## Examples -/

namespace Demo

theorem coexBalanced : Balanced (liftChis coexFH.chis id) (fun _ => (1 : ℝ)) (fun m i => coexPhi i m) :=
  coexistence.balanced

theorem coexRun : ∃ f ph d, runImpl coexEnv 1000000 (1 / 100000) 10000 coexState 32 = (f, .ok (ph, d)) ∧
    (∀ m i, ph.fractions m i = coexPhi i m) ∧ ErrorsLE 0 d := by
  have hen : IsIdealGas Demo.coexEnv.en (fun _ => (1 : ℝ)) id :=
    (⟨fun _ => 1⟩ : IdealC 2).isIdealGas (M := 2)
  obtain ⟨f, ph, d, h⟩ := run_ok (e := Demo.coexEnv) (maxSteps := 1000000) (interval := 10000)
    (tol := 1 / 100000) (rngZero_ok ℝ) hen Demo.coexEns.total
    (by simp [Demo.coexEnv, Demo.params]) (by simp [Demo.coexEnv, Demo.params])
    (by simp [Demo.coexEnv, Demo.params]) (by simp [Demo.coexEnv, Demo.params]) rfl (by norm_num)
    (by norm_num) Demo.coexState 32 (by simp [Demo.coexState, Cons.Proper])
    (Or.inl ⟨0, by simp [Demo.coexEnv, Demo.params, Demo.coexState]⟩)
  have := C63_equilibrium_stationary (e := Demo.coexEnv) (ia := Demo.coexFH) (es := Demo.coexEns)
    (c := 7) (by simp [Demo.coexEnv, Demo.params]) rfl hen rfl (by simp)
    (by intro m; fin_cases m <;> simp [Demo.coexEnv, Demo.params, Demo.coexState])
    Demo.coexistence (fun _ _ => rfl)
    (by
      intro k hk
      simp only [Demo.coexState, List.mem_cons, List.not_mem_nil, or_false] at hk
      rcases hk with rfl | rfl
      · simp [Fulfilled, NoC.new]
      · refine ⟨fun a => rfl, fun a => ?_⟩
        simp [GlobalC.new, Fin.sum_univ_two, Demo.coexPhi, Demo.coexState]
        norm_num) h
  exact ⟨f, ph, d, h, this.2.1, this.2.2.2.2.1.le, this.2.2.2.2.2.1.le, this.2.2.2.2.2.2.1.le⟩

end Demo

theorem Spec.ErrorsLE.mono {δ δ' : ℝ} {d : Diagnostics ℝ} (h : ErrorsLE δ d) (hδ : δ ≤ δ') : ErrorsLE δ' d :=
  ⟨h.1.trans hδ, h.2.1.trans hδ, h.2.2.trans hδ⟩

-- C74: for every `δ` there are such runs, here one with a global constraint and two different phases.
example {ε : ℝ} (hε : 0 < ε) : ∃ f ph d, runImpl Demo.coexEnv 1000000 (1 / 100000) 10000 Demo.coexState 32 =
    (f, .ok (ph, d)) ∧ ph.fractions 0 0 + 1 / 2 = ph.fractions 1 0 ∧
    ∃ psi : Fin 2 → Vec 2 ℝ, Balanced (liftChis Demo.coexFH.chis id) (fun _ => 1) psi ∧
      ∀ p i, |ph.fractions p i - psi p i| < ε := by
  obtain ⟨f, ph, d, h, h1, h2⟩ := Demo.coexRun
  obtain ⟨δ, hδ, key⟩ := C74_close_to_equilibrium (M := 2) Demo.coexFH (sizes := fun _ => 1) id (by simp) hε
    (η := 1 / 4) (by norm_num)
  refine ⟨f, ph, d, h, by rw [h1, h1]; norm_num [Demo.coexPhi], ?_⟩
  exact key Demo.coexEnv _ _ _ _ _ _ _ _ _ (rngZero_ok ℝ) (by simp [Demo.coexEnv, Demo.params]) rfl
    ((⟨fun _ => 1⟩ : IdealC 2).isIdealGas (M := 2)) Demo.coexEns.scales
    (by
      intro i Q hQ
      have := hQ i
      fin_cases i <;> simp [Demo.coexEns] <;> positivity)
    (by
      intro c hc
      simp only [Demo.coexState, List.mem_cons, List.not_mem_nil, or_false] at hc
      rcases hc with rfl | rfl <;> simp [Cons.NotLocal, NoC.new])
    h (h2.mono hδ.le) (fun i => ⟨1, by rw [h1]; fin_cases i <;> norm_num [Demo.coexPhi]⟩)

-- C75: the two phases differ, so that a third one equals one of them.
example : Demo.coexPhi 0 0 < Demo.coexPhi 0 1 ∧ ∀ psi : Fin 3 → Vec 2 ℝ,
    Balanced (liftChis Demo.coexFH.chis id) (fun _ => 1) psi → psi 0 0 < psi 1 0 →
    psi 0 = ![1 / 4, 3 / 4] ∧ psi 1 = ![3 / 4, 1 / 4] ∧ (psi 1 = psi 2 ∨ psi 0 = psi 2) := by
  have hs : liftChis Demo.coexFH.chis id 0 1 = liftChis Demo.coexFH.chis id 1 0 := by
    simp [liftChis, Demo.coexFH, FHCompiled.new]
  have h0 : Demo.coexPhi 0 0 < Demo.coexPhi 0 1 := by norm_num [Demo.coexPhi]
  refine ⟨h0, fun psi h h1 => ?_⟩
  obtain ⟨e1, e2⟩ := C75_binodal hs (by simp) Demo.coexBalanced h h0 h1
  refine ⟨?_, ?_, ?_⟩
  · rw [← e1]; funext i; fin_cases i <;> simp [Demo.coexPhi]
  · rw [← e2]; funext i; fin_cases i <;> simp [Demo.coexPhi]
  · rcases C75_phase_rule hs (by simp) h 0 1 2 with e | e
    · exact absurd (congrFun e 0) h1.ne
    · exact e

example : ∑ m, (if Demo.coexPhi 0 m = Demo.coexPhi 0 1 then (![1 / 2, 3 / 2] : Vec 2 ℝ) m else 0) =
    (2 : ℕ) * ((5 / 8 - 1 / 4) / (3 / 4 - 1 / 4)) := by
  have := C75_lever_rule (p := 0) (q := 1)
    (by intro r q; fin_cases r <;> fin_cases q <;> simp [Demo.coexFH, FHCompiled.new]) (by simp)
    Demo.coexistence (by norm_num [Demo.coexPhi])
  rw [this]
  norm_num [Demo.coexPhi, Demo.coexEns]

end Flory
