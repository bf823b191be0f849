import Verif.Lemmas.Tangent
import Verif.Spec.GroundState
import Verif.Props.NearBalance
import Verif.Props.Miscible
import Mathlib.Analysis.Complex.ExponentialBounds

/-! # Phase diagram of binary mixtures

C76: when a binary mixture has two phases, which compositions separate, and that the two phases have the
least free energy. -/

set_option linter.unusedSectionVars false

namespace Flory

open Spec

section Binary

variable {chis : Mat 2 2 ℝ} {l : Vec 2 ℝ}

/-- Points of a tangent have equal chemical potentials. -/
theorem chemPot_of_touches (hs : chis 0 1 = chis 1 0) {s t x : ℝ}
    (h : Binary.Touches (l 0) (l 1) (1 / 2 * (chis 0 0 + chis 1 1) - chis 0 1) (chis 0 1 - chis 1 1)
      (1 / 2 * chis 1 1) s t x) :
    chemPot chis l ![x, 1 - x] 0 = s + t ∧ chemPot chis l ![x, 1 - x] 1 = s := by
  have hv := h.value
  have hsl := h.slope
  unfold Binary.G at hv
  unfold Binary.G1 at hsl
  unfold chemPot
  simp only [Fin.sum_univ_two, Matrix.cons_val_zero, Matrix.cons_val_one, ← hs]
  constructor
  · linear_combination hv + (1 - x) * hsl
  · linear_combination hv - x * hsl

theorem freeEnergy_binary (hs : chis 0 1 = chis 1 0) {phi : Vec 2 ℝ} (hf : ∑ i, phi i = 1) :
    freeEnergy chis l phi = Binary.G (l 0) (l 1) (1 / 2 * (chis 0 0 + chis 1 1) - chis 0 1)
      (chis 0 1 - chis 1 1) (1 / 2 * chis 1 1) (phi 0) := by
  rw [Fin.sum_univ_two] at hf
  have h1 : phi 1 = 1 - phi 0 := by linarith
  unfold freeEnergy Binary.G
  simp only [Fin.sum_univ_two, h1, ← hs]
  ring

/-- Two touching points are two phases in equilibrium. -/
theorem balanced_of_touches (hs : chis 0 1 = chis 1 0) {s t x y : ℝ}
    (hx : Binary.Touches (l 0) (l 1) (1 / 2 * (chis 0 0 + chis 1 1) - chis 0 1) (chis 0 1 - chis 1 1)
      (1 / 2 * chis 1 1) s t x)
    (hy : Binary.Touches (l 0) (l 1) (1 / 2 * (chis 0 0 + chis 1 1) - chis 0 1) (chis 0 1 - chis 1 1)
      (1 / 2 * chis 1 1) s t y) : Balanced chis l ![![x, 1 - x], ![y, 1 - y]] := by
  obtain ⟨a0, a1⟩ := chemPot_of_touches hs hx
  obtain ⟨b0, b1⟩ := chemPot_of_touches hs hy
  have := hx.pos
  have := hx.lt
  have := hy.pos
  have := hy.lt
  refine ⟨fun p i => ?_, fun p => ?_, fun p q i => ?_⟩
  · fin_cases p <;> fin_cases i <;> simp <;> linarith
  · fin_cases p <;> simp [Fin.sum_univ_two]
  · have key : ∀ p i, chemPot chis l ((![![x, 1 - x], ![y, 1 - y]] : Fin 2 → Vec 2 ℝ) p) i =
        (![s + t, s] : Vec 2 ℝ) i := by
      intro p i
      fin_cases p <;> fin_cases i
      · exact a0
      · exact a1
      · exact b0
      · exact b1
    rw [key, key]

/-- **C76**, the critical point: a binary mixture has two different phases in equilibrium if and only if
the effective interaction `χ₀₁ − (χ₀₀ + χ₁₁)/2` exceeds `(1/√l₀ + 1/√l₁)²/2`. -/
theorem C76_critical (hs : chis 0 1 = chis 1 0) (hl : ∀ i, 0 < l i) :
    (∃ phi : Fin 2 → Vec 2 ℝ, Balanced chis l phi ∧ phi 0 ≠ phi 1) ↔
      1 / 2 * (1 / √(l 0) + 1 / √(l 1)) ^ 2 < chis 0 1 - 1 / 2 * (chis 0 0 + chis 1 1) := by
  have hc := Binary.critical (a := 1 / 2 * (chis 0 0 + chis 1 1) - chis 0 1)
    (b := chis 0 1 - chis 1 1) (c := 1 / 2 * chis 1 1) (hl 0) (hl 1)
  rw [neg_sub] at hc
  rw [← hc]
  constructor
  · rintro ⟨phi, hb, hne⟩
    have hne0 : phi 0 0 ≠ phi 1 0 := fun e => hne (eq_of_first (hb.fill 0) (hb.fill 1) e)
    have t := balanced_touches hs hb 0
    rcases lt_or_gt_of_ne hne0 with h | h
    · exact ⟨_, _, _, _, h, t 0, t 1⟩
    · exact ⟨_, _, _, _, h, t 1, t 0⟩
  · rintro ⟨s, t, x, y, hxy, hx, hy⟩
    exact ⟨_, balanced_of_touches hs hx hy, fun e => hxy.ne (congrFun e 0)⟩

/-- **C76** for runs at and below the critical point: for every `ε > 0` there is `δ > 0` such that runs
with reported errors of at most `δ` return the same composition in all compartments up to `ε`. -/
theorem C76_no_separation_runs {S : ℕ} (ia : FHCompiled S ℝ) {sizes : Vec 2 ℝ} (feat : Fin 2 → Fin S)
    (hs : ∀ r q, ia.chis r q = ia.chis q r) (hl : ∀ i, 0 < sizes i)
    (hcrit : ia.chis (feat 0) (feat 1) - 1 / 2 * (ia.chis (feat 0) (feat 0) + ia.chis (feat 1) (feat 1)) ≤
      1 / 2 * (1 / √(sizes 0) + 1 / √(sizes 1)) ^ 2) {ε : ℝ} (hε : 0 < ε) :
    ∃ δ : ℝ, 0 < δ ∧ ∀ {G : Type} (M : ℕ) [NeZero M] (e : RunEnv 2 S M ℝ G) (a : Vec 2 ℝ → Vec 2 ℝ)
      (maxSteps : ℚ) (tol : ℝ) (interval b : ℤ) (st : State 2 S M ℝ G) (s' : RunState 2 S M ℝ G)
      (ph : Phases M 2 ℝ) (d : Diagnostics ℝ), e.rng.Ok → 0 ≤ e.params.killThreshold →
      e.ia = ia.toI M → IsIdealGas e.en sizes feat → Scales e.es a →
      (∀ i Q, (∀ j, 0 < Q j) → 0 < a Q i) → (∀ c ∈ st.cons, c.NotLocal) →
      runImpl e maxSteps tol interval st b = (s', .ok (ph, d)) → ErrorsLE δ d →
      ∀ p q, |ph.fractions p 0 - ph.fractions q 0| < ε := by
  obtain ⟨δ, hδ, h⟩ := near_balanced_empty (chis := liftChis ia.chis feat) (l := sizes) hl
    (X := {phi : Fin 2 → Vec 2 ℝ | phi 0 0 + ε ≤ phi 1 0})
    (isClosed_le (f := fun phi : Fin 2 → Vec 2 ℝ => phi 0 0 + ε) (g := fun phi => phi 1 0)
      (by fun_prop) (by fun_prop))
    (fun v hv hn hf i => present_of_apart hε hn hf hv i)
    (fun v hv hb => by
      have hv : v 0 0 + ε ≤ v 1 0 := hv
      have := (C76_critical (chis := liftChis ia.chis feat) (hs _ _) hl).mp ⟨v, hb, fun e => by
        have := congrFun e 0
        linarith⟩
      exact absurd this (not_lt.mpr hcrit))
  have hK : (0 : ℝ) < S + |ia.coef| + 3 := by
    have := Nat.cast_nonneg (α := ℝ) S
    have := abs_nonneg ia.coef
    linarith
  refine ⟨δ / (S + |ia.coef| + 3), by positivity, ?_⟩
  intro G M hM e a maxSteps tol interval b st s' ph d hok hthr hia hen hes ha hcons hr hd p q
  have hb := run_nearBalanced hok hthr hia hen hes hcons hr hl ha (by positivity) hd
  rw [mul_div_cancel₀ _ hK.ne'] at hb
  have key : ∀ p q, ph.fractions q 0 < ph.fractions p 0 + ε := by
    intro p q
    by_contra hn
    exact h ![ph.fractions p, ph.fractions q] (not_lt.mp hn)
      (hb.pick _ (by intro k; fin_cases k <;> exact ⟨_, rfl⟩))
  rw [abs_lt]
  constructor <;> linarith [key p q, key q p]

/-! ### Energies -/

/-- A line below the free energy bounds the energy of every partition. -/
theorem lowerBound_of_line (hs : chis 0 1 = chis 1 0) {s t : ℝ} {phiMeans : Vec 2 ℝ}
    (h : ∀ z ∈ Set.Icc (0 : ℝ) 1, s + t * z ≤ Binary.G (l 0) (l 1)
      (1 / 2 * (chis 0 0 + chis 1 1) - chis 0 1) (chis 0 1 - chis 1 1) (1 / 2 * chis 1 1) z) :
    LowerBound chis l phiMeans (s + t * phiMeans 0) := by
  intro N J psi hp
  have hN : (0 : ℝ) < N := by exact_mod_cast hp.count
  unfold meanEnergy
  rw [le_div_iff₀ hN]
  have e1 : (s + t * phiMeans 0) * N = ∑ m, J m * (s + t * psi m 0) := by
    have e2 : ∀ m, J m * (s + t * psi m 0) = s * J m + t * (J m * psi m 0) := fun m => by ring
    rw [Finset.sum_congr rfl fun m _ => e2 m, Finset.sum_add_distrib, ← Finset.mul_sum, ← Finset.mul_sum,
      hp.volumes, hp.mean]
    ring
  rw [e1]
  refine Finset.sum_le_sum fun m _ => mul_le_mul_of_nonneg_left ?_ (hp.nonneg m)
  rw [freeEnergy_binary hs (hp.fill m)]
  refine h _ ⟨hp.frac m 0, ?_⟩
  have h1 := hp.fill m
  rw [Fin.sum_univ_two] at h1
  linarith [hp.frac m 1]

/-- Data of the two phases. -/
theorem binodal_line (hs : chis 0 1 = chis 1 0) (hl : ∀ i, 0 < l i) {ι : Type} {phi : ι → Vec 2 ℝ}
    (hb : Balanced chis l phi) {p q : ι} (hpq : phi p 0 < phi q 0) :
    ∃ s t : ℝ, (∀ z ∈ Set.Icc (0 : ℝ) 1, s + t * z ≤ Binary.G (l 0) (l 1)
      (1 / 2 * (chis 0 0 + chis 1 1) - chis 0 1) (chis 0 1 - chis 1 1) (1 / 2 * chis 1 1) z) ∧
      (∀ m, freeEnergy chis l (phi m) = s + t * phi m 0) ∧
      ∀ z ∈ Set.Ioo (phi p 0) (phi q 0), s + t * z < Binary.G (l 0) (l 1)
      (1 / 2 * (chis 0 0 + chis 1 1) - chis 0 1) (chis 0 1 - chis 1 1) (1 / 2 * chis 1 1) z := by
  have hcrit := (Binary.critical (a := 1 / 2 * (chis 0 0 + chis 1 1) - chis 0 1)
    (b := chis 0 1 - chis 1 1) (c := 1 / 2 * chis 1 1) (hl 0) (hl 1)).mp
    ⟨_, _, _, _, hpq, balanced_touches hs hb p p, balanced_touches hs hb p q⟩
  obtain ⟨x₀, h0, h1, hneg⟩ := Binary.exists_neg (hl 0) (hl 1) hcrit
  obtain ⟨s, t, x, y, hx, hy, tx, ty, hline⟩ := Binary.exists_tangent (b := chis 0 1 - chis 1 1)
    (c := 1 / 2 * chis 1 1) (hl 0) (hl 1) h0 h1 hneg
  obtain ⟨ex, ey⟩ := Binary.unique_binodal (hl 0) (hl 1) tx ty (by linarith) (balanced_touches hs hb p p)
    (balanced_touches hs hb p q) hpq
  refine ⟨s, t, hline, fun m => ?_, fun z hz => ?_⟩
  · rw [freeEnergy_binary hs (hb.fill m)]
    rcases C75_phase_rule hs hl hb m p q with e | e | e
    · rw [e, ← ex]
      exact tx.value
    · exact absurd (congrFun e 0) hpq.ne
    · rw [e, ← ey]
      exact ty.value
  · have hz1 := hz.1
    have hz2 := hz.2
    have z0 : 0 < z := by linarith [hb.pos p 0]
    have hq := hb.fill q
    rw [Fin.sum_univ_two] at hq
    have z1 : z < 1 := by linarith [hb.pos q 1]
    refine lt_of_le_of_ne (hline z ⟨z0.le, z1.le⟩) fun he => ?_
    have hmin : Binary.IsMin (l 0) (l 1) (1 / 2 * (chis 0 0 + chis 1 1) - chis 0 1)
        (chis 0 1 - chis 1 1) (1 / 2 * chis 1 1) t z := by
      refine ⟨⟨z0.le, z1.le⟩, fun w hw => ?_⟩
      have := hline w hw
      linarith
    have tz := hmin.touches (hl 0) (hl 1)
    rw [← he] at tz
    have : s + t * z - t * z = s := by ring
    rw [this] at tz
    exact Binary.no_three_phases (hl 0) (hl 1) tx tz ty (by rw [ex]; exact hz1) (by rw [ey]; exact hz2)

/-- **C76**, two phases are best: whenever compartments of a binary mixture coexist in equilibrium with
two different compositions, no way of dividing the mixture into any number of phases has a lower mean
free energy. -/
theorem C76_phases_optimal {S M : ℕ} [NeZero M] {X : Mat S S ℝ} {feat : Fin 2 → Fin S}
    {l phiMeans : Vec 2 ℝ} {J : Vec M ℝ} {phi : Mat 2 M ℝ} (hs : ∀ r q, X r q = X q r)
    (hl : ∀ i, 0 < l i) (h : Coexistence X feat l phiMeans J phi) {p q : Fin M}
    (hpq : phi 0 p ≠ phi 0 q) :
    LowerBound (liftChis X feat) l phiMeans (meanEnergy (liftChis X feat) l J fun m i => phi i m) := by
  wlog hlt : phi 0 p < phi 0 q generalizing p q
  · exact this hpq.symm (lt_of_le_of_ne (not_lt.mp hlt) hpq.symm)
  obtain ⟨s, t, h1, h2, -⟩ := binodal_line (chis := liftChis X feat) (hs _ _) hl h.balanced
    (p := p) (q := q) hlt
  have hM : (M : ℝ) ≠ 0 := by exact_mod_cast NeZero.ne M
  have e : meanEnergy (liftChis X feat) l J (fun m i => phi i m) = s + t * phiMeans 0 := by
    unfold meanEnergy
    rw [div_eq_iff hM]
    have e2 : ∀ m, J m * (freeEnergy (liftChis X feat) l fun i => phi i m) =
        s * J m + t * (J m * phi 0 m) := fun m => by rw [h2 m]; ring
    rw [Finset.sum_congr rfl fun m _ => e2 m, Finset.sum_add_distrib, ← Finset.mul_sum, ← Finset.mul_sum,
      h.volumes, h.mean]
    ring
  rw [e]
  exact lowerBound_of_line (hs _ _) h1

/-- Every mean composition between two phases in equilibrium is a mixture of them. -/
theorem exists_coexistence {S : ℕ} {X : Mat S S ℝ} {feat : Fin 2 → Fin S} {l : Vec 2 ℝ}
    {ps : Fin 2 → Vec 2 ℝ} (hb : Balanced (liftChis X feat) l ps) {phiMeans : Vec 2 ℝ} {M : ℕ} (hM : 2 ≤ M)
    (hsum : ∑ i, phiMeans i = 1) (h1 : ps 0 0 < phiMeans 0) (h2 : phiMeans 0 < ps 1 0) :
    ∃ (J : Vec M ℝ) (phi : Mat 2 M ℝ), Coexistence X feat l phiMeans J phi ∧
      (∀ m, 0 < J m) ∧ (∃ p : Fin M, p.1 = 0 ∧ (fun i => phi i p) = ps 0) ∧
      ∃ q : Fin M, q.1 = 1 ∧ (fun i => phi i q) = ps 1 := by
  have : NeZero M := ⟨by omega⟩
  have hMR : (2 : ℝ) ≤ M := by exact_mod_cast hM
  set w := (ps 1 0 - phiMeans 0) / (ps 1 0 - ps 0 0) with hw
  have w0 : 0 < w := div_pos (by linarith) (by linarith)
  have w1 : w < 1 := by
    rw [hw, div_lt_one (by linarith)]
    linarith
  have hwm : w * ps 0 0 + (1 - w) * ps 1 0 = phiMeans 0 := by
    have : ps 1 0 - ps 0 0 ≠ 0 := by linarith
    rw [hw]
    field_simp
    ring
  set z : Fin M := ⟨0, by omega⟩ with hz
  -- compartment 0 holds the first phase, all others share the second one
  set J : Vec M ℝ := fun m => if m = z then M * w else M * (1 - w) / (M - 1) with hJ
  set f : Fin M → Vec 2 ℝ := fun m => if m = z then ps 0 else ps 1 with hf
  have hM1 : (0 : ℝ) < M - 1 := by linarith
  have hsumJ : ∀ u v : ℝ, ∑ m, J m * (if m = z then u else v) = M * w * u + M * (1 - w) * v := by
    intro u v
    have e : ∀ m, J m * (if m = z then u else v) =
        (if m = z then M * w * u - M * (1 - w) / (M - 1) * v else 0) + M * (1 - w) / (M - 1) * v := by
      intro m
      simp only [hJ]
      split <;> ring
    rw [Finset.sum_congr rfl fun m _ => e m, Finset.sum_add_distrib, Finset.sum_ite_eq' Finset.univ z]
    simp only [Finset.mem_univ, if_true, Finset.sum_const, Finset.card_univ, Fintype.card_fin,
      nsmul_eq_mul]
    field_simp
    ring
  refine ⟨J, fun i m => f m i, ⟨?_, ?_, ?_, ?_, ?_⟩, ?_, ⟨z, rfl, ?_⟩, ⟨⟨1, by omega⟩, rfl, ?_⟩⟩
  · have := hsumJ 1 1
    simp only [ite_self, mul_one] at this
    rw [this]
    ring
  · intro i m
    simp only [hf]
    split
    · exact hb.pos 0 i
    · exact hb.pos 1 i
  · intro m
    simp only [hf]
    split
    · exact hb.fill 0
    · exact hb.fill 1
  · intro i
    have e : ∀ m, J m * f m i = J m * (if m = z then ps 0 i else ps 1 i) := by
      intro m
      simp only [hf]
      split <;> rfl
    rw [Finset.sum_congr rfl fun m _ => e m, hsumJ]
    have f0 := hb.fill 0
    have f1 := hb.fill 1
    rw [Fin.sum_univ_two] at f0 f1 hsum
    fin_cases i
    · show M * w * ps 0 0 + M * (1 - w) * ps 1 0 = M * phiMeans 0
      rw [← hwm]
      ring
    · show M * w * ps 0 1 + M * (1 - w) * ps 1 1 = M * phiMeans 1
      have a0 : ps 0 1 = 1 - ps 0 0 := by linarith
      have a1 : ps 1 1 = 1 - ps 1 0 := by linarith
      have a2 : phiMeans 1 = 1 - phiMeans 0 := by linarith
      rw [a0, a1, a2, ← hwm]
      ring
  · refine ⟨fun i => chemPot (liftChis X feat) l (ps 0) i, fun i m => ?_⟩
    show chemPot (liftChis X feat) l (f m) i = _
    simp only [hf]
    split
    · rfl
    · exact hb.balance 1 0 i
  · intro m
    simp only [hJ]
    split
    · have : (0 : ℝ) < M := by linarith
      positivity
    · exact div_pos (mul_pos (by linarith) (by linarith)) hM1
  · simp [hf]
  · have : (⟨1, by omega⟩ : Fin M) ≠ z := by
      rw [hz]
      intro e
      simp at e
    simp [hf, this]

/-- Above the critical point: the two phases, and which mean compositions separate into them. -/
theorem C76_phase_diagram {S : ℕ} {X : Mat S S ℝ} {feat : Fin 2 → Fin S} {l : Vec 2 ℝ}
    (hs : ∀ r q, X r q = X q r) (hl : ∀ i, 0 < l i)
    (hcrit : 1 / 2 * (1 / √(l 0) + 1 / √(l 1)) ^ 2 <
      X (feat 0) (feat 1) - 1 / 2 * (X (feat 0) (feat 0) + X (feat 1) (feat 1))) :
    ∃ lo hi : Vec 2 ℝ, lo 0 < hi 0 ∧ (∀ i, 0 < lo i ∧ 0 < hi i) ∧ ∑ i, lo i = 1 ∧ ∑ i, hi i = 1 ∧
      (∀ (phiMeans : Vec 2 ℝ) (M : ℕ), 2 ≤ M → ∑ i, phiMeans i = 1 → lo 0 < phiMeans 0 →
        phiMeans 0 < hi 0 → ∃ (J : Vec M ℝ) (phi : Mat 2 M ℝ), Coexistence X feat l phiMeans J phi ∧
          (∀ m, 0 < J m) ∧ (∃ p, (fun i => phi i p) = lo) ∧ ∃ q, (fun i => phi i q) = hi) ∧
      ∀ (phiMeans : Vec 2 ℝ) (M : ℕ) (J : Vec M ℝ) (phi : Mat 2 M ℝ),
        Coexistence X feat l phiMeans J phi → (∀ m, 0 < J m) → (∃ p q, phi 0 p ≠ phi 0 q) →
        lo 0 < phiMeans 0 ∧ phiMeans 0 < hi 0 ∧ ∀ m, (fun i => phi i m) = lo ∨ (fun i => phi i m) = hi := by
  obtain ⟨psi, hb, hne⟩ := (C76_critical (chis := liftChis X feat) (hs _ _) hl).mpr hcrit
  obtain ⟨ps, hb, hlt⟩ : ∃ ps : Fin 2 → Vec 2 ℝ, Balanced (liftChis X feat) l ps ∧ ps 0 0 < ps 1 0 := by
    have hne0 : psi 0 0 ≠ psi 1 0 := fun e => hne (eq_of_first (hb.fill 0) (hb.fill 1) e)
    rcases lt_or_gt_of_ne hne0 with h | h
    · exact ⟨psi, hb, h⟩
    · exact ⟨![psi 1, psi 0], ⟨by intro p; fin_cases p <;> exact hb.pos _,
        by intro p; fin_cases p <;> exact hb.fill _,
        by intro p q; fin_cases p <;> fin_cases q <;> exact hb.balance _ _⟩, h⟩
  refine ⟨ps 0, ps 1, hlt, fun i => ⟨hb.pos 0 i, hb.pos 1 i⟩, hb.fill 0, hb.fill 1, ?_, ?_⟩
  · intro phiMeans M hM hsum h1 h2
    obtain ⟨J, phi, e1, e2, ⟨p, -, e3⟩, q, -, e4⟩ := exists_coexistence (X := X) hb hM hsum h1 h2
    exact ⟨J, phi, e1, e2, ⟨p, e3⟩, q, e4⟩
  · rintro phiMeans M J phi hco hJ ⟨p, q, hpq⟩
    have : NeZero M := ⟨fun e => by subst e; exact p.elim0⟩
    wlog hlt' : phi 0 p < phi 0 q generalizing p q
    · exact this q p hpq.symm (lt_of_le_of_ne (not_lt.mp hlt') hpq.symm)
    obtain ⟨e1, e2⟩ := C75_binodal (hs _ _) hl hco.balanced hb (p := p) (q := q) (p' := 0) (q' := 1) hlt' hlt
    have e1' : phi 0 p = ps 0 0 := congrFun e1 0
    have e2' : phi 0 q = ps 1 0 := congrFun e2 0
    have hall : ∀ m, (fun i => phi i m) = ps 0 ∨ (fun i => phi i m) = ps 1 := by
      intro m
      rcases C75_phase_rule (hs _ _) hl hco.balanced m p q with e | e | e
      · exact .inl (e.trans e1)
      · exact absurd (congrFun e 0) hpq
      · exact .inr (e.trans e2)
    have hM : (0 : ℝ) < M := by exact_mod_cast NeZero.pos M
    have hb0 : ∀ m, ps 0 0 ≤ phi 0 m ∧ phi 0 m ≤ ps 1 0 := by
      intro m
      rcases hall m with e | e
      · have e : phi 0 m = ps 0 0 := congrFun e 0
        rw [e]
        exact ⟨le_rfl, hlt.le⟩
      · have e : phi 0 m = ps 1 0 := congrFun e 0
        rw [e]
        exact ⟨hlt.le, le_rfl⟩
    refine ⟨?_, ?_, hall⟩
    · have : ∑ m, J m * ps 0 0 < ∑ m, J m * phi 0 m :=
        Finset.sum_lt_sum (fun m _ => mul_le_mul_of_nonneg_left (hb0 m).1 (hJ m).le)
          ⟨q, Finset.mem_univ _, mul_lt_mul_of_pos_left (by rw [e2']; exact hlt) (hJ q)⟩
      rw [← Finset.sum_mul, hco.volumes, hco.mean] at this
      exact lt_of_mul_lt_mul_left this hM.le
    · have : ∑ m, J m * phi 0 m < ∑ m, J m * ps 1 0 :=
        Finset.sum_lt_sum (fun m _ => mul_le_mul_of_nonneg_left (hb0 m).2 (hJ m).le)
          ⟨p, Finset.mem_univ _, mul_lt_mul_of_pos_left (by rw [e1']; exact hlt) (hJ p)⟩
      rw [← Finset.sum_mul, hco.volumes, hco.mean] at this
      exact lt_of_mul_lt_mul_left this hM.le

/-- **C76**, when the homogeneous mixture is best: it has the least mean free energy among all ways of
dividing it into phases if and only if its composition does not separate into two different phases in
equilibrium. -/
theorem C76_homogeneous_optimal {S : ℕ} {X : Mat S S ℝ} {feat : Fin 2 → Fin S} {l phiMeans : Vec 2 ℝ}
    (hs : ∀ r q, X r q = X q r) (hl : ∀ i, 0 < l i) (hpos : ∀ i, 0 < phiMeans i)
    (hsum : ∑ i, phiMeans i = 1) :
    LowerBound (liftChis X feat) l phiMeans (freeEnergy (liftChis X feat) l phiMeans) ↔
      ¬ ∃ (J : Vec 2 ℝ) (phi : Mat 2 2 ℝ), Coexistence X feat l phiMeans J phi ∧ (∀ m, 0 < J m) ∧
        phi 0 0 ≠ phi 0 1 := by
  have hsum' := hsum
  rw [Fin.sum_univ_two] at hsum'
  have hp0 := hpos 0
  have hp1 : phiMeans 0 < 1 := by linarith [hpos 1]
  constructor
  · rintro hbound ⟨J, phi, hco, hJ, hne⟩
    obtain ⟨p, q, hlt⟩ : ∃ p q, phi 0 p < phi 0 q := by
      rcases lt_or_gt_of_ne hne with h | h
      · exact ⟨_, _, h⟩
      · exact ⟨_, _, h⟩
    obtain ⟨s, t, h1, h2, h3⟩ := binodal_line (chis := liftChis X feat) (hs _ _) hl hco.balanced
      (p := p) (q := q) hlt
    have hpart : Partition phiMeans J fun m i => phi i m :=
      ⟨by norm_num, fun m => (hJ m).le, hco.volumes, fun m i => (hco.pos i m).le, hco.incompressible,
        hco.mean⟩
    have hE := hbound 2 J _ hpart
    have e : meanEnergy (liftChis X feat) l J (fun m i => phi i m) = s + t * phiMeans 0 := by
      unfold meanEnergy
      rw [div_eq_iff (by norm_num)]
      have e2 : ∀ m, J m * (freeEnergy (liftChis X feat) l fun i => phi i m) =
          s * J m + t * (J m * phi 0 m) := fun m => by rw [h2 m]; ring
      rw [Finset.sum_congr rfl fun m _ => e2 m, Finset.sum_add_distrib, ← Finset.mul_sum,
        ← Finset.mul_sum, hco.volumes, hco.mean]
      ring
    rw [e, freeEnergy_binary (chis := liftChis X feat) (hs _ _) hsum] at hE
    have hv := hco.volumes
    have hm := hco.mean 0
    rw [Fin.sum_univ_two] at hv hm
    have hv' : J 0 + J 1 = 2 := by exact_mod_cast hv
    have hm' : J 0 * phi 0 0 + J 1 * phi 0 1 = 2 * phiMeans 0 := by exact_mod_cast hm
    have hz : phiMeans 0 ∈ Set.Ioo (phi 0 p) (phi 0 q) := by
      have j0 := hJ 0
      have j1 := hJ 1
      fin_cases p <;> fin_cases q
      · exact absurd hlt (lt_irrefl _)
      · have hlt : phi 0 0 < phi 0 1 := hlt
        refine ⟨?_, ?_⟩
        · show phi 0 0 < _
          nlinarith
        · show _ < phi 0 1
          nlinarith
      · have hlt : phi 0 1 < phi 0 0 := hlt
        refine ⟨?_, ?_⟩
        · show phi 0 1 < _
          nlinarith
        · show _ < phi 0 0
          nlinarith
      · exact absurd hlt (lt_irrefl _)
    exact absurd hE (not_le.mpr (h3 _ hz))
  · intro hno
    rw [freeEnergy_binary (chis := liftChis X feat) (hs _ _) hsum]
    have hd := Binary.supporting_line (a := 1 / 2 * (liftChis X feat 0 0 + liftChis X feat 1 1) -
      liftChis X feat 0 1) (b := liftChis X feat 0 1 - liftChis X feat 1 1)
      (c := 1 / 2 * liftChis X feat 1 1) (hl 0) (hl 1) hp0 hp1 (by
        rintro ⟨s, t, x, y, hx, hy, tx, ty⟩
        apply hno
        obtain ⟨J, phi, hco, hJ, ⟨p, hp, e1⟩, q, hq, e2⟩ := exists_coexistence (X := X) (feat := feat)
          (balanced_of_touches (chis := liftChis X feat) (hs _ _) tx ty) le_rfl hsum hx hy
        have hp : p = 0 := Fin.ext hp
        have hq : q = 1 := Fin.ext hq
        subst hp hq
        have e1 : phi 0 0 = x := congrFun e1 0
        have e2 : phi 0 1 = y := congrFun e2 0
        exact ⟨J, phi, hco, hJ, by rw [e1, e2]; linarith⟩)
    obtain ⟨s, t, h1, h2⟩ := hd
    rw [h2]
    exact lowerBound_of_line (hs _ _) h1

end Binary

/-! ## Examples -/

theorem Demo.coex_above : 1 / 2 * (1 / √((1 : ℝ)) + 1 / √1) ^ 2 <
    Demo.coexFH.chis 0 1 - 1 / 2 * (Demo.coexFH.chis 0 0 + Demo.coexFH.chis 1 1) := by
  have h : 1 < Real.log 3 := by
    rw [Real.lt_log_iff_exp_lt (by norm_num)]
    have := Real.exp_one_lt_d9
    linarith
  simp [Demo.coexFH, FHCompiled.new]
  norm_num
  linarith

theorem Demo.coex_symm (r q : Fin 2) : Demo.coexFH.chis r q = Demo.coexFH.chis q r := by
  fin_cases r <;> fin_cases q <;> simp [Demo.coexFH, FHCompiled.new]

-- C76: `χ = 2 ln 3` is above the critical point `χ = 2` of molecules of equal size.
example : ∃ phi : Fin 2 → Vec 2 ℝ, Balanced Demo.coexFH.chis (fun _ => 1) phi ∧ phi 0 ≠ phi 1 :=
  (C76_critical (Demo.coex_symm 0 1) (by simp)).mpr Demo.coex_above

-- At the critical point itself there is only one phase.
example : ¬ ∃ phi : Fin 2 → Vec 2 ℝ, Balanced ![![0, 2], ![2, 0]] (fun _ => 1) phi ∧ phi 0 ≠ phi 1 := by
  rw [C76_critical (by simp) (by simp)]
  norm_num

-- The phases of the example are best, and the homogeneous mixture is not.
example : LowerBound (liftChis Demo.coexFH.chis id) (fun _ => 1) Demo.coexEns.phiMeans
    (meanEnergy (liftChis Demo.coexFH.chis id) (fun _ => 1) ![1 / 2, 3 / 2] fun m i => Demo.coexPhi i m) :=
  C76_phases_optimal Demo.coex_symm (by simp) Demo.coexistence (p := 0) (q := 1)
    (by norm_num [Demo.coexPhi])

example : ¬ LowerBound (liftChis Demo.coexFH.chis id) (fun _ => 1) Demo.coexEns.phiMeans
    (freeEnergy (liftChis Demo.coexFH.chis id) (fun _ => 1) Demo.coexEns.phiMeans) := by
  rw [C76_homogeneous_optimal Demo.coex_symm (by simp)
    (by intro i; fin_cases i <;> norm_num [Demo.coexEns])
    (by norm_num [Demo.coexEns, Fin.sum_univ_two]), not_not]
  exact ⟨_, _, Demo.coexistence, by intro m; fin_cases m <;> norm_num [Demo.coexState],
    by norm_num [Demo.coexPhi]⟩

-- Every mean composition between the two phases separates, here into three compartments.
example : ∃ lo hi : Vec 2 ℝ, lo 0 < hi 0 ∧ ∃ (J : Vec 3 ℝ) (phi : Mat 2 3 ℝ),
    Coexistence Demo.coexFH.chis id (fun _ => 1) Demo.coexEns.phiMeans J phi ∧
      (∃ p, (fun i => phi i p) = lo) ∧ ∃ q, (fun i => phi i q) = hi := by
  obtain ⟨lo, hi, h1, -, -, -, h5, h6⟩ := C76_phase_diagram (feat := id) (l := fun _ => 1)
    Demo.coex_symm (by simp) Demo.coex_above
  obtain ⟨a1, a2, -⟩ := h6 _ _ _ _ Demo.coexistence
    (by intro m; fin_cases m <;> norm_num [Demo.coexState]) ⟨0, 1, by norm_num [Demo.coexPhi]⟩
  obtain ⟨J, phi, b1, -, b2, b3⟩ := h5 Demo.coexEns.phiMeans 3 (by norm_num)
    (by norm_num [Demo.coexEns, Fin.sum_univ_two]) a1 a2
  exact ⟨lo, hi, h1, J, phi, b1, b2, b3⟩

-- A run below the critical point whose errors vanish, so that it has errors of at most every `δ`.
example {ε : ℝ} (hε : 0 < ε) : ∃ f ph d, runImpl { Demo.coexEnv with ia := Demo.attract.toI 2 } 1000000
    (1 / 100000) 10000
    { Demo.coexState with
      Js := fun _ => 1
      omegas := fun r _ => ∑ j, Demo.attract.chis r j * Demo.coexEns.phiMeans j } 32 =
    (f, .ok (ph, d)) ∧ ∀ p q, |ph.fractions p 0 - ph.fractions q 0| < ε := by
  have hen : IsIdealGas Demo.coexEnv.en (fun _ => (1 : ℝ)) id :=
    (⟨fun _ => 1⟩ : IdealC 2).isIdealGas (M := 2)
  obtain ⟨f, ph, d, h⟩ := run_ok (e := { Demo.coexEnv with ia := Demo.attract.toI 2 })
    (maxSteps := 1000000) (interval := 10000)
    (tol := 1 / 100000) (rngZero_ok ℝ) hen Demo.coexEns.total
    (by simp [Demo.coexEnv, Demo.params]) (by simp [Demo.coexEnv, Demo.params])
    (by simp [Demo.coexEnv, Demo.params]) (by simp [Demo.coexEnv, Demo.params]) rfl (by norm_num)
    (by norm_num) { Demo.coexState with
      Js := fun _ => 1
      omegas := fun r _ => ∑ j, Demo.attract.chis r j * Demo.coexEns.phiMeans j } 32
    (by simp [Demo.coexState, Cons.Proper])
    (Or.inl ⟨0, by simp [Demo.coexEnv, Demo.params]⟩)
  have h0 := C61_homogeneous_stationary (e := { Demo.coexEnv with ia := Demo.attract.toI 2 })
    (ia := Demo.attract) (es := Demo.coexEns)
    (c := 0) (by simp [Demo.coexEnv, Demo.params]) (by simp [Demo.coexEnv, Demo.params]) rfl hen rfl
    (by simp [Demo.coexEns, Fin.sum_univ_two]; norm_num) (fun _ => rfl) (by simp)
    (by
      intro k hk
      simp only [Demo.coexState, List.mem_cons, List.not_mem_nil, or_false] at hk
      rcases hk with rfl | rfl
      · simp [Fulfilled, NoC.new]
      · refine ⟨fun a => rfl, fun a => ?_⟩
        simp [GlobalC.new, Fin.sum_univ_two, Demo.coexEns]) h
  obtain ⟨δ, hδ, key⟩ := C76_no_separation_runs Demo.attract (sizes := fun _ => 1) id
    (by intro r q; fin_cases r <;> fin_cases q <;> simp [Demo.attract, FHCompiled.new]) (by simp)
    (by norm_num [Demo.attract, FHCompiled.new]) hε
  refine ⟨f, ph, d, h, ?_⟩
  exact key 2 { Demo.coexEnv with ia := Demo.attract.toI 2 } _ _ _ _ _ _ _ _ _ (rngZero_ok ℝ)
    (by simp [Demo.coexEnv, Demo.params]) rfl hen
    Demo.coexEns.scales
    (by
      intro i Q hQ
      have := hQ i
      fin_cases i <;> simp [Demo.coexEns] <;> positivity)
    (by
      intro c hc
      simp only [Demo.coexState, List.mem_cons, List.not_mem_nil, or_false] at hc
      rcases hc with rfl | rfl <;> simp [Cons.NotLocal, NoC.new])
    h (Spec.ErrorsLE.mono ⟨h0.2.2.2.2.1.le, h0.2.2.2.2.2.1.le, h0.2.2.2.2.2.2.1.le⟩ hδ.le)

end Flory
