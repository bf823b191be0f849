import Verif.Lemmas.Merge
import Verif.Props.Uniform

/-! # Passes in which all compartments have nearly the same fields -/


set_option linter.unusedSectionVars false

namespace Flory

open Spec

variable {G : Type} {C S M : ℕ} [NeZero M]

/-- What a pass does when the fields of all compartments agree up to `U`. -/
structure NearPass (A U : ℝ) (chis : Mat S S ℝ) (feat : Fin C → Fin S) (x : Vec C ℝ)
    (s : State C S M ℝ G) (t : Trace C S M ℝ G) : Prop where
  phis : ∀ i m, |t.phisComp i m - x i| ≤ A * U
  incomp : ∀ m, |t.incomp m| ≤ A * U
  jsDiff : ∀ m, |t.JsDiff m| ≤ A * U
  omegaDiff : ∀ r m, |t.omegaDiff r m +
    (s.omegas r m - homogeneousField chis feat x (fun q => s.omegas q m) r)| ≤ A * U

variable {ia : FHCompiled S ℝ} {en : EntropyI C S M ℝ} {es : CanonicalC C ℝ} {rng : Rng G ℝ}
  {p : Params ℝ} {tries : ℤ} {count : ℕ} {s : State C S M ℝ G} {t : Trace C S M ℝ G}
  {l : Vec C ℝ} {feat : Fin C → Fin S}

theorem abs_div_nat_le (x : ℝ) (n : ℕ) : |x / n| ≤ |x| := by
  rcases Nat.eq_zero_or_pos n with rfl | h
  · simp
  · rw [abs_div, Nat.abs_cast]
    exact div_le_self (abs_nonneg x) (by exact_mod_cast h)

/-- Canonical fractions of compartments whose fields agree up to `U`. -/
theorem IterFacts.near_means (h : IterFacts (ia.toI M) en (es.toI M) rng p tries count s t)
    (hen : IsIdealGas en l feat) (hl : ∀ i, 0 < l i) (hx : ∀ i, 0 ≤ es.phiMeans i)
    (hmk : ∀ m, t.masks m = 1) (hJ : ∀ m, 0 ≤ t.JsOld m) (hJs : ∑ m, t.JsOld m = M) {U : ℝ}
    (hU : ∀ r m n, |t.omegasOld r m - t.omegasOld r n| ≤ U) (i : Fin C) (m : Fin M) :
    es.phiMeans i * Real.exp (-(l i * U)) ≤ t.phisComp i m ∧
      t.phisComp i m ≤ es.phiMeans i * Real.exp (l i * U) := by
  have hM : (0 : ℝ) < M := by exact_mod_cast Nat.pos_of_ne_zero (NeZero.ne M)
  have hes : Scales (es.toI M) fun Qs i => es.phiMeans i / Qs i := es.scales
  set w : Vec M ℝ := fun n => Real.exp (-t.omegasOld (feat i) n * l i) with hw
  have hwpos : ∀ n, 0 < w n := fun n => Real.exp_pos _
  have hQ : t.Qs i = (∑ n, w n * t.JsOld n) / M := by rw [h.Qs_eq hen, hJs]
  have hup : ∀ n, w n ≤ w m * Real.exp (l i * U) := by
    intro n
    rw [hw, ← Real.exp_add]
    refine Real.exp_le_exp.mpr ?_
    have := (abs_le.mp (hU (feat i) m n)).2
    nlinarith [hl i]
  have hlo : ∀ n, w m * Real.exp (-(l i * U)) ≤ w n := by
    intro n
    rw [hw, ← Real.exp_add]
    refine Real.exp_le_exp.mpr ?_
    have := (abs_le.mp (hU (feat i) m n)).1
    nlinarith [hl i]
  have hQup : t.Qs i ≤ w m * Real.exp (l i * U) := by
    rw [hQ, div_le_iff₀ hM, ← hJs, Finset.mul_sum]
    exact Finset.sum_le_sum fun n _ => mul_le_mul_of_nonneg_right (hup n) (hJ n)
  have hQlo : w m * Real.exp (-(l i * U)) ≤ t.Qs i := by
    rw [hQ, le_div_iff₀ hM, ← hJs, Finset.mul_sum]
    exact Finset.sum_le_sum fun n _ => mul_le_mul_of_nonneg_right (hlo n) (hJ n)
  have hQpos : 0 < t.Qs i := lt_of_lt_of_le (mul_pos (hwpos m) (Real.exp_pos _)) hQlo
  have hphi : t.phisComp i m = es.phiMeans i * (w m / t.Qs i) := by
    rw [h.phis_eq hen hes, hmk, mul_one]
    simp only [hw]
    ring
  rw [hphi]
  constructor
  · refine mul_le_mul_of_nonneg_left ?_ (hx i)
    rw [le_div_iff₀ hQpos]
    calc _ ≤ Real.exp (-(l i * U)) * (w m * Real.exp (l i * U)) :=
          mul_le_mul_of_nonneg_left hQup (Real.exp_pos _).le
      _ = w m := by
          rw [mul_left_comm, ← Real.exp_add, neg_add_cancel, Real.exp_zero, mul_one]
  · refine mul_le_mul_of_nonneg_left ?_ (hx i)
    rw [div_le_iff₀ hQpos]
    calc w m = Real.exp (l i * U) * (w m * Real.exp (-(l i * U))) := by
          rw [mul_left_comm, ← Real.exp_add, add_neg_cancel, Real.exp_zero, mul_one]
      _ ≤ _ := mul_le_mul_of_nonneg_left hQlo (Real.exp_pos _).le

theorem exp_sub_one_bound {c U : ℝ} (hc : 0 ≤ c) (h0 : 0 ≤ U) (h1 : U ≤ 1) :
    Real.exp (c * U) - 1 ≤ c * Real.exp c * U ∧ 1 - Real.exp (-(c * U)) ≤ c * Real.exp c * U := by
  have hcU : c * U ≤ c := by nlinarith
  have e1 : Real.exp (c * U) ≤ Real.exp c := Real.exp_le_exp.mpr hcU
  have e2 : 1 ≤ Real.exp c := Real.one_le_exp hc
  have e3 : 1 - c * U ≤ Real.exp (-(c * U)) := by
    have := Real.add_one_le_exp (-(c * U)); linarith
  have e4 : Real.exp (c * U) * Real.exp (-(c * U)) = 1 := by rw [← Real.exp_add]; simp
  have hcU0 : 0 ≤ c * U := mul_nonneg hc h0
  constructor
  · nlinarith [Real.exp_pos (c * U)]
  · nlinarith

/-- All bounds of a pass near a uniform state. -/
theorem exists_near_bound (ia : FHCompiled S ℝ) (es : CanonicalC C ℝ) (M : ℕ) [NeZero M] (l : Vec C ℝ)
    (feat : Fin C → Fin S) (hl : ∀ i, 0 < l i) (hx : ∀ i, 0 ≤ es.phiMeans i)
    (hsum : ∑ i, es.phiMeans i = 1) :
    ∃ A > 0, ∀ {en : EntropyI C S M ℝ} {rng : Rng G ℝ} {p : Params ℝ} {tries : ℤ} {count : ℕ}
      {s : State C S M ℝ G} {t : Trace C S M ℝ G} {U : ℝ},
      IterFacts (ia.toI M) en (es.toI M) rng p tries count s t → IsIdealGas en l feat →
      0 ≤ p.killThreshold → (∀ m, p.killThreshold < s.Js m) → ∑ m, s.Js m = M →
      (∀ c ∈ s.cons, c.Trivial) → (∀ r m n, |s.omegas r m - s.omegas r n| ≤ U) → 0 ≤ U → U ≤ 1 →
      NearPass A U ia.chis feat es.phiMeans s t := by
  set A1 := ∑ i, es.phiMeans i * (l i * Real.exp (l i)) with hA1
  have hA1i : ∀ i, es.phiMeans i * (l i * Real.exp (l i)) ≤ A1 := fun i =>
    Finset.single_le_sum (f := fun i => es.phiMeans i * (l i * Real.exp (l i)))
      (fun j _ => mul_nonneg (hx j) (mul_nonneg (hl j).le (Real.exp_pos _).le)) (Finset.mem_univ i)
  have hA10 : 0 ≤ A1 := Finset.sum_nonneg fun j _ =>
    mul_nonneg (hx j) (mul_nonneg (hl j).le (Real.exp_pos _).le)
  set A2 := ∑ r : Fin S, ∑ j, |ia.chis r (feat j)| with hA2
  have hA20 : 0 ≤ A2 := Finset.sum_nonneg fun r _ => Finset.sum_nonneg fun j _ => abs_nonneg _
  have hA2r : ∀ r, ∑ j, |ia.chis r (feat j)| ≤ A2 := fun r =>
    Finset.single_le_sum (f := fun r => ∑ j, |ia.chis r (feat j)|)
      (fun r _ => Finset.sum_nonneg fun j _ => abs_nonneg _) (Finset.mem_univ r)
  set X := ∑ i, ∑ j, |liftChis ia.chis feat i j| with hX
  have hX0 : 0 ≤ X := Finset.sum_nonneg fun r _ => Finset.sum_nonneg fun j _ => abs_nonneg _
  set Λ := ∑ i, 1 / l i with hΛ
  have hΛ0 : 0 ≤ Λ := Finset.sum_nonneg fun i _ => (one_div_pos.mpr (hl i)).le
  set B := 1 + A1 with hB
  have hB0 : 0 ≤ B := by positivity
  set κ := |ia.coef| with hκ
  have hκ0 : 0 ≤ κ := abs_nonneg _
  have hC0 : (0 : ℝ) ≤ C := Nat.cast_nonneg _
  have hS0 : (0 : ℝ) ≤ S := Nat.cast_nonneg _
  set T := 2 * X * B + 2 * Λ + 2 * κ * C + 2 * S * A2 + κ * C + S * A2 + A2 + C + 1 with hT
  clear_value A1 A2 X Λ B κ
  have hT0 : 0 ≤ T := by positivity
  clear_value T
  refine ⟨A1 * T + S + 1, by positivity, ?_⟩
  intro en rng p tries count s t U h hen hthr hal hvol hc hU hU0 hU1
  obtain ⟨hmk, hJ, hom, -, hn⟩ := h.masks_one hal
  have hM : (0 : ℝ) < M := by exact_mod_cast Nat.pos_of_ne_zero (NeZero.ne M)
  have hes : Scales (es.toI M) fun Qs i => es.phiMeans i / Qs i := es.scales
  have hJ0 : ∀ m, 0 ≤ s.Js m := fun m => hthr.trans (hal m).le
  set δ := A1 * U with hδ
  have hδ0 : 0 ≤ δ := mul_nonneg hA10 hU0
  clear_value δ
  have hphi : ∀ i m, |t.phisComp i m - es.phiMeans i| ≤ δ := by
    intro i m
    obtain ⟨b1, b2⟩ := h.near_means hen hl hx hmk (by rw [hJ]; exact hJ0) (by rw [hJ]; exact hvol)
      (U := U) (by rw [hom]; exact hU) i m
    obtain ⟨c1, c2⟩ := exp_sub_one_bound (hl i).le hU0 hU1
    have h1 := hA1i i
    have hm1 := mul_le_mul_of_nonneg_left c1 (hx i)
    have hm2 := mul_le_mul_of_nonneg_left c2 (hx i)
    have hm3 := mul_le_mul_of_nonneg_right h1 hU0
    rw [abs_le]
    constructor <;> nlinarith
  have hphi2 : ∀ i m n, |t.phisComp i m - t.phisComp i n| ≤ 2 * δ := by
    intro i m n
    have h1 := abs_le.mp (hphi i m)
    have h2 := abs_le.mp (hphi i n)
    rw [abs_le]; constructor <;> linarith
  have hphiB : ∀ i m, |t.phisComp i m| ≤ B := by
    intro i m
    have h1 := abs_le.mp (hphi i m)
    have h2 : es.phiMeans i ≤ 1 := by
      rw [← hsum]
      exact Finset.single_le_sum (fun j _ => hx j) (Finset.mem_univ i)
    have h3 : δ ≤ A1 := by rw [hδ]; nlinarith
    rw [abs_le]
    constructor <;> linarith [hx i]
  have hinc : ∀ m, |t.incomp m| ≤ C * δ := by
    intro m
    rw [h.incomp_eq hes, hmk, mul_one, ← hsum, ← Finset.sum_sub_distrib]
    refine (Finset.abs_sum_le_sum_abs _ _).trans ?_
    refine (Finset.sum_le_sum fun i _ => hphi i m).trans (le_of_eq ?_)
    simp
  have hpot : ∀ r m, |t.potential r m - ∑ j, ia.chis r (feat j) * es.phiMeans j| ≤ A2 * δ := by
    intro r m
    rw [h.potential_feat hen, ← Finset.sum_sub_distrib]
    refine (Finset.abs_sum_le_sum_abs _ _).trans ?_
    refine (Finset.sum_le_sum (g := fun j => |ia.chis r (feat j)| * δ) fun j _ => ?_).trans ?_
    · rw [← mul_sub, abs_mul]
      exact mul_le_mul_of_nonneg_left (hphi j m) (abs_nonneg _)
    · rw [← Finset.sum_mul]
      exact mul_le_mul_of_nonneg_right (hA2r r) hδ0
  have hsumS : ∀ (f : Fin S → ℝ) (b : ℝ), (∀ r, |f r| ≤ b) → |∑ r, f r| ≤ S * b := by
    intro f b hf
    refine (Finset.abs_sum_le_sum_abs _ _).trans ?_
    refine (Finset.sum_le_sum fun r _ => hf r).trans (le_of_eq ?_)
    simp
  have hxi : ∀ m n, |t.xi m - t.xi n| ≤ 2 * κ * C * δ + S * (U + 2 * A2 * δ) := by
    intro m n
    rw [h.xi_trivial hes hc (hmk m), h.xi_trivial hes hc (hmk n), ← sub_div]
    refine (abs_div_nat_le _ _).trans ?_
    have i1 := hinc m
    have i2 := hinc n
    rw [h.incomp_eq hes, hmk, mul_one] at i1 i2
    have e1 : ia.coef * (∑ i, t.phisComp i m - 1) + ∑ r, (t.omegasOld r m - t.potential r m) -
        (ia.coef * (∑ i, t.phisComp i n - 1) + ∑ r, (t.omegasOld r n - t.potential r n)) =
        ia.coef * ((∑ i, t.phisComp i m - 1) - (∑ i, t.phisComp i n - 1)) +
        ∑ r, ((t.omegasOld r m - t.potential r m) - (t.omegasOld r n - t.potential r n)) := by
      simp only [Finset.sum_sub_distrib]; ring
    rw [e1]
    refine (abs_add_le _ _).trans (add_le_add ?_ (hsumS _ _ fun r => ?_))
    · rw [abs_mul]
      have : |(∑ i, t.phisComp i m - 1) - (∑ i, t.phisComp i n - 1)| ≤ 2 * (C * δ) := by
        rw [abs_le] at i1 i2 ⊢
        constructor <;> linarith [i1.1, i1.2, i2.1, i2.2]
      calc _ ≤ |ia.coef| * (2 * (C * δ)) := mul_le_mul_of_nonneg_left this (abs_nonneg _)
        _ = _ := by rw [← hκ]; ring
    · have j1 := abs_le.mp (hU r m n)
      have j2 := abs_le.mp (hpot r m)
      have j3 := abs_le.mp (hpot r n)
      rw [hom, abs_le]
      constructor <;> linarith [j1.1, j1.2, j2.1, j2.2, j3.1, j3.2]
  have hle : ∀ m n, |t.localEnergy m - t.localEnergy n| ≤ (A1 * T + S + 1) * U := by
    intro m n
    rw [h.localEnergy_eq hen hes (hmk m), h.localEnergy_eq hen hes (hmk n)]
    simp only [(h.cons_trivial hc).1, (h.cons_trivial hc).2, zero_mul, Finset.sum_const_zero, sub_zero,
      add_zero]
    have q1 : |∑ i, ∑ j, liftChis ia.chis feat i j * t.phisComp i m * t.phisComp j m -
        ∑ i, ∑ j, liftChis ia.chis feat i j * t.phisComp i n * t.phisComp j n| ≤ X * (4 * B * δ) := by
      rw [← Finset.sum_sub_distrib, hX, Finset.sum_mul]
      refine (Finset.abs_sum_le_sum_abs _ _).trans (Finset.sum_le_sum fun i _ => ?_)
      rw [← Finset.sum_sub_distrib, Finset.sum_mul]
      refine (Finset.abs_sum_le_sum_abs _ _).trans (Finset.sum_le_sum fun j _ => ?_)
      have : liftChis ia.chis feat i j * t.phisComp i m * t.phisComp j m -
          liftChis ia.chis feat i j * t.phisComp i n * t.phisComp j n = liftChis ia.chis feat i j *
          (t.phisComp i m * (t.phisComp j m - t.phisComp j n) +
            (t.phisComp i m - t.phisComp i n) * t.phisComp j n) := by ring
      rw [this, abs_mul]
      refine mul_le_mul_of_nonneg_left ?_ (abs_nonneg _)
      refine (abs_add_le _ _).trans ?_
      rw [abs_mul, abs_mul]
      have k1 := mul_le_mul (hphiB i m) (hphi2 j m n) (abs_nonneg _) hB0
      have k2 := mul_le_mul (hphi2 i m n) (hphiB j n) (abs_nonneg _) (by positivity)
      linarith
    have q2 : |∑ i, t.phisComp i m / l i - ∑ i, t.phisComp i n / l i| ≤ Λ * (2 * δ) := by
      rw [← Finset.sum_sub_distrib, hΛ, Finset.sum_mul]
      refine (Finset.abs_sum_le_sum_abs _ _).trans (Finset.sum_le_sum fun i _ => ?_)
      rw [← sub_div, abs_div, abs_of_pos (hl i), div_eq_inv_mul, one_div]
      exact mul_le_mul_of_nonneg_left (hphi2 i m n) (inv_pos.mpr (hl i)).le
    have q3 := hxi m n
    have hTU : (A1 * T + S + 1) * U = 2 * X * B * δ + 2 * Λ * δ + 2 * κ * C * δ + 2 * S * A2 * δ +
        κ * C * δ + S * A2 * δ + A2 * δ + C * δ + δ + S * U + U := by rw [hT, hδ]; ring
    have z1 : 0 ≤ κ * C * δ + S * A2 * δ + A2 * δ + C * δ + δ + U := by positivity
    rw [hTU]
    rw [abs_le] at q1 q2 q3 ⊢
    constructor <;> linarith [q1.1, q1.2, q2.1, q2.2, q3.1, q3.2]
  have hTU : (A1 * T + S + 1) * U = 2 * X * B * δ + 2 * Λ * δ + 2 * κ * C * δ + 2 * S * A2 * δ +
      κ * C * δ + S * A2 * δ + A2 * δ + C * δ + δ + S * U + U := by rw [hT, hδ]; ring
  refine ⟨fun i m => (hphi i m).trans ?_, fun m => (hinc m).trans ?_, fun m => ?_, fun r m => ?_⟩
  · rw [hTU]
    have : 0 ≤ 2 * X * B * δ + 2 * Λ * δ + 2 * κ * C * δ + 2 * S * A2 * δ +
      κ * C * δ + S * A2 * δ + A2 * δ + C * δ + S * U + U := by positivity
    linarith
  · rw [hTU]
    have : 0 ≤ 2 * X * B * δ + 2 * Λ * δ + 2 * κ * C * δ + 2 * S * A2 * δ +
      κ * C * δ + S * A2 * δ + A2 * δ + δ + S * U + U := by positivity
    linarith
  · rw [h.JsDiff, hmk, mul_one, h.localEnergyMean, hn, hJ]
    have e1 : (∑ n, t.localEnergy n * s.Js n) / M - t.localEnergy m =
        (∑ n, (t.localEnergy n - t.localEnergy m) * s.Js n) / M := by
      rw [eq_div_iff hM.ne', sub_mul, div_mul_cancel₀ _ hM.ne']
      simp only [sub_mul, Finset.sum_sub_distrib, ← Finset.mul_sum, hvol]
    rw [e1, abs_div, abs_of_pos hM, div_le_iff₀ hM, ← hvol, Finset.mul_sum]
    refine (Finset.abs_sum_le_sum_abs _ _).trans (Finset.sum_le_sum fun n _ => ?_)
    rw [abs_mul, abs_of_nonneg (hJ0 n)]
    exact mul_le_mul_of_nonneg_right (hle n m) (hJ0 n)
  · refine le_trans (b := A2 * δ + κ * C * δ + S * A2 * δ) ?_ ?_
    · rw [h.omegaDiff, hmk, mul_one, (h.cons_trivial hc).1, h.xi_trivial hes hc (hmk m), hom]
      unfold homogeneousField
      have e1 : t.potential r m + 0 + (ia.coef * (∑ i, t.phisComp i m - 1) +
          ∑ r, (s.omegas r m - t.potential r m)) / S - s.omegas r m +
          (s.omegas r m - (∑ j, ia.chis r (feat j) * es.phiMeans j +
            (∑ q, (s.omegas q m - ∑ j, ia.chis q (feat j) * es.phiMeans j)) / S)) =
          (t.potential r m - ∑ j, ia.chis r (feat j) * es.phiMeans j) +
          (ia.coef * (∑ i, t.phisComp i m - 1)) / S -
          (∑ q, (t.potential q m - ∑ j, ia.chis q (feat j) * es.phiMeans j)) / S := by
        simp only [Finset.sum_sub_distrib]
        ring
      rw [e1]
      have i1 := hinc m
      rw [h.incomp_eq hes, hmk, mul_one] at i1
      have k1 : |ia.coef * (∑ i, t.phisComp i m - 1) / S| ≤ κ * C * δ := by
        refine (abs_div_nat_le _ _).trans ?_
        rw [abs_mul, mul_assoc, ← hκ]
        exact mul_le_mul_of_nonneg_left i1 hκ0
      have k2 : |(∑ q, (t.potential q m - ∑ j, ia.chis q (feat j) * es.phiMeans j)) / S| ≤ S * A2 * δ := by
        refine (abs_div_nat_le _ _).trans ?_
        rw [mul_assoc]
        exact hsumS _ _ fun q => hpot q m
      have k3 := hpot r m
      rw [abs_le] at k1 k2 k3 ⊢
      constructor <;> linarith [k1.1, k1.2, k2.1, k2.2, k3.1, k3.2]
    · rw [hTU]
      have : 0 ≤ 2 * X * B * δ + 2 * Λ * δ + 2 * κ * C * δ + 2 * S * A2 * δ +
        C * δ + δ + S * U + U := by positivity
      linarith

/-- The target of the fields moves by the mean change. -/
theorem homogeneousField_add (chis : Mat S S ℝ) (feat : Fin C → Fin S) (phi : Vec C ℝ) (w v : Vec S ℝ)
    (r : Fin S) : homogeneousField chis feat phi (fun q => w q + v q) r =
      homogeneousField chis feat phi w r + (∑ q, v q) / S := by
  unfold homogeneousField
  simp only [Finset.sum_sub_distrib, Finset.sum_add_distrib]
  ring

theorem sum_sub_homogeneousField (chis : Mat S S ℝ) (feat : Fin C → Fin S) (phi : Vec C ℝ) (w : Vec S ℝ) :
    ∑ r, (w r - homogeneousField chis feat phi w r) = 0 := by
  rcases Nat.eq_zero_or_pos S with rfl | h
  · simp
  · have hS : (S : ℝ) ≠ 0 := by exact_mod_cast h.ne'
    unfold homogeneousField
    simp only [Finset.sum_sub_distrib, Finset.sum_add_distrib, Finset.sum_const, Finset.card_univ,
      Fintype.card_fin, nsmul_eq_mul]
    field_simp
    ring

/-- Volumes and fields after such a pass. -/
theorem NearPass.step {A U : ℝ} (h : IterFacts (ia.toI M) en (es.toI M) rng p tries count s t)
    (hN : NearPass A U ia.chis feat es.phiMeans s t) (hb : 0 < p.JsStepUpperBound)
    (hal : ∀ m, p.killThreshold < s.Js m) (hvol : ∑ m, s.Js m = M)
    (hAU : |p.acceptanceJs| * (A * U) ≤ p.JsStepUpperBound) :
    t.factor = 1 ∧ ∑ m, t.Js m = M ∧ (∀ m, |t.Js m - s.Js m| ≤ 2 * |p.acceptanceJs| * (A * U)) ∧
    (∀ r m, |t.omegas r m - homogeneousField ia.chis feat es.phiMeans (fun q => t.omegas q m) r| ≤
      |1 - p.acceptanceOmega| *
        |s.omegas r m - homogeneousField ia.chis feat es.phiMeans (fun q => s.omegas q m) r| +
      2 * |p.acceptanceOmega| * (A * U)) ∧
    t.maxAbsIncomp ≤ A * U ∧ t.maxAbsJsDiff ≤ A * U := by
  obtain ⟨hmk, hJ, hom, -, hn⟩ := h.masks_one hal
  have hM : (0 : ℝ) < M := by exact_mod_cast Nat.pos_of_ne_zero (NeZero.ne M)
  have hmax : t.maxAbsJsDiff ≤ A * U := by
    rw [h.maxAbsJsDiff]
    obtain ⟨m, hm⟩ := npMax_mem fun m => |t.JsDiff m|
    rw [hm]; exact hN.jsDiff m
  have hmax0 : 0 ≤ t.maxAbsJsDiff := by
    rw [h.maxAbsJsDiff]
    obtain ⟨m, hm⟩ := npMax_mem fun m => |t.JsDiff m|
    rw [hm]; exact abs_nonneg _
  have hinc : t.maxAbsIncomp ≤ A * U := by
    rw [h.maxAbsIncomp]
    obtain ⟨m, hm⟩ := npMax_mem fun m => |t.incomp m|
    rw [hm]; exact hN.incomp m
  have hfac : t.factor = 1 := by
    rw [h.factor, max_eq_right, div_self hb.ne']
    calc t.maxAbsJsDiff * p.acceptanceJs ≤ t.maxAbsJsDiff * |p.acceptanceJs| :=
          mul_le_mul_of_nonneg_left (le_abs_self _) hmax0
      _ ≤ A * U * |p.acceptanceJs| := mul_le_mul_of_nonneg_right hmax (abs_nonneg _)
      _ ≤ _ := by rw [mul_comm]; exact hAU
  have hJs : ∀ m, t.Js m = s.Js m + p.acceptanceJs * (t.JsDiff m - (∑ k, t.JsDiff k) / M) := by
    intro m
    rw [h.Js]
    simp only [hmk, hJ, hfac, hn, one_mul, mul_one, Finset.sum_add_distrib, hvol, ← Finset.mul_sum]
    field_simp
    ring
  have hmean : |(∑ k, t.JsDiff k) / M| ≤ A * U := by
    rw [abs_div, abs_of_pos hM, div_le_iff₀ hM]
    refine (Finset.abs_sum_le_sum_abs _ _).trans ((Finset.sum_le_sum fun k _ => hN.jsDiff k).trans ?_)
    simp [mul_comm]
  refine ⟨hfac, ?_, fun m => ?_, fun r m => ?_, hinc, hmax⟩
  · simp only [hJs, Finset.sum_add_distrib, hvol, ← Finset.mul_sum, Finset.sum_sub_distrib,
      Finset.sum_const, Finset.card_univ, Fintype.card_fin, nsmul_eq_mul]
    field_simp
    ring
  · rw [hJs, add_sub_cancel_left, abs_mul]
    have h1 := abs_le.mp (hN.jsDiff m)
    have h2 := abs_le.mp hmean
    have h3 : |t.JsDiff m - (∑ k, t.JsDiff k) / M| ≤ 2 * (A * U) := by
      rw [abs_le]; constructor <;> linarith [h1.1, h1.2, h2.1, h2.2]
    calc _ ≤ |p.acceptanceJs| * (2 * (A * U)) := mul_le_mul_of_nonneg_left h3 (abs_nonneg _)
      _ = _ := by ring
  · have hw : ∀ q, t.omegas q m = s.omegas q m + p.acceptanceOmega * t.omegaDiff q m := fun q => by
      rw [h.omegas, hom, hmk, hfac]; ring
    have e0 : (fun q => t.omegas q m) = fun q => s.omegas q m + p.acceptanceOmega * t.omegaDiff q m :=
      funext hw
    set z : Vec S ℝ := fun q => s.omegas q m -
      homogeneousField ia.chis feat es.phiMeans (fun q => s.omegas q m) q with hz
    have hz0 : ∑ q, z q = 0 := sum_sub_homogeneousField _ _ _ _
    set er : Vec S ℝ := fun q => t.omegaDiff q m + z q with her
    have her' : ∀ q, |er q| ≤ A * U := fun q => hN.omegaDiff q m
    have hsum : ∑ q, t.omegaDiff q m = ∑ q, er q := by
      simp only [her, Finset.sum_add_distrib, hz0, add_zero]
    rw [e0, homogeneousField_add, hw, ← Finset.mul_sum, hsum]
    have e1 : s.omegas r m + p.acceptanceOmega * t.omegaDiff r m -
        (homogeneousField ia.chis feat es.phiMeans (fun q => s.omegas q m) r +
          p.acceptanceOmega * (∑ q, er q) / S) =
        (1 - p.acceptanceOmega) * z r + p.acceptanceOmega * (er r - (∑ q, er q) / S) := by
      simp only [hz, her]; ring
    rw [e1]
    have hS : (0 : ℝ) < S := by exact_mod_cast r.pos
    have h1 : |(∑ q, er q) / S| ≤ A * U := by
      rw [abs_div, abs_of_pos hS, div_le_iff₀ hS]
      refine (Finset.abs_sum_le_sum_abs _ _).trans ((Finset.sum_le_sum fun k _ => her' k).trans ?_)
      simp [mul_comm]
    have h2 : |er r - (∑ q, er q) / S| ≤ 2 * (A * U) := by
      have h3 := abs_le.mp (her' r)
      have h4 := abs_le.mp h1
      rw [abs_le]; constructor <;> linarith [h3.1, h3.2, h4.1, h4.2]
    refine (abs_add_le _ _).trans (add_le_add (by rw [abs_mul]) ?_)
    rw [abs_mul]
    calc _ ≤ |p.acceptanceOmega| * (2 * (A * U)) := mul_le_mul_of_nonneg_left h2 (abs_nonneg _)
      _ = _ := by ring

end Flory
