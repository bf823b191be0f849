import Verif.Spec.Ieee
import Verif.Lemmas.Double
import Verif.Lemmas.Loops

/-! # Double precision arithmetic obeys the rules -/

namespace Flory

open Spec

theorem double_nat {k : ℕ} (hk : k ≤ 2 ^ 53) : double k = k := by
  rcases Nat.eq_zero_or_pos k with rfl | h0
  · rw [Nat.cast_zero, double_zero]
  -- scale to 53 bits
  obtain ⟨j, h1, h2⟩ : ∃ j : ℕ, 2 ^ 52 ≤ k * 2 ^ j ∧ k * 2 ^ j ≤ 2 ^ 53 := by
    have : ∀ n, ∀ k, 0 < k → k ≤ 2 ^ 53 → 2 ^ 52 ≤ k * 2 ^ n → ∃ j : ℕ, 2 ^ 52 ≤ k * 2 ^ j ∧ k * 2 ^ j ≤ 2 ^ 53 := by
      intro n
      induction n with
      | zero => intro k _ hk h; exact ⟨0, h, by simpa using hk⟩
      | succ n ih =>
        intro k h0 hk h
        by_cases hs : 2 ^ 52 ≤ k
        · exact ⟨0, by simpa using hs, by simpa using hk⟩
        · obtain ⟨j, a, b⟩ := ih (k * 2) (by omega) (by omega) (by rw [mul_assoc, ← pow_succ']; exact h)
          rw [mul_assoc, ← pow_succ'] at a b
          exact ⟨j + 1, a, b⟩
    refine this 52 k h0 hk (by nlinarith)
  have h := double_int (k := ((k * 2 ^ j : ℕ) : ℤ)) (by exact_mod_cast h1) (by exact_mod_cast h2) (-(j : ℤ))
  have e : (((k * 2 ^ j : ℕ) : ℤ) : ℝ) * 2 ^ (-(j : ℤ)) = k := by
    push_cast
    rw [zpow_neg, zpow_natCast, mul_assoc, mul_inv_cancel₀ (by positivity), mul_one]
  rwa [e] at h

theorem toDouble_nat {k : ℕ} (hk : k ≤ 2 ^ 53) : toDouble k = .fin k := by
  unfold toDouble
  rw [double_nat hk, if_pos]
  rw [abs_of_nonneg (Nat.cast_nonneg _)]
  calc (k : ℝ) ≤ 2 ^ 53 := by exact_mod_cast hk
    _ < 2 ^ 1024 := by gcongr <;> norm_num

theorem toDouble_number (x : ℝ) : eqX (toDouble x) (toDouble x) := by
  unfold toDouble
  split_ifs <;> simp [eqX]

theorem addX_fin {a b : XReal} (h : (addX a b).IsFin) : a.IsFin ∧ b.IsFin := by
  cases a <;> cases b <;> simp_all [addX, XReal.add, XReal.IsFin]

theorem negX_fin {a : XReal} : a.neg.IsFin ↔ a.IsFin := by
  cases a <;> simp [XReal.neg, XReal.IsFin]

theorem mulX_fin {a b : XReal} (h : (mulX a b).IsFin) : a.IsFin ∧ b.IsFin := by
  cases a <;> cases b <;> simp_all [mulX, XReal.mulR, XReal.IsFin] <;> split_ifs at h <;>
    simp at h

theorem divX_fin {a b : XReal} (h : (divX a b).IsFin) : a.IsFin := by
  cases a <;> cases b <;> simp_all [divX, XReal.divR, XReal.IsFin] <;> split_ifs at h <;>
    simp at h

theorem ltX_trans {a b c : XReal} (h : ltX a b) (h' : ltX b c) : ltX a c := by
  cases a <;> cases b <;> cases c <;> simp_all [ltX]
  linarith

theorem ltX_of_not {a b c : XReal} (hb : eqX b b) (h : ¬ltX a b) (h' : ltX a c) : ltX b c := by
  cases a <;> cases b <;> cases c <;> simp_all [ltX, eqX]
  linarith

theorem ltX_number {x y : XReal} (h : ltX x y) : eqX x x ∧ eqX y y := by
  cases x <;> cases y <;> simp_all [eqX, ltX]

theorem maxNan_lt {a b t : XReal} (h : ltX (maxNan a b) t) : ltX a t ∧ ltX b t := by
  unfold maxNan at h
  by_cases h1 : eqX a a
  · by_cases h2 : eqX b b
    · rw [if_neg (not_not.mpr h1), if_neg (not_not.mpr h2)] at h
      split_ifs at h with h3
      · exact ⟨ltX_trans h3 h, h⟩
      · exact ⟨h, ltX_of_not h2 h3 h⟩
    · rw [if_neg (not_not.mpr h1), if_pos h2] at h
      exact absurd (ltX_number h).1 h2
  · rw [if_pos h1] at h
    exact absurd (ltX_number h).1 h1

theorem maxNan_number {a b : XReal} (ha : eqX a a) (hb : eqX b b) : eqX (maxNan a b) (maxNan a b) := by
  unfold maxNan
  split_ifs <;> assumption

open Classical in
theorem clip_doubles (a : XReal) : doubles.clip0 a = if ltX a (.fin 0) then .fin 0 else a := rfl

theorem ieee_doubles : Ieee doubles XReal.IsFin where
  add h := addX_fin h
  sub h := ⟨(addX_fin h).1, negX_fin.mp (addX_fin h).2⟩
  mul h := mulX_fin h
  div h := divX_fin h
  sum {n v} h i := by
    have inv := forRange_inv (n := n) (s := XReal.fin 0) (body := fun i acc => addX acc (v i))
      (P := fun k a => a.IsFin → ∀ i : Fin n, i.1 < k → (v i).IsFin)
      (fun _ i hi => absurd hi (Nat.not_lt_zero _)) (by
        intro i a ih hf j hj
        rcases Nat.lt_succ_iff_lt_or_eq.mp hj with hlt | heq
        · exact ih (addX_fin hf).1 j hlt
        · rw [show j = i from Fin.ext heq]; exact (addX_fin hf).2)
    exact inv h i i.2
  dot {n v w} h i := by
    have inv := forRange_inv (n := n) (s := XReal.fin 0) (body := fun i acc => addX acc (mulX (v i) (w i)))
      (P := fun k a => a.IsFin → ∀ i : Fin n, i.1 < k → (v i).IsFin ∧ (w i).IsFin)
      (fun _ i hi => absurd hi (Nat.not_lt_zero _)) (by
        intro i a ih hf j hj
        rcases Nat.lt_succ_iff_lt_or_eq.mp hj with hlt | heq
        · exact ih (addX_fin hf).1 j hlt
        · rw [show j = i from Fin.ext heq]; exact mulX_fin (addX_fin hf).2)
    exact inv h i i.2
  number {x} h := by
    show eqX x x
    cases x <;> simp_all [eqX, XReal.IsFin]
  mul_number {x y} h h' := by
    cases x <;> cases y <;> simp_all [XReal.IsFin]
    exact toDouble_number _
  lt_number h := ltX_number h
  lt_abs {x t} h := by
    have h : ltX (absX x) t := h
    cases x <;> cases t <;> simp_all [absX, ltX, XReal.IsFin]
  abs_number {x} h := by
    have h : eqX x x := h
    show eqX (absX x) (absX x)
    cases x <;> simp_all [absX, eqX]
  lt_max {n _ v t} h i := by
    have inv := forRange_inv (n := n) (s := v 0) (body := fun i acc => maxNan acc (v i))
      (P := fun k a => ltX a t → ∀ i : Fin n, i.1 < k → ltX (v i) t)
      (fun _ i hi => absurd hi (Nat.not_lt_zero _)) (by
        intro i a ih hf j hj
        rcases Nat.lt_succ_iff_lt_or_eq.mp hj with hlt | heq
        · exact ih (maxNan_lt hf).1 j hlt
        · rw [show j = i from Fin.ext heq]; exact (maxNan_lt hf).2)
    exact inv h i i.2
  max_number {n _ v} h :=
    forRange_inv (n := n) (s := v 0) (body := fun i acc => maxNan acc (v i))
      (P := fun _ a => eqX a a) (h 0) fun i a ha => maxNan_number ha (h i)
  max2 x y := by
    rcases Classical.em (ltX x y) with h | h
    · exact (if_pos h).trans (if_pos h).symm
    · exact (if_neg h).trans (if_neg h).symm
  lt_of_not_lt h h' h'' := ltX_of_not h h' h''
  lt_trans h h' := ltX_trans h h'
  zero_number := toDouble_number _
  mask {x} h := by
    have h0 : doubles.ofNat 0 = .fin 0 := by
      show toDouble ((0 : ℕ) : ℝ) = _; rw [toDouble_nat (by norm_num)]; norm_num
    have h1 : doubles.ofNat 1 = .fin 1 := by
      show toDouble ((1 : ℕ) : ℝ) = _; rw [toDouble_nat (by norm_num)]; norm_num
    rw [h0, h1]
    rw [clip_doubles] at h ⊢
    have hs : doubles.sign x = signX x := rfl
    rw [hs] at h ⊢
    cases x with
    | fin x =>
      rcases lt_trichotomy x 0 with hx | rfl | hx
      · left
        rw [if_pos]
        show npSign x < 0
        unfold npSign
        rw [if_neg hx.not_gt, if_pos hx]; norm_num
      · left
        have e : signX (.fin 0) = .fin 0 := by simp [signX, npSign]
        rw [e, ite_self]
      · right
        have e : signX (.fin x) = .fin 1 := by simp [signX, npSign, hx]
        rw [e, if_neg]
        show ¬(1 : ℝ) < 0
        norm_num
    | pinf =>
      right
      rw [if_neg]
      · rfl
      · show ¬(1 : ℝ) < 0
        norm_num
    | ninf => simp [signX, ltX]
    | nan => simp [signX, ltX, XReal.IsFin] at h
  mul_zero {x t} h h' := by
    have h0 : doubles.ofNat 0 = .fin 0 := by
      show toDouble ((0 : ℕ) : ℝ) = _; rw [toDouble_nat (by norm_num)]; norm_num
    rw [h0] at h h'
    have h : ¬ltX t (.fin 0) := h
    have h' : ltX t (mulX x (.fin 0)) := h'
    have z : toDouble 0 = .fin 0 := by
      have := toDouble_nat (k := 0) (by norm_num); rwa [Nat.cast_zero] at this
    cases x with
    | fin x =>
      have e : mulX (.fin x) (.fin 0) = .fin 0 := by
        show toDouble (x * 0) = _; rw [mul_zero, z]
      rw [e] at h'; exact h h'
    | pinf => cases t <;> simp [mulX, XReal.mulR, ltX] at h'
    | ninf => cases t <;> simp [mulX, XReal.mulR, ltX] at h'
    | nan => cases t <;> simp [mulX, XReal.mulR, ltX] at h'

theorem counts_doubles {M : ℕ} (hM : M ≤ 2 ^ 53) : Counts doubles M := by
  classical
  intro v k hv _ he
  have z : doubles.ofNat 0 = .fin 0 := by
    show toDouble ((0 : ℕ) : ℝ) = _; rw [toDouble_nat (by norm_num)]; norm_num
  have u : doubles.ofNat 1 = .fin 1 := by
    show toDouble ((1 : ℕ) : ℝ) = _; rw [toDouble_nat (by norm_num)]; norm_num
  rw [z, u] at hv
  rw [u]
  have inv := forRange_inv (n := M) (s := XReal.fin 0) (body := fun i acc => addX acc (v i))
    (P := fun k a => a = .fin (((Finset.univ.filter fun i : Fin M => i.1 < k ∧ v i = .fin 1).card : ℕ) : ℝ))
    (by simp) (by
      intro i a ih
      have hle : ∀ j : ℕ, (Finset.univ.filter fun i : Fin M => i.1 < j ∧ v i = .fin 1).card ≤ 2 ^ 53 := fun j =>
        (Finset.card_le_univ _).trans (by simpa using hM)
      rcases hv i with h0 | h1
      · have e : (Finset.univ.filter fun j : Fin M => j.1 < i.1 + 1 ∧ v j = .fin 1) =
            Finset.univ.filter fun j : Fin M => j.1 < i.1 ∧ v j = .fin 1 := by
          ext j
          simp only [Finset.mem_filter, Finset.mem_univ, true_and]
          refine ⟨fun ⟨a, b⟩ => ⟨?_, b⟩, fun ⟨a, b⟩ => ⟨by omega, b⟩⟩
          by_contra hn
          have : j = i := Fin.ext (by omega)
          rw [this, h0] at b
          simp at b
        rw [e, h0, ih]
        show toDouble (_ + 0) = _
        rw [add_zero, toDouble_nat (hle _)]
      · have e : (Finset.univ.filter fun j : Fin M => j.1 < i.1 + 1 ∧ v j = .fin 1) =
            insert i (Finset.univ.filter fun j : Fin M => j.1 < i.1 ∧ v j = .fin 1) := by
          ext j
          simp only [Finset.mem_filter, Finset.mem_univ, true_and, Finset.mem_insert]
          constructor
          · rintro ⟨a, b⟩
            by_cases hj : j = i
            · exact Or.inl hj
            · exact Or.inr ⟨by have := fun h => hj (Fin.ext h); omega, b⟩
          · rintro (rfl | ⟨a, b⟩)
            · exact ⟨by omega, h1⟩
            · exact ⟨by omega, b⟩
        have hc := hle (i.1 + 1)
        rw [e, Finset.card_insert_of_notMem (by simp)] at hc ⊢
        rw [h1, ih]
        show toDouble (_ + 1) = _
        rw [← toDouble_nat hc, Nat.cast_add, Nat.cast_one])
  have he' : eqX (forRange M (XReal.fin 0) fun i acc => addX acc (v i)) (toDouble k) := he
  rw [inv, toDouble_nat (by omega)] at he'
  have he'' := Nat.cast_injective (R := ℝ) he'
  rw [← he'', ← Set.ncard_coe_finset]
  congr 1
  ext i
  simp

theorem toDouble_zero : toDouble 0 = .fin 0 := by simpa using toDouble_nat (k := 0) (by norm_num)
theorem toDouble_one : toDouble 1 = .fin 1 := by simpa using toDouble_nat (k := 1) (by norm_num)
theorem toDouble_two : toDouble 2 = .fin 2 := by simpa using toDouble_nat (k := 2) (by norm_num)
theorem toDouble_neg_one : toDouble (-1) = .fin (-1) := by
  unfold toDouble
  rw [double_neg, double_one, if_pos (by rw [abs_neg, abs_one]; exact one_lt_pow₀ (by norm_num) (by norm_num))]

theorem doubles_add (x y : ℝ) : doubles.add (.fin x) (.fin y) = toDouble (x + y) := rfl
theorem doubles_sub (x y : ℝ) : doubles.sub (.fin x) (.fin y) = toDouble (x + -y) := rfl
theorem doubles_mul (x y : ℝ) : doubles.mul (.fin x) (.fin y) = toDouble (x * y) := rfl
theorem doubles_div {x y : ℝ} (h : y ≠ 0) : doubles.div (.fin x) (.fin y) = toDouble (x / y) := if_neg h
theorem doubles_neg (x : ℝ) : doubles.neg (.fin x) = .fin (-x) := rfl
theorem doubles_abs (x : ℝ) : doubles.abs (.fin x) = .fin |x| := rfl
theorem doubles_exp (x : ℝ) : doubles.exp (.fin x) = toDouble (Real.exp x) := rfl
theorem doubles_lt (x y : ℝ) : doubles.lt (.fin x) (.fin y) = (x < y) := rfl
theorem doubles_eq (x y : ℝ) : doubles.eq (.fin x) (.fin y) = (x = y) := rfl
theorem doubles_whole (x : XReal) : doubles.whole x = x := rfl
theorem doubles_nat (n : ℕ) : doubles.ofNat n = toDouble n := rfl
theorem doubles_sum (v : Vec 2 XReal) : doubles.sum v = doubles.add (doubles.add (.fin 0) (v 0)) (v 1) := rfl
theorem doubles_dot (v w : Vec 2 XReal) : doubles.dot v w =
    doubles.add (doubles.add (.fin 0) (doubles.mul (v 0) (w 0))) (doubles.mul (v 1) (w 1)) := rfl
theorem doubles_max (v : Vec 2 XReal) : doubles.max v = maxNan (maxNan (v 0) (v 0)) (v 1) := rfl
theorem doubles_maxNan (x : ℝ) : maxNan (.fin x) (.fin x) = .fin x := by
  unfold maxNan; split_ifs <;> rfl
theorem doubles_max2 {x y : ℝ} (h : x ≤ y) : doubles.max2 (.fin x) (.fin y) = .fin y := by
  rcases h.lt_or_eq with h | rfl
  · exact if_pos h
  · exact if_neg (lt_irrefl x)
theorem doubles_mask : doubles.clip0 (doubles.sign (.fin 1)) = .fin 1 := by
  have e : doubles.sign (.fin 1) = .fin 1 := by
    show XReal.fin (npSign 1) = _
    simp [npSign]
  rw [e, clip_doubles, if_neg]
  show ¬(1 : ℝ) < 0
  norm_num

theorem doubles_zero : doubles.ofNat 0 = .fin 0 := by
  rw [doubles_nat, Nat.cast_zero, toDouble_zero]

end Flory
