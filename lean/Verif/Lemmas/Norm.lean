import Verif.Lemmas.Stability
import Verif.Model.Norm
import Mathlib.Analysis.MeanInequalitiesPow
import Mathlib.Analysis.Matrix.Spectrum

/-! # Norms of vectors and matrices of numbers -/

set_option linter.unusedSectionVars false

namespace Flory

open Spec

variable {n P C : ℕ}

/-! ## Suprema over finite ranges -/

theorem le_sup_fin (f : Fin n → ℝ) (i : Fin n) : f i ≤ ⨆ i, f i :=
  le_ciSup (Set.finite_range f).bddAbove i

theorem inf_fin_le (f : Fin n → ℝ) (i : Fin n) : ⨅ i, f i ≤ f i :=
  ciInf_le (Set.finite_range f).bddBelow i

theorem sup_fin_attained [NeZero n] (f : Fin n → ℝ) : ∃ i, ⨆ i, f i = f i := by
  obtain ⟨i, hi⟩ := exists_eq_ciSup_of_finite (f := f)
  exact ⟨i, hi.symm⟩

theorem inf_fin_attained [NeZero n] (f : Fin n → ℝ) : ∃ i, ⨅ i, f i = f i := by
  obtain ⟨i, hi⟩ := exists_eq_ciInf_of_finite (f := f)
  exact ⟨i, hi.symm⟩

theorem sup_fin_zero [NeZero n] {f : Fin n → ℝ} (hf : ∀ i, 0 ≤ f i) :
    0 ≤ ⨆ i, f i ∧ (⨆ i, f i = 0 ↔ ∀ i, f i = 0) := by
  obtain ⟨k, hk⟩ := sup_fin_attained f
  refine ⟨hk ▸ hf k, fun h i => le_antisymm (h ▸ le_sup_fin f i) (hf i), fun h => by rw [hk, h]⟩

theorem inf_fin_zero [NeZero n] {f : Fin n → ℝ} (hf : ∀ i, 0 ≤ f i) :
    0 ≤ ⨅ i, f i ∧ (⨅ i, f i = 0 ↔ ∃ i, f i = 0) := by
  obtain ⟨k, hk⟩ := inf_fin_attained f
  refine ⟨hk ▸ hf k, fun h => ⟨k, by rw [← hk, h]⟩, fun ⟨i, hi⟩ => ?_⟩
  exact le_antisymm (hi ▸ inf_fin_le f i) (hk ▸ hf k)

theorem sum_zero {f : Fin n → ℝ} (hf : ∀ i, 0 ≤ f i) :
    0 ≤ ∑ i, f i ∧ (∑ i, f i = 0 ↔ ∀ i, f i = 0) := by
  refine ⟨Finset.sum_nonneg fun i _ => hf i, ?_⟩
  rw [Finset.sum_eq_zero_iff_of_nonneg fun i _ => hf i]
  simp

/-! ## Vectors -/

/-- Orders for which the norm along an axis only vanishes for zero. -/
def NormOrder.Definite : NormOrder → Prop
  | .none => True
  | .inf => True
  | .num p => 0 ≤ p
  | _ => False

/-- Orders for which the norm along an axis vanishes as soon as one entry does. -/
def NormOrder.Blind : NormOrder → Prop
  | .ninf => True
  | .num p => p < 0
  | _ => False

theorem sqrt_sq_zero (v : Vec n ℝ) :
    0 ≤ Real.sqrt (∑ i, v i ^ 2) ∧ (Real.sqrt (∑ i, v i ^ 2) = 0 ↔ ∀ i, v i = 0) := by
  refine ⟨Real.sqrt_nonneg _, ?_⟩
  rw [Real.sqrt_eq_zero (Finset.sum_nonneg fun i _ => sq_nonneg _), (sum_zero fun i => sq_nonneg _).2]
  simp

theorem vectorNorm_definite [NeZero n] (v : Vec n ℝ) {order : NormOrder} (h : order.Definite) :
    ∃ e, vectorNorm v order = .ok e ∧ 0 ≤ e ∧ (e = 0 ↔ ∀ i, v i = 0) := by
  classical
  cases order with
  | none => exact ⟨_, rfl, sqrt_sq_zero v⟩
  | inf =>
    obtain ⟨h1, h2⟩ := sup_fin_zero fun i => abs_nonneg (v i)
    exact ⟨_, rfl, h1, h2.trans (by simp)⟩
  | num p =>
    have hp : 0 ≤ p := h
    unfold vectorNorm
    simp only
    split_ifs with h0 h1 h2 h3
    · have h1 : ∀ i, (0 : ℝ) ≤ @ite ℝ (v i ≠ 0) (Classical.propDecidable _) 1 0 := fun i => by
        split_ifs <;> norm_num
      refine ⟨_, rfl, (sum_zero h1).1, (sum_zero h1).2.trans (forall_congr' fun i => ?_)⟩
      by_cases hv : v i = 0 <;> simp [hv]
    · obtain ⟨k1, k2⟩ := sum_zero fun i => abs_nonneg (v i)
      exact ⟨_, rfl, k1, k2.trans (by simp)⟩
    · exact ⟨_, rfl, sqrt_sq_zero v⟩
    · exact absurd h3.1 (not_lt.mpr hp)
    · obtain ⟨k1, k2⟩ := sum_zero fun i => Real.rpow_nonneg (abs_nonneg (v i)) p
      refine ⟨_, rfl, Real.rpow_nonneg k1 _, ?_⟩
      rw [Real.rpow_eq_zero k1 (one_div_ne_zero h0), k2]
      refine forall_congr' fun i => ?_
      rw [Real.rpow_eq_zero (abs_nonneg _) h0, abs_eq_zero]
  | _ => cases h

theorem vectorNorm_blind [NeZero n] (v : Vec n ℝ) {order : NormOrder} (h : order.Blind) :
    ∃ e, vectorNorm v order = .ok e ∧ 0 ≤ e ∧ (e = 0 ↔ ∃ i, v i = 0) := by
  classical
  cases order with
  | ninf =>
    obtain ⟨h1, h2⟩ := inf_fin_zero fun i => abs_nonneg (v i)
    exact ⟨_, rfl, h1, h2.trans (by simp)⟩
  | num p =>
    have hp : p < 0 := h
    unfold vectorNorm
    simp only
    rw [if_neg hp.ne, if_neg (by linarith), if_neg (by linarith)]
    split_ifs with h3
    · exact ⟨0, rfl, le_rfl, by simp [h3.2]⟩
    · have hv : ∀ i, v i ≠ 0 := fun i hi => h3 ⟨hp, i, hi⟩
      have hpos : 0 < ∑ i, |v i| ^ p :=
        Finset.sum_pos (fun i _ => Real.rpow_pos_of_pos (abs_pos.mpr (hv i)) _) Finset.univ_nonempty
      have h4 := Real.rpow_pos_of_pos hpos (1 / p)
      exact ⟨_, rfl, h4.le, iff_of_false h4.ne' fun ⟨i, hi⟩ => hv i hi⟩
  | _ => cases h

theorem vectorNorm_num {v : Vec n ℝ} {p : ℝ} (hp : 0 < p) :
    vectorNorm v (.num p) = .ok ((∑ i, |v i| ^ p) ^ (1 / p)) := by
  unfold vectorNorm
  simp only
  rw [if_neg hp.ne']
  split_ifs with h1 h2 h3
  · rw [h1]; simp
  · rw [h2, Real.sqrt_eq_rpow]
    congr 3
    funext i
    rw [Real.rpow_two, sq_abs]
  · exact absurd h3.1 (not_lt.mpr hp.le)
  · rfl

theorem abs_le_pnorm (v : Vec n ℝ) {p : ℝ} (hp : 0 < p) (i : Fin n) :
    |v i| ≤ (∑ i, |v i| ^ p) ^ (1 / p) := by
  have h1 : |v i| ^ p ≤ ∑ i, |v i| ^ p :=
    Finset.single_le_sum (f := fun i => |v i| ^ p) (fun i _ => Real.rpow_nonneg (abs_nonneg _) _)
      (Finset.mem_univ i)
  calc |v i| = (|v i| ^ p) ^ (1 / p) := by
        rw [← Real.rpow_mul (abs_nonneg _), mul_one_div_cancel hp.ne', Real.rpow_one]
    _ ≤ _ := Real.rpow_le_rpow (Real.rpow_nonneg (abs_nonneg _) _) h1 (by positivity)

theorem pnorm_antitone (v : Vec n ℝ) {p q : ℝ} (hp : 0 < p) (hpq : p ≤ q) :
    (∑ i, |v i| ^ q) ^ (1 / q) ≤ (∑ i, |v i| ^ p) ^ (1 / p) := by
  have hq : 0 < q := hp.trans_le hpq
  set S := (∑ i, |v i| ^ p) ^ (1 / p) with hS
  have hp0 : 0 ≤ ∑ i, |v i| ^ p := Finset.sum_nonneg fun i _ => Real.rpow_nonneg (abs_nonneg _) _
  have hS0 : 0 ≤ S := Real.rpow_nonneg hp0 _
  have hSp : S ^ p = ∑ i, |v i| ^ p := by
    rw [hS, ← Real.rpow_mul hp0, one_div_mul_cancel hp.ne', Real.rpow_one]
  have key : ∑ i, |v i| ^ q ≤ S ^ q := by
    have h1 : ∀ i, |v i| ^ q ≤ |v i| ^ p * S ^ (q - p) := fun i => by
      rcases (abs_nonneg (v i)).eq_or_lt with h0 | h0
      · rw [← h0, Real.zero_rpow hq.ne', Real.zero_rpow hp.ne', zero_mul]
      · rw [show q = p + (q - p) by ring, Real.rpow_add h0, add_sub_cancel_left]
        exact mul_le_mul_of_nonneg_left
          (Real.rpow_le_rpow h0.le (abs_le_pnorm v hp i) (by linarith)) (Real.rpow_nonneg h0.le _)
    refine (Finset.sum_le_sum fun i _ => h1 i).trans ?_
    rw [← Finset.sum_mul, ← hSp]
    rcases hS0.eq_or_lt with h0 | h0
    · rw [← h0, Real.zero_rpow hp.ne', zero_mul]
      exact Real.rpow_nonneg le_rfl _
    · rw [← Real.rpow_add h0]
      exact le_of_eq (by congr 1; ring)
  calc (∑ i, |v i| ^ q) ^ (1 / q) ≤ (S ^ q) ^ (1 / q) :=
        Real.rpow_le_rpow (Finset.sum_nonneg fun i _ => Real.rpow_nonneg (abs_nonneg _) _) key
          (by positivity)
    _ = S := by rw [← Real.rpow_mul hS0, mul_one_div_cancel hq.ne', Real.rpow_one]

theorem pnorm_le (v : Vec n ℝ) {p B : ℝ} (hp : 0 < p) (hB : 0 ≤ B) (h : ∀ i, |v i| ≤ B) :
    (∑ i, |v i| ^ p) ^ (1 / p) ≤ (n : ℝ) ^ (1 / p) * B := by
  have h1 : ∑ i, |v i| ^ p ≤ n * B ^ p := by
    refine (Finset.sum_le_sum fun i _ => Real.rpow_le_rpow (abs_nonneg _) (h i) hp.le).trans ?_
    simp
  calc _ ≤ (n * B ^ p) ^ (1 / p) :=
        Real.rpow_le_rpow (Finset.sum_nonneg fun i _ => Real.rpow_nonneg (abs_nonneg _) _) h1
          (by positivity)
    _ = _ := by
      rw [Real.mul_rpow (Nat.cast_nonneg n) (Real.rpow_nonneg hB _), ← Real.rpow_mul hB,
        mul_one_div_cancel hp.ne', Real.rpow_one]

/-! ## Matrices -/

theorem gram_symm (A : Mat P C ℝ) (p q : Fin P) : ∑ i, A p i * A q i = ∑ i, A q i * A p i :=
  Finset.sum_congr rfl fun _ _ => mul_comm _ _

theorem gram_quad (A : Mat P C ℝ) (x : Vec P ℝ) :
    quad (fun p q => ∑ i, A p i * A q i) x = ∑ i, (∑ p, x p * A p i) ^ 2 := by
  unfold quad
  have : ∀ i, (∑ p, x p * A p i) ^ 2 = ∑ p, ∑ q, x p * (A p i * A q i) * x q := fun i => by
    rw [sq, Finset.sum_mul_sum]
    exact Finset.sum_congr rfl fun p _ => Finset.sum_congr rfl fun q _ => by ring
  simp only [this]
  rw [Finset.sum_comm (s := (Finset.univ : Finset (Fin C)))]
  refine Finset.sum_congr rfl fun p _ => ?_
  rw [Finset.sum_comm]
  refine Finset.sum_congr rfl fun q _ => ?_
  rw [Finset.mul_sum, Finset.sum_mul]

/-- The eigenvalues of the matrix of scalar products of the rows. -/
theorem gram_eigen (A : Mat P C ℝ) :
    (∀ k, 0 ≤ eigvalsh (fun p q => ∑ i, A p i * A q i) k) ∧
    ((∀ k, eigvalsh (fun p q => ∑ i, A p i * A q i) k = 0) ↔ ∀ p i, A p i = 0) ∧
    ((∃ k, eigvalsh (fun p q => ∑ i, A p i * A q i) k = 0) ↔ ∃ x : Vec P ℝ, x ≠ 0 ∧
      ∀ i, ∑ p, x p * A p i = 0) ∧
    ∑ k, eigvalsh (fun p q => ∑ i, A p i * A q i) k = ∑ p, ∑ i, A p i ^ 2 := by
  classical
  obtain ⟨e, he⟩ := exists_diag (gram_symm A)
  have htr := (lowerSymmetric_isHermitian fun p q => ∑ i, A p i * A q i).trace_eq_sum_eigenvalues
  set lam := eigvalsh (fun p q => ∑ i, A p i * A q i) with hlam
  simp only [gram_quad] at he
  have hk : ∀ k, lam k = ∑ i, (∑ p, e.symm (Pi.single k 1) p * A p i) ^ 2 := fun k => by
    rw [he, e.apply_symm_apply, Finset.sum_eq_single k]
    · simp
    · intro j _ hj
      simp [hj]
    · simp
  have h0 : ∀ k, 0 ≤ lam k := fun k => hk k ▸ Finset.sum_nonneg fun i _ => sq_nonneg _
  refine ⟨h0, ⟨fun h p i => ?_, fun h k => ?_⟩, ⟨fun ⟨k, h⟩ => ?_, fun ⟨x, hx, h⟩ => ?_⟩, ?_⟩
  · have h1 := he (Pi.single p 1)
    simp only [h, zero_mul, Finset.sum_const_zero] at h1
    have h2 := (sum_zero fun i => sq_nonneg _).2.mp h1 i
    simpa [Pi.single_apply] using h2
  · rw [hk]
    simp [h]
  · refine ⟨e.symm (Pi.single k 1), fun h1 => ?_, fun i => ?_⟩
    · have : (Pi.single k 1 : Vec P ℝ) = 0 := by
        rw [← e.apply_symm_apply (Pi.single k 1), h1, map_zero]
      have := congrFun this k
      simp at this
    · have h1 := hk k
      rw [h] at h1
      exact pow_eq_zero_iff (two_ne_zero) |>.mp ((sum_zero fun i => sq_nonneg _).2.mp h1.symm i)
  · have h1 := he x
    simp only [h] at h1
    have h2 := (sum_zero fun k => mul_nonneg (h0 k) (sq_nonneg (e x k))).2.mp (by
      rw [← h1]; simp)
    have hne : e x ≠ 0 := fun h3 => hx (by simpa using h3)
    obtain ⟨k, hk'⟩ := Function.ne_iff.mp hne
    refine ⟨k, (mul_eq_zero.mp (h2 k)).resolve_right ?_⟩
    exact pow_ne_zero 2 hk'
  · have : (lowerSymmetric fun p q => ∑ i, A p i * A q i).trace = ∑ p, ∑ i, A p i ^ 2 := by
      unfold Matrix.trace
      refine Finset.sum_congr rfl fun p _ => ?_
      rw [Matrix.diag_apply, lowerSymmetric_of_symm (gram_symm A)]
      exact Finset.sum_congr rfl fun i _ => (sq _).symm
    rw [← this, htr]
    rfl

/-- Facts on singular values, as far as needed: `op` of roots of numbers `lam k ≥ 0` that vanish together
exactly if the matrix does and one of which vanishes exactly if rows (or columns) are dependent. -/
theorem singular_eq [NeZero P] [NeZero C] (A : Mat P C ℝ) : ∃ (m : ℕ) (_ : NeZero m) (s : Vec m ℝ),
    (∀ op : {n : ℕ} → Vec n ℝ → ℝ, singular op A = op s) ∧ (∀ k, 0 ≤ s k) ∧
    ((∀ k, s k = 0) ↔ ∀ p i, A p i = 0) ∧
    ((∃ k, s k = 0) ↔ if P ≤ C then ∃ x : Vec P ℝ, x ≠ 0 ∧ ∀ i, ∑ p, x p * A p i = 0
      else ∃ y : Vec C ℝ, y ≠ 0 ∧ ∀ p, ∑ i, A p i * y i = 0) ∧
    ∑ k, s k ^ 2 = ∑ p, ∑ i, A p i ^ 2 := by
  by_cases hPC : P ≤ C
  · obtain ⟨h1, h2, h3, h4⟩ := gram_eigen A
    refine ⟨P, inferInstance, fun p => Real.sqrt (eigvalsh (fun p q => ∑ i, A p i * A q i) p),
      fun op => ?_, fun k => Real.sqrt_nonneg _, ?_, ?_, ?_⟩
    · unfold singular
      rw [if_pos hPC]
    · rw [← h2]
      exact forall_congr' fun k => Real.sqrt_eq_zero (h1 k)
    · rw [if_pos hPC, ← h3]
      exact exists_congr fun k => Real.sqrt_eq_zero (h1 k)
    · rw [← h4]
      exact Finset.sum_congr rfl fun k _ => Real.sq_sqrt (h1 k)
  · obtain ⟨h1, h2, h3, h4⟩ := gram_eigen fun (i : Fin C) (p : Fin P) => A p i
    refine ⟨C, inferInstance, fun i => Real.sqrt (eigvalsh (fun i j => ∑ p, A p i * A p j) i),
      fun op => ?_, fun k => Real.sqrt_nonneg _, ?_, ?_, ?_⟩
    · unfold singular
      rw [if_neg hPC]
    · rw [forall_comm, ← h2]
      exact forall_congr' fun k => Real.sqrt_eq_zero (h1 k)
    · rw [if_neg hPC]
      refine (exists_congr fun k => Real.sqrt_eq_zero (h1 k)).trans (h3.trans ?_)
      simp only [mul_comm]
    · rw [Finset.sum_comm, ← h4]
      exact Finset.sum_congr rfl fun k _ => Real.sq_sqrt (h1 k)

/-- Orders for which the norm of a matrix only vanishes for the zero matrix. -/
def NormOrder.MatrixDefinite : NormOrder → Prop
  | .none => True
  | .fro => True
  | .nuc => True
  | .inf => True
  | .num p => p = 1 ∨ p = 2
  | _ => False

theorem frobenius_zero (A : Mat P C ℝ) : Real.sqrt (∑ p, ∑ i, A p i ^ 2) = 0 ↔ ∀ p i, A p i = 0 := by
  rw [Real.sqrt_eq_zero (Finset.sum_nonneg fun p _ => Finset.sum_nonneg fun i _ => sq_nonneg _),
    (sum_zero fun p => Finset.sum_nonneg fun i _ => sq_nonneg _).2]
  refine forall_congr' fun p => ?_
  rw [(sum_zero fun i => sq_nonneg _).2]
  simp

theorem abs_sum_zero (v : Vec n ℝ) : 0 ≤ ∑ i, |v i| ∧ (∑ i, |v i| = 0 ↔ ∀ i, v i = 0) := by
  obtain ⟨h1, h2⟩ := sum_zero fun i => abs_nonneg (v i)
  exact ⟨h1, h2.trans (by simp)⟩

theorem matrixNorm_definite [NeZero P] [NeZero C] (A : Mat P C ℝ) {order : NormOrder}
    (h : order.MatrixDefinite) :
    ∃ e, matrixNorm A order = .ok e ∧ 0 ≤ e ∧ (e = 0 ↔ ∀ p i, A p i = 0) := by
  classical
  obtain ⟨m, hm, s, s1, s2, s3, -, -⟩ := singular_eq A
  cases order with
  | none => exact ⟨_, rfl, Real.sqrt_nonneg _, frobenius_zero A⟩
  | fro => exact ⟨_, rfl, Real.sqrt_nonneg _, frobenius_zero A⟩
  | nuc =>
    refine ⟨_, rfl, ?_⟩
    rw [s1]
    exact ⟨(sum_zero s2).1, (sum_zero s2).2.trans s3⟩
  | inf =>
    obtain ⟨h1, h2⟩ := sup_fin_zero fun p => (abs_sum_zero (A p)).1
    exact ⟨_, rfl, h1, h2.trans (forall_congr' fun p => (abs_sum_zero (A p)).2)⟩
  | num p =>
    unfold matrixNorm
    rcases (show p = 1 ∨ p = 2 from h) with rfl | rfl
    · simp only
      rw [if_neg (by norm_num), if_neg (by norm_num), if_pos trivial]
      obtain ⟨h1, h2⟩ := sup_fin_zero fun i => (abs_sum_zero fun p => A p i).1
      refine ⟨_, rfl, h1, h2.trans ?_⟩
      rw [forall_comm]
      exact forall_congr' fun i => (abs_sum_zero fun p => A p i).2
    · simp only
      rw [if_pos trivial, s1]
      exact ⟨_, rfl, (sup_fin_zero s2).1, (sup_fin_zero s2).2.trans s3⟩
  | _ => cases h

theorem matrixNorm_ninf [NeZero P] (A : Mat P C ℝ) :
    ∃ e, matrixNorm A .ninf = .ok e ∧ 0 ≤ e ∧ (e = 0 ↔ ∃ p, ∀ i, A p i = 0) := by
  obtain ⟨h1, h2⟩ := inf_fin_zero fun p => (abs_sum_zero (A p)).1
  exact ⟨_, rfl, h1, h2.trans (exists_congr fun p => (abs_sum_zero (A p)).2)⟩

theorem matrixNorm_minus_one [NeZero C] (A : Mat P C ℝ) :
    ∃ e, matrixNorm A (.num (-1)) = .ok e ∧ 0 ≤ e ∧ (e = 0 ↔ ∃ i, ∀ p, A p i = 0) := by
  unfold matrixNorm
  simp only
  rw [if_neg (by norm_num), if_neg (by norm_num), if_neg (by norm_num), if_pos trivial]
  obtain ⟨h1, h2⟩ := inf_fin_zero fun i => (abs_sum_zero fun p => A p i).1
  exact ⟨_, rfl, h1, h2.trans (exists_congr fun i => (abs_sum_zero fun p => A p i).2)⟩

theorem matrixNorm_minus_two [NeZero P] [NeZero C] (A : Mat P C ℝ) :
    ∃ e, matrixNorm A (.num (-2)) = .ok e ∧ 0 ≤ e ∧
      (e = 0 ↔ if P ≤ C then ∃ x : Vec P ℝ, x ≠ 0 ∧ ∀ i, ∑ p, x p * A p i = 0
        else ∃ y : Vec C ℝ, y ≠ 0 ∧ ∀ p, ∑ i, A p i * y i = 0) := by
  obtain ⟨m, hm, s, s1, s2, -, s4, -⟩ := singular_eq A
  unfold matrixNorm
  simp only
  rw [if_neg (by norm_num), if_pos trivial, s1]
  exact ⟨_, rfl, (inf_fin_zero s2).1, (inf_fin_zero s2).2.trans s4⟩

/-- The largest singular value is at most the Frobenius norm, which is at most the sum of them. -/
theorem matrixNorm_order [NeZero P] [NeZero C] (A : Mat P C ℝ) : ∃ a b c,
    matrixNorm A (.num 2) = .ok a ∧ matrixNorm A .fro = .ok b ∧ matrixNorm A .nuc = .ok c ∧ a ≤ b ∧
      b ≤ c := by
  obtain ⟨m, hm, s, s1, s2, -, -, s5⟩ := singular_eq A
  refine ⟨⨆ k, s k, Real.sqrt (∑ p, ∑ i, A p i ^ 2), ∑ k, s k, ?_, rfl, ?_, ?_, ?_⟩
  · unfold matrixNorm
    simp only
    rw [if_pos trivial, s1]
  · unfold matrixNorm
    simp only
    rw [s1]
  · obtain ⟨k, hk⟩ := sup_fin_attained s
    rw [hk, ← s5]
    refine Real.le_sqrt_of_sq_le ?_
    exact Finset.single_le_sum (f := fun k => s k ^ 2) (fun k _ => sq_nonneg _) (Finset.mem_univ k)
  · rw [← s5]
    refine Real.sqrt_le_iff.mpr ⟨(sum_zero s2).1, ?_⟩
    rw [sq, Finset.sum_mul_sum]
    refine Finset.sum_le_sum fun k _ => ?_
    rw [sq]
    exact Finset.single_le_sum (f := fun j => s k * s j) (fun j _ => mul_nonneg (s2 k) (s2 j))
      (Finset.mem_univ k)

end Flory
