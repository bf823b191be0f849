import Verif.Lemmas.FreeEnergy
import Verif.Spec.Stability
import Mathlib.LinearAlgebra.Matrix.ToLin
import Mathlib.LinearAlgebra.FiniteDimensional.Lemmas

/-! # Inertia of symmetric matrices -/

set_option linter.unusedSectionVars false

namespace Flory

open XReal Spec Matrix

theorem lowerSymmetric_of_symm {n : ℕ} {H : Mat n n ℝ} (h : ∀ i j, H i j = H j i) (i j : Fin n) :
    lowerSymmetric H i j = H i j := by
  simp only [lowerSymmetric, Matrix.of_apply]
  split
  · rfl
  · exact h j i

/-- A symmetric matrix is diagonal, with its eigenvalues, in suitable coordinates. -/
theorem exists_diag {n : ℕ} {H : Mat n n ℝ} (h : ∀ i j, H i j = H j i) :
    ∃ e : Vec n ℝ ≃ₗ[ℝ] Vec n ℝ, ∀ x, quad H x = ∑ i, eigvalsh H i * e x i ^ 2 := by
  classical
  set A := lowerSymmetric H with hA
  have hH := lowerSymmetric_isHermitian H
  set U : Matrix (Fin n) (Fin n) ℝ := (hH.eigenvectorUnitary : Matrix (Fin n) (Fin n) ℝ) with hU
  have hu1 : star U * U = 1 := Unitary.coe_star_mul_self hH.eigenvectorUnitary
  have hu2 : U * star U = 1 := Unitary.coe_mul_star_self hH.eigenvectorUnitary
  have hspec : A = U * diagonal (eigvalsh H) * star U := by
    have := hH.spectral_theorem
    rw [Unitary.conjStarAlgAut_apply] at this
    exact this
  refine ⟨Matrix.toLin'OfInv hu1 hu2 |>.symm, fun x => ?_⟩
  have hstar : star U = Uᵀ := by
    rw [Matrix.star_eq_conjTranspose, Matrix.conjTranspose_eq_transpose_of_trivial]
  have e1 : quad H x = x ⬝ᵥ (A *ᵥ x) := by
    unfold quad dotProduct mulVec dotProduct
    refine Finset.sum_congr rfl fun i _ => ?_
    rw [Finset.mul_sum]
    refine Finset.sum_congr rfl fun j _ => ?_
    have : A i j = H i j := lowerSymmetric_of_symm h i j
    show _ = x i * (A i j * x j)
    rw [this]; ring
  have e2 : ∀ x, (Matrix.toLin'OfInv hu1 hu2).symm x = star U *ᵥ x := fun _ => rfl
  rw [e1, hspec, e2, ← mulVec_mulVec, ← mulVec_mulVec, dotProduct_mulVec]
  have e3 : x ᵥ* U = star U *ᵥ x := by rw [hstar, mulVec_transpose]
  rw [e3]
  unfold dotProduct
  refine Finset.sum_congr rfl fun i _ => ?_
  rw [mulVec_diagonal]
  ring

/-- In such coordinates the number of negative entries is the largest dimension of a negative definite
space. -/
theorem inertia {n : ℕ} {q : Vec n ℝ → ℝ} {lam : Vec n ℝ} (e : Vec n ℝ ≃ₗ[ℝ] Vec n ℝ)
    (he : ∀ x, q x = ∑ i, lam i * e x i ^ 2) :
    IsGreatest {d | ∃ W : Submodule ℝ (Vec n ℝ), Module.finrank ℝ W = d ∧
      ∀ y ∈ W, y ≠ 0 → q y < 0} (Finset.univ.filter fun i => lam i < 0).card := by
  classical
  have hcard : (Finset.univ.filter fun i => lam i < 0).card = Fintype.card {i // lam i < 0} := by
    rw [Fintype.card_subtype]
  constructor
  · let J : ({i // lam i < 0} → ℝ) →ₗ[ℝ] Vec n ℝ :=
      { toFun := fun c i => if h : lam i < 0 then c ⟨i, h⟩ else 0
        map_add' := fun a b => by
          funext i
          by_cases h : lam i < 0 <;> simp [h]
        map_smul' := fun a b => by
          funext i
          by_cases h : lam i < 0 <;> simp [h] }
    have hJ : ∀ c i, J c i = if h : lam i < 0 then c ⟨i, h⟩ else 0 := fun _ _ => rfl
    have hinj : Function.Injective J := by
      intro a b hab
      funext i
      have := congrFun hab i.1
      rw [hJ, hJ, dif_pos i.2, dif_pos i.2] at this
      exact this
    let W := LinearMap.range (e.symm.toLinearMap ∘ₗ J)
    refine ⟨W, ?_, ?_⟩
    · have : Function.Injective (e.symm.toLinearMap ∘ₗ J) := e.symm.injective.comp hinj
      rw [LinearMap.finrank_range_of_inj this, Module.finrank_fintype_fun_eq_card, hcard]
    · rintro y ⟨c, rfl⟩ hne
      have hc : J c ≠ 0 := by
        intro h0
        exact hne (by simp [h0])
      rw [he]
      have hey : ∀ i, e ((e.symm.toLinearMap ∘ₗ J) c) i = J c i := fun i => by simp
      simp only [hey]
      obtain ⟨i, hi⟩ := Function.ne_iff.mp hc
      have hi0 : lam i < 0 := by
        by_contra h
        rw [hJ, dif_neg h] at hi
        exact hi rfl
      refine Finset.sum_neg' (fun j _ => ?_) ⟨i, Finset.mem_univ _, ?_⟩
      · by_cases h : lam j < 0
        · exact mul_nonpos_of_nonpos_of_nonneg h.le (sq_nonneg _)
        · rw [hJ, dif_neg h]; simp
      · exact mul_neg_of_neg_of_pos hi0 (by have : J c i ≠ 0 := hi; positivity)
  · rintro d ⟨W, rfl, hW⟩
    let L : W →ₗ[ℝ] ({i // lam i < 0} → ℝ) :=
      { toFun := fun y i => e y.1 i.1
        map_add' := fun a b => by funext i; simp
        map_smul' := fun a b => by funext i; simp }
    have hinj : Function.Injective L := by
      rw [← LinearMap.ker_eq_bot, LinearMap.ker_eq_bot']
      intro y hy
      by_contra hne
      have hlt := hW y.1 y.2 (fun h => hne (Subtype.ext h))
      rw [he] at hlt
      refine absurd hlt (not_lt.mpr (Finset.sum_nonneg fun i _ => ?_))
      by_cases h : lam i < 0
      · have : e y.1 i = 0 := congrFun hy ⟨i, h⟩
        rw [this]; simp
      · exact mul_nonneg (not_lt.mp h) (sq_nonneg _)
    have := LinearMap.finrank_le_finrank_of_injective hinj
    rwa [Module.finrank_fintype_fun_eq_card, ← hcard] at this

theorem countNegative_greatest {n : ℕ} {H : Mat n n ℝ} (h : ∀ i j, H i j = H j i) :
    IsGreatest {d | HasUnstableModes H (fun _ => True) d} (FreeEnergy.countNegative H) := by
  obtain ⟨e, he⟩ := exists_diag h
  have := inertia e he
  unfold HasUnstableModes
  unfold FreeEnergy.countNegative
  simpa only [implies_true, true_and] using this

/-- No space of positive dimension means no direction. -/
theorem greatest_zero_iff {C : ℕ} {H : Mat C C ℝ} {ok : Vec C ℝ → Prop}
    (hok : ∀ (y : Vec C ℝ) (t : ℝ), ok y → ok (t • y)) {m : ℕ}
    (h : IsGreatest {d | HasUnstableModes H ok d} m) : m = 0 ↔ ∀ y, ok y → 0 ≤ quad H y := by
  have hscale : ∀ (y : Vec C ℝ) (t : ℝ), quad H (t • y) = t ^ 2 * quad H y := by
    intro y t
    unfold quad
    rw [Finset.mul_sum]
    refine Finset.sum_congr rfl fun i _ => ?_
    rw [Finset.mul_sum]
    refine Finset.sum_congr rfl fun j _ => ?_
    simp only [Pi.smul_apply, smul_eq_mul]; ring
  constructor
  · intro hm y hy
    by_contra hc
    have hneg := not_le.mp hc
    have hne : y ≠ 0 := by
      rintro rfl
      simp [quad] at hneg
    have : (1 : ℕ) ∈ {d | HasUnstableModes H ok d} := by
      refine ⟨Submodule.span ℝ {y}, finrank_span_singleton hne, ?_, ?_⟩
      · intro z hz
        obtain ⟨t, rfl⟩ := Submodule.mem_span_singleton.mp hz
        exact hok y t hy
      · intro z hz hz0
        obtain ⟨t, rfl⟩ := Submodule.mem_span_singleton.mp hz
        have ht : t ≠ 0 := by rintro rfl; simp at hz0
        rw [hscale]
        exact mul_neg_of_pos_of_neg (by positivity) hneg
    have := h.2 this
    omega
  · intro hall
    obtain ⟨W, hW, hW1, hW2⟩ := h.1
    by_contra hm
    have hbot : W ≠ ⊥ := by
      rintro rfl
      rw [finrank_bot] at hW
      exact hm hW.symm
    obtain ⟨y, hy, hy0⟩ := Submodule.exists_mem_ne_zero_of_ne_bot hbot
    exact absurd (hW2 y hy hy0) (not_lt.mpr (hall y (hW1 y hy)))

section Reduced

variable {n : ℕ}

/-- The Hessian with component `k` eliminated. -/
def reducedHessian (H : Mat (n + 1) (n + 1) ℝ) (k : Fin (n + 1)) : Mat n n ℝ := fun i j =>
  H (k.succAbove i) (k.succAbove j) - H k (k.succAbove j) - H (k.succAbove i) k + H k k

/-- The conserving composition change with given changes of all components but `k`. -/
def completeAt (k : Fin (n + 1)) : Vec n ℝ →ₗ[ℝ] Vec (n + 1) ℝ where
  toFun x := k.insertNth (-∑ i, x i) x
  map_add' x y := by
    funext i
    refine Fin.succAboveCases k ?_ (fun i => ?_) i
    · simp [Finset.sum_add_distrib]; ring
    · simp
  map_smul' t x := by
    funext i
    refine Fin.succAboveCases k ?_ (fun i => ?_) i
    · simp [← Finset.mul_sum]
    · simp

theorem completeAt_same (k : Fin (n + 1)) (x : Vec n ℝ) : completeAt k x k = -∑ i, x i :=
  Fin.insertNth_apply_same (α := fun _ => ℝ) k _ x

theorem completeAt_succAbove (k : Fin (n + 1)) (x : Vec n ℝ) (i : Fin n) :
    completeAt k x (k.succAbove i) = x i :=
  Fin.insertNth_apply_succAbove (α := fun _ => ℝ) k _ x i

theorem completeAt_injective (k : Fin (n + 1)) : Function.Injective (completeAt k) := by
  intro x y h
  funext i
  rw [← completeAt_succAbove k x, ← completeAt_succAbove k y, h]

theorem completeAt_conserving (k : Fin (n + 1)) (x : Vec n ℝ) : Conserving (completeAt k x) := by
  unfold Conserving
  rw [Fin.sum_univ_succAbove _ k, completeAt_same]
  simp only [completeAt_succAbove]
  ring

theorem completeAt_surj (k : Fin (n + 1)) {y : Vec (n + 1) ℝ} (h : Conserving y) :
    completeAt k (fun i => y (k.succAbove i)) = y := by
  unfold Conserving at h
  rw [Fin.sum_univ_succAbove _ k] at h
  funext i
  refine Fin.succAboveCases k ?_ (fun i => ?_) i
  · rw [completeAt_same]; linarith
  · rw [completeAt_succAbove]

theorem quad_reduced (H : Mat (n + 1) (n + 1) ℝ) (k : Fin (n + 1)) (x : Vec n ℝ) :
    quad (reducedHessian H k) x = quad H (completeAt k x) := by
  unfold quad
  rw [Fin.sum_univ_succAbove _ k]
  simp only [Fin.sum_univ_succAbove _ k, completeAt_same, completeAt_succAbove]
  set S := ∑ i, x i with hS
  have e1 : ∑ i, ∑ j, x i * reducedHessian H k i j * x j =
      (∑ i, ∑ j, x i * H (k.succAbove i) (k.succAbove j) * x j)
        - S * (∑ j, H k (k.succAbove j) * x j) - (∑ i, x i * H (k.succAbove i) k) * S
        + S * H k k * S := by
    rw [hS]
    simp only [Finset.sum_mul, Finset.mul_sum]
    rw [Finset.sum_comm (f := fun i j => x j * (H k (k.succAbove i) * x i)),
      ← Finset.sum_sub_distrib]
    rw [Finset.sum_comm (f := fun i j => x j * H (k.succAbove j) k * x i),
      ← Finset.sum_sub_distrib]
    rw [Finset.sum_comm (f := fun i j => x j * H k k * x i), ← Finset.sum_add_distrib]
    refine Finset.sum_congr rfl fun i _ => ?_
    rw [← Finset.sum_sub_distrib, ← Finset.sum_sub_distrib, ← Finset.sum_add_distrib]
    refine Finset.sum_congr rfl fun j _ => ?_
    unfold reducedHessian
    ring
  rw [e1, Finset.sum_add_distrib]
  have e2 : ∑ j, -S * H k (k.succAbove j) * x j = -(S * ∑ j, H k (k.succAbove j) * x j) := by
    generalize S = T
    rw [Finset.mul_sum, ← Finset.sum_neg_distrib]
    exact Finset.sum_congr rfl fun j _ => by ring
  have e3 : ∑ i, x i * H (k.succAbove i) k * -S = -((∑ i, x i * H (k.succAbove i) k) * S) := by
    generalize S = T
    rw [Finset.sum_mul, ← Finset.sum_neg_distrib]
    exact Finset.sum_congr rfl fun j _ => by ring
  rw [e2, e3]
  ring

theorem reduced_symm {H : Mat (n + 1) (n + 1) ℝ} (h : ∀ i j, H i j = H j i) (k : Fin (n + 1))
    (i j : Fin n) : reducedHessian H k i j = reducedHessian H k j i := by
  unfold reducedHessian
  rw [h (k.succAbove i) (k.succAbove j), h k (k.succAbove j), h k (k.succAbove i)]
  ring

/-- The count for the reduced Hessian is a property of the full one, whatever `k`. -/
theorem countReduced_greatest {H : Mat (n + 1) (n + 1) ℝ} (h : ∀ i j, H i j = H j i)
    (k : Fin (n + 1)) : IsGreatest {d | HasUnstableModes H Conserving d}
      (FreeEnergy.countNegative (reducedHessian H k)) := by
  have key : {d | HasUnstableModes H Conserving d} =
      {d | HasUnstableModes (reducedHessian H k) (fun _ => True) d} := by
    ext d
    constructor
    · rintro ⟨W, hd, hW1, hW2⟩
      refine ⟨W.comap (completeAt k), ?_, fun _ _ => trivial, ?_⟩
      · have hr : (W.comap (completeAt k)).map (completeAt k) = W := by
          rw [Submodule.map_comap_eq, inf_eq_right]
          intro y hy
          exact ⟨_, completeAt_surj k (hW1 y hy)⟩
        rw [← hd, (Submodule.equivMapOfInjective _ (completeAt_injective k) _).finrank_eq, hr]
      · intro x hx hx0
        rw [quad_reduced]
        exact hW2 _ hx fun h0 => hx0 (completeAt_injective k (by rw [h0, map_zero]))
    · rintro ⟨W, hd, -, hW2⟩
      refine ⟨W.map (completeAt k), ?_, ?_, ?_⟩
      · rw [← (Submodule.equivMapOfInjective _ (completeAt_injective k) _).finrank_eq, hd]
      · rintro y ⟨x, -, rfl⟩
        exact completeAt_conserving k x
      · rintro y ⟨x, hx, rfl⟩ hy0
        rw [← quad_reduced]
        exact hW2 x hx fun h0 => hy0 (by rw [h0, map_zero])
  rw [key]
  exact countNegative_greatest (reduced_symm h k)

end Reduced

end Flory
