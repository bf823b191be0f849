import Verif.Model.EntropyObj
import Verif.Spec.FreeEnergy
import Verif.Lemmas.Loops
import Verif.Lemmas.Interaction
import Mathlib.Analysis.SpecialFunctions.Log.Deriv
import Mathlib.Analysis.SpecialFunctions.Log.NegMulLog
import Mathlib.Analysis.Calculus.Deriv.Comp

/-! # Ideal gas entropy: closed forms and derivatives -/

set_option linter.unusedSectionVars false

namespace Flory

open XReal Spec Topology

variable {C : ℕ}

@[simp] theorem fin_add_fin (x y : ℝ) : (fin x + fin y : XReal) = fin (x + y) := rfl
@[simp] theorem neg_fin (x : ℝ) : (-fin x : XReal) = fin (-x) := rfl
@[simp] theorem fin_sub_fin (x y : ℝ) : (fin x - fin y : XReal) = fin (x - y) := by
  show fin (x + -y) = _
  rw [sub_eq_add_neg]
@[simp] theorem fin_add_ninf (x : ℝ) : (fin x + ninf : XReal) = ninf := rfl
@[simp] theorem ninf_add_fin (x : ℝ) : (ninf + fin x : XReal) = ninf := rfl
@[simp] theorem nanToNum_fin (x : ℝ) : (fin x).nanToNum = x := rfl
@[simp] theorem isFin_fin (x : ℝ) : (fin x).IsFin := trivial
@[simp] theorem mulR_fin (x r : ℝ) : (fin x).mulR r = fin (x * r) := rfl
theorem divR_fin {x r : ℝ} (h : r ≠ 0) : (fin x).divR r = fin (x / r) := by
  simp [divR, h]

theorem xsum_fin {n : ℕ} (v : Vec n ℝ) : XReal.sum (fun i => fin (v i)) = fin (∑ i, v i) := by
  unfold XReal.sum
  induction n with
  | zero => simp
  | succ n ih =>
    rw [forRange_succ, ih fun i => v i.castSucc, fin_add_fin, Fin.sum_univ_castSucc]

theorem xlogx_nonneg {x : ℝ} (h : 0 ≤ x) : xlogx x = fin (x * Real.log x) := by
  unfold xlogx
  rcases h.eq_or_lt with rfl | h
  · simp
  · rw [if_neg h.ne', if_neg (not_lt.mpr h.le), XReal.log, if_pos h, mulR_fin, mul_comm]

theorem gasEnergy_eq {l phi : Vec C ℝ} (hl : ∀ i, l i ≠ 0) (h : ∀ i, 0 ≤ phi i) :
    gasEnergy l phi = fin (∑ i, phi i * Real.log (phi i) / l i) := by
  unfold gasEnergy
  rw [← xsum_fin]
  congr 1
  funext i
  rw [xlogx_nonneg (h i), divR_fin (hl i)]

theorem gasJacobian_eq {l phi : Vec C ℝ} {i : Fin C} (hl : l i ≠ 0) (h : 0 < phi i) :
    gasJacobian l phi i = fin ((Real.log (phi i) + 1) / l i) := by
  unfold gasJacobian
  rw [XReal.log, if_pos h, divR_fin hl, divR_fin hl, fin_add_fin, add_div]

theorem gasJacobian_zero {l phi : Vec C ℝ} {i : Fin C} (hl : 0 < l i) (h : phi i = 0) :
    gasJacobian l phi i = ninf := by
  unfold gasJacobian
  rw [XReal.log, h, if_neg (lt_irrefl _), if_pos rfl, divR_fin hl.ne']
  simp [XReal.divR, not_lt.mpr hl.le]

theorem gasJacobianFractions_eq {l phi : Vec C ℝ} {i : Fin C} (hl : l i ≠ 0) (h : 0 ≤ phi i) :
    gasJacobianFractions l phi i = fin (phi i * (Real.log (phi i) + 1) / l i) := by
  unfold gasJacobianFractions
  rw [xlogx_nonneg h, divR_fin hl, divR_fin hl, fin_add_fin]
  congr 1
  ring

theorem gasHessian_entry (l phi : Vec C ℝ) (i j : Fin C) :
    gasHessian l phi i j = if i = j then ((fin 1).divR (phi i)).mulR (l i) else fin 0 := by
  unfold gasHessian
  have := forRange_inv (n := C) (s := (fun _ _ => fin 0 : Mat C C XReal))
    (body := fun i ans => setAt2 ans i i (((fin 1).divR (phi i)).mulR (l i)))
    (fun k a => ∀ i j : Fin C, a i j =
      if i = j ∧ (i : ℕ) < k then ((fin 1).divR (phi i)).mulR (l i) else fin 0)
    (by simp) (by
      intro k a ih i j
      simp only [setAt2]
      by_cases h : i = k ∧ j = k
      · obtain ⟨rfl, rfl⟩ := h; simp
      · rw [if_neg h, ih]
        by_cases hij : i = j
        · subst hij
          have : i ≠ k := fun e => h ⟨e, e⟩
          have : (i : ℕ) ≠ k := fun e => this (Fin.ext e)
          have : (i : ℕ) < k ↔ (i : ℕ) < k + 1 := by omega
          simp [this]
        · simp [hij])
  rw [this]
  have : (i : ℕ) < C := i.2
  simp [this]

theorem gasHessian_eq {l phi : Vec C ℝ} {i j : Fin C} (h : 0 < phi i) :
    gasHessian l phi i j = fin (if i = j then l i / phi i else 0) := by
  rw [gasHessian_entry]
  split
  · rw [divR_fin h.ne', mulR_fin]; congr 1; ring
  · rfl

theorem isOpen_pos : IsOpen {x : Vec C ℝ | ∀ i, 0 < x i} := by
  have : {x : Vec C ℝ | ∀ i, 0 < x i} = ⋂ i, {x | 0 < x i} := by ext; simp
  rw [this]
  exact isOpen_iInter_of_finite fun i => isOpen_lt continuous_const (continuous_apply i)

theorem eventually_pos {x : Vec C ℝ} (h : ∀ i, 0 < x i) : ∀ᶠ y in 𝓝 x, ∀ i, 0 < y i :=
  isOpen_pos.mem_nhds h

/-- A gradient follows from one-variable derivatives of a separable function. -/
theorem gradient_sum {f : Fin C → ℝ → ℝ} {g x : Vec C ℝ} (h : ∀ i, HasDerivAt (f i) (g i) (x i)) :
    IsGradientAt (fun y => ∑ i, f i (y i)) g x := by
  unfold IsGradientAt
  have h1 := HasFDerivAt.fun_sum (u := Finset.univ) fun i _ =>
    (h i).comp_hasFDerivAt x (hasFDerivAt_coord x i)
  refine h1.congr_fderiv ?_
  ext v
  simp

theorem IsGradientAt.add {f f' : Vec C ℝ → ℝ} {g g' x : Vec C ℝ} (h : IsGradientAt f g x)
    (h' : IsGradientAt f' g' x) : IsGradientAt (fun y => f y + f' y) (fun i => g i + g' i) x := by
  unfold IsGradientAt at *
  refine (HasFDerivAt.add h h').congr_fderiv ?_
  ext v
  simp [add_mul, Finset.sum_add_distrib]

theorem hasDerivAt_xlogx {x l : ℝ} (h : 0 < x) :
    HasDerivAt (fun x => x * Real.log x / l) ((Real.log x + 1) / l) x := by
  have := (Real.hasDerivAt_mul_log h.ne').div_const l
  exact this

theorem gasEnergy_gradient {l x : Vec C ℝ} (h : ∀ i, 0 < x i) :
    IsGradientAt (fun y : Vec C ℝ => ∑ i, y i * Real.log (y i) / l i)
      (fun i => (Real.log (x i) + 1) / l i) x :=
  gradient_sum (f := fun i t => t * Real.log t / l i) fun i => hasDerivAt_xlogx (h i)

theorem gasJacobian_gradient {l x : Vec C ℝ} (i : Fin C) (h : 0 < x i) :
    IsGradientAt (fun y : Vec C ℝ => (Real.log (y i) + 1) / l i)
      (fun j => if i = j then 1 / (l i * x i) else 0) x := by
  unfold IsGradientAt
  have h1 : HasDerivAt (fun t => (Real.log t + 1) / l i) (1 / (l i * x i)) (x i) := by
    have := ((Real.hasDerivAt_log h.ne').add_const 1).div_const (l i)
    have e : 1 / (l i * x i) = (x i)⁻¹ / l i := by
      rw [one_div, mul_inv, mul_comm, div_eq_mul_inv]
    rw [e]
    exact this
  refine (h1.comp_hasFDerivAt x (hasFDerivAt_coord x i)).congr_fderiv ?_
  ext v
  simp

/-- Gradients with extended values are unique as well. -/
theorem xgradient_unique {f : Vec C ℝ → XReal} {g g' : Vec C XReal} {x : Vec C ℝ}
    (h : XGradientAt f g x) (h' : XGradientAt f g' x) : g = g' := by
  obtain ⟨e, d, h1, h2, h3⟩ := h
  obtain ⟨e', d', h1', h2', h3'⟩ := h'
  have he : e =ᶠ[𝓝 x] e' := by
    filter_upwards [h1, h1'] with y hy hy'
    rw [hy] at hy'
    exact XReal.fin.inj hy'
  have h4 : IsGradientAt e d' x := HasFDerivAt.congr_of_eventuallyEq h3' he
  funext i
  rw [h2, h2', h3.unique h4]

end Flory
