import Verif.Props.Miscible
import Mathlib.Analysis.Convex.Deriv
import Mathlib.Analysis.SpecialFunctions.Log.Deriv
import Mathlib.Analysis.SpecialFunctions.Log.NegMulLog

/-! # Convexity of the free energy -/

set_option linter.unusedSectionVars false

namespace Flory

open Spec Filter Topology

/-- The logarithmic mean is at most the arithmetic mean. -/
theorem two_sub_le_log {x : ℝ} (hx : 1 < x) : 2 * (x - 1) / (x + 1) < Real.log x := by
  have hmono : StrictMonoOn (fun x : ℝ => Real.log x - 2 * (x - 1) / (x + 1)) (Set.Ici 1) := by
    have hd : ∀ y : ℝ, 1 ≤ y → HasDerivAt (fun x : ℝ => Real.log x - 2 * (x - 1) / (x + 1))
        (y⁻¹ - (2 * (y + 1) - 2 * (y - 1) * 1) / (y + 1) ^ 2) y := by
      intro y hy
      have h1 : HasDerivAt (fun x : ℝ => 2 * (x - 1)) 2 y := by
        simpa using ((hasDerivAt_id y).sub_const 1).const_mul (2 : ℝ)
      have h2 : HasDerivAt (fun x : ℝ => x + 1) 1 y := (hasDerivAt_id y).add_const 1
      exact (Real.hasDerivAt_log (by linarith)).sub (h1.div h2 (by linarith))
    refine strictMonoOn_of_deriv_pos (convex_Ici 1)
      (fun y hy => (hd y hy).continuousAt.continuousWithinAt) fun y hy => ?_
    rw [interior_Ici, Set.mem_Ioi] at hy
    rw [(hd y hy.le).deriv]
    have : y⁻¹ - (2 * (y + 1) - 2 * (y - 1) * 1) / (y + 1) ^ 2 = (y - 1) ^ 2 / (y * (y + 1) ^ 2) := by
      have h1 : y ≠ 0 := by linarith
      have h2 : y + 1 ≠ 0 := by linarith
      field_simp
      ring
    rw [this]
    have : 0 < y - 1 := by linarith
    positivity
  have := hmono (Set.mem_Ici.mpr le_rfl) (Set.mem_Ici.mpr hx.le) hx
  simp only [Real.log_one, sub_self, mul_zero, zero_div] at this
  linarith

theorem log_mean_lt {a b : ℝ} (ha : 0 < a) (hb : 0 < b) (hab : a ≠ b) :
    (a - b) ^ 2 / ((a + b) / 2) < (a - b) * (Real.log a - Real.log b) := by
  have key : ∀ a b : ℝ, 0 < a → 0 < b → b < a →
      (a - b) ^ 2 / ((a + b) / 2) < (a - b) * (Real.log a - Real.log b) := by
    intro a b ha hb hba
    have h1 := two_sub_le_log ((one_lt_div hb).mpr hba)
    rw [Real.log_div ha.ne' hb.ne'] at h1
    have e : (a - b) ^ 2 / ((a + b) / 2) = (a - b) * (2 * (a / b - 1) / (a / b + 1)) := by
      have : a + b ≠ 0 := (add_pos ha hb).ne'
      field_simp
    rw [e]
    exact mul_lt_mul_of_pos_left h1 (sub_pos.mpr hba)
  rcases lt_or_gt_of_ne hab with h | h
  · have := key b a hb ha h
    rw [show (a - b) ^ 2 / ((a + b) / 2) = (b - a) ^ 2 / ((b + a) / 2) by ring,
      show (a - b) * (Real.log a - Real.log b) = (b - a) * (Real.log b - Real.log a) by ring]
    exact this
  · exact key a b ha hb h

theorem log_mean_le {a b : ℝ} (ha : 0 < a) (hb : 0 < b) :
    (a - b) ^ 2 / ((a + b) / 2) ≤ (a - b) * (Real.log a - Real.log b) := by
  by_cases h : a = b
  · subst h; simp
  · exact (log_mean_lt ha hb h).le

section Pair

variable {C : ℕ} {chis : Mat C C ℝ} {l x y : Vec C ℝ}

theorem stiffness_nonneg (l v : Vec C ℝ) : 0 ≤ stiffness l v :=
  Finset.sum_nonneg fun _ _ => div_nonneg (abs_nonneg _) (Real.sqrt_nonneg _)

theorem sum_sq_le_stiffness (hl : ∀ i, 0 < l i) (v : Vec C ℝ) : ∑ i, v i ^ 2 / l i ≤ stiffness l v ^ 2 := by
  have : ∀ i, v i ^ 2 / l i = (|v i| / √(l i)) ^ 2 := fun i => by
    rw [div_pow, sq_abs, Real.sq_sqrt (hl i).le]
  simp only [this]
  unfold stiffness
  exact Finset.sum_sq_le_sq_sum_of_nonneg fun i _ => div_nonneg (abs_nonneg _) (Real.sqrt_nonneg _)

/-- The entropic forces between two compositions are at least the stiffness. -/
theorem stiffness_le {B : ℝ} (hl : ∀ i, 0 < l i)
    (hxy : ∀ i, (0 < x i ∧ 0 < y i) ∨ (x i = 0 ∧ y i = 0)) (hxB : ∑ i, x i ≤ B) (hyB : ∑ i, y i ≤ B) :
    stiffness l (fun i => x i - y i) ^ 2 ≤ B * ∑ i, (x i - y i) * (Real.log (x i) - Real.log (y i)) / l i := by
  set P := Finset.univ.filter fun i => 0 < x i with hP
  have hmem : ∀ i ∈ P, 0 < x i ∧ 0 < y i := fun i hi => by
    rw [hP, Finset.mem_filter] at hi
    rcases hxy i with h | h
    · exact h
    · exact absurd hi.2 (by rw [h.1]; exact lt_irrefl _)
  have hout : ∀ i, i ∉ P → x i = 0 ∧ y i = 0 := fun i hi => by
    rcases hxy i with h | h
    · exact absurd (Finset.mem_filter.mpr ⟨Finset.mem_univ i, h.1⟩) hi
    · exact h
  have hsub : ∀ f : Fin C → ℝ, (∀ i, i ∉ P → f i = 0) → ∑ i, f i = ∑ i ∈ P, f i := fun f hf =>
    (Finset.sum_subset (Finset.subset_univ P) fun i _ hi => hf i hi).symm
  have e1 : stiffness l (fun i => x i - y i) = ∑ i ∈ P, |x i - y i| / √(l i) := by
    unfold stiffness
    exact hsub _ fun i hi => by beta_reduce; rw [(hout i hi).1, (hout i hi).2]; simp
  have e2 : ∑ i, (x i - y i) * (Real.log (x i) - Real.log (y i)) / l i =
      ∑ i ∈ P, (x i - y i) * (Real.log (x i) - Real.log (y i)) / l i :=
    hsub _ fun i hi => by rw [(hout i hi).1, (hout i hi).2]; simp
  have h0 : 0 ≤ ∑ i ∈ P, (x i - y i) * (Real.log (x i) - Real.log (y i)) / l i :=
    Finset.sum_nonneg fun i hi => div_nonneg
      ((div_nonneg (sq_nonneg _) (by linarith [(hmem i hi).1, (hmem i hi).2])).trans
        (log_mean_le (hmem i hi).1 (hmem i hi).2)) (hl i).le
  rw [e1, e2]
  rcases P.eq_empty_or_nonempty with hemp | hne
  · rw [hemp]; simp
  have hm0 : 0 < ∑ i ∈ P, (x i + y i) / 2 :=
    Finset.sum_pos (fun i hi => by linarith [(hmem i hi).1, (hmem i hi).2]) hne
  have hmB : ∑ i ∈ P, (x i + y i) / 2 ≤ B := by
    rw [← hsub (fun i => (x i + y i) / 2) fun i hi => by rw [(hout i hi).1, (hout i hi).2]; simp,
      ← Finset.sum_div, Finset.sum_add_distrib]
    linarith
  have h1 := Finset.sq_sum_div_le_sum_sq_div P (fun i => |x i - y i| / √(l i)) (g := fun i => (x i + y i) / 2)
    (fun i hi => by linarith [(hmem i hi).1, (hmem i hi).2])
  have h2 : ∑ i ∈ P, (|x i - y i| / √(l i)) ^ 2 / ((x i + y i) / 2) ≤
      ∑ i ∈ P, (x i - y i) * (Real.log (x i) - Real.log (y i)) / l i := by
    refine Finset.sum_le_sum fun i hi => ?_
    rw [div_pow, sq_abs, Real.sq_sqrt (hl i).le, div_right_comm]
    exact div_le_div_of_nonneg_right (log_mean_le (hmem i hi).1 (hmem i hi).2) (hl i).le
  have h3 := h1.trans h2
  rw [div_le_iff₀ hm0, mul_comm] at h3
  exact h3.trans (mul_le_mul_of_nonneg_right hmB h0)

/-- The same strictly. -/
theorem stiffness_lt (hl : ∀ i, 0 < l i) (hx : x ∈ mixtures C) (hy : y ∈ mixtures C) (hne : x ≠ y) :
    stiffness l (fun i => x i - y i) ^ 2 < ∑ i, (x i - y i) * (Real.log (x i) - Real.log (y i)) / l i := by
  obtain ⟨i0, hi0⟩ := Function.ne_iff.mp hne
  have hm : ∀ i, 0 < (x i + y i) / 2 := fun i => by linarith [hx.1 i, hy.1 i]
  have h1 := Finset.sq_sum_div_le_sum_sq_div Finset.univ (fun i => |x i - y i| / √(l i))
    (g := fun i => (x i + y i) / 2) (fun i _ => hm i)
  have hs : ∑ i, (x i + y i) / 2 = 1 := by
    rw [← Finset.sum_div, Finset.sum_add_distrib, hx.2, hy.2]; norm_num
  rw [hs, div_one] at h1
  refine h1.trans_lt (Finset.sum_lt_sum (fun i _ => ?_) ⟨i0, Finset.mem_univ _, ?_⟩)
  · rw [div_pow, sq_abs, Real.sq_sqrt (hl i).le, div_right_comm]
    exact div_le_div_of_nonneg_right (log_mean_le (hx.1 i) (hy.1 i)) (hl i).le
  · rw [div_pow, sq_abs, Real.sq_sqrt (hl i0).le, div_right_comm]
    exact div_lt_div_of_pos_right (log_mean_lt (hx.1 i0) (hy.1 i0) hi0) (hl i0)

/-- Slope of the interaction energy along a line. -/
noncomputable def lineSlope (chis : Mat C C ℝ) (x v : Vec C ℝ) : ℝ :=
  1 / 2 * ∑ i, ∑ j, (chis i j * x i * v j + chis i j * v i * x j)

theorem freeEnergy_line (x v : Vec C ℝ) (t : ℝ) : freeEnergy chis l (fun i => x i + t * v i) =
    (∑ i, (x i + t * v i) * Real.log (x i + t * v i) / l i) + (1 / 2 * (∑ i, ∑ j, chis i j * x i * x j) +
      t * lineSlope chis x v + t ^ 2 * (1 / 2 * ∑ i, ∑ j, chis i j * v i * v j)) := by
  unfold freeEnergy lineSlope
  congr 1
  simp only [Finset.mul_sum, ← Finset.sum_add_distrib]
  exact Finset.sum_congr rfl fun i _ => Finset.sum_congr rfl fun j _ => by ring

theorem freeEnergy_line_deriv (x v : Vec C ℝ) {t : ℝ} (h : ∀ i, 0 < x i + t * v i) :
    HasDerivAt (fun t => freeEnergy chis l (fun i => x i + t * v i))
      ((∑ i, v i * (Real.log (x i + t * v i) + 1) / l i) + (lineSlope chis x v +
        t * ∑ i, ∑ j, chis i j * v i * v j)) t := by
  simp only [freeEnergy_line]
  refine HasDerivAt.add (HasDerivAt.fun_sum fun i _ => ?_) ?_
  · have h1 : HasDerivAt (fun t => x i + t * v i) (v i) t := by
      simpa using ((hasDerivAt_id t).mul_const (v i)).const_add (x i)
    have h2 : HasDerivAt (fun t => (x i + t * v i) * Real.log (x i + t * v i) / l i)
        ((Real.log (x i + t * v i) + 1) * v i / l i) t := by
      have h3 := HasDerivAt.comp (h₂ := fun y : ℝ => y * Real.log y) t (Real.hasDerivAt_mul_log (h i).ne') h1
      exact h3.div_const (l i)
    refine h2.congr_deriv ?_
    ring
  · generalize lineSlope chis x v = a
    generalize (∑ i, ∑ j, chis i j * v i * v j) = q
    generalize 1 / 2 * (∑ i, ∑ j, chis i j * x i * x j) = c
    have h1 : HasDerivAt (fun t : ℝ => t * a) a t := by simpa using (hasDerivAt_id t).mul_const a
    have h2 : HasDerivAt (fun t : ℝ => t ^ 2 * (1 / 2 * q)) (2 * t * (1 / 2 * q)) t := by
      simpa using (hasDerivAt_pow 2 t).mul_const (1 / 2 * q)
    refine ((h1.const_add c).add h2).congr_deriv ?_
    ring

/-- Convexity from the closed condition. -/
theorem convexOn_of_stiffness (hl : ∀ i, 0 < l i)
    (h : ∀ v : Vec C ℝ, ∑ i, v i = 0 → 0 ≤ stiffness l v ^ 2 + ∑ i, ∑ j, chis i j * v i * v j) :
    ConvexOn ℝ (mixtures C) (freeEnergy chis l) := by
  have hconv : Convex ℝ (mixtures C) := by
    intro x hx y hy a b ha hb hab
    refine ⟨fun i => ?_, ?_⟩
    · show 0 < a * x i + b * y i
      rcases ha.eq_or_lt with h0 | h0
      · rw [← h0] at hab ⊢
        rw [zero_mul, zero_add]
        exact mul_pos (by linarith) (hy.1 i)
      · exact add_pos_of_pos_of_nonneg (mul_pos h0 (hx.1 i)) (mul_nonneg hb (hy.1 i).le)
    · show ∑ i, (a * x i + b * y i) = 1
      rw [Finset.sum_add_distrib, ← Finset.mul_sum, ← Finset.mul_sum, hx.2, hy.2]
      linarith
  refine ⟨hconv, fun x hx y hy a b ha hb hab => ?_⟩
  set v : Vec C ℝ := fun i => y i - x i with hv
  have hin : ∀ t ∈ Set.Icc (0 : ℝ) 1, (fun i => x i + t * v i) ∈ mixtures C := by
    intro t ht
    have := hconv hx hy (a := 1 - t) (b := t) (by linarith [ht.2]) ht.1 (by ring)
    convert this using 1
    funext i
    show x i + t * (y i - x i) = (1 - t) * x i + t * y i
    ring
  have hd : ∀ t ∈ Set.Icc (0 : ℝ) 1, HasDerivAt (fun t => freeEnergy chis l (fun i => x i + t * v i)) _ t :=
    fun t ht => freeEnergy_line_deriv x v (hin t ht).1
  have hc : ConvexOn ℝ (Set.Icc (0 : ℝ) 1) (fun t => freeEnergy chis l (fun i => x i + t * v i)) := by
    refine MonotoneOn.convexOn_of_deriv (convex_Icc 0 1)
      (fun t ht => (hd t ht).continuousAt.continuousWithinAt) ?_ ?_
    · intro t ht
      exact (hd t (interior_subset ht)).differentiableAt.differentiableWithinAt
    · intro s hs t ht hst
      rw [(hd s (interior_subset hs)).deriv, (hd t (interior_subset ht)).deriv]
      rcases hst.eq_or_lt with rfl | hst
      · exact le_rfl
      have ms := hin s (interior_subset hs)
      have mt := hin t (interior_subset ht)
      have hw : (fun i => (x i + t * v i) - (x i + s * v i)) = fun i => (t - s) * v i := by funext i; ring
      have h1 := stiffness_le (l := l) (x := fun i => x i + t * v i) (y := fun i => x i + s * v i) hl
        (fun i => Or.inl ⟨mt.1 i, ms.1 i⟩) mt.2.le ms.2.le
      have h2 := h (fun i => (t - s) * v i) (by
        rw [← Finset.mul_sum, hv, Finset.sum_sub_distrib, hx.2, hy.2]; ring)
      rw [hw, one_mul] at h1
      have e1 : ∑ i, ∑ j, chis i j * ((t - s) * v i) * ((t - s) * v j) =
          (t - s) * ((t - s) * ∑ i, ∑ j, chis i j * v i * v j) := by
        simp only [Finset.mul_sum]
        exact Finset.sum_congr rfl fun i _ => Finset.sum_congr rfl fun j _ => by ring
      have e2 : ∑ i, (x i + t * v i - (x i + s * v i)) * (Real.log (x i + t * v i) - Real.log (x i + s * v i)) / l i =
          (t - s) * ((∑ i, v i * (Real.log (x i + t * v i) + 1) / l i) -
            ∑ i, v i * (Real.log (x i + s * v i) + 1) / l i) := by
        rw [← Finset.sum_sub_distrib, Finset.mul_sum]
        exact Finset.sum_congr rfl fun i _ => by ring
      rw [e2] at h1
      rw [e1] at h2
      have h3 : 0 ≤ (t - s) * (((∑ i, v i * (Real.log (x i + t * v i) + 1) / l i) -
            ∑ i, v i * (Real.log (x i + s * v i) + 1) / l i) + (t - s) * ∑ i, ∑ j, chis i j * v i * v j) := by
        linarith
      have h4 := nonneg_of_mul_nonneg_right h3 (sub_pos.mpr hst)
      linarith
  have := hc.2 (Set.left_mem_Icc.mpr zero_le_one) (Set.right_mem_Icc.mpr zero_le_one) ha hb hab
  simp only [smul_eq_mul, mul_zero, mul_one, zero_add, zero_mul, add_zero, one_mul] at this
  have e1 : (fun i => x i + b * v i) = a • x + b • y := by
    funext i
    show x i + b * (y i - x i) = a * x i + b * y i
    rw [show a = 1 - b by linarith]; ring
  have e2 : (fun i => x i + v i) = y := by funext i; show x i + (y i - x i) = y i; ring
  rw [e1, e2] at this
  exact this

/-- Forces of a convex free energy are monotone. -/
theorem monotone_of_convexOn (hc : ConvexOn ℝ (mixtures C) (freeEnergy chis l)) (hx : x ∈ mixtures C)
    (hy : y ∈ mixtures C) : 0 ≤ (∑ i, (x i - y i) * (Real.log (x i) - Real.log (y i)) / l i) +
      ∑ i, ∑ j, chis i j * (x i - y i) * (x j - y j) := by
  set v : Vec C ℝ := fun i => x i - y i with hv
  have hline : ConvexOn ℝ (Set.Icc (0 : ℝ) 1) (fun t => freeEnergy chis l (fun i => y i + t * v i)) := by
    have hm : ∀ t : ℝ, (fun i => y i + t * v i) = AffineMap.lineMap y x t := by
      intro t
      rw [AffineMap.lineMap_apply_module]
      funext i
      show y i + t * (x i - y i) = (1 - t) * y i + t * x i
      ring
    have := (hc.comp_affineMap (AffineMap.lineMap (k := ℝ) y x)).subset (s := Set.Icc (0 : ℝ) 1) (by
      intro t ht
      show AffineMap.lineMap y x t ∈ mixtures C
      rw [AffineMap.lineMap_apply_module]
      exact hc.1 hy hx (by linarith [ht.2]) ht.1 (by ring)) (convex_Icc 0 1)
    refine this.congr fun t ht => ?_
    show freeEnergy chis l (AffineMap.lineMap y x t) = _
    rw [hm]
  have d0 := freeEnergy_line_deriv (chis := chis) (l := l) y v (t := 0) (fun i => by simpa using hy.1 i)
  have d1 := freeEnergy_line_deriv (chis := chis) (l := l) y v (t := 1) (fun i => by
    rw [show y i + 1 * v i = x i by rw [hv]; ring]; exact hx.1 i)
  have h0 := hline.le_slope_of_hasDerivAt (Set.left_mem_Icc.mpr zero_le_one) (Set.right_mem_Icc.mpr zero_le_one)
    one_pos d0
  have h1 := hline.slope_le_of_hasDerivAt (Set.left_mem_Icc.mpr zero_le_one) (Set.right_mem_Icc.mpr zero_le_one)
    one_pos d1
  have h2 := h0.trans h1
  have e : ∑ i, v i * (Real.log (x i) - Real.log (y i)) / l i =
      (∑ i, v i * (Real.log (x i) + 1) / l i) - ∑ i, v i * (Real.log (y i) + 1) / l i := by
    rw [← Finset.sum_sub_distrib]
    exact Finset.sum_congr rfl fun i _ => by ring
  have e1 : ∀ i, y i + v i = x i := fun i => by rw [hv]; ring
  simp only [e1, zero_mul, one_mul, add_zero] at h2
  show 0 ≤ (∑ i, v i * (Real.log (x i) - Real.log (y i)) / l i) + ∑ i, ∑ j, chis i j * v i * v j
  rw [e]
  linarith

theorem log_diff_upper {a b m : ℝ} (hm : 0 < m) (ha : m ≤ a) (hb : m ≤ b) :
    (a - b) * (Real.log a - Real.log b) ≤ (a - b) ^ 2 / m := by
  have key : ∀ a b : ℝ, m ≤ b → b ≤ a → (a - b) * (Real.log a - Real.log b) ≤ (a - b) ^ 2 / m := by
    intro a b hb hba
    have hb0 := hm.trans_le hb
    have ha0 := hb0.trans_le hba
    have h1 := Real.log_le_sub_one_of_pos (div_pos ha0 hb0)
    rw [Real.log_div ha0.ne' hb0.ne'] at h1
    have h2 : a / b - 1 ≤ (a - b) / m := by
      rw [div_sub_one hb0.ne']
      exact div_le_div_of_nonneg_left (sub_nonneg.mpr hba) hm hb
    calc _ ≤ (a - b) * ((a - b) / m) := mul_le_mul_of_nonneg_left (h1.trans h2) (sub_nonneg.mpr hba)
      _ = _ := by ring
  rcases le_total b a with h | h
  · exact key a b hb h
  · have := key b a ha h
    rw [show (a - b) * (Real.log a - Real.log b) = (b - a) * (Real.log b - Real.log a) by ring,
      show (a - b) ^ 2 = (b - a) ^ 2 by ring]
    exact this

/-- The closed condition from convexity. -/
theorem stiffness_of_convexOn (hl : ∀ i, 0 < l i) (hc : ConvexOn ℝ (mixtures C) (freeEnergy chis l)) {v : Vec C ℝ}
    (hv : ∑ i, v i = 0) : 0 ≤ stiffness l v ^ 2 + ∑ i, ∑ j, chis i j * v i * v j := by
  set Q := stiffness l v with hQ
  set q := ∑ i, ∑ j, chis i j * v i * v j with hq
  by_cases hz : ∀ i, v i = 0
  · have : q = 0 := by rw [hq]; simp [hz]
    rw [this, add_zero]
    positivity
  push Not at hz
  obtain ⟨i0, hi0⟩ := hz
  have hs : ∀ i, 0 < √(l i) := fun i => Real.sqrt_pos.mpr (hl i)
  have hQ0 : 0 < Q := Finset.sum_pos' (fun i _ => div_nonneg (abs_nonneg _) (hs i).le)
    ⟨i0, Finset.mem_univ _, div_pos (abs_pos.mpr hi0) (hs i0)⟩
  have hC : (0 : ℝ) < C := Nat.cast_pos.mpr i0.pos
  have key : ∀ ε ∈ Set.Ioo (0 : ℝ) 1, 0 ≤ Q ^ 2 + q * (1 - ε) ^ 2 := by
    intro ε hε
    have hε1 : 0 < 1 - ε := by linarith [hε.2]
    set φ : Vec C ℝ := fun i => (1 - ε) * (|v i| / √(l i) / Q) + ε / C with hφ
    have hφ1 : ∀ i, (1 - ε) * (|v i| / √(l i) / Q) ≤ φ i := fun i => by
      have : 0 < ε / C := div_pos hε.1 hC
      rw [hφ]; linarith
    have hφ2 : ∀ i, ε / C ≤ φ i := fun i => by
      have : 0 ≤ (1 - ε) * (|v i| / √(l i) / Q) :=
        mul_nonneg hε1.le (div_nonneg (div_nonneg (abs_nonneg _) (hs i).le) hQ0.le)
      rw [hφ]; linarith
    have hφ0 : ∀ i, 0 < φ i := fun i => (div_pos hε.1 hC).trans_le (hφ2 i)
    have hφm : φ ∈ mixtures C := by
      refine ⟨hφ0, ?_⟩
      rw [hφ, Finset.sum_add_distrib, ← Finset.mul_sum, ← Finset.sum_div]
      have : ∑ i, |v i| / √(l i) = Q := rfl
      rw [this, div_self hQ0.ne', Finset.sum_const, Finset.card_univ, Fintype.card_fin, nsmul_eq_mul]
      field_simp
      ring
    set V := ∑ i, |v i| with hV
    have hV0 : 0 ≤ V := Finset.sum_nonneg fun i _ => abs_nonneg _
    set t := ε * (ε / C) / (V + 1) with ht
    have ht0 : 0 < t := div_pos (mul_pos hε.1 (div_pos hε.1 hC)) (by linarith)
    have htv : ∀ i, |t * v i| ≤ ε * φ i := by
      intro i
      rw [abs_mul, abs_of_pos ht0]
      have h1 : |v i| ≤ V := Finset.single_le_sum (f := fun i => |v i|) (fun i _ => abs_nonneg _) (Finset.mem_univ i)
      calc t * |v i| ≤ t * (V + 1) := mul_le_mul_of_nonneg_left (by linarith) ht0.le
        _ = ε * (ε / C) := by rw [ht]; field_simp
        _ ≤ _ := mul_le_mul_of_nonneg_left (hφ2 i) hε.1.le
    have hmin : ∀ i, (1 - ε) * φ i ≤ φ i + t * v i ∧ (1 - ε) * φ i ≤ φ i := fun i => by
      have h1 := (abs_le.mp (htv i)).1
      have h2 := mul_pos hε.1 (hφ0 i)
      constructor <;> linarith
    have hm0 : ∀ i, 0 < (1 - ε) * φ i := fun i => mul_pos hε1 (hφ0 i)
    have hx : (fun i => φ i + t * v i) ∈ mixtures C :=
      ⟨fun i => (hm0 i).trans_le (hmin i).1, by rw [Finset.sum_add_distrib, ← Finset.mul_sum, hv, hφm.2]; ring⟩
    have h1 := monotone_of_convexOn hc hx hφm
    have e1 : ∀ i, φ i + t * v i - φ i = t * v i := fun i => by ring
    simp only [e1] at h1
    have e2 : ∑ i, ∑ j, chis i j * (t * v i) * (t * v j) = t ^ 2 * q := by
      rw [hq, Finset.mul_sum]
      refine Finset.sum_congr rfl fun i _ => ?_
      rw [Finset.mul_sum]
      exact Finset.sum_congr rfl fun j _ => by ring
    rw [e2] at h1
    have h2 : ∀ i, t * v i * (Real.log (φ i + t * v i) - Real.log (φ i)) / l i ≤
        t ^ 2 * (Q / (1 - ε) ^ 2 * (|v i| / √(l i))) := by
      intro i
      have a1 := log_diff_upper (hm0 i) (hmin i).1 (hmin i).2
      rw [e1] at a1
      have a2 : (t * v i) ^ 2 / ((1 - ε) * φ i) / l i ≤ t ^ 2 * (Q / (1 - ε) ^ 2 * (|v i| / √(l i))) := by
        rw [div_div, div_le_iff₀ (mul_pos (hm0 i) (hl i))]
        have a3 := mul_le_mul_of_nonneg_left (hφ1 i) (show 0 ≤ t ^ 2 * (Q / (1 - ε) ^ 2 * (|v i| / √(l i))) *
          ((1 - ε) * l i) from mul_nonneg (mul_nonneg (sq_nonneg _) (mul_nonneg (div_nonneg hQ0.le (sq_nonneg _))
            (div_nonneg (abs_nonneg _) (hs i).le))) (mul_nonneg hε1.le (hl i).le))
        refine le_trans (le_of_eq ?_) (a3.trans (le_of_eq (by ring)))
        have a4 : l i = √(l i) * √(l i) := (Real.mul_self_sqrt (hl i).le).symm
        have a5 : v i ^ 2 = |v i| * |v i| := by rw [← sq, sq_abs]
        rw [mul_pow, a5]
        have hsi := (hs i).ne'
        generalize √(l i) = r at *
        rw [a4]
        field_simp
      exact (div_le_div_of_nonneg_right a1 (hl i).le).trans a2
    have h3 := Finset.sum_le_sum fun i (_ : i ∈ Finset.univ) => h2 i
    rw [← Finset.mul_sum, ← Finset.mul_sum] at h3
    have e3 : ∑ i, |v i| / √(l i) = Q := rfl
    rw [e3] at h3
    have h4 : 0 ≤ t ^ 2 * (Q / (1 - ε) ^ 2 * Q + q) := by linarith
    have h5 := nonneg_of_mul_nonneg_right h4 (by positivity : (0 : ℝ) < t ^ 2)
    have h6 := mul_nonneg h5 (by positivity : (0 : ℝ) ≤ (1 - ε) ^ 2)
    have e4 : (Q / (1 - ε) ^ 2 * Q + q) * (1 - ε) ^ 2 = Q ^ 2 + q * (1 - ε) ^ 2 := by
      field_simp
    rwa [e4] at h6
  have hlim : Tendsto (fun ε : ℝ => Q ^ 2 + q * (1 - ε) ^ 2) (𝓝[>] 0) (𝓝 (Q ^ 2 + q * (1 - 0) ^ 2)) :=
    (Continuous.tendsto (by fun_prop) 0).mono_left nhdsWithin_le_nhds
  have := ge_of_tendsto hlim (by
    filter_upwards [Ioo_mem_nhdsGT (show (0 : ℝ) < 1 by norm_num)] with ε hε using key ε hε)
  simpa using this

end Pair

end Flory
