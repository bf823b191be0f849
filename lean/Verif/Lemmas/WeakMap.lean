import Verif.Lemmas.SeparatedPass

/-! # One pass of a weakly interacting mixture, far from equilibrium -/

set_option linter.unusedSectionVars false

namespace Flory.Weak

open Spec Finset

variable {C S M : ℕ} [NeZero M] [NeZero S]
variable {feat : Fin C → Fin S} {l x : Vec C ℝ} {J : Vec M ℝ} {om : Mat S M ℝ} {chis : Mat S S ℝ}
  {c V E l₀ l₁ X : ℝ}

/-- The mean field of a compartment. -/
noncomputable def level (om : Mat S M ℝ) (m : Fin M) : ℝ := (∑ r, om r m) / S

/-- The potential of a feature in a compartment of composition `y`, compared to the other features. -/
noncomputable def gap (chis : Mat S S ℝ) (feat : Fin C → Fin S) (y : Vec C ℝ) (r : Fin S) : ℝ :=
  ∑ j, chis r (feat j) * y j - (∑ q, ∑ j, chis q (feat j) * y j) / S

/-- Bounds on the differences between the compartments (`V`) and between the features (`E`). -/
structure Bounds (chis : Mat S S ℝ) (feat : Fin C → Fin S) (x : Vec C ℝ) (om : Mat S M ℝ) (V E : ℝ) : Prop where
  level : ∀ m n, |level om m - level om n| ≤ V
  gap : ∀ r m, |om r m - Weak.level om m - Weak.gap chis feat x r| ≤ E

/-- What is assumed about the mixture and the volumes. -/
structure Mixture (l x : Vec C ℝ) (J : Vec M ℝ) (l₀ l₁ : ℝ) : Prop where
  l₀_pos : 0 < l₀
  size_ge : ∀ i, l₀ ≤ l i
  size_le : ∀ i, l i ≤ l₁
  pos : ∀ i, 0 < x i
  sum : ∑ i, x i = 1
  half : ∀ m, 1 / 2 ≤ J m
  vol : ∑ m, J m = M

variable (h : Mixture l x J l₀ l₁)
include h

theorem Mixture.Js_pos (m : Fin M) : 0 < J m := lt_of_lt_of_le (by norm_num) (h.half m)

theorem Mixture.l₁_pos : 0 < l₁ := by
  have : ∃ i : Fin C, True := by
    by_contra hn
    push Not at hn
    have hC : IsEmpty (Fin C) := ⟨fun i => by simpa using hn i⟩
    have := h.sum
    simp at this
  obtain ⟨i, -⟩ := this
  exact h.l₀_pos.trans_le ((h.size_ge i).trans (h.size_le i))

theorem frac_pos (i : Fin C) (m : Fin M) : 0 < fracsOf feat l x J om i m := fracsOf_pos h.pos h.Js_pos i m

theorem frac_le (i : Fin C) (m : Fin M) : fracsOf feat l x J om i m ≤ 2 * M * x i := by
  have h1 := fracsOf_mean (feat := feat) (l := l) (x := x) (om := om) h.Js_pos i
  have h2 := single_le_sum (f := fun m => J m * fracsOf feat l x J om i m)
    (fun n _ => (mul_pos (h.Js_pos n) (frac_pos h i n)).le) (mem_univ m)
  have h3 := mul_le_mul_of_nonneg_right (h.half m) (frac_pos h (feat := feat) (om := om) i m).le
  linarith

theorem sum_frac_le (m : Fin M) : ∑ i, fracsOf feat l x J om i m ≤ 2 * M := by
  refine (sum_le_sum fun i _ => frac_le h i m).trans ?_
  rw [← mul_sum, h.sum, mul_one]

omit h in
theorem frac_ratio (i : Fin C) (m n : Fin M) : fracsOf feat l x J om i m =
    fracsOf feat l x J om i n * Real.exp (-((om (feat i) m - om (feat i) n) * l i)) := by
  unfold fracsOf schemePhi
  rw [mul_assoc, ← Real.exp_add]
  congr 2
  ring

omit h in
theorem Bounds.field (hb : Bounds chis feat x om V E) (r : Fin S) (m n : Fin M) :
    |om r m - om r n - (Weak.level om m - Weak.level om n)| ≤ 2 * E := by
  have h1 := abs_le.mp (hb.gap r m)
  have h2 := abs_le.mp (hb.gap r n)
  rw [abs_le]
  constructor <;> linarith [h1.1, h1.2, h2.1, h2.2]

omit h in
theorem Bounds.fields (hb : Bounds chis feat x om V E) (r : Fin S) (m n : Fin M) :
    |om r m - om r n| ≤ V + 2 * E := by
  have h1 := abs_le.mp (hb.field r m n)
  have h2 := abs_le.mp (hb.level m n)
  rw [abs_le]
  constructor <;> linarith [h1.1, h1.2, h2.1, h2.2]

theorem Bounds.exponent (hb : Bounds chis feat x om V E) (i : Fin C) (m n : Fin M) :
    |(om (feat i) m - om (feat i) n) * l i| ≤ l₁ * (V + 2 * E) := by
  have hli : 0 < l i := h.l₀_pos.trans_le (h.size_ge i)
  rw [abs_mul, abs_of_pos hli, mul_comm]
  exact mul_le_mul (h.size_le i) (hb.fields _ m n) (abs_nonneg _) h.l₁_pos.le

/-- The fractions in a compartment are not much below the mean fractions. -/
theorem le_frac (hb : Bounds chis feat x om V E) (i : Fin C) (m : Fin M) :
    x i * Real.exp (-(l₁ * (V + 2 * E))) ≤ fracsOf feat l x J om i m := by
  have hM : (0 : ℝ) < M := by exact_mod_cast Nat.pos_of_ne_zero (NeZero.ne M)
  have h1 := fracsOf_mean (feat := feat) (l := l) (x := x) (om := om) h.Js_pos i
  have h2 : ∀ n, fracsOf feat l x J om i n * Real.exp (-(l₁ * (V + 2 * E))) ≤ fracsOf feat l x J om i m :=
    fun n => by
      rw [frac_ratio i m n]
      refine mul_le_mul_of_nonneg_left (Real.exp_le_exp.mpr ?_) (frac_pos h i n).le
      linarith [(abs_le.mp (hb.exponent h i m n)).2]
  have h3 : ∑ n, J n * (fracsOf feat l x J om i n * Real.exp (-(l₁ * (V + 2 * E)))) ≤
      ∑ n, J n * fracsOf feat l x J om i m :=
    sum_le_sum fun n _ => mul_le_mul_of_nonneg_left (h2 n) (h.Js_pos n).le
  simp only [← mul_assoc] at h3
  rw [← sum_mul, ← sum_mul, h1, h.vol, mul_assoc] at h3
  exact le_of_mul_le_mul_left h3 hM

theorem le_sum_frac (hb : Bounds chis feat x om V E) (m : Fin M) :
    Real.exp (-(l₁ * (V + 2 * E))) ≤ ∑ i, fracsOf feat l x J om i m := by
  refine le_trans (le_of_eq ?_) (sum_le_sum fun i _ => le_frac h hb i m)
  rw [← sum_mul, h.sum, one_mul]

theorem frac_diff (hb : Bounds chis feat x om V E) (i : Fin C) (m n : Fin M) :
    |fracsOf feat l x J om i m - fracsOf feat l x J om i n| ≤
      l₁ * (V + 2 * E) * (fracsOf feat l x J om i m + fracsOf feat l x J om i n) := by
  have hz := abs_le.mp (hb.exponent h i m n)
  have hp := frac_pos h (feat := feat) (om := om) i m
  have hq := frac_pos h (feat := feat) (om := om) i n
  have e := frac_ratio (feat := feat) (l := l) (x := x) (J := J) (om := om) i m n
  set p := fracsOf feat l x J om i m
  set q := fracsOf feat l x J om i n
  set z := (om (feat i) m - om (feat i) n) * l i
  have hW : 0 ≤ l₁ * (V + 2 * E) := (abs_nonneg _).trans (hb.exponent h i m n)
  -- `1 - z ≤ e^{-z}` and `1 + z ≤ e^z`
  have h1 : q * (1 - z) ≤ p := by
    rw [e]
    exact mul_le_mul_of_nonneg_left (by linarith [Real.add_one_le_exp (-z)]) hq.le
  have h2 : p * (1 + z) ≤ q := by
    have e' : q = p * Real.exp z := by
      rw [e, mul_assoc, ← Real.exp_add]
      simp
    rw [e']
    exact mul_le_mul_of_nonneg_left (by linarith [Real.add_one_le_exp z]) hp.le
  rw [abs_le]
  constructor <;> nlinarith [hz.1, hz.2]

theorem sum_frac_diff (hb : Bounds chis feat x om V E) (m n : Fin M) :
    ∑ i, |fracsOf feat l x J om i m - fracsOf feat l x J om i n| ≤ 4 * M * l₁ * (V + 2 * E) := by
  refine (sum_le_sum fun i _ => frac_diff h hb i m n).trans ?_
  have hW : 0 ≤ l₁ * (V + 2 * E) := by
    have : 0 ≤ V + 2 * E := (abs_nonneg _).trans (hb.fields 0 0 0)
    exact mul_nonneg h.l₁_pos.le this
  rw [← mul_sum, sum_add_distrib]
  have := mul_le_mul_of_nonneg_left (add_le_add (sum_frac_le h (feat := feat) (om := om) m)
    (sum_frac_le h (feat := feat) (om := om) n)) hW
  linarith

theorem sum_frac_mean (hb : Bounds chis feat x om V E) (m : Fin M) :
    ∑ i, |fracsOf feat l x J om i m - x i| ≤ 4 * M * l₁ * (V + 2 * E) := by
  have hM : (0 : ℝ) < M := by exact_mod_cast Nat.pos_of_ne_zero (NeZero.ne M)
  have e : ∀ i, M * |fracsOf feat l x J om i m - x i| ≤
      ∑ n, J n * |fracsOf feat l x J om i m - fracsOf feat l x J om i n| := fun i => by
    have h1 := fracsOf_mean (feat := feat) (l := l) (x := x) (om := om) h.Js_pos i
    have h2 : M * (fracsOf feat l x J om i m - x i) =
        ∑ n, J n * (fracsOf feat l x J om i m - fracsOf feat l x J om i n) := by
      simp only [mul_sub, sum_sub_distrib]
      rw [← sum_mul, h.vol, h1]
    calc M * |fracsOf feat l x J om i m - x i| = |M * (fracsOf feat l x J om i m - x i)| := by
          rw [abs_mul, abs_of_pos hM]
      _ ≤ _ := by
          rw [h2]
          refine (abs_sum_le_sum_abs _ _).trans (le_of_eq (sum_congr rfl fun n _ => ?_))
          rw [abs_mul, abs_of_pos (h.Js_pos n)]
  have h3 : M * ∑ i, |fracsOf feat l x J om i m - x i| ≤ M * (4 * M * l₁ * (V + 2 * E)) := by
    rw [mul_sum]
    refine (sum_le_sum fun i _ => e i).trans ?_
    rw [sum_comm]
    simp only [← mul_sum]
    refine (sum_le_sum fun n _ => mul_le_mul_of_nonneg_left (sum_frac_diff h hb m n) (h.Js_pos n).le).trans ?_
    rw [← sum_mul, h.vol]
  exact le_of_mul_le_mul_left h3 hM

omit h in
theorem abs_pot_le {y : Vec C ℝ} (hX : ∀ r s, |chis r s| ≤ X) (r : Fin S) :
    |∑ j, chis r (feat j) * y j| ≤ X * ∑ j, |y j| := by
  refine (abs_sum_le_sum_abs _ _).trans ?_
  rw [mul_sum]
  refine sum_le_sum fun j _ => ?_
  rw [abs_mul]
  exact mul_le_mul_of_nonneg_right (hX _ _) (abs_nonneg _)

omit h in
theorem abs_mean_le {f : Fin S → ℝ} {b : ℝ} (hf : ∀ r, |f r| ≤ b) : |(∑ r, f r) / S| ≤ b := by
  have hS : (0 : ℝ) < S := by exact_mod_cast Nat.pos_of_ne_zero (NeZero.ne S)
  rw [abs_div, abs_of_pos hS, div_le_iff₀ hS]
  refine (abs_sum_le_sum_abs _ _).trans ((sum_le_sum fun q _ => hf q).trans ?_)
  simp [mul_comm]

omit h in
theorem abs_gap_le {y : Vec C ℝ} (hX : ∀ r s, |chis r s| ≤ X) (r : Fin S) :
    |gap chis feat y r| ≤ 2 * X * ∑ j, |y j| := by
  unfold gap
  refine (abs_sub _ _).trans ?_
  have h1 := abs_pot_le (feat := feat) (y := y) hX r
  have h2 := abs_mean_le fun q => abs_pot_le (feat := feat) (y := y) hX q
  linarith

omit h in
theorem gap_sub (y z : Vec C ℝ) (r : Fin S) :
    gap chis feat (fun i => y i - z i) r = gap chis feat y r - gap chis feat z r := by
  unfold gap
  simp only [mul_sub, sum_sub_distrib, sub_div]
  ring

/-! ### The next fields -/

variable {α : ℝ} {om' : Mat S M ℝ} {phi : Mat C M ℝ}

omit h in
theorem level_next
    (hn : ∀ r m, om' r m = om r m + α * (schemeField chis c feat om phi r m - om r m)) (m : Fin M) :
    level om' m = level om m + α * (c / S) * (∑ i, phi i m - 1) := by
  have hS : (S : ℝ) ≠ 0 := by exact_mod_cast NeZero.ne S
  unfold level
  simp only [hn, schemeField, schemeXi, sum_add_distrib, ← mul_sum, sum_sub_distrib, sum_const, card_univ,
    Fintype.card_fin, nsmul_eq_mul]
  field_simp
  ring

omit h in
theorem gap_next
    (hn : ∀ r m, om' r m = om r m + α * (schemeField chis c feat om phi r m - om r m)) (r : Fin S) (m : Fin M) :
    om' r m - level om' m = (1 - α) * (om r m - level om m) + α * gap chis feat (fun i => phi i m) r := by
  rw [level_next hn, hn]
  unfold schemeField schemeXi gap level
  simp only [sum_sub_distrib]
  ring

theorem level_step (hb : Bounds chis feat x om V E) {V₁ E₁ : ℝ} (hV : V ≤ V₁) (hE : E ≤ E₁) (hE0 : 0 ≤ E)
    (hc : 0 ≤ c) (hα : 0 ≤ α) (hs : α * (c / S) * (2 * M * l₁) ≤ 1)
    (hn : ∀ r m, om' r m = om r m + α * (schemeField chis c feat om (fracsOf feat l x J om) r m - om r m))
    (m n : Fin M) : level om' m - level om' n ≤
      (1 - α * (c / S * l₀ * Real.exp (-(l₁ * (2 * V₁ + 2 * E₁))))) * V +
        α * (4 * (c / S) * M * l₁ * Real.exp (2 * l₁ * E₁)) * E := by
  have hS : (0 : ℝ) < S := by exact_mod_cast Nat.pos_of_ne_zero (NeZero.ne S)
  have hM : (1 : ℝ) ≤ M := by exact_mod_cast Nat.one_le_iff_ne_zero.mpr (NeZero.ne M)
  have hl₁ := h.l₁_pos
  have hl₀ := h.l₀_pos
  have hl : l₀ ≤ l₁ := by
    have hC : Nonempty (Fin C) := by
      by_contra hC
      rw [not_nonempty_iff] at hC
      have := h.sum
      simp at this
    obtain ⟨i⟩ := hC
    exact (h.size_ge i).trans (h.size_le i)
  have hV0 : 0 ≤ V := (abs_nonneg _).trans (hb.level m n)
  rw [level_next hn, level_next hn]
  have hz : ∀ i, |(om (feat i) m - om (feat i) n) - (level om m - level om n)| ≤ 2 * E := fun i =>
    hb.field (feat i) m n
  have hlev := (abs_le.mp (hb.level m n))
  have e : ∀ i, fracsOf feat l x J om i m = fracsOf feat l x J om i n *
    Real.exp (-((om (feat i) m - om (feat i) n) * l i)) := fun i => frac_ratio i m n
  have hp := fun i => frac_pos h (feat := feat) (om := om) i m
  have hq := fun i => frac_pos h (feat := feat) (om := om) i n
  have hps := sum_frac_le h (feat := feat) (om := om) m
  have hqs := sum_frac_le h (feat := feat) (om := om) n
  have hql := le_sum_frac h hb n
  set p := fun i => fracsOf feat l x J om i m
  set q := fun i => fracsOf feat l x J om i n
  change ∀ i, p i = q i * _ at e
  change ∀ i, 0 < p i at hp
  change ∀ i, 0 < q i at hq
  change ∑ i, p i ≤ 2 * M at hps
  change ∑ i, q i ≤ 2 * M at hqs
  change _ ≤ ∑ i, q i at hql
  change level om m + α * (c / S) * (∑ i, p i - 1) - (level om n + α * (c / S) * (∑ i, q i - 1)) ≤ _
  clear_value p q
  set d := level om m - level om n with hd
  set k := α * (c / S) with hk
  have hk0 : 0 ≤ k := by positivity
  have hB1 : 1 ≤ Real.exp (2 * l₁ * E₁) := Real.one_le_exp (by have := hE0.trans hE; positivity)
  have e1 : level om m + k * (∑ i, p i - 1) - (level om n + k * (∑ i, q i - 1)) =
      d + k * (∑ i, p i - ∑ i, q i) := by rw [hd]; ring
  have e2 : (1 - α * (c / S * l₀ * Real.exp (-(l₁ * (2 * V₁ + 2 * E₁))))) * V +
        α * (4 * (c / S) * M * l₁ * Real.exp (2 * l₁ * E₁)) * E =
      (1 - k * (l₀ * Real.exp (-(l₁ * (2 * V₁ + 2 * E₁))))) * V +
        k * (2 * M * (2 * l₁ * E * Real.exp (2 * l₁ * E₁))) := by rw [hk]; ring
  rw [e1, e2]
  have hκ : l₀ * Real.exp (-(l₁ * (2 * V₁ + 2 * E₁))) ≤ 2 * M * l₁ := by
    have h1 : Real.exp (-(l₁ * (2 * V₁ + 2 * E₁))) ≤ 1 := by
      rw [Real.exp_le_one_iff, neg_nonpos]
      have := hE0.trans hE
      have := hV0.trans hV
      positivity
    have h2 := mul_le_mul_of_nonneg_left h1 hl₀.le
    nlinarith
  have hκ1 : 0 ≤ 1 - k * (l₀ * Real.exp (-(l₁ * (2 * V₁ + 2 * E₁)))) := by
    have := mul_le_mul_of_nonneg_left hκ hk0
    linarith
  rcases le_or_gt 0 d with hd0 | hd0
  · have hpt : ∀ i, p i - q i ≤ q i * (-(l₀ * d * Real.exp (-(l₁ * V₁))) +
        2 * l₁ * E * Real.exp (2 * l₁ * E₁)) := fun i => by
      have hli := h.size_le i
      have hli0 := h.size_ge i
      have hlp := hl₀.trans_le hli0
      set A := Real.exp (-(l i * d)) with hA
      set B := Real.exp (2 * l₁ * E) with hB
      have hA1 : A ≤ 1 := by
        rw [hA, Real.exp_le_one_iff, neg_nonpos]
        positivity
      have hB1' : 1 ≤ B := Real.one_le_exp (by positivity)
      have h1 : Real.exp (-((om (feat i) m - om (feat i) n) * l i)) ≤ A * B := by
        rw [hA, hB, ← Real.exp_add, Real.exp_le_exp]
        have h2 := (abs_le.mp (hz i)).1
        have h3 := mul_le_mul_of_nonneg_right (show d - 2 * E ≤ om (feat i) m - om (feat i) n by linarith) hlp.le
        have h4 := mul_le_mul_of_nonneg_right hli (by linarith : 0 ≤ 2 * E)
        linarith
      have h2 : A * (1 + l i * d) ≤ 1 := by
        have := mul_le_mul_of_nonneg_left (Real.add_one_le_exp (l i * d)) (Real.exp_pos (-(l i * d))).le
        rw [← Real.exp_add] at this
        simp only [neg_add_cancel, Real.exp_zero] at this
        rw [← hA] at this
        linarith
      have h3 : l₀ * d * Real.exp (-(l₁ * V₁)) ≤ l i * d * A := by
        refine mul_le_mul (mul_le_mul_of_nonneg_right hli0 hd0) ?_ (Real.exp_pos _).le (by positivity)
        rw [hA, Real.exp_le_exp, neg_le_neg_iff]
        exact mul_le_mul hli (by linarith [hlev.2]) hd0 hl₁.le
      have h4 : B - 1 ≤ 2 * l₁ * E * Real.exp (2 * l₁ * E₁) := by
        have h5 := mul_le_mul_of_nonneg_left (Real.add_one_le_exp (-(2 * l₁ * E)))
          (Real.exp_pos (2 * l₁ * E)).le
        rw [← Real.exp_add] at h5
        simp only [add_neg_cancel, Real.exp_zero] at h5
        rw [← hB] at h5
        have h6 : B ≤ Real.exp (2 * l₁ * E₁) := Real.exp_le_exp.mpr (by gcongr)
        have h7 := mul_le_mul_of_nonneg_left h6 (by positivity : 0 ≤ 2 * l₁ * E)
        linarith
      rw [e i]
      have h5 : A * B - 1 ≤ -(l₀ * d * Real.exp (-(l₁ * V₁))) + 2 * l₁ * E * Real.exp (2 * l₁ * E₁) := by
        have := mul_le_mul_of_nonneg_right hA1 (by linarith : 0 ≤ B - 1)
        linarith
      have := mul_le_mul_of_nonneg_left (h1.trans (by linarith :
        A * B ≤ 1 + (-(l₀ * d * Real.exp (-(l₁ * V₁))) + 2 * l₁ * E * Real.exp (2 * l₁ * E₁)))) (hq i).le
      linarith
    have hsum : ∑ i, p i - ∑ i, q i ≤ -(l₀ * d * Real.exp (-(l₁ * (2 * V₁ + 2 * E₁)))) +
        2 * M * (2 * l₁ * E * Real.exp (2 * l₁ * E₁)) := by
      rw [← sum_sub_distrib]
      refine (sum_le_sum fun i _ => hpt i).trans ?_
      rw [← sum_mul, mul_add]
      refine add_le_add ?_ (mul_le_mul_of_nonneg_right hqs (by positivity))
      rw [mul_neg, neg_le_neg_iff]
      have h1 : Real.exp (-(l₁ * (V₁ + 2 * E₁))) ≤ ∑ i, q i :=
        le_trans (Real.exp_le_exp.mpr (neg_le_neg (mul_le_mul_of_nonneg_left (by linarith) hl₁.le))) hql
      have h2 : Real.exp (-(l₁ * (2 * V₁ + 2 * E₁))) =
          Real.exp (-(l₁ * (V₁ + 2 * E₁))) * Real.exp (-(l₁ * V₁)) := by
        rw [← Real.exp_add]
        congr 1
        ring
      rw [h2]
      have := mul_le_mul_of_nonneg_right h1 (by positivity : 0 ≤ l₀ * d * Real.exp (-(l₁ * V₁)))
      linarith
    have h1 := mul_le_mul_of_nonneg_left hsum hk0
    have h2 := mul_le_mul_of_nonneg_left hlev.2 hκ1
    linarith
  · have hpt : ∀ i, p i - q i ≤ p i * (l₁ * (-d + 2 * E)) := fun i => by
      have hli := h.size_le i
      have hlp := hl₀.trans_le (h.size_ge i)
      set z := (om (feat i) m - om (feat i) n) * l i with hz'
      have e' : q i = p i * Real.exp z := by
        rw [e i, ← hz', mul_assoc, ← Real.exp_add]
        simp
      have h1 : -z ≤ l₁ * (-d + 2 * E) := by
        have h2 := (abs_le.mp (hz i)).1
        have h3 := mul_le_mul_of_nonneg_right (show -(om (feat i) m - om (feat i) n) ≤ -d + 2 * E by linarith)
          hlp.le
        have h4 := mul_le_mul_of_nonneg_right hli (by linarith : 0 ≤ -d + 2 * E)
        rw [hz']
        linarith
      have h2 := mul_le_mul_of_nonneg_left (Real.add_one_le_exp z) (hp i).le
      have h3 := mul_le_mul_of_nonneg_left h1 (hp i).le
      rw [e']
      linarith
    have hsum : ∑ i, p i - ∑ i, q i ≤ 2 * M * (l₁ * (-d + 2 * E)) := by
      rw [← sum_sub_distrib]
      refine (sum_le_sum fun i _ => hpt i).trans ?_
      rw [← sum_mul]
      have : 0 ≤ -d + 2 * E := by linarith
      exact mul_le_mul_of_nonneg_right hps (by positivity)
    have h1 := mul_le_mul_of_nonneg_left hsum hk0
    have h2 := mul_nonneg hκ1 hV0
    have h3 : k * (2 * M * (2 * l₁ * E)) ≤ k * (2 * M * (2 * l₁ * E * Real.exp (2 * l₁ * E₁))) := by
      have : 2 * l₁ * E ≤ 2 * l₁ * E * Real.exp (2 * l₁ * E₁) := le_mul_of_one_le_right (by positivity) hB1
      gcongr
    have h4 := mul_le_mul_of_nonneg_right hs (by linarith : 0 ≤ -d)
    linarith

theorem gap_step (hb : Bounds chis feat x om V E) (hX : ∀ r s, |chis r s| ≤ X) (hα : 0 ≤ α) (hα1 : α ≤ 1)
    (hn : ∀ r m, om' r m = om r m + α * (schemeField chis c feat om (fracsOf feat l x J om) r m - om r m))
    (r : Fin S) (m : Fin M) : |om' r m - level om' m - gap chis feat x r| ≤
      (1 - α) * E + α * (2 * X * (4 * M * l₁ * (V + 2 * E))) := by
  rw [gap_next hn]
  have e : (1 - α) * (om r m - level om m) + α * gap chis feat (fun i => fracsOf feat l x J om i m) r -
      gap chis feat x r = (1 - α) * (om r m - level om m - gap chis feat x r) +
      α * gap chis feat (fun i => fracsOf feat l x J om i m - x i) r := by
    rw [gap_sub (fun i => fracsOf feat l x J om i m) x]
    ring
  rw [e]
  refine (abs_add_le _ _).trans (add_le_add ?_ ?_)
  · rw [abs_mul, abs_of_nonneg (by linarith : 0 ≤ 1 - α)]
    exact mul_le_mul_of_nonneg_left (hb.gap r m) (by linarith)
  · rw [abs_mul, abs_of_nonneg hα]
    refine mul_le_mul_of_nonneg_left ((abs_gap_le hX r).trans ?_) hα
    have hX0 : 0 ≤ X := (abs_nonneg _).trans (hX r r)
    exact mul_le_mul_of_nonneg_left (sum_frac_mean h hb m) (by positivity)

omit h in
theorem schemeEta_simple (m : Fin M) : schemeEta chis c feat l om phi m =
    1 / 2 * ∑ i, (∑ j, chis (feat i) (feat j) * phi j m) * phi i m + schemeXi chis c feat om phi m +
      ∑ i, phi i m / l i := by
  unfold schemeEta schemeField
  simp only [add_mul, sum_add_distrib, ← mul_sum, sum_mul]
  have e : ∑ i, ∑ j, chis (feat i) (feat j) * phi j m * phi i m =
      ∑ i, ∑ j, chis (feat i) (feat j) * phi i m * phi j m :=
    sum_congr rfl fun i _ => sum_congr rfl fun j _ => by ring
  rw [e]
  ring

/-- The grand potentials of the compartments are similar. -/
theorem eta_diff (hb : Bounds chis feat x om V E) (hX : ∀ r s, |chis r s| ≤ X) (hc : 0 ≤ c) (hE0 : 0 ≤ E)
    (m n : Fin M) :
    |schemeEta chis c feat l om (fracsOf feat l x J om) m - schemeEta chis c feat l om (fracsOf feat l x J om) n| ≤
      (1 + (2 * M * X + X + c / S + 1 / l₀) * (4 * M * l₁)) * (V + 2 * E) := by
  have hS : (0 : ℝ) < S := by exact_mod_cast Nat.pos_of_ne_zero (NeZero.ne S)
  have hM : (0 : ℝ) < M := by exact_mod_cast Nat.pos_of_ne_zero (NeZero.ne M)
  have hX0 : 0 ≤ X := (abs_nonneg _).trans (hX 0 0)
  have hl₀ := h.l₀_pos
  have hp := fun i => frac_pos h (feat := feat) (om := om) i m
  have hq := fun i => frac_pos h (feat := feat) (om := om) i n
  have hps := sum_frac_le h (feat := feat) (om := om) m
  have hqs := sum_frac_le h (feat := feat) (om := om) n
  have hD := sum_frac_diff h hb m n
  have hlev := hb.level m n
  rw [schemeEta_simple, schemeEta_simple]
  set phi := fracsOf feat l x J om with hphi
  set D := ∑ i, |phi i m - phi i n| with hDdef
  have hD0 : 0 ≤ D := sum_nonneg fun i _ => abs_nonneg _
  have hpot : ∀ r, |∑ j, chis r (feat j) * phi j m - ∑ j, chis r (feat j) * phi j n| ≤ X * D := fun r => by
    rw [← sum_sub_distrib]
    simp only [← mul_sub]
    exact abs_pot_le (y := fun j => phi j m - phi j n) hX r
  have hpot0 : ∀ r, |∑ j, chis r (feat j) * phi j m| ≤ X * (2 * M) := fun r => by
    refine (abs_pot_le (y := fun j => phi j m) hX r).trans (mul_le_mul_of_nonneg_left ?_ hX0)
    rw [sum_congr rfl fun j _ => abs_of_pos (hp j)]
    exact hps
  have hquad : |∑ i, (∑ j, chis (feat i) (feat j) * phi j m) * phi i m -
      ∑ i, (∑ j, chis (feat i) (feat j) * phi j n) * phi i n| ≤ X * (2 * M) * D + X * D * (2 * M) := by
    rw [← sum_sub_distrib]
    refine (abs_sum_le_sum_abs _ _).trans ?_
    have : ∀ i, |(∑ j, chis (feat i) (feat j) * phi j m) * phi i m -
        (∑ j, chis (feat i) (feat j) * phi j n) * phi i n| ≤
        X * (2 * M) * |phi i m - phi i n| + X * D * phi i n := fun i => by
      have e : (∑ j, chis (feat i) (feat j) * phi j m) * phi i m -
          (∑ j, chis (feat i) (feat j) * phi j n) * phi i n =
          (∑ j, chis (feat i) (feat j) * phi j m) * (phi i m - phi i n) +
          (∑ j, chis (feat i) (feat j) * phi j m - ∑ j, chis (feat i) (feat j) * phi j n) * phi i n := by ring
      rw [e]
      refine (abs_add_le _ _).trans (add_le_add ?_ ?_)
      · rw [abs_mul]
        exact mul_le_mul_of_nonneg_right (hpot0 _) (abs_nonneg _)
      · rw [abs_mul, abs_of_pos (hq i)]
        exact mul_le_mul_of_nonneg_right (hpot _) (hq i).le
    refine (sum_le_sum fun i _ => this i).trans ?_
    rw [sum_add_distrib, ← mul_sum, ← mul_sum]
    exact add_le_add le_rfl (mul_le_mul_of_nonneg_left hqs (by positivity))
  have hinc : |∑ i, phi i m - ∑ i, phi i n| ≤ D := by
    rw [← sum_sub_distrib]
    exact abs_sum_le_sum_abs _ _
  have hxi : |schemeXi chis c feat om phi m - schemeXi chis c feat om phi n| ≤ V + X * D + c / S * D := by
    have e : schemeXi chis c feat om phi m - schemeXi chis c feat om phi n =
        (level om m - level om n) -
        (∑ r, (∑ j, chis r (feat j) * phi j m - ∑ j, chis r (feat j) * phi j n)) / S +
        c / S * (∑ i, phi i m - ∑ i, phi i n) := by
      unfold schemeXi level
      simp only [sum_sub_distrib]
      ring
    rw [e]
    refine (abs_add_le _ _).trans (add_le_add ((abs_sub _ _).trans (add_le_add hlev (abs_mean_le hpot))) ?_)
    rw [abs_mul, abs_of_nonneg (by positivity)]
    exact mul_le_mul_of_nonneg_left hinc (by positivity)
  have hent : |∑ i, phi i m / l i - ∑ i, phi i n / l i| ≤ 1 / l₀ * D := by
    rw [← sum_sub_distrib, mul_sum]
    refine (abs_sum_le_sum_abs _ _).trans (sum_le_sum fun i _ => ?_)
    have hli := h.size_ge i
    rw [← sub_div, abs_div, abs_of_pos (hl₀.trans_le hli), div_eq_mul_one_div, mul_comm]
    exact mul_le_mul_of_nonneg_right (one_div_le_one_div_of_le hl₀ hli) (abs_nonneg _)
  have e : 1 / 2 * ∑ i, (∑ j, chis (feat i) (feat j) * phi j m) * phi i m + schemeXi chis c feat om phi m +
      ∑ i, phi i m / l i - (1 / 2 * ∑ i, (∑ j, chis (feat i) (feat j) * phi j n) * phi i n +
      schemeXi chis c feat om phi n + ∑ i, phi i n / l i) =
      1 / 2 * (∑ i, (∑ j, chis (feat i) (feat j) * phi j m) * phi i m -
        ∑ i, (∑ j, chis (feat i) (feat j) * phi j n) * phi i n) +
      (schemeXi chis c feat om phi m - schemeXi chis c feat om phi n) +
      (∑ i, phi i m / l i - ∑ i, phi i n / l i) := by ring
  rw [e]
  have h1 := abs_add_le (1 / 2 * (∑ i, (∑ j, chis (feat i) (feat j) * phi j m) * phi i m -
        ∑ i, (∑ j, chis (feat i) (feat j) * phi j n) * phi i n) +
      (schemeXi chis c feat om phi m - schemeXi chis c feat om phi n))
      (∑ i, phi i m / l i - ∑ i, phi i n / l i)
  have h2 := abs_add_le (1 / 2 * (∑ i, (∑ j, chis (feat i) (feat j) * phi j m) * phi i m -
        ∑ i, (∑ j, chis (feat i) (feat j) * phi j n) * phi i n))
      (schemeXi chis c feat om phi m - schemeXi chis c feat om phi n)
  rw [abs_mul, abs_of_pos (by norm_num : (0 : ℝ) < 1 / 2)] at h2
  have h3 : (2 * M * X + X + c / S + 1 / l₀) * D ≤
      (2 * M * X + X + c / S + 1 / l₀) * (4 * M * l₁ * (V + 2 * E)) :=
    mul_le_mul_of_nonneg_left hD (by positivity)
  linarith

end Flory.Weak
