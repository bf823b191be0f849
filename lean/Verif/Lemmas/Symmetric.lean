import Mathlib.Analysis.SpecialFunctions.Log.NegMulLog
import Mathlib.Analysis.Convex.Deriv
import Mathlib.Analysis.Calculus.MeanValue
import Mathlib.Tactic.Linarith
import Mathlib.Tactic.FieldSimp
import Mathlib.Tactic.Positivity
import Mathlib.Tactic.Ring

/-! # The order parameter of symmetric mixtures

`n` is the number of components, `a` the interaction of unlike molecules (`size * chi`), and `s` the excess of
the enriched component: it has the fraction `(1 + (n - 1) s) / n`, each other one `(1 - s) / n`. -/

set_option linter.unusedSectionVars false

namespace Flory.SymMix

open Real Set

variable {n a s t : ℝ}

/-- Difference of exchange chemical potentials. -/
noncomputable def W (n a s : ℝ) : ℝ := log (1 + (n - 1) * s) - log (1 - s) - a * s

/-- Free energy along the family. -/
noncomputable def E (n a s : ℝ) : ℝ :=
  (1 + (n - 1) * s) / n * log ((1 + (n - 1) * s) / n) + (n - 1) * ((1 - s) / n * log ((1 - s) / n))
    - a / 2 * (((1 + (n - 1) * s) / n) ^ 2 + (n - 1) * ((1 - s) / n) ^ 2)

/-- Interaction at the transition. -/
noncomputable def ac (n : ℝ) : ℝ := 2 * (n - 1) * log (n - 1) / (n - 2)

/-- Order parameter at the transition. -/
noncomputable def sc (n : ℝ) : ℝ := (n - 2) / (n - 1)

theorem sc_pos (hn : 3 ≤ n) : 0 < sc n := div_pos (by linarith) (by linarith)

theorem sc_lt_one (hn : 3 ≤ n) : sc n < 1 := by
  rw [sc, div_lt_one (by linarith)]; linarith

theorem half_le_sc (hn : 3 ≤ n) : 1 / 2 ≤ sc n := by
  rw [sc, div_le_div_iff₀ (by norm_num) (by linarith)]; linarith

theorem W_deriv (hn : 3 ≤ n) (h0 : 0 ≤ s) (h1 : s < 1) :
    HasDerivAt (W n a) (n / ((1 + (n - 1) * s) * (1 - s)) - a) s := by
  have hp : 0 < 1 + (n - 1) * s := by nlinarith
  have hq : 0 < 1 - s := by linarith
  have d1 : HasDerivAt (fun s => log (1 + (n - 1) * s)) ((n - 1) / (1 + (n - 1) * s)) s := by
    have := (((hasDerivAt_id s).const_mul (n - 1)).const_add 1).log hp.ne'
    simpa using this
  have d2 : HasDerivAt (fun s => log (1 - s)) (-1 / (1 - s)) s := by
    have := ((hasDerivAt_id s).const_sub 1).log hq.ne'
    simpa using this
  have d3 : HasDerivAt (fun s => a * s) a s := by simpa using (hasDerivAt_id s).const_mul a
  refine ((d1.sub d2).sub d3).congr_deriv ?_
  field_simp
  ring

theorem W_zero : W n a 0 = 0 := by simp [W]

theorem W_ac (n a s : ℝ) : W n a s = W n (ac n) s - (a - ac n) * s := by
  unfold W; ring

theorem W_half (hn : 3 ≤ n) : W n (ac n) (sc n / 2) = 0 := by
  have h1 : (0 : ℝ) < n - 1 := by linarith
  have h2 : (0 : ℝ) < n - 2 := by linarith
  have e1 : 1 + (n - 1) * (sc n / 2) = n / 2 := by unfold sc; field_simp; ring
  have e2 : 1 - sc n / 2 = n / 2 / (n - 1) := by unfold sc; field_simp; ring
  have e3 : ac n * (sc n / 2) = log (n - 1) := by unfold ac sc; field_simp
  rw [W, e1, e2, e3, log_div (by linarith) h1.ne']
  ring

theorem W_sc (hn : 3 ≤ n) : W n (ac n) (sc n) = 0 := by
  have h1 : (0 : ℝ) < n - 1 := by linarith
  have h2 : (0 : ℝ) < n - 2 := by linarith
  have e1 : 1 + (n - 1) * sc n = n - 1 := by unfold sc; field_simp; ring
  have e2 : 1 - sc n = (n - 1)⁻¹ := by unfold sc; field_simp; ring
  have e3 : ac n * sc n = 2 * log (n - 1) := by unfold ac sc; field_simp
  rw [W, e1, e2, e3, log_inv]
  ring

/-- The slope decreases first. -/
theorem slope_anti (hn : 3 ≤ n) (h0 : 0 ≤ s) (hst : s < t) (ht : t ≤ sc n / 2) :
    n / ((1 + (n - 1) * t) * (1 - t)) < n / ((1 + (n - 1) * s) * (1 - s)) := by
  have hs1 := sc_lt_one hn
  have h1 : (0 : ℝ) < n - 1 := by linarith
  have hsc : (n - 1) * sc n = n - 2 := by unfold sc; field_simp
  refine div_lt_div_of_pos_left (by linarith) (mul_pos (by nlinarith) (by linarith)) ?_
  nlinarith [mul_pos (sub_pos.2 hst) h1, mul_pos (sub_pos.2 hst) (by nlinarith : 0 < n - 2 - (n - 1) * (s + t))]

/-- Then it increases. -/
theorem slope_mono (hn : 3 ≤ n) (h0 : sc n / 2 ≤ s) (hst : s < t) (ht : t < 1) :
    n / ((1 + (n - 1) * s) * (1 - s)) < n / ((1 + (n - 1) * t) * (1 - t)) := by
  have hs1 := sc_pos hn
  have h1 : (0 : ℝ) < n - 1 := by linarith
  have hsc : (n - 1) * sc n = n - 2 := by unfold sc; field_simp
  refine div_lt_div_of_pos_left (by linarith) (mul_pos (by nlinarith) (by linarith)) ?_
  nlinarith [mul_pos (sub_pos.2 hst) h1, mul_pos (sub_pos.2 hst) (by nlinarith : 0 < (n - 1) * (s + t) - (n - 2))]

theorem W_cont (hn : 3 ≤ n) (D : Set ℝ) (h0 : ∀ s ∈ D, 0 ≤ s) (h1 : ∀ s ∈ D, s < 1) :
    ContinuousOn (W n a) D := fun s hs => (W_deriv hn (h0 s hs) (h1 s hs)).continuousAt.continuousWithinAt

theorem W_concave (hn : 3 ≤ n) : StrictConcaveOn ℝ (Icc 0 (sc n / 2)) (W n a) := by
  have := sc_lt_one hn
  refine StrictAntiOn.strictConcaveOn_of_deriv (convex_Icc _ _)
    (W_cont hn _ (fun s hs => hs.1) fun s hs => by linarith [hs.2, sc_pos hn]) ?_
  rw [interior_Icc]
  intro s hs t ht hst
  rw [(W_deriv hn hs.1.le (by linarith [hs.2, sc_pos hn])).deriv,
    (W_deriv hn ht.1.le (by linarith [ht.2, sc_pos hn])).deriv]
  linarith [slope_anti hn hs.1.le hst ht.2.le]

theorem W_convex (hn : 3 ≤ n) : StrictConvexOn ℝ (Ico (sc n / 2) 1) (W n a) := by
  have := sc_pos hn
  refine StrictMonoOn.strictConvexOn_of_deriv (convex_Ico _ _)
    (W_cont hn _ (fun s hs => by linarith [hs.1]) fun s hs => hs.2) ?_
  rw [interior_Ico]
  intro s hs t ht hst
  rw [(W_deriv hn (by linarith [hs.1]) hs.2).deriv, (W_deriv hn (by linarith [ht.1]) ht.2).deriv]
  linarith [slope_mono hn hs.1.le hst ht.2]

/-- A strictly convex function is below zero between two points where it is not positive. -/
theorem convex_neg {D : Set ℝ} {f : ℝ → ℝ} (hf : StrictConvexOn ℝ D f) {p q t : ℝ} (hp : p ∈ D) (hq : q ∈ D)
    (h1 : p < t) (h2 : t < q) (fp : f p ≤ 0) (fq : f q ≤ 0) : f t < 0 := by
  have := hf.2 hp hq (h1.trans h2).ne
    (show 0 < (q - t) / (q - p) from div_pos (by linarith) (by linarith))
    (show 0 < (t - p) / (q - p) from div_pos (by linarith) (by linarith))
    (by rw [← add_div, div_eq_one_iff_eq (by linarith)]; ring)
  have e : ((q - t) / (q - p)) • p + ((t - p) / (q - p)) • q = t := by
    simp only [smul_eq_mul]
    have : q - p ≠ 0 := by linarith
    field_simp
    ring
  rw [e] at this
  refine this.trans_le ?_
  simp only [smul_eq_mul]
  have c1 : 0 ≤ (q - t) / (q - p) := div_nonneg (by linarith) (by linarith)
  have c2 : 0 ≤ (t - p) / (q - p) := div_nonneg (by linarith) (by linarith)
  nlinarith [mul_nonneg c1 (neg_nonneg.2 fp), mul_nonneg c2 (neg_nonneg.2 fq)]

/-- Signs at the transition. -/
theorem W_ac_pos_left (hn : 3 ≤ n) (h0 : 0 < s) (h1 : s < sc n / 2) : 0 < W n (ac n) s := by
  have := convex_neg (W_concave (a := ac n) hn).neg (p := 0) (q := sc n / 2)
    ⟨le_rfl, by linarith⟩ ⟨by linarith, le_rfl⟩ h0 h1 (by simp [W_zero]) (by simp [W_half hn])
  simpa using this

theorem W_ac_neg (hn : 3 ≤ n) (h0 : sc n / 2 < s) (h1 : s < sc n) : W n (ac n) s < 0 :=
  convex_neg (W_convex hn) (p := sc n / 2) (q := sc n)
    ⟨le_rfl, by linarith [sc_lt_one hn, sc_pos hn]⟩ ⟨by linarith, sc_lt_one hn⟩ h0 h1 (W_half hn).le (W_sc hn).le

/-- On the stable side there is at most one root; signs around it. -/
theorem W_neg (hn : 3 ≤ n) (ha : ac n ≤ a) (h0 : sc n / 2 < s) (h1 : s < 1) (hs : W n a s ≤ 0)
    (ht0 : sc n / 2 < t) (ht : t < s) : W n a t < 0 := by
  refine convex_neg (W_convex hn) (p := sc n / 2) (q := s)
    ⟨le_rfl, by linarith⟩ ⟨h0.le, h1⟩ ht0 ht ?_ hs
  rw [W_ac, W_half hn]
  nlinarith [sc_pos hn]

theorem W_pos (hn : 3 ≤ n) (ha : ac n ≤ a) (h0 : sc n / 2 < s) (hs : W n a s = 0) (ht : s < t) (ht1 : t < 1) :
    0 < W n a t := by
  by_contra hc
  have := W_neg hn ha (h0.trans ht) ht1 (not_lt.1 hc) h0 ht
  linarith

theorem W_slope (hn : 3 ≤ n) (ha : ac n ≤ a) (h0 : sc n / 2 < s) (h1 : s < 1) (hs : W n a s = 0) :
    a < n / ((1 + (n - 1) * s) * (1 - s)) := by
  have hp := sc_pos hn
  obtain ⟨t, ht, e⟩ := exists_hasDerivAt_eq_slope (W n a) (fun t => n / ((1 + (n - 1) * t) * (1 - t)) - a) h0
    (W_cont hn _ (fun s hs => by linarith [hs.1]) fun s hs => by linarith [hs.2])
    fun t ht => W_deriv hn (by linarith [ht.1]) (by linarith [ht.2])
  have h := slope_mono hn ht.1.le ht.2 h1
  have hW : W n a (sc n / 2) ≤ 0 := by
    rw [W_ac, W_half hn]; nlinarith
  have : 0 ≤ (W n a s - W n a (sc n / 2)) / (s - sc n / 2) := div_nonneg (by linarith) (by linarith)
  linarith

theorem ac_gt_log (hn : 3 ≤ n) : log (n - 1) < ac n := by
  have hl : 0 < log (n - 1) := log_pos (by linarith)
  rw [ac, lt_div_iff₀ (by linarith)]
  nlinarith

/-- There is exactly one order parameter. -/
theorem order_exists (hn : 3 ≤ n) (ha : ac n ≤ a) : ∃ s, sc n ≤ s ∧ s < 1 ∧ W n a s = 0 := by
  have hp := sc_pos hn
  have h1 : (0 : ℝ) < n - 1 := by linarith
  have hla := ac_gt_log hn
  have hexp : exp (-a) < (n - 1)⁻¹ := by
    rw [← exp_log h1, ← exp_neg]
    exact exp_lt_exp.2 (by linarith)
  have hlt : sc n < 1 - exp (-a) := by
    have : 1 - (n - 1)⁻¹ = sc n := by unfold sc; field_simp; ring
    linarith
  have he := exp_pos (-a)
  have hpos : 0 ≤ W n a (1 - exp (-a)) := by
    have hlog : 0 ≤ log (1 + (n - 1) * (1 - exp (-a))) := log_nonneg (by nlinarith)
    have hapos : 0 < a := by linarith [log_pos (by linarith : 1 < n - 1)]
    rw [W, show 1 - (1 - exp (-a)) = exp (-a) by ring, log_exp]
    nlinarith
  have hneg : W n a (sc n) ≤ 0 := by rw [W_ac, W_sc hn]; nlinarith
  obtain ⟨s, hs, e⟩ := intermediate_value_Icc hlt.le
    (W_cont (a := a) hn _ (fun s hs => by linarith [hs.1]) fun s hs => by linarith [hs.2]) ⟨hneg, hpos⟩
  exact ⟨s, hs.1, by linarith [hs.2], e⟩

theorem order_unique (hn : 3 ≤ n) (ha : ac n ≤ a) (h0 : sc n ≤ s) (h1 : s < 1) (hs : W n a s = 0)
    (h0' : sc n ≤ t) (h1' : t < 1) (ht : W n a t = 0) : s = t := by
  have hp := sc_pos hn
  rcases lt_trichotomy s t with h | h | h
  · have := W_pos hn ha (by linarith) hs h h1'; linarith
  · exact h
  · have := W_pos hn ha (by linarith) ht h h1; linarith

theorem E_deriv (hn : 3 ≤ n) (h0 : 0 ≤ s) (h1 : s < 1) :
    HasDerivAt (E n a) ((n - 1) / n * W n a s) s := by
  have hn0 : (0 : ℝ) < n := by linarith
  have hp : 0 < (1 + (n - 1) * s) / n := div_pos (by nlinarith) hn0
  have hq : 0 < (1 - s) / n := div_pos (by linarith) hn0
  have p1 : HasDerivAt (fun s => (1 + (n - 1) * s) / n) ((n - 1) / n) s := by
    have := (((hasDerivAt_id s).const_mul (n - 1)).const_add 1).div_const n
    simpa using this
  have q1 : HasDerivAt (fun s => (1 - s) / n) (-1 / n) s := by
    have := ((hasDerivAt_id s).const_sub 1).div_const n
    simpa using this
  have p2 := (hasDerivAt_mul_log hp.ne').comp s p1
  have q2 := (hasDerivAt_mul_log hq.ne').comp s q1
  have hd := (p2.add (q2.const_mul (n - 1))).sub (((p1.pow 2).add ((q1.pow 2).const_mul (n - 1))).const_mul (a / 2))
  refine (hd.congr_deriv ?_).congr_of_eventuallyEq (Filter.Eventually.of_forall fun t => ?_)
  · rw [W, log_div (by nlinarith) hn0.ne', log_div (by linarith) hn0.ne']
    simp only [show 2 - 1 = 1 from rfl, pow_one, Nat.cast_ofNat]
    field_simp
    ring
  · simp [E]

theorem E_cont : Continuous (E n a) := by
  have c1 : Continuous fun s => (1 + (n - 1) * s) / n := by fun_prop
  have c2 : Continuous fun s => (1 - s) / n := by fun_prop
  have d1 := continuous_mul_log.comp c1
  have d2 := continuous_mul_log.comp c2
  exact (d1.add (continuous_const.mul d2)).sub
    (continuous_const.mul ((c1.pow 2).add (continuous_const.mul (c2.pow 2))))

theorem E_ac (hn : 3 ≤ n) (a s : ℝ) :
    E n a s - E n a 0 = E n (ac n) s - E n (ac n) 0 - (a - ac n) * ((n - 1) / (2 * n)) * s ^ 2 := by
  have hn0 : (0 : ℝ) < n := by linarith
  unfold E
  field_simp
  ring

theorem E_sc (hn : 3 ≤ n) : E n (ac n) (sc n) = E n (ac n) 0 := by
  have hn0 : (0 : ℝ) < n := by linarith
  have h1 : (0 : ℝ) < n - 1 := by linarith
  have h2 : (0 : ℝ) < n - 2 := by linarith
  have e1 : (1 + (n - 1) * sc n) / n = (n - 1) / n := by unfold sc; field_simp; ring
  have e2 : (1 - sc n) / n = (n * (n - 1))⁻¹ := by unfold sc; field_simp; ring
  unfold E
  rw [e1, e2, log_div h1.ne' hn0.ne', log_inv, log_mul hn0.ne' h1.ne']
  simp only [mul_zero, add_zero, sub_zero]
  rw [one_div, log_inv]
  unfold ac
  field_simp
  ring

theorem E_strictMono (hn : 3 ≤ n) {p q : ℝ} (h0 : 0 ≤ p) (h1 : q ≤ 1) (h : ∀ t, p < t → t < q → 0 < W n a t) :
    StrictMonoOn (E n a) (Icc p q) := by
  refine strictMonoOn_of_deriv_pos (convex_Icc _ _) E_cont.continuousOn ?_
  rw [interior_Icc]
  intro t ht
  rw [(E_deriv hn (by linarith [ht.1]) (by linarith [ht.2])).deriv]
  exact mul_pos (div_pos (by linarith) (by linarith)) (h t ht.1 ht.2)

theorem E_strictAnti (hn : 3 ≤ n) {p q : ℝ} (h0 : 0 ≤ p) (h1 : q ≤ 1) (h : ∀ t, p < t → t < q → W n a t < 0) :
    StrictAntiOn (E n a) (Icc p q) := by
  refine strictAntiOn_of_deriv_neg (convex_Icc _ _) E_cont.continuousOn ?_
  rw [interior_Icc]
  intro t ht
  rw [(E_deriv hn (by linarith [ht.1]) (by linarith [ht.2])).deriv]
  exact mul_neg_of_pos_of_neg (div_pos (by linarith) (by linarith)) (h t ht.1 ht.2)

/-- At the transition the uniform state and the separated one are the best. -/
theorem E_transition (hn : 3 ≤ n) (h0 : 0 ≤ s) (h1 : s ≤ 1) (hs0 : s ≠ 0) (hsc : s ≠ sc n) :
    E n (ac n) 0 < E n (ac n) s := by
  have hp := sc_pos hn
  have hq := sc_lt_one hn
  have h0' : 0 < s := lt_of_le_of_ne h0 (Ne.symm hs0)
  rcases le_or_gt s (sc n / 2) with h | h
  · exact E_strictMono hn le_rfl (by linarith) (fun t => W_ac_pos_left hn) ⟨le_rfl, by linarith⟩ ⟨h0, h⟩ h0'
  · rw [← E_sc hn]
    rcases lt_or_gt_of_ne hsc with h' | h'
    · exact E_strictAnti hn (by linarith) (by linarith) (fun t => W_ac_neg hn) ⟨h.le, h'.le⟩
        ⟨by linarith, le_rfl⟩ h'
    · exact E_strictMono hn hp.le le_rfl (fun t => W_pos hn le_rfl (by linarith) (W_sc hn))
        ⟨le_rfl, hq.le⟩ ⟨h'.le, h1⟩ h'

/-- Below the transition the uniform state is the best. -/
theorem E_mixed (hn : 3 ≤ n) (ha : a < ac n) (h0 : 0 < s) (h1 : s ≤ 1) : E n a 0 < E n a s := by
  have h := E_ac hn a s
  have hc : 0 < (ac n - a) * ((n - 1) / (2 * n)) * s ^ 2 := by
    have : 0 < (n - 1) / (2 * n) := div_pos (by linarith) (by linarith)
    have : 0 < ac n - a := by linarith
    positivity
  have : E n (ac n) 0 ≤ E n (ac n) s := by
    by_cases hs : s = sc n
    · rw [hs, E_sc hn]
    · exact (E_transition hn h0.le h1 h0.ne' hs).le
  linarith

/-- Above the transition the separated state is the best. -/
theorem E_separated (hn : 3 ≤ n) (ha : ac n < a) (hs0 : sc n ≤ s) (hs1 : s < 1) (hs : W n a s = 0)
    (h0 : 0 ≤ t) (h1 : t ≤ 1) (hne : t ≠ s) : E n a s < E n a t := by
  have hp := sc_pos hn
  have key : ∀ t, sc n ≤ t → t ≤ 1 → t ≠ s → E n a s < E n a t := by
    intro t ht0 ht1 hne
    rcases lt_or_gt_of_ne hne with h | h
    · exact E_strictAnti hn hp.le hs1.le (fun u hu hu' => W_neg hn ha.le (by linarith) hs1 hs.le (by linarith) hu')
        ⟨ht0, h.le⟩ ⟨hs0, le_rfl⟩ h
    · exact E_strictMono hn (by linarith) le_rfl (fun u => W_pos hn ha.le (by linarith) hs)
        ⟨le_rfl, hs1.le⟩ ⟨h.le, ht1⟩ h
  rcases le_or_gt (sc n) t with h | h
  · exact key t h h1 hne
  · have hne' : sc n ≠ s := by
      rintro rfl
      rw [W_ac, W_sc hn] at hs
      nlinarith
    refine (key (sc n) le_rfl (sc_lt_one hn).le hne').trans ?_
    have e1 := E_ac hn a t
    have e2 := E_ac hn a (sc n)
    rw [E_sc hn] at e2
    have : E n (ac n) 0 ≤ E n (ac n) t := by
      by_cases ht : t = 0
      · rw [ht]
      · exact (E_transition hn h0 h1 ht h.ne).le
    have hc : 0 < (a - ac n) * ((n - 1) / (2 * n)) := mul_pos (by linarith) (div_pos (by linarith) (by linarith))
    nlinarith [mul_pos hc (by nlinarith : 0 < sc n ^ 2 - t ^ 2)]

end Flory.SymMix
