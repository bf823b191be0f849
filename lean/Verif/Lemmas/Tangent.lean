import Verif.Lemmas.Binary
import Mathlib.Analysis.Calculus.DerivativeTest
import Mathlib.Topology.MetricSpace.Sequences
import Mathlib.Topology.Order.Compact
import Mathlib.Analysis.SpecialFunctions.Pow.Real
import Mathlib.Tactic.Positivity
import Mathlib.Tactic.Linarith

/-! # Existence of a common tangent; critical point of binary mixtures -/

set_option linter.unusedSectionVars false

namespace Flory

namespace Binary

open Set Filter Topology

variable {l k a b c : ℝ}

theorem continuous_G : Continuous (G l k a b c) := by
  unfold G
  have h1 : Continuous fun x : ℝ => x * Real.log x := Real.continuous_mul_log
  have h2 : Continuous fun x : ℝ => (1 - x) * Real.log (1 - x) :=
    Real.continuous_mul_log.comp (continuous_const.sub continuous_id)
  fun_prop

theorem G_symm (x : ℝ) : G l k a b c (1 - x) = G k l a (-2 * a - b) (a + b + c) x := by
  unfold G
  rw [sub_sub_cancel]
  ring

/-- Near a pure component the slope is infinite. -/
theorem steep (hl : 0 < l) (hk : 0 < k) (t : ℝ) :
    ∃ x, 0 < x ∧ x < 1 ∧ G l k a b c x - t * x < G l k a b c 0 := by
  set e := Real.exp (-(l * (|a| + |b - t| + 1))) with he
  have e0 : 0 < e := Real.exp_pos _
  have e1 : e < 1 := by
    rw [he, Real.exp_lt_one_iff]
    have := abs_nonneg a
    have := abs_nonneg (b - t)
    have : 0 < l * (|a| + |b - t| + 1) := by positivity
    linarith
  refine ⟨e, e0, e1, ?_⟩
  have hlog : Real.log e = -(l * (|a| + |b - t| + 1)) := by rw [he, Real.log_exp]
  have h1 : (1 - e) * Real.log (1 - e) / k ≤ 0 :=
    div_nonpos_of_nonpos_of_nonneg (mul_nonpos_of_nonneg_of_nonpos (by linarith)
      (Real.log_nonpos (by linarith) (by linarith))) hk.le
  unfold G
  rw [hlog]
  simp only [zero_mul, zero_div, sub_zero, Real.log_one, mul_zero]
  have h2 : e * -(l * (|a| + |b - t| + 1)) / l = -(e * (|a| + |b - t| + 1)) := by
    field_simp
  rw [h2]
  have h3 : a * e ^ 2 ≤ e * |a| := by
    have : a * e ≤ |a| := by
      calc a * e ≤ |a * e| := le_abs_self _
        _ = |a| * e := by rw [abs_mul, abs_of_pos e0]
        _ ≤ |a| * 1 := mul_le_mul_of_nonneg_left e1.le (abs_nonneg a)
        _ = |a| := mul_one _
    nlinarith
  have h4 : (b - t) * e ≤ e * |b - t| := by
    have := le_abs_self (b - t)
    nlinarith
  have h5 : (0 : ℝ) ^ 2 = 0 := by norm_num
  nlinarith

/-- A minimum of the free energy minus a linear function. -/
def IsMin (l k a b c t x : ℝ) : Prop :=
  x ∈ Icc (0 : ℝ) 1 ∧ ∀ z ∈ Icc (0 : ℝ) 1, G l k a b c x - t * x ≤ G l k a b c z - t * z

theorem exists_isMin (t : ℝ) : ∃ x, IsMin l k a b c t x := by
  obtain ⟨x, hx, h⟩ := isCompact_Icc.exists_isMinOn (nonempty_Icc.mpr (zero_le_one (α := ℝ)))
    (f := fun x => G l k a b c x - t * x)
    (continuous_G.sub (continuous_const.mul continuous_id)).continuousOn
  exact ⟨x, hx, fun z hz => h hz⟩

theorem IsMin.touches (hl : 0 < l) (hk : 0 < k) {t x : ℝ} (h : IsMin l k a b c t x) :
    Touches l k a b c (G l k a b c x - t * x) t x := by
  have h0 : 0 < x := by
    rcases h.1.1.lt_or_eq with h' | h'
    · exact h'
    · exfalso
      subst h'
      obtain ⟨z, z0, z1, hz⟩ := steep (a := a) (b := b) (c := c) hl hk t
      have := h.2 z ⟨z0.le, z1.le⟩
      linarith
  have h1 : x < 1 := by
    rcases h.1.2.lt_or_eq with h' | h'
    · exact h'
    · exfalso
      subst h'
      obtain ⟨z, z0, z1, hz⟩ := steep (a := a) (b := -2 * a - b) (c := a + b + c) hk hl (-t)
      have := h.2 (1 - z) ⟨by linarith, by linarith⟩
      have e1 := G_symm (l := l) (k := k) (a := a) (b := b) (c := c) z
      have e2 := G_symm (l := l) (k := k) (a := a) (b := b) (c := c) 0
      rw [sub_zero] at e2
      rw [e1, e2] at this
      linarith
  refine ⟨h0, h1, by ring, ?_⟩
  have hd : HasDerivAt (fun x => G l k a b c x - t * x) (G1 l k a b x - t) x := by
    refine ((hasDerivAt_G h0 h1).sub ((hasDerivAt_id x).const_mul t)).congr_deriv ?_
    rw [mul_one]
  have hloc : IsLocalMin (fun x => G l k a b c x - t * x) x := by
    filter_upwards [Icc_mem_nhds h0 h1] with z hz
    exact h.2 z hz
  have := hloc.hasDerivAt_eq_zero hd
  linarith

/-- No minimum where the curvature is negative. -/
theorem IsMin.curvature (hl : 0 < l) (hk : 0 < k) {t x : ℝ} (h : IsMin l k a b c t x) :
    0 ≤ G2 l k a x := by
  by_contra hn
  have ht := h.touches hl hk
  have h0 := ht.pos
  have h1 := ht.lt
  have hd1 : HasDerivAt (fun x => G1 l k a b x - t) (G2 l k a x) x :=
    (hasDerivAt_G1 hl.ne' hk.ne' h0 h1).sub_const t
  -- the slope is negative to the right of `x`
  have hneg : ∀ᶠ z in 𝓝[>] x, G1 l k a b z - t < 0 := by
    have := hd1.tendsto_slope.mono_left (nhdsWithin_mono x (fun z (hz : x < z) => hz.ne'))
    have := this.eventually (gt_mem_nhds (not_le.mp hn))
    filter_upwards [this, self_mem_nhdsWithin] with z hz hxz
    have hxz : x < z := hxz
    rw [slope_def_field, ht.slope, sub_self, sub_zero] at hz
    by_contra hc
    have := div_nonneg (not_lt.mp hc) (by linarith : (0 : ℝ) ≤ z - x)
    linarith
  obtain ⟨u, hu, hu'⟩ := mem_nhdsGT_iff_exists_Ioo_subset.mp hneg
  have hu : x < u := hu
  set v := min ((x + u) / 2) ((x + 1) / 2) with hv
  have v1 : x < v := lt_min (by linarith) (by linarith)
  have v2 : v < u := lt_of_le_of_lt (min_le_left _ _) (by linarith)
  have v3 : v < 1 := lt_of_le_of_lt (min_le_right _ _) (by linarith)
  obtain ⟨w, hw, hw'⟩ := exists_hasDerivAt_eq_slope (fun x => G l k a b c x - t * x)
    (fun x => G1 l k a b x - t) v1
    (continuous_G.sub (continuous_const.mul continuous_id)).continuousOn
    (fun z hz => by
      refine ((hasDerivAt_G (by linarith [hz.1]) (by linarith [hz.2])).sub
        ((hasDerivAt_id z).const_mul t)).congr_deriv ?_
      rw [mul_one])
  have hwn : G1 l k a b w - t < 0 := hu' ⟨hw.1, by linarith [hw.2]⟩
  have hmin := h.2 v ⟨by linarith, v3.le⟩
  rw [hw'] at hwn
  have := div_nonneg (sub_nonneg.mpr hmin) (by linarith : (0 : ℝ) ≤ v - x)
  linarith

theorem IsMin.limit {t : ℕ → ℝ} {T : ℝ} (ht : Tendsto t atTop (𝓝 T)) {x : ℕ → ℝ}
    (h : ∀ n, IsMin l k a b c (t n) (x n)) {A : Set ℝ} (hA : IsClosed A) (hx : ∀ n, x n ∈ A) :
    ∃ y ∈ A, IsMin l k a b c T y := by
  obtain ⟨y, hy, φ, hφ, hlim⟩ := isCompact_Icc.tendsto_subseq fun n => (h n).1
  have ht' : Tendsto (fun n => t (φ n)) atTop (𝓝 T) := ht.comp hφ.tendsto_atTop
  refine ⟨y, hA.mem_of_tendsto hlim (Eventually.of_forall fun n => hx _), hy, fun z hz => ?_⟩
  have hl : Tendsto (fun n => G l k a b c (x (φ n)) - t (φ n) * x (φ n)) atTop
      (𝓝 (G l k a b c y - T * y)) :=
    ((continuous_G.tendsto y).comp hlim).sub (ht'.mul hlim)
  have hr : Tendsto (fun n => G l k a b c z - t (φ n) * z) atTop (𝓝 (G l k a b c z - T * z)) :=
    tendsto_const_nhds.sub (ht'.mul_const z)
  exact le_of_tendsto_of_tendsto' hl hr fun n => (h (φ n)).2 z hz

/-- On both sides of every composition there are minima for the same slope. -/
theorem exists_minima {x₀ : ℝ} (h0 : 0 < x₀) (h1 : x₀ < 1) :
    ∃ t x y, x ≤ x₀ ∧ x₀ ≤ y ∧ IsMin l k a b c t x ∧ IsMin l k a b c t y := by
  set A : Set ℝ := {t | ∃ x, x ≤ x₀ ∧ IsMin l k a b c t x} with hAdef
  obtain ⟨B, hB⟩ : ∃ B, ∀ x ∈ Icc (0 : ℝ) 1, |G l k a b c x| ≤ B := by
    obtain ⟨B, hB⟩ := isCompact_Icc.exists_bound_of_continuousOn
      (continuous_G (l := l) (k := k) (a := a) (b := b) (c := c)).continuousOn
    exact ⟨B, hB⟩
  have hA1 : A.Nonempty := by
    obtain ⟨x, hx⟩ := exists_isMin (l := l) (k := k) (a := a) (b := b) (c := c) (-(2 * B + 1) / x₀)
    refine ⟨_, x, ?_, hx⟩
    by_contra hc
    have hc := not_le.mp hc
    have g0 := abs_le.mp (hB 0 ⟨le_rfl, zero_le_one⟩)
    have gx := abs_le.mp (hB x hx.1)
    have := hx.2 0 ⟨le_rfl, zero_le_one⟩
    have hB0 : 0 ≤ B := (abs_nonneg _).trans (hB 0 ⟨le_rfl, zero_le_one⟩)
    have e : (2 * B + 1) < (2 * B + 1) / x₀ * x := by
      rw [div_mul_eq_mul_div, lt_div_iff₀ h0]
      exact mul_lt_mul_of_pos_left hc (by linarith)
    rw [mul_zero, sub_zero, neg_div, neg_mul, sub_neg_eq_add] at this
    linarith [g0.2, gx.1]
  have hA2 : BddAbove A := by
    refine ⟨(2 * B + 1) / (1 - x₀), ?_⟩
    rintro t ⟨x, hxx, hx⟩
    by_contra hc
    have hc := not_le.mp hc
    have g1 := abs_le.mp (hB 1 ⟨zero_le_one, le_rfl⟩)
    have gx := abs_le.mp (hB x hx.1)
    have := hx.2 1 ⟨zero_le_one, le_rfl⟩
    have hB0 : 0 ≤ B := (abs_nonneg _).trans (hB 0 ⟨le_rfl, zero_le_one⟩)
    rw [div_lt_iff₀ (by linarith)] at hc
    have ht : 0 < t := by
      by_contra hn
      have := mul_nonpos_of_nonpos_of_nonneg (not_lt.mp hn) (by linarith : (0 : ℝ) ≤ 1 - x₀)
      linarith
    have : t * (1 - x₀) ≤ t * (1 - x) := mul_le_mul_of_nonneg_left (by linarith) ht.le
    linarith [g1.2, gx.1]
  obtain ⟨u, -, hu1, hu2⟩ := exists_seq_tendsto_sSup hA1 hA2
  choose xs hxs1 hxs2 using hu2
  obtain ⟨x, hx, hxm⟩ := IsMin.limit hu1 hxs2 (isClosed_Iic (a := x₀)) hxs1
  have hys : ∀ n : ℕ, ∃ y, x₀ ≤ y ∧ IsMin l k a b c (sSup A + 1 / ((n : ℝ) + 1)) y := by
    intro n
    obtain ⟨y, hy⟩ := exists_isMin (l := l) (k := k) (a := a) (b := b) (c := c)
      (sSup A + 1 / ((n : ℝ) + 1))
    refine ⟨y, ?_, hy⟩
    by_contra hc
    have : sSup A + 1 / ((n : ℝ) + 1) ≤ sSup A := le_csSup hA2 ⟨y, (not_le.mp hc).le, hy⟩
    have : 0 < 1 / ((n : ℝ) + 1) := by positivity
    linarith
  choose ys hys1 hys2 using hys
  have hlim : Tendsto (fun n : ℕ => sSup A + 1 / ((n : ℝ) + 1)) atTop (𝓝 (sSup A)) := by
    simpa using tendsto_one_div_add_atTop_nhds_zero_nat.const_add (sSup A)
  obtain ⟨y, hy, hym⟩ := IsMin.limit hlim hys2 (isClosed_Ici (a := x₀)) hys1
  exact ⟨sSup A, x, y, hx, hy, hxm, hym⟩

theorem IsMin.value {t x y : ℝ} (hx : IsMin l k a b c t x) (hy : IsMin l k a b c t y) :
    G l k a b c x - t * x = G l k a b c y - t * y :=
  le_antisymm (hx.2 y hy.1) (hy.2 x hx.1)

/-- Where the curvature is negative somewhere, there is a common tangent, below the free energy. -/
theorem exists_tangent (hl : 0 < l) (hk : 0 < k) {x₀ : ℝ} (h0 : 0 < x₀) (h1 : x₀ < 1)
    (hneg : G2 l k a x₀ < 0) :
    ∃ s t x y, x < x₀ ∧ x₀ < y ∧ Touches l k a b c s t x ∧ Touches l k a b c s t y ∧
      ∀ z ∈ Icc (0 : ℝ) 1, s + t * z ≤ G l k a b c z := by
  have hne : ∀ t, ¬ IsMin l k a b c t x₀ := fun t h => by
    have := h.curvature hl hk
    linarith
  obtain ⟨t, x, y, hx, hy, hxm, hym⟩ := exists_minima (l := l) (k := k) (a := a) (b := b) (c := c) h0 h1
  refine ⟨G l k a b c x - t * x, t, x, y, lt_of_le_of_ne hx fun e => hne _ (e ▸ hxm),
    lt_of_le_of_ne hy fun e => hne _ (e ▸ hym), hxm.touches hl hk, ?_, fun z hz => ?_⟩
  · rw [hxm.value hym]
    exact hym.touches hl hk
  · have := hxm.2 z hz
    linarith

/-- A composition between no two touching points has a supporting line. -/
theorem supporting_line (hl : 0 < l) (hk : 0 < k) {x₀ : ℝ} (h0 : 0 < x₀) (h1 : x₀ < 1)
    (hno : ¬ ∃ s t x y, x < x₀ ∧ x₀ < y ∧ Touches l k a b c s t x ∧ Touches l k a b c s t y) :
    ∃ s t, (∀ z ∈ Icc (0 : ℝ) 1, s + t * z ≤ G l k a b c z) ∧ G l k a b c x₀ = s + t * x₀ := by
  obtain ⟨t, x, y, hx, hy, hxm, hym⟩ := exists_minima (l := l) (k := k) (a := a) (b := b) (c := c) h0 h1
  have key : IsMin l k a b c t x₀ := by
    by_contra hn
    refine hno ⟨G l k a b c x - t * x, t, x, y, lt_of_le_of_ne hx fun e => hn (e ▸ hxm),
      lt_of_le_of_ne hy fun e => hn (e ▸ hym), hxm.touches hl hk, ?_⟩
    rw [hxm.value hym]
    exact hym.touches hl hk
  refine ⟨G l k a b c x₀ - t * x₀, t, fun z hz => ?_, by ring⟩
  have := key.2 z hz
  linarith

/-- The least value of the entropic curvature. -/
theorem curvature_ge (hl : 0 < l) (hk : 0 < k) {x : ℝ} (h0 : 0 < x) (h1 : x < 1) :
    (1 / √l + 1 / √k) ^ 2 ≤ 1 / (l * x) + 1 / (k * (1 - x)) ∧
    ((1 / √l + 1 / √k) ^ 2 = 1 / (l * x) + 1 / (k * (1 - x)) → x = √k / (√l + √k)) := by
  have sl : 0 < √l := Real.sqrt_pos.mpr hl
  have sk : 0 < √k := Real.sqrt_pos.mpr hk
  have el : l = √l ^ 2 := (Real.sq_sqrt hl.le).symm
  have ek : k = √k ^ 2 := (Real.sq_sqrt hk.le).symm
  generalize √l = u at *
  generalize √k = v at *
  have h2 : 0 < 1 - x := by linarith
  have key : 1 / (l * x) + 1 / (k * (1 - x)) - (1 / u + 1 / v) ^ 2 =
      (v * (1 - x) - u * x) ^ 2 / (u ^ 2 * v ^ 2 * x * (1 - x)) := by
    rw [el, ek]
    field_simp
    ring
  have hd : 0 < u ^ 2 * v ^ 2 * x * (1 - x) := by positivity
  refine ⟨?_, fun he => ?_⟩
  · have : 0 ≤ (v * (1 - x) - u * x) ^ 2 / (u ^ 2 * v ^ 2 * x * (1 - x)) := by positivity
    linarith
  · rw [he, sub_self] at key
    have h3 := (div_eq_zero_iff.mp key.symm).resolve_right hd.ne'
    have h4 : v * (1 - x) - u * x = 0 := pow_eq_zero_iff (n := 2) (by norm_num) |>.mp h3
    rw [eq_div_iff (by positivity)]
    linarith

theorem exists_neg (hl : 0 < l) (hk : 0 < k) (h : 1 / 2 * (1 / √l + 1 / √k) ^ 2 < -a) :
    ∃ x, 0 < x ∧ x < 1 ∧ G2 l k a x < 0 := by
  have sl : 0 < √l := Real.sqrt_pos.mpr hl
  have sk : 0 < √k := Real.sqrt_pos.mpr hk
  have h0 : 0 < √k / (√l + √k) := by positivity
  have h1 : √k / (√l + √k) < 1 := by
    rw [div_lt_one (by positivity)]
    linarith
  have hneg : G2 l k a (√k / (√l + √k)) < 0 := by
    have : 1 / (l * (√k / (√l + √k))) + 1 / (k * (1 - √k / (√l + √k))) = (1 / √l + 1 / √k) ^ 2 := by
      have el : l = √l ^ 2 := (Real.sq_sqrt hl.le).symm
      have ek : k = √k ^ 2 := (Real.sq_sqrt hk.le).symm
      generalize √l = u at *
      generalize √k = v at *
      rw [el, ek]
      have : 1 - v / (u + v) = u / (u + v) := by field_simp; ring
      rw [this]
      field_simp
      ring
    unfold G2
    rw [this]
    linarith
  exact ⟨_, h0, h1, hneg⟩

/-- **Critical point**: a line touches twice iff the interaction exceeds its critical value. -/
theorem critical (hl : 0 < l) (hk : 0 < k) :
    (∃ s t x y, x < y ∧ Touches l k a b c s t x ∧ Touches l k a b c s t y) ↔
      1 / 2 * (1 / √l + 1 / √k) ^ 2 < -a := by
  constructor
  · rintro ⟨s, t, x, y, hxy, hx, hy⟩
    obtain ⟨z, w, h1, h2, h3, hz, hw⟩ := two_spinodals hl hk hx hy hxy
    have z0 : 0 < z := by linarith [hx.pos]
    have z1 : z < 1 := by linarith [hy.lt]
    have w0 : 0 < w := by linarith
    have w1 : w < 1 := by linarith [hy.lt]
    have gz : ∀ z, 0 < z → z < 1 → P l k a z = 0 → 1 / (l * z) + 1 / (k * (1 - z)) = -(2 * a) := by
      intro z z0 z1 hz
      rw [P_eq hl hk z0 z1] at hz
      have h1z : 0 < 1 - z := by linarith
      have := (mul_eq_zero.mp hz).resolve_left (by positivity)
      unfold G2 at this
      linarith
    obtain ⟨a1, a2⟩ := curvature_ge hl hk z0 z1
    obtain ⟨b1, b2⟩ := curvature_ge hl hk w0 w1
    rw [gz z z0 z1 hz] at a1 a2
    rw [gz w w0 w1 hw] at b1 b2
    rcases a1.lt_or_eq with h | h
    · linarith
    · have := (a2 h).trans (b2 h).symm
      linarith
  · intro h
    obtain ⟨x₀, h0, h1, hneg⟩ := exists_neg hl hk h
    obtain ⟨s, t, x, y, hx, hy, tx, ty, -⟩ := exists_tangent (b := b) (c := c) hl hk h0 h1 hneg
    exact ⟨s, t, x, y, by linarith, tx, ty⟩

end Binary

end Flory
