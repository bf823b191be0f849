import Verif.Spec.Equilibrium
import Mathlib.Analysis.Calculus.MeanValue
import Mathlib.Analysis.Calculus.LocalExtr.Rolle
import Mathlib.Analysis.SpecialFunctions.Log.NegMulLog
import Mathlib.Tactic.LinearCombination
import Mathlib.Tactic.FieldSimp
import Mathlib.Tactic.FinCases

/-! # Common tangents of the free energy of a binary mixture -/

set_option linter.unusedSectionVars false

namespace Flory

namespace Binary

variable {l k a b c : ℝ}

/-- Free energy of a binary mixture as a function of the first fraction. -/
noncomputable def G (l k a b c x : ℝ) : ℝ :=
  x * Real.log x / l + (1 - x) * Real.log (1 - x) / k + (a * x ^ 2 + b * x + c)

noncomputable def G1 (l k a b x : ℝ) : ℝ :=
  (Real.log x + 1) / l - (Real.log (1 - x) + 1) / k + (2 * a * x + b)

noncomputable def G2 (l k a x : ℝ) : ℝ := 1 / (l * x) + 1 / (k * (1 - x)) + 2 * a

theorem hasDerivAt_G {x : ℝ} (h0 : 0 < x) (h1 : x < 1) :
    HasDerivAt (G l k a b c) (G1 l k a b x) x := by
  have e1 : HasDerivAt (fun x : ℝ => x * Real.log x) (Real.log x + 1) x := Real.hasDerivAt_mul_log h0.ne'
  have e0 : HasDerivAt (fun x : ℝ => 1 - x) (-1) x := (hasDerivAt_id x).const_sub 1
  have e2 : HasDerivAt (fun x : ℝ => (1 - x) * Real.log (1 - x)) ((Real.log (1 - x) + 1) * -1) x :=
    (Real.hasDerivAt_mul_log (x := 1 - x) (by linarith)).comp x e0
  have e3 : HasDerivAt (fun x : ℝ => a * x ^ 2 + b * x + c) (a * ((2 : ℕ) * x ^ (2 - 1)) + b * 1) x :=
    (((hasDerivAt_pow 2 x).const_mul a).add ((hasDerivAt_id x).const_mul b)).add_const c
  refine (((e1.div_const l).add (e2.div_const k)).add e3).congr_deriv ?_
  unfold G1
  norm_num
  ring

theorem hasDerivAt_G1 (hl : l ≠ 0) (hk : k ≠ 0) {x : ℝ} (h0 : 0 < x) (h1 : x < 1) :
    HasDerivAt (G1 l k a b) (G2 l k a x) x := by
  have e1 : HasDerivAt (fun x : ℝ => Real.log x + 1) x⁻¹ x := (Real.hasDerivAt_log h0.ne').add_const 1
  have e0 : HasDerivAt (fun x : ℝ => 1 - x) (-1) x := (hasDerivAt_id x).const_sub 1
  have e2 : HasDerivAt (fun x : ℝ => Real.log (1 - x) + 1) ((1 - x)⁻¹ * -1) x :=
    ((Real.hasDerivAt_log (x := 1 - x) (by linarith)).comp x e0).add_const 1
  have e3 : HasDerivAt (fun x : ℝ => 2 * a * x + b) (2 * a * 1) x :=
    ((hasDerivAt_id x).const_mul (2 * a)).add_const b
  refine (((e1.div_const l).sub (e2.div_const k)).add e3).congr_deriv ?_
  unfold G2
  have : 1 - x ≠ 0 := by linarith
  field_simp
  ring

/-- Between two zeros of a function lies one of its derivative. -/
theorem rolle {f f' : ℝ → ℝ} {x y : ℝ} (hx : 0 < x) (hy : y < 1) (hxy : x < y)
    (hd : ∀ z, 0 < z → z < 1 → HasDerivAt f (f' z) z) (hf : f x = f y) :
    ∃ z, x < z ∧ z < y ∧ f' z = 0 := by
  obtain ⟨z, hz, h⟩ := exists_hasDerivAt_eq_zero (f := f) (f' := f') hxy
    (fun z hz => (hd z (by linarith [hz.1]) (by linarith [hz.2])).continuousAt.continuousWithinAt) hf
    (fun z hz => hd z (by linarith [hz.1]) (by linarith [hz.2]))
  exact ⟨z, hz.1, hz.2, h⟩

/-- The line `s + t x` touches the free energy at `x`. -/
structure Touches (l k a b c s t x : ℝ) : Prop where
  pos : 0 < x
  lt : x < 1
  value : G l k a b c x = s + t * x
  slope : G1 l k a b x = t

/-- Numerator of the second derivative. -/
def P (l k a x : ℝ) : ℝ := k * (1 - x) + l * x + 2 * a * l * k * x * (1 - x)

theorem P_eq (hl : 0 < l) (hk : 0 < k) {x : ℝ} (h0 : 0 < x) (h1 : x < 1) :
    P l k a x = l * k * x * (1 - x) * G2 l k a x := by
  unfold P G2
  have : 1 - x ≠ 0 := by linarith
  field_simp

theorem two_spinodals (hl : 0 < l) (hk : 0 < k) {s t x y : ℝ} (hx : Touches l k a b c s t x)
    (hy : Touches l k a b c s t y) (hxy : x < y) :
    ∃ z w, x < z ∧ z < w ∧ w < y ∧ P l k a z = 0 ∧ P l k a w = 0 := by
  obtain ⟨m, m1, m2, hm⟩ := rolle (f := fun z => G l k a b c z - (s + t * z))
    (f' := fun z => G1 l k a b z - t) hx.pos hy.lt hxy
    (fun z z0 z1 => by
      refine ((hasDerivAt_G (l := l) (k := k) (a := a) (b := b) (c := c) z0 z1).sub
        (((hasDerivAt_id z).const_mul t).const_add s)).congr_deriv ?_
      rw [mul_one]) (by rw [hx.value, hy.value]; ring)
  have hd : ∀ z, 0 < z → z < 1 → HasDerivAt (fun z => G1 l k a b z - t) (G2 l k a z) z :=
    fun z z0 z1 => (hasDerivAt_G1 hl.ne' hk.ne' z0 z1).sub_const t
  have h0 := hx.pos
  have h1 := hy.lt
  obtain ⟨z, z1, z2, hz⟩ := rolle h0 (by linarith) m1 hd (by rw [hm, hx.slope, sub_self])
  obtain ⟨w, w1, w2, hw⟩ := rolle (x := m) (by linarith) h1 m2 hd (by rw [hm, hy.slope, sub_self])
  exact ⟨z, w, z1, by linarith, w2, by rw [P_eq hl hk (by linarith) (by linarith), hz, mul_zero],
    by rw [P_eq hl hk (by linarith) (by linarith), hw, mul_zero]⟩

/-- The second derivative has at most two zeros. -/
theorem no_three (hk : k ≠ 0) {x y z : ℝ} (hx : P l k a x = 0) (hy : P l k a y = 0)
    (hz : P l k a z = 0) (hxy : x ≠ y) (hyz : y ≠ z) (hxz : x ≠ z) : False := by
  unfold P at hx hy hz
  have e1 : (x - y) * (l - k + 2 * a * l * k - 2 * a * l * k * (x + y)) = 0 := by
    linear_combination hx - hy
  have e2 : (x - z) * (l - k + 2 * a * l * k - 2 * a * l * k * (x + z)) = 0 := by
    linear_combination hx - hz
  have f1 := (mul_eq_zero.mp e1).resolve_left (sub_ne_zero.mpr hxy)
  have f2 := (mul_eq_zero.mp e2).resolve_left (sub_ne_zero.mpr hxz)
  have e3 : 2 * a * l * k * (y - z) = 0 := by linear_combination f2 - f1
  have f3 : 2 * a * l * k = 0 := (mul_eq_zero.mp e3).resolve_right (sub_ne_zero.mpr hyz)
  have f4 : l - k = 0 := by linear_combination f1 - (1 - (x + y)) * f3
  apply hk
  linear_combination hx - x * f4 - x * (1 - x) * f3

/-- No line touches the free energy three times. -/
theorem no_three_phases (hl : 0 < l) (hk : 0 < k) {s t x y z : ℝ} (hx : Touches l k a b c s t x)
    (hy : Touches l k a b c s t y) (hz : Touches l k a b c s t z) (hxy : x < y) (hyz : y < z) :
    False := by
  obtain ⟨p, q, h1, h2, h3, hp, hq⟩ := two_spinodals hl hk hx hy hxy
  obtain ⟨r, -, h4, -, -, hr, -⟩ := two_spinodals hl hk hy hz hyz
  exact no_three hk.ne' hp hq hr h2.ne (by linarith : q < r).ne (by linarith : p < r).ne

/-- Outside of the spinodals the curvature is positive. -/
theorem outside (hk : 0 < k) {r q x : ℝ} (hr0 : 0 < r) (hrq : r < q) (hr : P l k a r = 0)
    (hq : P l k a q = 0) (hx : x < r ∨ q < x) : 0 < P l k a x := by
  have e1 : (r - q) * (l - k + 2 * a * l * k - 2 * a * l * k * (r + q)) = 0 := by
    unfold P at hr hq
    linear_combination hr - hq
  have f1 := (mul_eq_zero.mp e1).resolve_left (sub_ne_zero.mpr hrq.ne)
  have e2 : -(2 * a * l * k) * (r * q) = k := by
    unfold P at hr
    linear_combination (-1) * hr + r * f1
  have hpos : 0 < -(2 * a * l * k) := by
    have hrq' : 0 < r * q := mul_pos hr0 (by linarith)
    by_contra hn
    have := mul_nonpos_of_nonpos_of_nonneg (not_lt.mp hn) hrq'.le
    linarith
  have e3 : P l k a x = -(2 * a * l * k) * ((x - r) * (x - q)) := by
    unfold P
    linear_combination (-1) * e2 + x * f1
  rw [e3]
  refine mul_pos hpos ?_
  rcases hx with hx | hx
  · exact mul_pos_of_neg_of_neg (by linarith) (by linarith)
  · exact mul_pos (by linarith) (by linarith)

/-- On an interval of positive curvature the free energy lies above its tangents. -/
theorem above_tangent (hl : 0 < l) (hk : 0 < k) {x y : ℝ} (hx0 : 0 < x) (hx1 : x < 1) (hy0 : 0 < y)
    (hy1 : y < 1) (hne : y ≠ x) (hP : ∀ z, min x y ≤ z → z ≤ max x y → 0 < P l k a z) :
    G l k a b c x + G1 l k a b x * (y - x) < G l k a b c y := by
  have h2 : ∀ z, min x y ≤ z → z ≤ max x y → 0 < z ∧ z < 1 ∧ 0 < G2 l k a z := by
    intro z h1 h2
    have z0 : 0 < z := lt_of_lt_of_le (lt_min hx0 hy0) h1
    have z1 : z < 1 := lt_of_le_of_lt h2 (max_lt hx1 hy1)
    refine ⟨z0, z1, ?_⟩
    have := hP z h1 h2
    rw [P_eq hl hk z0 z1] at this
    exact pos_of_mul_pos_right this (by have : 0 < 1 - z := by linarith
                                        positivity)
  -- mean value theorem for `G`, then for `G1`
  have mvt : ∀ (f f' : ℝ → ℝ) (u v : ℝ), u < v → (∀ z, u ≤ z → z ≤ v → HasDerivAt f (f' z) z) →
      ∃ z, u < z ∧ z < v ∧ f v - f u = f' z * (v - u) := by
    intro f f' u v huv hd
    obtain ⟨z, hz, h⟩ := exists_hasDerivAt_eq_slope f f' huv
      (fun z hz => (hd z hz.1 hz.2).continuousAt.continuousWithinAt)
      (fun z hz => hd z hz.1.le hz.2.le)
    refine ⟨z, hz.1, hz.2, ?_⟩
    rw [h]
    have : v - u ≠ 0 := by linarith
    field_simp
  rcases lt_or_gt_of_ne hne with hlt | hlt
  · rw [min_eq_right hlt.le, max_eq_left hlt.le] at h2
    obtain ⟨z, z1, z2, hz⟩ := mvt (G l k a b c) (G1 l k a b) y x hlt fun z a1 a2 =>
      hasDerivAt_G (h2 z a1 a2).1 (h2 z a1 a2).2.1
    obtain ⟨w, w1, w2, hw⟩ := mvt (G1 l k a b) (G2 l k a) z x z2 fun w a1 a2 =>
      hasDerivAt_G1 hl.ne' hk.ne' (h2 w (by linarith) a2).1 (h2 w (by linarith) a2).2.1
    have hp := (h2 w (by linarith) (by linarith)).2.2
    have : 0 < G2 l k a w * (x - z) * (x - y) := mul_pos (mul_pos hp (by linarith)) (by linarith)
    rw [← hw] at this
    nlinarith
  · rw [min_eq_left hlt.le, max_eq_right hlt.le] at h2
    obtain ⟨z, z1, z2, hz⟩ := mvt (G l k a b c) (G1 l k a b) x y hlt fun z a1 a2 =>
      hasDerivAt_G (h2 z a1 a2).1 (h2 z a1 a2).2.1
    obtain ⟨w, w1, w2, hw⟩ := mvt (G1 l k a b) (G2 l k a) x z z1 fun w a1 a2 =>
      hasDerivAt_G1 hl.ne' hk.ne' (h2 w a1 (by linarith)).1 (h2 w a1 (by linarith)).2.1
    have hp := (h2 w (by linarith) (by linarith)).2.2
    have : 0 < G2 l k a w * (z - x) * (y - x) := mul_pos (mul_pos hp (by linarith)) (by linarith)
    rw [← hw] at this
    nlinarith

/-- There is at most one line touching the free energy twice. -/
theorem unique_binodal (hl : 0 < l) (hk : 0 < k) {s t x y s' t' x' y' : ℝ}
    (hx : Touches l k a b c s t x) (hy : Touches l k a b c s t y) (hxy : x < y)
    (hx' : Touches l k a b c s' t' x') (hy' : Touches l k a b c s' t' y') (hxy' : x' < y') :
    x = x' ∧ y = y' := by
  obtain ⟨r, q, h1, h2, h3, hr, hq⟩ := two_spinodals hl hk hx hy hxy
  obtain ⟨r', q', h1', h2', h3', hr', hq'⟩ := two_spinodals hl hk hx' hy' hxy'
  have r0 : 0 < r := by linarith [hx.pos]
  have hrr : r' = r := by
    by_contra hne
    by_cases hne2 : r' = q
    · exact no_three hk.ne' hr hq hq' h2.ne (by linarith : q < q').ne (by linarith : r < q').ne
    · exact no_three hk.ne' hr hq hr' h2.ne (Ne.symm hne2) (Ne.symm hne)
  have hqq : q' = q := by
    by_contra hne
    exact no_three hk.ne' hr hq hq' h2.ne (Ne.symm hne) (by linarith : r < q').ne
  subst hrr hqq
  have hleft : ∀ u v : ℝ, u < r' → v < r' → ∀ z, min u v ≤ z → z ≤ max u v → 0 < P l k a z := by
    intro u v hu hv z _ hz
    exact outside hk r0 h2 hr hq (.inl (lt_of_le_of_lt hz (max_lt hu hv)))
  have hright : ∀ u v : ℝ, q' < u → q' < v → ∀ z, min u v ≤ z → z ≤ max u v → 0 < P l k a z := by
    intro u v hu hv z hz _
    exact outside hk r0 h2 hr hq (.inr (lt_of_lt_of_le (lt_min hu hv) hz))
  -- the first line lies below the second at the points where the second touches, and vice versa
  have below : ∀ {s t x s' t' x' : ℝ}, Touches l k a b c s t x → Touches l k a b c s' t' x' →
      ((x < r' ∧ x' < r') ∨ (q' < x ∧ q' < x')) →
      s + t * x' ≤ s' + t' * x' ∧ (x ≠ x' → s + t * x' < s' + t' * x') := by
    intro s t x s' t' x' u v hside
    by_cases he : x' = x
    · subst he
      refine ⟨?_, fun h => absurd rfl h⟩
      rw [← u.value, ← v.value]
    · have hP : ∀ z, min x x' ≤ z → z ≤ max x x' → 0 < P l k a z := by
        rcases hside with ⟨p1, p2⟩ | ⟨p1, p2⟩
        · exact hleft x x' p1 p2
        · exact hright x x' p1 p2
      have := above_tangent (b := b) (c := c) hl hk u.pos u.lt v.pos v.lt he hP
      rw [u.value, v.value, u.slope] at this
      have h3 : s + t * x' < s' + t' * x' := by linarith
      exact ⟨h3.le, fun _ => h3⟩
  obtain ⟨a1, b1⟩ := below hx hx' (.inl ⟨h1, h1'⟩)
  obtain ⟨a2, b2⟩ := below hy hy' (.inr ⟨h3, h3'⟩)
  obtain ⟨a3, b3⟩ := below hx' hx (.inl ⟨h1', h1⟩)
  obtain ⟨a4, b4⟩ := below hy' hy (.inr ⟨h3', h3⟩)
  -- differences of the lines
  set A := s' - s with hA
  set B := t' - t with hB
  have c1 : 0 ≤ A + B * x' := by rw [hA, hB]; linarith
  have c2 : 0 ≤ A + B * y' := by rw [hA, hB]; linarith
  have c3 : A + B * x ≤ 0 := by rw [hA, hB]; linarith
  have c4 : A + B * y ≤ 0 := by rw [hA, hB]; linarith
  have hat : ∀ z, z = r' → A + B * z = 0 := by
    rintro z rfl
    refine le_antisymm ?_ ?_
    · rcases le_or_gt 0 B with hB0 | hB0
      · have := mul_le_mul_of_nonneg_left (by linarith : z ≤ y) hB0
        linarith
      · have := mul_le_mul_of_nonpos_left (by linarith : x ≤ z) hB0.le
        linarith
    · rcases le_or_gt 0 B with hB0 | hB0
      · have := mul_le_mul_of_nonneg_left (by linarith : x' ≤ z) hB0
        linarith
      · have := mul_le_mul_of_nonpos_left (by linarith : z ≤ y') hB0.le
        linarith
  have hat0 := hat r' rfl
  have hB0 : B = 0 := by
    rcases lt_trichotomy B 0 with h | h | h
    · have := mul_lt_mul_of_neg_left (by linarith : r' < y') h
      linarith
    · exact h
    · have := mul_lt_mul_of_pos_left (by linarith : r' < y) h
      linarith
  have hA0 : A = 0 := by rw [hB0, zero_mul, add_zero] at hat0; exact hat0
  refine ⟨?_, ?_⟩
  · by_contra hne
    have := b1 hne
    have e : s' + t' * x' - (s + t * x') = A + B * x' := by rw [hA, hB]; ring
    rw [hA0, hB0, zero_mul, add_zero] at e
    linarith
  · by_contra hne
    have := b2 hne
    have e : s' + t' * y' - (s + t * y') = A + B * y' := by rw [hA, hB]; ring
    rw [hA0, hB0, zero_mul, add_zero] at e
    linarith

end Binary

end Flory
