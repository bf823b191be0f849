import Verif.Spec.GroundState
import Verif.Spec.Balance
import Mathlib.Analysis.Convex.Caratheodory
import Mathlib.Analysis.LocallyConvex.Separation
import Mathlib.Analysis.SpecialFunctions.Log.NegMulLog
import Mathlib.LinearAlgebra.AffineSpace.FiniteDimensional
import Mathlib.Topology.MetricSpace.Sequences
import Mathlib.Analysis.Convex.StdSimplex
import Mathlib.Algebra.BigOperators.Field
import Mathlib.Analysis.Calculus.LocalExtr.Basic
import Mathlib.Tactic.Positivity
import Mathlib.Tactic.Linarith
import Mathlib.Tactic.FieldSimp
import Mathlib.Tactic.LinearCombination

/-! # The best way to divide a mixture into phases -/

set_option linter.unusedSectionVars false

namespace Flory

open Spec Set Filter Topology

/-! ## Convex hulls of compact sets -/

section Hull

variable {E : Type} [NormedAddCommGroup E] [NormedSpace ℝ E] [FiniteDimensional ℝ E]

/-- Points of a convex hull as mixtures of a fixed number of points. -/
theorem mem_hull_fixed {s : Set E} {x : E} (hx : x ∈ convexHull ℝ s) :
    ∃ (w : Fin (Module.finrank ℝ E + 1) → ℝ) (z : Fin (Module.finrank ℝ E + 1) → E),
      w ∈ stdSimplex ℝ (Fin (Module.finrank ℝ E + 1)) ∧ (∀ i, z i ∈ s) ∧ ∑ i, w i • z i = x := by
  obtain ⟨ι, _, z, w, hz, hai, hw, hw1, hsum⟩ := eq_pos_convex_span_of_mem_convexHull hx
  have hcard : Fintype.card ι ≤ Module.finrank ℝ E + 1 :=
    hai.card_le_finrank_succ.trans (Nat.add_le_add_right (Submodule.finrank_le _) 1)
  obtain ⟨e⟩ := Function.Embedding.nonempty_of_card_le (α := ι)
    (β := Fin (Module.finrank ℝ E + 1)) (by rwa [Fintype.card_fin])
  have hne : Nonempty ι := by
    by_contra hn
    rw [not_nonempty_iff] at hn
    simp at hw1
  obtain ⟨i₀⟩ := hne
  refine ⟨Function.extend e w 0, Function.extend e z (fun _ => z i₀), ⟨fun j => ?_, ?_⟩, fun j => ?_, ?_⟩
  · by_cases hj : ∃ i, e i = j
    · obtain ⟨i, rfl⟩ := hj
      rw [e.injective.extend_apply]
      exact (hw i).le
    · rw [Function.extend_apply' _ _ _ hj]
      rfl
  · rw [← hw1]
    refine (Fintype.sum_of_injective e e.injective _ _ (fun j hj => ?_) fun i => ?_).symm
    · rw [Function.extend_apply' _ _ _ (by simpa using hj)]
      rfl
    · rw [e.injective.extend_apply]
  · by_cases hj : ∃ i, e i = j
    · obtain ⟨i, rfl⟩ := hj
      rw [e.injective.extend_apply]
      exact hz ⟨i, rfl⟩
    · rw [Function.extend_apply' _ _ _ hj]
      exact hz ⟨i₀, rfl⟩
  · rw [← hsum]
    refine (Fintype.sum_of_injective e e.injective _ _ (fun j hj => ?_) fun i => ?_).symm
    · rw [Function.extend_apply' _ _ _ (by simpa using hj)]
      simp
    · rw [e.injective.extend_apply, e.injective.extend_apply]

theorem isCompact_hull {s : Set E} (hs : IsCompact s) : IsCompact (convexHull ℝ s) := by
  set n := Module.finrank ℝ E + 1 with hn
  have himg : convexHull ℝ s = (fun p : (Fin n → ℝ) × (Fin n → E) => ∑ i, p.1 i • p.2 i) ''
      (stdSimplex ℝ (Fin n) ×ˢ Set.univ.pi fun _ => s) := by
    ext x
    constructor
    · intro hx
      obtain ⟨w, z, hw, hz, h⟩ := mem_hull_fixed hx
      exact ⟨(w, z), ⟨hw, fun i _ => hz i⟩, h⟩
    · rintro ⟨⟨w, z⟩, ⟨hw, hz⟩, h⟩
      exact mem_convexHull_of_exists_fintype w z hw.1 hw.2 (fun i => hz i (Set.mem_univ i)) h
  rw [himg]
  refine IsCompact.image ((isCompact_stdSimplex ℝ (Fin n)).prod (isCompact_univ_pi fun _ => hs)) ?_
  fun_prop

end Hull

/-! ## The supporting plane -/

section Plane

variable {C : ℕ} {chis : Mat C C ℝ} {l : Vec C ℝ}

theorem continuous_freeEnergy : Continuous (freeEnergy chis l) := by
  unfold freeEnergy
  have h1 : ∀ i, Continuous fun phi : Vec C ℝ => phi i * Real.log (phi i) := fun i =>
    Real.continuous_mul_log.comp (continuous_apply i)
  have h2 : ∀ i j, Continuous fun phi : Vec C ℝ => chis i j * phi i * phi j := fun i j => by fun_prop
  refine Continuous.add (continuous_finsetSum _ fun i _ => (h1 i).div_const _) ?_
  exact continuous_const.mul (continuous_finsetSum _ fun i _ => continuous_finsetSum _ fun j _ => h2 i j)

/-- A plane below the free energy. -/
def Below (chis : Mat C C ℝ) (l mu : Vec C ℝ) : Prop :=
  ∀ y : Vec C ℝ, (∀ i, 0 ≤ y i) → ∑ i, y i = 1 → ∑ i, mu i * y i ≤ freeEnergy chis l y

/-- Points of the graph. -/
def graph (chis : Mat C C ℝ) (l : Vec C ℝ) : Set (Vec C ℝ × ℝ) :=
  (fun y => (y, freeEnergy chis l y)) '' stdSimplex ℝ (Fin C)

theorem isCompact_graph : IsCompact (graph chis l) :=
  (isCompact_stdSimplex ℝ (Fin C)).image (continuous_id.prodMk continuous_freeEnergy)

/-- The least energy of mixtures of composition `phiMeans`. -/
theorem exists_least {phiMeans : Vec C ℝ} (h0 : ∀ i, 0 ≤ phiMeans i) (h1 : ∑ i, phiMeans i = 1) :
    ∃ E, (phiMeans, E) ∈ convexHull ℝ (graph chis l) ∧
      ∀ e, (phiMeans, e) ∈ convexHull ℝ (graph chis l) → E ≤ e := by
  have hK := isCompact_hull (isCompact_graph (chis := chis) (l := l))
  have hc : IsCompact (convexHull ℝ (graph chis l) ∩ {p | p.1 = phiMeans}) :=
    hK.inter_right (isClosed_eq continuous_fst continuous_const)
  obtain ⟨⟨y, E⟩, ⟨hy, hy'⟩, hmin⟩ := hc.exists_isMinOn
    ⟨(phiMeans, freeEnergy chis l phiMeans),
      subset_convexHull ℝ _ ⟨phiMeans, ⟨h0, h1⟩, rfl⟩, rfl⟩ continuous_snd.continuousOn
  have hy' : y = phiMeans := hy'
  subst hy'
  exact ⟨E, hy, fun e he => hmin (a := (y, e)) ⟨he, rfl⟩⟩

theorem dual_apply (f : StrongDual ℝ (Vec C ℝ × ℝ)) (y : Vec C ℝ) (e : ℝ) :
    f (y, e) = ∑ i, f (Pi.single i 1, 0) * y i + f (0, 1) * e := by
  have h1 : (y, e) = (y, (0 : ℝ)) + e • ((0 : Vec C ℝ), (1 : ℝ)) := by simp
  have h2 : ((y, (0 : ℝ)) : Vec C ℝ × ℝ) = ∑ i, y i • ((Pi.single i 1 : Vec C ℝ), (0 : ℝ)) := by
    refine Prod.ext ?_ ?_
    · rw [Prod.fst_sum]
      simp only [Prod.smul_fst]
      funext j
      simp [Finset.sum_apply, Pi.single_apply]
    · rw [Prod.snd_sum]
      simp
  rw [h1, map_add, h2, map_sum, map_smul, smul_eq_mul]
  congr 1
  · exact Finset.sum_congr rfl fun i _ => by rw [map_smul, smul_eq_mul]; ring
  · ring

/-- Planes that are almost supporting. -/
theorem exists_plane_near {phiMeans : Vec C ℝ} {E : ℝ} (hE : (phiMeans, E) ∈ convexHull ℝ (graph chis l))
    (hmin : ∀ e, (phiMeans, e) ∈ convexHull ℝ (graph chis l) → E ≤ e) (h1 : ∑ i, phiMeans i = 1)
    {ε : ℝ} (hε : 0 < ε) :
    ∃ mu : Vec C ℝ, Below chis l mu ∧ ∑ i, mu i * phiMeans i = E - ε := by
  have hnot : (phiMeans, E - ε) ∉ convexHull ℝ (graph chis l) := fun h => by
    have := hmin _ h
    linarith
  obtain ⟨f, u, hu, hf⟩ := geometric_hahn_banach_point_closed (convex_convexHull ℝ _)
    (isCompact_hull (isCompact_graph (chis := chis) (l := l))).isClosed hnot
  have hb := hf _ hE
  rw [dual_apply] at hb hu
  set β := f (0, 1) with hβ
  have hpos : 0 < β := by
    by_contra hn
    have := mul_nonneg_of_nonpos_of_nonpos (not_lt.mp hn) (by linarith : -ε ≤ 0)
    nlinarith
  set ν : Vec C ℝ := fun i => f (Pi.single i 1, 0) with hν
  -- normalised so that the plane passes through the point
  set κ := E - ε + (∑ i, ν i * phiMeans i) / β with hκ
  refine ⟨fun i => κ - ν i / β, fun y y0 y1 => ?_, ?_⟩
  · have hy := hf _ (subset_convexHull ℝ _ ⟨y, ⟨y0, y1⟩, rfl⟩)
    simp only at hy
    rw [dual_apply] at hy
    have e1 : ∑ i, (κ - ν i / β) * y i = κ - (∑ i, ν i * y i) / β := by
      have : ∀ i, (κ - ν i / β) * y i = κ * y i - ν i * y i / β := fun i => by ring
      rw [Finset.sum_congr rfl fun i _ => this i, Finset.sum_sub_distrib, ← Finset.mul_sum, y1,
        Finset.sum_div, mul_one]
    rw [e1, hκ]
    have h3 : ∑ i, ν i * phiMeans i + β * (E - ε) < ∑ i, ν i * y i + β * freeEnergy chis l y :=
      hu.trans hy
    have h4 : (∑ i, ν i * phiMeans i) / β + (E - ε) < (∑ i, ν i * y i) / β + freeEnergy chis l y := by
      have := div_lt_div_of_pos_right h3 hpos
      rw [add_div, add_div, mul_div_cancel_left₀ _ hpos.ne', mul_div_cancel_left₀ _ hpos.ne'] at this
      exact this
    linarith
  · have : ∀ i, (κ - ν i / β) * phiMeans i = κ * phiMeans i - ν i * phiMeans i / β := fun i => by ring
    rw [Finset.sum_congr rfl fun i _ => this i, Finset.sum_sub_distrib, ← Finset.mul_sum, h1,
      ← Finset.sum_div, hκ]
    ring

/-- **Supporting plane** of the free energy at the least energy of a mixture. -/
theorem exists_plane {phiMeans : Vec C ℝ} {E : ℝ} (hE : (phiMeans, E) ∈ convexHull ℝ (graph chis l))
    (hmin : ∀ e, (phiMeans, e) ∈ convexHull ℝ (graph chis l) → E ≤ e) (h0 : ∀ i, 0 < phiMeans i)
    (h1 : ∑ i, phiMeans i = 1) :
    ∃ mu : Vec C ℝ, Below chis l mu ∧ ∑ i, mu i * phiMeans i = E := by
  have hseq : ∀ n : ℕ, ∃ mu : Vec C ℝ, Below chis l mu ∧ ∑ i, mu i * phiMeans i = E - 1 / ((n : ℝ) + 1) :=
    fun n => exists_plane_near hE hmin h1 (by positivity)
  choose mu hb hv using hseq
  set B : ℝ := ∑ i, |freeEnergy chis l (Pi.single i 1)| with hB
  have hup : ∀ n i, mu n i ≤ B := by
    intro n i
    have := hb n (Pi.single i 1) (fun j => by
      rw [Pi.single_apply]
      split <;> norm_num) (by simp)
    simp only [Pi.single_apply, mul_ite, mul_one, mul_zero, Finset.sum_ite_eq', Finset.mem_univ,
      if_true] at this
    have e : (fun j => if j = i then (1 : ℝ) else 0) = Pi.single i 1 := by
      funext j
      rw [Pi.single_apply]
    rw [hB]
    refine le_trans ?_ (Finset.single_le_sum (f := fun i => |freeEnergy chis l (Pi.single i 1)|)
      (fun _ _ => abs_nonneg _) (Finset.mem_univ i))
    refine le_trans ?_ (le_abs_self _)
    exact this
  have hlow : ∀ n i, (E - 1 - B) / phiMeans i ≤ mu n i - B := by
    intro n i
    rw [div_le_iff₀ (h0 i)]
    have e1 : ∑ j, (mu n j - B) * phiMeans j = E - 1 / ((n : ℝ) + 1) - B := by
      simp only [sub_mul]
      rw [Finset.sum_sub_distrib, hv, ← Finset.mul_sum, h1, mul_one]
    have e2 : ∑ j, (mu n j - B) * phiMeans j ≤ (mu n i - B) * phiMeans i := by
      rw [← Finset.add_sum_erase _ _ (Finset.mem_univ i)]
      have : ∑ j ∈ Finset.univ.erase i, (mu n j - B) * phiMeans j ≤ 0 :=
        Finset.sum_nonpos fun j _ =>
          mul_nonpos_of_nonpos_of_nonneg (by linarith [hup n j]) (h0 j).le
      linarith
    have e3 : 1 / ((n : ℝ) + 1) ≤ 1 := by
      rw [div_le_one (by positivity)]
      have := Nat.cast_nonneg (α := ℝ) n
      linarith
    linarith
  have hmem : ∀ n, mu n ∈ Set.Icc (fun i => (E - 1 - B) / phiMeans i + B) (fun _ => B) := fun n =>
    ⟨fun i => by have := hlow n i; show _ + B ≤ _; linarith, fun i => hup n i⟩
  obtain ⟨m, -, φ, hφ, hlim⟩ := isCompact_Icc.tendsto_subseq hmem
  have hlim' : ∀ y : Vec C ℝ, Tendsto (fun n => ∑ i, mu (φ n) i * y i) atTop (𝓝 (∑ i, m i * y i)) :=
    fun y => tendsto_finsetSum _ fun i _ =>
      (((continuous_apply i).tendsto m).comp hlim).mul_const (y i)
  refine ⟨m, fun y y0 y1 => le_of_tendsto' (hlim' y) fun n => hb (φ n) y y0 y1, ?_⟩
  refine tendsto_nhds_unique (hlim' phiMeans) ?_
  simp only [hv]
  have : Tendsto (fun n : ℕ => E - 1 / ((n : ℝ) + 1)) atTop (𝓝 (E - 0)) :=
    tendsto_const_nhds.sub tendsto_one_div_add_atTop_nhds_zero_nat
  rw [sub_zero] at this
  exact this.comp hφ.tendsto_atTop

/-! ## Points where the plane touches -/

/-- Interaction energy along a line. -/
theorem hasDerivAt_quad (hs : ∀ i j, chis i j = chis j i) (psi d : Vec C ℝ) :
    HasDerivAt (fun t : ℝ => 1 / 2 * ∑ i, ∑ j, chis i j * (psi i + t * d i) * (psi j + t * d j))
      (∑ i, d i * ∑ j, chis i j * psi j) 0 := by
  have h1 : ∀ i : Fin C, HasDerivAt (fun t : ℝ => psi i + t * d i) (d i) 0 := fun i =>
    (((hasDerivAt_id (0 : ℝ)).mul_const (d i)).const_add (psi i)).congr_deriv (one_mul _)
  have h2 : ∀ i j : Fin C, HasDerivAt (fun t : ℝ => chis i j * (psi i + t * d i) * (psi j + t * d j))
      (chis i j * d i * psi j + chis i j * psi i * d j) 0 := fun i j => by
    refine (((h1 i).const_mul (chis i j)).mul (h1 j)).congr_deriv ?_
    simp
  refine ((HasDerivAt.fun_sum fun i _ => HasDerivAt.fun_sum fun j _ => h2 i j).const_mul
    (1 / 2)).congr_deriv ?_
  simp only [Finset.sum_add_distrib]
  have e1 : ∑ i, ∑ j, chis i j * psi i * d j = ∑ i, ∑ j, chis i j * d i * psi j := by
    rw [Finset.sum_comm]
    exact Finset.sum_congr rfl fun i _ => Finset.sum_congr rfl fun j _ => by rw [hs j i]; ring
  have e2 : ∑ i, d i * ∑ j, chis i j * psi j = ∑ i, ∑ j, chis i j * d i * psi j :=
    Finset.sum_congr rfl fun i _ => by
      rw [Finset.mul_sum]
      exact Finset.sum_congr rfl fun j _ => by ring
  rw [e1, e2]
  ring

theorem hasDerivAt_mix {x d L : ℝ} (hx : 0 < x) :
    HasDerivAt (fun t : ℝ => (x + t * d) * Real.log (x + t * d) / L) (d * ((Real.log x + 1) / L)) 0 := by
  have h1 : HasDerivAt (fun t : ℝ => x + t * d) d 0 :=
    (((hasDerivAt_id (0 : ℝ)).mul_const d).const_add x).congr_deriv (one_mul _)
  have e : x + 0 * d = x := by ring
  have h2 : HasDerivAt (fun y : ℝ => y * Real.log y) (Real.log x + 1) (x + 0 * d) := by
    rw [e]
    exact Real.hasDerivAt_mul_log hx.ne'
  refine ((h2.comp (0 : ℝ) h1).div_const L).congr_deriv ?_
  ring

/-- Touching points contain all components. -/
theorem touch_pos (hs : ∀ i j, chis i j = chis j i) (hl : ∀ i, 0 < l i) {mu psi : Vec C ℝ}
    (hb : Below chis l mu) (h0 : ∀ i, 0 ≤ psi i) (h1 : ∑ i, psi i = 1)
    (hv : freeEnergy chis l psi = ∑ i, mu i * psi i) (i : Fin C) : 0 < psi i := by
  rcases (h0 i).lt_or_eq with h | hi
  · exact h
  exfalso
  obtain ⟨k, hk⟩ : ∃ k, 0 < psi k := by
    by_contra hn
    push Not at hn
    have := Finset.sum_nonpos (s := Finset.univ) fun k _ => hn k
    linarith
  have hik : i ≠ k := fun e => by
    rw [← e, ← hi] at hk
    exact lt_irrefl _ hk
  set d : Vec C ℝ := Pi.single i 1 - Pi.single k 1 with hd
  have di : d i = 1 := by simp [hd, hik]
  have dk : d k = -1 := by simp [hd, hik]
  have dj : ∀ j, j ≠ i → j ≠ k → d j = 0 := fun j a b => by simp [hd, a, b]
  have dsum : ∑ j, d j = 0 := by simp [hd]
  -- the smooth part
  set r : ℝ → ℝ := fun t => ∑ j ∈ Finset.univ.erase i, (psi j + t * d j) * Real.log (psi j + t * d j) / l j
    + 1 / 2 * (∑ a, ∑ b, chis a b * (psi a + t * d a) * (psi b + t * d b))
    - ∑ j, mu j * (psi j + t * d j) with hr
  have hsplit : ∀ t, freeEnergy chis l (fun j => psi j + t * d j) - ∑ j, mu j * (psi j + t * d j) =
      t * Real.log t / l i + r t := by
    intro t
    unfold freeEnergy
    rw [← Finset.add_sum_erase _ _ (Finset.mem_univ i)]
    have e : psi i + t * d i = t := by rw [di, ← hi]; ring
    simp only [e, hr]
    ring
  have hr0 : r 0 = 0 := by
    have := hsplit 0
    simp only [zero_mul, add_zero, zero_div, zero_add] at this
    rw [hv, sub_self] at this
    exact this.symm
  obtain ⟨r', hr'⟩ : ∃ r', HasDerivAt r r' 0 := by
    have a1 : ∀ j ∈ Finset.univ.erase i, HasDerivAt
        (fun t : ℝ => (psi j + t * d j) * Real.log (psi j + t * d j) / l j)
        (d j * ((Real.log (psi j) + 1) / l j)) 0 := by
      intro j hj
      by_cases hjk : j = k
      · subst hjk
        exact hasDerivAt_mix hk
      · rw [dj j (Finset.ne_of_mem_erase hj) hjk]
        simp only [mul_zero, add_zero, zero_mul]
        exact hasDerivAt_const _ _
    have a2 : ∀ j ∈ (Finset.univ : Finset (Fin C)),
        HasDerivAt (fun t : ℝ => mu j * (psi j + t * d j)) (mu j * d j) 0 := by
      intro j _
      refine ((((hasDerivAt_id (0 : ℝ)).mul_const (d j)).const_add (psi j)).const_mul (mu j)).congr_deriv ?_
      ring
    exact ⟨_, ((HasDerivAt.fun_sum a1).add (hasDerivAt_quad hs psi d)).sub (HasDerivAt.fun_sum a2)⟩
  have hslope : Tendsto (fun t => r t / t) (𝓝[>] 0) (𝓝 r') := by
    have := hr'.tendsto_slope.mono_left (nhdsWithin_mono (0 : ℝ) fun z (hz : 0 < z) => hz.ne')
    refine this.congr' ?_
    filter_upwards with t
    rw [slope_def_field, hr0, sub_zero, sub_zero]
  have hbot : Tendsto (fun t => Real.log t / l i + r t / t) (𝓝[>] 0) atBot :=
    (Real.tendsto_log_nhdsGT_zero.atBot_div_const (hl i)).atBot_add hslope
  have hev : ∀ᶠ t in 𝓝[>] (0 : ℝ), 0 ≤ Real.log t / l i + r t / t := by
    filter_upwards [Ioc_mem_nhdsGT hk] with t ht
    have t0 : 0 < t := ht.1
    have := hb (fun j => psi j + t * d j) (fun j => ?_) ?_
    · have h3 : 0 ≤ t * Real.log t / l i + r t := by
        rw [← hsplit]
        linarith
      have h4 := div_nonneg h3 t0.le
      rw [add_div] at h4
      have e : t * Real.log t / l i / t = Real.log t / l i := by field_simp
      rwa [e] at h4
    · by_cases hj : j = i
      · rw [hj, di, ← hi]
        linarith
      · by_cases hjk : j = k
        · rw [hjk, dk]
          linarith [ht.2]
        · rw [dj j hj hjk, mul_zero, add_zero]
          exact h0 j
    · rw [Finset.sum_add_distrib, ← Finset.mul_sum, dsum, h1]
      ring
  obtain ⟨t, ht1, ht2⟩ := (hev.and (hbot.eventually (eventually_lt_atBot 0))).exists
  linarith

/-- At touching points the plane gives the chemical potentials. -/
theorem touch_chemPot (hs : ∀ i j, chis i j = chis j i) (hl : ∀ i, 0 < l i) {mu psi : Vec C ℝ}
    (hb : Below chis l mu) (h0 : ∀ i, 0 ≤ psi i) (h1 : ∑ i, psi i = 1)
    (hv : freeEnergy chis l psi = ∑ i, mu i * psi i) (i : Fin C) : chemPot chis l psi i = mu i := by
  have hpos := touch_pos hs hl hb h0 h1 hv
  set g : Vec C ℝ := fun j => (Real.log (psi j) + 1) / l j + ∑ k, chis j k * psi k with hg
  have key : ∀ k, g i - mu i = g k - mu k := by
    intro k
    by_cases hik : i = k
    · rw [hik]
    set d : Vec C ℝ := Pi.single i 1 - Pi.single k 1 with hd
    have dsum : ∑ j, d j = 0 := by simp [hd]
    have hder : HasDerivAt (fun t : ℝ => freeEnergy chis l (fun j => psi j + t * d j) -
        ∑ j, mu j * (psi j + t * d j)) (∑ j, d j * (g j - mu j)) 0 := by
      have a2 : ∀ j ∈ (Finset.univ : Finset (Fin C)),
          HasDerivAt (fun t : ℝ => mu j * (psi j + t * d j)) (mu j * d j) 0 := by
        intro j _
        refine ((((hasDerivAt_id (0 : ℝ)).mul_const (d j)).const_add (psi j)).const_mul
          (mu j)).congr_deriv ?_
        ring
      refine (((HasDerivAt.fun_sum fun j (_ : j ∈ Finset.univ) => hasDerivAt_mix (hpos j)).add
        (hasDerivAt_quad hs psi d)).sub (HasDerivAt.fun_sum a2)).congr_deriv ?_
      rw [← Finset.sum_add_distrib, ← Finset.sum_sub_distrib]
      exact Finset.sum_congr rfl fun j _ => by rw [hg]; ring
    have hloc : IsLocalMin (fun t : ℝ => freeEnergy chis l (fun j => psi j + t * d j) -
        ∑ j, mu j * (psi j + t * d j)) 0 := by
      have hev : ∀ᶠ t in 𝓝 (0 : ℝ), ∀ j, 0 ≤ psi j + t * d j := by
        rw [eventually_all]
        intro j
        have hc : Tendsto (fun t : ℝ => psi j + t * d j) (𝓝 0) (𝓝 (psi j + 0 * d j)) :=
          (continuous_const.add (continuous_id.mul continuous_const)).tendsto 0
        rw [zero_mul, add_zero] at hc
        filter_upwards [hc.eventually (lt_mem_nhds (hpos j))] with t ht
        exact ht.le
      filter_upwards [hev] with t ht
      have := hb (fun j => psi j + t * d j) ht (by
        rw [Finset.sum_add_distrib, ← Finset.mul_sum, dsum, h1]
        ring)
      simp only [zero_mul, add_zero]
      rw [hv]
      linarith
    have hz := hloc.hasDerivAt_eq_zero hder
    have e : ∑ j, d j * (g j - mu j) = (g i - mu i) - (g k - mu k) := by
      simp [hd, sub_mul, Finset.sum_sub_distrib, Pi.single_apply]
    linarith
  -- the common difference
  have hsum : ∑ k, psi k * (g k - mu k) = g i - mu i := by
    have : ∀ k, psi k * (g k - mu k) = psi k * (g i - mu i) := fun k => by rw [key k]
    rw [Finset.sum_congr rfl fun k _ => this k, ← Finset.sum_mul, h1, one_mul]
  have hgs : ∑ k, psi k * g k = freeEnergy chis l psi +
      1 / 2 * (∑ j, ∑ k, chis j k * psi j * psi k) + ∑ j, psi j / l j := by
    unfold freeEnergy
    have e1 : ∀ k, psi k * g k = psi k * Real.log (psi k) / l k + psi k / l k +
        ∑ j, chis k j * psi k * psi j := fun k => by
      rw [hg]
      simp only
      rw [mul_add, Finset.mul_sum]
      congr 1
      · ring
      · exact Finset.sum_congr rfl fun j _ => by ring
    rw [Finset.sum_congr rfl fun k _ => e1 k, Finset.sum_add_distrib, Finset.sum_add_distrib]
    ring
  have hmu : ∑ k, psi k * mu k = freeEnergy chis l psi := by
    rw [hv]
    exact Finset.sum_congr rfl fun k _ => mul_comm _ _
  simp only [mul_sub, Finset.sum_sub_distrib] at hsum
  rw [hgs, hmu] at hsum
  unfold chemPot
  have hgi : g i = (Real.log (psi i) + 1) / l i + ∑ k, chis i k * psi k := rfl
  rw [hgi] at hsum
  linarith

/-- The free energy is the sum of the chemical potentials. -/
theorem freeEnergy_eq_chemPot {psi : Vec C ℝ} (h1 : ∑ i, psi i = 1) :
    freeEnergy chis l psi = ∑ i, chemPot chis l psi i * psi i := by
  unfold freeEnergy chemPot
  have e1 : ∀ k, ((Real.log (psi k) + 1) / l k + ∑ j, chis k j * psi j
      - 1 / 2 * (∑ j, ∑ k, chis j k * psi j * psi k) - ∑ j, psi j / l j) * psi k =
      psi k * Real.log (psi k) / l k + psi k / l k + (∑ j, chis k j * psi k * psi j)
      - (1 / 2 * (∑ j, ∑ k, chis j k * psi j * psi k) + ∑ j, psi j / l j) * psi k := fun k => by
    have : ∑ j, chis k j * psi k * psi j = (∑ j, chis k j * psi j) * psi k := by
      rw [Finset.sum_mul]
      exact Finset.sum_congr rfl fun j _ => by ring
    rw [this]
    ring
  rw [Finset.sum_congr rfl fun k _ => e1 k, Finset.sum_sub_distrib, Finset.sum_add_distrib,
    Finset.sum_add_distrib, ← Finset.mul_sum, h1]
  ring

end Plane

end Flory
