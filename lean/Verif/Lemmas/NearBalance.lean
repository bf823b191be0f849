import Verif.Spec.Balance
import Mathlib.Analysis.SpecialFunctions.Log.Basic
import Mathlib.Topology.Algebra.Order.LiminfLimsup
import Mathlib.Topology.MetricSpace.Sequences
import Mathlib.Topology.Order.Compact
import Mathlib.Topology.MetricSpace.ProperSpace
import Mathlib.Analysis.Normed.Group.Bounded

/-! # Limits of approximately balanced phases -/

set_option linter.unusedSectionVars false

namespace Flory

open Spec Filter Topology

variable {C : ℕ} {ι : Type} [Finite ι]

/-- The part of the chemical potential without the logarithm. -/
theorem chemPot_split (chis : Mat C C ℝ) (l : Vec C ℝ) (i : Fin C) :
    ∃ R : Vec C ℝ → ℝ, Continuous R ∧ ∀ x, chemPot chis l x i = Real.log (x i) / l i + R x := by
  refine ⟨fun x => 1 / l i + ∑ j, chis i j * x j
    - 1 / 2 * (∑ j, ∑ k, chis j k * x j * x k) - ∑ j, x j / l j, ?_, fun x => ?_⟩
  · fun_prop
  · unfold chemPot
    ring

theorem limit_balanced {chis : Mat C C ℝ} {l : Vec C ℝ} (hl : ∀ i, 0 < l i)
    {u : ℕ → ι → Vec C ℝ} {v : ι → Vec C ℝ} {δ : ℕ → ℝ} (hu : Tendsto u atTop (𝓝 v))
    (hδ : Tendsto δ atTop (𝓝 0)) (hb : ∀ n, NearBalanced chis l (δ n) (u n))
    (hex : ∀ i, ∃ p, 0 < v p i) : Balanced chis l v := by
  have hup : ∀ p, Tendsto (fun n => u n p) atTop (𝓝 (v p)) := fun p =>
    ((continuous_apply p).tendsto v).comp hu
  have hupi : ∀ p i, Tendsto (fun n => u n p i) atTop (𝓝 (v p i)) := fun p i =>
    ((continuous_apply i).tendsto (v p)).comp (hup p)
  have hdiff : ∀ p q i, Tendsto (fun n => chemPot chis l (u n p) i - chemPot chis l (u n q) i) atTop
      (𝓝 0) := fun p q i => squeeze_zero_norm (fun n => (hb n).balance p q i) hδ
  have hnn : ∀ p i, 0 ≤ v p i := fun p i =>
    ge_of_tendsto' (hupi p i) fun n => ((hb n).pos p i).le
  -- convergence of chemical potentials where the limit is positive
  have hconv : ∀ p i, 0 < v p i →
      Tendsto (fun n => chemPot chis l (u n p) i) atTop (𝓝 (chemPot chis l (v p) i)) := by
    intro p i hp
    obtain ⟨R, hR, hRe⟩ := chemPot_split chis l i
    simp only [hRe]
    exact (((Real.continuousAt_log hp.ne').tendsto.comp (hupi p i)).div_const _).add
      ((hR.tendsto (v p)).comp (hup p))
  have hpos : ∀ q i, 0 < v q i := by
    intro q i
    obtain ⟨p, hp⟩ := hex i
    refine lt_of_le_of_ne (hnn q i) fun h0 => ?_
    obtain ⟨R, hR, hRe⟩ := chemPot_split chis l i
    have h1 : Tendsto (fun n => chemPot chis l (u n q) i) atTop (𝓝 (chemPot chis l (v p) i)) := by
      have := (hconv p i hp).sub (hdiff p q i)
      simpa using this
    have h2 : Tendsto (fun n => Real.log (u n q i) / l i) atTop
        (𝓝 (chemPot chis l (v p) i - R (v q))) := by
      have := h1.sub ((hR.tendsto (v q)).comp (hup q))
      refine this.congr fun n => ?_
      simp only [hRe, Function.comp_apply, add_sub_cancel_right]
    have h3 : Tendsto (fun n => u n q i) atTop (𝓝[>] 0) :=
      tendsto_nhdsWithin_iff.mpr ⟨h0 ▸ hupi q i, Eventually.of_forall fun n => (hb n).pos q i⟩
    have h4 : Tendsto (fun n => Real.log (u n q i) / l i) atTop atBot :=
      (Real.tendsto_log_nhdsGT_zero.comp h3).atBot_div_const (hl i)
    exact not_tendsto_nhds_of_tendsto_atBot h4 _ h2
  refine ⟨hpos, fun p => ?_, fun p q i => ?_⟩
  · have h1 : Tendsto (fun n => ∑ i, u n p i - 1) atTop (𝓝 (∑ i, v p i - 1)) :=
      (tendsto_finsetSum _ fun i _ => hupi p i).sub_const 1
    have h2 : Tendsto (fun n => ∑ i, u n p i - 1) atTop (𝓝 0) :=
      squeeze_zero_norm (fun n => (hb n).fill p) hδ
    have := tendsto_nhds_unique h1 h2
    linarith
  · have h1 := (hconv p i (hpos p i)).sub (hconv q i (hpos q i))
    have := tendsto_nhds_unique h1 (hdiff p q i)
    linarith

/-- A property of balanced phases in a closed region survives small errors: if the region `X` contains
no balanced phases, though every component is present somewhere in each of its members, then it
contains no nearly balanced ones. -/
theorem near_balanced_empty {chis : Mat C C ℝ} {l : Vec C ℝ} (hl : ∀ i, 0 < l i)
    {X : Set (ι → Vec C ℝ)} (hX : IsClosed X)
    (hex : ∀ v ∈ X, (∀ p i, 0 ≤ v p i) → (∀ p, ∑ i, v p i = 1) → ∀ i, ∃ p, 0 < v p i)
    (hno : ∀ v ∈ X, ¬ Balanced chis l v) :
    ∃ δ : ℝ, 0 < δ ∧ ∀ v ∈ X, ¬ NearBalanced chis l δ v := by
  by_contra hcon
  push Not at hcon
  have : ∀ n : ℕ, ∃ v ∈ X, NearBalanced chis l (1 / ((n : ℝ) + 1)) v := fun n =>
    hcon _ (by positivity)
  choose u huX hub using this
  have hbox : ∀ n, u n ∈ Set.pi Set.univ fun _ : ι => Set.pi Set.univ fun _ : Fin C => Set.Icc (0 : ℝ) 2 := by
    intro n p _ i _
    refine ⟨((hub n).pos p i).le, ?_⟩
    have h1 : u n p i ≤ ∑ j, u n p j :=
      Finset.single_le_sum (f := fun j => u n p j) (fun j _ => ((hub n).pos p j).le) (Finset.mem_univ i)
    have h2 := (abs_le.mp ((hub n).fill p)).2
    have h3 : 1 / ((n : ℝ) + 1) ≤ 1 := by
      rw [div_le_one (by positivity)]
      linarith [Nat.cast_nonneg (α := ℝ) n]
    linarith
  have hcomp : IsCompact (Set.pi Set.univ fun _ : ι => Set.pi Set.univ fun _ : Fin C => Set.Icc (0 : ℝ) 2) :=
    isCompact_univ_pi fun _ => isCompact_univ_pi fun _ => isCompact_Icc
  obtain ⟨v, -, φ, hφ, hlim⟩ := hcomp.tendsto_subseq hbox
  have hδ : Tendsto (fun n => 1 / (((φ n : ℕ) : ℝ) + 1)) atTop (𝓝 0) :=
    tendsto_one_div_add_atTop_nhds_zero_nat.comp hφ.tendsto_atTop
  have hvX : v ∈ X := hX.mem_of_tendsto hlim (Eventually.of_forall fun n => huX _)
  have hvp : ∀ p, Tendsto (fun n => u (φ n) p) atTop (𝓝 (v p)) := fun p =>
    ((continuous_apply p).tendsto v).comp hlim
  have hvpi : ∀ p i, Tendsto (fun n => u (φ n) p i) atTop (𝓝 (v p i)) := fun p i =>
    ((continuous_apply i).tendsto (v p)).comp (hvp p)
  refine hno v hvX (limit_balanced (u := fun n => u (φ n)) hl hlim hδ (fun n => hub (φ n)) ?_)
  refine hex v hvX (fun p i => ge_of_tendsto' (hvpi p i) fun n => ((hub _).pos p i).le) fun p => ?_
  have h1 : Tendsto (fun n => ∑ i, u (φ n) p i - 1) atTop (𝓝 (∑ i, v p i - 1)) :=
    (tendsto_finsetSum _ fun i _ => hvpi p i).sub_const 1
  have h2 : Tendsto (fun n => ∑ i, u (φ n) p i - 1) atTop (𝓝 0) :=
    squeeze_zero_norm (fun n => (hub (φ n)).fill p) hδ
  have := tendsto_nhds_unique h1 h2
  linarith

end Flory
