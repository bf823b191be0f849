import Verif.Lemmas.SeparatedLinear
import Mathlib.Analysis.Calculus.ContDiff.RCLike
import Mathlib.Analysis.SpecialFunctions.Log.Deriv
import Mathlib.Analysis.SpecialFunctions.ExpDeriv
import Mathlib.Analysis.Calculus.Deriv.Inv
import Mathlib.Analysis.Calculus.Deriv.Add
import Mathlib.Analysis.Calculus.Deriv.Prod

/-! # The change of fractions and volumes in a pass, near separated phases -/

set_option linter.unusedSectionVars false

namespace Flory

open Finset

section Step

variable {E Y : Type} [NormedAddCommGroup E] [NormedSpace ℝ E] [ProperSpace E] [NormedAddCommGroup Y]
  [NormedSpace ℝ Y]

theorem form_perturb {Q : E → ℝ} (hc : Continuous Q) (hh : ∀ (t : ℝ) w, Q (t • w) = t ^ 2 * Q w)
    {L η : ℝ} (hη : 0 < η) : ∃ ε > 0, ∀ w u e : E, ‖u‖ ≤ L * ‖w‖ → ‖e‖ ≤ ε * ‖w‖ →
      Q (u + e) ≤ Q u + η * ‖w‖ ^ 2 := by
  have hu := (isCompact_closedBall (0 : E) (L + 1)).uniformContinuousOn_of_continuous hc.continuousOn
  obtain ⟨δ, hδ, h⟩ := Metric.uniformContinuousOn_iff.mp hu η hη
  refine ⟨min (δ / 2) 1, by positivity, fun w u e hu he => ?_⟩
  by_cases hw : w = 0
  · subst hw
    have h1 : u = 0 := by simpa using hu
    have h2 : e = 0 := by simpa using he
    simp [h1, h2]
  have hn : 0 < ‖w‖ := norm_pos_iff.mpr hw
  set s := ‖w‖⁻¹ with hs
  have hs0 : 0 < s := inv_pos.mpr hn
  have hsn : s * ‖w‖ = 1 := inv_mul_cancel₀ hn.ne'
  have h1 : ‖s • u‖ ≤ L := by
    rw [norm_smul, Real.norm_of_nonneg hs0.le]
    calc s * ‖u‖ ≤ s * (L * ‖w‖) := by gcongr
      _ = L * (s * ‖w‖) := by ring
      _ = L := by rw [hsn, mul_one]
  have h2 : ‖s • e‖ ≤ min (δ / 2) 1 := by
    rw [norm_smul, Real.norm_of_nonneg hs0.le]
    calc s * ‖e‖ ≤ s * (min (δ / 2) 1 * ‖w‖) := by gcongr
      _ = min (δ / 2) 1 * (s * ‖w‖) := by ring
      _ = _ := by rw [hsn, mul_one]
  have h3 := h (s • (u + e)) (by
      rw [mem_closedBall_zero_iff, smul_add]
      exact (norm_add_le _ _).trans (add_le_add h1 (h2.trans (min_le_right _ _)))) (s • u) (by
      rw [mem_closedBall_zero_iff]; linarith) (by
      rw [smul_add, dist_eq_norm, add_sub_cancel_left]
      exact (h2.trans (min_le_left _ _)).trans_lt (by linarith))
  rw [Real.dist_eq, hh, hh] at h3
  have h4 := (abs_lt.mp h3).2
  have h5 : s ^ 2 * (Q (u + e) - Q u) < η := by linarith
  have h6 : s ^ 2 * ‖w‖ ^ 2 = 1 := by rw [← mul_pow, hsn, one_pow]
  have h7 : Q (u + e) - Q u = ‖w‖ ^ 2 * (s ^ 2 * (Q (u + e) - Q u)) := by
    calc _ = (s ^ 2 * ‖w‖ ^ 2) * (Q (u + e) - Q u) := by rw [h6, one_mul]
      _ = _ := by ring
  have h8 : ‖w‖ ^ 2 * (s ^ 2 * (Q (u + e) - Q u)) ≤ ‖w‖ ^ 2 * η := by gcongr
  linarith

/-- A map with a strict derivative that has zeros along the second variable. -/
theorem strict_near {E' : Type} [NormedAddCommGroup E'] [NormedSpace ℝ E'] {Φ : E × Y → E'}
    {D : E × Y →L[ℝ] E'} {y₀ : Y} (hD : HasStrictFDerivAt Φ D (0, y₀)) {δ₀ : ℝ} (hδ₀ : 0 < δ₀)
    (h0 : ∀ y, ‖y - y₀‖ < δ₀ → Φ (0, y) = 0) {ε : ℝ} (hε : 0 < ε) :
    ∃ δ > 0, ∀ w y, ‖w‖ ≤ δ → ‖y - y₀‖ ≤ δ → ‖Φ (w, y) - D (w, 0)‖ ≤ ε * ‖w‖ := by
  have h1 := (hD.isLittleO.bound hε)
  rw [Metric.eventually_nhds_iff] at h1
  obtain ⟨δ, hδ, h⟩ := h1
  refine ⟨min (δ / 2) (δ₀ / 2), by positivity, fun w y hw hy => ?_⟩
  have hw' := hw.trans (min_le_left _ _)
  have hy' := hy.trans (min_le_left _ _)
  have h2 := h (y := ((w, y), (0, y))) (by
    rw [Prod.dist_eq, Prod.dist_eq, Prod.dist_eq]
    simp only [dist_zero_right, dist_self, dist_eq_norm y y₀]
    refine max_lt (max_lt ?_ ?_) (max_lt hδ ?_) <;> linarith)
  rw [h0 y ((hy.trans (min_le_right _ _)).trans_lt (by linarith)), sub_zero] at h2
  simpa using h2

theorem strict_lipschitz {E' : Type} [NormedAddCommGroup E'] [NormedSpace ℝ E'] {Φ : E × Y → E'}
    {D : E × Y →L[ℝ] E'} {y₀ : Y} (hD : HasStrictFDerivAt Φ D (0, y₀)) {δ₀ : ℝ} (hδ₀ : 0 < δ₀)
    (h0 : ∀ y, ‖y - y₀‖ < δ₀ → Φ (0, y) = 0) :
    ∃ L > 0, ∃ δ > 0, ∀ w y, ‖w‖ ≤ δ → ‖y - y₀‖ ≤ δ → ‖Φ (w, y)‖ ≤ L * ‖w‖ := by
  obtain ⟨δ, hδ, h⟩ := strict_near hD hδ₀ h0 one_pos
  refine ⟨‖D‖ + 1, by positivity, δ, hδ, fun w y hw hy => ?_⟩
  have h1 := h w y hw hy
  have h2 : ‖D (w, 0)‖ ≤ ‖D‖ * ‖w‖ := by
    refine (D.le_opNorm _).trans ?_
    rw [Prod.norm_def, norm_zero, max_eq_left (norm_nonneg w)]
  have h3 := norm_add_le (Φ (w, y) - D (w, 0)) (D (w, 0))
  rw [sub_add_cancel] at h3
  linarith

/-- A form that decreases under the derivative decreases under the map. -/
theorem strict_decrease {Φ : E × Y → E} {D : E × Y →L[ℝ] E} {y₀ : Y}
    (hD : HasStrictFDerivAt Φ D (0, y₀)) {δ₀ : ℝ} (hδ₀ : 0 < δ₀)
    (h0 : ∀ y, ‖y - y₀‖ < δ₀ → Φ (0, y) = 0) {Q : E → ℝ} (hc : Continuous Q)
    (hh : ∀ (t : ℝ) w, Q (t • w) = t ^ 2 * Q w) {v γ : ℝ} (hv : 0 < v) (hγ : 0 < γ)
    (hco : ∀ w, v * ‖w‖ ^ 2 ≤ Q w) {K : Set E} (hdec : ∀ w ∈ K, Q (D (w, 0)) ≤ (1 - γ) * Q w) :
    ∃ δ > 0, ∀ w ∈ K, ∀ y, ‖w‖ ≤ δ → ‖y - y₀‖ ≤ δ → Q (Φ (w, y)) ≤ (1 - γ / 2) * Q w := by
  obtain ⟨ε, hε, hp⟩ := form_perturb hc hh (L := ‖D‖) (η := v * γ / 2) (by positivity)
  obtain ⟨δ, hδ, h⟩ := strict_near hD hδ₀ h0 hε
  refine ⟨δ, hδ, fun w hw y h1 h2 => ?_⟩
  have h3 := hp w (D (w, 0)) (Φ (w, y) - D (w, 0)) (by
    refine (D.le_opNorm _).trans ?_
    rw [Prod.norm_def, norm_zero, max_eq_left (norm_nonneg w)]) (h w y h1 h2)
  rw [add_sub_cancel] at h3
  have h4 := hdec w hw
  have h5 := mul_le_mul_of_nonneg_left (hco w) (show 0 ≤ γ / 2 by positivity)
  linarith

end Step

namespace Sep

variable {C S M : ℕ} [NeZero M] [NeZero S]
variable (X : Mat C C ℝ) (l : Vec C ℝ) (σ : Fin S → Fin C) (a b c : ℝ)

/-- Interaction and translational part of the chemical potentials. -/
noncomputable def pot (φ : Mat C M ℝ) (i : Fin C) (m : Fin M) : ℝ :=
  ∑ j, X i j * φ j m + Real.log (φ i m) / l i

/-- The multiplier of incompressibility, up to a constant. -/
noncomputable def mult (φ : Mat C M ℝ) (m : Fin M) : ℝ :=
  c / S * (∑ i, φ i m - 1) - (∑ r, pot X l φ (σ r) m) / S

/-- The change of the fields, up to a constant for each component. -/
noncomputable def drive (φ : Mat C M ℝ) (i : Fin C) (m : Fin M) : ℝ :=
  pot X l φ i m + mult X l σ c φ m

/-- The quantity that drives the volumes, up to a constant. -/
noncomputable def eta (φ : Mat C M ℝ) (m : Fin M) : ℝ :=
  1 / 2 * (∑ i, ∑ j, X i j * φ i m * φ j m) + ∑ i, φ i m / l i + mult X l σ c φ m

/-- Volumes after a pass. -/
noncomputable def nextJ (φ : Mat C M ℝ) (J : Vec M ℝ) (m : Fin M) : ℝ :=
  J m + b * (eta X l σ c φ m - (∑ n, eta X l σ c φ n) / M)

/-- Boltzmann factor of the change of the fields. -/
noncomputable def weight (φ : Mat C M ℝ) (i : Fin C) (m : Fin M) : ℝ :=
  Real.exp (-(l i * a * drive X l σ c φ i m))

/-- Fractions after a pass. -/
noncomputable def nextPhi (φ : Mat C M ℝ) (J : Vec M ℝ) (i : Fin C) (m : Fin M) : ℝ :=
  φ i m * weight X l σ a c φ i m * (∑ n, J n * φ i n) /
    ∑ n, nextJ X l σ b c φ J n * (φ i n * weight X l σ a c φ i n)

variable (J₀ : Vec M ℝ) (φ₀ : Mat C M ℝ)

/-- Fractions that belong to a deviation of the amounts. -/
noncomputable def fracs (w : Mat C M ℝ) (J : Vec M ℝ) : Mat C M ℝ := fun i m => φ₀ i m + J₀ m * w i m / J m

/-- Deviation of the amounts after a pass. -/
noncomputable def devNext (p : Mat C M ℝ × Vec M ℝ) : Mat C M ℝ := fun i m =>
  nextJ X l σ b c (fracs J₀ φ₀ p.1 p.2) p.2 m / J₀ m *
    (nextPhi X l σ a b c (fracs J₀ φ₀ p.1 p.2) p.2 i m - φ₀ i m)

/-- Change of the volumes in a pass. -/
noncomputable def volNext (p : Mat C M ℝ × Vec M ℝ) : Vec M ℝ := fun m =>
  nextJ X l σ b c (fracs J₀ φ₀ p.1 p.2) p.2 m - p.2 m

variable {X l σ J₀ φ₀}

/-- Phases with equal chemical potentials. -/
structure Balanced (X : Mat C C ℝ) (l : Vec C ℝ) (φ₀ : Mat C M ℝ) : Prop where
  balance : ∃ mu : Vec C ℝ, ∀ i m, pot X l φ₀ i m =
    mu i + (1 / 2 * (∑ i, ∑ j, X i j * φ₀ i m * φ₀ j m) + ∑ i, φ₀ i m / l i)

variable (hp : StablePhases X l J₀ φ₀) (hb : Balanced X l φ₀)
include hp hb

theorem balanced_drive : ∃ (d : Vec C ℝ) (e : ℝ), (∀ i m, drive X l σ c φ₀ i m = d i) ∧
    ∀ m, eta X l σ c φ₀ m = e := by
  obtain ⟨mu, h⟩ := hb.balance
  have hS : (S : ℝ) ≠ 0 := by exact_mod_cast NeZero.ne S
  have e1 : ∀ m, mult X l σ c φ₀ m = -(∑ r, mu (σ r)) / S -
      (1 / 2 * (∑ i, ∑ j, X i j * φ₀ i m * φ₀ j m) + ∑ i, φ₀ i m / l i) := fun m => by
    unfold mult
    simp only [h]
    rw [hp.sum, sum_add_distrib]
    simp
    field_simp
    ring
  refine ⟨fun i => mu i - (∑ r, mu (σ r)) / S, -(∑ r, mu (σ r)) / S, fun i m => ?_, fun m => ?_⟩
  · unfold drive
    rw [h, e1]
    ring
  · unfold eta
    rw [e1]
    ring

omit hp hb in
theorem fracs_zero (J : Vec M ℝ) : fracs J₀ φ₀ 0 J = φ₀ := by
  funext i m
  simp [fracs]

theorem volNext_zero (J : Vec M ℝ) : volNext X l σ b c J₀ φ₀ (0, J) = 0 := by
  have hM : (M : ℝ) ≠ 0 := by exact_mod_cast NeZero.ne M
  obtain ⟨d, e, -, h2⟩ := balanced_drive (σ := σ) c hp hb
  funext m
  simp only [volNext, nextJ, fracs_zero, h2]
  simp [hM]

theorem devNext_zero {J : Vec M ℝ} (hJ : ∀ m, 0 < J m) : devNext X l σ a b c J₀ φ₀ (0, J) = 0 := by
  obtain ⟨d, e, h1, -⟩ := balanced_drive (σ := σ) c hp hb
  funext i m
  have hv := volNext_zero (σ := σ) b c hp hb J
  have hJ' : ∀ n, nextJ X l σ b c φ₀ J n = J n := fun n => by
    have := congrFun hv n
    simp only [volNext, fracs_zero, Pi.zero_apply] at this
    linarith
  simp only [devNext, fracs_zero, nextPhi, hJ', weight, h1]
  set E := Real.exp (-(l i * a * d i)) with hE
  have hE0 : E ≠ 0 := (Real.exp_pos _).ne'
  have h0 : ∑ n, J n * φ₀ i n ≠ 0 :=
    (sum_pos (fun n _ => mul_pos (hJ n) (hp.pos i n)) univ_nonempty).ne'
  have e1 : ∑ n, J n * (φ₀ i n * E) = (∑ n, J n * φ₀ i n) * E := by
    rw [sum_mul]; exact sum_congr rfl fun n _ => by ring
  rw [e1]
  have : φ₀ i m * E * (∑ n, J n * φ₀ i n) / ((∑ n, J n * φ₀ i n) * E) = φ₀ i m := by field_simp
  rw [this]
  simp

omit hb in
theorem fracs_contDiffAt (i : Fin C) (m : Fin M) :
    ContDiffAt ℝ 1 (fun p : Mat C M ℝ × Vec M ℝ => fracs J₀ φ₀ p.1 p.2 i m) (0, J₀) := by
  have h1 : ContDiffAt ℝ 1 (fun p : Mat C M ℝ × Vec M ℝ => p.1 i m) (0, J₀) :=
    contDiffAt_pi.mp (contDiffAt_pi.mp contDiffAt_fst i) m
  have h2 : ContDiffAt ℝ 1 (fun p : Mat C M ℝ × Vec M ℝ => p.2 m) (0, J₀) :=
    contDiffAt_pi.mp contDiffAt_snd m
  exact contDiffAt_const.add ((contDiffAt_const.mul h1).div h2 (hp.vol m).ne')

omit hb in
theorem pot_contDiffAt (i : Fin C) (m : Fin M) :
    ContDiffAt ℝ 1 (fun p : Mat C M ℝ × Vec M ℝ => pot X l (fracs J₀ φ₀ p.1 p.2) i m) (0, J₀) := by
  unfold pot
  refine (ContDiffAt.sum fun j _ => contDiffAt_const.mul (fracs_contDiffAt hp j m)).add
    (((fracs_contDiffAt hp i m).log ?_).div_const _)
  simpa [fracs] using (hp.pos i m).ne'

omit hb in
theorem mult_contDiffAt (m : Fin M) :
    ContDiffAt ℝ 1 (fun p : Mat C M ℝ × Vec M ℝ => mult X l σ c (fracs J₀ φ₀ p.1 p.2) m) (0, J₀) := by
  unfold mult
  exact (contDiffAt_const.mul ((ContDiffAt.sum fun j _ => fracs_contDiffAt hp j m).sub contDiffAt_const)).sub
    ((ContDiffAt.sum fun r _ => pot_contDiffAt hp (σ r) m).div_const _)

omit hb in
theorem weight_contDiffAt (i : Fin C) (m : Fin M) :
    ContDiffAt ℝ 1 (fun p : Mat C M ℝ × Vec M ℝ => weight X l σ a c (fracs J₀ φ₀ p.1 p.2) i m) (0, J₀) := by
  unfold weight drive
  exact (contDiffAt_const.mul ((pot_contDiffAt hp i m).add (mult_contDiffAt c hp m))).neg.exp

omit hb in
theorem eta_contDiffAt (m : Fin M) :
    ContDiffAt ℝ 1 (fun p : Mat C M ℝ × Vec M ℝ => eta X l σ c (fracs J₀ φ₀ p.1 p.2) m) (0, J₀) := by
  unfold eta
  refine ((contDiffAt_const.mul (ContDiffAt.sum fun i _ => ContDiffAt.sum fun j _ => ?_)).add
    (ContDiffAt.sum fun i _ => (fracs_contDiffAt hp i m).div_const _)).add (mult_contDiffAt c hp m)
  exact (contDiffAt_const.mul (fracs_contDiffAt hp i m)).mul (fracs_contDiffAt hp j m)

omit hb in
theorem nextJ_contDiffAt (m : Fin M) :
    ContDiffAt ℝ 1 (fun p : Mat C M ℝ × Vec M ℝ => nextJ X l σ b c (fracs J₀ φ₀ p.1 p.2) p.2 m) (0, J₀) := by
  unfold nextJ
  exact (contDiffAt_pi.mp contDiffAt_snd m).add (contDiffAt_const.mul ((eta_contDiffAt c hp m).sub
    ((ContDiffAt.sum fun n _ => eta_contDiffAt c hp n).div_const _)))

theorem den_ne (i : Fin C) :
    ∑ n, nextJ X l σ b c (fracs J₀ φ₀ 0 J₀) J₀ n *
      (fracs J₀ φ₀ 0 J₀ i n * weight X l σ a c (fracs J₀ φ₀ 0 J₀) i n) ≠ 0 := by
  have hv := volNext_zero (σ := σ) b c hp hb J₀
  have hJ' : ∀ n, nextJ X l σ b c φ₀ J₀ n = J₀ n := fun n => by
    have := congrFun hv n
    simp only [volNext, fracs_zero, Pi.zero_apply] at this
    linarith
  simp only [fracs_zero, hJ']
  exact (sum_pos (fun n _ => mul_pos (hp.vol n) (mul_pos (hp.pos i n) (Real.exp_pos _)))
    univ_nonempty).ne'

theorem nextPhi_contDiffAt (i : Fin C) (m : Fin M) :
    ContDiffAt ℝ 1 (fun p : Mat C M ℝ × Vec M ℝ => nextPhi X l σ a b c (fracs J₀ φ₀ p.1 p.2) p.2 i m)
      (0, J₀) := by
  unfold nextPhi
  refine (((fracs_contDiffAt hp i m).mul (weight_contDiffAt a c hp i m)).mul
    (ContDiffAt.sum fun n _ => (contDiffAt_pi.mp contDiffAt_snd n).mul (fracs_contDiffAt hp i n))).div
    (ContDiffAt.sum fun n _ => (nextJ_contDiffAt b c hp n).mul
      ((fracs_contDiffAt hp i n).mul (weight_contDiffAt a c hp i n))) ?_
  exact den_ne a b c hp hb i

theorem devNext_contDiffAt : ContDiffAt ℝ 1 (devNext X l σ a b c J₀ φ₀) (0, J₀) := by
  refine contDiffAt_pi.mpr fun i => contDiffAt_pi.mpr fun m => ?_
  exact ((nextJ_contDiffAt b c hp m).div_const _).mul ((nextPhi_contDiffAt a b c hp hb i m).sub
    contDiffAt_const)

omit hb in
theorem volNext_contDiffAt : ContDiffAt ℝ 1 (volNext X l σ b c J₀ φ₀) (0, J₀) :=
  contDiffAt_pi.mpr fun m => (nextJ_contDiffAt b c hp m).sub (contDiffAt_pi.mp contDiffAt_snd m)

omit hb in
theorem fracs_line (w : Mat C M ℝ) (i : Fin C) (m : Fin M) :
    HasDerivAt (fun t : ℝ => fracs J₀ φ₀ (t • w) J₀ i m) (w i m) 0 := by
  have e : (fun t : ℝ => fracs J₀ φ₀ (t • w) J₀ i m) = fun t => φ₀ i m + t * w i m := by
    funext t
    have := (hp.vol m).ne'
    simp only [fracs, Pi.smul_apply, smul_eq_mul]
    field_simp
  rw [e]
  simpa using ((hasDerivAt_id (0 : ℝ)).mul_const (w i m)).const_add (φ₀ i m)

omit hb in
theorem pot_line (w : Mat C M ℝ) (i : Fin C) (m : Fin M) :
    HasDerivAt (fun t : ℝ => pot X l (fracs J₀ φ₀ (t • w) J₀) i m) (hess X l φ₀ w i m) 0 := by
  have h1 := (HasDerivAt.fun_sum fun j (_ : j ∈ univ) => (fracs_line hp w j m).const_mul (X i j)).add
    (((fracs_line hp w i m).log (by simpa [fracs] using (hp.pos i m).ne')).div_const (l i))
  refine h1.congr_deriv ?_
  unfold hess
  have := (hp.pos i m).ne'
  have := (hp.size i).ne'
  simp [fracs]
  field_simp

omit hb in
theorem mult_line (w : Mat C M ℝ) (m : Fin M) :
    HasDerivAt (fun t : ℝ => mult X l σ c (fracs J₀ φ₀ (t • w) J₀) m)
      (c / S * tot w m - avg X l φ₀ σ w m) 0 := by
  have h1 := (((HasDerivAt.fun_sum fun j (_ : j ∈ univ) => fracs_line hp w j m).sub_const 1).const_mul
    (c / S)).sub ((HasDerivAt.fun_sum fun r (_ : r ∈ univ) => pot_line hp w (σ r) m).div_const (S : ℝ))
  refine h1.congr_deriv ?_
  unfold tot avg
  ring

omit hb in
theorem drive_line (w : Mat C M ℝ) (i : Fin C) (m : Fin M) :
    HasDerivAt (fun t : ℝ => drive X l σ c (fracs J₀ φ₀ (t • w) J₀) i m) (force X l φ₀ σ c w i m) 0 := by
  refine ((pot_line hp w i m).add (mult_line c hp w m)).congr_deriv ?_
  unfold force
  ring

omit hb in
theorem eta_line (w : Mat C M ℝ) (m : Fin M) :
    HasDerivAt (fun t : ℝ => eta X l σ c (fracs J₀ φ₀ (t • w) J₀) m)
      (∑ i, φ₀ i m * force X l φ₀ σ c w i m) 0 := by
  have h1 := (((HasDerivAt.fun_sum fun i (_ : i ∈ univ) => HasDerivAt.fun_sum fun j (_ : j ∈ univ) =>
    ((fracs_line hp w i m).const_mul (X i j)).mul (fracs_line hp w j m)).const_mul (1 / 2 : ℝ)).add
    (HasDerivAt.fun_sum fun i (_ : i ∈ univ) => (fracs_line hp w i m).div_const (l i))).add
    (mult_line (σ := σ) c hp w m)
  refine h1.congr_deriv ?_
  have hf : ∀ i n, fracs J₀ φ₀ ((0 : ℝ) • w) J₀ i n = φ₀ i n := fun i n => by simp [fracs]
  simp only [hf]
  have e1 : ∀ i, φ₀ i m * force X l φ₀ σ c w i m = φ₀ i m * (∑ j, X i j * w j m) + w i m / l i +
      φ₀ i m * (c / S * tot w m - avg X l φ₀ σ w m) := fun i => by
    have := (hp.pos i m).ne'
    have := (hp.size i).ne'
    unfold force hess
    field_simp
    ring
  simp only [e1]
  rw [sum_add_distrib, sum_add_distrib, ← sum_mul, hp.sum, one_mul]
  congr 2
  simp only [mul_sum, sum_add_distrib, mul_add]
  have e2 : ∑ i, ∑ j, 1 / 2 * (X i j * w i m * φ₀ j m) = ∑ i, ∑ j, 1 / 2 * (X i j * φ₀ i m * w j m) := by
    rw [sum_comm]
    refine sum_congr rfl fun i _ => sum_congr rfl fun j _ => ?_
    rw [hp.symm j i]
    ring
  rw [e2, ← sum_add_distrib]
  refine sum_congr rfl fun i _ => ?_
  rw [← sum_add_distrib]
  exact sum_congr rfl fun j _ => by ring

omit hb in
theorem nextJ_line {ρ : ℝ} (hρ : b = ρ * a) (w : Mat C M ℝ) (m : Fin M) :
    HasDerivAt (fun t : ℝ => nextJ X l σ b c (fracs J₀ φ₀ (t • w) J₀) J₀ m)
      (a * dvol X l φ₀ σ ρ c w m) 0 := by
  have h1 := (((eta_line (σ := σ) c hp w m).sub ((HasDerivAt.fun_sum fun n (_ : n ∈ univ) =>
    eta_line (σ := σ) c hp w n).div_const (M : ℝ))).const_mul b).const_add (J₀ m)
  refine h1.congr_deriv ?_
  unfold dvol
  rw [hρ]
  ring

theorem devNext_line {ρ : ℝ} (hρ : b = ρ * a) (w : Mat C M ℝ) :
    HasDerivAt (fun t : ℝ => devNext X l σ a b c J₀ φ₀ (t • w, J₀))
      (w - a • dphi X l J₀ φ₀ σ ρ c w) 0 := by
  obtain ⟨d, e, hd, -⟩ := balanced_drive (σ := σ) c hp hb
  have hv := volNext_zero (σ := σ) b c hp hb J₀
  have hJ' : ∀ n, nextJ X l σ b c φ₀ J₀ n = J₀ n := fun n => by
    have := congrFun hv n
    simp only [volNext, fracs_zero, Pi.zero_apply] at this
    linarith
  refine hasDerivAt_pi.mpr fun i => hasDerivAt_pi.mpr fun m => ?_
  have hz : fracs J₀ φ₀ ((0 : ℝ) • w) J₀ = φ₀ := by rw [zero_smul, fracs_zero]
  have hw : ∀ n, HasDerivAt (fun t : ℝ => weight X l σ a c (fracs J₀ φ₀ (t • w) J₀) i n)
      (Real.exp (-(l i * a * d i)) * -(l i * a * force X l φ₀ σ c w i n)) 0 := fun n => by
    have := ((drive_line (σ := σ) c hp w i n).const_mul (l i * a)).neg.exp
    refine this.congr_deriv ?_
    simp only [Pi.neg_apply, hz, hd]
  have hn := ((fracs_line hp w i m).fun_mul (hw m)).fun_mul (HasDerivAt.fun_sum fun n (_ : n ∈ univ) =>
    (fracs_line hp w i n).const_mul (J₀ n))
  have hden := HasDerivAt.fun_sum fun n (_ : n ∈ univ) =>
    (nextJ_line (σ := σ) a b c hp hρ w n).fun_mul ((fracs_line hp w i n).fun_mul (hw n))
  have hq := hn.fun_div hden (by
    have := den_ne (σ := σ) a b c hp hb i
    simpa only [zero_smul] using this)
  have hall := ((nextJ_line (σ := σ) a b c hp hρ w m).div_const (J₀ m)).fun_mul (hq.sub_const (φ₀ i m))
  refine hall.congr_deriv ?_
  have hwt : ∀ n, weight X l σ a c φ₀ i n = Real.exp (-(l i * a * d i)) := fun n => by
    rw [weight, hd]
  simp only [hz, hJ', hwt, Pi.sub_apply, Pi.smul_apply, smul_eq_mul]
  set E := Real.exp (-(l i * a * d i)) with hE
  have hE0 : E ≠ 0 := (Real.exp_pos _).ne'
  have hA : ∑ n, J₀ n * φ₀ i n ≠ 0 :=
    (sum_pos (fun n _ => mul_pos (hp.vol n) (hp.pos i n)) univ_nonempty).ne'
  have e1 : ∑ n, J₀ n * (φ₀ i n * E) = (∑ n, J₀ n * φ₀ i n) * E := by
    rw [sum_mul]; exact sum_congr rfl fun n _ => by ring
  have e2 : ∑ n, (a * dvol X l φ₀ σ ρ c w n * (φ₀ i n * E) +
      J₀ n * (w i n * E + φ₀ i n * (E * -(l i * a * force X l φ₀ σ c w i n)))) =
      E * (∑ n, J₀ n * w i n + a * (∑ n, dvol X l φ₀ σ ρ c w n * φ₀ i n -
        ∑ n, J₀ n * (l i * φ₀ i n * force X l φ₀ σ c w i n))) := by
    rw [← sum_sub_distrib, mul_sum, ← sum_add_distrib, mul_sum]
    exact sum_congr rfl fun n _ => by ring
  rw [e1, e2]
  have hl := (hp.size i).ne'
  have hJ := (hp.vol m).ne'
  unfold dphi rel dlog
  set A := ∑ n, J₀ n * φ₀ i n with hAdef
  field_simp
  ring

end Sep

end Flory
