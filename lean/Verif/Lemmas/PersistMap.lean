import Verif.Lemmas.Persist
import Verif.Lemmas.SeparatedLocal

/-! # Passes near stable phases whose interaction and compositions vary -/

set_option linter.unusedSectionVars false

namespace Flory

open Finset Spec

section Step

variable {E Y : Type} [NormedAddCommGroup E] [NormedSpace ℝ E] [ProperSpace E] [NormedAddCommGroup Y]
  [NormedSpace ℝ Y]

/-- A map with a strict derivative that vanishes for some values of the second variable. -/
theorem strict_near_on {E' : Type} [NormedAddCommGroup E'] [NormedSpace ℝ E'] {Φ : E × Y → E'}
    {D : E × Y →L[ℝ] E'} {y₀ : Y} (hD : HasStrictFDerivAt Φ D (0, y₀)) {Z : Set Y}
    (h0 : ∀ y ∈ Z, Φ (0, y) = 0) {ε : ℝ} (hε : 0 < ε) :
    ∃ δ > 0, ∀ w, ∀ y ∈ Z, ‖w‖ ≤ δ → ‖y - y₀‖ ≤ δ → ‖Φ (w, y) - D (w, 0)‖ ≤ ε * ‖w‖ := by
  have h1 := (hD.isLittleO.bound hε)
  rw [Metric.eventually_nhds_iff] at h1
  obtain ⟨δ, hδ, h⟩ := h1
  refine ⟨δ / 2, by positivity, fun w y hyZ hw hy => ?_⟩
  have h2 := h (y := ((w, y), (0, y))) (by
    rw [Prod.dist_eq, Prod.dist_eq, Prod.dist_eq]
    simp only [dist_zero_right, dist_self, dist_eq_norm y y₀]
    refine max_lt (max_lt ?_ ?_) (max_lt hδ ?_) <;> linarith)
  rw [h0 y hyZ, sub_zero] at h2
  simpa using h2

theorem opNorm_fst {E' : Type} [NormedAddCommGroup E'] [NormedSpace ℝ E'] (D : E × Y →L[ℝ] E') (w : E) :
    ‖D (w, 0)‖ ≤ ‖D‖ * ‖w‖ := by
  refine (D.le_opNorm _).trans ?_
  rw [Prod.norm_def, norm_zero, max_eq_left (norm_nonneg w)]

theorem strict_lipschitz_on {E' : Type} [NormedAddCommGroup E'] [NormedSpace ℝ E'] {Φ : E × Y → E'}
    {D : E × Y →L[ℝ] E'} {y₀ : Y} (hD : HasStrictFDerivAt Φ D (0, y₀)) {Z : Set Y}
    (h0 : ∀ y ∈ Z, Φ (0, y) = 0) :
    ∃ L > 0, ∃ δ > 0, ∀ w, ∀ y ∈ Z, ‖w‖ ≤ δ → ‖y - y₀‖ ≤ δ → ‖Φ (w, y)‖ ≤ L * ‖w‖ := by
  obtain ⟨δ, hδ, h⟩ := strict_near_on hD h0 one_pos
  refine ⟨‖D‖ + 1, by positivity, δ, hδ, fun w y hyZ hw hy => ?_⟩
  have h1 := h w y hyZ hw hy
  have h3 := norm_add_le (Φ (w, y) - D (w, 0)) (D (w, 0))
  rw [sub_add_cancel] at h3
  linarith [opNorm_fst D w]

/-- A form that decreases under the derivative along some directions decreases under the map along nearby
directions. -/
theorem strict_decrease_on {Φ : E × Y → E} {D : E × Y →L[ℝ] E} {y₀ : Y}
    (hD : HasStrictFDerivAt Φ D (0, y₀)) {Z : Set Y} (h0 : ∀ y ∈ Z, Φ (0, y) = 0) {Q : E → ℝ}
    (hc : Continuous Q) (hh : ∀ (t : ℝ) w, Q (t • w) = t ^ 2 * Q w) {v γ : ℝ} (hv : 0 < v) (hγ : 0 < γ)
    (hγ1 : γ ≤ 1) (hco : ∀ w, v * ‖w‖ ^ 2 ≤ Q w) {K : Set E}
    (hdec : ∀ w ∈ K, Q (D (w, 0)) ≤ (1 - γ) * Q w) :
    ∃ ε > 0, ∃ δ > 0, ∀ w, ∀ w' ∈ K, ‖w' - w‖ ≤ ε * ‖w‖ → ∀ y ∈ Z, ‖w‖ ≤ δ → ‖y - y₀‖ ≤ δ →
      Q (Φ (w, y)) ≤ (1 - γ / 2) * Q w := by
  obtain ⟨ε₁, hε₁, hp₁⟩ := form_perturb hc hh (L := 2 * ‖D‖) (η := v * γ / 4) (by positivity)
  obtain ⟨ε₂, hε₂, hp₂⟩ := form_perturb hc hh (L := 1) (η := v * γ / 4) (by positivity)
  obtain ⟨δ, hδ, h⟩ := strict_near_on hD h0 (half_pos hε₁)
  have hDp : 0 < 2 * (‖D‖ + 1) := by positivity
  refine ⟨min 1 (min ε₂ (ε₁ / (2 * (‖D‖ + 1)))), by positivity, δ, hδ, fun w w' hw' hww y hyZ h1 h2 => ?_⟩
  have hn := norm_nonneg w
  have b1 : ‖w' - w‖ ≤ ‖w‖ := hww.trans (by
    have := mul_le_mul_of_nonneg_right (min_le_left (1 : ℝ) (min ε₂ (ε₁ / (2 * (‖D‖ + 1))))) hn
    linarith)
  have b2 : ‖w' - w‖ ≤ ε₂ * ‖w‖ :=
    hww.trans (mul_le_mul_of_nonneg_right ((min_le_right _ _).trans (min_le_left _ _)) hn)
  have b3 : ‖w' - w‖ ≤ ε₁ / (2 * (‖D‖ + 1)) * ‖w‖ :=
    hww.trans (mul_le_mul_of_nonneg_right ((min_le_right _ _).trans (min_le_right _ _)) hn)
  have hw2 : ‖w'‖ ≤ 2 * ‖w‖ := by
    have := norm_add_le (w' - w) w
    rw [sub_add_cancel] at this
    linarith
  have e1 : D (w', 0) = D (w, 0) + D (w' - w, 0) := by
    rw [← map_add]
    simp
  have c1 : ‖D (w' - w, 0)‖ ≤ ε₁ / 2 * ‖w‖ := by
    refine (opNorm_fst D _).trans ?_
    calc ‖D‖ * ‖w' - w‖ ≤ (‖D‖ + 1) * (ε₁ / (2 * (‖D‖ + 1)) * ‖w‖) :=
          mul_le_mul (by linarith) b3 (norm_nonneg _) (by positivity)
      _ = _ := by field_simp
  have h3 := hp₁ w (D (w', 0)) ((Φ (w, y) - D (w, 0)) - D (w' - w, 0)) (by
    refine (opNorm_fst D _).trans ?_
    calc ‖D‖ * ‖w'‖ ≤ ‖D‖ * (2 * ‖w‖) := mul_le_mul_of_nonneg_left hw2 (norm_nonneg _)
      _ = _ := by ring) (by
    refine (norm_sub_le _ _).trans ?_
    linarith [h w y hyZ h1 h2])
  have h4 := hp₂ w w (w' - w) (by rw [one_mul]) b2
  rw [e1, show D (w, 0) + D (w' - w, 0) + (Φ (w, y) - D (w, 0) - D (w' - w, 0)) = Φ (w, y) by abel, ← e1] at h3
  rw [add_sub_cancel] at h4
  have h5 := hdec w' hw'
  have h6 := mul_le_mul_of_nonneg_left h4 (show 0 ≤ 1 - γ by linarith)
  have h7 := mul_le_mul_of_nonneg_left (hco w) (show 0 ≤ γ / 2 by positivity)
  have h8 : (1 - γ) * (v * γ / 4 * ‖w‖ ^ 2) ≤ v * γ / 4 * ‖w‖ ^ 2 :=
    mul_le_of_le_one_left (by positivity) (by linarith)
  linarith

end Step

namespace Sep

variable {C S M : ℕ} [NeZero M] [NeZero S]

section Smooth

variable {E : Type} [NormedAddCommGroup E] [NormedSpace ℝ E] {z : E}
variable {X : E → Mat C C ℝ} {l : Vec C ℝ} {σ : Fin S → Fin C} {a b : ℝ} {c : E → ℝ} {φ : E → Mat C M ℝ}
  {J : E → Vec M ℝ}

section

variable (hX : ∀ i j, ContDiffAt ℝ 1 (fun p => X p i j) z) (hφ : ∀ i m, ContDiffAt ℝ 1 (fun p => φ p i m) z)
  (hne : ∀ i m, φ z i m ≠ 0)
include hX hφ hne

theorem pot_smooth (i : Fin C) (m : Fin M) : ContDiffAt ℝ 1 (fun p => pot (X p) l (φ p) i m) z := by
  unfold pot
  exact (ContDiffAt.sum fun j _ => (hX i j).mul (hφ j m)).add (((hφ i m).log (hne i m)).div_const _)

variable (hc : ContDiffAt ℝ 1 c z)
include hc

theorem mult_smooth (m : Fin M) : ContDiffAt ℝ 1 (fun p => mult (X p) l σ (c p) (φ p) m) z := by
  unfold mult
  exact ((hc.div_const _).mul ((ContDiffAt.sum fun j _ => hφ j m).sub contDiffAt_const)).sub
    ((ContDiffAt.sum fun r _ => pot_smooth hX hφ hne (σ r) m).div_const _)

theorem weight_smooth (i : Fin C) (m : Fin M) :
    ContDiffAt ℝ 1 (fun p => weight (X p) l σ a (c p) (φ p) i m) z := by
  unfold weight drive
  exact (contDiffAt_const.mul ((pot_smooth hX hφ hne i m).add (mult_smooth hX hφ hne hc m))).neg.exp

theorem eta_smooth (m : Fin M) : ContDiffAt ℝ 1 (fun p => eta (X p) l σ (c p) (φ p) m) z := by
  unfold eta
  refine ((contDiffAt_const.mul (ContDiffAt.sum fun i _ => ContDiffAt.sum fun j _ => ?_)).add
    (ContDiffAt.sum fun i _ => (hφ i m).div_const _)).add (mult_smooth hX hφ hne hc m)
  exact ((hX i j).mul (hφ i m)).mul (hφ j m)

variable (hJ : ∀ m, ContDiffAt ℝ 1 (fun p => J p m) z)
include hJ

theorem nextJ_smooth (m : Fin M) : ContDiffAt ℝ 1 (fun p => nextJ (X p) l σ b (c p) (φ p) (J p) m) z := by
  unfold nextJ
  exact (hJ m).add (contDiffAt_const.mul ((eta_smooth hX hφ hne hc m).sub
    ((ContDiffAt.sum fun n _ => eta_smooth hX hφ hne hc n).div_const _)))

theorem nextPhi_smooth (i : Fin C) (m : Fin M)
    (hden : ∑ n, nextJ (X z) l σ b (c z) (φ z) (J z) n * (φ z i n * weight (X z) l σ a (c z) (φ z) i n) ≠ 0) :
    ContDiffAt ℝ 1 (fun p => nextPhi (X p) l σ a b (c p) (φ p) (J p) i m) z := by
  unfold nextPhi
  exact (((hφ i m).mul (weight_smooth hX hφ hne hc i m)).mul
    (ContDiffAt.sum fun n _ => (hJ n).mul (hφ i n))).div
    (ContDiffAt.sum fun n _ => (nextJ_smooth hX hφ hne hc hJ n).mul
      ((hφ i n).mul (weight_smooth hX hφ hne hc i n))) hden

end

end Smooth

omit [NeZero M] in
theorem entry_le (w : Mat C M ℝ) (i : Fin C) (m : Fin M) : |w i m| ≤ ‖w‖ :=
  (norm_le_pi_norm (w i) m).trans (norm_le_pi_norm w i)

/-- Volumes, interaction, compositions and coefficient of incompressibility. -/
abbrev Around (C M : ℕ) := Vec M ℝ × Mat C C ℝ × Mat C M ℝ × ℝ

/-- The deviation after a pass, for varying phases. -/
noncomputable def devAll (l : Vec C ℝ) (σ : Fin S → Fin C) (a b : ℝ) (J₀ : Vec M ℝ)
    (p : Mat C M ℝ × Around C M) : Mat C M ℝ :=
  devNext p.2.2.1 l σ a b p.2.2.2.2 J₀ p.2.2.2.1 (p.1, p.2.1)

/-- The change of the volumes in a pass, for varying phases. -/
noncomputable def volAll (l : Vec C ℝ) (σ : Fin S → Fin C) (b : ℝ) (J₀ : Vec M ℝ)
    (p : Mat C M ℝ × Around C M) : Vec M ℝ :=
  volNext p.2.2.1 l σ b p.2.2.2.2 J₀ p.2.2.2.1 (p.1, p.2.1)

variable {X : Mat C C ℝ} {l : Vec C ℝ} {σ : Fin S → Fin C} {J₀ : Vec M ℝ} {φ₀ : Mat C M ℝ} {a b c : ℝ}

section

variable (hp : StablePhases X l J₀ φ₀)
include hp

theorem all_smooth :
    (∀ i j, ContDiffAt ℝ 1 (fun p : Mat C M ℝ × Around C M => p.2.2.1 i j) (0, J₀, X, φ₀, c)) ∧
    (∀ m, ContDiffAt ℝ 1 (fun p : Mat C M ℝ × Around C M => p.2.1 m) (0, J₀, X, φ₀, c)) ∧
    (∀ i m, ContDiffAt ℝ 1 (fun p : Mat C M ℝ × Around C M => p.2.2.2.1 i m) (0, J₀, X, φ₀, c)) ∧
    ContDiffAt ℝ 1 (fun p : Mat C M ℝ × Around C M => p.2.2.2.2) (0, J₀, X, φ₀, c) ∧
    (∀ i m, ContDiffAt ℝ 1 (fun p : Mat C M ℝ × Around C M => fracs J₀ p.2.2.2.1 p.1 p.2.1 i m)
      (0, J₀, X, φ₀, c)) := by
  have hJ : ∀ m, ContDiffAt ℝ 1 (fun p : Mat C M ℝ × Around C M => p.2.1 m) (0, J₀, X, φ₀, c) := fun m =>
    contDiffAt_pi.mp (contDiffAt_fst.comp _ contDiffAt_snd) m
  have hφ : ∀ i m, ContDiffAt ℝ 1 (fun p : Mat C M ℝ × Around C M => p.2.2.2.1 i m) (0, J₀, X, φ₀, c) :=
    fun i m => contDiffAt_pi.mp (contDiffAt_pi.mp
      (((contDiffAt_fst.comp _ contDiffAt_snd).comp _ contDiffAt_snd).comp _ contDiffAt_snd) i) m
  refine ⟨fun i j => contDiffAt_pi.mp (contDiffAt_pi.mp
      ((contDiffAt_fst.comp _ contDiffAt_snd).comp _ contDiffAt_snd) i) j, hJ, hφ,
    ((contDiffAt_snd.comp _ contDiffAt_snd).comp _ contDiffAt_snd).comp _ contDiffAt_snd, fun i m => ?_⟩
  have h1 : ContDiffAt ℝ 1 (fun p : Mat C M ℝ × Around C M => p.1 i m) (0, J₀, X, φ₀, c) :=
    contDiffAt_pi.mp (contDiffAt_pi.mp contDiffAt_fst i) m
  exact (hφ i m).add ((contDiffAt_const.mul h1).div (hJ m) (hp.vol m).ne')

theorem volAll_contDiffAt : ContDiffAt ℝ 1 (volAll l σ b J₀) (0, J₀, X, φ₀, c) := by
  obtain ⟨h1, h2, h3, h4, h5⟩ := all_smooth (c := c) hp
  refine contDiffAt_pi.mpr fun m => ?_
  exact (nextJ_smooth h1 h5 (fun i m => by simpa [fracs] using (hp.pos i m).ne') h4 h2 m).sub (h2 m)

theorem devAll_contDiffAt (hb : Balanced X l φ₀) : ContDiffAt ℝ 1 (devAll l σ a b J₀) (0, J₀, X, φ₀, c) := by
  obtain ⟨h1, h2, h3, h4, h5⟩ := all_smooth (c := c) hp
  have hne : ∀ i m, fracs J₀ φ₀ 0 J₀ i m ≠ 0 := fun i m => by simpa [fracs] using (hp.pos i m).ne'
  refine contDiffAt_pi.mpr fun i => contDiffAt_pi.mpr fun m => ?_
  exact ((nextJ_smooth h1 h5 hne h4 h2 m).div_const _).mul
    ((nextPhi_smooth h1 h5 hne h4 h2 i m (den_ne a b c hp hb i)).sub (h3 i m))

theorem devAll_deriv (hb : Balanced X l φ₀) {ρ : ℝ} (hρ : b = ρ * a) (w : Mat C M ℝ) :
    fderiv ℝ (devAll l σ a b J₀) (0, J₀, X, φ₀, c) (w, 0) = w - a • dphi X l J₀ φ₀ σ ρ c w := by
  have h1 := devNext_line (σ := σ) a b c hp hb hρ w
  have hl : HasDerivAt (fun t : ℝ => ((t • w, J₀, X, φ₀, c) : Mat C M ℝ × Around C M)) (w, 0) 0 := by
    have e1 : HasDerivAt (fun t : ℝ => t • w) w 0 := by
      simpa using (hasDerivAt_id (0 : ℝ)).smul_const w
    exact e1.prodMk (hasDerivAt_const (0 : ℝ) _)
  have h2 : HasFDerivAt (devAll l σ a b J₀) (fderiv ℝ (devAll l σ a b J₀) (0, J₀, X, φ₀, c))
      ((fun t : ℝ => ((t • w, J₀, X, φ₀, c) : Mat C M ℝ × Around C M)) 0) := by
    have := ((devAll_contDiffAt (a := a) (b := b) (c := c) (σ := σ) hp hb).hasStrictFDerivAt
      one_ne_zero).hasFDerivAt
    simpa using this
  have h3 := h2.comp_hasDerivAt (0 : ℝ) hl
  exact h3.unique h1

end

variable {P : ℕ} {phase : Fin M → Fin P} {ψ₀ : Mat C P ℝ}

/-- A deviation that conserves the mean composition for some phases is close to one that conserves it for
nearby phases. -/
theorem exists_conserving_near (hJ₀ : ∀ m, 0 < J₀ m) (hi : IndependentPhases ψ₀) {ε : ℝ} (hε : 0 < ε) :
    ∃ K > 0, ∃ δ > 0, ∀ ψ : Mat C P ℝ, ‖ψ - ψ₀‖ ≤ δ → ∀ (w : Mat C M ℝ) (j : Vec M ℝ),
      Conserving J₀ (fun i m => ψ i (phase m)) w j → ‖Persist.phaseVolume j phase‖ ≤ K * ‖w‖ ∧
      ∃ w', Conserving J₀ (fun i m => ψ₀ i (phase m)) w' j ∧ ‖w' - w‖ ≤ ε * ‖w‖ := by
  have hM : (0 : ℝ) < M := by exact_mod_cast Nat.pos_of_ne_zero (NeZero.ne M)
  let T : Mat C P ℝ → Vec P ℝ → Vec C ℝ := fun ψ y i => ∑ k, y k * ψ i k
  let T₀ : Vec P ℝ →ₗ[ℝ] Vec C ℝ :=
    { toFun := T ψ₀
      map_add' := fun y z => by funext i; simp [T, add_mul, sum_add_distrib]
      map_smul' := fun t y => by funext i; simp [T, mul_sum, mul_assoc] }
  have hker : T₀.ker = ⊥ := by
    rw [LinearMap.ker_eq_bot']
    exact fun y hy => hi y fun i => congrFun hy i
  obtain ⟨K, hK, hT⟩ := T₀.exists_antilipschitzWith hker
  have hK0 : (0 : ℝ) < K := by exact_mod_cast hK
  set s := ∑ m, J₀ m with hs
  have hs0 : 0 < s := sum_pos (fun m _ => hJ₀ m) univ_nonempty
  have hdiff : ∀ ψ y i, |T ψ₀ y i - T ψ y i| ≤ P * ‖ψ - ψ₀‖ * ‖y‖ := fun ψ y i => by
    have e : T ψ₀ y i - T ψ y i = ∑ k, y k * (ψ₀ i k - ψ i k) := by
      simp only [T]
      rw [← sum_sub_distrib]
      exact sum_congr rfl fun k _ => by ring
    rw [e]
    refine (abs_sum_le_sum_abs _ _).trans ?_
    calc ∑ k, |y k * (ψ₀ i k - ψ i k)| ≤ ∑ _k : Fin P, ‖y‖ * ‖ψ - ψ₀‖ := by
          refine sum_le_sum fun k _ => ?_
          rw [abs_mul]
          refine mul_le_mul (norm_le_pi_norm y k) ?_ (abs_nonneg _) (norm_nonneg _)
          rw [abs_sub_comm]
          exact entry_le (ψ - ψ₀) i k
      _ = _ := by simp; ring
  set q := M * (K * (s * 2)) * (P * (1 / s)) + 1 with hq
  have hq0 : 0 < q := by positivity
  refine ⟨K * (s * 2), by positivity, min (1 / (2 * K * (P + 1))) (ε / q), by positivity, fun ψ hψ w j hc => ?_⟩
  have hψ1 : ‖ψ - ψ₀‖ * (2 * K * (P + 1)) ≤ 1 := by
    have := hψ.trans (min_le_left _ _)
    rwa [le_div_iff₀ (by positivity)] at this
  have hψ2 : ‖ψ - ψ₀‖ * q ≤ ε := by
    have := hψ.trans (min_le_right _ _)
    rwa [le_div_iff₀ hq0] at this
  set y : Vec P ℝ := Persist.phaseVolume j phase with hy
  have hyT : ∀ χ : Mat C P ℝ, ∀ i, ∑ m, j m * χ i (phase m) = M * T χ y i := fun χ i =>
    Persist.sum_phase j phase (fun k => χ i k)
  have hTw : ∀ i, |T ψ y i| ≤ s * ‖w‖ := fun i => by
    have h1 := hc.2 i
    rw [hyT ψ i] at h1
    have h2 : |∑ m, J₀ m * w i m| ≤ s * ‖w‖ := by
      refine (abs_sum_le_sum_abs _ _).trans ?_
      rw [hs, sum_mul]
      refine sum_le_sum fun m _ => ?_
      rw [abs_mul, abs_of_pos (hJ₀ m)]
      exact mul_le_mul_of_nonneg_left (norm_entry w i m) (hJ₀ m).le
    have h3 : (M : ℝ) * |T ψ y i| ≤ s * ‖w‖ := by
      have : M * T ψ y i = -∑ m, J₀ m * w i m := by linarith
      rw [← abs_of_pos hM, ← abs_mul, this, abs_neg]
      exact h2
    have hM1 : (1 : ℝ) ≤ M := by exact_mod_cast Nat.one_le_iff_ne_zero.mpr (NeZero.ne M)
    exact (le_mul_of_one_le_left (abs_nonneg _) hM1).trans h3
  have hyn : ‖y‖ ≤ K * (s * 2) * ‖w‖ := by
    have h1 : ‖y‖ ≤ K * ‖T₀ y‖ := by
      have := hT.le_mul_dist y 0
      simpa using this
    have h2 : ‖T₀ y‖ ≤ s * ‖w‖ + P * ‖ψ - ψ₀‖ * ‖y‖ := by
      refine (pi_norm_le_iff_of_nonneg (by positivity)).mpr fun i => ?_
      rw [Real.norm_eq_abs]
      have h3 := abs_add_le (T ψ y i) (T ψ₀ y i - T ψ y i)
      rw [add_sub_cancel] at h3
      exact h3.trans (add_le_add (hTw i) (hdiff ψ y i))
    have h4 : K * (P * ‖ψ - ψ₀‖ * ‖y‖) ≤ ‖y‖ / 2 := by
      have h5 : K * (P * ‖ψ - ψ₀‖) ≤ 1 / 2 := by
        have : 0 ≤ K * ‖ψ - ψ₀‖ := by positivity
        nlinarith
      have := mul_le_mul_of_nonneg_right h5 (norm_nonneg y)
      linarith
    have h6 := mul_le_mul_of_nonneg_left h2 hK0.le
    linarith
  refine ⟨hyn, fun i m => w i m - M * (T ψ₀ y i - T ψ y i) / s, ⟨hc.1, fun i => ?_⟩, ?_⟩
  · have h1 := hc.2 i
    rw [hyT ψ i] at h1
    rw [hyT ψ₀ i]
    have e : ∑ m, J₀ m * (w i m - M * (T ψ₀ y i - T ψ y i) / s) =
        ∑ m, J₀ m * w i m - s * (M * (T ψ₀ y i - T ψ y i) / s) := by
      simp only [mul_sub]
      rw [sum_sub_distrib, ← sum_mul]
    rw [e, mul_div_cancel₀ _ hs0.ne']
    linarith
  · refine (pi_norm_le_iff_of_nonneg (by positivity)).mpr fun i =>
      (pi_norm_le_iff_of_nonneg (by positivity)).mpr fun m => ?_
    simp only [Pi.sub_apply, sub_sub_cancel_left, norm_neg]
    rw [Real.norm_eq_abs, abs_div, abs_mul, abs_of_pos hM, abs_of_pos hs0, div_le_iff₀ hs0]
    have h1 := mul_le_mul_of_nonneg_left (hdiff ψ y i) hM.le
    have h2 : M * (P * ‖ψ - ψ₀‖ * ‖y‖) ≤ M * (P * ‖ψ - ψ₀‖ * (K * (s * 2) * ‖w‖)) := by
      gcongr
    have h3 : M * (P * ‖ψ - ψ₀‖ * (K * (s * 2) * ‖w‖)) = ‖ψ - ψ₀‖ * (q - 1) * ‖w‖ * s := by
      rw [hq]
      field_simp
      ring
    have h4 : ‖ψ - ψ₀‖ * (q - 1) * ‖w‖ * s ≤ ε * ‖w‖ * s := by
      refine mul_le_mul_of_nonneg_right (mul_le_mul_of_nonneg_right ?_ (norm_nonneg w)) hs0.le
      have := norm_nonneg (ψ - ψ₀)
      linarith
    linarith

/-- A quadratic form that bounds the deviation and decreases in every pass, to first order. -/
structure Shrinks (X : Mat C C ℝ) (l : Vec C ℝ) (J₀ : Vec M ℝ) (φ₀ : Mat C M ℝ) (σ : Fin S → Fin C)
    (c ρ a : ℝ) : Prop where
  small : a ≤ 1
  coercive : ∃ v > 0, ∀ w : Mat C M ℝ, v * ‖w‖ ^ 2 ≤ form X l J₀ φ₀ σ c w w
  decrease : ∃ γ > 0, γ < 1 ∧ ∀ (w : Mat C M ℝ) (j : Vec M ℝ), Conserving J₀ φ₀ w j →
    form X l J₀ φ₀ σ c (w - a • dphi X l J₀ φ₀ σ ρ c w) (w - a • dphi X l J₀ φ₀ σ ρ c w) ≤
      (1 - γ) * form X l J₀ φ₀ σ c w w

/-- The form decreases in passes near phases that are close to given ones. -/
theorem exists_near_all (hp : StablePhases X l J₀ fun i m => ψ₀ i (phase m))
    (hb : Balanced X l fun i m => ψ₀ i (phase m)) (hi : IndependentPhases ψ₀) {ρ : ℝ}
    (hsh : Shrinks X l J₀ (fun i m => ψ₀ i (phase m)) σ c ρ a) :
    ∃ Q : Mat C M ℝ → ℝ, ∃ v > 0, ∃ Lf > 0, ∃ q, 0 < q ∧ q < 1 ∧ ∃ ε > 0, ∃ K > 0, (∀ w, v * ‖w‖ ^ 2 ≤ Q w) ∧
      (∀ w, Q w ≤ Lf * ‖w‖ ^ 2) ∧ (∀ w w', Q w' ≤ q ^ 2 * Q w → ε * ‖w‖ ≤ ‖w' - w‖) ∧ ∃ L > 0, ∃ δ > 0,
      ∀ (X' : Mat C C ℝ) (ψ : Mat C P ℝ) (c' : ℝ), ‖X' - X‖ ≤ δ → ‖ψ - ψ₀‖ ≤ δ → |c' - c| ≤ δ →
      (StablePhases X' l J₀ fun i m => ψ i (phase m)) → (Balanced X' l fun i m => ψ i (phase m)) →
      ∀ w j, Conserving J₀ (fun i m => ψ i (phase m)) w j → ‖Persist.phaseVolume j phase‖ ≤ K * ‖w‖ ∧
        ∀ J, ‖w‖ ≤ δ → ‖J - J₀‖ ≤ δ →
        Q (devNext X' l σ a (ρ * a) c' J₀ (fun i m => ψ i (phase m)) (w, J)) ≤ q ^ 2 * Q w ∧
        ‖volNext X' l σ (ρ * a) c' J₀ (fun i m => ψ i (phase m)) (w, J)‖ ≤ L * ‖w‖ := by
  obtain ⟨v, hv, hco⟩ := hsh.coercive
  obtain ⟨γ, hγ, hγ1, h⟩ := hsh.decrease
  set φ₀ : Mat C M ℝ := fun i m => ψ₀ i (phase m) with hφ₀
  have hQc : Continuous fun w : Mat C M ℝ => form X l J₀ φ₀ σ c w w := by
    unfold form hess avg tot hess; fun_prop
  have hQh : ∀ (t : ℝ) (w : Mat C M ℝ), form X l J₀ φ₀ σ c (t • w) (t • w) = t ^ 2 * form X l J₀ φ₀ σ c w w :=
    fun t w => form_smul hp w c t
  obtain ⟨Lf, hLf, hform⟩ := exists_form_le hQc hQh
  have hq2 : √(1 - γ / 2) ^ 2 = 1 - γ / 2 := Real.sq_sqrt (by linarith)
  have hq0 : 0 < √(1 - γ / 2) := Real.sqrt_pos.mpr (by linarith)
  have hq1 : √(1 - γ / 2) < 1 := by
    rw [Real.sqrt_lt' one_pos]
    linarith
  obtain ⟨ε', hε', hgap⟩ := form_gap hQc hQh hv hco hq0.le hq1
  obtain ⟨n, hn, hJn⟩ := exists_lower J₀ hp.vol
  set Z : Set (Around C M) := {y | (∀ m, 0 < y.1 m) ∧ StablePhases y.2.1 l J₀ y.2.2.1 ∧
    Balanced y.2.1 l y.2.2.1} with hZ
  have hS1 := (devAll_contDiffAt (σ := σ) (a := a) (b := ρ * a) (c := c) hp hb).hasStrictFDerivAt one_ne_zero
  have hS2 := (volAll_contDiffAt (σ := σ) (b := ρ * a) (c := c) hp).hasStrictFDerivAt one_ne_zero
  obtain ⟨ε, hε, δ₁, hδ₁, h1⟩ := strict_decrease_on hS1 (Z := Z)
    (fun y hy => devNext_zero a (ρ * a) y.2.2.2 hy.2.1 hy.2.2 hy.1) hQc hQh hv hγ hγ1.le hco
    (K := {w | ∃ j, Conserving J₀ φ₀ w j}) (fun w ⟨j, hj⟩ => by
      rw [devAll_deriv hp hb rfl]
      exact h w j hj)
  obtain ⟨L, hL, δ₂, hδ₂, h2⟩ := strict_lipschitz_on hS2 (Z := Z)
    fun y hy => volNext_zero (ρ * a) y.2.2.2 hy.2.1 hy.2.2 y.1
  obtain ⟨K, hK, δ₃, hδ₃, h3⟩ := exists_conserving_near (phase := phase) hp.vol hi hε
  refine ⟨fun w => form X l J₀ φ₀ σ c w w, v, hv, Lf, hLf, √(1 - γ / 2), hq0, hq1, ε', hε', K, hK, hco,
    fun w => (le_abs_self _).trans (hform w), hgap, L, hL,
    min (min δ₁ δ₂) (min δ₃ (n / 2)), by positivity,
    fun X' ψ c' hX hψ hc' hst hbal w j hcons => ?_⟩
  obtain ⟨hKj, w', hw', hww⟩ := h3 ψ (hψ.trans ((min_le_right _ _).trans (min_le_left _ _))) w j hcons
  refine ⟨hKj, fun J hw hJ => ?_⟩
  · have hψφ : ‖(fun i m => ψ i (phase m)) - φ₀‖ ≤ ‖ψ - ψ₀‖ :=
      (pi_norm_le_iff_of_nonneg (norm_nonneg _)).mpr fun i => (pi_norm_le_iff_of_nonneg (norm_nonneg _)).mpr
        fun m => entry_le (ψ - ψ₀) i (phase m)
    have hy : ‖((J, X', (fun i m => ψ i (phase m)), c') : Around C M) - (J₀, X, φ₀, c)‖ ≤
        min (min δ₁ δ₂) (min δ₃ (n / 2)) := by
      simp only [Prod.norm_def, Prod.fst_sub, Prod.snd_sub]
      exact max_le hJ (max_le hX (max_le (hψφ.trans hψ) hc'))
    have hmem : ((J, X', (fun i m => ψ i (phase m)), c') : Around C M) ∈ Z := by
      refine ⟨fun m => ?_, hst, hbal⟩
      have := (norm_le_pi_norm (J - J₀) m).trans (hJ.trans ((min_le_right _ _).trans (min_le_right _ _)))
      rw [Real.norm_eq_abs, Pi.sub_apply, abs_le] at this
      linarith [this.1, hJn m]
    have r1 := h1 w w' ⟨j, hw'⟩ hww _ hmem (hw.trans ((min_le_left _ _).trans (min_le_left _ _)))
        (hy.trans ((min_le_left _ _).trans (min_le_left _ _)))
    have r2 := h2 w _ hmem (hw.trans ((min_le_left _ _).trans (min_le_right _ _)))
        (hy.trans ((min_le_left _ _).trans (min_le_right _ _)))
    rw [← hq2] at r1
    exact ⟨r1, r2⟩

end Sep

end Flory
