import Verif.Model.Py
import Mathlib.Analysis.Normed.Module.FiniteDimension
import Mathlib.Analysis.InnerProductSpace.Basic
import Mathlib.Tactic.LinearCombination
import Mathlib.Tactic.Positivity
import Mathlib.Tactic.Linarith
import Mathlib.Tactic.FieldSimp

/-! # A quadratic form that decreases near separated phases -/

set_option linter.unusedSectionVars false

namespace Flory

open Finset

section Forms

variable {E : Type} [NormedAddCommGroup E] [NormedSpace ℝ E] [ProperSpace E]

theorem exists_form_le {f : E → ℝ} (hc : Continuous f) (hh : ∀ (t : ℝ) w, f (t • w) = t ^ 2 * f w) :
    ∃ L > 0, ∀ w, |f w| ≤ L * ‖w‖ ^ 2 := by
  obtain ⟨L, hL⟩ := (isCompact_sphere (0 : E) 1).exists_bound_of_continuousOn hc.continuousOn
  refine ⟨max L 1, lt_max_of_lt_right one_pos, fun w => ?_⟩
  by_cases hw : w = 0
  · subst hw
    have := hh 0 (0 : E)
    simp at this
    simp [this]
  have hn : ‖w‖ ≠ 0 := norm_ne_zero_iff.mpr hw
  have h1 := hL (‖w‖⁻¹ • w) (by simp [norm_smul, hn])
  rw [hh, Real.norm_eq_abs, abs_mul, abs_of_nonneg (by positivity), inv_pow, inv_mul_le_iff₀ (by positivity)] at h1
  calc |f w| ≤ ‖w‖ ^ 2 * L := h1
    _ ≤ max L 1 * ‖w‖ ^ 2 := by rw [mul_comm]; gcongr; exact le_max_left _ _

/-- Finsler's lemma. -/
theorem exists_form_bound {f g : E → ℝ} (hf : Continuous f) (hg : Continuous g)
    (hfh : ∀ (t : ℝ) w, f (t • w) = t ^ 2 * f w) (hgh : ∀ (t : ℝ) w, g (t • w) = t ^ 2 * g w)
    (hg0 : ∀ w, 0 ≤ g w) (hpos : ∀ w, w ≠ 0 → g w = 0 → 0 < f w) :
    ∃ c₀ > 0, ∃ v > 0, ∀ c, c₀ ≤ c → ∀ w, v * ‖w‖ ^ 2 ≤ f w + c * g w := by
  have hcomp := isCompact_sphere (0 : E) 1
  have h1 : ∃ c₀ > 0, ∀ w, ‖w‖ = 1 → 0 < f w + c₀ * g w := by
    have hK : IsCompact (Metric.sphere (0 : E) 1 ∩ {w | f w ≤ 0}) :=
      hcomp.inter_right (isClosed_le hf continuous_const)
    rcases Set.eq_empty_or_nonempty (Metric.sphere (0 : E) 1 ∩ {w | f w ≤ 0}) with he | hne
    · refine ⟨1, one_pos, fun w hw => ?_⟩
      have : 0 < f w := by
        by_contra hcon
        have : w ∈ Metric.sphere (0 : E) 1 ∩ {w | f w ≤ 0} := ⟨by simpa using hw, not_lt.mp hcon⟩
        rw [he] at this
        exact this
      linarith [hg0 w]
    · obtain ⟨w₀, hw₀, hmin⟩ := hK.exists_isMinOn hne hg.continuousOn
      obtain ⟨F, hF⟩ := hcomp.exists_bound_of_continuousOn hf.continuousOn
      have hg1 : 0 < g w₀ := by
        refine lt_of_le_of_ne (hg0 w₀) fun h0 => ?_
        have hne0 : w₀ ≠ 0 := by
          rintro rfl
          simpa using hw₀.1
        exact absurd (hpos w₀ hne0 h0.symm) (not_lt.mpr hw₀.2)
      have hF0 : 0 ≤ F := (norm_nonneg _).trans (hF w₀ hw₀.1)
      refine ⟨(F + 1) / g w₀, by positivity, fun w hw => ?_⟩
      by_cases hfw : f w ≤ 0
      · have h2 : g w₀ ≤ g w := hmin ⟨by simpa using hw, hfw⟩
        have h3 := (abs_le.mp ((Real.norm_eq_abs _).symm.trans_le (hF w (by simpa using hw)))).1
        have h4 : (F + 1) / g w₀ * g w₀ ≤ (F + 1) / g w₀ * g w := by gcongr
        rw [div_mul_cancel₀ _ hg1.ne'] at h4
        linarith
      · have : 0 ≤ (F + 1) / g w₀ * g w := mul_nonneg (by positivity) (hg0 w)
        linarith [not_le.mp hfw]
  obtain ⟨c₀, hc₀, h1⟩ := h1
  have h2 : ∃ v > 0, ∀ w, ‖w‖ = 1 → v ≤ f w + c₀ * g w := by
    rcases Set.eq_empty_or_nonempty (Metric.sphere (0 : E) 1) with he | hne
    · refine ⟨1, one_pos, fun w hw => ?_⟩
      have : w ∈ Metric.sphere (0 : E) 1 := by simpa using hw
      rw [he] at this
      exact this.elim
    · obtain ⟨w₀, hw₀, hmin⟩ := hcomp.exists_isMinOn hne
        (f := fun w => f w + c₀ * g w) (by fun_prop)
      exact ⟨_, h1 w₀ (by simpa using hw₀), fun w hw => hmin (by simpa using hw)⟩
  obtain ⟨v, hv, h2⟩ := h2
  refine ⟨c₀, hc₀, v, hv, fun c hc w => ?_⟩
  have h3 : v * ‖w‖ ^ 2 ≤ f w + c₀ * g w := by
    by_cases hw : w = 0
    · subst hw
      have a1 := hfh 0 (0 : E)
      have a2 := hgh 0 (0 : E)
      simp at a1 a2
      simp [a1, a2]
    have hn : ‖w‖ ≠ 0 := norm_ne_zero_iff.mpr hw
    have h4 := h2 (‖w‖⁻¹ • w) (by simp [norm_smul, hn])
    rw [hfh, hgh] at h4
    have h5 : v * ‖w‖ ^ 2 ≤ (‖w‖⁻¹ ^ 2 * f w + c₀ * (‖w‖⁻¹ ^ 2 * g w)) * ‖w‖ ^ 2 := by gcongr
    calc _ ≤ _ := h5
      _ = f w + c₀ * g w := by field_simp
  have h4 : c₀ * g w ≤ c * g w := mul_le_mul_of_nonneg_right hc (hg0 w)
  linarith

end Forms

variable {C S M : ℕ} [NeZero M] [NeZero S]

/-- Phases with compositions `phi` (columns), volumes `J`, sizes `l` and interactions `X` that are stable
on their own. -/
structure StablePhases (X : Mat C C ℝ) (l : Vec C ℝ) (J : Vec M ℝ) (phi : Mat C M ℝ) : Prop where
  symm : ∀ i j, X i j = X j i
  size : ∀ i, 0 < l i
  vol : ∀ m, 0 < J m
  pos : ∀ i m, 0 < phi i m
  sum : ∀ m, ∑ i, phi i m = 1
  stable : ∀ m (z : Vec C ℝ), ∑ i, z i = 0 → z ≠ 0 →
    0 < ∑ i, z i ^ 2 / (l i * phi i m) + ∑ i, ∑ j, X i j * z i * z j

namespace Sep

variable (X : Mat C C ℝ) (l : Vec C ℝ) (J : Vec M ℝ) (phi : Mat C M ℝ) (σ : Fin S → Fin C)

/-- The Hessian of the free energies applied to `w`. -/
noncomputable def hess (w : Mat C M ℝ) (i : Fin C) (m : Fin M) : ℝ :=
  ∑ j, X i j * w j m + w i m / (l i * phi i m)

/-- Violation of incompressibility. -/
def tot (w : Mat C M ℝ) (m : Fin M) : ℝ := ∑ i, w i m

/-- The average over the features. -/
noncomputable def avg (w : Mat C M ℝ) (m : Fin M) : ℝ := (∑ r, hess X l phi w (σ r) m) / S

/-- Linearized change of the fields. -/
noncomputable def force (c : ℝ) (w : Mat C M ℝ) (i : Fin C) (m : Fin M) : ℝ :=
  hess X l phi w i m + c / S * tot w m - avg X l phi σ w m

/-- Linearized change of the volumes. -/
noncomputable def dvol (ρ c : ℝ) (w : Mat C M ℝ) (m : Fin M) : ℝ :=
  ρ * (∑ i, phi i m * force X l phi σ c w i m - (∑ n, ∑ i, phi i n * force X l phi σ c w i n) / M)

/-- Linearized change of the logarithms of the partition functions. -/
noncomputable def dlog (ρ c : ℝ) (w : Mat C M ℝ) (i : Fin C) : ℝ :=
  (∑ m, dvol X l phi σ ρ c w m * phi i m - ∑ m, J m * (l i * phi i m * force X l phi σ c w i m)) /
    (l i * ∑ m, J m * phi i m)

/-- Change of the fields relative to the partition function. -/
noncomputable def rel (ρ c : ℝ) (w : Mat C M ℝ) : Mat C M ℝ := fun i m =>
  force X l phi σ c w i m + dlog X l J phi σ ρ c w i

/-- Linearized change of the fractions. -/
noncomputable def dphi (ρ c : ℝ) (w : Mat C M ℝ) : Mat C M ℝ := fun i m =>
  l i * phi i m * rel X l J phi σ ρ c w i m

/-- The form that decreases. -/
noncomputable def form (c : ℝ) (w z : Mat C M ℝ) : ℝ :=
  ∑ m, J m * (∑ i, z i m * hess X l phi w i m + c / S * tot w m * tot z m - tot w m * avg X l phi σ z m -
    tot z m * avg X l phi σ w m)

/-- Mean composition is conserved for some change `j` of the volumes. -/
def Conserving (w : Mat C M ℝ) (j : Vec M ℝ) : Prop :=
  ∑ m, j m = 0 ∧ ∀ i, ∑ m, J m * w i m + ∑ m, j m * phi i m = 0

variable {X l J phi σ}

theorem hess_sub_smul (a : ℝ) (w z : Mat C M ℝ) (i : Fin C) (m : Fin M) :
    hess X l phi (w - a • z) i m = hess X l phi w i m - a * hess X l phi z i m := by
  unfold hess
  simp only [Pi.sub_apply, Pi.smul_apply, smul_eq_mul, mul_add, mul_sum, sub_div]
  rw [show (∑ j, X i j * (w j m - a * z j m)) = ∑ j, X i j * w j m - ∑ j, a * (X i j * z j m) by
    rw [← sum_sub_distrib]; exact sum_congr rfl fun j _ => by ring]
  ring

theorem tot_sub_smul (a : ℝ) (w z : Mat C M ℝ) (m : Fin M) : tot (w - a • z) m = tot w m - a * tot z m := by
  unfold tot
  rw [mul_sum, ← sum_sub_distrib]
  rfl

theorem avg_sub_smul (a : ℝ) (w z : Mat C M ℝ) (m : Fin M) :
    avg X l phi σ (w - a • z) m = avg X l phi σ w m - a * avg X l phi σ z m := by
  unfold avg
  simp only [hess_sub_smul]
  rw [sum_sub_distrib, ← mul_sum]
  ring

theorem hess_symm (hX : ∀ i j, X i j = X j i) (w z : Mat C M ℝ) (m : Fin M) :
    ∑ i, z i m * hess X l phi w i m = ∑ i, w i m * hess X l phi z i m := by
  unfold hess
  simp only [mul_add, sum_add_distrib, mul_sum]
  congr 1
  · rw [sum_comm]
    refine sum_congr rfl fun i _ => sum_congr rfl fun j _ => ?_
    rw [hX]; ring
  · exact sum_congr rfl fun i _ => by ring

theorem form_sub_smul (hX : ∀ i j, X i j = X j i) (c a : ℝ) (w z : Mat C M ℝ) :
    form X l J phi σ c (w - a • z) (w - a • z) = form X l J phi σ c w w - 2 * a * form X l J phi σ c w z +
      a ^ 2 * form X l J phi σ c z z := by
  unfold form
  simp only [hess_sub_smul, tot_sub_smul, avg_sub_smul]
  rw [mul_sum, mul_sum, ← sum_sub_distrib, ← sum_add_distrib]
  refine sum_congr rfl fun m _ => ?_
  have e1 : ∑ i, (w - a • z) i m * (hess X l phi w i m - a * hess X l phi z i m) =
      ∑ i, w i m * hess X l phi w i m - a * ∑ i, z i m * hess X l phi w i m -
      a * ∑ i, w i m * hess X l phi z i m + a ^ 2 * ∑ i, z i m * hess X l phi z i m := by
    rw [mul_sum, mul_sum, mul_sum, ← sum_sub_distrib, ← sum_sub_distrib, ← sum_add_distrib]
    refine sum_congr rfl fun i _ => ?_
    simp only [Pi.sub_apply, Pi.smul_apply, smul_eq_mul]
    ring
  rw [e1, ← hess_symm hX w z m]
  ring

theorem form_eq_force (c : ℝ) (w z : Mat C M ℝ) : form X l J phi σ c w z =
    ∑ m, J m * ∑ i, z i m * force X l phi σ c w i m - ∑ m, J m * (tot w m * avg X l phi σ z m) := by
  unfold form
  rw [← sum_sub_distrib]
  refine sum_congr rfl fun m _ => ?_
  have e1 : ∑ i, z i m * force X l phi σ c w i m = ∑ i, z i m * hess X l phi w i m +
      tot z m * (c / S * tot w m - avg X l phi σ w m) := by
    unfold force
    rw [show tot z m = ∑ i, z i m from rfl, sum_mul, ← sum_add_distrib]
    exact sum_congr rfl fun i _ => by ring
  rw [e1]
  ring

variable (hp : StablePhases X l J phi) {ρ c : ℝ} (w : Mat C M ℝ)
include hp

theorem sum_pos_comp (i : Fin C) : 0 < ∑ m, J m * phi i m :=
  sum_pos (fun m _ => mul_pos (hp.vol m) (hp.pos i m)) univ_nonempty

theorem sum_dphi (i : Fin C) : ∑ m, J m * dphi X l J phi σ ρ c w i m =
    ∑ m, dvol X l phi σ ρ c w m * phi i m := by
  have h1 := (mul_pos (hp.size i) (sum_pos_comp hp i)).ne'
  have e1 : dlog X l J phi σ ρ c w i * (l i * ∑ m, J m * phi i m) =
      ∑ m, dvol X l phi σ ρ c w m * phi i m - ∑ m, J m * (l i * phi i m * force X l phi σ c w i m) :=
    div_mul_cancel₀ _ h1
  have e2 : ∑ m, J m * dphi X l J phi σ ρ c w i m = ∑ m, J m * (l i * phi i m * force X l phi σ c w i m) +
      dlog X l J phi σ ρ c w i * (l i * ∑ m, J m * phi i m) := by
    rw [mul_sum, mul_sum, ← sum_add_distrib]
    refine sum_congr rfl fun m _ => ?_
    unfold dphi rel
    ring
  rw [e2, e1]
  ring

omit hp in
theorem sum_mul_dvol (v : Vec M ℝ) (hv : ∑ m, v m = 0) :
    ∑ m, v m * dvol X l phi σ ρ c w m = ρ * ∑ m, v m * ∑ i, phi i m * force X l phi σ c w i m := by
  unfold dvol
  rw [mul_sum]
  have e1 : ∀ m, v m * (ρ * (∑ i, phi i m * force X l phi σ c w i m -
      (∑ n, ∑ i, phi i n * force X l phi σ c w i n) / M)) =
      ρ * (v m * ∑ i, phi i m * force X l phi σ c w i m) -
      v m * (ρ * ((∑ n, ∑ i, phi i n * force X l phi σ c w i n) / M)) := fun m => by ring
  simp only [e1]
  rw [sum_sub_distrib, ← sum_mul _ v, hv]
  ring

omit hp in
theorem sum_dvol : ∑ m, dvol X l phi σ ρ c w m = 0 := by
  have hM : (M : ℝ) ≠ 0 := by exact_mod_cast NeZero.ne M
  unfold dvol
  rw [← mul_sum, sum_sub_distrib]
  simp
  right
  field_simp
  ring

omit hp in
/-- Exchange of sums with the composition of the phases. -/
theorem sum_dlog (v : Vec M ℝ) : ∑ i, dlog X l J phi σ ρ c w i * ∑ m, v m * phi i m =
    ∑ m, v m * ∑ i, phi i m * rel X l J phi σ ρ c w i m -
    ∑ m, v m * ∑ i, phi i m * force X l phi σ c w i m := by
  simp only [mul_sum]
  rw [sum_comm, ← sum_sub_distrib]
  refine sum_congr rfl fun m _ => ?_
  rw [← sum_sub_distrib]
  refine sum_congr rfl fun i _ => ?_
  unfold rel
  ring

/-- Weighted square of the relative change of the fields. -/
noncomputable def energy (x : Mat C M ℝ) (l : Vec C ℝ) (J : Vec M ℝ) (phi : Mat C M ℝ) : ℝ :=
  ∑ m, J m * ∑ i, l i * phi i m * x i m ^ 2

theorem form_dphi (hρ : ρ ≠ 0) : form X l J phi σ c w (dphi X l J phi σ ρ c w) =
    energy (rel X l J phi σ ρ c w) l J phi -
    ∑ m, dvol X l phi σ ρ c w m * ∑ i, phi i m * rel X l J phi σ ρ c w i m +
    (∑ m, dvol X l phi σ ρ c w m ^ 2) / ρ -
    ∑ m, J m * (tot w m * avg X l phi σ (dphi X l J phi σ ρ c w) m) := by
  rw [form_eq_force]
  congr 1
  have e1 : ∑ m, J m * ∑ i, dphi X l J phi σ ρ c w i m * force X l phi σ c w i m =
      energy (rel X l J phi σ ρ c w) l J phi -
      ∑ i, dlog X l J phi σ ρ c w i * ∑ m, J m * dphi X l J phi σ ρ c w i m := by
    unfold energy
    simp only [mul_sum]
    rw [sum_comm (s := univ (α := Fin C)), ← sum_sub_distrib]
    refine sum_congr rfl fun m _ => ?_
    rw [← sum_sub_distrib]
    refine sum_congr rfl fun i _ => ?_
    unfold dphi
    have : force X l phi σ c w i m = rel X l J phi σ ρ c w i m - dlog X l J phi σ ρ c w i := by
      unfold rel; ring
    rw [this]
    ring
  rw [e1]
  simp only [sum_dphi hp]
  rw [sum_dlog]
  have e2 := sum_mul_dvol (X := X) (l := l) (phi := phi) (σ := σ) (ρ := ρ) (c := c) w _
    (sum_dvol (X := X) (l := l) (phi := phi) (σ := σ) (ρ := ρ) (c := c) w)
  have e3 : ∑ m, dvol X l phi σ ρ c w m ^ 2 = ∑ m, dvol X l phi σ ρ c w m * dvol X l phi σ ρ c w m :=
    sum_congr rfl fun m _ => sq _
  rw [e3, e2]
  field_simp
  ring

omit hp in
theorem form_self (hρ : ρ ≠ 0) {j : Vec M ℝ} (hj : Conserving J phi w j) : form X l J phi σ c w w =
    ∑ m, J m * ∑ i, w i m * rel X l J phi σ ρ c w i m +
    (∑ m, j m * ∑ i, phi i m * rel X l J phi σ ρ c w i m - (∑ m, j m * dvol X l phi σ ρ c w m) / ρ) -
    ∑ m, J m * (tot w m * avg X l phi σ w m) := by
  rw [form_eq_force]
  congr 1
  have e1 : ∑ m, J m * ∑ i, w i m * force X l phi σ c w i m =
      ∑ m, J m * ∑ i, w i m * rel X l J phi σ ρ c w i m -
      ∑ i, dlog X l J phi σ ρ c w i * ∑ m, J m * w i m := by
    simp only [mul_sum]
    rw [sum_comm (s := univ (α := Fin C)), ← sum_sub_distrib]
    refine sum_congr rfl fun m _ => ?_
    rw [← sum_sub_distrib]
    refine sum_congr rfl fun i _ => ?_
    unfold rel
    ring
  have e2 : ∀ i, ∑ m, J m * w i m = -∑ m, j m * phi i m := fun i => by linarith [hj.2 i]
  rw [e1]
  simp only [e2, mul_neg]
  rw [sum_neg_distrib, sum_dlog, sum_mul_dvol w j hj.1]
  field_simp
  ring

omit hp in
theorem tot_eq : c * tot w m = ∑ r, rel X l J phi σ ρ c w (σ r) m - ∑ r, dlog X l J phi σ ρ c w (σ r) := by
  have hS : (S : ℝ) ≠ 0 := by exact_mod_cast NeZero.ne S
  rw [← sum_sub_distrib]
  have e1 : ∀ r, rel X l J phi σ ρ c w (σ r) m - dlog X l J phi σ ρ c w (σ r) =
      hess X l phi w (σ r) m + (c / S * tot w m - avg X l phi σ w m) := fun r => by
    unfold rel force; ring
  simp only [e1]
  rw [sum_add_distrib]
  have e2 : ∑ r, hess X l phi w (σ r) m = S * avg X l phi σ w m := by
    unfold avg; field_simp
  rw [e2]
  simp
  field_simp

theorem sum_tot {j : Vec M ℝ} (hj : Conserving J phi w j) : ∑ m, J m * tot w m = 0 := by
  have e1 : ∑ m, J m * tot w m = ∑ i, ∑ m, J m * w i m := by
    unfold tot
    simp only [mul_sum]
    rw [sum_comm]
  have e2 : ∑ i, ∑ m, j m * phi i m = 0 := by
    rw [sum_comm]
    simp only [← mul_sum, hp.sum, mul_one]
    exact hj.1
  have e3 : ∑ i, (∑ m, J m * w i m + ∑ m, j m * phi i m) = 0 := sum_eq_zero fun i _ => hj.2 i
  rw [sum_add_distrib, e2] at e3
  rw [e1]
  linarith

/-- The violation of incompressibility is small for large `c`. -/
theorem tot_le {j : Vec M ℝ} (hj : Conserving J phi w j) (m : Fin M) :
    |c * tot w m| ≤ 2 * S * ‖rel X l J phi σ ρ c w‖ := by
  set x := rel X l J phi σ ρ c w with hx
  have hxm : ∀ i n, |x i n| ≤ ‖x‖ := fun i n => (norm_le_pi_norm (x i) n).trans (norm_le_pi_norm x i)
  have hs : ∀ n, |∑ r, x (σ r) n| ≤ S * ‖x‖ := fun n => by
    refine (abs_sum_le_sum_abs _ _).trans ((sum_le_sum fun r _ => hxm (σ r) n).trans ?_)
    simp
  have hT : 0 < ∑ n, J n := sum_pos (fun n _ => hp.vol n) univ_nonempty
  set D := ∑ r, dlog X l J phi σ ρ c w (σ r) with hD
  have e1 : ∀ n, c * tot w n = ∑ r, x (σ r) n - D := fun n => tot_eq w
  have e2 : (∑ n, J n) * D = ∑ n, J n * ∑ r, x (σ r) n := by
    have h1 : ∑ n, J n * (c * tot w n) = 0 := by
      rw [show (∑ n, J n * (c * tot w n)) = c * ∑ n, J n * tot w n by
        rw [mul_sum]; exact sum_congr rfl fun n _ => by ring, sum_tot hp w hj, mul_zero]
    simp only [e1, mul_sub] at h1
    rw [sum_sub_distrib, ← sum_mul] at h1
    linarith
  have e3 : |D| ≤ S * ‖x‖ := by
    have h1 : |(∑ n, J n) * D| ≤ (∑ n, J n) * (S * ‖x‖) := by
      rw [e2, sum_mul]
      refine (abs_sum_le_sum_abs _ _).trans (sum_le_sum fun n _ => ?_)
      rw [abs_mul, abs_of_pos (hp.vol n)]
      exact mul_le_mul_of_nonneg_left (hs n) (hp.vol n).le
    rw [abs_mul, abs_of_pos hT] at h1
    exact le_of_mul_le_mul_left h1 hT
  rw [e1]
  have := abs_sub (∑ r, x (σ r) m) D
  linarith [hs m]

omit hp in
theorem norm_entry (x : Mat C M ℝ) (i : Fin C) (m : Fin M) : |x i m| ≤ ‖x‖ :=
  (norm_le_pi_norm (x i) m).trans (norm_le_pi_norm x i)

omit hp in
theorem exists_lower {α : Type} [Finite α] (f : α → ℝ) (hf : ∀ a, 0 < f a) : ∃ n > 0, ∀ a, n ≤ f a := by
  rcases isEmpty_or_nonempty α with h | h
  · exact ⟨1, one_pos, fun a => h.elim a⟩
  · obtain ⟨a, ha⟩ := Finite.exists_min f
    exact ⟨f a, hf a, ha⟩

theorem energy_ge {n : ℝ} (hn : 0 < n) (h : ∀ i m, n ≤ J m * (l i * phi i m)) (x : Mat C M ℝ) :
    n * ‖x‖ ^ 2 ≤ energy x l J phi := by
  have hE : ∀ m, 0 ≤ J m * ∑ i, l i * phi i m * x i m ^ 2 := fun m =>
    mul_nonneg (hp.vol m).le (sum_nonneg fun i _ =>
      mul_nonneg (mul_pos (hp.size i) (hp.pos i m)).le (sq_nonneg _))
  have h0 : 0 ≤ energy x l J phi := sum_nonneg fun m _ => hE m
  have h1 : ∀ i m, n * x i m ^ 2 ≤ energy x l J phi := fun i m => by
    have a1 : J m * ∑ i, l i * phi i m * x i m ^ 2 ≤ energy x l J phi :=
      single_le_sum (f := fun m => J m * ∑ i, l i * phi i m * x i m ^ 2) (fun m _ => hE m) (mem_univ m)
    have a2 : l i * phi i m * x i m ^ 2 ≤ ∑ i, l i * phi i m * x i m ^ 2 :=
      single_le_sum (f := fun i => l i * phi i m * x i m ^ 2)
        (fun i _ => mul_nonneg (mul_pos (hp.size i) (hp.pos i m)).le (sq_nonneg _)) (mem_univ i)
    calc n * x i m ^ 2 ≤ J m * (l i * phi i m) * x i m ^ 2 :=
          mul_le_mul_of_nonneg_right (h i m) (sq_nonneg _)
      _ = J m * (l i * phi i m * x i m ^ 2) := by ring
      _ ≤ _ := (mul_le_mul_of_nonneg_left a2 (hp.vol m).le).trans a1
  have h2 : ‖x‖ ≤ √(energy x l J phi / n) := by
    refine (pi_norm_le_iff_of_nonneg (Real.sqrt_nonneg _)).mpr fun i =>
      (pi_norm_le_iff_of_nonneg (Real.sqrt_nonneg _)).mpr fun m => ?_
    refine Real.abs_le_sqrt ?_
    rw [le_div_iff₀ hn]
    linarith [h1 i m]
  have h3 : ‖x‖ ^ 2 ≤ energy x l J phi / n := by
    calc ‖x‖ ^ 2 ≤ √(energy x l J phi / n) ^ 2 := by gcongr
      _ = _ := Real.sq_sqrt (by positivity)
  rw [le_div_iff₀ hn] at h3
  linarith

theorem exists_energy_ge : ∃ n > 0, ∀ x : Mat C M ℝ, n * ‖x‖ ^ 2 ≤ energy x l J phi := by
  obtain ⟨n, hn, h⟩ := exists_lower (fun a : Fin C × Fin M => J a.2 * (l a.1 * phi a.1 a.2))
    fun a => mul_pos (hp.vol _) (mul_pos (hp.size _) (hp.pos _ _))
  exact ⟨n, hn, energy_ge hp hn fun i m => h (i, m)⟩

/-- The coupling of volumes and fractions is dominated if the ratio of step sizes is small. -/
theorem coupling_le {κ t : ℝ} (hκ : ∀ i m, κ ≤ J m * l i) (hκ0 : 0 < κ) (ht : 0 < t) (hρ : 0 < ρ)
    (hρt : ρ ≤ 4 * κ * t ^ 2) (d : Vec M ℝ) (x : Mat C M ℝ) :
    ∑ m, d m * ∑ i, phi i m * x i m ≤ t * (energy x l J phi + (∑ m, d m ^ 2) / ρ) := by
  unfold energy
  rw [sum_div, ← sum_add_distrib, mul_sum]
  refine sum_le_sum fun m _ => ?_
  set P := ∑ i, phi i m * x i m with hP
  have h1 : P ^ 2 ≤ ∑ i, phi i m * x i m ^ 2 := by
    have := sum_mul_sq_le_sq_mul_sq univ (fun i => √(phi i m)) (fun i => √(phi i m) * x i m)
    have e1 : ∑ i, √(phi i m) * (√(phi i m) * x i m) = P := sum_congr rfl fun i _ => by
      rw [← mul_assoc, Real.mul_self_sqrt (hp.pos i m).le]
    have e2 : ∑ i, √(phi i m) ^ 2 = 1 := by
      rw [← hp.sum m]; exact sum_congr rfl fun i _ => Real.sq_sqrt (hp.pos i m).le
    have e3 : ∑ i, (√(phi i m) * x i m) ^ 2 = ∑ i, phi i m * x i m ^ 2 := sum_congr rfl fun i _ => by
      rw [mul_pow, Real.sq_sqrt (hp.pos i m).le]
    rw [e1, e2, e3, one_mul] at this
    exact this
  have h2 : κ * ∑ i, phi i m * x i m ^ 2 ≤ J m * ∑ i, l i * phi i m * x i m ^ 2 := by
    rw [mul_sum, mul_sum]
    refine sum_le_sum fun i _ => ?_
    have := mul_le_mul_of_nonneg_right (hκ i m) (mul_nonneg (hp.pos i m).le (sq_nonneg (x i m)))
    linarith
  have h3 : κ * P ^ 2 ≤ J m * ∑ i, l i * phi i m * x i m ^ 2 :=
    (mul_le_mul_of_nonneg_left h1 hκ0.le).trans h2
  have h4 : d m * P ≤ t * (κ * P ^ 2) + t * (d m ^ 2 / ρ) := by
    have a1 : 0 ≤ (2 * t * d m - ρ * P) ^ 2 := sq_nonneg _
    have a2 : 0 ≤ (4 * κ * t ^ 2 - ρ) * (ρ * P ^ 2) := mul_nonneg (by linarith) (by positivity)
    have a3 : t * (κ * P ^ 2) + t * (d m ^ 2 / ρ) - d m * P =
        ((2 * t * d m - ρ * P) ^ 2 + (4 * κ * t ^ 2 - ρ) * (ρ * P ^ 2)) / (4 * t * ρ) := by
      field_simp
      ring
    have a4 : 0 ≤ t * (κ * P ^ 2) + t * (d m ^ 2 / ρ) - d m * P := by rw [a3]; positivity
    linarith
  have h5 := mul_le_mul_of_nonneg_left h3 ht.le
  linarith

omit hp in
/-- Changes of the volumes can be chosen in proportion to the changes of the fractions. -/
theorem exists_conserving (J : Vec M ℝ) (phi : Mat C M ℝ) : ∃ L > 0, ∀ (w : Mat C M ℝ) (j : Vec M ℝ),
    Conserving J phi w j → ∃ j', Conserving J phi w j' ∧ ‖j'‖ ≤ L * ‖w‖ := by
  let A : Vec M ℝ →ₗ[ℝ] ℝ × Vec C ℝ :=
    { toFun := fun j => (∑ m, j m, fun i => ∑ m, j m * phi i m)
      map_add' := fun j k => by
        ext i
        · simp [sum_add_distrib]
        · simp [sum_add_distrib, add_mul]
      map_smul' := fun a j => by
        ext i
        · simp [mul_sum]
        · simp [mul_sum, mul_assoc] }
  obtain ⟨g, hg⟩ := LinearMap.exists_rightInverse_of_surjective A.rangeRestrict A.range_rangeRestrict
  set g' := LinearMap.toContinuousLinearMap g with hg'
  refine ⟨(‖g'‖ + 1) * (∑ m, |J m| + 1), by positivity, fun w j hj => ?_⟩
  have h1 : A (g (A.rangeRestrict j)) = A j := by
    have := congrArg Subtype.val (LinearMap.congr_fun hg (A.rangeRestrict j))
    simpa using this
  have h2 : ∑ m, g (A.rangeRestrict j) m = ∑ m, j m := congrArg Prod.fst h1
  have h3 : ∀ i, ∑ m, g (A.rangeRestrict j) m * phi i m = ∑ m, j m * phi i m := fun i =>
    congrFun (congrArg Prod.snd h1) i
  refine ⟨g (A.rangeRestrict j), ⟨h2.trans hj.1, fun i => by rw [h3]; exact hj.2 i⟩, ?_⟩
  have h4 : ‖A.rangeRestrict j‖ ≤ (∑ m, |J m| + 1) * ‖w‖ := by
    show ‖A j‖ ≤ _
    refine max_le ?_ ((pi_norm_le_iff_of_nonneg (by positivity)).mpr fun i => ?_)
    · show ‖∑ m, j m‖ ≤ _
      rw [hj.1, norm_zero]
      positivity
    · show |∑ m, j m * phi i m| ≤ _
      rw [show (∑ m, j m * phi i m) = -∑ m, J m * w i m by linarith [hj.2 i], abs_neg, add_mul, sum_mul]
      refine (abs_sum_le_sum_abs _ _).trans (le_add_of_le_of_nonneg (sum_le_sum fun m _ => ?_) (by positivity))
      rw [abs_mul]
      exact mul_le_mul_of_nonneg_left (norm_entry w i m) (abs_nonneg _)
  calc ‖g (A.rangeRestrict j)‖ = ‖g' (A.rangeRestrict j)‖ := rfl
    _ ≤ ‖g'‖ * ‖A.rangeRestrict j‖ := g'.le_opNorm _
    _ ≤ (‖g'‖ + 1) * ((∑ m, |J m| + 1) * ‖w‖) := by gcongr; linarith
    _ = _ := by ring

omit hp in
theorem exists_avg_le : ∃ K > 0, ∀ (w : Mat C M ℝ) (m : Fin M), |avg X l phi σ w m| ≤ K * ‖w‖ := by
  obtain ⟨L, hL, h⟩ := exists_form_le (E := Mat C M ℝ) (f := fun w => ∑ m, avg X l phi σ w m ^ 2)
    (by unfold avg hess; fun_prop) (fun t w => by
      rw [mul_sum]
      refine sum_congr rfl fun m _ => ?_
      have := avg_sub_smul (X := X) (l := l) (phi := phi) (σ := σ) (-t) 0 w m
      have h0 : avg X l phi σ (0 : Mat C M ℝ) m = 0 := by simp [avg, hess]
      rw [h0] at this
      simp only [zero_sub, neg_smul, neg_neg] at this
      rw [this]
      ring)
  refine ⟨√L, Real.sqrt_pos.mpr hL, fun w m => ?_⟩
  have h1 : avg X l phi σ w m ^ 2 ≤ L * ‖w‖ ^ 2 :=
    (single_le_sum (f := fun m => avg X l phi σ w m ^ 2) (fun m _ => sq_nonneg _) (mem_univ m)).trans
      ((le_abs_self _).trans (h w))
  have h2 := Real.abs_le_sqrt h1
  rwa [Real.sqrt_mul hL.le, Real.sqrt_sq (norm_nonneg _)] at h2

theorem form_smul (c t : ℝ) : form X l J phi σ c (t • w) (t • w) = t ^ 2 * form X l J phi σ c w w := by
  have := form_sub_smul (J := J) (l := l) (phi := phi) (σ := σ) hp.symm c (-t) 0 w
  have h0 : ∀ z, form X l J phi σ c (0 : Mat C M ℝ) z = 0 := fun z => by simp [form, hess, avg, tot]
  rw [h0, h0] at this
  simpa using this

omit [NeZero S] in
theorem form_pos {w : Mat C M ℝ} (hw : w ≠ 0) (hg : ∑ m, J m * tot w m ^ 2 = 0) :
    0 < form X l J phi σ 0 w w := by
  have ht : ∀ m, tot w m = 0 := fun m => by
    have := (sum_eq_zero_iff_of_nonneg fun m _ => mul_nonneg (hp.vol m).le (sq_nonneg (tot w m))).mp hg m
      (mem_univ m)
    rcases mul_eq_zero.mp this with h | h
    · exact absurd h (hp.vol m).ne'
    · exact pow_eq_zero_iff (two_ne_zero) |>.mp h
  have e1 : form X l J phi σ 0 w w = ∑ m, J m * (∑ i, w i m ^ 2 / (l i * phi i m) +
      ∑ i, ∑ j, X i j * w i m * w j m) := by
    unfold form
    refine sum_congr rfl fun m _ => ?_
    rw [ht m]
    unfold hess
    simp only [mul_add, sum_add_distrib, mul_sum, zero_mul, mul_zero, sub_zero, add_zero]
    rw [add_comm]
    congr 1
    · exact sum_congr rfl fun i _ => by ring
    · exact sum_congr rfl fun i _ => sum_congr rfl fun j _ => by ring
  have hnn : ∀ m, 0 ≤ ∑ i, w i m ^ 2 / (l i * phi i m) + ∑ i, ∑ j, X i j * w i m * w j m := fun m => by
    by_cases h0 : (fun i => w i m) = 0
    · have : ∀ i, w i m = 0 := fun i => congrFun h0 i
      simp [this]
    · exact (hp.stable m (fun i => w i m) (ht m) h0).le
  obtain ⟨m, hm⟩ : ∃ m, (fun i => w i m) ≠ 0 := by
    by_contra hcon
    push Not at hcon
    exact hw (funext fun i => funext fun m => congrFun (hcon m) i)
  rw [e1]
  exact sum_pos' (fun m _ => mul_nonneg (hp.vol m).le (hnn m))
    ⟨m, mem_univ m, mul_pos (hp.vol m) (hp.stable m _ (ht m) hm)⟩

theorem form_coercive : ∃ c₀ > 0, ∃ v > 0, ∀ c, c₀ ≤ c → ∀ w : Mat C M ℝ,
    v * ‖w‖ ^ 2 ≤ form X l J phi σ c w w := by
  have hS : (0 : ℝ) < S := by exact_mod_cast Nat.pos_of_ne_zero (NeZero.ne S)
  obtain ⟨c₀, hc₀, v, hv, h⟩ := exists_form_bound (E := Mat C M ℝ) (f := fun w => form X l J phi σ 0 w w)
    (g := fun w => ∑ m, J m * tot w m ^ 2) (by unfold form hess avg tot hess; fun_prop)
    (by unfold tot; fun_prop) (fun t w => form_smul hp w 0 t)
    (fun t w => by
      rw [mul_sum]
      refine sum_congr rfl fun m _ => ?_
      have : tot (t • w) m = t * tot w m := by unfold tot; rw [mul_sum]; rfl
      rw [this]; ring)
    (fun w => sum_nonneg fun m _ => mul_nonneg (hp.vol m).le (sq_nonneg _))
    fun w hw hg => form_pos hp hw hg
  refine ⟨c₀ * S, by positivity, v, hv, fun c hc w => ?_⟩
  have h1 := h (c / S) (by rw [le_div_iff₀ hS]; exact hc) w
  refine h1.trans (le_of_eq ?_)
  unfold form
  rw [mul_sum, ← sum_add_distrib]
  refine sum_congr rfl fun m _ => ?_
  ring

omit hp in
theorem form_bound {F v K w x d : ℝ} (hv : 0 < v) (hK : 0 < K) (hw : 0 ≤ w) (hx : 0 ≤ x) (hd : 0 ≤ d)
    (h5 : F ≤ K * (w * (x + d))) (h6 : v * w ^ 2 ≤ F) : F ≤ 2 * K ^ 2 / v * (x ^ 2 + d ^ 2) := by
  have h7 : v * w ≤ K * (x + d) := by
    rcases eq_or_lt_of_le hw with h0 | h0
    · rw [← h0, mul_zero]; positivity
    · refine le_of_mul_le_mul_right ?_ h0
      calc v * w * w = v * w ^ 2 := by ring
        _ ≤ K * (w * (x + d)) := h6.trans h5
        _ = _ := by ring
  have h8 : (x + d) ^ 2 ≤ 2 * (x ^ 2 + d ^ 2) := by nlinarith [sq_nonneg (x - d)]
  have h9 : K * (w * (x + d)) ≤ K ^ 2 / v * (x + d) ^ 2 := by
    rw [div_mul_eq_mul_div, le_div_iff₀ hv]
    have h0 : 0 ≤ K * (x + d) := by positivity
    calc _ = (v * w) * (K * (x + d)) := by ring
      _ ≤ (K * (x + d)) * (K * (x + d)) := mul_le_mul_of_nonneg_right h7 h0
      _ = _ := by ring
  calc F ≤ _ := h5.trans h9
    _ ≤ K ^ 2 / v * (2 * (x ^ 2 + d ^ 2)) := by gcongr
    _ = _ := by ring

omit hp in
theorem decrease_bound {F D Z ε L Lz K x d z a : ℝ} (hε : 0 < ε) (hL : 0 < L) (hLz : 0 < Lz) (hK : 0 < K)
    (ha : 0 < a) (ha0 : a ≤ ε / (L * Lz ^ 2)) (_hx : 0 ≤ x) (hz : 0 ≤ z) (h1 : ε * (x ^ 2 + d ^ 2) ≤ D)
    (h2 : F ≤ K * (x ^ 2 + d ^ 2)) (h3 : Z ≤ L * z ^ 2) (h4 : z ≤ Lz * x) :
    F - 2 * a * D + a ^ 2 * Z ≤ (1 - ε / K * a) * F := by
  have h5 : a ^ 2 * Z ≤ a * (ε * (x ^ 2 + d ^ 2)) := by
    have hzx : Z ≤ L * Lz ^ 2 * x ^ 2 := by
      calc Z ≤ L * z ^ 2 := h3
        _ ≤ L * (Lz * x) ^ 2 := by gcongr
        _ = _ := by ring
    have haL : a * (L * Lz ^ 2) ≤ ε := by rwa [le_div_iff₀ (by positivity)] at ha0
    calc a ^ 2 * Z ≤ a ^ 2 * (L * Lz ^ 2 * x ^ 2) := by gcongr
      _ = a * (a * (L * Lz ^ 2) * x ^ 2) := by ring
      _ ≤ a * (ε * x ^ 2) := by gcongr
      _ ≤ _ := by gcongr; linarith [sq_nonneg d]
  have h6 : a * (ε / K * F) ≤ a * (ε * (x ^ 2 + d ^ 2)) := by
    refine mul_le_mul_of_nonneg_left ?_ ha.le
    rw [div_mul_eq_mul_div, div_le_iff₀ hK]
    calc ε * F ≤ ε * (K * (x ^ 2 + d ^ 2)) := by gcongr
      _ = _ := by ring
  have h7 : a * (ε * (x ^ 2 + d ^ 2)) ≤ a * D := by gcongr
  linarith

/-- Bounds that determine the acceptances for which a form decreases. -/
structure DecBounds (X : Mat C C ℝ) (l : Vec C ℝ) (J : Vec M ℝ) (phi : Mat C M ℝ) (σ : Fin S → Fin C)
    (c₁ v n K Lz κ T : ℝ) : Prop where
  coercive : ∀ c, c₁ ≤ c → ∀ w : Mat C M ℝ, v * ‖w‖ ^ 2 ≤ form X l J phi σ c w w
  energy : ∀ x : Mat C M ℝ, n * ‖x‖ ^ 2 ≤ energy x l J phi
  avg : ∀ (w : Mat C M ℝ) (m : Fin M), |avg X l phi σ w m| ≤ K * ‖w‖
  size : ∀ i m, l i * phi i m ≤ Lz
  vol : ∀ i m, κ ≤ J m * l i
  total : ∑ m, J m = T

omit hp in
/-- The form decreases in a pass near separated phases, for acceptances that only depend on bounds. -/
theorem decrease_of {l : Vec C ℝ} {c₁ v n K Lz κ T R : ℝ} (hc₁ : 0 < c₁) (hv : 0 < v) (hn : 0 < n) (hK : 0 < K)
    (hLz : 0 < Lz) (hκ0 : 0 < κ) (hT0 : 0 < T) (hR : R < 4 * κ) :
    ∃ c₀ > 0, c₁ ≤ c₀ ∧ ∀ ρ, 0 < ρ → ρ ≤ R → ∀ L, 0 < L → ∃ a₀ > 0, ∀ c, c₀ ≤ c →
    ∀ (X : Mat C C ℝ) (J : Vec M ℝ) (phi : Mat C M ℝ), StablePhases X l J phi →
      DecBounds X l J phi σ c₁ v n K Lz κ T → (∀ w : Mat C M ℝ, form X l J phi σ c w w ≤ L * ‖w‖ ^ 2) →
    ∃ γ > 0, ∀ a, 0 < a → a ≤ a₀ → ∀ (w : Mat C M ℝ) (j : Vec M ℝ),
      Conserving J phi w j → form X l J phi σ c (w - a • dphi X l J phi σ ρ c w)
        (w - a • dphi X l J phi σ ρ c w) ≤ (1 - γ * a) * form X l J phi σ c w w := by
  have hS : (0 : ℝ) < S := by exact_mod_cast Nat.pos_of_ne_zero (NeZero.ne S)
  set R' := max R (2 * κ) with hR'
  have hR'0 : 0 < R' := lt_max_of_lt_right (by linarith)
  have hR'4 : R' < 4 * κ := max_lt hR (by linarith)
  set θ := R' / (4 * κ) with hθ
  have hθ0 : 0 < θ := by positivity
  have hθ1 : θ < 1 := by rw [hθ, div_lt_one (by linarith)]; exact hR'4
  set t := (1 + θ) / 2 with ht
  have ht0 : 0 < t := by positivity
  have ht1 : t < 1 := by rw [ht]; linarith
  have htθ : θ ≤ t ^ 2 := by
    have : 0 ≤ (1 - θ) ^ 2 := sq_nonneg _
    rw [ht]; nlinarith
  have hRt : ∀ ρ, ρ ≤ R → ρ ≤ 4 * κ * t ^ 2 := fun ρ h => by
    calc ρ ≤ R' := h.trans (le_max_left _ _)
      _ = 4 * κ * θ := by rw [hθ]; field_simp
      _ ≤ _ := by gcongr
  set K' := T * (2 * S) * (K * Lz) with hK'
  have hK'0 : 0 < K' := by positivity
  refine ⟨max c₁ (2 * K' / (n * (1 - t))), lt_max_of_lt_left hc₁, le_max_left _ _, fun ρ hρ hρR L hL => ?_⟩
  set ε := min (n * (1 - t) / 2) ((1 - t) / (2 * ρ)) with hε
  have h1t : 0 < 1 - t := by linarith
  have hε0 : 0 < ε := lt_min (by positivity) (by positivity)
  refine ⟨ε / (L * Lz ^ 2), by positivity, fun c hc X J phi hp hB hLf => ?_⟩
  have hcc₁ : c₁ ≤ c := (le_max_left _ _).trans hc
  have hc0 : 0 < c := hc₁.trans_le hcc₁
  have hc2 : 2 * K' ≤ c * (n * (1 - t)) := by
    have := (le_max_right _ _).trans hc
    rwa [div_le_iff₀ (mul_pos hn (by linarith))] at this
  obtain ⟨hco, hen, havg, hz, hκ, hT⟩ := hB
  obtain ⟨Lj, hLj, hjj⟩ := exists_conserving J phi
  have hT0 : 0 < T := hT ▸ sum_pos (fun m _ => hp.vol m) univ_nonempty
  have hdz : ∀ ρ c w, ‖dphi X l J phi σ ρ c w‖ ≤ Lz * ‖rel X l J phi σ ρ c w‖ := fun ρ c w => by
    refine (pi_norm_le_iff_of_nonneg (by positivity)).mpr fun i =>
      (pi_norm_le_iff_of_nonneg (by positivity)).mpr fun m => ?_
    show |l i * phi i m * rel X l J phi σ ρ c w i m| ≤ _
    rw [abs_mul, abs_of_pos (mul_pos (hp.size i) (hp.pos i m))]
    exact mul_le_mul (hz i m) (norm_entry _ i m) (abs_nonneg _) hLz.le
  have htm : ∀ (w : Mat C M ℝ) (j : Vec M ℝ), Conserving J phi w j → ∀ m,
      |tot w m| ≤ 2 * S / c * ‖rel X l J phi σ ρ c w‖ := fun w j hj m => by
    have h1 := tot_le (X := X) (l := l) (σ := σ) (ρ := ρ) (c := c) hp w hj m
    rw [abs_mul, abs_of_pos hc0] at h1
    rw [div_mul_eq_mul_div, le_div_iff₀ hc0]
    linarith
  have htavg : ∀ (w : Mat C M ℝ) (j : Vec M ℝ), Conserving J phi w j → ∀ z : Mat C M ℝ,
      |∑ m, J m * (tot w m * avg X l phi σ z m)| ≤
        T * (2 * S / c * ‖rel X l J phi σ ρ c w‖ * (K * ‖z‖)) := fun w j hj z => by
    rw [← hT, sum_mul]
    refine (abs_sum_le_sum_abs _ _).trans (sum_le_sum fun m _ => ?_)
    rw [abs_mul, abs_of_pos (hp.vol m), abs_mul]
    exact mul_le_mul_of_nonneg_left (mul_le_mul (htm w j hj m) (havg z m) (abs_nonneg _) (by positivity))
      (hp.vol m).le
  -- lower bound of the decrease
  have hdec : ∀ (w : Mat C M ℝ) (j : Vec M ℝ), Conserving J phi w j →
      ε * (‖rel X l J phi σ ρ c w‖ ^ 2 + ‖dvol X l phi σ ρ c w‖ ^ 2) ≤
        form X l J phi σ c w (dphi X l J phi σ ρ c w) := fun w j hj => by
    set x := rel X l J phi σ ρ c w with hx
    set d := dvol X l phi σ ρ c w with hd
    have h1 := coupling_le hp hκ hκ0 ht0 hρ (hRt ρ hρR) d x
    have h2 := (abs_le.mp (htavg w j hj (dphi X l J phi σ ρ c w))).2
    have h3 : T * (2 * S / c * ‖x‖ * (K * ‖dphi X l J phi σ ρ c w‖)) ≤ K' / c * ‖x‖ ^ 2 := by
      calc _ ≤ T * (2 * S / c * ‖x‖ * (K * (Lz * ‖x‖))) := by gcongr; exact hdz ρ c w
        _ = _ := by rw [hK']; ring
    have h4 : K' / c ≤ n * (1 - t) / 2 := by
      rw [div_le_div_iff₀ hc0 two_pos]; linarith
    have h5 := hen x
    have h6 : ‖d‖ ^ 2 ≤ ∑ m, d m ^ 2 := by
      have hs0 : 0 ≤ ∑ m, d m ^ 2 := sum_nonneg fun m _ => sq_nonneg _
      have : ‖d‖ ≤ √(∑ m, d m ^ 2) := (pi_norm_le_iff_of_nonneg (Real.sqrt_nonneg _)).mpr fun m =>
        Real.abs_le_sqrt (single_le_sum (f := fun m => d m ^ 2) (fun m _ => sq_nonneg _) (mem_univ m))
      calc ‖d‖ ^ 2 ≤ √(∑ m, d m ^ 2) ^ 2 := by gcongr
        _ = _ := Real.sq_sqrt hs0
    rw [form_dphi hp w hρ.ne', ← hx, ← hd]
    rw [← hx] at h2
    have h7 : K' / c * ‖x‖ ^ 2 ≤ n * (1 - t) / 2 * ‖x‖ ^ 2 := by gcongr
    have h8 : (1 - t) * (n * ‖x‖ ^ 2) ≤ (1 - t) * energy x l J phi := by gcongr
    have h9 : (1 - t) * (‖d‖ ^ 2 / ρ) ≤ (1 - t) * ((∑ m, d m ^ 2) / ρ) := by gcongr
    have h10 : ε * ‖x‖ ^ 2 ≤ n * (1 - t) / 2 * ‖x‖ ^ 2 := by gcongr; exact min_le_left _ _
    have h11 : ε * ‖d‖ ^ 2 ≤ (1 - t) / (2 * ρ) * ‖d‖ ^ 2 := by gcongr; exact min_le_right _ _
    have h12 : (1 - t) / (2 * ρ) * ‖d‖ ^ 2 ≤ (1 - t) * (‖d‖ ^ 2 / ρ) := by
      have : (1 - t) * (‖d‖ ^ 2 / ρ) - (1 - t) / (2 * ρ) * ‖d‖ ^ 2 = (1 - t) / (2 * ρ) * ‖d‖ ^ 2 := by
        field_simp; ring
      have : 0 ≤ (1 - t) / (2 * ρ) * ‖d‖ ^ 2 := by positivity
      linarith
    clear_value x d
    linarith
  -- the form is bounded by the changes
  set C3 := T * C + M * Lj * (1 + 1 / ρ) + T * (2 * S / c * K) + 1 with hC3
  have hC30 : 0 < C3 := by positivity
  have hform : ∀ (w : Mat C M ℝ) (j : Vec M ℝ), Conserving J phi w j → form X l J phi σ c w w ≤
      2 * C3 ^ 2 / v * (‖rel X l J phi σ ρ c w‖ ^ 2 + ‖dvol X l phi σ ρ c w‖ ^ 2) := fun w j hj => by
    obtain ⟨k, hk, hkn⟩ := hjj w j hj
    have hs := form_self (X := X) (l := l) (σ := σ) (c := c) w hρ.ne' hk
    have h2 := (abs_le.mp (htavg w j hj w)).1
    set x := rel X l J phi σ ρ c w with hx
    set d := dvol X l phi σ ρ c w with hd
    have h1 : ∑ m, J m * ∑ i, w i m * x i m ≤ T * (C * (‖w‖ * ‖x‖)) := by
      rw [← hT, sum_mul]
      refine sum_le_sum fun m _ => mul_le_mul_of_nonneg_left ?_ (hp.vol m).le
      refine (sum_le_sum (g := fun _ => ‖w‖ * ‖x‖) fun i _ => ?_).trans (by simp)
      refine (le_abs_self _).trans ?_
      rw [abs_mul]
      exact mul_le_mul (norm_entry w i m) (norm_entry x i m) (abs_nonneg _) (norm_nonneg _)
    have h3 : ∑ m, k m * ∑ i, phi i m * x i m ≤ M * (Lj * ‖w‖ * ‖x‖) := by
      refine (sum_le_sum (g := fun _ => Lj * ‖w‖ * ‖x‖) fun m _ => ?_).trans (by simp)
      refine (le_abs_self _).trans ?_
      rw [abs_mul]
      refine mul_le_mul ((norm_le_pi_norm k m).trans hkn) ?_ (abs_nonneg _) (by positivity)
      refine (abs_sum_le_sum_abs _ _).trans ?_
      calc _ ≤ ∑ i, phi i m * ‖x‖ := sum_le_sum fun i _ => by
            rw [abs_mul, abs_of_pos (hp.pos i m)]
            exact mul_le_mul_of_nonneg_left (norm_entry x i m) (hp.pos i m).le
        _ = ‖x‖ := by rw [← sum_mul, hp.sum, one_mul]
    have h4 : -((∑ m, k m * d m) / ρ) ≤ M * (Lj * ‖w‖ * ‖d‖) / ρ := by
      rw [← neg_div]
      refine div_le_div_of_nonneg_right ?_ hρ.le
      rw [← sum_neg_distrib]
      refine (sum_le_sum (g := fun _ => Lj * ‖w‖ * ‖d‖) fun m _ => ?_).trans (by simp)
      refine (neg_le_abs _).trans ?_
      rw [abs_mul]
      exact mul_le_mul ((norm_le_pi_norm k m).trans hkn) (norm_le_pi_norm d m) (abs_nonneg _)
        (by positivity)
    set F := form X l J phi σ c w w with hF
    have h5 : F ≤ C3 * (‖w‖ * (‖x‖ + ‖d‖)) := by
      have e : C3 * (‖w‖ * (‖x‖ + ‖d‖)) - (T * (C * (‖w‖ * ‖x‖)) + (M * (Lj * ‖w‖ * ‖x‖) +
          M * (Lj * ‖w‖ * ‖d‖) / ρ) + T * (2 * S / c * ‖x‖ * (K * ‖w‖))) =
          T * C * (‖w‖ * ‖d‖) + M * Lj * (‖w‖ * ‖d‖) + M * Lj * (1 / ρ) * (‖w‖ * ‖x‖) +
          T * (2 * S / c * K) * (‖w‖ * ‖d‖) + ‖w‖ * (‖x‖ + ‖d‖) := by
        rw [hC3]; ring
      have : 0 ≤ T * C * (‖w‖ * ‖d‖) + M * Lj * (‖w‖ * ‖d‖) + M * Lj * (1 / ρ) * (‖w‖ * ‖x‖) +
          T * (2 * S / c * K) * (‖w‖ * ‖d‖) + ‖w‖ * (‖x‖ + ‖d‖) := by positivity
      linarith
    have h6 := hco c hcc₁ w
    rw [← hF] at h6
    exact form_bound hv hC30 (norm_nonneg w) (norm_nonneg x) (norm_nonneg d) h5 h6
  refine ⟨ε / (2 * C3 ^ 2 / v), by positivity, fun a ha ha0 w j hj => ?_⟩
  rw [form_sub_smul hp.symm]
  exact decrease_bound hε0 hL hLz (by positivity) ha ha0 (norm_nonneg _) (norm_nonneg _) (hdec w j hj)
    (hform w j hj) (hLf _) (hdz ρ c w)

/-- The form decreases in a pass near separated phases. -/
theorem form_decrease {κ R : ℝ} (hκ0 : 0 < κ) (hκ : ∀ i m, κ ≤ J m * l i) (hR : R < 4 * κ) :
    ∃ c₀ > 0, ∀ c, c₀ ≤ c → ∃ v > 0, (∀ w : Mat C M ℝ, v * ‖w‖ ^ 2 ≤ form X l J phi σ c w w) ∧
    ∀ ρ, 0 < ρ → ρ ≤ R → ∃ a₀ > 0, ∃ γ > 0, ∀ a, 0 < a → a ≤ a₀ → ∀ (w : Mat C M ℝ) (j : Vec M ℝ),
      Conserving J phi w j → form X l J phi σ c (w - a • dphi X l J phi σ ρ c w)
        (w - a • dphi X l J phi σ ρ c w) ≤ (1 - γ * a) * form X l J phi σ c w w := by
  obtain ⟨c₁, hc₁, v, hv, hco⟩ := form_coercive (σ := σ) hp
  obtain ⟨n, hn, hen⟩ := exists_energy_ge hp
  obtain ⟨K, hK, havg⟩ := exists_avg_le (X := X) (l := l) (phi := phi) (σ := σ)
  have hT0 : 0 < ∑ m, J m := sum_pos (fun m _ => hp.vol m) univ_nonempty
  obtain ⟨Lz, hLz, hz⟩ : ∃ Lz > 0, ∀ i m, l i * phi i m ≤ Lz := by
    refine ⟨∑ i, ∑ m, l i * phi i m + 1, ?_, fun i m => ?_⟩
    · have : 0 ≤ ∑ i, ∑ m, l i * phi i m :=
        sum_nonneg fun i _ => sum_nonneg fun m _ => (mul_pos (hp.size i) (hp.pos i m)).le
      linarith
    · have h1 : l i * phi i m ≤ ∑ m, l i * phi i m := single_le_sum (f := fun m => l i * phi i m)
        (fun m _ => (mul_pos (hp.size i) (hp.pos i m)).le) (mem_univ m)
      have h2 : ∑ m, l i * phi i m ≤ ∑ i, ∑ m, l i * phi i m :=
        single_le_sum (f := fun i => ∑ m, l i * phi i m)
          (fun i _ => sum_nonneg fun m _ => (mul_pos (hp.size i) (hp.pos i m)).le) (mem_univ i)
      linarith
  obtain ⟨c₀, hc₀, hcc, h⟩ := decrease_of (M := M) (σ := σ) (l := l) hc₁ hv hn hK hLz hκ0 hT0 hR
  refine ⟨c₀, hc₀, fun c hc => ⟨v, hv, hco c (hcc.trans hc), fun ρ hρ hρR => ?_⟩⟩
  obtain ⟨L, hL, hLf⟩ := exists_form_le (E := Mat C M ℝ) (f := fun w => form X l J phi σ c w w)
    (by unfold form hess avg tot hess; fun_prop) (fun s w => form_smul hp w c s)
  obtain ⟨a₀, ha₀, h⟩ := h ρ hρ hρR L hL
  obtain ⟨γ, hγ, h⟩ := h c hc X J phi hp ⟨hco, hen, havg, hz, hκ, rfl⟩ fun w => (le_abs_self _).trans (hLf w)
  exact ⟨a₀, ha₀, γ, hγ, h⟩

end Sep

end Flory
