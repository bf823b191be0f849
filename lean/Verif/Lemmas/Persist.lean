import Verif.Lemmas.SeparatedMap
import Verif.Spec.Separated
import Mathlib.Analysis.Calculus.InverseFunctionTheorem.FDeriv
import Mathlib.Analysis.Normed.Module.FiniteDimension

/-! # Coexisting stable phases persist when interaction and mean composition change -/

set_option linter.unusedSectionVars false

namespace Flory.Persist

open Finset Topology Flory.Sep

variable {C P : ℕ}

/-- Unknowns: compositions and volumes of the phases, and the chemical potentials. -/
abbrev Unknown (C P : ℕ) := Mat C P ℝ × Vec P ℝ × Vec C ℝ

/-- The pressure of a phase, up to sign. -/
noncomputable def press (X : Mat C C ℝ) (l : Vec C ℝ) (ψ : Mat C P ℝ) (k : Fin P) : ℝ :=
  1 / 2 * (∑ i, ∑ j, X i j * ψ i k * ψ j k) + ∑ i, ψ i k / l i

/-- Balance, incompressibility and mean composition, next to the interaction. -/
noncomputable def eqs (l : Vec C ℝ) (p : Mat C C ℝ × Unknown C P) : Mat C C ℝ × Unknown C P :=
  (p.1, fun i k => pot p.1 l p.2.1 i k - press p.1 l p.2.1 k - p.2.2.2 i,
    fun k => ∑ i, p.2.1 i k - 1, fun i => ∑ k, p.2.2.1 k * p.2.1 i k)

variable {l : Vec C ℝ} {X : Mat C C ℝ} {ψ : Mat C P ℝ} {V : Vec P ℝ} {μ : Vec C ℝ}

theorem eqs_contDiffAt (hpos : ∀ i k, 0 < ψ i k) : ContDiffAt ℝ 1 (eqs l) (X, ψ, V, μ) := by
  have hX : ∀ i j, ContDiffAt ℝ 1 (fun p : Mat C C ℝ × Unknown C P => p.1 i j) (X, ψ, V, μ) := fun i j =>
    contDiffAt_pi.mp (contDiffAt_pi.mp contDiffAt_fst i) j
  have hψ : ∀ i k, ContDiffAt ℝ 1 (fun p : Mat C C ℝ × Unknown C P => p.2.1 i k) (X, ψ, V, μ) := fun i k =>
    contDiffAt_pi.mp (contDiffAt_pi.mp (contDiffAt_fst.comp _ contDiffAt_snd) i) k
  have hV : ∀ k, ContDiffAt ℝ 1 (fun p : Mat C C ℝ × Unknown C P => p.2.2.1 k) (X, ψ, V, μ) := fun k =>
    contDiffAt_pi.mp ((contDiffAt_fst.comp _ contDiffAt_snd).comp _ contDiffAt_snd) k
  have hμ : ∀ i, ContDiffAt ℝ 1 (fun p : Mat C C ℝ × Unknown C P => p.2.2.2 i) (X, ψ, V, μ) := fun k =>
    contDiffAt_pi.mp ((contDiffAt_snd.comp _ contDiffAt_snd).comp _ contDiffAt_snd) k
  unfold eqs pot press
  refine contDiffAt_fst.prodMk (ContDiffAt.prodMk (contDiffAt_pi.mpr fun i => contDiffAt_pi.mpr fun k => ?_)
    (ContDiffAt.prodMk (contDiffAt_pi.mpr fun k => ?_) (contDiffAt_pi.mpr fun i => ?_)))
  · refine ((((ContDiffAt.sum fun j _ => (hX i j).mul (hψ j k)).add
      (((hψ i k).log (hpos i k).ne').div_const _)).sub ((contDiffAt_const.mul (ContDiffAt.sum fun i _ =>
        ContDiffAt.sum fun j _ => ((hX i j).mul (hψ i k)).mul (hψ j k))).add
        (ContDiffAt.sum fun i _ => (hψ i k).div_const _)))).sub (hμ i)
  · exact (ContDiffAt.sum fun i _ => hψ i k).sub contDiffAt_const
  · exact ContDiffAt.sum fun k _ => (hV k).mul (hψ i k)

/-- The derivative of the equations at fixed interaction. -/
theorem eqs_line (hpos : ∀ i k, 0 < ψ i k) (hl : ∀ i, 0 < l i) (w : Mat C P ℝ) (y : Vec P ℝ) (u : Vec C ℝ) :
    HasDerivAt (fun t : ℝ => (eqs l ((X, ψ, V, μ) + t • (0, w, y, u))).2)
      (fun i k => hess X l ψ w i k - (1 / 2 * (∑ i, ∑ j, (X i j * w i k * ψ j k + X i j * ψ i k * w j k)) +
          ∑ i, w i k / l i) - u i, fun k => ∑ i, w i k, fun i => ∑ k, (y k * ψ i k + V k * w i k)) 0 := by
  have hψ : ∀ i k, HasDerivAt (fun t : ℝ => ψ i k + t * w i k) (w i k) 0 := fun i k => by
    simpa using ((hasDerivAt_id (0 : ℝ)).mul_const (w i k)).const_add (ψ i k)
  have hV : ∀ k, HasDerivAt (fun t : ℝ => V k + t * y k) (y k) 0 := fun k => by
    simpa using ((hasDerivAt_id (0 : ℝ)).mul_const (y k)).const_add (V k)
  have hμ : ∀ i, HasDerivAt (fun t : ℝ => μ i + t * u i) (u i) 0 := fun i => by
    simpa using ((hasDerivAt_id (0 : ℝ)).mul_const (u i)).const_add (μ i)
  unfold eqs pot press
  simp only [Prod.smul_mk, Prod.mk_add_mk, smul_zero, add_zero, Pi.add_apply, Pi.smul_apply, smul_eq_mul]
  refine HasDerivAt.prodMk (hasDerivAt_pi.mpr fun i => hasDerivAt_pi.mpr fun k => ?_)
    (HasDerivAt.prodMk (hasDerivAt_pi.mpr fun k => ?_) (hasDerivAt_pi.mpr fun i => ?_))
  · have h := (((HasDerivAt.fun_sum fun j (_ : j ∈ univ) => (hψ j k).const_mul (X i j)).add
      (((hψ i k).log (by simpa using (hpos i k).ne')).div_const (l i))).sub
      (((HasDerivAt.fun_sum fun i (_ : i ∈ univ) => HasDerivAt.fun_sum fun j (_ : j ∈ univ) =>
        ((hψ i k).const_mul (X i j)).mul (hψ j k)).const_mul (1 / 2 : ℝ)).add
        (HasDerivAt.fun_sum fun i (_ : i ∈ univ) => (hψ i k).div_const (l i)))).sub (hμ i)
    refine h.congr_deriv ?_
    have := (hpos i k).ne'
    have := (hl i).ne'
    simp only [zero_mul, add_zero]
    unfold hess
    field_simp
  · exact (HasDerivAt.fun_sum fun i (_ : i ∈ univ) => hψ i k).sub_const 1
  · have h := HasDerivAt.fun_sum fun k (_ : k ∈ univ) => (hV k).mul (hψ i k)
    refine h.congr_deriv ?_
    simp

/-- The linearized equations have only the trivial solution. -/
theorem eqs_injective (hp : StablePhases X l V ψ) (hi : Spec.IndependentPhases ψ) {w : Mat C P ℝ} {y : Vec P ℝ}
    {u : Vec C ℝ}
    (h1 : ∀ i k, hess X l ψ w i k - (1 / 2 * (∑ i, ∑ j, (X i j * w i k * ψ j k + X i j * ψ i k * w j k)) +
          ∑ i, w i k / l i) - u i = 0) (h2 : ∀ k, ∑ i, w i k = 0)
    (h3 : ∀ i, ∑ k, (y k * ψ i k + V k * w i k) = 0) (hP : 0 < P) : w = 0 ∧ y = 0 ∧ u = 0 := by
  set g : Fin P → ℝ := fun k => 1 / 2 * (∑ i, ∑ j, (X i j * w i k * ψ j k + X i j * ψ i k * w j k)) +
          ∑ i, w i k / l i with hg
  have hgd : ∀ k, ∑ i, ψ i k * hess X l ψ w i k = g k := fun k => by
    have e1 : ∀ i, ψ i k * hess X l ψ w i k = ∑ j, X i j * ψ i k * w j k + w i k / l i := fun i => by
      have := (hp.pos i k).ne'
      have := (hp.size i).ne'
      unfold hess
      rw [mul_add, mul_sum]
      congr 1
      · exact sum_congr rfl fun j _ => by ring
      · field_simp
    have e2 : ∑ i, ∑ j, X i j * w i k * ψ j k = ∑ i, ∑ j, X i j * ψ i k * w j k := by
      rw [sum_comm]
      refine sum_congr rfl fun i _ => sum_congr rfl fun j _ => ?_
      rw [hp.symm j i]; ring
    simp only [e1, hg, sum_add_distrib, e2]
    ring
  have hh : ∀ i k, hess X l ψ w i k = g k + u i := fun i k => by
    have h : hess X l ψ w i k - g k - u i = 0 := h1 i k
    linarith
  have hu : ∀ k, ∑ i, ψ i k * u i = 0 := fun k => by
    have h := hgd k
    simp only [hh, mul_add, sum_add_distrib, ← sum_mul, hp.sum] at h
    linarith
  have hzero : ∑ k, V k * ∑ i, w i k * hess X l ψ w i k = 0 := by
    have e1 : ∀ k, ∑ i, w i k * hess X l ψ w i k = ∑ i, w i k * u i := fun k => by
      simp only [hh, mul_add, sum_add_distrib, ← sum_mul, h2, zero_mul, zero_add]
    have e2 : ∑ i, u i * ∑ k, (y k * ψ i k + V k * w i k) = 0 := by simp [h3]
    have e3 : ∑ i, u i * ∑ k, (y k * ψ i k + V k * w i k) =
        ∑ k, y k * (∑ i, ψ i k * u i) + ∑ k, V k * ∑ i, w i k * u i := by
      simp only [mul_sum, mul_add, sum_add_distrib]
      congr 1
      · rw [sum_comm]
        exact sum_congr rfl fun i _ => sum_congr rfl fun j _ => by ring
      · rw [sum_comm]
        exact sum_congr rfl fun i _ => sum_congr rfl fun j _ => by ring
    rw [e3] at e2
    simp only [hu, mul_zero, sum_const_zero, zero_add] at e2
    simpa only [e1] using e2
  have hform : ∀ k, ∑ i, w i k * hess X l ψ w i k =
      ∑ i, w i k ^ 2 / (l i * ψ i k) + ∑ i, ∑ j, X i j * w i k * w j k := fun k => by
    unfold hess
    simp only [mul_add, sum_add_distrib, mul_sum]
    rw [add_comm]
    congr 1
    · exact sum_congr rfl fun i _ => by ring
    · exact sum_congr rfl fun i _ => sum_congr rfl fun j _ => by ring
  have hnn : ∀ k, 0 ≤ ∑ i, w i k * hess X l ψ w i k := fun k => by
    by_cases hw : (fun i => w i k) = 0
    · have : ∀ i, w i k = 0 := fun i => congrFun hw i
      simp [this]
    · rw [hform]
      exact (hp.stable k _ (h2 k) hw).le
  have hw : w = 0 := by
    have h := (sum_eq_zero_iff_of_nonneg fun k _ => mul_nonneg (hp.vol k).le (hnn k)).mp hzero
    funext i k
    by_contra hne
    have h4 := hp.stable k (fun i => w i k) (h2 k) fun h0 => hne (congrFun h0 i)
    have h5 := h k (mem_univ k)
    rw [hform] at h5
    exact absurd h5 (mul_pos (hp.vol k) h4).ne'
  subst hw
  have hy : y = 0 := hi y fun i => by simpa using h3 i
  refine ⟨rfl, hy, ?_⟩
  funext i
  have h := h1 i ⟨0, hP⟩
  simpa [hess] using h

/-- Phases that solve the equations persist. -/
theorem exists_solution (hp : StablePhases X l V ψ) (hi : Spec.IndependentPhases ψ) (hP : 0 < P) :
    ∃ g : Mat C C ℝ × Unknown C P → Mat C C ℝ × Unknown C P,
      ContinuousAt g (eqs l (X, ψ, V, μ)) ∧ g (eqs l (X, ψ, V, μ)) = (X, ψ, V, μ) ∧
      (∀ᶠ y in 𝓝 (eqs l (X, ψ, V, μ)), eqs l (g y) = y) ∧
      ∀ᶠ x in 𝓝 (X, ψ, V, μ), g (eqs l x) = x := by
  have hD := (eqs_contDiffAt (l := l) (X := X) (V := V) (μ := μ) hp.pos).hasStrictFDerivAt one_ne_zero
  set D := fderiv ℝ (eqs l) (X, ψ, V, μ) with hDdef
  have hline : ∀ v, HasDerivAt (fun t : ℝ => eqs l ((X, ψ, V, μ) + t • v)) (D v) 0 := fun v => by
    have h1 : HasDerivAt (fun t : ℝ => (X, ψ, V, μ) + t • v) v 0 := by
      simpa using ((hasDerivAt_id (0 : ℝ)).smul_const v).const_add (X, ψ, V, μ)
    have h2 : HasFDerivAt (eqs l) D ((fun t : ℝ => (X, ψ, V, μ) + t • v) 0) := by
      simpa using hD.hasFDerivAt
    exact h2.comp_hasDerivAt (0 : ℝ) h1
  have hker : ∀ v, D v = 0 → v = 0 := by
    rintro ⟨dX, w, y, u⟩ hv
    have h1 := hline (dX, w, y, u)
    rw [hv] at h1
    have hX : dX = 0 := by
      have h2 : HasDerivAt (fun t : ℝ => X + t • dX) (0 : Mat C C ℝ) 0 :=
        (ContinuousLinearMap.fst ℝ (Mat C C ℝ) (Unknown C P)).hasFDerivAt.comp_hasDerivAt (0 : ℝ) h1
      have h3 : HasDerivAt (fun t : ℝ => X + t • dX) dX 0 := by
        simpa using ((hasDerivAt_id (0 : ℝ)).smul_const dX).const_add X
      exact h3.unique h2
    subst hX
    have h2 : HasDerivAt (fun t : ℝ => (eqs l ((X, ψ, V, μ) + t • (0, w, y, u))).2) (0 : Unknown C P) 0 :=
      (ContinuousLinearMap.snd ℝ (Mat C C ℝ) (Unknown C P)).hasFDerivAt.comp_hasDerivAt (0 : ℝ) h1
    have h3 := (eqs_line (X := X) (V := V) (μ := μ) hp.pos hp.size w y u).unique h2
    rw [Prod.ext_iff, Prod.ext_iff] at h3
    obtain ⟨e1, e2, e3⟩ := h3
    obtain ⟨rfl, rfl, rfl⟩ := eqs_injective hp hi (fun i k => congrFun (congrFun e1 i) k)
      (fun k => congrFun e2 k) (fun i => congrFun e3 i) hP
    rfl
  let e : (Mat C C ℝ × Unknown C P) ≃L[ℝ] (Mat C C ℝ × Unknown C P) :=
    (LinearEquiv.ofInjectiveEndo (D : (Mat C C ℝ × Unknown C P) →ₗ[ℝ] _)
      ((injective_iff_map_eq_zero _).mpr hker)).toContinuousLinearEquiv
  have he : HasStrictFDerivAt (eqs l) (e : (Mat C C ℝ × Unknown C P) →L[ℝ] _) (X, ψ, V, μ) := by
    have h : (e : (Mat C C ℝ × Unknown C P) →L[ℝ] _) = D := ContinuousLinearMap.ext fun v => rfl
    rw [h]
    exact hD
  exact ⟨he.localInverse _ _ _, he.localInverse_continuousAt, he.localInverse_apply_image,
    he.eventually_right_inverse, he.eventually_left_inverse⟩

/-- Stability is kept under small changes. -/
theorem stable_open (hl : ∀ i, 0 < l i) (hpos : ∀ i k, 0 < ψ i k)
    (hs : ∀ k (z : Vec C ℝ), ∑ i, z i = 0 → z ≠ 0 →
      0 < ∑ i, z i ^ 2 / (l i * ψ i k) + ∑ i, ∑ j, X i j * z i * z j) :
    ∀ᶠ x : Mat C C ℝ × Mat C P ℝ in 𝓝 (X, ψ), ∀ k (z : Vec C ℝ), ∑ i, z i = 0 → z ≠ 0 →
      0 < ∑ i, z i ^ 2 / (l i * x.2 i k) + ∑ i, ∑ j, x.1 i j * z i * z j := by
  rw [Filter.eventually_all]
  intro k
  have hK : IsCompact (Metric.sphere (0 : Vec C ℝ) 1 ∩ {z | ∑ i, z i = 0}) :=
    (isCompact_sphere _ _).inter_right (isClosed_eq (by fun_prop) continuous_const)
  have h := hK.eventually_forall_of_forall_eventually (x₀ := (X, ψ))
    (P := fun (x : Mat C C ℝ × Mat C P ℝ) z =>
      0 < ∑ i, z i ^ 2 / (l i * x.2 i k) + ∑ i, ∑ j, x.1 i j * z i * z j) (by
    rintro z ⟨hz1, hz2⟩
    have hz0 : z ≠ 0 := by
      rintro rfl
      simp at hz1
    have hc : ContinuousAt (fun q : (Mat C C ℝ × Mat C P ℝ) × Vec C ℝ =>
        ∑ i, q.2 i ^ 2 / (l i * q.1.2 i k) + ∑ i, ∑ j, q.1.1 i j * q.2 i * q.2 j) ((X, ψ), z) := by
      refine ContinuousAt.add (tendsto_finsetSum _ fun i _ => ContinuousAt.div (by fun_prop) (by fun_prop)
        (mul_pos (hl i) (hpos i k)).ne') (by fun_prop)
    exact hc.eventually_const_lt (hs k z hz2 hz0))
  filter_upwards [h] with x hx z hz hz0
  have hn : 0 < ‖z‖ := norm_pos_iff.mpr hz0
  have h1 := hx (‖z‖⁻¹ • z) ⟨by
    rw [mem_sphere_zero_iff_norm, norm_smul, norm_inv, norm_norm, inv_mul_cancel₀ hn.ne'], by
    simp only [Set.mem_ofPred_eq, Pi.smul_apply, smul_eq_mul, ← mul_sum, hz, mul_zero]⟩
  have e : ∑ i, (‖z‖⁻¹ • z) i ^ 2 / (l i * x.2 i k) + ∑ i, ∑ j, x.1 i j * (‖z‖⁻¹ • z) i * (‖z‖⁻¹ • z) j =
      (‖z‖⁻¹) ^ 2 * (∑ i, z i ^ 2 / (l i * x.2 i k) + ∑ i, ∑ j, x.1 i j * z i * z j) := by
    simp only [Pi.smul_apply, smul_eq_mul, mul_add, mul_sum]
    congr 1
    · exact sum_congr rfl fun i _ => by ring
    · exact sum_congr rfl fun i _ => sum_congr rfl fun j _ => by ring
  rw [e] at h1
  exact (mul_pos_iff_of_pos_left (by positivity)).mp h1

variable {S M : ℕ} [NeZero M]

/-- Total relative volume of the compartments of a phase. -/
noncomputable def phaseVolume (J : Vec M ℝ) (phase : Fin M → Fin P) (k : Fin P) : ℝ :=
  (∑ m with phase m = k, J m) / M

theorem sum_phase (J : Vec M ℝ) (phase : Fin M → Fin P) (f : Fin P → ℝ) :
    ∑ m, J m * f (phase m) = M * ∑ k, phaseVolume J phase k * f k := by
  have hM : (M : ℝ) ≠ 0 := by exact_mod_cast NeZero.ne M
  unfold phaseVolume
  rw [mul_sum, ← sum_fiberwise univ phase]
  refine sum_congr rfl fun k _ => ?_
  rw [div_mul_eq_mul_div, mul_div_cancel₀ _ hM, sum_mul]
  refine sum_congr rfl fun m hm => ?_
  rw [(mem_filter.mp hm).2]

theorem phaseVolume_pos {J : Vec M ℝ} {phase : Fin M → Fin P} (hJ : ∀ m, 0 < J m)
    (hph : Function.Surjective phase) (k : Fin P) : 0 < phaseVolume J phase k := by
  have hM : (0 : ℝ) < M := by exact_mod_cast Nat.pos_of_ne_zero (NeZero.ne M)
  obtain ⟨m, hm⟩ := hph k
  exact div_pos (sum_pos (fun n _ => hJ n) ⟨m, mem_filter.mpr ⟨mem_univ m, hm⟩⟩) hM

open Spec

/-- Coexisting stable phases persist. -/
theorem exists_coexistence {chis : Mat S S ℝ} {feat : Fin C → Fin S} {x : Vec C ℝ} {J₀ : Vec M ℝ}
    {phase : Fin M → Fin P} {ψ₀ : Mat C P ℝ} (hsym : ∀ r q, chis r q = chis q r) (hl : ∀ i, 0 < l i)
    (hJ₀ : ∀ m, 0 < J₀ m) (hph : Function.Surjective phase)
    (hc : Coexistence chis feat l x J₀ fun i m => ψ₀ i (phase m))
    (hstab : ∀ k, StablePhase chis feat l fun i => ψ₀ i k) (hi : IndependentPhases ψ₀) {ε : ℝ} (hε : 0 < ε) :
    ∃ δ > 0, ∀ (chis' : Mat S S ℝ) (x' : Vec C ℝ), (∀ r q, |chis' r q - chis r q| ≤ δ) →
      (∀ i, |x' i - x i| ≤ δ) → ∑ i, x' i = 1 → ∃ (J : Vec M ℝ) (ψ : Mat C P ℝ),
        Coexistence chis' feat l x' J (fun i m => ψ i (phase m)) ∧ (∀ m, 0 < J m) ∧
        (∀ k, StablePhase chis' feat l fun i => ψ i k) ∧ (∀ m, |J m - J₀ m| ≤ ε) ∧
        ∀ i k, |ψ i k - ψ₀ i k| ≤ ε := by
  have hM : (0 : ℝ) < M := by exact_mod_cast Nat.pos_of_ne_zero (NeZero.ne M)
  have hP : 0 < P := Fin.pos (phase 0)
  have hM' := hM.ne'
  set X : Mat C C ℝ := fun i j => chis (feat i) (feat j) with hX
  set V := phaseVolume J₀ phase with hV
  have hV0 : ∀ k, 0 < V k := phaseVolume_pos hJ₀ hph
  have hpos : ∀ i k, 0 < ψ₀ i k := fun i k => by
    obtain ⟨m, rfl⟩ := hph k
    exact hc.pos i m
  have hsum : ∀ k, ∑ i, ψ₀ i k = 1 := fun k => by
    obtain ⟨m, rfl⟩ := hph k
    exact hc.incompressible m
  have hp : StablePhases X l V ψ₀ := ⟨fun i j => hsym _ _, hl, hV0, hpos, hsum, fun k z hz hz0 => hstab k z hz hz0⟩
  obtain ⟨mu, hmu⟩ := hc.balance
  set μ : Vec C ℝ := fun i => mu i - 1 / l i with hμ
  have hbal : ∀ i k, pot X l ψ₀ i k - press X l ψ₀ k - μ i = 0 := fun i k => by
    obtain ⟨m, rfl⟩ := hph k
    have h1 := hmu i m
    unfold chemPot at h1
    rw [add_div] at h1
    simp only [hμ]
    unfold pot press
    linarith
  have hmean : ∀ i, ∑ k, V k * ψ₀ i k = x i := fun i => by
    have h1 := hc.mean i
    rw [sum_phase J₀ phase (fun k => ψ₀ i k)] at h1
    exact mul_left_cancel₀ hM' h1
  have he : eqs l (X, ψ₀, V, μ) = (X, 0, 0, x) := by
    unfold eqs
    refine Prod.ext rfl (Prod.ext ?_ (Prod.ext ?_ ?_))
    · funext i k; exact hbal i k
    · funext k; simp [hsum]
    · funext i; exact hmean i
  obtain ⟨g, hgc, hg0, hgr, -⟩ := exists_solution (μ := μ) hp hi hP
  rw [he] at hgc hg0 hgr
  set f : Mat S S ℝ × Vec C ℝ → Mat C C ℝ × Unknown C P :=
    fun q => (fun i j => q.1 (feat i) (feat j), 0, 0, q.2) with hf
  have hmap : Continuous f := by rw [hf]; fun_prop
  have hmap0 : f (chis, x) = (X, 0, 0, x) := rfl
  have hgm : ContinuousAt (fun q => g (f q)) (chis, x) :=
    ContinuousAt.comp (g := g) (by rw [hmap0]; exact hgc) hmap.continuousAt
  have hsol : ∀ᶠ q in 𝓝 (chis, x), eqs l (g (f q)) = f q :=
    hmap.continuousAt.eventually (by rw [hmap0]; exact hgr)
  have hst := hgm.eventually (p := fun y => ∀ k (z : Vec C ℝ), ∑ i, z i = 0 → z ≠ 0 →
      0 < ∑ i, z i ^ 2 / (l i * y.2.1 i k) + ∑ i, ∑ j, y.1 i j * z i * z j) (by
    beta_reduce
    rw [hmap0, hg0]
    have := stable_open (X := X) hl hpos hp.stable
    have hc2 : ContinuousAt (fun y : Mat C C ℝ × Unknown C P => (y.1, y.2.1)) (X, ψ₀, V, μ) := by fun_prop
    exact hc2.eventually this)
  obtain ⟨n, hn, hψn⟩ := exists_lower (fun a : Fin C × Fin P => ψ₀ a.1 a.2) fun a => hpos _ _
  obtain ⟨n', hn', hVn⟩ := exists_lower (fun a : Fin M => V (phase a) / J₀ a) fun a => div_pos (hV0 _) (hJ₀ a)
  obtain ⟨n'', hn'', hVn'⟩ := exists_lower V hV0
  have hclose := hgm.eventually (Metric.ball_mem_nhds _ (show 0 < min (min ε (n / 2)) (min (ε * n') (n'' / 2))
    by positivity))
  obtain ⟨δ, hδ, h⟩ := Metric.eventually_nhds_iff.mp (hsol.and (hst.and hclose))
  refine ⟨δ / 2, by positivity, fun chis' x' h1 h2 h3 => ?_⟩
  obtain ⟨s1, s2, s3⟩ := h (y := (chis', x')) (by
    rw [Prod.dist_eq, max_lt_iff]
    constructor
    · refine lt_of_le_of_lt ((dist_pi_le_iff (by positivity)).mpr fun r =>
        (dist_pi_le_iff (by positivity)).mpr fun q => ?_) (half_lt_self hδ)
      rw [Real.dist_eq]; exact h1 r q
    · refine lt_of_le_of_lt ((dist_pi_le_iff (by positivity)).mpr fun i => ?_) (half_lt_self hδ)
      rw [Real.dist_eq]; exact h2 i)
  clear h
  beta_reduce at s3
  rw [hmap0, hg0] at s3
  have hfe : f (chis', x') = (fun i j => chis' (feat i) (feat j), 0, 0, x') := rfl
  rw [hfe] at s1
  generalize g (f (chis', x')) = y at s1 s2 s3
  obtain ⟨X', ψ, W, ν⟩ := y
  simp only [eqs, Prod.mk.injEq] at s1
  obtain ⟨rfl, e1, e2, e3⟩ := s1
  rw [Prod.dist_eq, Prod.dist_eq, Prod.dist_eq, max_lt_iff, max_lt_iff, max_lt_iff] at s3
  obtain ⟨-, c1, c2, -⟩ := s3
  have d1 : ∀ i k, |ψ i k - ψ₀ i k| < min ε (n / 2) := fun i k => by
    have h4 := (dist_le_pi_dist ψ ψ₀ i).trans_lt (c1.trans_le (min_le_left _ _))
    exact (dist_le_pi_dist (ψ i) (ψ₀ i) k).trans_lt h4
  have d2 : ∀ k, |W k - V k| < min (ε * n') (n'' / 2) := fun k =>
    (dist_le_pi_dist W V k).trans_lt (c2.trans_le (min_le_right _ _))
  have hψp : ∀ i k, 0 < ψ i k := fun i k => by
    have h4 := (abs_lt.mp ((d1 i k).trans_le (min_le_right _ _))).1
    have h5 := hψn (i, k)
    simp only at h5
    linarith
  have hWp : ∀ k, 0 < W k := fun k => by
    have h4 := (abs_lt.mp ((d2 k).trans_le (min_le_right _ _))).1
    have h5 := hVn' k
    linarith
  have hψs : ∀ k, ∑ i, ψ i k = 1 := fun k => by
    have := congrFun e2 k
    simp only [Pi.zero_apply] at this
    linarith
  set J : Vec M ℝ := fun m => J₀ m * (W (phase m) / V (phase m)) with hJ
  have hJW : ∀ k, phaseVolume J phase k = W k := fun k => by
    have h4 : ∑ m with phase m = k, J m = (∑ m with phase m = k, J₀ m) * (W k / V k) := by
      rw [sum_mul]
      exact sum_congr rfl fun m hm => by rw [hJ]; simp only; rw [(mem_filter.mp hm).2]
    have h5 : (∑ m with phase m = k, J₀ m) = M * V k := by
      rw [hV]; unfold phaseVolume; field_simp
    have := (hV0 k).ne'
    unfold phaseVolume
    rw [h4, h5]
    field_simp
  have hmean' : ∀ i, ∑ m, J m * ψ i (phase m) = M * x' i := fun i => by
    rw [sum_phase J phase (fun k => ψ i k)]
    simp only [hJW]
    rw [← congrFun e3 i]
  refine ⟨J, ψ, ⟨?_, fun i m => hψp i _, fun m => hψs _, hmean', fun i => ν i + 1 / l i, fun i m => ?_⟩,
    fun m => mul_pos (hJ₀ m) (div_pos (hWp _) (hV0 _)), fun k z hz hz0 => s2 k z hz hz0, fun m => ?_,
    fun i k => ((d1 i k).trans_le (min_le_left _ _)).le⟩
  · have h4 : ∑ m, J m = ∑ i, ∑ m, J m * ψ i (phase m) := by
      rw [sum_comm]
      exact sum_congr rfl fun m _ => by rw [← mul_sum, hψs, mul_one]
    rw [h4]
    simp only [hmean']
    rw [← mul_sum, h3, mul_one]
  · have h4 := congrFun (congrFun e1 i) (phase m)
    simp only [Pi.zero_apply] at h4
    unfold pot press at h4
    unfold chemPot
    rw [add_div]
    linarith
  · have h4 : J m - J₀ m = (W (phase m) - V (phase m)) / (V (phase m) / J₀ m) := by
      have := (hV0 (phase m)).ne'
      have := (hJ₀ m).ne'
      rw [hJ]
      field_simp
    have h5 : 0 < V (phase m) / J₀ m := div_pos (hV0 _) (hJ₀ m)
    rw [h4, abs_div, abs_of_pos h5, div_le_iff₀ h5]
    refine ((d2 _).le.trans (min_le_left _ _)).trans ?_
    exact mul_le_mul_of_nonneg_left (hVn m) hε.le

end Flory.Persist
