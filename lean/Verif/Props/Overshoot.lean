import Verif.Lemmas.Overshoot
import Verif.Props.Merge
import Mathlib.LinearAlgebra.Matrix.Charpoly.Eigs
import Mathlib.LinearAlgebra.Eigenspace.Charpoly

/-! # C99: the limit of `acceptance_omega`

The fields of compartments are moved by `acceptance_omega` times the difference to the fields that the current
fractions ask for.  Small differences between compartments relax in modes; mode `μ` is multiplied by
`1 - acceptance_omega * μ` in every pass.  So compartments merge if this factor is inside the unit circle for
all modes, and differences grow if it is outside for one of them, no matter how stable the mixture is. -/

set_option linter.unusedSectionVars false

namespace Flory

open Spec Finset

variable {C S M : ℕ} [NeZero M] {G : Type} {ia : FHCompiled S ℝ} {es : CanonicalC C ℝ} {l : Vec C ℝ}
  {feat : Fin C → Fin S} {e : RunEnv C S M ℝ G}

/-- **C99**, sufficient: if every mode is damped, compartments merge. -/
theorem C99_merges (h : Suits e ia es l feat) (hm : Mixture l es.phiMeans)
    (ha : e.params.acceptanceOmega ≤ 1)
    (hmodes : ∀ μ u, FieldMode ia.chis ia.coef (loads l feat es.phiMeans) μ u →
      ‖1 - e.params.acceptanceOmega * μ‖ < 1) : Merges e es.phiMeans :=
  merges_of_modes hm.size (fun i => (hm.fraction i).le) hm.total h.rng h.nonneg h.lt_one h.small h.bound
    h.criterion h.interaction h.entropy h.ensemble h.step ha hmodes

/-- **C99**, necessary: if one mode is amplified, there are arbitrarily small differences that grow. -/
theorem C99_leaves (h : Suits e ia es l feat) (hm : Mixture l es.phiMeans) (hM : 2 ≤ M)
    (hfeat : Function.Surjective feat) {μ : ℂ} {u : Fin S → ℂ}
    (hmode : FieldMode ia.chis ia.coef (loads l feat es.phiMeans) μ u)
    (hμ : 1 < ‖1 - e.params.acceptanceOmega * μ‖) : Leaves e es.phiMeans :=
  leaves_of_mode hM hm.size hm.fraction hm.total hfeat h.rng h.nonneg h.lt_one h.bound h.interaction h.entropy
    h.ensemble h.step.ne' hmode hμ

/-- Eigenvalues of the matrix of the response are rates of modes. -/
theorem exists_mode {chis : Mat S S ℝ} {kap : ℝ} {d : Vec S ℝ} {μ : ℂ}
    (h : (responseMat (fun r s => (chis r s : ℂ)) kap fun s => (d s : ℂ)).charpoly.IsRoot μ) :
    ∃ u, FieldMode chis kap d μ u := by
  set R := responseMat (fun r s => (chis r s : ℂ)) kap fun s => (d s : ℂ) with hR
  have h1 : μ ∈ spectrum ℂ (Matrix.toLin' R) := by
    rw [Matrix.spectrum_toLin']
    exact Matrix.mem_spectrum_iff_isRoot_charpoly.mpr h
  rw [← Module.End.hasEigenvalue_iff_mem_spectrum] at h1
  obtain ⟨u, hu⟩ := h1.exists_hasEigenvector
  refine ⟨u, hu.2, fun r => ?_⟩
  have := congrFun hu.apply_eq_smul r
  rw [Matrix.toLin'_apply, hR, responseMat_mulVec] at this
  exact this

theorem trace_responseMat [NeZero S] (chis : Mat S S ℝ) (kap : ℝ) (d : Vec S ℝ) :
    (responseMat (fun r s => (chis r s : ℂ)) kap fun s => (d s : ℂ)).trace = totalRate chis kap d := by
  have hS : (S : ℂ) ≠ 0 := by exact_mod_cast NeZero.ne S
  simp only [Matrix.trace, Matrix.diag, responseMat, Matrix.of_apply, totalRate, if_true]
  push_cast
  simp only [sum_add_distrib, sum_sub_distrib, sum_ite_eq', mem_univ, if_true, sub_mul, mul_sum, add_div,
    sum_const, card_univ, Fintype.card_fin, nsmul_eq_mul, mul_one, ← sum_mul]
  have h1 : ∀ x : Fin S, (∑ q, (chis q x : ℂ)) * d x / S = (∑ q, (chis q x : ℂ)) / S * d x := fun x => by ring
  simp only [h1]
  field_simp
  ring

/-- **C99**, any interactions: the total of the rates limits `acceptance_omega`. -/
theorem C99_total [NeZero S] (h : Suits e ia es l feat) (hm : Mixture l es.phiMeans) (hM : 2 ≤ M)
    (hfeat : Function.Surjective feat)
    (ht : 2 * S < e.params.acceptanceOmega * totalRate ia.chis ia.coef (loads l feat es.phiMeans)) :
    Leaves e es.phiMeans := by
  set d := loads l feat es.phiMeans with hd
  set a := e.params.acceptanceOmega with ha
  set R := responseMat (fun r s => (ia.chis r s : ℂ)) ia.coef fun s => (d s : ℂ) with hR
  have hroot : ∃ μ ∈ R.charpoly.roots, 2 / a < μ.re := by
    by_contra hc
    push Not at hc
    have h1 : R.trace = R.charpoly.roots.sum := Matrix.trace_eq_sum_roots_charpoly R
    rw [hR, trace_responseMat, ← hR] at h1
    have h2 : R.charpoly.roots.card = S := by
      rw [IsAlgClosed.card_roots_eq_natDegree, Matrix.charpoly_natDegree_eq_dim, Fintype.card_fin]
    have h3 : totalRate ia.chis ia.coef d = (R.charpoly.roots.map Complex.re).sum := by
      have := congrArg Complex.re h1
      rw [Complex.ofReal_re] at this
      rw [this]
      exact map_multiset_sum Complex.reAddGroupHom _
    have h4 : (R.charpoly.roots.map Complex.re).sum ≤ (R.charpoly.roots.map Complex.re).card • (2 / a) :=
      Multiset.sum_le_card_nsmul _ _ fun x hx => by
        obtain ⟨μ, hμ, rfl⟩ := Multiset.mem_map.mp hx
        exact hc μ hμ
    rw [Multiset.card_map, h2, ← h3, nsmul_eq_mul, mul_div_assoc', le_div_iff₀ h.step] at h4
    linarith
  obtain ⟨μ, hμ, hre⟩ := hroot
  obtain ⟨u, hu⟩ := exists_mode (Polynomial.isRoot_of_mem_roots hμ)
  refine C99_leaves h hm hM hfeat hu ?_
  have h1 : a * μ.re - 1 ≤ ‖1 - (a : ℂ) * μ‖ := by
    have := Complex.abs_re_le_norm (1 - (a : ℂ) * μ)
    simp only [Complex.sub_re, Complex.one_re, Complex.re_ofReal_mul] at this
    linarith [neg_abs_le (1 - a * μ.re)]
  rw [div_lt_iff₀ h.step] at hre
  linarith

theorem mode_isRoot {chis : Mat S S ℝ} {kap : ℝ} {d : Vec S ℝ} {μ : ℂ} {u : Fin S → ℂ}
    (h : FieldMode chis kap d μ u) :
    (responseMat (fun r s => (chis r s : ℂ)) kap fun s => (d s : ℂ)).charpoly.IsRoot μ := by
  rw [← Matrix.mem_spectrum_iff_isRoot_charpoly, ← Matrix.spectrum_toLin']
  refine (Module.End.hasEigenvalue_of_hasEigenvector (x := u) ⟨?_, h.1⟩).mem_spectrum
  rw [Module.End.mem_eigenspace_iff, Matrix.toLin'_apply]
  funext r
  rw [responseMat_mulVec]
  exact h.2 r

theorem sum_loads_eq (l : Vec C ℝ) (feat : Fin C → Fin S) (x : Vec C ℝ) :
    ∑ r, loads l feat x r = meanSize l x := by
  have := sum_loads l feat x fun _ => 1
  simpa [meanSize] using this

theorem meanSize_pos [NeZero C] {x : Vec C ℝ} (h : Mixture l x) : 0 < meanSize l x :=
  sum_pos (fun i _ => mul_pos (h.size i) (h.fraction i)) univ_nonempty

/-- **C99**, shift: for every `acceptance_omega` there is a shift above which differences grow. -/
theorem C99_shift [NeZero S] [NeZero C] {chis : Mat S S ℝ} (hm : Mixture l es.phiMeans) (hM : 2 ≤ M)
    (hfeat : Function.Surjective feat) {a : ℝ} (ha : 0 < a) :
    ∃ s₀, ∀ shift, s₀ ≤ shift → ∀ e : RunEnv C S M ℝ G, Suits e (FHCompiled.new chis shift) es l feat →
      e.params.acceptanceOmega = a → Leaves e es.phiMeans := by
  have hS : (0 : ℝ) < S := by exact_mod_cast Nat.pos_of_ne_zero (NeZero.ne S)
  have hD := meanSize_pos hm
  set T := (S : ℝ) - 1 + ∑ r, (chis r r - (∑ q, chis q r) / S) * loads l feat es.phiMeans r with hT
  obtain ⟨s₀, hs⟩ := exists_shift chis ((2 * S / a - T + 1) * S / meanSize l es.phiMeans)
  refine ⟨s₀, fun shift h e he hea => C99_total he hm hM hfeat ?_⟩
  have h1 := hs shift h
  rw [div_le_iff₀ hD] at h1
  have h2 : totalRate (FHCompiled.new chis shift).chis (FHCompiled.new chis shift).coef
      (loads l feat es.phiMeans) = T + (FHCompiled.new chis shift).coef * meanSize l es.phiMeans / S := by
    rw [totalRate, sum_loads_eq, hT]
    show _ + (FHCompiled.new chis shift).coef / S * _ = _
    rw [div_mul_eq_mul_div]; rfl
  rw [h2, hea]
  have h3 : 2 * S / a - T + 1 ≤ (FHCompiled.new chis shift).coef * meanSize l es.phiMeans / S := by
    rw [le_div_iff₀ hS]; exact h1
  have h4 : a * (2 * S / a) = 2 * S := by field_simp
  nlinarith

section Equal

variable [NeZero S] {c shift : ℝ}

theorem coef_equal : (FHCompiled.new (fun _ _ : Fin S => c) shift).coef / S = S * (c + shift) := by
  have hS : (S : ℝ) ≠ 0 := by exact_mod_cast NeZero.ne S
  have : (FHCompiled.new (fun _ _ : Fin S => c) shift).coef = S * (S * (c + shift)) := by
    simp [FHCompiled.new]; ring
  rw [this, mul_div_cancel_left₀ _ hS]

/-- **C99**, equal interactions: the modes are relaxation at rate one and the common mode. -/
theorem C99_equal_modes {kap : ℝ} {d : Vec S ℝ} {μ : ℂ} {u : Fin S → ℂ}
    (h : FieldMode (fun _ _ => c) kap d μ u) : μ = 1 ∨ μ = (kap / S * ∑ r, d r : ℝ) := by
  have hS : (S : ℂ) ≠ 0 := by exact_mod_cast NeZero.ne S
  obtain ⟨hu, h⟩ := h
  by_cases hμ : μ = 1
  · exact Or.inl hμ
  right
  set D := ∑ s, (c : ℂ) * ((d s : ℂ) * u s) with hD
  have h1 : ∀ r, (1 - μ) * u r = (∑ q, u q) / S - kap / S * ∑ s, (d s : ℂ) * u s := by
    intro r
    have := h r
    simp only [sum_add_distrib, sum_const, card_univ, Fintype.card_fin, nsmul_eq_mul, add_div,
      mul_div_cancel_left₀ _ hS] at this
    linear_combination this
  have hconst : ∀ r, u r = u 0 := fun r =>
    mul_left_cancel₀ (sub_ne_zero.mpr (Ne.symm hμ)) ((h1 r).trans (h1 0).symm)
  have hu0 : u 0 ≠ 0 := fun h0 => hu (funext fun r => (hconst r).trans h0)
  have h2 := h1 0
  simp only [fun s => hconst s, sum_const, card_univ, Fintype.card_fin, nsmul_eq_mul,
    mul_div_cancel_left₀ _ hS, ← sum_mul] at h2
  apply mul_right_cancel₀ hu0
  push_cast
  linear_combination -h2

theorem equal_common {kap : ℝ} {d : Vec S ℝ} :
    FieldMode (fun _ _ => c) kap d (kap / S * ∑ r, d r : ℝ) fun _ => 1 := by
  have hS : (S : ℂ) ≠ 0 := by exact_mod_cast NeZero.ne S
  refine ⟨fun h => one_ne_zero (congrFun h 0), fun r => ?_⟩
  simp only [sum_const, card_univ, Fintype.card_fin, nsmul_eq_mul, mul_div_cancel_left₀ _ hS, mul_one,
    sub_self, zero_add]
  push_cast; rfl

/-- **C99**, equal interactions: compartments merge below the limit. -/
theorem C99_equal_merges [NeZero C] (h : Suits e (FHCompiled.new (fun _ _ => c) shift) es l feat)
    (hm : Mixture l es.phiMeans) (hshift : 0 < c + shift) (ha : e.params.acceptanceOmega ≤ 1)
    (hlim : e.params.acceptanceOmega * (S * (c + shift) * meanSize l es.phiMeans) < 2) :
    Merges e es.phiMeans := by
  have hS : (0 : ℝ) < S := by exact_mod_cast Nat.pos_of_ne_zero (NeZero.ne S)
  refine C99_merges h hm ha fun μ u hu => ?_
  have h0 := h.step
  have key : ∀ x : ℝ, 0 < x → e.params.acceptanceOmega * x < 2 →
      ‖1 - (e.params.acceptanceOmega : ℂ) * (x : ℝ)‖ < 1 := by
    intro x hx hx2
    have : 0 < e.params.acceptanceOmega * x := mul_pos h0 hx
    rw [show (1 : ℂ) - (e.params.acceptanceOmega : ℂ) * (x : ℝ) = ((1 - e.params.acceptanceOmega * x : ℝ) : ℂ) by
      push_cast; rfl, Complex.norm_real, Real.norm_eq_abs, abs_lt]
    constructor <;> linarith
  rcases C99_equal_modes hu with rfl | rfl
  · simpa using key 1 one_pos (by linarith)
  · rw [coef_equal, sum_loads_eq]
    exact key _ (mul_pos (mul_pos hS hshift) (meanSize_pos hm)) hlim

/-- **C99**, equal interactions: differences grow above the limit. -/
theorem C99_equal_leaves (h : Suits e (FHCompiled.new (fun _ _ => c) shift) es l feat)
    (hm : Mixture l es.phiMeans) (hM : 2 ≤ M) (hfeat : Function.Surjective feat)
    (hlim : 2 < e.params.acceptanceOmega * (S * (c + shift) * meanSize l es.phiMeans)) :
    Leaves e es.phiMeans := by
  refine C99_leaves h hm hM hfeat equal_common ?_
  rw [coef_equal, sum_loads_eq]
  rw [show ∀ x : ℝ, (1 : ℂ) - (e.params.acceptanceOmega : ℂ) * (x : ℝ) =
    ((1 - e.params.acceptanceOmega * x : ℝ) : ℂ) from fun x => by push_cast; rfl, Complex.norm_real,
    Real.norm_eq_abs]
  refine lt_abs.mpr (Or.inr ?_)
  linarith

/-- **C99**, default settings: with `acceptance_omega` 0.002 and `additional_chis_shift` 1, the mean molecule
size times the number of features must stay below 1000. -/
theorem C99_defaults [NeZero C] {o : FHInteraction S ℝ} (ho : ∀ r s, o.chis r s = c)
    (h : Suits e (o.compile 1) es l feat) (hm : Mixture l es.phiMeans) (hM : 2 ≤ M)
    (hfeat : Function.Surjective feat) (ha : e.params.acceptanceOmega = 2 * 10⁻¹ ^ 3) :
    (S * meanSize l es.phiMeans < 1000 → Merges e es.phiMeans) ∧
    (1000 < S * meanSize l es.phiMeans → Leaves e es.phiMeans) := by
  have h1 : o.chis = fun _ _ => c := funext fun r => funext fun s => ho r s
  have h2 : matMin o.chis = c := by
    obtain ⟨r, s, hrs⟩ := matMin_mem o.chis
    rw [hrs, ho]
  have h3 : o.compile 1 = FHCompiled.new (fun _ _ => c) (-c + 1) := by
    unfold FHInteraction.compile; rw [h2, h1]
  rw [h3] at h
  constructor <;> intro hlt
  · refine C99_equal_merges h hm (by linarith) (by rw [ha]; norm_num) ?_
    rw [ha, add_neg_cancel_left]; linarith
  · refine C99_equal_leaves h hm hM hfeat ?_
    rw [ha, add_neg_cancel_left]; linarith

end Equal

section Binary

theorem det_responseMat {chis : Mat 2 2 ℝ} (hsym : chis 1 0 = chis 0 1) (kap : ℝ) {d : Vec 2 ℝ}
    (hd : ∀ r, d r ≠ 0) :
    (responseMat (fun r s => (chis r s : ℂ)) kap fun s => (d s : ℂ)).det = rateProduct chis kap d := by
  have h0 : (d 0 : ℂ) ≠ 0 := Complex.ofReal_ne_zero.mpr (hd 0)
  have h1 : (d 1 : ℂ) ≠ 0 := Complex.ofReal_ne_zero.mpr (hd 1)
  rw [Matrix.det_fin_two]
  simp only [responseMat, Matrix.of_apply, Fin.sum_univ_two, rateProduct, exchangeCurvature, hsym]
  simp
  field_simp
  ring

/-- The rates of a mixture with two features are the roots of a quadratic polynomial. -/
theorem binary_rate {chis : Mat 2 2 ℝ} (hsym : chis 1 0 = chis 0 1) {kap : ℝ} {d : Vec 2 ℝ}
    (hd : ∀ r, d r ≠ 0) {μ : ℂ} : (∃ u, FieldMode chis kap d μ u) ↔
      μ ^ 2 - totalRate chis kap d * μ + rateProduct chis kap d = 0 := by
  have key : (responseMat (fun r s => (chis r s : ℂ)) kap fun s => (d s : ℂ)).charpoly.IsRoot μ ↔
      μ ^ 2 - totalRate chis kap d * μ + rateProduct chis kap d = 0 := by
    rw [Matrix.charpoly_fin_two, trace_responseMat, det_responseMat hsym kap hd]
    simp [Polynomial.IsRoot]
  exact ⟨fun ⟨u, hu⟩ => key.mp (mode_isRoot hu), fun h => exists_mode (key.mpr h)⟩

/-- Both roots of `x² - p x + q` are inside the unit circle. -/
theorem roots_inside {p q : ℝ} (hq : |q| < 1) (hp : |p| < 1 + q) {x : ℂ} (h : x ^ 2 - p * x + q = 0) :
    ‖x‖ < 1 := by
  have hre := congrArg Complex.re h
  have him := congrArg Complex.im h
  simp [sq] at hre him
  rw [abs_lt] at hq hp
  have hn : ‖x‖ ^ 2 = x.re ^ 2 + x.im ^ 2 := by rw [Complex.sq_norm, Complex.normSq_apply]; ring
  have hfin : x.re ^ 2 + x.im ^ 2 < 1 → ‖x‖ < 1 := fun h1 => by
    nlinarith [norm_nonneg x]
  apply hfin
  have h2 : x.im * (2 * x.re - p) = 0 := by linarith
  rcases mul_eq_zero.mp h2 with h3 | h3
  · rw [h3] at hre ⊢
    have h4 : x.re < 1 := by
      by_contra hc
      push Not at hc
      nlinarith [mul_nonneg (sub_nonneg.mpr hc) (show 0 ≤ x.re - q by linarith)]
    have h5 : -1 < x.re := by
      by_contra hc
      push Not at hc
      nlinarith [mul_nonneg (show 0 ≤ -1 - x.re by linarith) (show 0 ≤ q - x.re by linarith)]
    nlinarith
  · have h4 : p = 2 * x.re := by linarith
    rw [h4] at hre
    nlinarith

/-- A root of `x² - p x + q` is outside the unit circle. -/
theorem root_outside {p q : ℝ} (h : 1 < q ∨ 1 + q < |p|) : ∃ x : ℂ, x ^ 2 - p * x + q = 0 ∧ 1 < ‖x‖ := by
  by_cases hdisc : 0 ≤ p ^ 2 - 4 * q
  · have hs := Real.sq_sqrt hdisc
    have hs0 := Real.sqrt_nonneg (p ^ 2 - 4 * q)
    set w := √(p ^ 2 - 4 * q) with hw
    have hroot : ∀ y : ℝ, y ^ 2 - p * y + q = 0 → 1 < |y| →
        ∃ x : ℂ, x ^ 2 - p * x + q = 0 ∧ 1 < ‖x‖ := fun y h1 h2 =>
      ⟨(y : ℂ), by exact_mod_cast h1, by rwa [Complex.norm_real, Real.norm_eq_abs]⟩
    rcases le_total 0 p with hp | hp
    · refine hroot ((p + w) / 2) (by nlinarith) (lt_of_lt_of_le ?_ (le_abs_self _))
      rw [abs_of_nonneg hp] at h
      by_contra hc
      push Not at hc
      rcases h with h | h
      · nlinarith
      · nlinarith [mul_nonneg hs0 (show 0 ≤ 2 - p - w by linarith)]
    · refine hroot ((p - w) / 2) (by nlinarith) (lt_of_lt_of_le ?_ (neg_le_abs _))
      rw [abs_of_nonpos hp] at h
      by_contra hc
      push Not at hc
      rcases h with h | h
      · nlinarith
      · nlinarith [mul_nonneg hs0 (show 0 ≤ 2 + p - w by linarith)]
  · push Not at hdisc
    have hs := Real.sq_sqrt (show 0 ≤ 4 * q - p ^ 2 by linarith)
    set w := √(4 * q - p ^ 2) with hw
    have hq : 1 < q := by
      rcases h with h | h
      · exact h
      · nlinarith [sq_nonneg (1 - q), sq_abs p, abs_nonneg p]
    refine ⟨⟨p / 2, w / 2⟩, ?_, ?_⟩
    · apply Complex.ext <;> simp [sq] <;> nlinarith
    · have hn : ‖(⟨p / 2, w / 2⟩ : ℂ)‖ ^ 2 = q := by
        rw [Complex.sq_norm, Complex.normSq_apply]; nlinarith
      by_contra hc
      push Not at hc
      nlinarith [norm_nonneg (⟨p / 2, w / 2⟩ : ℂ)]

variable {chis : Mat 2 2 ℝ} {shift : ℝ} {feat : Fin C → Fin 2} {e : RunEnv C 2 M ℝ G}

/-- **C99**, two features: compartments merge if `acceptance_omega` is below both limits. -/
theorem C99_binary_merges (h : Suits e (FHCompiled.new chis shift) es l feat) (hm : Mixture l es.phiMeans)
    (hfeat : Function.Surjective feat) (hsym : chis 1 0 = chis 0 1) (ha : e.params.acceptanceOmega ≤ 1)
    {t D : ℝ} (ht : t = totalRate chis (FHCompiled.new chis shift).coef (loads l feat es.phiMeans))
    (hD : D = rateProduct chis (FHCompiled.new chis shift).coef (loads l feat es.phiMeans))
    (hpos : 0 < D) (hlim1 : e.params.acceptanceOmega * D < t)
    (hlim2 : 2 * (e.params.acceptanceOmega * t) < 4 + e.params.acceptanceOmega ^ 2 * D) :
    Merges e es.phiMeans := by
  refine C99_merges h hm ha fun μ u hu => ?_
  have h1 := (binary_rate hsym fun r => (loads_pos hm.size hm.fraction hfeat r).ne').mp ⟨u, hu⟩
  rw [← ht, ← hD] at h1
  set a := e.params.acceptanceOmega with haa
  have h0 : 0 < a := h.step
  refine roots_inside (p := 2 - a * t) (q := 1 - a * t + a ^ 2 * D) ?_ ?_ ?_
  · rw [abs_lt]; constructor <;> nlinarith
  · rw [abs_lt]; constructor <;> nlinarith [mul_pos (mul_pos h0 h0) hpos]
  · push_cast
    linear_combination (a : ℂ) ^ 2 * h1

/-- **C99**, two features: differences grow if `acceptance_omega` is above one of the limits, and for every
`acceptance_omega` if the mean composition is unstable. -/
theorem C99_binary_leaves (h : Suits e (FHCompiled.new chis shift) es l feat) (hm : Mixture l es.phiMeans)
    (hM : 2 ≤ M) (hfeat : Function.Surjective feat) (hsym : chis 1 0 = chis 0 1)
    {t D : ℝ} (ht : t = totalRate chis (FHCompiled.new chis shift).coef (loads l feat es.phiMeans))
    (hD : D = rateProduct chis (FHCompiled.new chis shift).coef (loads l feat es.phiMeans))
    (hlim : D < 0 ∨ t < e.params.acceptanceOmega * D ∨
      4 + e.params.acceptanceOmega ^ 2 * D < 2 * (e.params.acceptanceOmega * t)) :
    Leaves e es.phiMeans := by
  set a := e.params.acceptanceOmega with haa
  have h0 : 0 < a := h.step
  have ha' : (a : ℂ) ≠ 0 := Complex.ofReal_ne_zero.mpr h0.ne'
  obtain ⟨x, hx, hx1⟩ := root_outside (p := 2 - a * t) (q := 1 - a * t + a ^ 2 * D) (by
    rcases hlim with hl | hl | hl
    · exact Or.inr (lt_of_lt_of_le (by nlinarith [mul_pos h0 h0]) (le_abs_self _))
    · exact Or.inl (by nlinarith)
    · exact Or.inr (lt_of_lt_of_le (by nlinarith) (neg_le_abs _)))
  obtain ⟨u, hu⟩ := (binary_rate (kap := (FHCompiled.new chis shift).coef) (μ := (1 - x) / a) hsym
    fun r => (loads_pos hm.size hm.fraction hfeat r).ne').mpr (by
      rw [← ht, ← hD]
      push_cast at hx
      field_simp
      linear_combination hx)
  refine C99_leaves h hm hM hfeat hu ?_
  rwa [mul_div_cancel₀ _ ha', sub_sub_cancel]

/-- **C99**, unstable mixtures of two features: no `acceptance_omega` makes compartments merge. -/
theorem C99_binary_unstable {o : FHInteraction 2 ℝ} {add : ℝ} (hadd : 0 < add)
    (h : Suits e (o.compile add) es l feat) (hm : Mixture l es.phiMeans) (hM : 2 ≤ M)
    (hfeat : Function.Surjective feat) (hsym : ∀ r s, o.chis r s = o.chis s r)
    (hneg : exchangeCurvature o.chis (loads l feat es.phiMeans) < 0) : Leaves e es.phiMeans := by
  refine C99_binary_leaves h hm hM hfeat (hsym 1 0) rfl rfl (Or.inl ?_)
  have hd := loads_pos hm.size hm.fraction hfeat
  have hcoef : 0 < (FHCompiled.new o.chis (-matMin o.chis + add)).coef := by
    have h1 : ∀ r s, 0 < o.chis r s + (-matMin o.chis + add) := fun r s => by
      have := matMin_le o.chis r s
      linarith
    simp only [FHCompiled.new, Fin.sum_univ_two]
    push_cast
    linarith [h1 0 0, h1 0 1, h1 1 0, h1 1 1]
  exact mul_neg_of_pos_of_neg (by positivity) (mul_neg_of_pos_of_neg (mul_pos (hd 0) (hd 1)) hneg)

end Binary

namespace Demo

/-- Two compartments of a mixture of two components of equal size `n`. -/
noncomputable def overEnv (o : FHInteraction 2 ℝ) (n a : ℝ) : RunEnv 2 2 2 ℝ Unit :=
  ⟨(o.compile 1).toI 2, (⟨fun _ => n⟩ : IdealC 2).toI 2, coexEns.toI 2, rngZero ℝ,
    { params with acceptanceOmega := a }, "standard", id⟩

theorem overEnv_suits (o : FHInteraction 2 ℝ) (n : ℝ) {a : ℝ} (ha : 0 < a) :
    Suits (overEnv o n a) (o.compile 1) coexEns (fun _ => n) id where
  rng := rngZero_ok ℝ
  nonneg := by simp [overEnv, params]
  lt_one := by simp [overEnv, params]
  small := by simp [overEnv, params]
  bound := by simp [overEnv, params]
  step := ha
  criterion := rfl
  interaction := rfl
  entropy := (⟨fun _ => n⟩ : IdealC 2).isIdealGas (M := 2)
  ensemble := rfl

theorem over_mixture {n : ℝ} (hn : 0 < n) : Mixture (fun _ => n) coexEns.phiMeans where
  size := fun _ => hn
  fraction := by intro i; fin_cases i <;> simp [coexEns]
  total := by simp [coexEns, Fin.sum_univ_two]; norm_num

/-- Components that do not interact. -/
noncomputable def inertFH : FHInteraction 2 ℝ := ⟨fun _ _ => 0, false⟩

theorem matMin_stable : matMin stableFH.chis = 0 := by
  refine le_antisymm (by simpa [stableFH] using matMin_le stableFH.chis 0 0) ?_
  obtain ⟨r, s, h⟩ := matMin_mem stableFH.chis
  rw [h]
  fin_cases r <;> fin_cases s <;> simp [stableFH]

end Demo

-- With default settings, compartments of inert molecules of size 400 merge and those of size 600 do not.
example : Merges (Demo.overEnv Demo.inertFH 400 (2 * 10⁻¹ ^ 3)) Demo.coexEns.phiMeans ∧
    Leaves (Demo.overEnv Demo.inertFH 600 (2 * 10⁻¹ ^ 3)) Demo.coexEns.phiMeans :=
  ⟨(C99_defaults (c := 0) (fun _ _ => rfl) (Demo.overEnv_suits _ _ (by norm_num))
      (Demo.over_mixture (by norm_num)) le_rfl Function.surjective_id rfl).1
      (by simp [meanSize, Demo.coexEns, Fin.sum_univ_two]; norm_num),
    (C99_defaults (c := 0) (fun _ _ => rfl) (Demo.overEnv_suits _ _ (by norm_num))
      (Demo.over_mixture (by norm_num)) le_rfl Function.surjective_id rfl).2
      (by simp [meanSize, Demo.coexEns, Fin.sum_univ_two]; norm_num)⟩

-- Compartments of a stable mixture merge with `acceptance_omega` 0.002 and not with 1.
example : Merges (Demo.overEnv Demo.stableFH 1 (2 / 1000)) Demo.coexEns.phiMeans ∧
    Leaves (Demo.overEnv Demo.stableFH 1 1) Demo.coexEns.phiMeans := by
  have hc : (FHCompiled.new Demo.stableFH.chis (-matMin Demo.stableFH.chis + 1)).coef = 8 := by
    rw [Demo.matMin_stable]
    simp [FHCompiled.new, Demo.stableFH, Fin.sum_univ_two]; norm_num
  have ht : (4 : ℝ) = totalRate Demo.stableFH.chis
      (FHCompiled.new Demo.stableFH.chis (-matMin Demo.stableFH.chis + 1)).coef
      (loads (fun _ => 1) id Demo.coexEns.phiMeans) := by
    rw [hc]
    simp [totalRate, loads, Demo.stableFH, Demo.coexEns, Fin.sum_univ_two]; norm_num
  have hD : (1 / 4 : ℝ) = rateProduct Demo.stableFH.chis
      (FHCompiled.new Demo.stableFH.chis (-matMin Demo.stableFH.chis + 1)).coef
      (loads (fun _ => 1) id Demo.coexEns.phiMeans) := by
    rw [hc]
    simp [rateProduct, exchangeCurvature, loads, Demo.stableFH, Demo.coexEns]; norm_num
  exact ⟨C99_binary_merges (Demo.overEnv_suits _ _ (by norm_num)) (Demo.over_mixture one_pos)
      Function.surjective_id (by simp [Demo.stableFH]) (by simp [Demo.overEnv]; norm_num) ht hD (by norm_num)
      (by simp [Demo.overEnv]; norm_num) (by simp [Demo.overEnv]; norm_num),
    C99_binary_leaves (Demo.overEnv_suits _ _ one_pos) (Demo.over_mixture one_pos) le_rfl
      Function.surjective_id (by simp [Demo.stableFH]) ht hD (Or.inr (Or.inr (by simp [Demo.overEnv]; norm_num)))⟩

-- Compartments of an unstable mixture do not merge, here with `acceptance_omega` 0.9.
example : Leaves (Demo.overEnv Demo.unstableFH 1 (9 / 10)) Demo.coexEns.phiMeans :=
  C99_binary_unstable one_pos (Demo.overEnv_suits _ _ (by norm_num)) (Demo.over_mixture one_pos) le_rfl
    Function.surjective_id (by intro r s; fin_cases r <;> fin_cases s <;> simp [Demo.unstableFH])
    (by simp [exchangeCurvature, loads, Demo.unstableFH, Demo.coexEns]; norm_num)

-- Any interactions: the total of the rates of inert molecules of size 2000.
example : Leaves (Demo.overEnv Demo.inertFH 2000 (2 / 1000)) Demo.coexEns.phiMeans := by
  refine C99_total (Demo.overEnv_suits _ _ (by norm_num)) (Demo.over_mixture (by norm_num)) le_rfl
    Function.surjective_id ?_
  have h2 : matMin Demo.inertFH.chis = 0 := by
    obtain ⟨r, s, h⟩ := matMin_mem Demo.inertFH.chis
    rw [h]; rfl
  simp only [FHInteraction.compile, h2]
  simp [totalRate, loads, Demo.inertFH, Demo.coexEns, Demo.overEnv, FHCompiled.new, Fin.sum_univ_two]
  norm_num

end Flory
