import Verif.Spec.Symmetric
import Verif.Lemmas.Symmetric
import Verif.Props.GroundState
import Mathlib.Analysis.Convex.StdSimplex
import Mathlib.Analysis.Convex.SpecificFunctions.Basic

/-! # Compositions of least free energy of symmetric mixtures -/

set_option linter.unusedSectionVars false

namespace Flory.SymMix

open Spec Finset

variable {C : ℕ} {chi l s : ℝ}

theorem row_sym (v : Vec C ℝ) (i : Fin C) : ∑ j, symmetricChis C chi i j * v j = chi * (∑ j, v j - v i) := by
  have h : ∀ j, symmetricChis C chi i j * v j = chi * v j - if i = j then chi * v j else 0 := by
    intro j
    unfold symmetricChis
    split_ifs <;> simp
  rw [sum_congr rfl fun j _ => h j, sum_sub_distrib, sum_ite_eq, if_pos (mem_univ _), ← mul_sum]
  ring

theorem quad_sym (v : Vec C ℝ) :
    ∑ i, ∑ j, symmetricChis C chi i j * v i * v j = chi * ((∑ i, v i) ^ 2 - ∑ i, v i ^ 2) := by
  have h : ∀ i, ∑ j, symmetricChis C chi i j * v i * v j = chi * (v i * ∑ j, v j) - chi * v i ^ 2 := by
    intro i
    have := row_sym (chi := chi) v i
    calc ∑ j, symmetricChis C chi i j * v i * v j = v i * ∑ j, symmetricChis C chi i j * v j := by
          rw [mul_sum]; exact sum_congr rfl fun j _ => by ring
      _ = _ := by rw [this]; ring
  rw [sum_congr rfl fun i _ => h i, sum_sub_distrib, ← mul_sum, ← mul_sum, ← sum_mul]
  ring

theorem chis_symm (i j : Fin C) : symmetricChis C chi i j = symmetricChis C chi j i := by
  unfold symmetricChis
  split_ifs with h h' h'
  · rfl
  · exact absurd h.symm h'
  · exact absurd h'.symm h
  · rfl

/-- Free energy of a component, without a constant. -/
noncomputable def g (a t : ℝ) : ℝ := t * Real.log t - a / 2 * t ^ 2

theorem freeEnergy_sym (hl : l ≠ 0) {phi : Vec C ℝ} (h1 : ∑ i, phi i = 1) :
    freeEnergy (symmetricChis C chi) (fun _ => l) phi = (∑ i, g (l * chi) (phi i)) / l + chi / 2 := by
  unfold freeEnergy g
  rw [quad_sym, h1, sum_sub_distrib, ← sum_div, ← mul_sum]
  field_simp
  ring

theorem chemPot_sym (hl : l ≠ 0) {phi : Vec C ℝ} (h1 : ∑ i, phi i = 1) (i : Fin C) :
    chemPot (symmetricChis C chi) (fun _ => l) phi i =
      (Real.log (phi i) - l * chi * phi i) / l + chi / 2 + chi / 2 * ∑ i, phi i ^ 2 := by
  unfold chemPot
  rw [quad_sym, row_sym, h1, ← sum_div, h1]
  field_simp
  ring

/-! ## Compositions with one enriched component -/

theorem sum_enriched_eq (f : ℝ → ℝ) (k : Fin C) :
    ∑ i, f (enriched C s k i) = f ((1 + (C - 1) * s) / C) + (C - 1) * f ((1 - s) / C) := by
  have h : ∀ i, f (enriched C s k i) =
      f ((1 - s) / C) + if k = i then f ((1 + (C - 1) * s) / C) - f ((1 - s) / C) else 0 := by
    intro i
    unfold enriched
    by_cases h : i = k
    · subst h; simp
    · rw [if_neg h, if_neg (Ne.symm h), add_zero]
  rw [sum_congr rfl fun i _ => h i, sum_add_distrib, sum_ite_eq, if_pos (mem_univ _), sum_const, card_univ,
    Fintype.card_fin, nsmul_eq_mul]
  ring

theorem sum_enriched (hC : 0 < C) (k : Fin C) : ∑ i, enriched C s k i = 1 := by
  have := sum_enriched_eq (s := s) (fun t => t) k
  rw [this]
  have : (C : ℝ) ≠ 0 := by exact_mod_cast hC.ne'
  field_simp
  ring

theorem freeEnergy_enriched (hC : 0 < C) (hl : l ≠ 0) (k : Fin C) :
    freeEnergy (symmetricChis C chi) (fun _ => l) (enriched C s k) = E C (l * chi) s / l + chi / 2 := by
  rw [freeEnergy_sym hl (sum_enriched hC k), sum_enriched_eq (g (l * chi)) k]
  unfold g E
  ring

theorem enriched_pos (hC : 0 < C) (h0 : 0 ≤ s) (h1 : s < 1) (k i : Fin C) : 0 < enriched C s k i := by
  have hc : (0 : ℝ) < C := by exact_mod_cast hC
  have hc1 : (1 : ℝ) ≤ C := by exact_mod_cast hC
  unfold enriched
  split_ifs
  · exact div_pos (by nlinarith) hc
  · exact div_pos (by linarith) hc

/-! ## The minimum of the free energy -/

theorem u_mono {a x y : ℝ} (hx : 0 < x) (hxy : x < y) (hy : a * y ≤ 1) :
    Real.log x - a * x < Real.log y - a * y := by
  have hy0 : 0 < y := hx.trans hxy
  have := Real.log_lt_sub_one_of_pos (div_pos hx hy0) (by rw [Ne, div_eq_one_iff_eq hy0.ne']; exact hxy.ne)
  rw [Real.log_div hx.ne' hy0.ne'] at this
  have h2 : x / y - 1 = -((y - x) / y) := by field_simp; ring
  have h3 : a * (y - x) ≤ (y - x) / y := by
    rw [le_div_iff₀ hy0]; nlinarith
  linarith

theorem u_anti {a x y : ℝ} (hx : 0 < x) (hxy : x < y) (hx1 : 1 ≤ a * x) :
    Real.log y - a * y < Real.log x - a * x := by
  have hy0 : 0 < y := hx.trans hxy
  have := Real.log_lt_sub_one_of_pos (div_pos hy0 hx) (by rw [Ne, div_eq_one_iff_eq hx.ne']; exact hxy.ne')
  rw [Real.log_div hy0.ne' hx.ne'] at this
  have h2 : y / x - 1 = (y - x) / x := by field_simp
  have h3 : (y - x) / x ≤ a * (y - x) := by
    rw [div_le_iff₀ hx]; nlinarith
  linarith

/-- Two components that are both too abundant are not optimal. -/
theorem g_split {a t : ℝ} (ht : 0 < t) (hat : 1 < a * t) :
    ∃ d, 0 < d ∧ d < t ∧ g a (t + d) + g a (t - d) < 2 * g a t := by
  have ha : 0 < a := by
    by_contra h
    nlinarith
  refine ⟨(t - 1 / a) / 2, by
    have : 1 / a < t := by rw [div_lt_iff₀ ha]; linarith
    linarith, by
    have : 0 < 1 / a := by positivity
    linarith, ?_⟩
  have h1a : 1 / a < t := by rw [div_lt_iff₀ ha]; linarith
  have h0a : 0 < 1 / a := by positivity
  set d := (t - 1 / a) / 2 with hd
  have hd0 : 0 < d := by rw [hd]; linarith
  have hlow : 1 / a < t - d := by rw [hd]; linarith
  have hlow0 : 0 < t - d := h0a.trans hlow
  -- slopes of `g` on both sides
  have key : ∀ x y : ℝ, 1 / a < x → x < y → g a y - g a x < (Real.log x + 1 - a * x) * (y - x) ∧
      (Real.log y + 1 - a * y) * (y - x) < g a y - g a x := by
    intro x y hx hxy
    have hx0 : 0 < x := h0a.trans hx
    have hderiv : ∀ z, 0 < z → HasDerivAt (g a) (Real.log z + 1 - a * z) z := by
      intro z hz
      have := (Real.hasDerivAt_mul_log hz.ne').sub (((hasDerivAt_id z).pow 2).const_mul (a / 2))
      refine (this.congr_deriv ?_).congr_of_eventuallyEq (Filter.Eventually.of_forall fun t => ?_)
      · simp; ring
      · simp [g]
    obtain ⟨z, hz, e⟩ := exists_hasDerivAt_eq_slope (g a) (fun z => Real.log z + 1 - a * z) hxy
      (fun z hz => (hderiv z (hx0.trans_le hz.1)).continuousAt.continuousWithinAt)
      fun z hz => hderiv z (hx0.trans hz.1)
    have hz0 : 0 < z := hx0.trans hz.1
    rw [eq_div_iff (by linarith)] at e
    have hax : 1 ≤ a * x := by rw [div_lt_iff₀ ha] at hx; linarith
    have haz : 1 ≤ a * z := by nlinarith [hz.1]
    have b1 := u_anti hx0 hz.1 hax
    have b2 := u_anti hz0 hz.2 haz
    have hyx : 0 < y - x := by linarith
    rw [← e]
    constructor
    · exact mul_lt_mul_of_pos_right (by linarith) hyx
    · exact mul_lt_mul_of_pos_right (by linarith) hyx
  have k1 := (key t (t + d) h1a (by linarith)).1
  have k2 := (key (t - d) t hlow (by linarith)).2
  have e1 : t + d - t = d := by ring
  have e2 : t - (t - d) = d := by ring
  rw [e1] at k1
  rw [e2] at k2
  linarith

/-- A composition of least free energy. -/
def Best (C : ℕ) (a : ℝ) (y : Vec C ℝ) : Prop :=
  (∀ i, 0 ≤ y i) ∧ ∑ i, y i = 1 ∧ ∀ z : Vec C ℝ, (∀ i, 0 ≤ z i) → ∑ i, z i = 1 → ∑ i, g a (y i) ≤ ∑ i, g a (z i)

theorem best_exists (hC : 0 < C) (a : ℝ) : ∃ y, Best C a y := by
  have hcont : Continuous fun z : Vec C ℝ => ∑ i, g a (z i) := by
    refine continuous_finsetSum _ fun i _ => ?_
    exact (Real.continuous_mul_log.comp (continuous_apply i)).sub
      (continuous_const.mul ((continuous_apply i).pow 2))
  have hne : (stdSimplex ℝ (Fin C)).Nonempty := ⟨enriched C 0 ⟨0, hC⟩, fun i =>
    (enriched_pos hC le_rfl one_pos _ i).le, sum_enriched hC _⟩
  obtain ⟨y, hy, hm⟩ := (isCompact_stdSimplex ℝ (Fin C)).exists_isMinOn hne hcont.continuousOn
  exact ⟨y, hy.1, hy.2, fun z h0 h1 => hm ⟨h0, h1⟩⟩

/-- Chemical balance of the best composition. -/
theorem best_balance (hC : 0 < C) {a : ℝ} {y : Vec C ℝ} (hy : Best C a y) :
    (∀ i, 0 < y i) ∧ ∀ i j, Real.log (y i) - a * y i = Real.log (y j) - a * y j := by
  have : NeZero C := ⟨hC.ne'⟩
  have hc : (0 : ℝ) < C := by exact_mod_cast hC
  have hsum : ∀ (f : Fin C → ℝ) (i : Fin C), ∑ k, f (i + k) = ∑ k, f k := fun f i =>
    Equiv.sum_comp (Equiv.addLeft i) f
  have hsum' : ∀ (f : Fin C → ℝ) (i : Fin C), ∑ k, f (k + i) = ∑ k, f k := fun f i =>
    Equiv.sum_comp (Equiv.addRight i) f
  have hp : Partition (M := C) (fun _ : Fin C => (1 / C : ℝ)) (fun _ => 1) fun k i => y (i + k) := by
    refine ⟨hC, fun _ => zero_le_one, by simp, fun m i => hy.1 _, fun m => ?_, fun i => ?_⟩
    · rw [hsum' y m, hy.2.1]
    · simp only [one_mul]
      rw [hsum y i, hy.2.1]
      field_simp
  have hE : ∀ k : Fin C, freeEnergy (symmetricChis C a) (fun _ => 1) (fun i => y (i + k)) =
      ∑ i, g a (y i) + a / 2 := by
    intro k
    rw [freeEnergy_sym one_ne_zero (by rw [hsum' y k, hy.2.1]), one_mul, div_one,
      hsum' (fun i => g a (y i)) k]
  have hopt : LowerBound (liftChis (symmetricChis C a) id) (fun _ => 1) (fun _ : Fin C => (1 / C : ℝ))
      (meanEnergy (liftChis (symmetricChis C a) id) (fun _ => 1) (fun _ : Fin C => (1 : ℝ)) fun k i => y (i + k)) := by
    intro N J psi hP
    have hN : (0 : ℝ) < N := by exact_mod_cast hP.count
    have e1 : meanEnergy (liftChis (symmetricChis C a) id) (fun _ => 1) (fun _ : Fin C => (1 : ℝ))
        (fun k i => y (i + k)) = ∑ i, g a (y i) + a / 2 := by
      unfold meanEnergy
      rw [sum_congr rfl fun k _ => show 1 * freeEnergy (liftChis (symmetricChis C a) id) (fun _ => 1)
        (fun i => y (i + k)) = ∑ i, g a (y i) + a / 2 by rw [one_mul]; exact hE k]
      rw [sum_const, card_univ, Fintype.card_fin, nsmul_eq_mul]
      field_simp
    rw [e1]
    unfold meanEnergy
    rw [le_div_iff₀ hN, ← hP.volumes, mul_sum]
    refine sum_le_sum fun m _ => ?_
    rw [mul_comm]
    refine mul_le_mul_of_nonneg_left ?_ (hP.nonneg m)
    have := freeEnergy_sym (chi := a) (l := 1) one_ne_zero (hP.fill m)
    rw [one_mul, div_one] at this
    show _ ≤ freeEnergy (symmetricChis C a) (fun _ => 1) (psi m)
    rw [this]
    linarith [hy.2.2 (psi m) (hP.frac m) (hP.fill m)]
  have hco := C77_optimal_coexists (X := symmetricChis C a) (feat := id) chis_symm (fun _ => one_pos)
    (fun _ => by positivity) (by rw [sum_const, card_univ, Fintype.card_fin, nsmul_eq_mul]; field_simp) hp
    (fun _ => one_pos) hopt
  obtain ⟨mu, hmu⟩ := hco.balance
  have hpos : ∀ i, 0 < y i := fun i => by simpa using hco.pos i 0
  refine ⟨hpos, ?_⟩
  have hk : ∀ k, Real.log (y k) - a * y k = mu 0 - a / 2 - a / 2 * ∑ i, y i ^ 2 := by
    intro k
    have h := hmu 0 k
    have h2 := chemPot_sym (chi := a) (l := 1) one_ne_zero (phi := fun j => y (j + k)) (by rw [hsum' y k, hy.2.1]) 0
    have h3 : chemPot (symmetricChis C a) (fun _ => 1) (fun j => y (j + k)) 0 = mu 0 := h
    rw [h2, hsum' (fun i => y i ^ 2) k] at h3
    simp only [zero_add, one_mul, div_one] at h3
    linarith
  intro i j
  rw [hk i, hk j]

/-- The best composition has at most one enriched component. -/
theorem best_enriched (hC : 2 ≤ C) {a : ℝ} {y : Vec C ℝ} (hy : Best C a y) :
    ∃ s k, 0 ≤ s ∧ s < 1 ∧ y = enriched C s k := by
  have hc : (0 : ℝ) < C := by exact_mod_cast (by omega : 0 < C)
  obtain ⟨hpos, hbal⟩ := best_balance (by omega) hy
  by_cases h : ∃ k, 1 < a * y k
  · obtain ⟨k, hk⟩ := h
    have hsmall : ∀ j, j ≠ k → a * y j < 1 := by
      intro j hj
      by_contra hc'
      push Not at hc'
      have hjk : y j = y k := by
        rcases lt_trichotomy (y j) (y k) with h | h | h
        · have := u_anti (hpos j) h hc'; linarith [hbal j k]
        · exact h
        · have := u_anti (hpos k) h hk.le; linarith [hbal j k]
      obtain ⟨d, hd0, hd1, hd⟩ := g_split (hpos k) hk
      have hz := hy.2.2 (Function.update (Function.update y k (y k + d)) j (y k - d)) ?_ ?_
      · have e : ∀ (f : ℝ → ℝ), ∑ i, f (Function.update (Function.update y k (y k + d)) j (y k - d) i) =
            ∑ i, f (y i) + (f (y k + d) - f (y k)) + (f (y k - d) - f (y j)) := by
          intro f
          have h1 : ∀ i, f (Function.update (Function.update y k (y k + d)) j (y k - d) i) =
              f (y i) + (if k = i then f (y k + d) - f (y k) else 0) +
                if j = i then f (y k - d) - f (y j) else 0 := by
            intro i
            by_cases hij : i = j
            · subst hij; simp [Ne.symm hj]
            · rw [Function.update_of_ne hij]
              by_cases hik : i = k
              · subst hik; simp [hj]
              · simp [Function.update_of_ne hik, Ne.symm hij, Ne.symm hik]
          rw [sum_congr rfl fun i _ => h1 i, sum_add_distrib, sum_add_distrib, sum_ite_eq, sum_ite_eq,
            if_pos (mem_univ _), if_pos (mem_univ _)]
        have := e (g a)
        rw [this, hjk] at hz
        linarith
      · intro i
        by_cases hij : i = j
        · subst hij; simp; linarith
        · rw [Function.update_of_ne hij]
          by_cases hik : i = k
          · subst hik; simp; linarith [hpos i]
          · rw [Function.update_of_ne hik]; exact (hpos i).le
      · have h1 : ∀ i, Function.update (Function.update y k (y k + d)) j (y k - d) i =
              y i + (if k = i then d else 0) + if j = i then -d else 0 := by
          intro i
          by_cases hij : i = j
          · subst hij; simp [Ne.symm hj]; linarith
          · rw [Function.update_of_ne hij]
            by_cases hik : i = k
            · subst hik; simp [hj]
            · simp [Function.update_of_ne hik, Ne.symm hij, Ne.symm hik]
        rw [sum_congr rfl fun i _ => h1 i, sum_add_distrib, sum_add_distrib, sum_ite_eq, sum_ite_eq,
            if_pos (mem_univ _), if_pos (mem_univ _), hy.2.1]
        ring
    have hne : ∃ j, j ≠ k := by
      have : Nontrivial (Fin C) := Fin.nontrivial_iff_two_le.2 hC
      exact exists_ne k
    obtain ⟨j₀, hj₀⟩ := hne
    have hx : ∀ j, j ≠ k → y j = y j₀ := by
      intro j hj
      rcases lt_trichotomy (y j) (y j₀) with h | h | h
      · have := u_mono (hpos j) h (hsmall j₀ hj₀).le; linarith [hbal j j₀]
      · exact h
      · have := u_mono (hpos j₀) h (hsmall j hj).le; linarith [hbal j j₀]
    have hsumy : y k + (C - 1) * y j₀ = 1 := by
      have h1 : ∀ i, y i = y j₀ + if k = i then y k - y j₀ else 0 := by
        intro i
        by_cases hik : i = k
        · subst hik; simp
        · rw [if_neg (Ne.symm hik), add_zero, hx i hik]
      have h2 := hy.2.1
      rw [sum_congr rfl fun i _ => h1 i, sum_add_distrib, sum_ite_eq, if_pos (mem_univ _), sum_const, card_univ,
        Fintype.card_fin, nsmul_eq_mul] at h2
      linarith
    have hlt : y j₀ < y k := by
      have := hsmall j₀ hj₀
      have ha : 0 < a := by
        by_contra h
        nlinarith [hpos k]
      by_contra hcon
      nlinarith
    refine ⟨y k - y j₀, k, by linarith, ?_, ?_⟩
    · have := hpos j₀
      have hC1 : (2 : ℝ) ≤ C := by exact_mod_cast hC
      nlinarith
    · funext i
      unfold enriched
      split_ifs with hik
      · subst hik
        rw [eq_div_iff hc.ne']
        linear_combination hsumy
      · rw [hx i hik, eq_div_iff hc.ne']
        linear_combination hsumy
  · push Not at h
    have hx : ∀ i j, y i = y j := by
      intro i j
      rcases lt_trichotomy (y i) (y j) with h' | h' | h'
      · have := u_mono (hpos i) h' (h j); linarith [hbal i j]
      · exact h'
      · have := u_mono (hpos j) h' (h i); linarith [hbal i j]
    refine ⟨0, ⟨0, by omega⟩, le_rfl, one_pos, ?_⟩
    funext i
    have h2 := hy.2.1
    rw [sum_congr rfl fun j _ => hx j i, sum_const, card_univ, Fintype.card_fin, nsmul_eq_mul] at h2
    have : y i = 1 / C := by rw [eq_div_iff hc.ne']; linarith
    unfold enriched
    rw [this]
    simp

end Flory.SymMix
