import Verif.Props.FreeEnergy
import Mathlib.Analysis.SpecialFunctions.Log.Deriv
import Mathlib.Analysis.SpecialFunctions.Trigonometric.Deriv

/-!
# C51 (Gibbs–Duhem)
-/

set_option linter.unusedSectionVars false

namespace Flory

open XReal Spec Topology

variable {C : ℕ}

/-- **C51**, Gibbs–Duhem: along any differentiable path of positive compositions summing to one, the
chemical potentials that the method returns change such that their fraction-weighted derivatives
add to zero. -/
theorem C51_gibbs_duhem {chis : Mat C C ℝ} (hs : ∀ i j, chis i j = chis j i) {l : Vec C ℝ}
    (hl : ∀ i, 0 < l i) {phis : ℝ → NDArr ℝ} {r : ℝ → Rows (Vec C XReal)} {idx : List ℕ}
    (h : ∀ t, (fhFree chis l).chemicalPotentials (phis t) = .ok (r t))
    (hi : ∀ t, ValidIndex idx (r t).lead) {t0 : ℝ} {dx : Vec C ℝ} :
    let x : ℝ → Vec C ℝ := fun t => composition C (phis t) (sourceIndex (phis t) idx)
    (∀ t i, 0 < x t i) → (∀ t, ∑ i, x t i = 1) → (∀ i, HasDerivAt (fun t => x t i) (dx i) t0) →
    ∃ (mu : ℝ → Vec C ℝ) (dmu : Vec C ℝ), (∀ t i, (r t).row idx i = fin (mu t i)) ∧
      (∀ i, HasDerivAt (fun t => mu t i) (dmu i) t0) ∧ ∑ i, x t0 i * dmu i = 0 := by
  intro x hx hsum hd
  have hq : HasDerivAt (fun t => ∑ j, ∑ k, chis j k * x t j * x t k)
      (2 * ∑ j, x t0 j * ∑ k, chis j k * dx k) t0 := by
    have h1 : HasDerivAt (fun t => ∑ j, ∑ k, chis j k * x t j * x t k)
        (∑ j, ∑ k, (chis j k * dx j * x t0 k + chis j k * x t0 j * dx k)) t0 :=
      HasDerivAt.fun_sum fun j _ => HasDerivAt.fun_sum fun k _ =>
        ((hd j).const_mul (chis j k)).mul (hd k)
    refine h1.congr_deriv ?_
    have e1 : ∑ j, ∑ k, chis j k * dx j * x t0 k = ∑ j, x t0 j * ∑ k, chis j k * dx k := by
      rw [Finset.sum_comm]
      refine Finset.sum_congr rfl fun j _ => ?_
      rw [Finset.mul_sum]
      exact Finset.sum_congr rfl fun k _ => by rw [hs k j]; ring
    have e2 : ∑ j, ∑ k, chis j k * x t0 j * dx k = ∑ j, x t0 j * ∑ k, chis j k * dx k := by
      refine Finset.sum_congr rfl fun j _ => ?_
      rw [Finset.mul_sum]
      exact Finset.sum_congr rfl fun k _ => by ring
    simp only [Finset.sum_add_distrib]
    rw [e1, e2]
    ring
  set Q : ℝ := ∑ j, x t0 j * ∑ k, chis j k * dx k with hQ
  refine ⟨fun t => chemPot chis l (x t), fun i => dx i / x t0 i / l i + ∑ j, chis i j * dx j
    - 1 / 2 * (2 * Q) - ∑ j, dx j / l j, fun t i => (chemPot_rows hs hl (h t) (hi t) i).2.2 (hx t i),
    fun i => ?_, ?_⟩
  · unfold chemPot
    exact (((((hd i).log (hx t0 i).ne').add_const 1).div_const (l i)).add
      (HasDerivAt.fun_sum fun j _ => (hd j).const_mul (chis i j))).sub (hq.const_mul (1 / 2))
      |>.sub (HasDerivAt.fun_sum fun j _ => (hd j).div_const (l j))
  · have e : ∀ i, x t0 i * (dx i / x t0 i / l i + ∑ j, chis i j * dx j - 1 / 2 * (2 * Q)
        - ∑ j, dx j / l j) = dx i / l i + x t0 i * (∑ j, chis i j * dx j)
          - x t0 i * (Q + ∑ j, dx j / l j) := fun i => by
      have := (hx t0 i).ne'
      have := (hl i).ne'
      field_simp
      ring
    simp only [e, Finset.sum_sub_distrib, Finset.sum_add_distrib, ← Finset.sum_mul, hsum, ← hQ]
    ring

example : ∃ (phis : ℝ → NDArr ℝ) (r : ℝ → Rows (Vec 2 XReal)) (dx : Vec 2 ℝ),
    (∀ t, (fhFree (C := 2) ![![0, 3], ![3, 0]] ![1, 2]).chemicalPotentials (phis t) = .ok (r t)) ∧
    (∀ t, ValidIndex [0] (r t).lead) ∧
    (∀ t i, 0 < composition 2 (phis t) (sourceIndex (phis t) [0]) i) ∧
    (∀ t, ∑ i, composition 2 (phis t) (sourceIndex (phis t) [0]) i = 1) ∧
    (∀ i, HasDerivAt (fun t => composition 2 (phis t) (sourceIndex (phis t) [0]) i) (dx i) 0) ∧
    dx 0 ≠ 0 := by
  set p : ℝ → Vec 2 ℝ := fun t => ![1 / 2 + Real.sin t / 4, 1 / 2 - Real.sin t / 4] with hp
  have hcomp : ∀ t i, composition 2 (NDArr.ofVec (p t)) (sourceIndex (NDArr.ofVec (p t)) [0]) i =
      p t i := fun t => ofVec_get _
  have hpos : ∀ t i, 0 < p t i := fun t i => by
    have h1 := Real.neg_one_le_sin t
    have h2 := Real.sin_le_one t
    fin_cases i <;> simp [hp] <;> linarith
  have hok : ∀ t, ∃ r, (fhFree (C := 2) ![![0, 3], ![3, 0]] ![1, 2]).chemicalPotentials
      (NDArr.ofVec (p t)) = .ok r ∧ r.lead = [1] := fun t => by
    obtain ⟨r, h1, h2⟩ := chemicalPotentials_ok (fhFree (C := 2) ![![0, 3], ![3, 0]] ![1, 2])
      (NDArr.ofVec (p t)) (lead := []) rfl (by
        intro idx hi i
        cases hi
        exact (hcomp t i).symm ▸ (hpos t i).le)
    exact ⟨r, h1, h2⟩
  choose r h1 h2 using hok
  refine ⟨fun t => NDArr.ofVec (p t), r, ![1 / 4, -(1 / 4)], h1,
    fun t => by rw [h2]; exact .cons (by norm_num) .nil, fun t i => by rw [hcomp]; exact hpos t i,
    fun t => by simp only [hcomp]; simp [hp, Fin.sum_univ_two]; ring, fun i => ?_, by norm_num⟩
  simp only [hcomp]
  have hsin := (Real.hasDerivAt_sin 0).div_const 4
  rw [Real.cos_zero] at hsin
  fin_cases i
  · simpa [hp] using hsin.const_add (1 / 2)
  · simpa [hp] using hsin.const_sub (2⁻¹ : ℝ)

end Flory
