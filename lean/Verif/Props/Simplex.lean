import Verif.Lemmas.Simplex
import Verif.Lemmas.Loops
import Mathlib.Probability.HasLaw
import Mathlib.Probability.Independence.Basic

/-!
# C79: random compositions are uniformly distributed
-/

set_option linter.unusedSectionVars false

namespace Flory

open Spec MeasureTheory ProbabilityTheory

variable {G : Type}

/-- The broken stick in closed form. -/
theorem breakStick_apply (n : ℕ) (X : ℕ → ℝ) (d : Fin n) :
    Simplex.breakStick n (fun k => X k) d = X d * ∏ j ∈ Finset.range d, (1 - X j) := by
  induction n generalizing X with
  | zero => exact d.elim0
  | succ n ih =>
    unfold Simplex.breakStick
    refine Fin.cases ?_ (fun d => ?_) d
    · simp
    · rw [Fin.cons_succ, Pi.smul_apply, smul_eq_mul, Fin.val_succ, Finset.prod_range_succ']
      have h := ih (fun k => X (k + 1)) d
      simp only [Fin.val_succ, Fin.val_zero] at h ⊢
      rw [h]
      ring

/-- What the code returns, in terms of the draws. -/
theorem uniformRandomComposition_eq (beta : Beta G ℝ) (g : G) (n : ℕ) (junk : Vec (n + 1) ℝ) :
    ∃ v, uniformRandomComposition beta g (n + 1) junk = .ok (v, betaAfter beta g n n) ∧
      (∀ d : Fin n, v d.castSucc = Simplex.breakStick n (fun k => betaDraw beta g n k) d) ∧
      v (Fin.last n) = 1 - ∑ d : Fin n, v d.castSucc := by
  have inv := forRange_inv (n := n) (s := (junk, (1 : ℝ), g))
    (body := fun d s => let (b, g) := beta s.2.2 1 (n + 1 - d.1 - 1)
      let x := b * s.2.1
      (setAt s.1 d.castSucc x, s.2.1 - x, g))
    (P := fun k s => s.2.2 = betaAfter beta g n k ∧
      s.2.1 = ∏ j ∈ Finset.range k, (1 - betaDraw beta g n j) ∧
      ∀ d : Fin n, d.1 < k → s.1 d.castSucc =
        betaDraw beta g n d * ∏ j ∈ Finset.range d, (1 - betaDraw beta g n j))
    ⟨rfl, by simp, fun d h => absurd h (by omega)⟩ (by
      rintro d ⟨v, r, g'⟩ ⟨h1, h2, h3⟩
      simp only at h1 h2 h3
      have e : n + 1 - d.1 - 1 = n - d.1 := by omega
      have eb : (beta g' 1 (n + 1 - d.1 - 1)).1 = betaDraw beta g n d := by rw [h1, e]; rfl
      refine ⟨by simp only [h1, e]; rfl, ?_, fun c hc => ?_⟩
      · simp only [eb]
        rw [Finset.prod_range_succ, ← h2]
        ring
      · simp only [eb]
        by_cases h : c = d
        · subst h; rw [setAt_same, h2]
        · rw [setAt_ne _ _ fun hc => h (Fin.castSucc_injective _ hc)]
          exact h3 c (by have : c.1 ≠ d.1 := fun hc => h (Fin.ext hc)
                         omega))
  obtain ⟨k1, -, k3⟩ := inv
  have hc : ∀ (w : Vec (n + 1) ℝ) (x : ℝ) (d : Fin n), setAt w (Fin.last n) x d.castSucc = w d.castSucc :=
    fun w x d => setAt_ne _ _ (Fin.castSucc_lt_last d).ne
  refine ⟨_, by unfold uniformRandomComposition; rw [← k1], fun d => ?_, ?_⟩
  · rw [breakStick_apply n (fun k => betaDraw beta g n k), ← k3 d d.2]
    exact hc _ _ d
  · simp only [hc]
    exact setAt_same _ _ _

/-- **C79**. If the draws of the generator are independent and beta distributed as requested,
`get_uniform_random_composition` never fails, the fractions of all components but the last are uniformly
distributed (with respect to Lebesgue measure) on the set where they are not negative and sum to at most
one, and the last fraction is what is missing to one. -/
theorem C79_uniform {Ω : Type} [MeasurableSpace Ω] {P : Measure Ω} [IsProbabilityMeasure P]
    (beta : Beta G ℝ) (g : Ω → G) (n : ℕ)
    (hlaw : ∀ d : Fin n, HasLaw (fun ω => betaDraw beta (g ω) n d) (betaMeasure 1 ((n - d : ℕ) : ℝ)) P)
    (hind : iIndepFun (fun (d : Fin n) ω => betaDraw beta (g ω) n d) P) (junk : Ω → Vec (n + 1) ℝ) :
    ∃ phi : Ω → Vec (n + 1) ℝ,
      (∀ ω, ∃ g', uniformRandomComposition beta (g ω) (n + 1) (junk ω) = .ok (phi ω, g')) ∧
      pdf.IsUniform (fun ω (d : Fin n) => phi ω d.castSucc) (corner n) P volume ∧
      ∀ ω, ∑ i, phi ω i = 1 := by
  choose v h1 h2 h3 using fun ω => uniformRandomComposition_eq beta (g ω) n (junk ω)
  refine ⟨v, fun ω => ⟨_, h1 ω⟩, ?_, fun ω => ?_⟩
  · have hmap : P.map (fun ω (d : Fin n) => betaDraw beta (g ω) n d) = Simplex.law n := by
      rw [(iIndepFun_iff_map_fun_eq_pi_map fun d => (hlaw d).aemeasurable).mp hind]
      unfold Simplex.law
      congr 1
      funext d
      exact (hlaw d).map_eq
    have e : (fun ω (d : Fin n) => v ω d.castSucc) =
        Simplex.breakStick n ∘ fun ω (d : Fin n) => betaDraw beta (g ω) n d := by
      funext ω d
      exact h2 ω d
    unfold pdf.IsUniform
    rw [e, ← AEMeasurable.map_map_of_aemeasurable (Simplex.measurable_breakStick n).aemeasurable
      (aemeasurable_pi_iff.mpr fun d => (hlaw d).aemeasurable), hmap]
    exact Simplex.map_law n
  · rw [Fin.sum_univ_castSucc, h3 ω]
    ring

/-- A generator that reads its draws from a list prepared before. -/
def Demo.tape : Beta (ℕ × (ℕ → ℝ)) ℝ := fun g _ _ => (g.2 g.1, (g.1 + 1, g.2))

-- A generator with independent draws of these laws exists, for any number of components.
example (n : ℕ) : ∃ (g : (Fin n → ℝ) → ℕ × (ℕ → ℝ)),
    (∀ d : Fin n, HasLaw (fun ω => betaDraw Demo.tape (g ω) n d) (betaMeasure 1 ((n - d : ℕ) : ℝ))
      (Simplex.law n)) ∧
    iIndepFun (fun (d : Fin n) ω => betaDraw Demo.tape (g ω) n d) (Simplex.law n) := by
  have hdraw : ∀ (x : ℕ → ℝ) k, betaDraw Demo.tape (0, x) n k = x k := fun x k => by
    have h : ∀ k, betaAfter Demo.tape (0, x) n k = (k, x) := fun k => by
      induction k with
      | zero => rfl
      | succ k ih => simp only [betaAfter, ih]; rfl
    simp only [betaDraw, h]; rfl
  have hp := Simplex.prob n
  refine ⟨fun ω => (0, fun k => if h : k < n then ω ⟨k, h⟩ else 0), fun d => ?_, ?_⟩
  · simp only [hdraw, d.2, dite_true]
    exact ⟨(measurable_pi_apply d).aemeasurable, (measurePreserving_eval _ d).map_eq⟩
  · simp only [hdraw, Fin.is_lt, dite_true]
    exact iIndepFun_pi (X := fun _ x => x) fun d => aemeasurable_id

end Flory
