import Verif.Props.TextChance
import Verif.Props.Weak

/-!
# C116: searches with the transcribed text in weakly interacting mixtures return one phase

The function called is `Gen.find_coexisting_phases`, written by `tools/transcribe_shortcut.py` from the source text.
-/

set_option linter.unusedSectionVars false

namespace Flory

open Spec MeasureTheory ProbabilityTheory

variable {G : Type} {C M : ℕ}

section Search

variable [NeZero C] [NeZero M] {env : TextEnv G M}

/-- **C116**: if the interaction is weak enough, `acceptance_omega` small enough, `acceptance_Js` small enough compared
to it and the tolerance small enough, then the transcribed `find_coexisting_phases` returns the mean composition with a
probability as near to 1 as wanted, for every mean composition. -/
theorem C116_search (henv : env.Documented C) {l : Vec C ℝ} (hl : ∀ i, 0 < l i) {shift : ℝ} (hshift : 0 < shift) :
    ∃ a₀ > 0, ∀ (σ : ℝ) (δ : ENNReal), 0 < δ → ∀ ε > 0, ε ≤ 1 / 200 → ∃ X > 0, ∃ ρ₀ > 0, ∃ t₀ > 0,
      ∀ chis : Mat C C ℝ, (∀ i j, chis i j = chis j i) → (∀ i j, |chis i j| ≤ X) →
      ∀ phi : Vec C ℝ, (∀ i, 0 < phi i) → ∑ i, phi i = 1 → ∀ ρ, 0 ≤ ρ → ρ ≤ ρ₀ →
      ∀ a : FinderArgs, Careful C M shift ρ a₀ a → a.randomStd ≤ σ → a.killThreshold < 1 / 2 →
      a.tolerance ≤ t₀ → ∃ N : ℕ, ∀ maxSteps : ℚ, N ≤ maxSteps → ∀ progress,
      ∀ {Ω : Type} [MeasurableSpace Ω] {P : Measure Ω} {g : Ω → G}, NormalDraws P env.gen g (C * M) →
        1 - δ ≤ P (textFound env g chis l phi a maxSteps progress (fun i (_ : Fin M) => phi i) ε) := by
  obtain ⟨ext, hext, htext⟩ := text_of_model henv
  obtain ⟨a₀, ha₀, h⟩ := C95_search (env := ⟨env.gen, fun _ _ _ s => s⟩) (M := M) henv.rng ext hext hl hshift
  refine ⟨a₀, ha₀, fun σ δ hδ ε hε hε' => ?_⟩
  obtain ⟨X, hX, ρ₀, hρ₀, t₀, ht₀, h⟩ := h σ δ hδ ε hε hε'
  refine ⟨X, hX, ρ₀, hρ₀, t₀, ht₀, fun chis h1 h2 phi h3 h4 ρ h5 h6 a ha h7 h8 h9 => ?_⟩
  obtain ⟨N, h⟩ := h chis h1 h2 phi h3 h4 ρ h5 h6 a ha h7 h8 h9
  exact ⟨N, fun maxSteps hmax progress Ω _ P g hg =>
    (h maxSteps hmax hg).trans (measure_mono (htext maxSteps progress g ha.numPart))⟩

/-- **C116**: what such a search returns is one phase of volume one and of the mean composition. -/
theorem C116_one {phi : Vec C ℝ} {ε tol : ℝ} (hε : ε ≤ 1 / 200) {b : Gen.PhasesResultAttrs ℝ}
    (h : TextFinds (fun i (_ : Fin M) => phi i) ε tol b) :
    b.volumes.shape = [1] ∧ b.fractions.shape = [1, C] ∧ |b.volumes.get [0] - 1| ≤ ε ∧
      eucl (fun i : Fin C => b.fractions.get [0, i.1]) phi ≤ ε := by
  have hM : (M : ℝ) ≠ 0 := by exact_mod_cast NeZero.ne M
  have hcard := C114_count hε (fun m n ⟨i, hi⟩ => absurd rfl hi) h
  obtain ⟨P, h1, h2, h3, -⟩ := h
  have hP : P = 1 := by
    rw [h1, Set.range_const, Nat.card_coe_set_eq, Set.ncard_singleton] at hcard
    exact List.singleton_inj.mp hcard
  subst hP
  obtain ⟨m, h4, h5⟩ := h3 0
  refine ⟨h1, h2, ?_, h4⟩
  have : (Nat.card {n : Fin M // ∀ i, phi i = phi i} : ℝ) / M = 1 := by
    simp [hM]
  rw [this] at h5
  exact h5

end Search

-- C116: three components of different sizes with weak repulsion, default shift, noise of strength 5, eight compartments:
-- one phase with a probability of at least 99 %.
example : ∃ (scipy : Scipy) (sort : ArgSort ℝ) (a : FinderArgs) (X : ℝ) (N : ℕ), 0 < X ∧ a.kwargs = [] ∧
    a.randomStd = 5 ∧ 1 - 1 / 100 ≤ (Measure.pi fun _ : Fin (3 * 8) => gaussianReal 0 1)
      {x | ∃ b, TextEnv.search (M := 8)
        ⟨Demo.gaussRng, fun _ => Demo.tapeOf (n := 0) fun _ => 0, 7, fun _ c => c, scipy, sort⟩
        (fun (i j : Fin 3) => if i = j then 0 else X) ![1, 2, 30] ![1 / 2, 1 / 3, 1 / 6] a N true (Demo.tapeOf x) =
          .ok b ∧ b.volumes.shape = [1] ∧ |b.fractions.get [0, 2] - 1 / 6| ≤ 1 / 200} := by
  obtain ⟨scipy, hs, hcl⟩ := Demo.scipy_exists
  obtain ⟨sort, hok⟩ := argsort_exists (K := ℝ)
  obtain ⟨a₀, ha₀, h⟩ := C116_search (C := 3) (M := 8)
    (env := ⟨Demo.gaussRng, fun _ => Demo.tapeOf (n := 0) fun _ => 0, 7, fun _ c => c, scipy, sort⟩)
    ⟨Demo.gaussRng_ok, hs, fun x => hcl x⟩ (l := ![1, 2, 30]) (fun i => by fin_cases i <;> norm_num) one_pos
  obtain ⟨X, hX, ρ, hρ, t₀, ht₀, h⟩ := h 5 (1 / 100) (by norm_num) (1 / 200) (by norm_num) le_rfl
  set a : FinderArgs :=
    { numPart := some 8
      tolerance := min t₀ (1 / 1000)
      acceptanceOmega := a₀
      acceptanceJs := ρ * a₀ } with ha
  obtain ⟨N, h⟩ := h (fun i j => if i = j then 0 else X) (fun i j => by simp only [eq_comm (a := i)])
    (fun i j => by split_ifs <;> simp [hX.le, abs_of_pos hX]) ![1 / 2, 1 / 3, 1 / 6]
    (fun i => by fin_cases i <;> norm_num) (by
      rw [Fin.sum_univ_three]
      show (1 / 2 : ℝ) + 1 / 3 + 1 / 6 = 1
      norm_num) ρ hρ.le le_rfl
    a
    ⟨rfl, rfl, by norm_num [ha], by norm_num [ha], by norm_num [ha], by norm_num [ha], by norm_num [ha], rfl, lt_min ht₀ (by norm_num [ha]),
      by norm_num [ha], ha₀, le_rfl, rfl⟩ (by norm_num [ha]) (by norm_num [ha]) (min_le_left _ _)
  refine ⟨scipy, sort, a, X, N, hX, rfl, rfl, (h N le_rfl true (Demo.gauss_draws (3 * 8))).trans (measure_mono ?_)⟩
  rintro x ⟨b, h1, h2⟩
  obtain ⟨h3, -, -, h4⟩ := C116_one le_rfl h2
  exact ⟨b, h1, h3, (abs_le_eucl _ _ (2 : Fin 3)).trans h4⟩

end Flory
