import Verif.Model.Shortcut
import Verif.Model.Clustering
import Verif.Spec.Separated
import Verif.Spec.Initial
import Mathlib.Probability.HasLaw
import Mathlib.Probability.Independence.Basic
import Mathlib.Probability.Distributions.Gaussian.Real

/-! # Outcomes of a search for coexisting phases -/

namespace Flory.Spec

variable {C M : ℕ}

/-- The result `r` of `find_coexisting_phases` consists of the different columns of `psi`, each exactly once,
with compositions right up to `ε`; the volume of a phase is the share of the columns equal to it, up to `ε`. -/
def Finds (psi : Mat C M ℝ) (ε : ℝ) (r : ShortcutResult) : Prop :=
  ∃ (P : ℕ) (ph : Phases P C ℝ), r = ⟨P, C, ph, r.info⟩ ∧
    (∀ p, ∃ m, eucl (ph.fractions p) (fun i => psi i m) ≤ ε ∧
      |ph.volumes p - (Nat.card {n // ∀ i, psi i n = psi i m} : ℝ) / M| ≤ ε) ∧
    ∀ m, ∃! p, eucl (ph.fractions p) (fun i => psi i m) ≤ ε

/-- The errors reported with a result are below the tolerance. -/
def ErrorsLT (tol : ℝ) (d : Diagnostics ℝ) : Prop :=
  d.maxAbsIncomp < tol ∧ d.maxAbsOmegaDiff < tol ∧ d.maxAbsJsDiff < tol

/-- The event that a search with `maxSteps` steps finds the phases `psi` up to `ε`, with errors below the
tolerance. -/
def foundEvent {Ω G : Type} (env : FinderEnv G) (ext : PhasesExt) (g : Ω → G) (chis : Mat C C ℝ) (l phi : Vec C ℝ)
    (a : FinderArgs) (maxSteps : ℚ) (psi : Mat C M ℝ) (ε : ℝ) : Set Ω :=
  {ω | ∃ r, findCoexistingPhases env ext (g ω) C (NDArr.ofMat chis) (some (NDArr.ofVec phi))
    (some (NDArr.ofVec l)) .none { a with maxSteps := maxSteps } = .ok r ∧
    ErrorsLT a.tolerance r.info ∧ Finds psi ε r}

open MeasureTheory ProbabilityTheory in
/-- The first `n` draws of the generators `g` are independent standard normal variables. -/
def NormalDraws {Ω G : Type} [MeasurableSpace Ω] (P : Measure Ω) (rng : Rng G ℝ) (g : Ω → G) (n : ℕ) : Prop :=
  (∀ k < n, HasLaw (fun ω => normalDraw rng (g ω) k) (gaussianReal 0 1) P) ∧
    iIndepFun (fun (k : Fin n) ω => normalDraw rng (g ω) k) P

open MeasureTheory ProbabilityTheory in
/-- Each generator `g j` starts with `n` independent standard normal draws, and those of different generators
are independent. -/
def IndependentSearches {Ω G : Type} [MeasurableSpace Ω] (P : Measure Ω) (rng : Rng G ℝ) (g : ℕ → Ω → G) (n : ℕ) :
    Prop :=
  (∀ j, NormalDraws P rng (g j) n) ∧ iIndepFun (fun j ω (k : Fin n) => normalDraw rng (g j ω) k) P

/-- Settings of a search with `M` compartments, the given shift of the interaction, `acceptance_omega` at
most `a₀` and `acceptance_Js` in the ratio `ρ` to it. -/
structure Careful (C M : ℕ) (shift ρ a₀ : ℝ) (a : FinderArgs) : Prop where
  numPart : Finder.partNumber a.numPart C = M
  shift : (a.kwargs.get? "additional_chis_shift").getD 1 = shift
  std : 0 < a.randomStd
  kill : 0 ≤ a.killThreshold
  kill_one : a.killThreshold < 1
  kill_share : 2 * a.killThreshold * ((M : ℝ) - 1) < 1
  step : 0 < a.JsStepUpperBound
  criterion : a.criterion = "standard"
  tolerance : 0 < a.tolerance
  interval : 0 < a.interval
  omega : 0 < a.acceptanceOmega
  omega_le : a.acceptanceOmega ≤ a₀
  Js : a.acceptanceJs = ρ * a.acceptanceOmega

end Flory.Spec
