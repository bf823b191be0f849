import Verif.Spec.TextChance
import Verif.Spec.Scan

/-! # Searches that recover given phases -/

namespace Flory.Spec

variable {C M P : ℕ}

/-- The compositions `frac` and volumes `vol` are those of the phases with compositions `psi` (columns) and volumes
`V`, up to `ε` and up to the order of the phases. -/
def Recovers {Q : ℕ} (psi : Mat C P ℝ) (V : Vec P ℝ) (ε : ℝ) (vol : Vec Q ℝ) (frac : Mat Q C ℝ) : Prop :=
  ∃ e : Fin Q ≃ Fin P, ∀ n, eucl (frac n) (fun i => psi i (e n)) ≤ ε ∧ |vol n - V (e n)| ≤ ε

/-- The event that a search with the transcribed text returns `P` phases, those with compositions `psi` and volumes
`V`, up to `ε`, and reports errors below the tolerance. -/
def textRecovered {Ω G : Type} (env : TextEnv G M) (g : Ω → G) (chis : Mat C C ℝ) (l phi : Vec C ℝ)
    (a : FinderArgs) (maxSteps : ℚ) (progress : Bool) (psi : Mat C P ℝ) (V : Vec P ℝ) (ε : ℝ) : Set Ω :=
  {ω | ∃ b, env.search chis l phi a maxSteps progress (g ω) = .ok b ∧
    b.volumes.shape = [P] ∧ b.fractions.shape = [P, C] ∧
    Recovers psi V ε (fun p : Fin P => b.volumes.get [p.1]) (fun p i => b.fractions.get [p.1, i.1]) ∧
    ∀ k ∈ ["max_abs_incomp", "max_abs_omega_diff", "max_abs_js_diff"], ∃ e, b._info.get? k = some e ∧ e < a.tolerance}

/-- Phases with compositions `psi` and volumes `V` coexist stably in a mixture with interaction `chis` and mean
composition `phi`: volumes are positive and add up to one, as do the fractions in each phase, the mean composition is
`phi`, chemical potentials agree, and each phase is stable. -/
structure CoexistingPhases (chis : Mat C C ℝ) (l phi : Vec C ℝ) (V : Vec P ℝ) (psi : Mat C P ℝ) : Prop where
  vol_pos : ∀ k, 0 < V k
  vol_sum : ∑ k, V k = 1
  pos : ∀ i k, 0 < psi i k
  incompressible : ∀ k, ∑ i, psi i k = 1
  mean : ∀ i, ∑ k, V k * psi i k = phi i
  balance : ∃ mu : Vec C ℝ, ∀ i k, chemPot chis l (fun j => psi j k) i = mu i
  stable : ∀ k, StablePhase chis id l fun i => psi i k

end Flory.Spec
