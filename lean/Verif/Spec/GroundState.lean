import Verif.Spec.FreeEnergy

/-! # Ways to divide a mixture into phases, and the best of them (independent of the model) -/

namespace Flory.Spec

variable {C M : ℕ}

/-- `M` phases of volumes `J` (with mean one) and compositions `psi` have the mean composition
`phiMeans`. Phases may lack components and may be empty. -/
structure Partition (phiMeans : Vec C ℝ) (J : Vec M ℝ) (psi : Fin M → Vec C ℝ) : Prop where
  count : 0 < M
  nonneg : ∀ m, 0 ≤ J m
  volumes : ∑ m, J m = M
  frac : ∀ m i, 0 ≤ psi m i
  fill : ∀ m, ∑ i, psi m i = 1
  mean : ∀ i, ∑ m, J m * psi m i = M * phiMeans i

/-- Mean free energy of phases. -/
noncomputable def meanEnergy (chis : Mat C C ℝ) (l : Vec C ℝ) (J : Vec M ℝ) (psi : Fin M → Vec C ℝ) : ℝ :=
  (∑ m, J m * freeEnergy chis l (psi m)) / M

/-- No way to divide a mixture of mean composition `phiMeans` into any number of phases has a mean free
energy below `E`. -/
def LowerBound (chis : Mat C C ℝ) (l phiMeans : Vec C ℝ) (E : ℝ) : Prop :=
  ∀ (N : ℕ) (J : Vec N ℝ) (psi : Fin N → Vec C ℝ), Partition phiMeans J psi → E ≤ meanEnergy chis l J psi

end Flory.Spec
