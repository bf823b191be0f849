import Verif.Spec.FreeEnergy

/-! # Mixtures that cannot demix (independent of the model) -/

namespace Flory.Spec

variable {C : ℕ}

/-- The interaction energy is convex along changes of the composition that conserve the volume. -/
def Miscible (chis : Mat C C ℝ) : Prop :=
  ∀ v : Vec C ℝ, ∑ i, v i = 0 → 0 ≤ ∑ i, ∑ j, chis i j * v i * v j

/-- The same for all changes, up to a multiple of the squared change of volume. -/
def MiscibleUpTo (chis : Mat C C ℝ) (c : ℝ) : Prop :=
  ∀ v : Vec C ℝ, -(c * (∑ i, v i) ^ 2) ≤ ∑ i, ∑ j, chis i j * v i * v j

theorem MiscibleUpTo.miscible {chis : Mat C C ℝ} {c : ℝ} (h : MiscibleUpTo chis c) :
    Miscible chis := fun v hv => by simpa [hv] using h v

/-- The smallest entropic stiffness of a change `v` over all incompressible compositions is the square of this
number. -/
noncomputable def stiffness (l v : Vec C ℝ) : ℝ := ∑ i, |v i| / √(l i)

/-- The free energy is convex with the margin `κ` on incompressible compositions, up to a multiple of the squared
change of volume. -/
def ConvexUpTo (chis : Mat C C ℝ) (l : Vec C ℝ) (κ c : ℝ) : Prop :=
  ∀ v : Vec C ℝ, -(c * (∑ i, v i) ^ 2) ≤ (1 - κ) * stiffness l v ^ 2 + ∑ i, ∑ j, chis i j * v i * v j

/-- Incompressible compositions in which all components are present. -/
def mixtures (C : ℕ) : Set (Vec C ℝ) := {φ | (∀ i, 0 < φ i) ∧ ∑ i, φ i = 1}

end Flory.Spec
