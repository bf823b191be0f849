import Verif.Model.FreeEnergy
import Verif.Model.Objects

/-!
# `FloryHuggins` objects and their modification

In `Verif.Model.FreeEnergy` a free energy is the pair of its analytic parts; here it is the Python
object, which keeps references to an interaction and an entropy object.
-/

namespace Flory

/-- `sizes` setter of `IdealGasPolydispersedEntropy` (`flory/entropy/ideal_gas_polydispersed.py:149-153`);
the numbers of components of the features cannot be changed. -/
def PolyEntropy.setSizes {S : ℕ} (o : PolyEntropy S) (sizesNew : NDArr ℝ) : Py (PolyEntropy S) := do
  let gas ← o.gas.setSizes sizesNew
  return ⟨o.perFeat, gas⟩

/-- `FloryHuggins` object (`flory/free_energy/flory_huggins.py:18-112`). -/
structure FHObject (C : ℕ) where
  interaction : FHInteraction C ℝ
  entropy : GasEntropy C

namespace FHObject

variable {C : ℕ}

/-- `__init__` (`flory/free_energy/flory_huggins.py:35-54`); the component numbers always agree. -/
noncomputable def new (C : ℕ) (chis : NDArr ℝ) (sizes : Option (NDArr ℝ)) : Py (FHObject C) := do
  let i ← FHInteraction.new C chis
  let e ← GasEntropy.new C sizes
  return ⟨i, e⟩

/-- `from_uniform` (`flory/free_energy/flory_huggins.py:74-90`). -/
noncomputable def fromUniform (C : ℕ) (chi : ℝ) (chiIsInt : Bool) (sizes : Option (NDArr ℝ))
    (vanishingDiagonal : Bool) : Py (FHObject C) := do
  let o ← new C (NDArr.scalar 0) sizes
  return { o with interaction := o.interaction.setUniform chi chiIsInt vanishingDiagonal }

/-- `from_random_normal` (`flory/free_energy/flory_huggins.py:92-112`). -/
noncomputable def fromRandomNormal (C : ℕ) (draws : ℕ → List ℝ) (sizes : Option (NDArr ℝ))
    (vanishingDiagonal : Bool) : Py (FHObject C) := do
  let o ← new C (NDArr.scalar 0) sizes
  return { o with interaction := o.interaction.setRandom draws vanishingDiagonal }

/-- The analytic parts used by the methods of the base class (`flory/free_energy/base.py:44-47`). -/
noncomputable def free (o : FHObject C) : FreeEnergy C :=
  ⟨fhPart o.interaction.chis, gasPart o.entropy.sizes⟩

/-- A call that modifies the object: assigning `chis` or calling `set_uniform_chis` or
`set_random_chis` of the interaction, or assigning `sizes`
(`flory/free_energy/flory_huggins.py:56-72`). -/
inductive Op where
  | chi (op : ChiOp ℝ)
  | sizes (a : NDArr ℝ)

/-- Effect of such a call; a setter that raises leaves the object unchanged
(`flory/free_energy/flory_huggins.py:56-72`). -/
noncomputable def step (o : FHObject C) : Op → FHObject C
  | .chi op => { o with interaction := o.interaction.step op }
  | .sizes a => match o.entropy.setSizes a with
    | .ok e => { o with entropy := e }
    | .error _ => o

end FHObject

end Flory
