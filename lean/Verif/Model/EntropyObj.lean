import Verif.Model.Entropy
import Verif.Model.Utilities
import Verif.Model.XReal

/-! # Model of `flory/entropy/` (uncompiled objects) and `flory/common/math.py` -/

namespace Flory

open XReal

/-- `xlogx` (`flory/common/math.py:10-17`). -/
noncomputable def xlogx (x : ℝ) : XReal :=
  if x = 0 then fin 0 else if x < 0 then nan else (log x).mulR x

variable {C : ℕ}

/-- `_energy_impl` for one composition (`flory/entropy/ideal_gas.py:125-141`). -/
noncomputable def gasEnergy (sizes : Vec C ℝ) (phis : Vec C ℝ) : XReal :=
  XReal.sum fun i => (xlogx (phis i)).divR (sizes i)

/-- `_jacobian_impl` for one composition (`ideal_gas.py:143-159`). -/
noncomputable def gasJacobian (sizes : Vec C ℝ) (phis : Vec C ℝ) : Vec C XReal :=
  fun i => (log (phis i)).divR (sizes i) + (fin 1).divR (sizes i)

/-- `_hessian_impl` for one composition (`ideal_gas.py:161-184`). -/
noncomputable def gasHessian (sizes : Vec C ℝ) (phis : Vec C ℝ) : Mat C C XReal :=
  let ansDiag : Vec C XReal := fun i => ((fin 1).divR (phis i)).mulR (sizes i)
  forRange C (fun _ _ => fin 0) fun i ans => setAt2 ans i i (ansDiag i)

/-- `_jacobian_fractions_impl` for one composition (`ideal_gas.py:186-202`). -/
noncomputable def gasJacobianFractions (sizes : Vec C ℝ) (phis : Vec C ℝ) : Vec C XReal :=
  fun i => (xlogx (phis i)).divR (sizes i) + (fin (phis i)).divR (sizes i)

/-- `IdealGasEntropyBase` and `IdealGasEntropy` objects (`ideal_gas.py:85-202`, `205-259`). -/
structure GasEntropy (C : ℕ) where
  sizes : Vec C ℝ

namespace GasEntropy

/-- `__init__` (`ideal_gas.py:102-123`, `220-235`). -/
def new (C : ℕ) (sizes : Option (NDArr ℝ)) : Py (GasEntropy C) :=
  match sizes with
  | none => .ok ⟨fun _ => 1⟩
  | some s => do
    let a ← s.atleast1d.broadcastTo [C]
    return ⟨a.toVec C⟩

/-- `sizes` setter (`ideal_gas.py:242-246`, `ideal_gas_polydispersed.py:149-153`). -/
def setSizes (_ : GasEntropy C) (sizesNew : NDArr ℝ) : Py (GasEntropy C) := do
  let a ← sizesNew.atleast1d.broadcastTo [C]
  return ⟨a.toVec C⟩

/-- `_compiled_impl` (`ideal_gas.py:248-259`). -/
def compile (o : GasEntropy C) : IdealC C := ⟨o.sizes⟩

end GasEntropy

/-- `IdealGasPolydispersedEntropy` object (`ideal_gas_polydispersed.py:100-167`); component counts are
assumed non-negative. -/
structure PolyEntropy (S : ℕ) where
  perFeat : Vec S ℕ
  gas : GasEntropy (∑ r, perFeat r)

namespace PolyEntropy

variable {S : ℕ}

/-- `__init__` (`ideal_gas_polydispersed.py:115-142`). -/
def new (S : ℕ) (sizes : Option (NDArr ℝ)) (perFeat : NDArr ℕ) : Py (PolyEntropy S) := do
  let per ← convertAndBroadcast perFeat [S]
  let gas ← GasEntropy.new (∑ r, per.toVec S r) sizes
  return ⟨per.toVec S, gas⟩

/-- `_compiled_impl` (`ideal_gas_polydispersed.py:155-167`). -/
def compile (o : PolyEntropy S) : PolyC (∑ r, o.perFeat r) S := ⟨o.gas.sizes, o.perFeat⟩

end PolyEntropy

end Flory
