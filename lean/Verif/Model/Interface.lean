import Verif.Model.Py

/-!
# The interfaces between the core iteration and the compiled instances

`flory/interaction/base.py`, `flory/entropy/base.py`, `flory/ensemble/base.py` and
`flory/constraint/base.py` define abstract compiled classes.  The first three are stateless,
so they are records of functions.  Methods that fill an output array return it.
-/

namespace Flory

/-- `InteractionBaseCompiled` (`flory/interaction/base.py:14-94`).  `num_feat` is the index `S`;
`volume_derivative` receives the potential first, as in the code.  The base class allows
`incomp_coef` to return an array; the only implementation returns a scalar, so does the model. -/
structure InteractionI (S M : ℕ) (K : Type) where
  potential : Mat S M K → Mat S M K
  volumeDerivative : Mat S M K → Mat S M K → Vec M K
  incompCoef : Mat S M K → K

/-- `EntropyBaseCompiled` (`flory/entropy/base.py:11-113`).  `partition` overwrites `phis_comp`
and returns `Qs`, hence the pair; `compToFeat` overwrites `phis_feat`. -/
structure EntropyI (C S M : ℕ) (K : Type) where
  partition : Mat C M K → Mat S M K → Vec M K → Py (Mat C M K × Vec C K)
  compToFeat : Mat S M K → Mat C M K → Py (Mat S M K)
  volumeDerivative : Mat C M K → Vec M K

/-- `EnsembleBaseCompiled` (`flory/ensemble/base.py:11-56`).  `normalize` overwrites `phis_comp`
and returns the incompressibility. -/
structure EnsembleI (C M : ℕ) (K : Type) where
  normalize : Mat C M K → Vec C K → Vec M K → Py (Mat C M K × Vec M K)

end Flory
