import Verif.Model.Py

/-!
# Compiled constraints

Model of `flory/constraint/no.py`, `linear_local.py`, `linear_global.py` (compiled classes).
They are stateful, so each method returns the new object.  `A` is the number of constraints
in the instance (`_num_cons`), `S` the number of features, `M` the number of compartments.
-/

namespace Flory

variable {K : Type}

/-- State of `LinearLocalConstraintCompiled` (`flory/constraint/linear_local.py:17-85`).
Simplification: arrays have their final number `M` of columns; the constructor's
one-column placeholders (lines 82-85) are replaced by `initialize` before use. -/
structure LocalC (A S M : ℕ) (K : Type) where
  Cs : Mat A S K
  Ts : Vec A K
  acceptanceRatio : K
  elasticity : K
  multiplier : Mat A M K
  residue : Mat A M K
  potential : Mat S M K
  volumeDerivative : Vec M K

/-- State of `LinearGlobalConstraintCompiled` (`flory/constraint/linear_global.py:17-86`).
Same simplification as for `LocalC`. -/
structure GlobalC (A S M : ℕ) (K : Type) where
  Cs : Mat A S K
  Ts : Vec A K
  acceptanceRatio : K
  elasticity : K
  multiplier : Vec A K
  residue : Vec A K
  potential : Mat S M K
  volumeDerivative : Vec M K

/-- State of `NoConstraintCompiled` (`flory/constraint/no.py:22-45`). -/
structure NoC (S M : ℕ) (K : Type) where
  potential : Mat S M K
  volumeDerivative : Vec M K

section Methods

variable [Field K] [LinearOrder K] {A S M : ℕ}

/-- Fresh `LinearLocalConstraintCompiled.__init__` (`linear_local.py:57-85`). -/
def LocalC.new (Cs : Mat A S K) (Ts : Vec A K) (acceptanceRatio elasticity : K) :
    LocalC A S M K where
  Cs := Cs
  Ts := Ts
  acceptanceRatio := acceptanceRatio
  elasticity := elasticity
  multiplier := fun _ _ => 0
  residue := fun _ _ => 0
  potential := fun _ _ => 0
  volumeDerivative := fun _ => 0

/-- `LinearLocalConstraintCompiled.initialize` (`linear_local.py:99-100`). -/
def LocalC.reset (c : LocalC A S M K) : LocalC A S M K :=
  { c with multiplier := fun _ _ => 0 }

/-- `LinearLocalConstraintCompiled.prepare` (`linear_local.py:102-117`).
`Js` is unused by the code as well. -/
def LocalC.prepare (c : LocalC A S M K) (phisFeat : Mat S M K) (_Js masks : Vec M K) :
    LocalC A S M K :=
  -- self._residue = self._Cs @ phis_feat
  let residue : Mat A M K := fun a m => ∑ r, c.Cs a r * phisFeat r m
  -- for itr_cons: self._residue[itr_cons] -= self._Ts[itr_cons]
  let residue := forRange A residue fun a res => setAt res a fun m => res a m - c.Ts a
  -- self._potential = self._Cs.T @ (self._multiplier + 2 * self._elasticity * self._residue)
  let potential : Mat S M K := fun r m =>
    ∑ a, c.Cs a r * (c.multiplier a m + 2 * c.elasticity * residue a m)
  let vd : Vec M K := forRange A (fun _ => 0) fun a vd m =>
    vd m + residue a m * (c.multiplier a m + residue a m * c.elasticity)
  { c with
    potential := fun r m => potential r m * masks m
    residue := fun a m => residue a m * masks m
    volumeDerivative := fun m => vd m * masks m }

/-- `LinearLocalConstraintCompiled.evolve` (`linear_local.py:119-122`). -/
def LocalC.evolve [NeZero M] (c : LocalC A S M K) (step : K) (masks : Vec M K) :
    Py (K × LocalC A S M K) := do
  let multiplier : Mat A M K := fun a m =>
    c.multiplier a m + step * c.acceptanceRatio * c.residue a m
  let multiplier : Mat A M K := fun a m => multiplier a m * masks m
  let res ← npMaxPy fun a => npMax fun m => |c.residue a m|
  return (res, { c with multiplier := multiplier })

/-- Fresh `LinearGlobalConstraintCompiled.__init__` (`linear_global.py:58-86`). -/
def GlobalC.new (Cs : Mat A S K) (Ts : Vec A K) (acceptanceRatio elasticity : K) :
    GlobalC A S M K where
  Cs := Cs
  Ts := Ts
  acceptanceRatio := acceptanceRatio
  elasticity := elasticity
  multiplier := fun _ => 0
  residue := fun _ => 0
  potential := fun _ _ => 0
  volumeDerivative := fun _ => 0

/-- `LinearGlobalConstraintCompiled.initialize` (`linear_global.py:100-101`). -/
def GlobalC.reset (c : GlobalC A S M K) : GlobalC A S M K :=
  { c with multiplier := fun _ => 0 }

/-- `LinearGlobalConstraintCompiled.prepare` (`linear_global.py:103-124`).  The last
division is an array divided by a scalar, which does not raise; the model's result
for `Js.sum() = 0` (zero instead of nan) is not used by any theorem. -/
def GlobalC.prepare (c : GlobalC A S M K) (phisFeat : Mat S M K) (Js masks : Vec M K) :
    GlobalC A S M K :=
  -- compart_residue = self._Cs @ phis_feat
  let compartResidue : Mat A M K := fun a m => ∑ r, c.Cs a r * phisFeat r m
  let compartResidue := forRange A compartResidue fun a res => setAt res a fun m =>
    res a m - c.Ts a
  -- self._residue = (compart_residue * Js).sum(axis=-1)
  let residue : Vec A K := fun a => ∑ m, compartResidue a m * Js m
  -- np.outer(self._Cs.T @ (self._multiplier + 2.0 * self._elasticity * self._residue), ones)
  let potential : Mat S M K := fun r _ =>
    (∑ a, c.Cs a r * (c.multiplier a + 2 * c.elasticity * residue a)) * 1
  let vd : Vec M K := forRange A (fun _ => 0) fun a vd m =>
    vd m + compartResidue a m * (c.multiplier a + 2 * residue a * c.elasticity)
  { c with
    potential := fun r m => potential r m * masks m
    volumeDerivative := fun m => vd m * masks m
    residue := fun a => residue a / ∑ m, Js m }

/-- `LinearGlobalConstraintCompiled.evolve` (`linear_global.py:126-128`). -/
def GlobalC.evolve (c : GlobalC A S M K) (step : K) (_masks : Vec M K) :
    Py (K × GlobalC A S M K) := do
  let multiplier : Vec A K := fun a => c.multiplier a + step * c.acceptanceRatio * c.residue a
  let res ← npMaxPy fun a => |c.residue a|
  return (res, { c with multiplier := multiplier })

/-- `NoConstraintCompiled.__init__` followed by `initialize` (`no.py:25-33`, `47-49`). -/
def NoC.new : NoC S M K where
  potential := fun _ _ => 0
  volumeDerivative := fun _ => 0

/-- `NoConstraintCompiled.initialize` (`no.py:47-49`). -/
def NoC.reset (_ : NoC S M K) : NoC S M K := NoC.new

/-- `NoConstraintCompiled.prepare` (`no.py:51-52`): `pass`. -/
def NoC.prepare (c : NoC S M K) (_phisFeat : Mat S M K) (_Js _masks : Vec M K) : NoC S M K := c

/-- `NoConstraintCompiled.evolve` (`no.py:54-55`). -/
def NoC.evolve (c : NoC S M K) (_step : K) (_masks : Vec M K) : Py (K × NoC S M K) :=
  .ok (0, c)

end Methods

/-- A compiled constraint: one of the three classes of `flory/constraint/__init__.py:1-9`
that implement `ConstraintBaseCompiled` (`flory/constraint/base.py:11-99`).
Simplification: closed world, user-defined constraint classes are not modelled. -/
inductive Cons (S M : ℕ) (K : Type) where
  | no (c : NoC S M K)
  | loc (A : ℕ) (c : LocalC A S M K)
  | glob (A : ℕ) (c : GlobalC A S M K)

namespace Cons

variable {S M : ℕ}

/-- Property `potential` (`no.py:39-41`, `linear_local.py:91-93`, `linear_global.py:92-94`). -/
def potential : Cons S M K → Mat S M K
  | no c => c.potential
  | loc _ c => c.potential
  | glob _ c => c.potential

/-- Property `volume_derivative` (`no.py:43-45`, `linear_local.py:95-97`,
`linear_global.py:96-98`). -/
def volumeDerivative : Cons S M K → Vec M K
  | no c => c.volumeDerivative
  | loc _ c => c.volumeDerivative
  | glob _ c => c.volumeDerivative

variable [Field K] [LinearOrder K]

/-- Method dispatch of `initialize` (`flory/constraint/base.py:52-62`). -/
def reset : Cons S M K → Cons S M K
  | no c => no c.reset
  | loc A c => loc A c.reset
  | glob A c => glob A c.reset

/-- Method dispatch of `prepare` (`flory/constraint/base.py:64-83`). -/
def prepare (phisFeat : Mat S M K) (Js masks : Vec M K) : Cons S M K → Cons S M K
  | no c => no (c.prepare phisFeat Js masks)
  | loc A c => loc A (c.prepare phisFeat Js masks)
  | glob A c => glob A (c.prepare phisFeat Js masks)

/-- Method dispatch of `evolve` (`flory/constraint/base.py:85-99`). -/
def evolve [NeZero M] (step : K) (masks : Vec M K) : Cons S M K → Py (K × Cons S M K)
  | no c => do let (r, c) ← c.evolve step masks; return (r, no c)
  | loc A c => do let (r, c) ← c.evolve step masks; return (r, loc A c)
  | glob A c => do let (r, c) ← c.evolve step masks; return (r, glob A c)

end Cons

end Flory
