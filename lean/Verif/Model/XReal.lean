import Verif.Model.Py
import Mathlib.Analysis.SpecialFunctions.Log.Basic

/-!
# Numbers of the free-energy API: reals with infinities and NaN

No project code in this file.  Rounding and the sign of zero are not modelled.
-/

namespace Flory

/-- A floating-point value: finite, infinite, or not a number. Values computed in
`flory/entropy/ideal_gas.py:125-190`, `flory/free_energy/base.py:74-408`. -/
inductive XReal where
  | fin (x : ℝ)
  | pinf
  | ninf
  | nan

namespace XReal

/-- IEEE negation. Models `flory/free_energy/base.py:340`. -/
def neg : XReal → XReal
  | fin x => fin (-x)
  | pinf => ninf
  | ninf => pinf
  | nan => nan

/-- IEEE addition. Models `flory/entropy/ideal_gas.py:159`. -/
def add : XReal → XReal → XReal
  | fin x, fin y => fin (x + y)
  | nan, _ => nan
  | _, nan => nan
  | pinf, ninf => nan
  | ninf, pinf => nan
  | pinf, _ => pinf
  | _, pinf => pinf
  | ninf, _ => ninf
  | _, ninf => ninf

/-- IEEE subtraction. Models `flory/free_energy/base.py:241`, `296`. -/
def sub (a b : XReal) : XReal := a.add b.neg

/-- Operator of `add`, `flory/entropy/ideal_gas.py:159`. -/
instance : Add XReal := ⟨add⟩
/-- Operator of `neg`, `flory/free_energy/base.py:340`. -/
instance : Neg XReal := ⟨neg⟩
/-- Operator of `sub`, `flory/free_energy/base.py:296`. -/
instance : Sub XReal := ⟨sub⟩

/-- Product with a finite number (`inf * 0 = nan`). Models `flory/free_energy/base.py:161`,
`flory/common/math.py:17`. -/
noncomputable def mulR : XReal → ℝ → XReal
  | fin x, r => fin (x * r)
  | nan, _ => nan
  | pinf, r => if 0 < r then pinf else if r < 0 then ninf else nan
  | ninf, r => if 0 < r then ninf else if r < 0 then pinf else nan

/-- numpy division by a finite number: division by zero gives infinities and NaN. Models
`flory/entropy/ideal_gas.py:159`, `178`. -/
noncomputable def divR : XReal → ℝ → XReal
  | fin x, r => if r = 0 then (if 0 < x then pinf else if x < 0 then ninf else nan) else fin (x / r)
  | nan, _ => nan
  | pinf, r => if r < 0 then ninf else pinf
  | ninf, r => if r < 0 then pinf else ninf

/-- `np.log`. Models `flory/entropy/ideal_gas.py:159`, `flory/common/math.py:17`. -/
noncomputable def log (x : ℝ) : XReal :=
  if 0 < x then fin (Real.log x) else if x = 0 then ninf else nan

/-- `np.sum` along an axis. Models `flory/free_energy/base.py:295`. -/
noncomputable def sum {n : ℕ} (v : Vec n XReal) : XReal := forRange n (fin 0) fun i acc => acc + v i

/-- `np.nan_to_num(x, posinf=0.0, neginf=0.0)`: everything that is not finite becomes zero. Models
`flory/free_energy/base.py:406`. -/
noncomputable def nanToNum : XReal → ℝ
  | fin x => x
  | _ => 0

/-- The value is finite. Values at `flory/free_energy/base.py:193`, `406`. -/
def IsFin : XReal → Prop
  | fin _ => True
  | _ => False

end XReal

end Flory
