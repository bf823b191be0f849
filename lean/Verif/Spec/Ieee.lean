import Verif.Spec.Floats
import Verif.Model.XReal
import Verif.Model.Rounded

/-! # Double precision arithmetic with infinities and NaN (signs of zero left out) -/

namespace Flory.Spec

open XReal

/-- Rounding to doubles with overflow (and no underflow). -/
noncomputable def toDouble (x : ℝ) : XReal :=
  if |double x| < 2 ^ 1024 then .fin (double x) else if 0 < x then .pinf else .ninf

/-- Addition. -/
noncomputable def addX : XReal → XReal → XReal
  | .fin x, .fin y => toDouble (x + y)
  | a, b => XReal.add a b

/-- Multiplication. -/
noncomputable def mulX : XReal → XReal → XReal
  | .fin x, .fin y => toDouble (x * y)
  | a, .fin y => a.mulR y
  | .fin x, b => b.mulR x
  | .nan, _ => .nan
  | _, .nan => .nan
  | .pinf, .pinf => .pinf
  | .ninf, .ninf => .pinf
  | _, _ => .ninf

/-- Division. -/
noncomputable def divX : XReal → XReal → XReal
  | .fin x, .fin y => if y = 0 then XReal.divR (.fin x) 0 else toDouble (x / y)
  | a, .fin y => a.divR y
  | .fin _, .pinf => .fin 0
  | .fin _, .ninf => .fin 0
  | _, _ => .nan

/-- Absolute value. -/
noncomputable def absX : XReal → XReal
  | .fin x => .fin |x|
  | .pinf => .pinf
  | .ninf => .pinf
  | .nan => .nan

/-- Exponential function, rounded. -/
noncomputable def expX : XReal → XReal
  | .fin x => toDouble (Real.exp x)
  | .pinf => .pinf
  | .ninf => .fin 0
  | .nan => .nan

/-- Less than; false for NaN. -/
def ltX : XReal → XReal → Prop
  | .fin x, .fin y => x < y
  | .fin _, .pinf => True
  | .ninf, .fin _ => True
  | .ninf, .pinf => True
  | _, _ => False

/-- Equality; false for NaN. -/
def eqX : XReal → XReal → Prop
  | .fin x, .fin y => x = y
  | .pinf, .pinf => True
  | .ninf, .ninf => True
  | _, _ => False

open Classical in
/-- The larger of two numbers, NaN if one of them is. -/
noncomputable def maxNan (a b : XReal) : XReal :=
  if ¬eqX a a then a else if ¬eqX b b then b else if ltX a b then b else a

open Classical in
/-- The smaller of two numbers, NaN if one of them is. -/
noncomputable def minNan (a b : XReal) : XReal :=
  if ¬eqX a a then a else if ¬eqX b b then b else if ltX b a then b else a

/-- Sign. -/
noncomputable def signX : XReal → XReal
  | .fin x => .fin (npSign x)
  | .pinf => .fin 1
  | .ninf => .fin (-1)
  | .nan => .nan

open Classical in
/-- Double precision arithmetic; sums from left to right. -/
noncomputable def doubles : Floats XReal where
  add := addX
  sub a b := addX a b.neg
  mul := mulX
  div := divX
  neg := XReal.neg
  abs := absX
  exp := expX
  ofNat n := toDouble n
  half := .fin (1 / 2)
  lt := ltX
  le a b := ltX a b ∨ eqX a b
  eq := eqX
  decLt := Classical.decRel _
  decLe := Classical.decRel _
  decEq := Classical.decRel _
  sum v := forRange _ (.fin 0) fun i acc => addX acc (v i)
  dot v w := forRange _ (.fin 0) fun i acc => addX acc (mulX (v i) (w i))
  max v := forRange _ (v 0) fun i acc => maxNan acc (v i)
  min v := forRange _ (v 0) fun i acc => minNan acc (v i)
  max2 a b := if ltX a b then b else a
  sign := signX
  clip0 a := if ltX a (.fin 0) then .fin 0 else a
  whole a := a

end Flory.Spec
