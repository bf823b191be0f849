import Verif.Model.Phases
import Mathlib.Data.Int.Log
import Mathlib.Analysis.SpecialFunctions.Pow.Real

/-!
# `flory/common/phases.py` with rounding

The other models compute with exact numbers.  Here every operation on floats is followed by a rounding.
Exponents are not bounded: overflow and underflow are not modelled.
-/

namespace Flory

/-- Nearest integer, ties to even. IEEE 754 arithmetic as used by numpy, for example in
`flory/common/phases.py:29-32`. -/
noncomputable def roundEven (x : ℝ) : ℤ :=
  if Int.fract x < 1 / 2 then ⌊x⌋
  else if 1 / 2 < Int.fract x then ⌊x⌋ + 1
  else if Even ⌊x⌋ then ⌊x⌋ else ⌊x⌋ + 1

/-- The double (53 significant bits) nearest to a real number, ties to even. IEEE 754 arithmetic as used by
numpy, for example in `flory/common/phases.py:29-32`. Simplification: exponents of any size. -/
noncomputable def double (x : ℝ) : ℝ :=
  if x = 0 then 0
  else roundEven (x / 2 ^ (Int.log 2 |x| - 52)) * 2 ^ (Int.log 2 |x| - 52)

/-- Float arithmetic: rounding after every operation, the sum of numpy (`np.add.reduce`, whose order of
additions depends on the length), its sum along the first axis of a two-dimensional array (in
`np.average`), and the inner product of BLAS behind `@`. Models `flory/common/phases.py:32`, `88`, `93`,
`138-142`. -/
structure Fp where
  rnd : ℝ → ℝ
  sum : List ℝ → ℝ
  sumAxis : List ℝ → ℝ
  dot : List (ℝ × ℝ) → ℝ

/-- Left-to-right sum, as numpy does for fewer than eight numbers. Models `flory/common/phases.py:32`,
`88`. -/
def seqSum (rnd : ℝ → ℝ) (l : List ℝ) : ℝ := l.foldl (fun s x => rnd (s + x)) 0

/-- Doubles with sums from left to right and products rounded before they are added. Models
`flory/common/phases.py:32`, `88`, `93`. -/
noncomputable def Fp.double : Fp where
  rnd := Flory.double
  sum := seqSum Flory.double
  sumAxis := seqSum Flory.double
  dot l := seqSum Flory.double (l.map fun p => Flory.double (p.1 * p.2))

namespace Phases

variable {P C : ℕ}

/-- `total_volume` (`flory/common/phases.py:85-88`) in floats. -/
def totalVolumeF (f : Fp) (x : Phases P C ℝ) : ℝ := f.sum (List.ofFn x.volumes)

/-- `mean_fractions` (`flory/common/phases.py:90-93`) in floats. -/
noncomputable def meanFractionsF (f : Fp) (x : Phases P C ℝ) : Vec C ℝ :=
  fun i => f.rnd (f.dot (List.ofFn fun p => (x.volumes p, x.fractions p i)) / x.totalVolumeF f)

/-- `normalize` (`flory/common/phases.py:95-97`) in floats. -/
noncomputable def normalizeF (f : Fp) (x : Phases P C ℝ) : Phases P C ℝ where
  volumes p := f.rnd (x.volumes p / x.totalVolumeF f)
  fractions := x.fractions

/-- Indices of the phases with label `n`, `clusters == n` (`flory/common/phases.py:136-137`). -/
def members (labels : Vec P ℤ) (n : ℤ) : List (Fin P) :=
  (List.finRange P).filter fun p => decide (labels p = n)

/-- `np.average(fractions, weights=volumes, axis=0)` (`flory/common/phases.py:138-140`) in floats: numpy
multiplies and adds, and divides by the sum of the weights, which must not be zero. -/
noncomputable def averageF (f : Fp) (x : Phases P C ℝ) (labels : Vec P ℤ) (n : ℤ) : Py (Vec C ℝ) :=
  let scl := f.sumAxis ((members labels n).map x.volumes)
  if scl = 0 then .error .zeroDivisionError
  else .ok fun i =>
    f.rnd (f.sumAxis ((members labels n).map fun p => f.rnd (x.fractions p i * x.volumes p)) / scl)

/-- The collecting loop of `get_clusters` (`flory/common/phases.py:136-142`) in floats. -/
noncomputable def collectF (f : Fp) (x : Phases P C ℝ) (labels : Vec P ℤ) :
    List ℤ → Py (List (ℝ × Vec C ℝ))
  | [] => .ok []
  | n :: ns => do
    let meanFractions ← x.averageF f labels n
    let rest ← x.collectF f labels ns
    return (f.sum ((members labels n).map x.volumes), meanFractions) :: rest

/-- `get_clusters` (`flory/common/phases.py:109-144`) in floats, for the labels that scipy returns. -/
noncomputable def getClustersF (f : Fp) (x : Phases P C ℝ) (labels : Vec P ℤ) :
    Py (Σ P' : ℕ, Phases P' C ℝ) :=
  if P < 2 then .ok ⟨P, x⟩
  else do
    let groups ← x.collectF f labels ((Finset.univ.image labels).sort (· ≤ ·))
    return ⟨groups.length, fun k => (groups.get k).1, fun k => (groups.get k).2⟩

end Phases

/-- `get_uniform_random_composition` (`flory/common/phases.py:14-33`) in floats. -/
noncomputable def uniformRandomCompositionF {G : Type} (f : Fp) (beta : Beta G ℝ) (g : G) :
    (n : ℕ) → (junk : Vec n ℝ) → Py (Vec n ℝ × G)
  | 0, _ => .error .indexError
  | n + 1, junk =>
    let s := forRange n (junk, (1 : ℝ), g) fun d s =>
      let (b, g) := beta s.2.2 1 (n + 1 - d.1 - 1)
      let x := f.rnd (b * s.2.1)
      (setAt s.1 d.castSucc x, f.rnd (s.2.1 - x), g)
    .ok (setAt s.1 (Fin.last n) (f.rnd (1 - f.sum (List.ofFn fun d : Fin n => s.1 d.castSucc))), s.2.2)

end Flory
