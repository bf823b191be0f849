import Verif.Model.Floats
import Verif.Spec.Rounded
import Verif.Spec.Floats

/-! # Arithmetic with rounding but without overflow and underflow -/

namespace Flory.Spec

/-- Every operation returns the rounded exact result, sums are added up in some order, comparisons are exact.
Nothing is assumed about the accuracy of `exp`, which only must not underflow. -/
structure RoundedOps (o : Floats ℝ) (rnd : ℝ → ℝ) (u : ℝ) : Prop where
  rounds : Rounds rnd u
  add : ∀ x y, o.add x y = rnd (x + y)
  sub : ∀ x y, o.sub x y = rnd (x - y)
  mul : ∀ x y, o.mul x y = rnd (x * y)
  div : ∀ x y, y ≠ 0 → o.div x y = rnd (x / y)
  neg : ∀ x, o.neg x = -x
  abs : ∀ x, o.abs x = |x|
  exp : ∀ x, 0 < o.exp x
  half : o.half = 1 / 2
  ofNat : ∀ n, o.ofNat n = rnd n
  lt : ∀ x y, o.lt x y ↔ x < y
  le : ∀ x y, o.le x y ↔ x ≤ y
  eq : ∀ x y, o.eq x y ↔ x = y
  sum : ∀ {n} (v : Vec n ℝ), AddedUp rnd (List.ofFn v) (o.sum v)
  dot : ∀ {n} (v w : Vec n ℝ), DottedUp rnd (List.ofFn fun i => (v i, w i)) (o.dot v w)
  max : ∀ {n} [NeZero n] (v : Vec n ℝ), o.max v = npMax v
  min : ∀ {n} [NeZero n] (v : Vec n ℝ), o.min v = npMin v
  max2 : ∀ x y, o.max2 x y = Max.max x y
  sign : ∀ x, o.sign x = npSign x
  clip0 : ∀ x, o.clip0 x = npClipMin 0 x
  neg_one : rnd (-1) = -1
  whole : ∀ n : ℕ, o.whole n = n

/-- Double precision without overflow and underflow, sums from left to right. -/
noncomputable def realDoubles : Floats ℝ where
  add x y := double (x + y)
  sub x y := double (x - y)
  mul x y := double (x * y)
  div x y := double (x / y)
  neg x := -x
  abs x := |x|
  exp x := double (Real.exp x)
  ofNat n := double n
  half := 1 / 2
  lt x y := x < y
  le x y := x ≤ y
  eq x y := x = y
  decLt := inferInstance
  decLe := inferInstance
  decEq := inferInstance
  sum v := seqSum double (List.ofFn v)
  dot v w := seqSum double ((List.ofFn fun i => (v i, w i)).map fun p => double (p.1 * p.2))
  max v := npMax v
  min v := npMin v
  max2 x y := Max.max x y
  sign := npSign
  clip0 := npClipMin 0
  whole x := x

/-- What the compiled entropies compute, in the given arithmetic: Boltzmann weights of the field of the feature
of each component, and their means. -/
structure FloatGas {F : Type} (o : Floats F) {C S M : ℕ} (en : EntropyI C S M F) (sizes : Vec C F)
    (feat : Fin C → Fin S) : Prop where
  weights : ∀ {phis p : Mat C M F} {omegas : Mat S M F} {Js : Vec M F} {Q : Vec C F},
    en.partition phis omegas Js = .ok (p, Q) → ∀ i,
      (∀ m, p i m = o.exp (o.mul (o.neg (omegas (feat i) m)) (sizes i))) ∧
      o.pyDiv (o.sum fun m => o.mul (p i m) (Js m)) (o.sum Js) = .ok (Q i)
  returns : ∀ (phis : Mat C M F) (omegas : Mat S M F) {Js : Vec M F}, ¬o.eq (o.sum Js) (o.ofNat 0) →
    ∃ x, en.partition phis omegas Js = .ok x
  features : ∀ (phisFeat : Mat S M F) (phis : Mat C M F), ∃ x, en.compToFeat phisFeat phis = .ok x

/-- Relative error `v` of the exponential function. -/
def ExpAccurate (o : Floats ℝ) (v : ℝ) : Prop := v < 1 ∧ ∀ x, |o.exp x - Real.exp x| ≤ v * Real.exp x

/-- The volume fractions of the features are the sums over their components, up to `k` roundings. -/
def SumsFeatures {C S M : ℕ} (en : EntropyI C S M ℝ) (feat : Fin C → Fin S) (u : ℝ) (k : ℕ) : Prop :=
  ∀ (phisFeat : Mat S M ℝ) (phis : Mat C M ℝ) (x : Mat S M ℝ), en.compToFeat phisFeat phis = .ok x → ∀ r m,
    |x r m - ∑ i, if feat i = r then phis i m else 0| ≤
      ((1 + u) ^ k - 1) * ∑ i, if feat i = r then |phis i m| else 0

/-- Size of the numbers from which fields and energies of a compartment with fractions `φ`, fields `w`, multiplier
`x` and incompressibility `inc` are computed. -/
noncomputable def magnitude {C S : ℕ} (chis : Mat S S ℝ) (coef : ℝ) (sizes : Vec C ℝ) (feat : Fin C → Fin S)
    (φ : Vec C ℝ) (w : Vec S ℝ) (x inc : ℝ) : ℝ :=
  ∑ r, ((∑ j, |chis r (feat j)| * φ j) + |x| + |w r|) * (1 + 2 * ∑ i, if feat i = r then φ i else 0) + |x| +
    ∑ i, φ i / sizes i + |coef * inc|

/-- An ensemble of the project with nonnegative mean fractions or activities. -/
def NonnegEnsemble (o : Floats ℝ) {C M : ℕ} (es : EnsembleI C M ℝ) : Prop :=
  (∃ e : CanonicalC C ℝ, es = ⟨e.normalizeF o⟩ ∧ ∀ i, 0 ≤ e.phiMeans i) ∨
    ∃ e : GrandC C ℝ, es = ⟨e.normalizeF o⟩ ∧ ∀ i, 0 ≤ e.scaledActivity i

end Flory.Spec
