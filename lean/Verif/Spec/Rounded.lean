import Verif.Model.Rounded

/-! # Rounding errors -/

namespace Flory.Spec

/-- What is assumed of a rounding with relative error `u`. -/
structure Rounds (rnd : ℝ → ℝ) (u : ℝ) : Prop where
  nonneg : 0 ≤ u
  lt_one : u < 1
  err : ∀ x, |rnd x - x| ≤ u * |x|
  mono : Monotone rnd
  idem : ∀ x, rnd (rnd x) = rnd x
  one : rnd 1 = 1

/-- `s` results from adding the numbers of the list in some order, with a rounding after each addition;
single numbers may be added to zero first. -/
inductive AddedUp (rnd : ℝ → ℝ) : List ℝ → ℝ → Prop
  | nil : AddedUp rnd [] 0
  | one (x : ℝ) : AddedUp rnd [x] x
  | start (x : ℝ) : AddedUp rnd [x] (rnd (0 + x))
  | add {l l' : List ℝ} {s s' : ℝ} : l ≠ [] → l' ≠ [] → AddedUp rnd l s → AddedUp rnd l' s' →
      AddedUp rnd (l ++ l') (rnd (s + s'))
  | perm {l l' : List ℝ} {s : ℝ} : l.Perm l' → AddedUp rnd l s → AddedUp rnd l' s

/-- `s` results from adding products in some order; each product is rounded, or fused with the addition. -/
inductive DottedUp (rnd : ℝ → ℝ) : List (ℝ × ℝ) → ℝ → Prop
  | nil : DottedUp rnd [] 0
  | one (x y : ℝ) : DottedUp rnd [(x, y)] (rnd (x * y))
  | start (x y : ℝ) : DottedUp rnd [(x, y)] (rnd (0 + rnd (x * y)))
  | add {l l' : List (ℝ × ℝ)} {s s' : ℝ} : l ≠ [] → l' ≠ [] → DottedUp rnd l s → DottedUp rnd l' s' →
      DottedUp rnd (l ++ l') (rnd (s + s'))
  | fma {l : List (ℝ × ℝ)} {s : ℝ} (x y : ℝ) : DottedUp rnd l s →
      DottedUp rnd ((x, y) :: l) (rnd (s + x * y))
  | perm {l l' : List (ℝ × ℝ)} {s : ℝ} : l.Perm l' → DottedUp rnd l s → DottedUp rnd l' s

/-- What is assumed of float arithmetic with unit roundoff `u`. -/
structure FpOk (f : Fp) (u : ℝ) : Prop where
  rounds : Rounds f.rnd u
  sum : ∀ l, AddedUp f.rnd l (f.sum l)
  sumAxis : ∀ l, AddedUp f.rnd l (f.sumAxis l)
  dot : ∀ l, DottedUp f.rnd l (f.dot l)

/-- `x` and `y` agree up to `n` roundings with relative error `u`. -/
def UpTo (u : ℝ) (n : ℕ) (x y : ℝ) : Prop := x * (1 - u) ^ n ≤ y ∧ y * (1 - u) ^ n ≤ x

end Flory.Spec
