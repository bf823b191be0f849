import Verif.Model.Floats
import Mathlib.Data.Set.Card

/-! # What IEEE 754 guarantees about infinities and NaN -/

namespace Flory.Spec

variable {F : Type}

/-- Rules of floating-point arithmetic.  `Finite` are the numbers other than infinities and NaN; only NaN
differs from itself.  Infinities and NaN do not disappear in sums, differences and products, and comparisons
with NaN are false.  Nothing is assumed about the accuracy of finite results or about overflow. -/
structure Ieee (o : Floats F) (Finite : F → Prop) : Prop where
  add : ∀ {x y}, Finite (o.add x y) → Finite x ∧ Finite y
  sub : ∀ {x y}, Finite (o.sub x y) → Finite x ∧ Finite y
  mul : ∀ {x y}, Finite (o.mul x y) → Finite x ∧ Finite y
  div : ∀ {x y}, Finite (o.div x y) → Finite x
  sum : ∀ {n} {v : Vec n F}, Finite (o.sum v) → ∀ i, Finite (v i)
  dot : ∀ {n} {v w : Vec n F}, Finite (o.dot v w) → ∀ i, Finite (v i) ∧ Finite (w i)
  number : ∀ {x}, Finite x → o.eq x x
  mul_number : ∀ {x y}, Finite x → Finite y → o.eq (o.mul x y) (o.mul x y)
  lt_number : ∀ {x y}, o.lt x y → o.eq x x ∧ o.eq y y
  lt_abs : ∀ {x t}, o.lt (o.abs x) t → Finite x
  abs_number : ∀ {x}, o.eq x x → o.eq (o.abs x) (o.abs x)
  lt_max : ∀ {n} [NeZero n] {v : Vec n F} {t}, o.lt (o.max v) t → ∀ i, o.lt (v i) t
  max_number : ∀ {n} [NeZero n] {v : Vec n F}, (∀ i, o.eq (v i) (v i)) → o.eq (o.max v) (o.max v)
  max2 : ∀ x y, o.max2 x y = if o.lt x y then y else x
  lt_of_not_lt : ∀ {x y t}, o.eq y y → ¬o.lt x y → o.lt x t → o.lt y t
  lt_trans : ∀ {x y t}, o.lt x y → o.lt y t → o.lt x t
  zero_number : o.eq (o.ofNat 0) (o.ofNat 0)
  mask : ∀ {x}, Finite (o.clip0 (o.sign x)) →
    o.clip0 (o.sign x) = o.ofNat 0 ∨ o.clip0 (o.sign x) = o.ofNat 1
  mul_zero : ∀ {x t}, ¬o.lt t (o.ofNat 0) → ¬o.lt t (o.mul x (o.ofNat 0))

/-- Numbers of compartments are exact (in doubles up to `2 ^ 53`). -/
def Counts (o : Floats F) (M : ℕ) : Prop :=
  ∀ (v : Vec M F) (k : ℕ), (∀ i, v i = o.ofNat 0 ∨ v i = o.ofNat 1) → k ≤ M →
    o.eq (o.whole (o.sum v)) (o.ofNat k) → {i | v i = o.ofNat 1}.ncard = k

/-- The ensemble is one of the two of the project. -/
def KnownEnsemble (o : Floats F) {C M : ℕ} (es : EnsembleI C M F) : Prop :=
  (∃ e : CanonicalC C F, es = ⟨e.normalizeF o⟩) ∨ ∃ e : GrandC C F, es = ⟨e.normalizeF o⟩

/-- A property of all residues of a constraint. -/
def Residues {S M : ℕ} (P : F → Prop) : Cons S M F → Prop
  | .no _ => True
  | .loc _ c => ∀ a m, P (c.residue a m)
  | .glob _ c => ∀ a, P (c.residue a)

/-- A property of all residues of a local constraint. -/
def LocalResidues {S M : ℕ} (P : F → Prop) : Cons S M F → Prop
  | .loc _ c => ∀ a m, P (c.residue a m)
  | _ => True

end Flory.Spec
