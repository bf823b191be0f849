import Verif.Spec.Finder

/-! # Vocabulary for statements about the state a finder starts from -/

namespace Flory.Spec

variable {G : Type}

/-- The generator after `k` draws of a standard normal variable. -/
def genAfter (rng : Rng G ℝ) (g : G) : ℕ → G
  | 0 => g
  | k + 1 => (rng.normal (genAfter rng g k)).2

/-- Draw number `k` (from zero) of a standard normal variable. -/
def normalDraw (rng : Rng G ℝ) (g : G) (k : ℕ) : ℝ := (rng.normal (genAfter rng g k)).1

/-- The generator after `k` draws of a variable between -1 and 1. -/
def uniformAfter (rng : Rng G ℝ) (g : G) : ℕ → G
  | 0 => g
  | k + 1 => (rng.uniform (uniformAfter rng g k)).2

/-- Draw number `k` (from zero) of a variable between -1 and 1. -/
def uniformDraw (rng : Rng G ℝ) (g : G) (k : ℕ) : ℝ := (rng.uniform (uniformAfter rng g k)).1

/-- All Lagrange multipliers of a constraint are zero. -/
def NoForce {S M : ℕ} : Cons S M ℝ → Prop
  | .no _ => True
  | .loc _ c => ∀ a m, c.multiplier a m = 0
  | .glob _ c => ∀ a, c.multiplier a = 0

/-- `f'` is `f` with the fields `w`, the generator `g`, unit volumes, a full revive budget and the same
constraints, initialized and without multipliers; everything else is as in `f`. -/
structure Restarted (f f' : Finder G) (w : Mat f.numFeat f.numPart ℝ) (g : G) : Prop where
  rest : ∃ cs : List (PackedCons f.numPart),
    f' = { f with omegas := w
                  Js := fun _ => 1
                  reviveLeft := f.maxRevive * f.numPart
                  constraints := cs
                  g := g }
  enforced : enforced f' = enforced f
  ready : ∀ c ∈ f'.constraints, c.ready = true ∧ NoForce c.cons

end Flory.Spec
