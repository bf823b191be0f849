import Mathlib.Analysis.Calculus.FDeriv.Basic
import Mathlib.Analysis.Calculus.Deriv.Basic
import Mathlib.Analysis.Normed.Module.FiniteDimension
import Verif.Model.Py

/-! # Gradients (independent of the model) -/

namespace Flory.Spec

variable {n : ℕ}

/-- The linear form `v ↦ Σ g_i v_i`. -/
noncomputable def dot (g : Vec n ℝ) : Vec n ℝ →L[ℝ] ℝ :=
  ∑ i, g i • ContinuousLinearMap.proj (R := ℝ) (φ := fun _ : Fin n => ℝ) i

@[simp] theorem dot_apply (g v : Vec n ℝ) : dot g v = ∑ i, g i * v i := by
  simp [dot]

/-- `g` is the gradient of `f` at `x` (Fréchet derivative). -/
def IsGradientAt (f : Vec n ℝ → ℝ) (g x : Vec n ℝ) : Prop := HasFDerivAt f (dot g) x

theorem dot_injective : Function.Injective (dot (n := n)) := by
  intro g g' h
  funext i
  have := congrArg (fun L => L (Pi.single i 1)) h
  simpa [Pi.single_apply] using this

/-- Gradients are unique. -/
theorem IsGradientAt.unique {f : Vec n ℝ → ℝ} {g g' x : Vec n ℝ} (h : IsGradientAt f g x)
    (h' : IsGradientAt f g' x) : g = g' := dot_injective (HasFDerivAt.unique h h')

end Flory.Spec
