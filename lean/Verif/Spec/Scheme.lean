import Verif.Spec.Extended

/-! # The documented iterative scheme (`docs/source/theory.rst`)

The formulas of the section "Example: Flory-Huggins Free Energy", written for components that belong to
features and have sizes `l`.  Differences to the text: `ξ` contains the incompressibility coefficient of
the interaction (documented in `flory/interaction/base.py:76-82`), and `η` is evaluated with the output
fields `w*`.  `J` are the relative volumes (zero for dead compartments, sum one). -/

namespace Flory.Spec

variable {C S M : ℕ}

/-- `φ_i^m = φ̄_i / Q_i exp(-l_i w_i^m)`. -/
noncomputable def schemePhi (feat : Fin C → Fin S) (l phiMeans : Vec C ℝ) (J : Vec M ℝ) (w : Mat S M ℝ)
    (i : Fin C) (m : Fin M) : ℝ :=
  phiMeans i / partitionFn feat l J w i * Real.exp (-w (feat i) m * l i)

/-- `ξ_m = 1/N_S [Σ_r (w_r - Σ_j χ_rj φ_j) + c (Σ_i φ_i - 1)]`. -/
noncomputable def schemeXi (chis : Mat S S ℝ) (coef : ℝ) (feat : Fin C → Fin S) (w : Mat S M ℝ)
    (phi : Mat C M ℝ) (m : Fin M) : ℝ :=
  ((∑ r, (w r m - ∑ j, chis r (feat j) * phi j m)) + coef * ((∑ i, phi i m) - 1)) / S

/-- `w*_r^m = Σ_j χ_rj φ_j^m + ξ_m`. -/
noncomputable def schemeField (chis : Mat S S ℝ) (coef : ℝ) (feat : Fin C → Fin S) (w : Mat S M ℝ)
    (phi : Mat C M ℝ) (r : Fin S) (m : Fin M) : ℝ :=
  (∑ j, chis r (feat j) * phi j m) + schemeXi chis coef feat w phi m

/-- `η_m = -½ Σ χ φ φ + Σ_i w*_i φ_i - ξ_m (Σ φ - 1) + Σ_i φ_i / l_i`. -/
noncomputable def schemeEta (chis : Mat S S ℝ) (coef : ℝ) (feat : Fin C → Fin S) (l : Vec C ℝ)
    (w : Mat S M ℝ) (phi : Mat C M ℝ) (m : Fin M) : ℝ :=
  -(1 / 2 * ∑ i, ∑ j, chis (feat i) (feat j) * phi i m * phi j m)
    + (∑ i, schemeField chis coef feat w phi (feat i) m * phi i m)
    - schemeXi chis coef feat w phi m * ((∑ i, phi i m) - 1) + ∑ i, phi i m / l i

end Flory.Spec
