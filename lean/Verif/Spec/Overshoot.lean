import Verif.Spec.Merge
import Mathlib.Analysis.Complex.Basic

/-! # Stability limit of `acceptance_omega` -/

namespace Flory.Spec

variable {C S M : ℕ}

/-- A direction `u`, real or complex, in which a small difference between the fields of two compartments with
loads `d` relaxes at the rate `μ`.  The difference of the fractions of a feature is `-d u`.  The fields respond
with the difference of fields and interaction potentials, without its mean over the `S` features, and with
`kap / S` times the difference of the total fractions. -/
def FieldMode (chis : Mat S S ℝ) (kap : ℝ) (d : Vec S ℝ) (μ : ℂ) (u : Fin S → ℂ) : Prop :=
  u ≠ 0 ∧ ∀ r, (u r + ∑ s, (chis r s : ℂ) * (d s * u s)) -
    (∑ q, (u q + ∑ s, (chis q s : ℂ) * (d s * u s))) / S + kap / S * ∑ s, (d s : ℂ) * u s = μ * u r

/-- Arbitrarily close to any fields that are the same in all compartments there are fields from which the
iteration without constraints does not stay near the composition `x`: within a number of passes that only
depends on these fields, a compartment dies or a fraction differs from `x` by more than `ε`. -/
def Leaves [NeZero M] {G : Type} (e : RunEnv C S M ℝ G) (x : Vec C ℝ) : Prop :=
  ∃ ε > 0, ∀ (w : Vec S ℝ), ∀ η > 0, ∃ om : Mat S M ℝ, (∀ r m, |om r m - w r| ≤ η) ∧ ∃ N : ℕ,
    ∀ (b : ℤ) (st : State C S M ℝ G), (∀ m, st.Js m = 1) → st.omegas = om →
    (∀ k ∈ st.cons, k.Trivial) → ∃ n t, n ≤ N ∧ Passes e b n 0 st t ∧
      ∃ m, t.Js m ≤ e.params.killThreshold ∨ ∃ i, ε < |t.phisComp i m - x i|

/-- Settings of a canonical run of a mixture of ideal-gas type, as far as they matter here. -/
structure Suits [NeZero M] {G : Type} (e : RunEnv C S M ℝ G) (ia : FHCompiled S ℝ) (es : CanonicalC C ℝ)
    (l : Vec C ℝ) (feat : Fin C → Fin S) : Prop where
  rng : e.rng.Ok
  nonneg : 0 ≤ e.params.killThreshold
  lt_one : e.params.killThreshold < 1
  small : 2 * e.params.killThreshold * ((M : ℝ) - 1) < 1
  bound : 0 < e.params.JsStepUpperBound
  step : 0 < e.params.acceptanceOmega
  criterion : e.criterion = "standard"
  interaction : e.ia = ia.toI M
  entropy : IsIdealGas e.en l feat
  ensemble : e.es = es.toI M

/-- Positive sizes and mean fractions that sum to one. -/
structure Mixture (l x : Vec C ℝ) : Prop where
  size : ∀ i, 0 < l i
  fraction : ∀ i, 0 < x i
  total : ∑ i, x i = 1

/-- Mean size of the molecules by volume. -/
noncomputable def meanSize (l x : Vec C ℝ) : ℝ := ∑ i, l i * x i

/-- Sum of the relaxation rates of all modes. -/
noncomputable def totalRate (chis : Mat S S ℝ) (kap : ℝ) (d : Vec S ℝ) : ℝ :=
  S - 1 + ∑ r, (chis r r - (∑ q, chis q r) / S) * d r + kap / S * ∑ r, d r

/-- Product of the relaxation rates of the two modes of a mixture with two features. -/
noncomputable def rateProduct (chis : Mat 2 2 ℝ) (kap : ℝ) (d : Vec 2 ℝ) : ℝ :=
  kap / 2 * (d 0 * d 1 * exchangeCurvature chis d)

end Flory.Spec
