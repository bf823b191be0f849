import Verif.Props.Compartments
import Verif.Lemmas.Metastep

/-!
# A concrete mixture

Used only to show that the hypotheses of the property theorems can be met: a symmetric binary
Flory-Huggins mixture with `χ = 3` in three compartments (one of them dead), with the default numerical
parameters of `CoexistingPhasesFinder` (`flory/mcmp/finder.py:64-87`), and a local and a
global constraint.
-/

namespace Flory.Demo

/-- `χ₁₂ = 3`. -/
def chis : Mat 2 2 ℝ := ![![0, 3], ![3, 0]]

/-- Compiled interaction. -/
noncomputable def fh : FHCompiled 2 ℝ := FHCompiled.new chis 1

/-- Compiled entropy, sizes 1 and 2. -/
def gas : IdealC 2 := ⟨![1, 2]⟩

/-- Polydisperse entropy: three components in two features. -/
def poly : PolyC 3 2 := ⟨![1, 2, 3], ![2, 1]⟩

/-- Compiled canonical ensemble. -/
noncomputable def canonical : CanonicalC 2 ℝ := ⟨![1 / 2, 1 / 2]⟩

/-- Compiled grand canonical ensemble. -/
def grand : GrandC 2 ℝ := ⟨![1, 2]⟩

/-- Default numerical parameters. -/
noncomputable def params : Params ℝ where
  acceptanceJs := 2 / 10000
  JsStepUpperBound := 1 / 1000
  acceptanceOmega := 2 / 1000
  killThreshold := 0
  reviveScaler := 1

/-- A local constraint on the first feature. -/
noncomputable def consLoc : LocalC 1 2 3 ℝ := LocalC.new ![![1, -1]] ![0] 1 1

/-- A global constraint on the first feature. -/
noncomputable def consGlob : GlobalC 1 2 3 ℝ := GlobalC.new ![![1, 0]] ![1 / 2] 1 1

/-- State with two living compartments and a dead one. -/
noncomputable def state (cons : List (Cons 2 3 ℝ)) : State 2 2 3 ℝ Unit where
  omegas := ![![1, -1, 0], ![-1, 1, 0]]
  Js := ![1, 2, 0]
  phisComp := fun _ _ => 0
  phisFeat := fun _ _ => 0
  cons := cons
  g := ()

/-- All three kinds of constraints. -/
noncomputable def allCons : List (Cons 2 3 ℝ) :=
  [.no NoC.new, .loc 1 consLoc, .glob 1 consGlob]

theorem allCons_proper : ∀ c ∈ allCons, c.Proper := by
  intro c hc
  simp only [allCons, List.mem_cons, List.not_mem_nil, or_false] at hc
  rcases hc with rfl | rfl | rfl <;> simp [Cons.Proper]

/-- The demo passes succeed, with any constraints, in both ensembles, with or without revival. -/
theorem iterate_canonical (tries : ℤ) (cons : List (Cons 2 3 ℝ)) (hc : ∀ c ∈ cons, c.Proper) :
    ∃ t, iterate (fh.toI 3) (gas.toI 3) (canonical.toI 3) (rngZero ℝ) params tries 0 (state cons)
      = .ok t := by
  obtain ⟨t, ht, -⟩ := iterate_ok (ia := fh.toI 3) (tries := tries) (count := 0)
    (s := state cons) (rngZero_ok ℝ) gas.isIdealGas canonical.total (p := params)
    (by simp [params]) (by simp [params]) (by simp [params]) hc
    (Or.inl ⟨0, by simp [params, state]⟩)
  exact ⟨t, ht⟩

theorem iterate_grand (tries : ℤ) (cons : List (Cons 2 3 ℝ)) (hc : ∀ c ∈ cons, c.Proper) :
    ∃ t, iterate (fh.toI 3) (gas.toI 3) (grand.toI 3) (rngZero ℝ) params tries 0 (state cons)
      = .ok t := by
  obtain ⟨t, ht, -⟩ := iterate_ok (ia := fh.toI 3) (tries := tries) (count := 0)
    (s := state cons) (rngZero_ok ℝ) gas.isIdealGas grand.total (p := params)
    (by simp [params]) (by simp [params]) (by simp [params]) hc
    (Or.inl ⟨0, by simp [params, state]⟩)
  exact ⟨t, ht⟩

theorem metastep_canonical (tries : ℤ) (cons : List (Cons 2 3 ℝ)) (hc : ∀ c ∈ cons, c.Proper)
    (n : ℕ) : ∃ r, metastep (fh.toI 3) (gas.toI 3) (canonical.toI 3) (rngZero ℝ) params tries (n + 1)
      (state cons) = .ok r := by
  obtain ⟨r, hr, -⟩ := metastep_ok (ia := fh.toI 3) (tries := tries)
    (s := state cons) (rngZero_ok ℝ) gas.isIdealGas canonical.total (p := params)
    (by simp [params]) (by simp [params]) (by simp [params]) (Nat.succ_ne_zero n) hc
    (Or.inl ⟨0, by simp [params, state]⟩)
  exact ⟨r, hr⟩

end Flory.Demo
