import Verif.Gen.Shortcut
import Verif.Spec.FinderObject
import Verif.Spec.TranscriptPhases
import Verif.Spec.Compile

/-!
# When the transcribed `find_coexisting_phases` and the one of the model give the same result
-/

namespace Flory.Spec

/-- The result of the code has the phases of the model, and its `info` has the entries of the diagnostics. -/
structure SameShortcut (a : Gen.PhasesResultAttrs ℝ) (r : ShortcutResult) : Prop where
  phases : SamePhases ⟨a.volumes, a.fractions⟩ ⟨r.numPhases, r.numComp, r.phases⟩
  info : a._info = [("steps", (r.info.steps : ℝ)), ("max_abs_incomp", r.info.maxAbsIncomp),
    ("max_abs_omega_diff", r.info.maxAbsOmegaDiff), ("max_abs_js_diff", r.info.maxAbsJsDiff),
    ("max_constraint_residue", r.info.maxConstraintResidue), ("revive_count_left", (r.info.reviveCountLeft : ℝ))]

/-- The labels of the model are those scipy gives for centroid linkage and a maximal distance of 0.01. -/
def ScipyLabels (scipy : Scipy) (ext : PhasesExt) : Prop :=
  ∀ {P C : ℕ} (x : Phases P C ℝ), 2 ≤ P → ∃ links l,
    scipy.linkage (scipy.pdist (.ofMat x.fractions)) "centroid" = .ok links ∧
    scipy.fcluster links (1 / 100) "distance" = .ok l ∧ l.length = P ∧ ∀ p, ext.labels x p = l.getD p.1 0

/-- The functions of scipy, called like this, give one label for every phase. -/
def ScipyWorks (scipy : Scipy) : Prop :=
  ∀ {P C : ℕ} (x : Phases P C ℝ), 2 ≤ P → ∃ links l,
    scipy.linkage (scipy.pdist (.ofMat x.fractions)) "centroid" = .ok links ∧
    scipy.fcluster links (1 / 100) "distance" = .ok l ∧ l.length = P

/-- A method call, `run` included: the call of the transcribed method that a call of the model stands for. -/
noncomputable def methodCall {G : Type} {M : ℕ} (gen : Rng G ℝ) (other : ℕ → PackedCons M → PackedCons M)
    (op : FinderOp) : Act (Gen.FinderObj G M) (Option Gen.PhasesAttrs) := fun o =>
  match op with
  | .run ms tol iv => ((Gen.FinderObj.run gen ms tol iv o).1, (Gen.FinderObj.run gen ms tol iv o).2.map some)
  | op =>
    match codeCall gen other op with
    | none => (o, .ok none)
    | some c => ((c o).1, (c o).2.map fun _ => none)

/-- One call after the other, whether they raise or not. -/
def callEach {σ α : Type} : List (Act σ α) → σ → σ × List (Py α)
  | [], s => (s, [])
  | c :: cs, s => ((callEach cs (c s).1).1, (c s).2 :: (callEach cs (c s).1).2)

/-- Both calls return nothing, or both return the same phases. -/
def SameOut : Option Gen.PhasesAttrs → Option RunOut → Prop
  | none, none => True
  | some a, some out => SamePhases a ⟨_, _, out.phases⟩
  | _, _ => False

end Flory.Spec
