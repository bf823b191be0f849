import Verif.Spec.Chance
import Verif.Spec.ShortcutObject
import Verif.Gen.Shortcut

/-! # Outcomes of a search with the transcribed text -/

namespace Flory.Spec

variable {C M : ℕ}

/-- What `find_coexisting_phases` returned, `b`, consists of the different columns of `psi`, each exactly once, with
compositions right up to `ε`; the volume of a phase is the share of the columns equal to it, up to `ε`; and the errors
in `info` are below the tolerance. -/
def TextFinds (psi : Mat C M ℝ) (ε tol : ℝ) (b : Gen.PhasesResultAttrs ℝ) : Prop :=
  ∃ P : ℕ, b.volumes.shape = [P] ∧ b.fractions.shape = [P, C] ∧
    (∀ p : Fin P, ∃ m, eucl (fun i : Fin C => b.fractions.get [p.1, i.1]) (fun i => psi i m) ≤ ε ∧
      |b.volumes.get [p.1] - (Nat.card {n // ∀ i, psi i n = psi i m} : ℝ) / M| ≤ ε) ∧
    (∀ m, ∃! p : Fin P, eucl (fun i : Fin C => b.fractions.get [p.1, i.1]) (fun i => psi i m) ≤ ε) ∧
    ∀ k ∈ ["max_abs_incomp", "max_abs_omega_diff", "max_abs_js_diff"], ∃ e, b._info.get? k = some e ∧ e < tol

/-- All that a call of the transcribed `find_coexisting_phases` needs apart from its arguments: the generator of random
numbers, how `numpy` makes one from a seed, the time, what constraints of other classes do, `scipy` and `argsort`. -/
structure TextEnv (G : Type) (M : ℕ) where
  gen : Rng G ℝ
  newGen : ℤ → G
  now : ℤ
  other : ℕ → PackedCons M → PackedCons M
  scipy : Scipy
  sort : ArgSort ℝ

/-- The call `find_coexisting_phases(C, chis, phi, l, rng=g, max_steps=maxSteps, …)` of the transcribed text. -/
noncomputable def TextEnv.search {G : Type} (env : TextEnv G M) (chis : Mat C C ℝ) (l phi : Vec C ℝ) (a : FinderArgs)
    (maxSteps : ℚ) (progress : Bool) (g : G) : Py (Gen.PhasesResultAttrs ℝ) :=
  Gen.find_coexisting_phases env.gen env.newGen env.now env.other env.scipy env.sort C (.ofMat chis)
    (some (.ofVec phi)) (some (.ofVec l)) .none (initArgs { a with maxSteps := maxSteps } (some g) progress) a.kwargs

/-- The event that a search with the transcribed text finds the phases `psi`. -/
def textFound {Ω G : Type} (env : TextEnv G M) (g : Ω → G) (chis : Mat C C ℝ) (l phi : Vec C ℝ)
    (a : FinderArgs) (maxSteps : ℚ) (progress : Bool) (psi : Mat C M ℝ) (ε : ℝ) : Set Ω :=
  {ω | ∃ b, env.search chis l phi a maxSteps progress (g ω) = .ok b ∧ TextFinds psi ε a.tolerance b}

/-- The clustering of the environment is the one that `scipy` documents. -/
structure TextEnv.Documented {G : Type} (env : TextEnv G M) (C : ℕ) : Prop where
  rng : env.gen.Ok
  returns : ScipyWorks env.scipy
  clusters : ∀ {P : ℕ} (x : Phases P C ℝ) links l, 2 ≤ P →
    env.scipy.linkage (env.scipy.pdist (.ofMat x.fractions)) "centroid" = .ok links →
    env.scipy.fcluster links (1 / 100) "distance" = .ok l → FCluster (1 / 100) x.fractions fun p => l.getD p.1 0

end Flory.Spec
