import Verif.Model.Run

/-! # What a run consists of (independent of how the loops are written) -/

namespace Flory.Spec

variable {K G : Type} [Field K] [LinearOrder K] {C S M : ℕ} [NeZero M]

/-- `n` successful passes, starting in state `s` with `count` revivals done so far; `t` is the trace of
the last one. -/
inductive Passes (e : RunEnv C S M K G) (tries : ℤ) : ℕ → ℕ → State C S M K G → Trace C S M K G → Prop
  | one {count : ℕ} {s : State C S M K G} {t : Trace C S M K G} :
      iterate e.ia e.en e.es e.rng e.params tries count s = .ok t → Passes e tries 1 count s t
  | more {n count : ℕ} {s : State C S M K G} {t t' : Trace C S M K G} :
      Passes e tries n count s t →
      iterate e.ia e.en e.es e.rng e.params tries t.reviveCount t.state = .ok t' →
      Passes e tries (n + 1) count s t'

/-- Groups of `inner` passes, one for each element of the list, which contains the last trace of
each group.  Each group starts with the budget left over by the previous one. -/
inductive Chain (e : RunEnv C S M K G) (inner : ℕ) :
    List (Trace C S M K G) → State C S M K G → ℤ → State C S M K G → ℤ → Prop
  | nil {s : State C S M K G} {b : ℤ} : Chain e inner [] s b s b
  | cons {ts : List (Trace C S M K G)} {s s' : State C S M K G} {b b' : ℤ} {t : Trace C S M K G} :
      Passes e b inner 0 s t → Chain e inner ts t.state (b - t.reviveCount) s' b' →
      Chain e inner (t :: ts) s b s' b'

/-- The documented convergence criterion: no compartment died in the last pass and all reported errors
are below the tolerance. -/
def Met (thr tolerance : K) (t : Trace C S M K G) : Prop :=
  Fintype.card {m // thr < t.JsOld m} = Fintype.card {m // thr < t.Js m} ∧
  t.maxAbsIncomp < tolerance ∧ t.maxAbsOmegaDiff < tolerance ∧ t.maxAbsJsDiff < tolerance ∧
  t.maxConstraintResidue < tolerance

end Flory.Spec
