import Verif.Spec.Constraint
import Verif.Lemmas.Constraint
import Mathlib.Analysis.Calculus.Deriv.Pow
import Mathlib.Analysis.Calculus.Deriv.Mul
import Mathlib.Analysis.Calculus.Deriv.Add

/-! # Derivatives of the documented constraint energies -/

namespace Flory

open Spec

variable {A S M : ℕ}

theorem violation_upd (Cs : Mat A S ℝ) (Ts : Vec A ℝ) (phi : Mat S M ℝ) (r : Fin S) (m : Fin M)
    (x : ℝ) (a : Fin A) (k : Fin M) :
    violation Cs Ts (updEntry phi r m x) a k =
      violation Cs Ts phi a k + if k = m then Cs a r * (x - phi r m) else 0 := by
  unfold violation updEntry
  by_cases hk : k = m
  · subst hk
    have : ∀ q, Cs a q * (if q = r ∧ k = k then x else phi q k) =
        Cs a q * phi q k + if q = r then Cs a q * (x - phi q k) else 0 := by
      intro q
      by_cases hq : q = r
      · simp [hq]; ring
      · simp [hq]
    rw [Finset.sum_congr rfl fun q _ => this q, Finset.sum_add_distrib]
    simp only [Finset.sum_ite_eq', Finset.mem_univ, if_true]
    ring
  · simp [hk]

theorem hasDerivAt_violation (Cs : Mat A S ℝ) (Ts : Vec A ℝ) (phi : Mat S M ℝ) (r : Fin S)
    (m : Fin M) (a : Fin A) (k : Fin M) :
    HasDerivAt (fun x => violation Cs Ts (updEntry phi r m x) a k)
      (if k = m then Cs a r else 0) (phi r m) := by
  simp only [violation_upd]
  by_cases hk : k = m
  · simp only [hk, if_true]
    simpa using (((hasDerivAt_id (phi r m)).sub_const (phi r m)).const_mul (Cs a r)).const_add
      (violation Cs Ts phi a m)
  · simp only [hk, if_false, add_zero]
    exact hasDerivAt_const _ _

theorem updEntry_self (phi : Mat S M ℝ) (r : Fin S) (m : Fin M) :
    updEntry phi r m (phi r m) = phi := by
  funext r' m'
  unfold updEntry
  split
  · rename_i h; rw [h.1, h.2]
  · rfl

theorem hasDerivAt_setAt (J : Vec M ℝ) (m k : Fin M) (x : ℝ) :
    HasDerivAt (fun x => setAt J m x k) (if k = m then 1 else 0) x := by
  unfold setAt
  by_cases hk : k = m
  · simp only [hk, if_true]; exact hasDerivAt_id x
  · simp only [hk, if_false]; exact hasDerivAt_const _ _

theorem setAt_self (J : Vec M ℝ) (m : Fin M) : setAt J m (J m) = J := by
  funext k
  unfold setAt
  split
  · rename_i h; rw [h]
  · rfl

end Flory
