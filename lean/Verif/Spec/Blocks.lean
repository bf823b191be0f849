import Mathlib.Algebra.BigOperators.Fin
import Mathlib.Algebra.Order.BigOperators.Group.Finset
import Mathlib.Data.Fintype.BigOperators

/-!
# Components grouped into features

Vocabulary for property statements.  Independent of the model.
-/

namespace Flory.Spec

variable {S C : ℕ}

/-- Number of components belonging to features before `r`. -/
def offset (per : Fin S → ℕ) (r : ℕ) : ℕ := ∑ s : Fin S, if (s : ℕ) < r then per s else 0

/-- `feat i` is the feature of component `i` when consecutive blocks of `per r` components form
the features. -/
def IsFeat (per : Fin S → ℕ) (feat : Fin C → Fin S) : Prop :=
  ∀ i : Fin C, offset per (feat i) ≤ i ∧ (i : ℕ) < offset per (feat i) + per (feat i)

theorem offset_zero (per : Fin S → ℕ) : offset per 0 = 0 := by simp [offset]

theorem offset_succ (per : Fin S → ℕ) (r : Fin S) :
    offset per (r + 1) = offset per r + per r := by
  unfold offset
  have : ∀ s : Fin S, (if (s : ℕ) < r + 1 then per s else 0) =
      (if (s : ℕ) < r then per s else 0) + (if s = r then per s else 0) := by
    intro s
    by_cases h : s = r
    · subst h; simp
    · have : (s : ℕ) ≠ r := fun e => h (Fin.ext e)
      by_cases hl : (s : ℕ) < r
      · simp [hl, h, Nat.lt_succ_of_lt hl]
      · have : ¬ (s : ℕ) < r + 1 := by omega
        simp [hl, h, this]
  simp [this, Finset.sum_add_distrib]

theorem offset_all (per : Fin S → ℕ) : offset per S = ∑ r, per r := by
  unfold offset; simp

theorem offset_mono (per : Fin S → ℕ) {a b : ℕ} (h : a ≤ b) : offset per a ≤ offset per b := by
  unfold offset
  refine Finset.sum_le_sum fun s _ => ?_
  by_cases ha : (s : ℕ) < a
  · simp [ha, lt_of_lt_of_le ha h]
  · simp [ha]

theorem offset_add_le (per : Fin S → ℕ) (r : Fin S) : offset per r + per r ≤ ∑ r, per r := by
  rw [← offset_succ, ← offset_all]; exact offset_mono per r.2

/-- The feature of a component is unique. -/
theorem feat_unique {per : Fin S → ℕ} {r r' : Fin S} {i : ℕ}
    (h : offset per r ≤ i ∧ i < offset per r + per r)
    (h' : offset per r' ≤ i ∧ i < offset per r' + per r') : r = r' := by
  rcases lt_trichotomy (r : ℕ) r' with hl | he | hl
  · have := offset_mono per (show (r : ℕ) + 1 ≤ r' from hl)
    rw [offset_succ] at this; omega
  · exact Fin.ext he
  · have := offset_mono per (show (r' : ℕ) + 1 ≤ r from hl)
    rw [offset_succ] at this; omega

theorem exists_feat (per : Fin S → ℕ) {i : ℕ} (hi : i < ∑ r, per r) :
    ∃ r : Fin S, offset per r ≤ i ∧ i < offset per r + per r := by
  have : ∀ k, k ≤ S → i < offset per k →
      ∃ r : Fin S, offset per r ≤ i ∧ i < offset per r + per r := by
    intro k
    induction k with
    | zero => intro _ h; rw [offset_zero] at h; omega
    | succ k ih =>
      intro hk h
      by_cases hl : i < offset per k
      · exact ih (by omega) hl
      · have e := offset_succ per ⟨k, hk⟩
        exact ⟨⟨k, hk⟩, not_lt.mp hl, by rw [← e]; exact h⟩
  exact this S le_rfl (by rw [offset_all]; exact hi)

/-- Every component has a feature. -/
theorem exists_isFeat (per : Fin S → ℕ) (h : C = ∑ r, per r) :
    ∃ feat : Fin C → Fin S, IsFeat per feat := by
  have := fun i : Fin C => exists_feat per (i := i) (h ▸ i.2)
  choose f hf using this
  exact ⟨f, hf⟩

theorem IsFeat.eq_iff {per : Fin S → ℕ} {feat : Fin C → Fin S} (h : IsFeat per feat) (i : Fin C)
    (r : Fin S) : feat i = r ↔ offset per r ≤ i ∧ (i : ℕ) < offset per r + per r :=
  ⟨fun e => e ▸ h i, fun h' => feat_unique (h i) h'⟩

end Flory.Spec
