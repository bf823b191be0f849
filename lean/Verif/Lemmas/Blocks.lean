import Verif.Model.Interaction
import Verif.Lemmas.Loops
import Verif.Spec.Blocks
import Mathlib.Data.List.FinRange
import Mathlib.Data.List.GetD

/-! # `make_square_blocks` in closed form -/

set_option linter.unusedSectionVars false

namespace Flory

open Spec

theorem repeatIndex_spec (l : List ℕ) (k : ℕ) :
    ((l.zipIdx k).flatMap fun p => List.replicate p.1 p.2).length = l.sum ∧
    ∀ r (hr : r < l.length) i, (l.take r).sum ≤ i → i < (l.take r).sum + l[r] →
      ((l.zipIdx k).flatMap fun p => List.replicate p.1 p.2).getD i 0 = k + r := by
  induction l generalizing k with
  | nil => simp
  | cons a l ih =>
    obtain ⟨h1, h2⟩ := ih (k + 1)
    rw [List.zipIdx_cons, List.flatMap_cons]
    refine ⟨by simp [h1], fun r hr i hi hi' => ?_⟩
    cases r with
    | zero =>
      have : i < a := by simpa using hi'
      rw [List.getD_append _ _ _ _ (by simpa using this)]
      simp [List.getD_eq_getElem?_getD, this]
    | succ r =>
      simp only [List.take_succ_cons, List.sum_cons, List.getElem_cons_succ] at hi hi'
      rw [List.getD_append_right _ _ _ _ (by simp; omega), List.length_replicate,
        h2 r (by simpa using hr) (i - a) (by omega) (by omega)]
      omega

theorem take_ofFn_sum {S : ℕ} (per : Fin S → ℕ) (r : ℕ) (hr : r ≤ S) :
    ((List.ofFn per).take r).sum = offset per r := by
  induction r with
  | zero => simp [offset_zero]
  | succ r ih =>
    rw [List.take_add_one, List.sum_append, ih (by omega)]
    have : offset per (r + 1) = offset per r + per ⟨r, hr⟩ := offset_succ per ⟨r, hr⟩
    rw [this, List.getElem?_ofFn]
    simp [show r < S from hr]

theorem repeatIndex_ofFn {S : ℕ} (per : Fin S → ℕ) (r : Fin S) {i : ℕ}
    (h : offset per r ≤ i ∧ i < offset per r + per r) :
    (NDArr.repeatIndex (List.ofFn per)).getD i 0 = r := by
  have := (repeatIndex_spec (List.ofFn per) 0).2 r (by simp) i
    (by rw [take_ofFn_sum per r r.2.le]; exact h.1)
    (by rw [take_ofFn_sum per r r.2.le]; simpa using h.2)
  rw [Nat.zero_add] at this
  exact this

theorem repeatAxis_ok {K : Type} (a : NDArr K) {S : ℕ} (per : Fin S → ℕ) {axis : ℕ}
    (h1 : axis < a.shape.length) (h2 : a.shape[axis] = S) :
    a.repeatAxis (List.ofFn per) axis = .ok ⟨a.shape.set axis (∑ r, per r), fun idx =>
        a.get (idx.set axis ((NDArr.repeatIndex (List.ofFn per)).getD (idx.getD axis 0) 0))⟩ := by
  unfold NDArr.repeatAxis
  have hd : a.shape.getD axis 0 = S := by rw [List.getD_eq_getElem _ _ h1, h2]
  have hc : (if (List.ofFn per).length = 1 then
      List.replicate (a.shape.getD axis 0) ((List.ofFn per).getD 0 0) else List.ofFn per) =
      List.ofFn per := by
    rw [hd]
    split
    · rename_i h
      rw [List.length_ofFn] at h
      subst h
      simp
    · rfl
  simp only [h1, if_true]
  rw [hc, hd, if_pos (by simp), List.sum_ofFn]

/-- Expansion of the first `n` of `d` axes. -/
theorem repeatAxes_ok {K : Type} (a : NDArr K) {S : ℕ} (per : Fin S → ℕ) {d : ℕ}
    (hs : a.shape = List.replicate d S) (n : ℕ) (hn : n ≤ d) :
    ∃ b, repeatAxes (List.ofFn per) n a = .ok b ∧
      b.shape = List.replicate n (∑ r, per r) ++ List.replicate (d - n) S ∧
      ∀ idx : List ℕ, idx.length = d → b.get idx = a.get
        ((idx.take n).map (fun i => (NDArr.repeatIndex (List.ofFn per)).getD i 0) ++ idx.drop n) := by
  induction n with
  | zero => exact ⟨a, rfl, by simp [hs], by simp⟩
  | succ n ih =>
    obtain ⟨b, h1, h2, h3⟩ := ih (by omega)
    have hl : n < b.shape.length := by rw [h2]; simp; omega
    have hS : b.shape[n] = S := by
      simp only [h2]
      rw [List.getElem_append_right (by simp)]
      simp
    refine ⟨_, by
      show (repeatAxes (List.ofFn per) n a >>= fun a => a.repeatAxis (List.ofFn per) n) = _
      rw [h1]; exact repeatAxis_ok b per hl hS, ?_, ?_⟩
    · simp only [h2]
      rw [List.set_append_right _ _ (by simp)]
      obtain ⟨k, hk⟩ : ∃ k, d - n = k + 1 := ⟨d - n - 1, by omega⟩
      rw [hk, show d - (n + 1) = k from by omega]
      rw [List.replicate_succ' (n := n), List.append_assoc]
      simp [List.replicate_succ]
    · intro idx hidx
      simp only
      rw [h3 _ (by simpa using hidx)]
      congr 1
      have hni : n < idx.length := by omega
      have e : idx.set n ((NDArr.repeatIndex (List.ofFn per)).getD (idx.getD n 0) 0) =
          idx.take n ++ (NDArr.repeatIndex (List.ofFn per)).getD (idx.getD n 0) 0 ::
            idx.drop (n + 1) := by
        rw [List.set_eq_take_append_cons_drop, if_pos hni]
      have hlen : (idx.take n).length = n := by simp; omega
      rw [e, List.take_left' hlen, List.drop_left' hlen, List.take_succ_eq_append_getElem hni,
        List.map_append, List.append_assoc, List.getD_eq_getElem _ _ hni]
      simp

/-- The expanded array: all dimensions become the number of components, and the entry at
`(i, j, …)` is the entry of the features of `i, j, …`. -/
theorem makeSquareBlocks_ok {K : Type} (a : NDArr K) {S : ℕ} (per : Fin S → ℕ) {d : ℕ}
    (hs : a.shape = List.replicate (d + 1) S) :
    ∃ b, makeSquareBlocks a (List.ofFn per) = .ok b ∧
      b.shape = List.replicate (d + 1) (∑ r, per r) ∧
      ∀ idx : List ℕ, idx.length = d + 1 → b.get idx =
        a.get (idx.map fun i => (NDArr.repeatIndex (List.ofFn per)).getD i 0) := by
  obtain ⟨b, h1, h2, h3⟩ := repeatAxes_ok a per hs (d + 1) le_rfl
  refine ⟨b, ?_, by simpa using h2, fun idx hidx => ?_⟩
  · unfold makeSquareBlocks
    rw [if_neg, hs, List.length_replicate]
    · exact h1
    · rw [hs]
      simp [List.replicate_dedup]
      simp [List.replicate_succ]
  · rw [h3 idx hidx, List.take_of_length_le hidx.le, List.drop_of_length_le hidx.le,
      List.append_nil]

end Flory
