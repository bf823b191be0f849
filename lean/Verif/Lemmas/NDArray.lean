import Verif.Model.Utilities
import Verif.Lemmas.Loops

/-! # Broadcasting of arrays -/

set_option linter.unusedSectionVars false

namespace Flory

variable {K : Type}

theorem zipWith_same {idx s : List ℕ} (h : List.Forall₂ (· < ·) idx s) :
    List.zipWith (fun d i => if d = 1 then 0 else i) s idx = idx := by
  induction h with
  | nil => rfl
  | cons h _ ih =>
    rw [List.zipWith_cons_cons, ih]
    congr 1
    split
    · omega
    · rfl

/-- Broadcasting to the same shape changes nothing. -/
theorem broadcastTo_same (a : NDArr K) {s : List ℕ} (h : a.shape = s) :
    ∃ b, a.broadcastTo s = .ok b ∧ b.shape = s ∧
      ∀ idx, List.Forall₂ (· < ·) idx s → b.get idx = a.get idx := by
  subst h
  unfold NDArr.broadcastTo
  rw [if_pos]
  · refine ⟨_, rfl, rfl, fun idx hi => ?_⟩
    show a.get _ = _
    rw [Nat.sub_self, List.drop_zero, zipWith_same hi]
  · refine ⟨le_rfl, ?_⟩
    rw [Nat.sub_self, List.drop_zero]
    exact List.forall₂_same.mpr fun _ _ => Or.inl rfl

/-- Broadcasting a number always works. -/
theorem broadcastTo_scalar (x : K) {s : List ℕ} (h : s ≠ []) :
    ∃ b, (NDArr.scalar x).atleast1d.broadcastTo s = .ok b ∧ b.shape = s ∧ ∀ idx, b.get idx = x := by
  unfold NDArr.broadcastTo
  have hs : (NDArr.scalar x).atleast1d.shape = [1] := rfl
  rw [if_pos]
  · exact ⟨_, rfl, rfl, fun idx => rfl⟩
  · rw [hs]
    have hl : 1 ≤ s.length := List.length_pos_iff.mpr h
    refine ⟨by simpa using hl, ?_⟩
    have : (s.drop (s.length - [1].length)).length = 1 := by
      rw [List.length_drop, List.length_singleton]; omega
    obtain ⟨y, hy⟩ := List.length_eq_one_iff.mp this
    rw [hy]
    exact .cons (Or.inr rfl) .nil

theorem atleast1d_of_ne {a : NDArr K} (h : a.shape ≠ []) : a.atleast1d = a := by
  unfold NDArr.atleast1d
  split
  · next e => exact absurd e h
  · rfl

theorem ofMat_get [Inhabited K] {r c : ℕ} (a : Mat r c K) (i : Fin r) (j : Fin c) :
    (NDArr.ofMat a).get [i, j] = a i j := by
  simp [NDArr.ofMat]

theorem ofVec_get [Inhabited K] {n : ℕ} (a : Vec n K) (i : Fin n) :
    (NDArr.ofVec a).get [i] = a i := by
  simp [NDArr.ofVec]

theorem convertAndBroadcast_mat [Inhabited K] {r c : ℕ} (a : Mat r c K) :
    ∃ b, convertAndBroadcast (NDArr.ofMat a) [r, c] = .ok b ∧ b.toMat r c = a := by
  unfold convertAndBroadcast
  rw [atleast1d_of_ne (by simp [NDArr.ofMat])]
  obtain ⟨b, h1, -, h3⟩ := broadcastTo_same (NDArr.ofMat a) (s := [r, c]) rfl
  refine ⟨b, h1, ?_⟩
  funext i j
  exact (h3 [i, j] (.cons i.2 (.cons j.2 .nil))).trans (ofMat_get a i j)

theorem convertAndBroadcast_vec [Inhabited K] {n : ℕ} (a : Vec n K) :
    ∃ b, convertAndBroadcast (NDArr.ofVec a) [n] = .ok b ∧ b.toVec n = a := by
  unfold convertAndBroadcast
  rw [atleast1d_of_ne (by simp [NDArr.ofVec])]
  obtain ⟨b, h1, -, h3⟩ := broadcastTo_same (NDArr.ofVec a) (s := [n]) rfl
  refine ⟨b, h1, ?_⟩
  funext i
  exact (h3 [i] (.cons i.2 .nil)).trans (ofVec_get a i)

theorem convertAndBroadcast_scalar (x : K) (s : List ℕ) (h : s ≠ []) :
    ∃ b, convertAndBroadcast (NDArr.scalar x) s = .ok b ∧ b.shape = s ∧ ∀ idx, b.get idx = x :=
  broadcastTo_scalar x h

end Flory
