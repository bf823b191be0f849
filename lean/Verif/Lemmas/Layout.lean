import Verif.Spec.Layout
import Mathlib.Tactic.Linarith
import Mathlib.Tactic.Ring
import Mathlib.Tactic.Push

/-! # Lemmas about layouts -/

set_option linter.unusedSectionVars false

namespace Flory

open Spec Lay

theorem rowMajor1 {n : ℕ} {s : ℤ} {dt : DType} :
    RowMajor ⟨[n], [s], dt⟩ ↔ n ≤ 1 ∨ s = 1 := by
  constructor
  · intro h
    by_cases hn : n ≤ 1
    · exact .inl hn
    · have := h [1] (.cons (by omega) .nil)
      simp [address, rank] at this
      exact .inr this
  · rintro h idx hi
    cases hi with
    | @cons i _ idx _ hi ht =>
      cases ht
      rcases h with h | rfl
      · obtain rfl : i = 0 := by omega
        simp [address, rank]
      · simp [address, rank]

theorem rowMajor2 {m n : ℕ} {s t : ℤ} {dt : DType} :
    RowMajor ⟨[m, n], [s, t], dt⟩ ↔ m = 0 ∨ n = 0 ∨ ((m = 1 ∨ s = n) ∧ (n = 1 ∨ t = 1)) := by
  constructor
  · intro h
    by_cases hm : m = 0
    · exact .inl hm
    by_cases hn : n = 0
    · exact .inr (.inl hn)
    refine .inr (.inr ⟨?_, ?_⟩)
    · by_cases h1 : m = 1
      · exact .inl h1
      · have := h [1, 0] (.cons (by omega) (.cons (by omega) .nil))
        simp [address, rank] at this
        exact .inr this
    · by_cases h1 : n = 1
      · exact .inl h1
      · have := h [0, 1] (.cons (by omega) (.cons (by omega) .nil))
        simp [address, rank] at this
        exact .inr this
  · rintro h idx hi
    cases hi with
    | @cons i _ idx _ hi ht =>
      cases ht with
      | @cons j _ idx _ hj ht =>
        cases ht
        rcases h with rfl | rfl | ⟨h1, h2⟩
        · omega
        · omega
        · have e1 : s * (i : ℤ) = n * i := by
            rcases h1 with rfl | rfl
            · obtain rfl : i = 0 := by omega
              simp
            · rfl
          have e2 : t * (j : ℤ) = j := by
            rcases h2 with rfl | rfl
            · obtain rfl : j = 0 := by omega
              simp
            · simp
          simp [address, rank, e1, e2, mul_comm]

/-- A copy of an array with one axis is contiguous. -/
theorem copy1 (n : ℕ) (l : List ℤ) (dt : DType) : (Lay.mk [n] l dt).copy = ⟨[n], [1], dt⟩ := by
  simp [Lay.copy, keepStrides, cStrides]

/-- A copy of an array with two axes. -/
theorem copy2 (m n : ℕ) (s t : ℤ) (dt : DType) :
    ∃ s' t', (Lay.mk [m, n] [s, t] dt).copy = ⟨[m, n], [s', t'], dt⟩ ∧
      (0 < m → 0 < n → s' ≠ 0 ∧ t' ≠ 0) ∧
      (RowMajor ⟨[m, n], [s', t'], dt⟩ ↔ m ≤ 1 ∨ n ≤ 1 ∨ |t| ≤ |s|) := by
  classical
  unfold Lay.copy keepStrides
  by_cases hc : (Lay.mk [m, n] [s, t] dt).CContig
  · rw [if_pos (.inr hc)]
    refine ⟨n, 1, by simp [cStrides], fun _ h => ⟨by omega, by simp⟩, ?_⟩
    refine ⟨fun _ => ?_, fun _ => rowMajor2.mpr (.inr (.inr ⟨.inr rfl, .inr rfl⟩))⟩
    rcases hc with h | h
    · simp at h
      omega
    · simp [Steps] at h
      by_cases hm : m ≤ 1
      · exact .inl hm
      by_cases hn : n ≤ 1
      · exact .inr (.inl hn)
      have h1 : t = 1 := h.1.resolve_left (by omega)
      have h2 : s = n := h.2.resolve_left (by omega)
      subst h1 h2
      refine .inr (.inr ?_)
      simp
      omega
  · rw [if_neg (by simp [hc])]
    by_cases hf : (Lay.mk [m, n] [s, t] dt).FContig
    · rw [if_pos hf]
      refine ⟨1, m, by simp [fStrides], fun h _ => ⟨by simp, by omega⟩, ?_⟩
      have hz : ¬(m = 0 ∨ n = 0) := fun h => hc (.inl (by simp; omega))
      have hs : (m = 1 ∨ s = 1) ∧ (n = 1 ∨ t = m) := by
        rcases hf with h | h
        · exact absurd (by simpa using h) (by omega)
        · simpa [Steps] using h
      rw [rowMajor2]
      constructor
      · rintro (h | h | ⟨h1, h2⟩)
        · omega
        · omega
        · rcases h1 with h1 | h1
          · omega
          · exact .inr (.inl (by omega))
      · rintro (h | h | h)
        · exact .inr (.inr ⟨.inl (by omega), .inr (by omega)⟩)
        · exact .inr (.inr ⟨.inr (by omega), .inl (by omega)⟩)
        · by_cases hm : m = 1
          · exact .inr (.inr ⟨.inl hm, .inr (by omega)⟩)
          by_cases hn : n = 1
          · exact .inr (.inr ⟨.inr (by omega), .inl hn⟩)
          exfalso
          rw [hs.1.resolve_left hm, hs.2.resolve_left hn] at h
          simp at h
          omega
    · rw [if_neg hf]
      have hz : ¬(m = 0 ∨ n = 0) := fun h => hc (.inl (by simp; omega))
      by_cases hst : |t| ≤ |s|
      · refine ⟨n, 1, ?_, fun _ h => ⟨by omega, by simp⟩, ?_⟩
        · have : |t| < |s| ∨ |t| = |s| := lt_or_eq_of_le hst
          have h2 : ¬|s| < |t| := not_lt.mpr hst
          simp [List.range_succ, Finset.prod_range_succ, this, h2]
        · exact ⟨fun _ => .inr (.inr hst), fun _ => rowMajor2.mpr (.inr (.inr ⟨.inr rfl, .inr rfl⟩))⟩
      · refine ⟨1, m, ?_, fun h _ => ⟨by simp, by omega⟩, ?_⟩
        · have h1 : |s| < |t| := not_le.mp hst
          have h2 : ¬|t| < |s| := not_lt.mpr h1.le
          have h3 : ¬|t| = |s| := h1.ne'
          simp [List.range_succ, Finset.prod_range_succ, h1, h2, h3]
        · rw [rowMajor2]
          constructor
          · rintro (h | h | ⟨h1, h2⟩)
            · omega
            · omega
            · rcases h1 with h1 | h1
              · omega
              · exact .inr (.inl (by omega))
          · rintro (h | h | h)
            · exact .inr (.inr ⟨.inl (by omega), .inr (by omega)⟩)
            · exact .inr (.inr ⟨.inr (by omega), .inl (by omega)⟩)
            · exact absurd h hst

/-- `0.5 * (a + a.T)` is in C order for every layout of `a`. -/
theorem symmetrized_eq (n : ℕ) (s t : ℤ) (dt : DType) :
    (Lay.mk [n, n] [s, t] dt).symmetrized n = ⟨[n, n], [(n : ℤ), 1], halfType dt⟩ := by
  have h : exchanged [(s, t), (t, s)] true false = false := by
    unfold exchanged exchanged exchanged
    split_ifs <;> first | rfl | omega
  unfold symmetrized ewise
  simp only [transpose, List.map_cons, List.map_nil, List.getD_cons_zero, List.getD_cons_succ, List.reverse_cons,
    List.reverse_nil, List.nil_append, List.cons_append, h]
  by_cases hn : n = 0
  · simp [exchanged, hn]
  · have h1 : exchanged [((n : ℤ), 1)] true false = false := by
      have : |(1 : ℤ)| ≤ |(n : ℤ)| := by simp; omega
      simp [exchanged]
      omega
    simp [h1]

theorem stretch_length : ∀ (r : List (ℕ × ℤ)) (shape : List ℕ) {l : List ℤ}, stretch r shape = .ok l →
    l.length = shape.length
  | [], shape, l, h => by
    simp only [stretch, Except.ok.injEq] at h
    simp [← h]
  | _ :: _, [], l, h => by simp [stretch] at h
  | (d, s) :: r, t :: shape, l, h => by
    unfold stretch at h
    have key : ∀ x : ℤ, (do return x :: (← stretch r shape) : Py (List ℤ)) = .ok l → l.length = (t :: shape).length := by
      intro x h
      cases hs : stretch r shape with
      | error e => rw [hs] at h; cases h
      | ok l' =>
        rw [hs] at h
        cases h
        simp [stretch_length r shape hs]
    split_ifs at h
    · exact key _ h
    · exact key _ h

theorem stretch_axes : ∀ (r : List (ℕ × ℤ)) (shape : List ℕ) {l : List ℤ}, stretch r shape = .ok l →
    r.length ≤ shape.length
  | [], shape, l, _ => by simp
  | _ :: _, [], l, h => by simp [stretch] at h
  | (d, s) :: r, t :: shape, l, h => by
    unfold stretch at h
    have key : ∀ x : ℤ, (do return x :: (← stretch r shape) : Py (List ℤ)) = .ok l →
        ((d, s) :: r).length ≤ (t :: shape).length := by
      intro x h
      cases hs : stretch r shape with
      | error e => rw [hs] at h; cases h
      | ok l' => simpa using stretch_axes r shape hs
    split_ifs at h
    · exact key _ h
    · exact key _ h

theorem broadcast_axes {a b : Lay} {shape : List ℕ} (h : a.broadcastTo shape = .ok b)
    (hl : a.strides.length = a.shape.length) : a.shape.length ≤ shape.length := by
  unfold broadcastTo at h
  cases hs : stretch (a.shape.zip a.strides).reverse shape.reverse with
  | error e => rw [hs] at h; cases h
  | ok l => simpa [hl] using stretch_axes _ _ hs

theorem cStrides_length : ∀ shape, (cStrides shape).length = shape.length
  | [] => rfl
  | _ :: r => by simp [cStrides, cStrides_length r]

theorem fStrides_length : ∀ shape k, (fStrides k shape).length = shape.length
  | [], _ => rfl
  | _ :: r, _ => by simp [fStrides, fStrides_length r]

theorem copy_axes (a : Lay) : a.copy.strides.length = a.copy.shape.length := by
  unfold Lay.copy keepStrides
  split_ifs
  · simp [cStrides_length]
  · simp [fStrides_length]
  · simp

theorem broadcast_ok {a b : Lay} {shape : List ℕ} (h : a.broadcastTo shape = .ok b) :
    b.shape = shape ∧ b.dtype = a.dtype ∧ b.strides.length = shape.length := by
  unfold broadcastTo at h
  cases hs : stretch (a.shape.zip a.strides).reverse shape.reverse with
  | error e => rw [hs] at h; cases h
  | ok l =>
    rw [hs] at h
    cases h
    refine ⟨rfl, rfl, ?_⟩
    simpa using stretch_length _ _ hs

theorem broadcast1 {a b : Lay} {n : ℕ} (h : a.broadcastTo [n] = .ok b) : ∃ s, b = ⟨[n], [s], a.dtype⟩ := by
  obtain ⟨h1, h2, h3⟩ := broadcast_ok h
  obtain ⟨bs, bt, bd⟩ := b
  obtain ⟨s, rfl⟩ := List.length_eq_one_iff.mp h3
  exact ⟨s, by simp_all⟩

theorem broadcast2 {a b : Lay} {m n : ℕ} (h : a.broadcastTo [m, n] = .ok b) :
    ∃ s t, b = ⟨[m, n], [s, t], a.dtype⟩ := by
  obtain ⟨h1, h2, h3⟩ := broadcast_ok h
  obtain ⟨bs, bt, bd⟩ := b
  obtain ⟨s, t, rfl⟩ := List.length_eq_two.mp h3
  exact ⟨s, t, by simp_all⟩

theorem atleast1d_dtype (a : Lay) : a.atleast1d.dtype = a.dtype := by
  unfold atleast1d
  split_ifs <;> rfl

theorem return_ok {α β : Type} {x : Py α} {f : α → β} {b : β} (h : (do return f (← x) : Py β) = .ok b) :
    ∃ a, x = .ok a ∧ b = f a := by
  cases x with
  | error e => cases h
  | ok a => cases h; exact ⟨a, rfl, rfl⟩

end Flory
