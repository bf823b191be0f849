import Verif.Gen.FreeEnergy

/-! # Lemmas for the transcribed array code -/

set_option linter.unusedSectionVars false

namespace Flory

open XReal

variable {C : ℕ}

namespace Rows

variable {α β γ δ : Type}

theorem zip2_map_map (f : β → γ → δ) (g : α → β) (h : α → γ) (a : Rows α) :
    zip2 f (a.map g) (a.map h) = .ok (a.map fun x => f (g x) (h x)) := by
  unfold zip2
  rw [if_pos (by rfl)]
  rfl

theorem zip2_self (f : α → α → δ) (a : Rows α) : zip2 f a a = .ok (a.map fun x => f x x) := by
  unfold zip2
  rw [if_pos rfl]
  rfl

theorem map_map (f : α → β) (g : β → γ) (a : Rows α) : (a.map f).map g = a.map fun x => g (f x) := rfl

end Rows

theorem broadcastShapes_append (a b : List ℕ) : broadcastShapes (a ++ b) a = some (a ++ b) := by
  induction a with
  | nil => cases b <;> rfl
  | cons x a ih =>
    rw [List.cons_append, broadcastShapes, if_pos (Or.inl rfl), ih]
    rfl

theorem shapeAt_last (s : List ℕ) :
    shapeAt s (-1) = match s.getLast? with
      | none => .error .indexError
      | some d => .ok d := by
  rcases s.eq_nil_or_concat with rfl | ⟨l, d, rfl⟩
  · rfl
  · rw [List.concat_eq_append]
    have h1 : ¬(0 ≤ (-1 : ℤ) ∧ (-1 : ℤ) < ((l ++ [d]).length : ℕ)) := by omega
    have h2 : -(((l ++ [d]).length : ℕ) : ℤ) ≤ -1 ∧ (-1 : ℤ) < 0 := by
      simp only [List.length_append, List.length_singleton]
      omega
    have h3 : ((-1 : ℤ) + ((l ++ [d]).length : ℕ)).toNat = l.length := by
      simp only [List.length_append, List.length_singleton]
      omega
    unfold shapeAt normIndex
    rw [dif_neg h1, dif_pos h2]
    simp only [List.getLast?_append, List.getLast?_singleton, Option.some_or]
    change Except.ok _ = _
    congr 1
    simp

theorem countRows_eq {n : ℕ} (h : Rows (Mat n n XReal)) :
    FreeEnergy.countRows h =
      (Rows.eigvalsh h).map fun e => e.map fun x => ∑ s, if x s < 0 then 1 else 0 := by
  unfold FreeEnergy.countRows Rows.eigvalsh
  split
  · have hc : (fun H : Mat n n XReal => FreeEnergy.countNegative fun i j => (H i j).nanToNum) =
        fun H => ∑ s, if eigvalsh (fun i j => (H i j).nanToNum) s < 0 then 1 else 0 := by
      funext H
      unfold FreeEnergy.countNegative
      rw [Finset.card_filter]
    rw [hc]
    rfl
  · rfl

theorem chemicalPotentials_lead {fe : FreeEnergy C} {phis : NDArr ℝ} {mus : Rows (Vec C XReal)}
    (h : fe.chemicalPotentials phis = .ok mus) : mus.lead ≠ [] := by
  unfold FreeEnergy.chemicalPotentials FreeEnergy.freeEnergyDensity FreeEnergy.jacobian at h
  cases hc : fe.checkVolumeFractions phis with
  | error e =>
    rw [hc] at h
    cases h
  | ok p =>
    rw [hc] at h
    cases h
    change (if p.lead = [] then [1] else p.lead) ≠ []
    split
    · simp
    · assumption

end Flory
