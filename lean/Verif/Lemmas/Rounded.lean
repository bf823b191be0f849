import Verif.Lemmas.Double
import Mathlib.Algebra.Order.BigOperators.Group.Finset
import Mathlib.Algebra.BigOperators.Fin

/-! # Propagation of rounding errors -/

set_option linter.unusedSectionVars false

namespace Flory

open Spec

variable {u : ℝ} {rnd : ℝ → ℝ}

namespace Spec.Rounds

variable (h : Rounds rnd u)
include h

theorem zero : rnd 0 = 0 := by
  have := h.err 0
  simpa using this

theorem nonneg_of {x : ℝ} (hx : 0 ≤ x) : 0 ≤ rnd x := by
  have := h.mono hx
  rwa [h.zero] at this

theorem pos_of {x : ℝ} (hx : 0 < x) : 0 < rnd x := by
  have := (abs_le.mp (h.err x)).1
  rw [abs_of_pos hx] at this
  nlinarith [h.lt_one]

theorem compl_pos : 0 < 1 - u := by linarith [h.lt_one]

theorem compl_le : 1 - u ≤ 1 := by linarith [h.nonneg]

theorem pow_pos' (n : ℕ) : 0 < (1 - u) ^ n := pow_pos h.compl_pos n

theorem pow_le (n : ℕ) : (1 - u) ^ n ≤ 1 := pow_le_one₀ h.compl_pos.le h.compl_le

theorem within {x : ℝ} (hx : 0 ≤ x) : UpTo u 1 (rnd x) x := by
  have := abs_le.mp (h.err x)
  rw [abs_of_nonneg hx] at this
  have h0 := h.nonneg
  have h1 := h.lt_one
  refine ⟨?_, ?_⟩ <;> rw [pow_one]
  · have e : rnd x * (1 - u) ≤ (x + u * x) * (1 - u) :=
      mul_le_mul_of_nonneg_right (by linarith) h.compl_pos.le
    nlinarith [mul_nonneg (mul_nonneg h0 h0) hx]
  · linarith

end Spec.Rounds

namespace Spec.UpTo

variable (h : Rounds rnd u) {n m : ℕ} {x y z x' y' : ℝ}

theorem refl (x : ℝ) : UpTo u 0 x x := by simp [UpTo]

theorem symm (w : UpTo u n x y) : UpTo u n y x := ⟨w.2, w.1⟩

include h

theorem trans (w : UpTo u n x y) (v : UpTo u m y z) : UpTo u (n + m) x z := by
  refine ⟨?_, ?_⟩
  · rw [pow_add, ← mul_assoc]
    exact (mul_le_mul_of_nonneg_right w.1 (h.pow_pos' m).le).trans v.1
  · rw [add_comm, pow_add, ← mul_assoc]
    exact (mul_le_mul_of_nonneg_right v.2 (h.pow_pos' n).le).trans w.2

theorem mono (w : UpTo u n x y) (hnm : n ≤ m) (hx : 0 ≤ x) (hy : 0 ≤ y) : UpTo u m x y := by
  have : (1 - u) ^ m ≤ (1 - u) ^ n := pow_le_pow_of_le_one h.compl_pos.le h.compl_le hnm
  exact ⟨(mul_le_mul_of_nonneg_left this hx).trans w.1, (mul_le_mul_of_nonneg_left this hy).trans w.2⟩

omit h in
theorem add (w : UpTo u n x y) (v : UpTo u n x' y') : UpTo u n (x + x') (y + y') := by
  refine ⟨?_, ?_⟩
  · rw [add_mul]; exact add_le_add w.1 v.1
  · rw [add_mul]; exact add_le_add w.2 v.2

theorem nonneg_left (w : UpTo u n x y) (hy : 0 ≤ y) : 0 ≤ x :=
  (mul_nonneg hy (h.pow_pos' n).le).trans w.2

theorem pos_left (w : UpTo u n x y) (hy : 0 < y) : 0 < x :=
  (mul_pos hy (h.pow_pos' n)).trans_le w.2

theorem mul (w : UpTo u n x y) (v : UpTo u m x' y') (hx : 0 ≤ x) (hy : 0 ≤ y) (hx' : 0 ≤ x')
    (hy' : 0 ≤ y') : UpTo u (n + m) (x * x') (y * y') := by
  have p1 := (h.pow_pos' n).le
  have p2 := (h.pow_pos' m).le
  refine ⟨?_, ?_⟩
  · rw [pow_add, mul_mul_mul_comm]
    exact mul_le_mul w.1 v.1 (mul_nonneg hx' p2) hy
  · rw [pow_add, mul_mul_mul_comm]
    exact mul_le_mul w.2 v.2 (mul_nonneg hy' p2) hx

omit h in
theorem inv (w : UpTo u n x y) (hx : 0 < x) (hy : 0 < y) : UpTo u n x⁻¹ y⁻¹ := by
  refine ⟨?_, ?_⟩
  · rw [← div_eq_inv_mul, div_le_iff₀ hx, ← div_eq_inv_mul, le_div_iff₀ hy, mul_comm]; exact w.2
  · rw [← div_eq_inv_mul, div_le_iff₀ hy, ← div_eq_inv_mul, le_div_iff₀ hx, mul_comm]; exact w.1

theorem div (w : UpTo u n x y) (v : UpTo u m x' y') (hx : 0 ≤ x) (hy : 0 ≤ y) (hx' : 0 < x')
    (hy' : 0 < y') : UpTo u (n + m) (x / x') (y / y') := by
  rw [div_eq_mul_inv, div_eq_mul_inv]
  exact w.mul h (v.inv hx' hy') hx hy (inv_pos.mpr hx').le (inv_pos.mpr hy').le

/-- One more rounding. -/
theorem rounded (w : UpTo u n x y) (hx : 0 ≤ x) : UpTo u (n + 1) (rnd x) y := by
  rw [add_comm]; exact (h.within hx).trans h w

omit h in
theorem sum {ι : Type} {s : Finset ι} {a b : ι → ℝ} (w : ∀ i ∈ s, UpTo u n (a i) (b i)) :
    UpTo u n (∑ i ∈ s, a i) (∑ i ∈ s, b i) := by
  refine ⟨?_, ?_⟩ <;> rw [Finset.sum_mul]
  · exact Finset.sum_le_sum fun i hi => (w i hi).1
  · exact Finset.sum_le_sum fun i hi => (w i hi).2

end Spec.UpTo

/-- Sums of numbers that are not negative, in any order. -/
theorem AddedUp.within (h : Rounds rnd u) {l : List ℝ} {s : ℝ} (hs : AddedUp rnd l s)
    (h0 : ∀ x ∈ l, 0 ≤ x) : 0 ≤ s ∧ UpTo u l.length s l.sum := by
  induction hs with
  | nil => exact ⟨le_rfl, by simpa using UpTo.refl 0⟩
  | one x =>
    have hx : 0 ≤ x := h0 x (by simp)
    exact ⟨hx, by simpa using (UpTo.refl (u := u) x).mono h (Nat.zero_le 1) hx hx⟩
  | start x =>
    have hx : 0 ≤ x := h0 x (by simp)
    rw [zero_add]
    exact ⟨h.nonneg_of hx, by simpa using h.within hx⟩
  | @add l l' s s' hl hl' _ _ ih ih' =>
    obtain ⟨p, w⟩ := ih fun x hx => h0 x (by simp [hx])
    obtain ⟨p', w'⟩ := ih' fun x hx => h0 x (by simp [hx])
    have e1 : 0 < l.length := List.length_pos_iff.mpr hl
    have e2 : 0 < l'.length := List.length_pos_iff.mpr hl'
    have q : 0 ≤ l.sum := List.sum_nonneg fun x hx => h0 x (by simp [hx])
    have q' : 0 ≤ l'.sum := List.sum_nonneg fun x hx => h0 x (by simp [hx])
    refine ⟨h.nonneg_of (by linarith), ?_⟩
    rw [List.sum_append, List.length_append]
    have a := ((w.mono h (le_max_left l.length l'.length) p q).add
      (w'.mono h (le_max_right l.length l'.length) p' q')).rounded h (by linarith)
    exact a.mono h (by omega) (h.nonneg_of (by linarith)) (by linarith)
  | @perm l l' s hp _ ih =>
    obtain ⟨p, w⟩ := ih fun x hx => h0 x (hp.subset hx)
    rw [hp.length_eq, hp.sum_eq] at w
    exact ⟨p, w⟩

/-- Inner products of numbers that are not negative, in any order. -/
theorem DottedUp.within (h : Rounds rnd u) {l : List (ℝ × ℝ)} {s : ℝ} (hs : DottedUp rnd l s)
    (h0 : ∀ x ∈ l, 0 ≤ x.1 ∧ 0 ≤ x.2) :
    0 ≤ s ∧ UpTo u (l.length + 1) s (l.map fun p => p.1 * p.2).sum := by
  have hn : ∀ l : List (ℝ × ℝ), (∀ x ∈ l, 0 ≤ x.1 ∧ 0 ≤ x.2) → 0 ≤ (l.map fun p => p.1 * p.2).sum := by
    intro l hl
    refine List.sum_nonneg fun x hx => ?_
    obtain ⟨p, hp, rfl⟩ := List.mem_map.mp hx
    exact mul_nonneg (hl p hp).1 (hl p hp).2
  induction hs with
  | nil => exact ⟨le_rfl, by simpa using (UpTo.refl (u := u) 0).mono h (Nat.zero_le _) le_rfl le_rfl⟩
  | one x y =>
    have hx : 0 ≤ x * y := mul_nonneg (h0 (x, y) (by simp)).1 (h0 (x, y) (by simp)).2
    exact ⟨h.nonneg_of hx, by simpa using (h.within hx).mono h (by norm_num) (h.nonneg_of hx) hx⟩
  | start x y =>
    have hx : 0 ≤ x * y := mul_nonneg (h0 (x, y) (by simp)).1 (h0 (x, y) (by simp)).2
    rw [zero_add]
    exact ⟨h.nonneg_of (h.nonneg_of hx), by simpa using (h.within hx).rounded h (h.nonneg_of hx)⟩
  | @add l l' s s' hl hl' _ _ ih ih' =>
    have i0 : ∀ x ∈ l, 0 ≤ x.1 ∧ 0 ≤ x.2 := fun x hx => h0 x (by simp [hx])
    have i0' : ∀ x ∈ l', 0 ≤ x.1 ∧ 0 ≤ x.2 := fun x hx => h0 x (by simp [hx])
    obtain ⟨p, w⟩ := ih i0
    obtain ⟨p', w'⟩ := ih' i0'
    have e1 : 0 < l.length := List.length_pos_iff.mpr hl
    have e2 : 0 < l'.length := List.length_pos_iff.mpr hl'
    have q := hn l i0
    have q' := hn l' i0'
    refine ⟨h.nonneg_of (by linarith), ?_⟩
    rw [List.map_append, List.sum_append, List.length_append]
    have a := ((w.mono h (le_max_left (l.length + 1) (l'.length + 1)) p q).add
      (w'.mono h (le_max_right (l.length + 1) (l'.length + 1)) p' q')).rounded h (by linarith)
    exact a.mono h (by omega) (h.nonneg_of (by linarith)) (by linarith)
  | @fma l s x y _ ih =>
    have i0 : ∀ x ∈ l, 0 ≤ x.1 ∧ 0 ≤ x.2 := fun x hx => h0 x (by simp [hx])
    obtain ⟨p, w⟩ := ih i0
    have hx : 0 ≤ x * y := mul_nonneg (h0 (x, y) (by simp)).1 (h0 (x, y) (by simp)).2
    refine ⟨h.nonneg_of (by linarith), ?_⟩
    rw [List.map_cons, List.sum_cons, List.length_cons, add_comm (x * y)]
    have a := (w.add ((UpTo.refl (u := u) (x * y)).mono h (Nat.zero_le (l.length + 1)) hx hx)).rounded h
      (by linarith)
    exact a
  | @perm l l' s hp _ ih =>
    obtain ⟨p, w⟩ := ih fun x hx => h0 x (hp.subset hx)
    rw [hp.length_eq, (hp.map _).sum_eq] at w
    exact ⟨p, w⟩

/-- Left-to-right sums are sums in some order. -/
theorem seqSum_added (rnd : ℝ → ℝ) (l : List ℝ) : AddedUp rnd l (seqSum rnd l) := by
  have key : ∀ (l l₀ : List ℝ) (s : ℝ), l₀ ≠ [] → AddedUp rnd l₀ s →
      AddedUp rnd (l₀ ++ l) (l.foldl (fun s x => rnd (s + x)) s) := by
    intro l
    induction l with
    | nil => intro l₀ s _ h; simpa using h
    | cons x l ih =>
      intro l₀ s hne h
      have := ih (l₀ ++ [x]) (rnd (s + x)) (by simp) (.add hne (by simp) h (.one x))
      simpa using this
  match l with
  | [] => exact .nil
  | x :: l => exact key l [x] _ (by simp) (.start x)

/-- Left-to-right inner products are inner products in some order. -/
theorem seqDot_dotted (rnd : ℝ → ℝ) (l : List (ℝ × ℝ)) :
    DottedUp rnd l (seqSum rnd (l.map fun p => rnd (p.1 * p.2))) := by
  have key : ∀ (l l₀ : List (ℝ × ℝ)) (s : ℝ), l₀ ≠ [] → DottedUp rnd l₀ s →
      DottedUp rnd (l₀ ++ l) ((l.map fun p => rnd (p.1 * p.2)).foldl (fun s x => rnd (s + x)) s) := by
    intro l
    induction l with
    | nil => intro l₀ s _ h; simpa using h
    | cons p l ih =>
      intro l₀ s hne h
      have := ih (l₀ ++ [p]) (rnd (s + rnd (p.1 * p.2))) (by simp)
        (.add hne (by simp) h (.one p.1 p.2))
      simpa using this
  match l with
  | [] => exact .nil
  | p :: l => exact key l [p] _ (by simp) (.start p.1 p.2)

/-- Doubles are float arithmetic in the sense of the specification. -/
theorem double_ok : FpOk Fp.double (2⁻¹ ^ 53) :=
  ⟨double_rounds, seqSum_added _, seqSum_added _, seqDot_dotted _⟩

end Flory
