import Verif.Lemmas.FloatRounding

/-! # A calculus of rounding errors -/

set_option linter.unusedSectionVars false

namespace Flory

open Spec

/-- `x` is `y` up to `n` roundings, relative to the magnitude `T` of the terms of `y`. -/
structure Err (u : ℝ) (n : ℕ) (x y T : ℝ) : Prop where
  err : |x - y| ≤ ((1 + u) ^ n - 1) * T
  size : |y| ≤ T

namespace Err

variable {u x y T x' y' T' : ℝ} {n k : ℕ}

theorem refl (x : ℝ) : Err u 0 x x |x| := ⟨by simp, le_rfl⟩

theorem refl' (h : |x| ≤ T) : Err u 0 x x T := ⟨by simp, h⟩

theorem T_nonneg (h : Err u n x y T) : 0 ≤ T := (abs_nonneg y).trans h.size

section

variable (hu : 0 ≤ u)
include hu

theorem pow_ge (n : ℕ) : 1 ≤ (1 + u) ^ n := one_le_pow₀ (by linarith)

theorem mono (h : Err u n x y T) (hn : n ≤ k) (hT : T ≤ T') : Err u k x y T' := by
  refine ⟨h.err.trans (mul_le_mul ?_ hT h.T_nonneg ?_), h.size.trans hT⟩
  · have := pow_le_pow_right₀ (show 1 ≤ 1 + u by linarith) hn
    linarith
  · linarith [pow_ge hu k]

theorem abs_le (h : Err u n x y T) : |x| ≤ (1 + u) ^ n * T := by
  have : |x| ≤ |x - y| + |y| := by
    calc |x| = |(x - y) + y| := by ring_nf
      _ ≤ _ := abs_add_le _ _
  linarith [h.err, h.size]

theorem add (h : Err u n x y T) (h' : Err u n x' y' T') : Err u n (x + x') (y + y') (T + T') := by
  refine ⟨?_, (abs_add_le _ _).trans (add_le_add h.size h'.size)⟩
  calc |x + x' - (y + y')| = |(x - y) + (x' - y')| := by ring_nf
    _ ≤ |x - y| + |x' - y'| := abs_add_le _ _
    _ ≤ _ := by linarith [h.err, h'.err]

theorem neg (h : Err u n x y T) : Err u n (-x) (-y) T := by
  refine ⟨?_, by rw [abs_neg]; exact h.size⟩
  rw [show -x - -y = -(x - y) by ring, abs_neg]
  exact h.err

theorem sub (h : Err u n x y T) (h' : Err u n x' y' T') : Err u n (x - x') (y - y') (T + T') := by
  rw [sub_eq_add_neg, sub_eq_add_neg]
  exact add hu h (neg hu h')

theorem mul (h : Err u n x y T) (h' : Err u k x' y' T') : Err u (n + k) (x * x') (y * y') (T * T') := by
  have e1 := abs_le hu h'
  refine ⟨?_, ?_⟩
  · calc |x * x' - y * y'| = |(x - y) * x' + y * (x' - y')| := by ring_nf
      _ ≤ |(x - y) * x'| + |y * (x' - y')| := abs_add_le _ _
      _ = |x - y| * |x'| + |y| * |x' - y'| := by rw [abs_mul, abs_mul]
      _ ≤ (((1 + u) ^ n - 1) * T) * ((1 + u) ^ k * T') + T * (((1 + u) ^ k - 1) * T') := by
          refine add_le_add (mul_le_mul h.err e1 (abs_nonneg _) ?_) (mul_le_mul h.size h'.err (abs_nonneg _) h.T_nonneg)
          exact mul_nonneg (by linarith [pow_ge hu n]) h.T_nonneg
      _ = _ := by rw [pow_add]; ring
  · rw [abs_mul]
    exact mul_le_mul h.size h'.size (abs_nonneg _) h.T_nonneg

theorem div (h : Err u n x y T) (c : ℝ) : Err u n (x / c) (y / c) (T / |c|) := by
  refine ⟨?_, ?_⟩
  · rw [← sub_div, abs_div, ← mul_div_assoc]
    exact div_le_div_of_nonneg_right h.err (abs_nonneg _)
  · rw [abs_div]
    exact div_le_div_of_nonneg_right h.size (abs_nonneg _)

theorem sum {ι : Type} {s : Finset ι} {x y T : ι → ℝ} (h : ∀ i ∈ s, Err u n (x i) (y i) (T i)) :
    Err u n (∑ i ∈ s, x i) (∑ i ∈ s, y i) (∑ i ∈ s, T i) := by
  refine ⟨?_, (Finset.abs_sum_le_sum_abs _ _).trans (Finset.sum_le_sum fun i hi => (h i hi).size)⟩
  rw [← Finset.sum_sub_distrib, Finset.mul_sum]
  exact (Finset.abs_sum_le_sum_abs _ _).trans (Finset.sum_le_sum fun i hi => (h i hi).err)

theorem trans (h : Err u n x y T) {z : ℝ} (h' : Err u k y z T) : Err u (n + k) x z T := by
  have hT := h.T_nonneg
  refine ⟨?_, h'.size⟩
  have h1 : |x - z| ≤ |x - y| + |y - z| := abs_sub_le _ _ _
  have h2 : ((1 + u) ^ n - 1) + ((1 + u) ^ k - 1) ≤ (1 + u) ^ (n + k) - 1 := by
    rw [pow_add]
    nlinarith [pow_ge hu n, pow_ge hu k]
  have := mul_le_mul_of_nonneg_right h2 hT
  linarith [h.err, h'.err]

end

variable {rnd : ℝ → ℝ} (hr : Rounds rnd u)
include hr

theorem rounded (h : Err u n x y T) : Err u (n + 1) (rnd x) y T := by
  have hu := hr.nonneg
  refine ⟨?_, h.size⟩
  have h1 : |rnd x - y| ≤ |rnd x - x| + |x - y| := abs_sub_le _ _ _
  have h2 := hr.err x
  have h3 := mul_le_mul_of_nonneg_left (abs_le hu h) hu
  have h4 := h.err
  rw [pow_succ]
  linarith

end Err

section Ops

variable {o : Floats ℝ} {rnd : ℝ → ℝ} {u : ℝ} {C S M n : ℕ} (h : RoundedOps o rnd u)
include h

theorem err_add {n : ℕ} {x y T x' y' T' : ℝ} (h1 : Err u n x y T) (h2 : Err u n x' y' T') :
    Err u (n + 1) (o.add x x') (y + y') (T + T') := by
  rw [h.add]; exact (Err.add h.rounds.nonneg h1 h2).rounded h.rounds

theorem err_sub {n : ℕ} {x y T x' y' T' : ℝ} (h1 : Err u n x y T) (h2 : Err u n x' y' T') :
    Err u (n + 1) (o.sub x x') (y - y') (T + T') := by
  rw [h.sub]; exact (Err.sub h.rounds.nonneg h1 h2).rounded h.rounds

theorem err_mul {n k : ℕ} {x y T x' y' T' : ℝ} (h1 : Err u n x y T) (h2 : Err u k x' y' T') :
    Err u (n + k + 1) (o.mul x x') (y * y') (T * T') := by
  rw [h.mul]; exact (Err.mul h.rounds.nonneg h1 h2).rounded h.rounds

theorem err_div {n : ℕ} {x y T c : ℝ} (hc : c ≠ 0) (h1 : Err u n x y T) :
    Err u (n + 1) (o.div x c) (y / c) (T / |c|) := by
  rw [h.div _ _ hc]; exact (Err.div h.rounds.nonneg h1 c).rounded h.rounds

/-- Loops that add to an accumulator. -/
theorem err_loop_add {a b A : ℝ} (h0 : Err u n a b A) {x y T : Fin C → ℝ}
    (hx : ∀ i, Err u n (x i) (y i) (T i)) :
    Err u (n + C) (forRange C a fun i a => o.add a (x i)) (b + ∑ i, y i) (A + ∑ i, T i) := by
  have hu := h.rounds.nonneg
  induction C with
  | zero => simpa using h0
  | succ k ih =>
    rw [forRange_succ, Fin.sum_univ_castSucc, Fin.sum_univ_castSucc, ← add_assoc, ← add_assoc, ← add_assoc]
    exact err_add h (ih fun i => hx _) ((hx _).mono hu (by omega) le_rfl)

/-- Loops that subtract from an accumulator. -/
theorem err_loop_sub {a b A : ℝ} (h0 : Err u n a b A) {x y T : Fin C → ℝ}
    (hx : ∀ i, Err u n (x i) (y i) (T i)) :
    Err u (n + C) (forRange C a fun i a => o.sub a (x i)) (b - ∑ i, y i) (A + ∑ i, T i) := by
  have hu := h.rounds.nonneg
  induction C with
  | zero => simpa using h0
  | succ k ih =>
    rw [forRange_succ, Fin.sum_univ_castSucc, Fin.sum_univ_castSucc, ← sub_sub, ← add_assoc, ← add_assoc]
    exact err_sub h (ih fun i => hx _) ((hx _).mono hu (by omega) le_rfl)

omit h in
theorem DottedUp.err (hr : Rounds rnd u) {l : List (ℝ × ℝ)} {s : ℝ} (hs : DottedUp rnd l s) :
    Err u (l.length + 1) s (l.map fun p => p.1 * p.2).sum (l.map fun p => |p.1 * p.2|).sum := by
  have hu := hr.nonneg
  induction hs with
  | nil => simpa using (Err.refl (u := u) 0).mono hu (Nat.zero_le 1) le_rfl
  | one x y =>
    have := (Err.refl (u := u) (x * y)).rounded hr
    simpa using this.mono hu (k := 2) (by omega) le_rfl
  | start x y =>
    have := ((Err.refl (u := u) (x * y)).rounded hr).rounded hr
    simpa using this
  | @add l l' s s' h1 h2 _ _ ih ih' =>
    have n1 : 1 ≤ l.length := List.length_pos_iff.mpr h1
    have n2 : 1 ≤ l'.length := List.length_pos_iff.mpr h2
    rw [List.length_append, List.map_append, List.map_append, List.sum_append, List.sum_append]
    exact (Err.add hu (ih.mono hu (k := l.length + l'.length) (by omega) le_rfl)
      (ih'.mono hu (by omega) le_rfl)).rounded hr
  | @fma l s x y hs ih =>
    simp only [List.map_cons, List.sum_cons, List.length_cons]
    have := (Err.add hu ih ((Err.refl (u := u) (x * y)).mono hu (Nat.zero_le _) le_rfl)).rounded hr
    rw [add_comm (x * y), add_comm |x * y|]
    exact this
  | @perm l l' s hp _ ih =>
    rw [← hp.length_eq, ← (hp.map _).sum_eq, ← (hp.map _).sum_eq]
    exact ih

theorem err_dot {v w y T : Vec S ℝ} (hv : ∀ s, Err u n (v s * w s) (y s) (T s)) :
    Err u (n + S + 1) (o.dot v w) (∑ s, y s) (∑ s, T s) := by
  have hu := h.rounds.nonneg
  have h1 := DottedUp.err h.rounds (h.dot v w)
  rw [List.length_ofFn, List.map_ofFn, List.map_ofFn, List.sum_ofFn, List.sum_ofFn] at h1
  have h2 := Err.sum (s := Finset.univ) hu fun s _ => hv s
  have hT := h2.T_nonneg
  refine ⟨?_, h2.size⟩
  have e1 : |o.dot v w - ∑ s, v s * w s| ≤ ((1 + u) ^ (S + 1) - 1) * ∑ s, |v s * w s| := h1.err
  have e2 : ∑ s, |v s * w s| ≤ (1 + u) ^ n * ∑ s, T s := by
    rw [Finset.mul_sum]
    exact Finset.sum_le_sum fun s _ => (hv s).abs_le hu
  have e3 := mul_le_mul_of_nonneg_left e2 (show 0 ≤ (1 + u) ^ (S + 1) - 1 by linarith [Err.pow_ge hu (S + 1)])
  have e4 : |o.dot v w - ∑ s, y s| ≤ |o.dot v w - ∑ s, v s * w s| + |∑ s, v s * w s - ∑ s, y s| :=
    abs_sub_le _ _ _
  have e5 := h2.err
  rw [add_assoc, pow_add]
  linarith

end Ops

end Flory
