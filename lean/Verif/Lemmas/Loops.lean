import Verif.Model.Py
import Mathlib.Tactic.Linarith
import Mathlib.Tactic.Ring

/-! # Reasoning principles for loops, array updates and maxima -/

namespace Flory

section Loops

variable {σ : Type}

@[simp] theorem forRange_zero (s : σ) (body : Fin 0 → σ → σ) : forRange 0 s body = s := rfl

theorem forRange_succ (n : ℕ) (s : σ) (body : Fin (n + 1) → σ → σ) :
    forRange (n + 1) s body =
      body (Fin.last n) (forRange n s fun i => body i.castSucc) := by
  simp [forRange, Fin.foldl_succ_last]

/-- Loop invariant rule. -/
theorem forRange_inv {n : ℕ} {s : σ} {body : Fin n → σ → σ} (P : ℕ → σ → Prop)
    (h0 : P 0 s) (hs : ∀ (i : Fin n) s, P i s → P (i + 1) (body i s)) :
    P n (forRange n s body) := by
  induction n with
  | zero => simpa using h0
  | succ n ih =>
    rw [forRange_succ]
    have := ih (body := fun i => body i.castSucc) (fun i s h => by simpa using hs i.castSucc s h)
    simpa using hs (Fin.last n) _ (by simpa using this)

theorem forRangeM_zero (s : σ) (body : Fin 0 → σ → Py σ) : forRangeM 0 s body = .ok s := by
  simp [forRangeM, pure, Except.pure]

theorem forRangeM_succ (n : ℕ) (s : σ) (body : Fin (n + 1) → σ → Py σ) :
    forRangeM (n + 1) s body =
      (forRangeM n s fun i => body i.castSucc) >>= body (Fin.last n) := by
  simp [forRangeM, Fin.foldlM_succ_last]

/-- Loop rule for raising bodies: if every pass succeeds and keeps the invariant, so does
the loop. -/
theorem forRangeM_ok {n : ℕ} {s : σ} {body : Fin n → σ → Py σ} (P : ℕ → σ → Prop)
    (h0 : P 0 s) (hs : ∀ (i : Fin n) s, P i s → ∃ s', body i s = .ok s' ∧ P (i + 1) s') :
    ∃ s', forRangeM n s body = .ok s' ∧ P n s' := by
  induction n with
  | zero => exact ⟨s, forRangeM_zero _ _, h0⟩
  | succ n ih =>
    rw [forRangeM_succ]
    obtain ⟨s1, h1, hp⟩ := ih (body := fun i => body i.castSucc)
      (fun i s h => by simpa using hs i.castSucc s h)
    obtain ⟨s2, h2, hp2⟩ := hs (Fin.last n) s1 (by simpa using hp)
    refine ⟨s2, ?_, by simpa using hp2⟩
    rw [h1]; exact h2

/-- Loop rule for raising bodies, partial correctness. -/
theorem forRangeM_inv {n : ℕ} {s s' : σ} {body : Fin n → σ → Py σ} (P : ℕ → σ → Prop)
    (h0 : P 0 s) (hs : ∀ (i : Fin n) s s', P i s → body i s = .ok s' → P (i + 1) s')
    (h : forRangeM n s body = .ok s') : P n s' := by
  induction n generalizing s' with
  | zero => rw [forRangeM_zero] at h; cases h; exact h0
  | succ n ih =>
    rw [forRangeM_succ] at h
    cases h1 : forRangeM n s (fun i => body i.castSucc) with
    | error e => rw [h1] at h; cases h
    | ok s1 =>
      rw [h1] at h
      have := ih (body := fun i => body i.castSucc)
        (fun i s s' h h' => by simpa using hs i.castSucc s s' h h') h1
      simpa using hs (Fin.last n) s1 s' (by simpa using this) h

variable {K : Type}

/-- Accumulating loop. -/
theorem forRange_add [AddCommMonoid K] {n : ℕ} (x : K) (f : Fin n → K) :
    (forRange n x fun i acc => acc + f i) = x + ∑ i, f i := by
  induction n with
  | zero => simp
  | succ n ih => rw [forRange_succ, ih, Fin.sum_univ_castSucc, add_assoc]

/-- Accumulating loop over arrays. -/
theorem forRange_add_vec [AddCommMonoid K] {n : ℕ} {ι : Type} (x : ι → K) (f : Fin n → ι → K)
    (m : ι) : (forRange n x fun i acc m => acc m + f i m) m = x m + ∑ i, f i m := by
  induction n with
  | zero => simp
  | succ n ih => rw [forRange_succ, Fin.sum_univ_castSucc, ← add_assoc, ← ih]

theorem forRange_sub_vec [AddCommGroup K] {n : ℕ} {ι : Type} (x : ι → K) (f : Fin n → ι → K)
    (m : ι) : (forRange n x fun i acc m => acc m - f i m) m = x m - ∑ i, f i m := by
  have := forRange_add_vec x (fun i m => -f i m) m
  simp only [← sub_eq_add_neg, Finset.sum_neg_distrib] at this
  exact this

/-- A loop that rewrites row `i` in pass `i` from the old row `i`. -/
theorem forRange_setAt {n : ℕ} {α : Type} (a : Fin n → α) (f : Fin n → α → α) :
    (forRange n a fun i a => setAt a i (f i (a i))) = fun i => f i (a i) := by
  have := forRange_inv (s := a) (body := fun i a => setAt a i (f i (a i)))
    (fun k b => ∀ j : Fin n, b j = if (j : ℕ) < k then f j (a j) else a j)
    (by simp) (by
      intro i b hb j
      by_cases h : j = i
      · subst h; simp [setAt, hb]
      · have h' : (j : ℕ) ≠ i := fun e => h (Fin.ext e)
        simp only [setAt, h, if_false, hb]
        have : (j : ℕ) < i ↔ (j : ℕ) < i + 1 := by omega
        simp [this])
  funext j
  simpa using this j

end Loops

section Arrays

variable {n : ℕ} {α : Type}

@[simp] theorem setAt_same (a : Fin n → α) (i : Fin n) (x : α) : setAt a i x i = x := by
  simp [setAt]

theorem setAt_ne (a : Fin n → α) {i j : Fin n} (x : α) (h : j ≠ i) : setAt a i x j = a j := by
  simp [setAt, h]

theorem readAt_ok (a : Fin n → α) {i : ℕ} (h : i < n) : readAt a i = .ok (a ⟨i, h⟩) := by
  simp [readAt, h]

theorem writeAt_ok (a : Fin n → α) {i : ℕ} (x : α) (h : i < n) :
    writeAt a i x = .ok (setAt a ⟨i, h⟩ x) := by
  simp [writeAt, h]

end Arrays

section Max

variable {K : Type} [LinearOrder K] {n : ℕ} [NeZero n]

theorem npMax_spec (v : Vec n K) : (∀ i, v i ≤ npMax v) ∧ ∃ i, npMax v = v i := by
  have := forRange_inv (n := n) (s := v 0) (body := fun i acc => max acc (v i))
    (fun k acc => (∀ i : Fin n, (i : ℕ) < k → v i ≤ acc) ∧ ∃ i, acc = v i)
    ⟨by simp, 0, rfl⟩ (by
      rintro i acc ⟨h1, j, hj⟩
      refine ⟨fun k hk => ?_, ?_⟩
      · rcases Nat.lt_succ_iff_lt_or_eq.mp hk with h | h
        · exact (h1 k h).trans (le_max_left _ _)
        · rw [Fin.ext h]; exact le_max_right _ _
      · rcases max_choice acc (v i) with h | h
        · exact ⟨j, by rw [h, hj]⟩
        · exact ⟨i, h⟩)
  exact ⟨fun i => this.1 i i.2, this.2⟩

theorem le_npMax (v : Vec n K) (i : Fin n) : v i ≤ npMax v := (npMax_spec v).1 i

theorem npMax_mem (v : Vec n K) : ∃ i, npMax v = v i := (npMax_spec v).2

theorem npMax_le_iff (v : Vec n K) (b : K) : npMax v ≤ b ↔ ∀ i, v i ≤ b :=
  ⟨fun h i => (le_npMax v i).trans h, fun h => by
    obtain ⟨i, hi⟩ := npMax_mem v; rw [hi]; exact h i⟩

theorem npMin_spec (v : Vec n K) : (∀ i, npMin v ≤ v i) ∧ ∃ i, npMin v = v i := by
  have := forRange_inv (n := n) (s := v 0) (body := fun i acc => min acc (v i))
    (fun k acc => (∀ i : Fin n, (i : ℕ) < k → acc ≤ v i) ∧ ∃ i, acc = v i)
    ⟨by simp, 0, rfl⟩ (by
      rintro i acc ⟨h1, j, hj⟩
      refine ⟨fun k hk => ?_, ?_⟩
      · rcases Nat.lt_succ_iff_lt_or_eq.mp hk with h | h
        · exact (min_le_left _ _).trans (h1 k h)
        · rw [Fin.ext h]; exact min_le_right _ _
      · rcases min_choice acc (v i) with h | h
        · exact ⟨j, by rw [h, hj]⟩
        · exact ⟨i, h⟩)
  exact ⟨fun i => this.1 i i.2, this.2⟩

theorem npMin_le (v : Vec n K) (i : Fin n) : npMin v ≤ v i := (npMin_spec v).1 i

theorem npMin_mem (v : Vec n K) : ∃ i, npMin v = v i := (npMin_spec v).2

theorem npMin_le_npMax (v : Vec n K) : npMin v ≤ npMax v :=
  (npMin_le v 0).trans (le_npMax v 0)

theorem npMax_eq_of (v : Vec n K) (b : K) (h1 : ∀ i, v i ≤ b) (h2 : ∃ i, v i = b) :
    npMax v = b := by
  obtain ⟨i, hi⟩ := h2
  exact le_antisymm ((npMax_le_iff v b).2 h1) (hi ▸ le_npMax v i)

theorem npMaxPy_ok (v : Vec n K) : npMaxPy v = .ok (npMax v) := by
  cases n with
  | zero => exact absurd rfl (NeZero.ne 0)
  | succ n => rfl

end Max

section Monad

variable {α β : Type}

@[simp] theorem bind_ok (a : α) (f : α → Py β) : (Except.ok a : Py α) >>= f = f a := rfl
@[simp] theorem bind_error (e : PyErr) (f : α → Py β) :
    (Except.error e : Py α) >>= f = Except.error e := rfl
@[simp] theorem pure_eq_ok (a : α) : (pure a : Py α) = Except.ok a := rfl
@[simp] theorem throw_eq_error (e : PyErr) : (throw e : Py α) = Except.error e := rfl

theorem bind_eq_ok {x : Py α} {f : α → Py β} {b : β} :
    x >>= f = .ok b ↔ ∃ a, x = .ok a ∧ f a = .ok b := by
  cases x <;> simp

variable {K : Type} [Field K] [LinearOrder K]

theorem pyDiv_eq_ok {a b c : K} : pyDiv a b = .ok c ↔ b ≠ 0 ∧ a / b = c := by
  unfold pyDiv; split <;> simp_all

theorem pyDiv_ok {a b : K} (h : b ≠ 0) : pyDiv a b = .ok (a / b) := by simp [pyDiv, h]

end Monad

end Flory
