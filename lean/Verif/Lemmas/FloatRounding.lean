import Verif.Lemmas.FloatParts
import Verif.Lemmas.Rounded
import Verif.Lemmas.IterationFacts
import Verif.Lemmas.Ieee

/-! # Rounding errors in a pass -/

set_option linter.unusedSectionVars false

namespace Flory

open Spec

variable {o : Floats ℝ} {rnd : ℝ → ℝ} {u : ℝ} {C S M : ℕ}

/-- Error of a sum of numbers of any sign. -/
theorem AddedUp.err (hr : Rounds rnd u) {l : List ℝ} {s : ℝ} (hs : AddedUp rnd l s) :
    |s - l.sum| ≤ ((1 + u) ^ l.length - 1) * (l.map fun x => |x|).sum := by
  have hu := hr.nonneg
  have habs : ∀ l : List ℝ, 0 ≤ (l.map fun x => |x|).sum ∧ |l.sum| ≤ (l.map fun x => |x|).sum := by
    intro l
    induction l with
    | nil => simp
    | cons x l ih =>
      simp only [List.map_cons, List.sum_cons]
      exact ⟨add_nonneg (abs_nonneg _) ih.1, (abs_add_le _ _).trans (by linarith [ih.2])⟩
  induction hs with
  | nil => simp
  | one x => simpa using mul_nonneg hu (abs_nonneg x)
  | start x => simpa using hr.err x
  | @add l l' s s' h1 h2 _ _ ih ih' =>
    have n1 : 1 ≤ l.length := List.length_pos_iff.mpr h1
    have n2 : 1 ≤ l'.length := List.length_pos_iff.mpr h2
    rw [List.length_append, List.map_append, List.sum_append, List.sum_append]
    obtain ⟨a0, a1⟩ := habs l
    obtain ⟨b0, b1⟩ := habs l'
    set A := (l.map fun x => |x|).sum
    set B := (l'.map fun x => |x|).sum
    have e1 := hr.err (s + s')
    have e2 : |s| ≤ |s - l.sum| + A := by
      calc |s| = |(s - l.sum) + l.sum| := by ring_nf
        _ ≤ _ := (abs_add_le _ _).trans (by linarith)
    have e3 : |s'| ≤ |s' - l'.sum| + B := by
      calc |s'| = |(s' - l'.sum) + l'.sum| := by ring_nf
        _ ≤ _ := (abs_add_le _ _).trans (by linarith)
    have e4 : |rnd (s + s') - (l.sum + l'.sum)| ≤ |rnd (s + s') - (s + s')| + (|s - l.sum| + |s' - l'.sum|) := by
      calc |rnd (s + s') - (l.sum + l'.sum)| =
          |(rnd (s + s') - (s + s')) + ((s - l.sum) + (s' - l'.sum))| := by ring_nf
        _ ≤ _ := (abs_add_le _ _).trans (by linarith [abs_add_le (s - l.sum) (s' - l'.sum)])
    have e5 : u * |s + s'| ≤ u * (|s - l.sum| + A + (|s' - l'.sum| + B)) :=
      mul_le_mul_of_nonneg_left ((abs_add_le _ _).trans (by linarith)) hu
    have p1 : (1 + u) ^ (l.length + 1) ≤ (1 + u) ^ (l.length + l'.length) :=
      pow_le_pow_right₀ (by linarith) (by omega)
    have p2 : (1 + u) ^ (l'.length + 1) ≤ (1 + u) ^ (l.length + l'.length) :=
      pow_le_pow_right₀ (by linarith) (by omega)
    have q1 := mul_le_mul_of_nonneg_right p1 a0
    have q2 := mul_le_mul_of_nonneg_right p2 b0
    have r1 := mul_le_mul_of_nonneg_left ih (show 0 ≤ 1 + u by linarith)
    have r2 := mul_le_mul_of_nonneg_left ih' (show 0 ≤ 1 + u by linarith)
    rw [pow_succ] at q1 q2
    nlinarith
  | @perm l l' s hp _ ih =>
    rw [← hp.length_eq, ← hp.sum_eq, ← (hp.map _).sum_eq]
    exact ih

namespace Spec.RoundedOps

variable (h : RoundedOps o rnd u)
include h

theorem zero : o.ofNat 0 = 0 := by rw [h.ofNat, Nat.cast_zero, h.rounds.zero]

theorem one : o.ofNat 1 = 1 := by rw [h.ofNat, Nat.cast_one, h.rounds.one]

theorem isMask (J thr : ℝ) : o.clip0 (o.sign (o.sub J thr)) = if thr < J then 1 else 0 := by
  rw [h.clip0, h.sign, h.sub]
  unfold npClipMin npSign
  split_ifs with h1 h2 h3 h4 h5
  · norm_num
  · exact absurd (h.rounds.mono (show J - thr ≤ 0 by linarith)) (by rw [h.rounds.zero]; linarith)
  · exact absurd (h.rounds.pos_of (sub_pos.mpr h4)) (by linarith)
  · norm_num
  · exact absurd (h.rounds.pos_of (sub_pos.mpr h5)) h1
  · norm_num

theorem mul_one (x : ℝ) : o.mul x 1 = rnd x := by rw [h.mul, _root_.mul_one]

theorem mul_zero (x : ℝ) : o.mul x 0 = 0 := by rw [h.mul, MulZeroClass.mul_zero, h.rounds.zero]

theorem start : o.mul (o.neg (o.ofNat 1)) (o.ofNat 1) = -1 := by
  rw [h.one, h.neg, h.mul_one, h.neg_one]

theorem eq_zero (x : ℝ) : o.eq x (o.ofNat 0) ↔ x = 0 := by rw [h.zero, h.eq]

theorem sum_within {v : Vec M ℝ} (hv : ∀ m, 0 ≤ v m) : 0 ≤ o.sum v ∧ UpTo u M (o.sum v) (∑ m, v m) := by
  have := AddedUp.within h.rounds (h.sum v) (by
    intro x hx
    rw [List.mem_ofFn] at hx
    obtain ⟨m, rfl⟩ := hx
    exact hv m)
  rwa [List.length_ofFn, List.sum_ofFn] at this

theorem sum_err (v : Vec M ℝ) : |o.sum v - ∑ m, v m| ≤ ((1 + u) ^ M - 1) * ∑ m, |v m| := by
  have := AddedUp.err h.rounds (h.sum v)
  rwa [List.length_ofFn, List.sum_ofFn, List.map_ofFn, List.sum_ofFn] at this

end Spec.RoundedOps

/-- Sums of zeros and ones are exact as long as the numbers up to their length are. -/
theorem AddedUp.count (hr : Rounds rnd u) {n : ℕ} (hn : ∀ k : ℕ, k ≤ n → rnd k = k) {l : List ℝ} {s : ℝ}
    (hs : AddedUp rnd l s) (h01 : ∀ x ∈ l, x = 0 ∨ x = 1) (hl : l.length ≤ n) :
    ∃ k : ℕ, k ≤ l.length ∧ s = k ∧ l.sum = k := by
  induction hs with
  | nil => exact ⟨0, le_rfl, by simp, by simp⟩
  | one x =>
    rcases h01 x (by simp) with rfl | rfl
    · exact ⟨0, by simp, by simp, by simp⟩
    · exact ⟨1, by simp, by simp, by simp⟩
  | start x =>
    rcases h01 x (by simp) with rfl | rfl
    · exact ⟨0, by simp, by simp [hr.zero], by simp⟩
    · exact ⟨1, by simp, by simp [hr.one], by simp⟩
  | @add l l' s s' _ _ h1 h2 ih ih' =>
    rw [List.length_append] at hl
    obtain ⟨k, k1, k2, k3⟩ := ih (fun x hx => h01 x (by simp [hx])) (by omega)
    obtain ⟨k', k1', k2', k3'⟩ := ih' (fun x hx => h01 x (by simp [hx])) (by omega)
    refine ⟨k + k', by rw [List.length_append]; omega, ?_, by simp [k3, k3']⟩
    rw [k2, k2', ← Nat.cast_add, hn _ (by omega)]
  | @perm l l' s hp _ ih =>
    obtain ⟨k, k1, k2, k3⟩ := ih (fun x hx => h01 x (hp.subset hx)) (by rw [hp.length_eq]; exact hl)
    exact ⟨k, by rw [← hp.length_eq]; exact k1, k2, by rw [← hp.sum_eq]; exact k3⟩

/-- Rounding errors of shifting numbers to mean one. -/
theorem recenter_err (hr : Rounds rnd u) {P : Finset (Fin M)} (hP : P.Nonempty) {y J : Vec M ℝ} {B : ℝ}
    (hB : |B - ∑ m, y m| ≤ ((1 + u) ^ M - 1) * ∑ m, |y m|) (hy : ∀ m, m ∉ P → y m = 0)
    (hJ : ∀ m ∈ P, J m = rnd (y m + rnd (1 - rnd (B / P.card)))) (hJ0 : ∀ m, m ∉ P → J m = 0) :
    |∑ m, J m - P.card| ≤ ((1 + u) ^ (M + 4) - 1) * (∑ m, |y m| + P.card) := by
  have hu := hr.nonneg
  have hN : (0 : ℝ) < P.card := by exact_mod_cast hP.card_pos
  have e1 : ∑ m, J m = ∑ m ∈ P, J m :=
    (Finset.sum_subset (Finset.subset_univ P) fun m _ hm => hJ0 m hm).symm
  have e2 : ∑ m, y m = ∑ m ∈ P, y m :=
    (Finset.sum_subset (Finset.subset_univ P) fun m _ hm => hy m hm).symm
  have e3 : ∑ m, |y m| = ∑ m ∈ P, |y m| :=
    (Finset.sum_subset (Finset.subset_univ P) fun m _ hm => by rw [hy m hm, abs_zero]).symm
  have hYA : |∑ m, y m| ≤ ∑ m, |y m| := Finset.abs_sum_le_sum_abs _ _
  set mean := rnd (B / P.card) with hmean
  set c := rnd (1 - mean) with hc
  set N := (P.card : ℝ) with hNdef
  set A := ∑ m, |y m| with hA
  set Y := ∑ m, y m with hY
  set q := (1 + u) ^ M with hq
  have q1 : 1 ≤ q := one_le_pow₀ (by linarith)
  have hA0 : 0 ≤ A := Finset.sum_nonneg fun m _ => abs_nonneg _
  have s1 : |∑ m, J m - (Y + N * c)| ≤ u * (A + N * |c|) := by
    have : Y + N * c = ∑ m ∈ P, (y m + c) := by
      rw [e2, Finset.sum_add_distrib, Finset.sum_const, nsmul_eq_mul]
    rw [e1, this, ← Finset.sum_sub_distrib]
    calc |∑ m ∈ P, (J m - (y m + c))| ≤ ∑ m ∈ P, |J m - (y m + c)| := Finset.abs_sum_le_sum_abs _ _
      _ ≤ ∑ m ∈ P, u * (|y m| + |c|) := Finset.sum_le_sum fun m hm => by
          rw [hJ m hm]
          exact (hr.err _).trans (mul_le_mul_of_nonneg_left (abs_add_le _ _) hu)
      _ = u * (A + N * |c|) := by
          rw [← Finset.mul_sum, Finset.sum_add_distrib, Finset.sum_const, nsmul_eq_mul, e3]
  have s2 : |B| ≤ q * A := by
    have : |B| ≤ |B - Y| + |Y| := by
      calc |B| = |(B - Y) + Y| := by ring_nf
        _ ≤ _ := abs_add_le _ _
    linarith
  have s3 : |N * mean - B| ≤ u * |B| := by
    have h1 := hr.err (B / N)
    have h2 : N * mean - B = N * (mean - B / N) := by field_simp
    rw [h2, abs_mul, abs_of_pos hN]
    have h3 := mul_le_mul_of_nonneg_left h1 hN.le
    rw [abs_div, abs_of_pos hN] at h3
    calc _ ≤ _ := h3
      _ = u * |B| := by field_simp
  have s4 : N * |mean| ≤ (1 + u) * |B| := by
    have : |N * mean| ≤ |N * mean - B| + |B| := by
      calc |N * mean| = |(N * mean - B) + B| := by ring_nf
        _ ≤ _ := abs_add_le _ _
    rw [abs_mul, abs_of_pos hN] at this
    linarith
  have s5 : |1 - mean| ≤ 1 + |mean| := (abs_sub _ _).trans (by rw [abs_one])
  have s6 : |c - (1 - mean)| ≤ u * (1 + |mean|) :=
    (hr.err _).trans (mul_le_mul_of_nonneg_left s5 hu)
  have s7 : |c| ≤ (1 + u) * (1 + |mean|) := by
    have : |c| ≤ |c - (1 - mean)| + |1 - mean| := by
      calc |c| = |(c - (1 - mean)) + (1 - mean)| := by ring_nf
        _ ≤ _ := abs_add_le _ _
    linarith
  have s8 : N * (u * (1 + |mean|)) ≤ u * (N + (1 + u) * |B|) := by nlinarith
  have s9 : N * |c| ≤ (1 + u) * (N + (1 + u) * |B|) := by
    calc N * |c| ≤ N * ((1 + u) * (1 + |mean|)) := mul_le_mul_of_nonneg_left s7 hN.le
      _ = (1 + u) * (N + N * |mean|) := by ring
      _ ≤ _ := mul_le_mul_of_nonneg_left (by linarith) (by linarith)
  have s10 : |∑ m, J m - N| ≤ |∑ m, J m - (Y + N * c)| + |N * (c - (1 - mean))| + |B - Y| + |N * mean - B| := by
    calc |∑ m, J m - N| = |(∑ m, J m - (Y + N * c)) + N * (c - (1 - mean)) + -(B - Y) + -(N * mean - B)| := by
          ring_nf
      _ ≤ |(∑ m, J m - (Y + N * c)) + N * (c - (1 - mean)) + -(B - Y)| + |-(N * mean - B)| := abs_add_le _ _
      _ ≤ |(∑ m, J m - (Y + N * c)) + N * (c - (1 - mean))| + |-(B - Y)| + |-(N * mean - B)| := by
          linarith [abs_add_le ((∑ m, J m - (Y + N * c)) + N * (c - (1 - mean))) (-(B - Y))]
      _ ≤ _ := by
          rw [abs_neg, abs_neg]
          linarith [abs_add_le (∑ m, J m - (Y + N * c)) (N * (c - (1 - mean)))]
  rw [abs_mul N, abs_of_pos hN] at s10
  have s11 := mul_le_mul_of_nonneg_left s6 hN.le
  have s12 := mul_le_mul_of_nonneg_left s9 hu
  have hqA : 0 ≤ q * A := mul_nonneg (by linarith) hA0
  have t1 : |∑ m, J m - N| ≤ u * A + u * (1 + u) * N + u * (1 + u) ^ 2 * |B| + u * N + u * (1 + u) * |B| +
      (q - 1) * A + u * |B| := by nlinarith
  have t2 : u * (1 + u) ^ 2 * |B| + u * (1 + u) * |B| + u * |B| ≤
      (u * (1 + u) ^ 2 + u * (1 + u) + u) * (q * A) := by
    rw [← add_mul, ← add_mul]
    exact mul_le_mul_of_nonneg_left s2 (by positivity)
  have t3 : u * A ≤ u * (1 + u) ^ 3 * (q * A) := by
    have : A ≤ (1 + u) ^ 3 * (q * A) := by
      have h1 : A ≤ q * A := le_mul_of_one_le_left hA0 q1
      exact h1.trans (le_mul_of_one_le_left hqA (one_le_pow₀ (by linarith)))
    calc u * A ≤ u * ((1 + u) ^ 3 * (q * A)) := mul_le_mul_of_nonneg_left this hu
      _ = _ := by ring
  have t4 : (u * (1 + u) + u) * N ≤ ((1 + u) ^ (M + 4) - 1) * N := by
    refine mul_le_mul_of_nonneg_right ?_ hN.le
    have : (1 + u) ^ 2 ≤ (1 + u) ^ (M + 4) := pow_le_pow_right₀ (by linarith) (by omega)
    nlinarith
  rw [pow_add, ← hq] at t4 ⊢
  have t5 : (q - 1) * A + (u * (1 + u) ^ 2 + u * (1 + u) + u) * (q * A) + u * (1 + u) ^ 3 * (q * A) =
      (q * (1 + u) ^ 4 - 1) * A := by ring
  linarith

theorem prepareF_proper {c : Cons S M ℝ} (hc : c.Proper) (x : Mat S M ℝ) (J mk : Vec M ℝ) :
    (c.prepareF o x J mk).Proper := by
  cases c <;> exact hc

theorem evolveConsF_returns [NeZero M] (a : ℝ) (mk : Vec M ℝ) (cs : List (Cons S M ℝ)) (acc : ℝ)
    (hc : ∀ c ∈ cs, c.Proper) : ∃ x, evolveConsF o a mk cs acc = .ok x := by
  induction cs generalizing acc with
  | nil => exact ⟨_, rfl⟩
  | cons c cs ih =>
    obtain ⟨⟨r, c'⟩, h1⟩ : ∃ x, c.evolveF o a mk = .ok x := by
      have := hc c (by simp)
      cases c with
      | no c => exact ⟨_, rfl⟩
      | loc A c =>
        cases A with
        | zero => exact absurd rfl this
        | succ A => exact ⟨_, rfl⟩
      | glob A c =>
        cases A with
        | zero => exact absurd rfl this
        | succ A => exact ⟨_, rfl⟩
    obtain ⟨x, h2⟩ := ih (o.max2 acc r) fun c hx => hc c (by simp [hx])
    unfold evolveConsF
    rw [h1]
    simp only [bind, Except.bind]
    rw [h2]
    exact ⟨_, rfl⟩

section Loop

variable (h : RoundedOps o rnd u)
include h

/-- Error of a loop that adds nonnegative numbers to minus one. -/
theorem loopSum_err {g : Fin C → ℝ} (hg : ∀ i, 0 ≤ g i) :
    |forRange C (-1) (fun i a => o.add a (g i)) - (∑ i, g i - 1)| ≤
      ((1 + u) ^ C - 1) * (1 + ∑ i, g i) := by
  have hu := h.rounds.nonneg
  induction C with
  | zero => simp
  | succ n ih =>
    rw [forRange_succ, Fin.sum_univ_castSucc]
    have ih' := ih (g := fun i => g i.castSucc) (fun i => hg _)
    set a := forRange n (-1) fun i a => o.add a (g i.castSucc) with ha
    set s := ∑ i : Fin n, g i.castSucc with hs
    have hs0 : 0 ≤ s := Finset.sum_nonneg fun i _ => hg _
    set x := g (Fin.last n) with hx
    have hx0 : 0 ≤ x := hg _
    rw [h.add]
    have e1 := h.rounds.err (a + x)
    have e2 : |a + x| ≤ 1 + s + x + |a - (s - 1)| := by
      calc |a + x| = |(s - 1 + x) + (a - (s - 1))| := by ring_nf
        _ ≤ |s - 1 + x| + |a - (s - 1)| := abs_add_le _ _
        _ ≤ 1 + s + x + |a - (s - 1)| := by
          have : |s - 1 + x| ≤ 1 + s + x := abs_le.mpr ⟨by linarith, by linarith⟩
          linarith
    have e3 : |rnd (a + x) - (s + x - 1)| ≤ |rnd (a + x) - (a + x)| + |a - (s - 1)| := by
      calc |rnd (a + x) - (s + x - 1)| = |(rnd (a + x) - (a + x)) + (a - (s - 1))| := by ring_nf
        _ ≤ _ := abs_add_le _ _
    have p1 : 1 ≤ (1 + u) ^ n := one_le_pow₀ (by linarith)
    set q := (1 + u) ^ n with hq
    have e4 : |a - (s - 1)| ≤ (q - 1) * (1 + s + x) := by nlinarith
    rw [pow_succ, ← hq]
    nlinarith [mul_le_mul_of_nonneg_left e2 hu, mul_le_mul_of_nonneg_left e4 hu]

/-- The result of the loop is a float. -/
theorem loopSum_float (g : Fin C → ℝ) :
    rnd (forRange C (-1) fun i a => o.add a (g i)) = forRange C (-1) fun i a => o.add a (g i) := by
  cases C with
  | zero => rw [forRange_zero, h.neg_one]
  | succ n => rw [forRange_succ, h.add, h.rounds.idem]

end Loop

section Pass

variable (h : RoundedOps o rnd u) {G : Type} [NeZero M] {ia : InteractionI S M ℝ} {en : EntropyI C S M ℝ}
    {es : EnsembleI C M ℝ} {rng : Rng G ℝ} {p : Params ℝ} {tries : ℤ} {count : ℕ} {s : State C S M ℝ G}
    {t : Trace C S M ℝ G} (ht : iterateF o ia en es rng p tries count s = .ok t)
include h ht

theorem masks_rounded (m : Fin M) : (t.masks m = 0 ∨ t.masks m = 1) ∧
    (t.masks m = 1 ↔ p.killThreshold < (reviveBlockF o rng p tries s.Js s.omegas s.g count).Js m) := by
  obtain ⟨tmp, f⟩ := iterateF_facts ht
  rw [f.masks]
  unfold makeMasksF
  rw [h.isMask]
  split_ifs with hc
  · exact ⟨Or.inr rfl, fun _ => hc, fun _ => rfl⟩
  · exact ⟨Or.inl rfl, fun h => absurd h (by norm_num), fun h => absurd h hc⟩

theorem Js_rounded (hthr : 0 ≤ p.killThreshold) (m : Fin M) :
    0 ≤ t.JsOld m ∧ (t.masks m = 0 → t.JsOld m = 0) ∧ (t.masks m = 1 → 0 < t.JsOld m) := by
  obtain ⟨h1, h2⟩ := masks_rounded h ht m
  obtain ⟨tmp, f⟩ := iterateF_facts ht
  have hJ := f.JsOld m
  rcases h1 with h0 | h0
  · rw [h0, h.mul_zero] at hJ
    exact ⟨hJ.ge, fun _ => hJ, fun h => absurd (h0.symm.trans h) (by norm_num)⟩
  · have hpos := h.rounds.pos_of (hthr.trans_lt (h2.mp h0))
    rw [h0, h.mul_one] at hJ
    rw [hJ]
    exact ⟨hpos.le, fun h => absurd (h0.symm.trans h) (by norm_num), fun _ => hpos⟩

theorem fractions_rounded (hthr : 0 ≤ p.killThreshold) {sizes : Vec C ℝ} {feat : Fin C → Fin S}
    (hg : FloatGas o en sizes feat) (hes : NonnegEnsemble o es) (m : Fin M) :
    (∀ i, 0 ≤ t.phisComp i m) ∧ t.incomp m = o.mul (forRange C (o.mul (o.neg (o.ofNat 1)) (o.ofNat 1))
      fun i a => o.add a (t.phisComp i m)) (t.masks m) := by
  have hm0 : 0 ≤ t.masks m := by
    rcases (masks_rounded h ht m).1 with h0 | h0 <;> rw [h0]
    exact zero_le_one
  have hJ := Js_rounded h ht hthr
  obtain ⟨tmp, f⟩ := iterateF_facts ht
  obtain ⟨phi0, hp, hn⟩ := f.partition
  have hr := h.rounds
  have hp0 : ∀ i m, 0 < phi0 i m := fun i m => by rw [(hg.weights hp i).1]; exact h.exp _
  rcases hes with ⟨e, rfl, hi⟩ | ⟨e, rfl, hi⟩
  · obtain ⟨h1, h2⟩ := canonicalF_entries hn
    refine ⟨fun i => ?_, h2 m⟩
    obtain ⟨hB0, hQ⟩ := pyDivF_eq_ok.mp (hg.weights hp i).2
    rw [h.eq_zero] at hB0
    have hsum : 0 ≤ o.sum t.JsOld := (h.sum_within (v := t.JsOld) fun m => (hJ m).1).1
    have hA : 0 ≤ o.sum fun m => o.mul (phi0 i m) (t.JsOld m) := (h.sum_within fun m => by
      rw [h.mul]; exact hr.nonneg_of (mul_nonneg (hp0 i m).le (hJ m).1)).1
    have hQ0 : 0 ≤ t.Qs i := by
      rw [hQ, h.div _ _ hB0]; exact hr.nonneg_of (div_nonneg hA hsum)
    obtain ⟨hne, hphi⟩ := h1 i
    rw [h.eq_zero] at hne
    rw [hphi, h.mul, h.mul, h.div _ _ hne]
    exact hr.nonneg_of (mul_nonneg (hr.nonneg_of (mul_nonneg (hr.nonneg_of (div_nonneg (hi i) hQ0))
      (hp0 i m).le)) hm0)
  · obtain ⟨h1, h2⟩ := grandF_entries (Qs := t.Qs) hn
    refine ⟨fun i => ?_, h2 m⟩
    rw [h1, h.mul, h.mul]
    exact hr.nonneg_of (mul_nonneg (hr.nonneg_of (mul_nonneg (hi i) (hp0 i m).le)) hm0)

/-- A volume changes by at most the upper bound of a step, up to rounding. -/
theorem step_rounded (hub : 0 < p.JsStepUpperBound) (ha : 0 ≤ p.acceptanceJs) (m : Fin M) :
    |o.mul (o.mul t.factor p.acceptanceJs) (t.JsDiff m)| ≤
      (1 + u) ^ 3 / (1 - u) * p.JsStepUpperBound := by
  obtain ⟨tmp, f⟩ := iterateF_facts ht
  have hr := h.rounds
  have hu := hr.nonneg
  have hu1 : 0 < 1 - u := by linarith [hr.lt_one]
  have hup : ∀ x, |rnd x| ≤ (1 + u) * |x| := fun x => by
    have := hr.err x
    have := abs_sub_abs_le_abs_sub (rnd x) x
    linarith
  obtain ⟨-, hf⟩ := pyDivF_eq_ok.mp f.factor
  have hd : |t.JsDiff m| ≤ t.maxAbsJsDiff := by
    rw [f.maxAbsJsDiff, h.max]
    have := le_npMax (fun m => o.abs (t.JsDiff m)) m
    rwa [h.abs] at this
  set mx := t.maxAbsJsDiff
  set ub := p.JsStepUpperBound
  set a := p.acceptanceJs
  have hmx : 0 ≤ mx := (abs_nonneg _).trans hd
  rw [h.max2] at hf
  set D := max (o.mul mx a) ub with hD
  have hDub : ub ≤ D := le_max_right _ _
  have hD0 : 0 < D := hub.trans_le hDub
  rw [h.div _ _ hD0.ne'] at hf
  have hma : mx * a * (1 - u) ≤ D := by
    have h1 := abs_le.mp (hr.err (mx * a))
    rw [abs_of_nonneg (mul_nonneg hmx ha)] at h1
    have : rnd (mx * a) ≤ D := by rw [← h.mul]; exact le_max_left _ _
    linarith [h1.1]
  have hfu : |t.factor| ≤ (1 + u) * (ub / D) := by
    rw [hf]
    have := hup (ub / D)
    rwa [abs_of_nonneg (div_pos hub hD0).le] at this
  rw [h.mul, h.mul]
  calc |rnd (rnd (t.factor * a) * t.JsDiff m)| ≤ (1 + u) * |rnd (t.factor * a) * t.JsDiff m| := hup _
    _ = (1 + u) * (|rnd (t.factor * a)| * |t.JsDiff m|) := by rw [abs_mul]
    _ ≤ (1 + u) * (((1 + u) * (((1 + u) * (ub / D)) * a)) * mx) := by
        refine mul_le_mul_of_nonneg_left (mul_le_mul ?_ hd (abs_nonneg _) (by positivity)) (by linarith)
        refine (hup _).trans (mul_le_mul_of_nonneg_left ?_ (by linarith))
        rw [abs_mul, abs_of_nonneg ha]
        exact mul_le_mul_of_nonneg_right hfu ha
    _ = (1 + u) ^ 3 * ub * (mx * a) / D := by field_simp
    _ ≤ (1 + u) ^ 3 * ub * (D / (1 - u)) / D := by
        refine div_le_div_of_nonneg_right (mul_le_mul_of_nonneg_left ?_ (by positivity)) hD0.le
        rw [le_div_iff₀ hu1]; exact hma
    _ = _ := by field_simp

/-- The number of compartments in use is counted exactly. -/
theorem nValid_rounded (hk : ∀ k : ℕ, k ≤ M → rnd k = k) :
    t.nValid = ((Finset.univ.filter fun m => t.masks m = 1).card : ℝ) := by
  have hm := masks_rounded h ht
  obtain ⟨tmp, f⟩ := iterateF_facts ht
  obtain ⟨k, -, h2, h3⟩ := AddedUp.count h.rounds hk (h.sum t.masks) (by
    intro x hx
    rw [List.mem_ofFn] at hx
    obtain ⟨m, rfl⟩ := hx
    exact (hm m).1) (by rw [List.length_ofFn])
  rw [f.nValid, h2, h.whole, ← h3, List.sum_ofFn, Finset.card_filter, Nat.cast_sum]
  refine Finset.sum_congr rfl fun m _ => ?_
  rcases (hm m).1 with h0 | h0 <;> rw [h0] <;> simp

end Pass

theorem realDoubles_rounded : RoundedOps realDoubles double (2⁻¹ ^ 53) where
  rounds := double_rounds
  add _ _ := rfl
  sub _ _ := rfl
  mul _ _ := rfl
  div _ _ _ := rfl
  neg _ := rfl
  abs _ := rfl
  exp x := double_pos (Real.exp_pos x)
  half := rfl
  ofNat _ := rfl
  lt _ _ := Iff.rfl
  le _ _ := Iff.rfl
  eq _ _ := Iff.rfl
  sum v := seqSum_added _ _
  dot v w := seqDot_dotted _ _
  max _ := rfl
  min _ := rfl
  max2 _ _ := rfl
  sign _ := rfl
  clip0 _ := rfl
  neg_one := by rw [double_neg, double_one]
  whole _ := rfl

end Flory
