import Verif.Lemmas.Compartments
import Mathlib.Data.Rat.Defs
import Mathlib.Order.Bounds.Basic
import Mathlib.Tactic.NormNum
import Mathlib.Tactic.FinCases

/-!
# C30 – C33: masks and revival of compartments

The compartment functions of `flory/mcmp/_finder_impl.py`, for any ordered field, any number
of compartments, any random generator that respects the documented ranges.
-/

set_option linter.unusedSectionVars false

namespace Flory

/-- A generator used to show that hypotheses can be met: it always draws zero. -/
def rngZero (K : Type) [Zero K] : Rng Unit K where
  uniform _ := (0, ())
  normal _ := (0, ())
  integers _ _ := (0, ())

theorem rngZero_ok (K : Type) [Field K] [LinearOrder K] [IsStrictOrderedRing K] :
    (rngZero K).Ok where
  uniform_mem _ := by constructor <;> simp [rngZero]
  integers_lt _ _ h := h

variable {K G : Type} [Field K] [LinearOrder K] [IsStrictOrderedRing K] {R M : ℕ}

/-- **C30**. The mask is one for volumes above the threshold and zero for the others, and both
ways of counting living compartments (`count_valid_compartments`, `masks.sum()`) give the number
of volumes above the threshold. -/
theorem C30_masks (Js : Vec M K) (thr : K) :
    (∀ m, thr < Js m → makeMasks Js thr m = 1) ∧ (∀ m, Js m ≤ thr → makeMasks Js thr m = 0) ∧
    countValid Js thr = Fintype.card {m // thr < Js m} ∧
    ∑ m, makeMasks Js thr m = (Fintype.card {m // thr < Js m} : K) := by
  have hc : countValid Js thr = Fintype.card {m // thr < Js m} := by
    rw [countValid_eq, Fintype.card_subtype]
  refine ⟨fun m h => by simp [makeMasks_eq, h], fun m h => by simp [makeMasks_eq, not_lt.mpr h], hc,
    by rw [sum_masks, hc]⟩

example : makeMasks (![2, 1, -1] : Vec 3 ℚ) 1 = ![1, 0, 0] := by
  funext m; fin_cases m <;> simp [makeMasks_eq]

/-- **C31**. Random revival: living compartments are untouched; every dead compartment gets volume
one and fields within the scaled range of the old fields of the feature; the returned count is
the number of dead compartments; for a threshold below one nothing is dead afterwards. -/
theorem C31_random_revival [NeZero M] {rng : Rng G K} (hok : rng.Ok) (Js : Vec M K)
    (fields : Mat R M K) (thr scaler : K) (g : G) :
    let s := reviveByRandom rng Js fields thr scaler g
    (∀ m, thr < Js m → s.Js m = Js m ∧ ∀ r, s.targets r m = fields r m) ∧
    (∀ m, Js m ≤ thr → s.Js m = 1 ∧ ∀ r lo hi, IsLeast (Set.range (fields r)) lo →
      IsGreatest (Set.range (fields r)) hi →
      |s.targets r m - (lo + hi) / 2| ≤ |scaler| * ((hi - lo) / 2)) ∧
    s.count = Fintype.card {m // Js m ≤ thr} ∧
    (thr < 1 → ∀ m, thr < s.Js m) := by
  intro s
  obtain ⟨h1, h2, h3⟩ := reviveByRandom_spec hok Js fields thr scaler g
  refine ⟨h3, fun m hm => ⟨(h2 m hm).1, fun r lo hi hlo hhi => ?_⟩, ?_, fun ht m => ?_⟩
  · obtain ⟨u, hu1, hu2, e⟩ := (h2 m hm).2 r
    have elo : npMin (fields r) = lo := by
      apply le_antisymm
      · obtain ⟨i, hi'⟩ := hlo.1
        rw [← hi']; exact npMin_le _ _
      · obtain ⟨i, hi'⟩ := npMin_mem (fields r)
        rw [hi']; exact hlo.2 ⟨i, rfl⟩
    have ehi : npMax (fields r) = hi := by
      apply le_antisymm
      · obtain ⟨i, hi'⟩ := npMax_mem (fields r)
        rw [hi']; exact hhi.2 ⟨i, rfl⟩
      · obtain ⟨i, hi'⟩ := hhi.1
        rw [← hi']; exact le_npMax _ _
    rw [elo, ehi] at e
    have hle : lo ≤ hi := by rw [← elo, ← ehi]; exact npMin_le_npMax _
    have hw : (0 : K) ≤ (hi - lo) / 2 := by linarith
    have e' : s.targets r m - (lo + hi) / 2 = scaler * u * ((hi - lo) / 2) := by
      rw [show s.targets r m = _ from e]; ring
    rw [e', abs_mul, abs_mul, abs_of_nonneg hw]
    apply mul_le_mul_of_nonneg_right _ hw
    have : |u| ≤ 1 := abs_le.mpr ⟨hu1, hu2⟩
    calc |scaler| * |u| ≤ |scaler| * 1 := mul_le_mul_of_nonneg_left this (abs_nonneg _)
      _ = |scaler| := mul_one _
  · rw [Fintype.card_subtype]; exact h1
  · rcases lt_or_ge thr (Js m) with h | h
    · rw [(h3 m h).1]; exact h
    · rw [(h2 m h).1]; exact ht

/-- With the default scaler `1` a revived field lies between the smallest and the largest old
field of its feature. -/
theorem C31_random_revival_in_range [NeZero M] {rng : Rng G K} (hok : rng.Ok) (Js : Vec M K)
    (fields : Mat R M K) (thr : K) (g : G) (m : Fin M) (hm : Js m ≤ thr) (r : Fin R) :
    (∃ m', fields r m' ≤ (reviveByRandom rng Js fields thr 1 g).targets r m) ∧
    ∃ m', (reviveByRandom rng Js fields thr 1 g).targets r m ≤ fields r m' := by
  obtain ⟨i, hi⟩ := npMin_mem (fields r)
  obtain ⟨j, hj⟩ := npMax_mem (fields r)
  have := ((C31_random_revival hok Js fields thr 1 g).2.1 m hm).2 r (fields r i) (fields r j)
    ⟨⟨i, rfl⟩, by rintro _ ⟨k, rfl⟩; rw [← hi]; exact npMin_le _ _⟩
    ⟨⟨j, rfl⟩, by rintro _ ⟨k, rfl⟩; rw [← hj]; exact le_npMax _ _⟩
  rw [abs_le] at this
  simp only [abs_one] at this
  exact ⟨⟨i, by linarith [this.1]⟩, ⟨j, by linarith [this.2]⟩⟩

-- A dead compartment between two living ones gets volume one and fields between those of the others.
example : let s := reviveByRandom (rngZero ℚ) (![2, 0, 1] : Vec 3 ℚ) (![![1, 9, 3], ![-1, 7, 5]] : Mat 2 3 ℚ) 0 1 ()
    s.Js 0 = 2 ∧ s.Js 1 = 1 ∧ s.Js 2 = 1 ∧ s.targets 0 0 = 1 ∧ (∀ m, 0 < s.Js m) ∧
    (∃ m', (![![1, 9, 3], ![-1, 7, 5]] : Mat 2 3 ℚ) 1 m' ≤ s.targets 1 1) := by
  obtain ⟨h1, h2, -, h3⟩ := C31_random_revival (rngZero_ok ℚ) (![2, 0, 1] : Vec 3 ℚ)
    (![![1, 9, 3], ![-1, 7, 5]] : Mat 2 3 ℚ) 0 1 ()
  exact ⟨(h1 0 (by norm_num)).1, (h2 1 (by norm_num)).1, (h1 2 (show (0 : ℚ) < 1 by norm_num)).1, (h1 0 (by norm_num)).2 0,
    h3 one_pos, (C31_random_revival_in_range (rngZero_ok ℚ) _ _ 0 () 1 (by norm_num) 1).1⟩

/-- **C32**. If copy revival returns, compositions of living compartments are kept and their
volumes do not grow, every dead compartment carries the composition of one that was living, all
volumes are above the threshold, every additive quantity `∑ J w(composition)` held by the living
compartments is conserved (volume: `w = 1`; amount of component `r`: `w = φ_r`), and the returned
count is the number of dead compartments. -/
theorem C32_copy_revival_conserves {rng : Rng G K} (hok : rng.Ok) (Js : Vec M K) (T : Mat R M K)
    {thr : K} (hthr : 0 ≤ thr) (g : G) {s : CopyState R M K G}
    (hs : reviveByCopy rng Js T thr g = .ok s) :
    (∀ m, thr < Js m → (∀ r, s.targets r m = T r m) ∧ s.Js m ≤ Js m) ∧
    (∀ m, Js m ≤ thr → ∃ k, thr < Js k ∧ ∀ r, s.targets r m = T r k) ∧
    (∀ m, thr < s.Js m) ∧
    (∑ m, s.Js m = ∑ m with thr < Js m, Js m) ∧
    (∀ r, ∑ m, s.Js m * s.targets r m = ∑ m with thr < Js m, Js m * T r m) ∧
    (∀ w : (Fin R → K) → K, ∑ m, s.Js m * w (fun r => s.targets r m) =
      ∑ m with thr < Js m, Js m * w (fun r => T r m)) ∧
    s.count = Fintype.card {m // Js m ≤ thr} := by
  rcases reviveByCopy_spec hok Js T hthr g with ⟨h, _⟩ | ⟨s', h, hi⟩
  · rw [h] at hs; cases hs
  · rw [h] at hs; cases hs
    refine ⟨fun m hm => ⟨hi.keep m hm, hi.shrink m hm⟩, fun m _ => hi.src m (by simp),
      fun m => hi.above m (by simp), ?_, fun r => hi.conserve (fun v => v r), hi.conserve, ?_⟩
    · simpa using hi.conserve (fun _ => 1)
    · have := hi.count
      rw [Fintype.card_subtype]
      have h2 : (Finset.univ.filter fun m => Js m ≤ thr).card +
          (Finset.univ.filter fun m => thr < Js m).card = (Finset.univ : Finset (Fin M)).card := by
        rw [← Finset.card_filter_add_card_filter_not (s := Finset.univ) (fun m => Js m ≤ thr)]
        simp only [not_le]
      omega

/-- If the dead compartments are empty (as they are after the masking step of an iteration) the
totals over *all* compartments are conserved, as the docstring says. -/
theorem C32_copy_revival_conserves_total {rng : Rng G K} (hok : rng.Ok) (Js : Vec M K)
    (T : Mat R M K) {thr : K} (hthr : 0 ≤ thr) (g : G) {s : CopyState R M K G}
    (hs : reviveByCopy rng Js T thr g = .ok s) (hempty : ∀ m, Js m ≤ thr → Js m = 0) :
    ∑ m, s.Js m = ∑ m, Js m ∧ ∀ r, ∑ m, s.Js m * s.targets r m = ∑ m, Js m * T r m := by
  obtain ⟨-, -, -, h1, h2, -⟩ := C32_copy_revival_conserves hok Js T hthr g hs
  constructor
  · rw [h1, Finset.sum_filter]
    refine Finset.sum_congr rfl fun m _ => ?_
    split
    · rfl
    · rw [hempty m (by simp_all)]
  · intro r
    rw [h2, Finset.sum_filter]
    refine Finset.sum_congr rfl fun m _ => ?_
    split
    · rfl
    · rw [hempty m (by simp_all), zero_mul]

/-- **C33**. Copy revival is a total function that either returns or raises `ValueError` (from
`rng.integers(0, 0)`); it never accesses its index list out of range (`outOfBounds`).
It raises only after redistributing the living volume over some of the compartments such that
none of them has more than twice the threshold while a dead one is left. -/
theorem C33_copy_revival_outcomes {rng : Rng G K} (hok : rng.Ok) (Js : Vec M K) (T : Mat R M K)
    {thr : K} (hthr : 0 ≤ thr) (g : G) :
    (∃ s, reviveByCopy rng Js T thr g = .ok s) ∨
    (reviveByCopy rng Js T thr g = .error .valueError ∧
      ∃ (B : Finset (Fin M)) (J' : Vec M K), (∀ m, thr < Js m → m ∈ B) ∧ (∃ d, d ∉ B) ∧
        (∀ m ∈ B, thr < J' m ∧ J' m ≤ 2 * thr) ∧ ∑ m ∈ B, J' m = ∑ m with thr < Js m, Js m) := by
  rcases reviveByCopy_spec hok Js T hthr g with ⟨h, B, s', hi, hb, d, _, hd⟩ | ⟨s', h, _⟩
  · exact Or.inr ⟨h, B, s'.Js, hi.alive_sub, ⟨d, hd⟩, fun m hm => ⟨hi.above m hm, hb m hm⟩,
      by simpa using hi.conserve (fun _ => 1)⟩
  · exact Or.inl ⟨s', h⟩

/-- Copy revival succeeds whenever the living compartments hold more than `2 * thr` of volume per
compartment that may have to share it. -/
theorem C33_copy_revival_succeeds {rng : Rng G K} (hok : rng.Ok) (Js : Vec M K) (T : Mat R M K)
    {thr : K} (hthr : 0 ≤ thr) (g : G)
    (hmass : 2 * thr * ((M : K) - 1) < ∑ m with thr < Js m, Js m) :
    ∃ s, reviveByCopy rng Js T thr g = .ok s := by
  rcases C33_copy_revival_outcomes hok Js T hthr g with h | ⟨-, B, J', -, ⟨d, hd⟩, hb, hsum⟩
  · exact h
  · exfalso
    have h1 : ∑ m ∈ B, J' m ≤ ∑ _m ∈ B, 2 * thr := Finset.sum_le_sum fun m hm => (hb m hm).2
    rw [Finset.sum_const, nsmul_eq_mul] at h1
    have h2 : B.card + 1 ≤ M := by
      have := Finset.card_lt_univ_of_notMem hd
      simp only [Fintype.card_fin] at this
      omega
    have h3 : (B.card : K) ≤ (M : K) - 1 := by
      have : ((B.card + 1 : ℕ) : K) ≤ M := by exact_mod_cast h2
      push_cast at this; linarith
    have h4 : (B.card : K) * (2 * thr) ≤ ((M : K) - 1) * (2 * thr) :=
      mul_le_mul_of_nonneg_right h3 (by linarith)
    linarith

/-- With the default threshold zero it succeeds whenever any compartment is living. -/
theorem C33_copy_revival_default {rng : Rng G K} (hok : rng.Ok) (Js : Vec M K) (T : Mat R M K)
    (g : G) (hlive : ∃ m, 0 < Js m) : ∃ s, reviveByCopy rng Js T 0 g = .ok s := by
  apply C33_copy_revival_succeeds hok Js T le_rfl g
  obtain ⟨m, hm⟩ := hlive
  rw [mul_zero, zero_mul]
  exact Finset.sum_pos (fun i hi => by simpa using hi) ⟨m, by simpa using hm⟩

/-- It must fail, and does, when there is something to revive but nothing is living. -/
theorem C33_copy_revival_all_dead [NeZero M] {rng : Rng G K} (hok : rng.Ok) (Js : Vec M K)
    (T : Mat R M K) {thr : K} (hthr : 0 ≤ thr) (g : G) (hdead : ∀ m, Js m ≤ thr) :
    reviveByCopy rng Js T thr g = .error .valueError := by
  rcases reviveByCopy_spec hok Js T hthr g with ⟨h, _⟩ | ⟨s', h, hi⟩
  · exact h
  · obtain ⟨k, hk, _⟩ := hi.src 0 (by simp)
    exact absurd hk (not_lt.mpr (hdead k))

-- Non-vacuity: two living compartments and one dead one, default threshold.
example : ∃ s, reviveByCopy (rngZero ℚ) (![2, 0, 1] : Vec 3 ℚ)
    (fun (r : Fin 2) m => (r : ℚ) + m) 0 () = .ok s ∧
    ∑ m, s.Js m = 3 := by
  obtain ⟨s, hs⟩ := C33_copy_revival_default (rngZero_ok ℚ) (![2, 0, 1] : Vec 3 ℚ)
    (fun (r : Fin 2) m => (r : ℚ) + m) () ⟨0, by norm_num⟩
  refine ⟨s, hs, ?_⟩
  have := (C32_copy_revival_conserves_total (rngZero_ok ℚ) _ _ le_rfl () hs (by
    intro m; fin_cases m <;> simp)).1
  rw [this]; simp [Fin.sum_univ_three]; norm_num

/-- The docstring claim that the total volume is conserved fails if dead volumes are not zero
(a compartment killed in the last step of a run may have a negative volume). -/
theorem C32_total_volume_needs_empty_dead :
    ∃ s, reviveByCopy (rngZero ℚ) (![1, -1] : Vec 2 ℚ) (fun (_ : Fin 1) _ => 1) 0 () = .ok s ∧
      ∑ m, s.Js m ≠ ∑ m, (![1, -1] : Vec 2 ℚ) m := by
  obtain ⟨s, hs⟩ := C33_copy_revival_default (rngZero_ok ℚ) (![1, -1] : Vec 2 ℚ)
    (fun (_ : Fin 1) _ => 1) () ⟨0, by norm_num⟩
  refine ⟨s, hs, ?_⟩
  have := (C32_copy_revival_conserves (rngZero_ok ℚ) _ _ le_rfl () hs).2.2.2.1
  rw [this, Finset.sum_filter]
  simp only [Fin.sum_univ_two, Matrix.cons_val_zero, Matrix.cons_val_one]
  norm_num

end Flory
