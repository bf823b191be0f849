import Verif.Lemmas.SymmetricGround
import Verif.Props.Chance
import Verif.Props.Selection
import Verif.Props.Stability
import Mathlib.Algebra.Order.Chebyshev

/-! # C97: symmetric mixtures -/

set_option linter.unusedSectionVars false

namespace Flory

open Spec Finset SymMix

variable {C M : ℕ} {chi l s a : ℝ}

namespace SymMix

theorem transition_eq : transition C = ac C := rfl

theorem card_ge (hC : 3 ≤ C) : (3 : ℝ) ≤ C := by exact_mod_cast hC

theorem balanced_iff : ExcessBalanced C a s ↔ W C a s = 0 := by
  unfold ExcessBalanced W
  constructor <;> intro h <;> linarith

theorem order_pos (hC : 3 ≤ C) (h : OrderParameter C a s) : 1 / 2 ≤ s :=
  (half_le_sc (card_ge hC)).trans h.lower

/-- The chemical potential of every component of a phase of balanced excess is its free energy. -/
theorem chemPot_enriched (hC : 2 ≤ C) (hl : l ≠ 0) (h0 : 0 ≤ s) (h1 : s < 1)
    (hb : ExcessBalanced C (l * chi) s) (k i : Fin C) :
    chemPot (symmetricChis C chi) (fun _ => l) (enriched C s k) i = E C (l * chi) s / l + chi / 2 := by
  have hc : (0 : ℝ) < C := by exact_mod_cast (by omega : 0 < C)
  have hC1 : (2 : ℝ) ≤ C := by exact_mod_cast hC
  have hp : 0 < 1 + ((C : ℝ) - 1) * s := by nlinarith
  have hu : ∀ i, Real.log (enriched C s k i) - l * chi * enriched C s k i =
      Real.log ((1 - s) / C) - l * chi * ((1 - s) / C) := by
    intro i
    unfold enriched
    split_ifs with h
    · rw [Real.log_div hp.ne' hc.ne', Real.log_div (by linarith) hc.ne']
      unfold ExcessBalanced at hb
      have : l * chi * ((1 + (C - 1) * s) / C) = l * chi * s + l * chi * ((1 - s) / C) := by
        field_simp; ring
      linarith
    · rfl
  rw [chemPot_sym hl (sum_enriched (by omega) k), hu i]
  rw [sum_enriched_eq (fun t => t ^ 2) k]
  unfold E
  rw [Real.log_div hp.ne' hc.ne', Real.log_div (by linarith) hc.ne']
  unfold ExcessBalanced at hb
  have hlog : Real.log (1 + (C - 1) * s) = Real.log (1 - s) + l * chi * s := by linarith
  rw [hlog]
  field_simp
  ring

theorem far_enriched (hs : 1 / 2 ≤ s) {k j : Fin C} (h : k ≠ j) :
    1 / 100 < eucl (enriched C s k) (enriched C s j) := by
  refine lt_of_lt_of_le ?_ (abs_le_eucl _ _ k)
  have hc : (0 : ℝ) < C := by exact_mod_cast k.pos
  unfold enriched
  rw [if_pos rfl, if_neg h]
  have : (1 + ((C : ℝ) - 1) * s) / C - (1 - s) / C = s := by field_simp; ring
  rw [this, abs_of_pos (by linarith)]
  linarith

end SymMix

/-! ## Phases -/

/-- **C97**: above the transition there is exactly one order parameter. -/
theorem C97_order (hC : 3 ≤ C) (ha : transition C ≤ a) : ∃! s, OrderParameter C a s := by
  obtain ⟨s, h0, h1, h⟩ := order_exists (card_ge hC) ha
  refine ⟨s, ⟨h0, h1, balanced_iff.2 h⟩, fun t ht => ?_⟩
  exact order_unique (card_ge hC) ha ht.lower ht.lt_one (balanced_iff.1 ht.balanced) h0 h1 h

/-- **C97**: phases with balanced excess that have the same free energy coexist. -/
theorem C97_coexist (hC : 2 ≤ C) (hl : 0 < l) {sigma : Vec M ℝ} {k : Fin M → Fin C} (h0 : ∀ m, 0 ≤ sigma m)
    (h1 : ∀ m, sigma m < 1) (hb : ∀ m, ExcessBalanced C (l * chi) (sigma m))
    (hE : ∀ m n, freeEnergy (symmetricChis C chi) (fun _ => l) (enriched C (sigma m) (k m)) =
      freeEnergy (symmetricChis C chi) (fun _ => l) (enriched C (sigma n) (k n)))
    {J : Vec M ℝ} {phiMeans : Vec C ℝ} (hJ : ∑ m, J m = M)
    (hmean : ∀ i, ∑ m, J m * enriched C (sigma m) (k m) i = M * phiMeans i) :
    Coexistence (symmetricChis C chi) id (fun _ => l) phiMeans J fun i m => enriched C (sigma m) (k m) i := by
  refine ⟨hJ, fun i m => enriched_pos (by omega) (h0 m) (h1 m) _ _, fun m => sum_enriched (by omega) _, hmean, ?_⟩
  by_cases hM : Nonempty (Fin M)
  · obtain ⟨m₀⟩ := hM
    refine ⟨fun _ => freeEnergy (symmetricChis C chi) (fun _ => l) (enriched C (sigma m₀) (k m₀)), fun i m => ?_⟩
    rw [hE m₀ m, freeEnergy_enriched (by omega) hl.ne']
    exact chemPot_enriched hC hl.ne' (h0 m) (h1 m) (hb m) (k m) i
  · exact ⟨0, fun i m => absurd ⟨m⟩ hM⟩

/-- **C97**: a phase is stable exactly below this interaction. -/
theorem C97_stable_iff (hC : 2 ≤ C) (hl : 0 < l) (h0 : 0 ≤ s) (h1 : s < 1) (k : Fin C) :
    StablePhase (symmetricChis C chi) id (fun _ => l) (enriched C s k) ↔
      l * chi * ((1 + (C - 1) * s) * (1 - s)) < C := by
  have hc : (0 : ℝ) < C := by exact_mod_cast (by omega : 0 < C)
  have hC1 : (2 : ℝ) ≤ C := by exact_mod_cast hC
  set h : ℝ := (1 + (C - 1) * s) / C with hh
  set x : ℝ := (1 - s) / C with hx
  have hp : 0 < h := div_pos (by nlinarith) hc
  have hq : 0 < x := div_pos (by linarith) hc
  have hxh : x ≤ h := by rw [hh, hx]; exact div_le_div_of_nonneg_right (by nlinarith) hc.le
  have hsum : h + (C - 1) * x = 1 := by rw [hh, hx]; field_simp; ring
  have hprod : (1 + ((C : ℝ) - 1) * s) * (1 - s) = C ^ 2 * (h * x) := by rw [hh, hx]; field_simp
  have hform : ∀ z : Vec C ℝ, ∑ i, z i = 0 →
      ∑ i, z i ^ 2 / (l * enriched C s k i) + ∑ i, ∑ j, symmetricChis C chi (id i) (id j) * z i * z j =
        ((1 / x - l * chi) * ∑ i, z i ^ 2 - (1 / x - 1 / h) * z k ^ 2) / l := by
    intro z hz
    have e1 : ∀ i, z i ^ 2 / (l * enriched C s k i) =
        1 / (l * x) * z i ^ 2 + if k = i then (1 / (l * h) - 1 / (l * x)) * z k ^ 2 else 0 := by
      intro i
      unfold enriched
      by_cases hi : i = k
      · subst hi; rw [if_pos rfl, if_pos rfl, ← hh]; field_simp; ring
      · rw [if_neg hi, if_neg (Ne.symm hi), ← hx]; field_simp; ring
    have e2 : ∑ i, ∑ j, symmetricChis C chi (id i) (id j) * z i * z j = -chi * ∑ i, z i ^ 2 := by
      have := quad_sym (chi := chi) z
      rw [hz] at this
      simp only [id]
      rw [this]
      ring
    rw [sum_congr rfl fun i _ => e1 i, sum_add_distrib, sum_ite_eq, if_pos (mem_univ _), ← mul_sum, e2]
    field_simp
    ring
  rw [hprod]
  have hiff : l * chi * (C ^ 2 * (h * x)) < C ↔ l * chi < (1 / x + (C - 1) / h) / C := by
    have : (1 / x + ((C : ℝ) - 1) / h) / C = 1 / (C * (h * x)) := by
      rw [div_add_div _ _ hq.ne' hp.ne', div_div, div_eq_div_iff (by positivity) (by positivity)]
      linear_combination (x * h * C) * hsum
    rw [this, lt_div_iff₀ (by positivity)]
    constructor <;> intro h' <;> nlinarith
  rw [hiff]
  constructor
  · intro hst
    have hz : ∑ i, (fun i : Fin C => if k = i then -((C : ℝ) - 1) else 1) i = 0 := by
      have : ∀ i : Fin C, (if k = i then -((C : ℝ) - 1) else 1) = 1 + if k = i then -(C : ℝ) else 0 := by
        intro i; split_ifs <;> ring
      rw [sum_congr rfl fun i _ => this i, sum_add_distrib, sum_ite_eq, if_pos (mem_univ _)]
      simp
    have h2 := hst (fun i => if k = i then -((C : ℝ) - 1) else 1) hz (by
      intro e
      have := congrFun e k
      simp only [if_true, Pi.zero_apply] at this
      linarith)
    have hz2 : ∑ i, (fun i : Fin C => if k = i then -((C : ℝ) - 1) else 1) i ^ 2 = C * (C - 1) := by
      have : ∀ i : Fin C, (if k = i then -((C : ℝ) - 1) else 1) ^ 2 = 1 + if k = i then ((C : ℝ) - 1) ^ 2 - 1 else 0 := by
        intro i; split_ifs <;> ring
      rw [sum_congr rfl fun i _ => this i, sum_add_distrib, sum_ite_eq, if_pos (mem_univ _)]
      simp
      ring
    rw [hform _ hz, hz2] at h2
    simp only [if_true] at h2
    have h3 := (div_pos_iff_of_pos_right hl).1 h2
    rw [lt_div_iff₀ hc]
    have hC2 : (0 : ℝ) < C - 1 := by linarith
    have e : (1 / x - l * chi) * (C * (C - 1)) - (1 / x - 1 / h) * (-((C : ℝ) - 1)) ^ 2 =
        (C - 1) * (1 / x + (C - 1) / h - l * chi * C) := by ring
    rw [e] at h3
    linarith [(mul_pos_iff_of_pos_left hC2).1 h3]
  · intro ha z hz hz0
    rw [hform z hz]
    refine div_pos ?_ hl
    have hS : 0 < ∑ i, z i ^ 2 := by
      obtain ⟨i, hi⟩ := Function.ne_iff.1 hz0
      exact sum_pos' (fun i _ => sq_nonneg _) ⟨i, mem_univ _, by have : z i ≠ 0 := hi; positivity⟩
    have hcs : (C : ℝ) * z k ^ 2 ≤ (C - 1) * ∑ i, z i ^ 2 := by
      have h1 := sq_sum_le_card_mul_sum_sq (s := univ.erase k) (f := z)
      have e1 := add_sum_erase univ z (mem_univ k)
      have e2 := add_sum_erase univ (fun i => z i ^ 2) (mem_univ k)
      have ec : ((univ.erase k).card : ℝ) = C - 1 := by
        rw [card_erase_of_mem (mem_univ _), card_univ, Fintype.card_fin, Nat.cast_sub (by omega)]
        simp
      rw [ec] at h1
      have e3 : ∑ i ∈ univ.erase k, z i = -z k := by rw [hz] at e1; linarith
      rw [e3] at h1
      nlinarith
    have hd : 0 ≤ 1 / x - 1 / h := by
      have := one_div_le_one_div_of_le hq hxh
      linarith
    rw [lt_div_iff₀ hc] at ha
    have h3 : (1 / x - 1 / h) * (C * z k ^ 2) ≤ (1 / x - 1 / h) * ((C - 1) * ∑ i, z i ^ 2) :=
      mul_le_mul_of_nonneg_left hcs hd
    have h4 : 0 < (1 / x + (C - 1) / h - l * chi * C) * ∑ i, z i ^ 2 := mul_pos (by linarith) hS
    have e : (1 / x + ((C : ℝ) - 1) / h - l * chi * C) * ∑ i, z i ^ 2 =
        C * ((1 / x - l * chi) * ∑ i, z i ^ 2) - (1 / x - 1 / h) * ((C - 1) * ∑ i, z i ^ 2) := by ring
    rw [e] at h4
    have h5 : 0 < C * ((1 / x - l * chi) * ∑ i, z i ^ 2 - (1 / x - 1 / h) * z k ^ 2) := by
      rw [mul_sub]; linarith
    exact (mul_pos_iff_of_pos_left hc).1 h5

/-- **C97**: the phases above the transition are stable. -/
theorem C97_stable (hC : 3 ≤ C) (hl : 0 < l) (ha : transition C ≤ l * chi) (hs : OrderParameter C (l * chi) s)
    (k : Fin C) : StablePhase (symmetricChis C chi) id (fun _ => l) (enriched C s k) := by
  have hs2 := order_pos hC hs
  have hn := card_ge hC
  have h := W_slope hn ha (by linarith [hs.lower, sc_pos hn, show sc C ≤ s from hs.lower]) hs.lt_one
    (balanced_iff.1 hs.balanced)
  rw [C97_stable_iff (by omega) hl (by linarith) hs.lt_one]
  have : 0 < (1 + ((C : ℝ) - 1) * s) * (1 - s) := mul_pos (by nlinarith) (by linarith [hs.lt_one])
  rwa [lt_div_iff₀ this] at h

/-! ## Least free energy -/

namespace SymMix

theorem least_family (hC : 2 ≤ C) (hl : 0 < l) {y : Vec C ℝ} (h0 : ∀ i, 0 ≤ y i) (h1 : ∑ i, y i = 1) :
    (∃ t, 0 ≤ t ∧ t < 1 ∧ ∃ k, y = enriched C t k) ∨
      ∃ t, 0 ≤ t ∧ t < 1 ∧ ∀ k, freeEnergy (symmetricChis C chi) (fun _ => l) (enriched C t k) <
        freeEnergy (symmetricChis C chi) (fun _ => l) y := by
  obtain ⟨z, hz⟩ := best_exists (C := C) (by omega) (l * chi)
  obtain ⟨t, k, ht0, ht1, e⟩ := best_enriched hC hz
  by_cases hy : Best C (l * chi) y
  · obtain ⟨t, k, ht0, ht1, e⟩ := best_enriched hC hy
    exact .inl ⟨t, ht0, ht1, k, e⟩
  · refine .inr ⟨t, ht0, ht1, fun j => ?_⟩
    have hlt : ∑ i, g (l * chi) (z i) < ∑ i, g (l * chi) (y i) := by
      by_contra h
      exact hy ⟨h0, h1, fun w hw0 hw1 => (not_lt.1 h).trans (hz.2.2 w hw0 hw1)⟩
    rw [freeEnergy_enriched (by omega) hl.ne', ← freeEnergy_enriched (by omega) hl.ne' k, ← e,
      freeEnergy_sym hl.ne' hz.2.1, freeEnergy_sym hl.ne' h1]
    have := div_lt_div_of_pos_right hlt hl
    linarith

theorem enriched_zero (k : Fin C) : enriched C 0 k = fun _ => 1 / (C : ℝ) := by
  funext i; unfold enriched; simp

end SymMix

/-- **C97**: below the transition the mixed state has the least free energy. -/
theorem C97_mixed (hC : 3 ≤ C) (hl : 0 < l) (ha : l * chi < transition C) {y : Vec C ℝ} (h0 : ∀ i, 0 ≤ y i)
    (h1 : ∑ i, y i = 1) (hy : y ≠ fun _ => 1 / (C : ℝ)) :
    freeEnergy (symmetricChis C chi) (fun _ => l) (fun _ => 1 / (C : ℝ)) <
      freeEnergy (symmetricChis C chi) (fun _ => l) y := by
  have key : ∀ t, 0 ≤ t → t < 1 → ∀ k, freeEnergy (symmetricChis C chi) (fun _ => l) (fun _ => 1 / (C : ℝ)) ≤
      freeEnergy (symmetricChis C chi) (fun _ => l) (enriched C t k) ∧ (t ≠ 0 →
      freeEnergy (symmetricChis C chi) (fun _ => l) (fun _ => 1 / (C : ℝ)) <
      freeEnergy (symmetricChis C chi) (fun _ => l) (enriched C t k)) := by
    intro t ht0 ht1 k
    rw [← enriched_zero k, freeEnergy_enriched (by omega) hl.ne', freeEnergy_enriched (by omega) hl.ne']
    rcases ht0.eq_or_lt with rfl | h
    · exact ⟨le_rfl, fun h => absurd rfl h⟩
    · have := div_lt_div_of_pos_right (E_mixed (card_ge hC) ha h ht1.le) hl
      exact ⟨by linarith, fun _ => by linarith⟩
  rcases least_family (chi := chi) (by omega) hl h0 h1 with ⟨t, ht0, ht1, k, rfl⟩ | ⟨t, ht0, ht1, h⟩
  · exact (key t ht0 ht1 k).2 fun e => hy (by rw [e, enriched_zero])
  · exact (key t ht0 ht1 ⟨0, by omega⟩).1.trans_lt (h _)

/-- **C97**: above the transition the separated phases have the least free energy. -/
theorem C97_separated (hC : 3 ≤ C) (hl : 0 < l) (ha : transition C < l * chi) (hs : OrderParameter C (l * chi) s)
    (k : Fin C) {y : Vec C ℝ} (h0 : ∀ i, 0 ≤ y i) (h1 : ∑ i, y i = 1) :
    freeEnergy (symmetricChis C chi) (fun _ => l) (enriched C s k) ≤
      freeEnergy (symmetricChis C chi) (fun _ => l) y ∧
    (freeEnergy (symmetricChis C chi) (fun _ => l) (enriched C s k) =
      freeEnergy (symmetricChis C chi) (fun _ => l) y ↔ ∃ j, y = enriched C s j) := by
  have key : ∀ t, 0 ≤ t → t < 1 → ∀ j, freeEnergy (symmetricChis C chi) (fun _ => l) (enriched C s k) ≤
      freeEnergy (symmetricChis C chi) (fun _ => l) (enriched C t j) ∧ (t ≠ s →
      freeEnergy (symmetricChis C chi) (fun _ => l) (enriched C s k) <
      freeEnergy (symmetricChis C chi) (fun _ => l) (enriched C t j)) := by
    intro t ht0 ht1 j
    rw [freeEnergy_enriched (by omega) hl.ne', freeEnergy_enriched (by omega) hl.ne']
    by_cases h : t = s
    · subst h
      exact ⟨le_rfl, fun h => absurd rfl h⟩
    · have := div_lt_div_of_pos_right (E_separated (card_ge hC) ha hs.lower hs.lt_one
        (balanced_iff.1 hs.balanced) ht0 ht1.le h) hl
      exact ⟨by linarith, fun _ => by linarith⟩
  have hle : ∀ {y : Vec C ℝ}, (∃ j, y = enriched C s j) → freeEnergy (symmetricChis C chi) (fun _ => l)
      (enriched C s k) = freeEnergy (symmetricChis C chi) (fun _ => l) y := by
    rintro _ ⟨j, rfl⟩
    rw [freeEnergy_enriched (by omega) hl.ne', freeEnergy_enriched (by omega) hl.ne']
  rcases least_family (chi := chi) (by omega) hl h0 h1 with ⟨t, ht0, ht1, j, rfl⟩ | ⟨t, ht0, ht1, h⟩
  · refine ⟨(key t ht0 ht1 j).1, fun e => ?_, hle⟩
    by_cases hts : t = s
    · exact ⟨j, by rw [hts]⟩
    · exact absurd e ((key t ht0 ht1 j).2 hts).ne
  · have := (key t ht0 ht1 ⟨0, by omega⟩).1.trans_lt (h _)
    exact ⟨this.le, fun e => absurd e this.ne, hle⟩

/-- **C97**: at the transition the mixed state and the separated phases have the same free energy, which is the
least. -/
theorem C97_transition (hC : 3 ≤ C) (hl : 0 < l) (ha : l * chi = transition C) (hs : s = ((C : ℝ) - 2) / (C - 1))
    (k : Fin C) {y : Vec C ℝ} (h0 : ∀ i, 0 ≤ y i) (h1 : ∑ i, y i = 1) :
    freeEnergy (symmetricChis C chi) (fun _ => l) (fun _ => 1 / (C : ℝ)) =
      freeEnergy (symmetricChis C chi) (fun _ => l) (enriched C s k) ∧
    freeEnergy (symmetricChis C chi) (fun _ => l) (fun _ => 1 / (C : ℝ)) ≤
      freeEnergy (symmetricChis C chi) (fun _ => l) y ∧
    (freeEnergy (symmetricChis C chi) (fun _ => l) (fun _ => 1 / (C : ℝ)) =
      freeEnergy (symmetricChis C chi) (fun _ => l) y ↔ y = (fun _ => 1 / (C : ℝ)) ∨ ∃ j, y = enriched C s j) := by
  have hn := card_ge hC
  have hs' : s = sc C := hs
  have ha' : l * chi = ac C := ha
  have hE : ∀ j, freeEnergy (symmetricChis C chi) (fun _ => l) (fun _ => 1 / (C : ℝ)) =
      freeEnergy (symmetricChis C chi) (fun _ => l) (enriched C s j) := by
    intro j
    rw [← enriched_zero j, freeEnergy_enriched (by omega) hl.ne', freeEnergy_enriched (by omega) hl.ne', ha', hs',
      E_sc hn]
  have key : ∀ t, 0 ≤ t → t < 1 → ∀ j, freeEnergy (symmetricChis C chi) (fun _ => l) (fun _ => 1 / (C : ℝ)) ≤
      freeEnergy (symmetricChis C chi) (fun _ => l) (enriched C t j) ∧ (t ≠ 0 → t ≠ s →
      freeEnergy (symmetricChis C chi) (fun _ => l) (fun _ => 1 / (C : ℝ)) <
      freeEnergy (symmetricChis C chi) (fun _ => l) (enriched C t j)) := by
    intro t ht0 ht1 j
    by_cases h : t = s
    · subst h
      exact ⟨(hE j).le, fun _ h => absurd rfl h⟩
    · by_cases h' : t = 0
      · subst h'
        rw [enriched_zero]
        exact ⟨le_rfl, fun h => absurd rfl h⟩
      · rw [← enriched_zero j, freeEnergy_enriched (by omega) hl.ne', freeEnergy_enriched (by omega) hl.ne', ha']
        have := div_lt_div_of_pos_right (E_transition hn ht0 ht1.le h' (by rwa [← hs'])) hl
        exact ⟨by linarith, fun _ _ => by linarith⟩
  have hle : ∀ {y : Vec C ℝ}, (y = (fun _ => 1 / (C : ℝ)) ∨ ∃ j, y = enriched C s j) →
      freeEnergy (symmetricChis C chi) (fun _ => l) (fun _ => 1 / (C : ℝ)) =
        freeEnergy (symmetricChis C chi) (fun _ => l) y := by
    rintro _ (rfl | ⟨j, rfl⟩)
    · rfl
    · exact hE j
  refine ⟨hE k, ?_⟩
  rcases least_family (chi := chi) (by omega) hl h0 h1 with ⟨t, ht0, ht1, j, rfl⟩ | ⟨t, ht0, ht1, h⟩
  · refine ⟨(key t ht0 ht1 j).1, fun e => ?_, hle⟩
    by_cases hts : t = s
    · exact .inr ⟨j, by rw [hts]⟩
    · by_cases h' : t = 0
      · exact .inl (by rw [h', enriched_zero])
      · exact absurd e ((key t ht0 ht1 j).2 h' hts).ne
  · have := (key t ht0 ht1 ⟨0, by omega⟩).1.trans_lt (h _)
    exact ⟨this.le, fun e => absurd e this.ne, hle⟩

namespace SymMix

theorem mean_enriched (hC : 0 < C) {J : Vec M ℝ} {k : Fin M → Fin C} (hJ : ∑ m, J m = M) (i : Fin C) :
    ∑ m, J m * enriched C s (k m) i = M * ((1 - s) / C) + s * ∑ m with k m = i, J m := by
  have hc : (C : ℝ) ≠ 0 := by exact_mod_cast hC.ne'
  have h : ∀ m, J m * enriched C s (k m) i = J m * ((1 - s) / C) + if k m = i then s * J m else 0 := by
    intro m
    unfold enriched
    by_cases h : i = k m
    · rw [if_pos h, if_pos h.symm]; field_simp; ring
    · rw [if_neg h, if_neg (Ne.symm h), add_zero]
  rw [sum_congr rfl fun m _ => h m, sum_add_distrib, ← sum_mul, hJ, ← sum_filter, mul_sum]

end SymMix

/-- **C97**: above the transition, a division of the mixture with equal amounts of all components into phases of
positive volumes has the least free energy of all divisions exactly if all its phases are separated phases; then
each of them has the same share of the volume. -/
theorem C97_divisions (hC : 3 ≤ C) (hl : 0 < l) (ha : transition C < l * chi) (hs : OrderParameter C (l * chi) s)
    {J : Vec M ℝ} {psi : Fin M → Vec C ℝ} (hp : Partition (fun _ : Fin C => 1 / (C : ℝ)) J psi)
    (hJ : ∀ m, 0 < J m) :
    (LowerBound (symmetricChis C chi) (fun _ => l) (fun _ => 1 / (C : ℝ))
        (meanEnergy (symmetricChis C chi) (fun _ => l) J psi) ↔ ∀ m, ∃ k, psi m = enriched C s k) ∧
    ∀ k : Fin M → Fin C, (∀ m, psi m = enriched C s (k m)) → ∀ i, ∑ m with k m = i, J m = M / C := by
  have hs2 := order_pos hC hs
  have hc : (0 : ℝ) < C := by exact_mod_cast (by omega : 0 < C)
  have hM : (0 : ℝ) < M := by exact_mod_cast hp.count
  let k₀ : Fin C := ⟨0, by omega⟩
  set f := freeEnergy (symmetricChis C chi) (fun _ => l) (enriched C s k₀) with hf
  have hlow : ∀ {N : ℕ} {J' : Vec N ℝ} {psi' : Fin N → Vec C ℝ}, Partition (fun _ : Fin C => 1 / (C : ℝ)) J' psi' →
      f ≤ meanEnergy (symmetricChis C chi) (fun _ => l) J' psi' := by
    intro N J' psi' hp'
    have hN : (0 : ℝ) < N := by exact_mod_cast hp'.count
    unfold meanEnergy
    rw [le_div_iff₀ hN, ← hp'.volumes, mul_sum]
    refine sum_le_sum fun m _ => ?_
    rw [mul_comm]
    exact mul_le_mul_of_nonneg_left (C97_separated hC hl ha hs k₀ (hp'.frac m) (hp'.fill m)).1 (hp'.nonneg m)
  have hmean : (∀ m, ∃ k, psi m = enriched C s k) → meanEnergy (symmetricChis C chi) (fun _ => l) J psi = f := by
    intro h
    unfold meanEnergy
    rw [div_eq_iff hM.ne', ← hp.volumes, mul_sum]
    refine sum_congr rfl fun m _ => ?_
    rw [← (C97_separated hC hl ha hs k₀ (hp.frac m) (hp.fill m)).2.2 (h m), mul_comm]
  refine ⟨⟨fun h m => ?_, fun h N J' psi' hp' => ?_⟩, fun k hk i => ?_⟩
  · have hpart : Partition (M := C) (fun _ : Fin C => 1 / (C : ℝ)) (fun _ => 1) fun k => enriched C s k := by
      refine ⟨by omega, fun _ => zero_le_one, by simp, fun m i =>
        (enriched_pos (by omega) (by linarith) hs.lt_one _ _).le, fun m => sum_enriched (by omega) m, fun i => ?_⟩
      rw [mean_enriched (by omega) (by simp) i, sum_filter, sum_ite_eq', if_pos (mem_univ _)]
      field_simp
      ring
    have h1 := h C _ _ hpart
    have h2 : meanEnergy (symmetricChis C chi) (fun _ => l) (fun _ : Fin C => (1 : ℝ)) (fun k => enriched C s k) = f := by
      unfold meanEnergy
      rw [div_eq_iff hc.ne', sum_congr rfl fun m _ => show 1 * freeEnergy (symmetricChis C chi) (fun _ => l)
        (enriched C s m) = f by
          rw [one_mul, hf, freeEnergy_enriched (by omega) hl.ne', freeEnergy_enriched (by omega) hl.ne']]
      rw [sum_const, card_univ, Fintype.card_fin, nsmul_eq_mul, mul_comm]
    rw [h2] at h1
    by_contra hm
    have hlt : f < meanEnergy (symmetricChis C chi) (fun _ => l) J psi := by
      unfold meanEnergy
      rw [lt_div_iff₀ hM, ← hp.volumes, mul_sum]
      refine sum_lt_sum (fun m _ => ?_) ⟨m, mem_univ _, ?_⟩
      · rw [mul_comm]
        exact mul_le_mul_of_nonneg_left (C97_separated hC hl ha hs k₀ (hp.frac m) (hp.fill m)).1 (hp.nonneg m)
      · rw [mul_comm]
        have hsep := C97_separated hC hl ha hs k₀ (hp.frac m) (hp.fill m)
        exact mul_lt_mul_of_pos_left (lt_of_le_of_ne hsep.1 fun e => hm (hsep.2.1 e)) (hJ m)
    linarith
  · rw [hmean h]
    exact hlow hp'
  · have h1 := hp.mean i
    rw [sum_congr rfl fun m _ => by rw [hk m], mean_enriched (by omega) hp.volumes i] at h1
    have hs0 : s ≠ 0 := by linarith
    rw [eq_div_iff hc.ne']
    refine mul_left_cancel₀ hs0 ?_
    field_simp at h1
    linear_combination h1

/-- **C97**: the separated phases coexist when each of them fills the same number of compartments. -/
theorem C97_separated_coexist (hC : 3 ≤ C) (hl : 0 < l) (hs : OrderParameter C (l * chi) s)
    {k : Fin M → Fin C} (hk : ∀ i, C * Fintype.card {m // k m = i} = M) :
    Coexistence (symmetricChis C chi) id (fun _ => l) (fun _ => 1 / (C : ℝ)) (fun _ => 1)
      fun i m => enriched C s (k m) i := by
  have hs2 := order_pos hC hs
  have hc : (0 : ℝ) < C := by exact_mod_cast (by omega : 0 < C)
  refine C97_coexist (sigma := fun _ => s) (by omega) hl (fun _ => by linarith) (fun _ => hs.lt_one)
    (fun _ => hs.balanced) (fun m n => ?_) (by simp) fun i => ?_
  · rw [freeEnergy_enriched (by omega) hl.ne', freeEnergy_enriched (by omega) hl.ne']
  · rw [mean_enriched (by omega) (by simp) i]
    have : (∑ m with k m = i, (1 : ℝ)) = M / C := by
      have h := hk i
      rw [Fintype.card_subtype] at h
      rw [sum_const, nsmul_eq_mul, mul_one, eq_div_iff hc.ne', mul_comm]
      exact_mod_cast h
    rw [this]
    field_simp
    ring

/-! ## Searches -/

open MeasureTheory ProbabilityTheory

variable {G : Type}

/-- **C97**: from the transition on, `find_coexisting_phases` finds the separated phases with positive
probability. -/
theorem C97_search {env : FinderEnv G} (hrng : env.rng.Ok) (ext : PhasesExt) [NeZero C] [NeZero M]
    (hext : ∀ {P : ℕ} (x : Phases P C ℝ), 2 ≤ P → FCluster (1 / 100) x.fractions (ext.labels x))
    (hC : 3 ≤ C) (hl : 0 < l) (ha : transition C ≤ l * chi) (hs : OrderParameter C (l * chi) s)
    {k : Fin M → Fin C} (hk : ∀ i, C * Fintype.card {m // k m = i} = M) {ρ : ℝ} (hρ : 0 < ρ) (hρl : ρ < 4 * l) :
    ∃ s₀, ∀ shift, s₀ ≤ shift → ∃ a₀ > 0, ∀ a : FinderArgs, Careful C M shift ρ a₀ a →
      ∀ ε > 0, ε ≤ 1 / 200 → ∃ p > 0, ∃ N : ℕ, ∀ maxSteps : ℚ, N ≤ maxSteps →
      ∀ {Ω : Type} [MeasurableSpace Ω] {P : Measure Ω} {g : Ω → G}, NormalDraws P env.rng g (C * M) →
        p ≤ P (foundEvent env ext g (symmetricChis C chi) (fun _ => l) (fun _ => 1 / (C : ℝ)) a maxSteps
          (fun i (m : Fin M) => enriched C s (k m) i) ε) := by
  have hs2 := order_pos hC hs
  refine C94_found hrng ext hext chis_symm (fun _ => hl) (C97_separated_coexist hC hl hs hk)
    (fun m => C97_stable hC hl ha hs (k m)) ?_ hρ fun _ => hρl
  rintro m n ⟨i, hi⟩
  exact far_enriched hs2 fun e => hi (by rw [e])

/-- **C97**: a search that finds the separated phases returns one per component. -/
theorem C97_count (hs : 1 / 2 ≤ s) {k : Fin M → Fin C} (hk : Function.Surjective k) {ε : ℝ}
    (hε : ε ≤ 1 / 200) {r : ShortcutResult} (h : Finds (fun i (m : Fin M) => enriched C s (k m) i) ε r) :
    r.numPhases = C := by
  rw [C94_count hε ?_ h]
  · have hr : (Set.range fun (m : Fin M) (i : Fin C) => enriched C s (k m) i) = Set.range (enriched C s) := by
      ext v
      constructor
      · rintro ⟨m, rfl⟩; exact ⟨k m, rfl⟩
      · rintro ⟨j, rfl⟩
        obtain ⟨m, rfl⟩ := hk j
        exact ⟨m, rfl⟩
    have hinj : Function.Injective (enriched C s) := by
      intro i j hij
      by_contra hne
      have := far_enriched hs hne
      rw [hij] at this
      simp [eucl] at this
      linarith
    rw [hr, Nat.card_range_of_injective hinj, Nat.card_fin]
  · rintro m n ⟨i, hi⟩
    exact far_enriched hs fun e => hi (by rw [e])

/-- **C97**: between the transition and the spinodal the same search also returns the mixed state with positive
probability. -/
theorem C97_chance {env : FinderEnv G} (hrng : env.rng.Ok) (ext : PhasesExt) [NeZero C] [NeZero M]
    (hext : ∀ {P : ℕ} (x : Phases P C ℝ), 2 ≤ P → FCluster (1 / 100) x.fractions (ext.labels x))
    (hC : 3 ≤ C) (hl : 0 < l) (ha : transition C ≤ l * chi) (hs : OrderParameter C (l * chi) s)
    (hspin : l * chi < C)
    {k : Fin M → Fin C} (hk : ∀ i, C * Fintype.card {m // k m = i} = M) {ρ : ℝ} (hρ : 0 < ρ) (hρl : ρ < 4 * l) :
    ∃ s₀, ∀ shift, s₀ ≤ shift → ∃ a₀ > 0, ∀ a : FinderArgs, Careful C M shift ρ a₀ a →
      ∀ ε > 0, ε ≤ 1 / 200 → ∃ p > 0, ∃ N : ℕ, ∀ maxSteps : ℚ, N ≤ maxSteps →
      ∀ {Ω : Type} [MeasurableSpace Ω] {P : Measure Ω} {g : Ω → G}, NormalDraws P env.rng g (C * M) →
        p ≤ P (foundEvent env ext g (symmetricChis C chi) (fun _ => l) (fun _ => 1 / (C : ℝ)) a maxSteps
          (fun i (m : Fin M) => enriched C s (k m) i) ε) ∧
        p ≤ P (foundEvent env ext g (symmetricChis C chi) (fun _ => l) (fun _ => 1 / (C : ℝ)) a maxSteps
          (fun _ (_ : Fin M) => 1 / (C : ℝ)) ε) := by
  have hs2 := order_pos hC hs
  refine C94_both hrng ext hext chis_symm (fun _ => hl) (C97_separated_coexist hC hl hs hk)
    (fun m => C97_stable hC hl ha hs (k m)) ?_ ?_ hρ fun _ => hρl
  · rw [← enriched_zero ⟨0, by omega⟩, C97_stable_iff (by omega) hl le_rfl one_pos]
    simpa using hspin
  · rintro m n ⟨i, hi⟩
    exact far_enriched hs2 fun e => hi (by rw [e])

namespace SymMix

/-- One compartment for each separated phase and one for the mixed state. -/
noncomputable def allPhases (C : ℕ) (s : ℝ) : Mat C (C + 1) ℝ :=
  fun i m => Fin.lastCases (1 / (C : ℝ)) (fun k => enriched C s k i) m

theorem allPhases_castSucc (i k : Fin C) : allPhases C s i k.castSucc = enriched C s k i := by
  simp [allPhases]

theorem allPhases_last (i : Fin C) : allPhases C s i (Fin.last C) = 1 / C := by
  simp [allPhases]

theorem allPhases_injective (hC : 3 ≤ C) (hs : 1 / 2 ≤ s) {m n : Fin (C + 1)} (h : m ≠ n) :
    1 / 100 < eucl (fun i => allPhases C s i m) (fun i => allPhases C s i n) := by
  have hc : (0 : ℝ) < C := by exact_mod_cast (by omega : 0 < C)
  have hn := card_ge hC
  have hfar : ∀ k : Fin C, 1 / 100 < |(1 + ((C : ℝ) - 1) * s) / C - 1 / C| := by
    intro k
    have : (1 + ((C : ℝ) - 1) * s) / C - 1 / C = (1 - 1 / C) * s := by field_simp; ring
    rw [this]
    have h3 : (1 : ℝ) / C ≤ 1 / 3 := one_div_le_one_div_of_le (by norm_num) hn
    rw [abs_of_pos (mul_pos (by linarith) (by linarith))]
    nlinarith
  induction m using Fin.lastCases with
  | last =>
    induction n using Fin.lastCases with
    | last => exact absurd rfl h
    | cast j =>
      simp only [allPhases_castSucc, allPhases_last]
      refine lt_of_lt_of_le ?_ (abs_le_eucl _ _ j)
      rw [abs_sub_comm]
      simpa [enriched] using hfar j
  | cast k =>
    induction n using Fin.lastCases with
    | last =>
      simp only [allPhases_castSucc, allPhases_last]
      refine lt_of_lt_of_le ?_ (abs_le_eucl _ _ k)
      simpa [enriched] using hfar k
    | cast j =>
      simp only [allPhases_castSucc]
      exact far_enriched hs fun e => h (by rw [e])

end SymMix

namespace SymMix

theorem order_transition (hC : 3 ≤ C) (ha : a = transition C) (hs : s = ((C : ℝ) - 2) / (C - 1)) :
    OrderParameter C a s := by
  have hn := card_ge hC
  refine ⟨hs.ge, hs.trans_lt (sc_lt_one hn), balanced_iff.2 ?_⟩
  rw [show a = ac C from ha, show s = sc C from hs, W_sc hn]

theorem transition_lt (hC : 3 ≤ C) : transition C < C := by
  have hn := card_ge hC
  have h1 : (0 : ℝ) < C - 1 := by linarith
  have h := W_slope hn le_rfl (by linarith [sc_pos hn]) (sc_lt_one hn) (W_sc hn)
  have e : (1 + ((C : ℝ) - 1) * sc C) * (1 - sc C) = 1 := by unfold sc; field_simp; ring
  rwa [e, div_one] at h

end SymMix

/-- **C97**: at the transition the mixed state coexists with all separated phases. -/
theorem C97_all_coexist (hC : 3 ≤ C) (hl : 0 < l) (ha : l * chi = transition C) (hs : s = ((C : ℝ) - 2) / (C - 1)) :
    Coexistence (symmetricChis C chi) id (fun _ => l) (fun _ => 1 / (C : ℝ)) (fun _ => 1) (allPhases C s) ∧
    ∀ m, StablePhase (symmetricChis C chi) id (fun _ => l) fun i => allPhases C s i m := by
  have hn := card_ge hC
  have hc : (0 : ℝ) < C := by linarith
  have hord := order_transition hC ha hs
  have hs2 := order_pos hC hord
  refine ⟨⟨by simp, fun i m => ?_, fun m => ?_, fun i => ?_, fun _ => E C (l * chi) s / l + chi / 2, fun i m => ?_⟩,
    fun m => ?_⟩
  · induction m using Fin.lastCases with
    | last => rw [allPhases_last]; positivity
    | cast k => rw [allPhases_castSucc]; exact enriched_pos (by omega) (by linarith) hord.lt_one k i
  · induction m using Fin.lastCases with
    | last => simp only [allPhases_last]; simp; field_simp
    | cast k => simp only [allPhases_castSucc]; exact sum_enriched (by omega) k
  · simp only [one_mul]
    rw [Fin.sum_univ_castSucc]
    simp only [allPhases_last, allPhases_castSucc]
    have h := mean_enriched (C := C) (M := C) (s := s) (J := fun _ => 1) (k := id) (by omega) (by simp) i
    simp only [one_mul, id] at h
    rw [h, sum_filter, sum_ite_eq', if_pos (mem_univ _)]
    push_cast
    field_simp
    ring
  · induction m using Fin.lastCases with
    | last =>
      simp only [allPhases_last]
      have h := chemPot_enriched (C := C) (chi := chi) (s := 0) (by omega) hl.ne' le_rfl one_pos
        (by simp [ExcessBalanced]) i i
      rw [enriched_zero] at h
      refine h.trans ?_
      rw [show l * chi = ac C from ha, show s = sc C from hs, E_sc hn]
    | cast k =>
      simp only [allPhases_castSucc]
      exact chemPot_enriched (by omega) hl.ne' (by linarith) hord.lt_one hord.balanced k i
  · induction m using Fin.lastCases with
    | last =>
      simp only [allPhases_last]
      rw [← enriched_zero ⟨0, by omega⟩, C97_stable_iff (by omega) hl le_rfl one_pos]
      have := transition_lt hC
      simpa [ha] using this
    | cast k =>
      simp only [allPhases_castSucc]
      exact C97_stable hC hl ha.ge hord k

/-- **C97**: more phases than components.  At the transition a search with one compartment more than there are
components returns one phase more than there are components, with positive probability. -/
theorem C97_more_phases {env : FinderEnv G} (hrng : env.rng.Ok) (ext : PhasesExt) [NeZero C]
    (hext : ∀ {P : ℕ} (x : Phases P C ℝ), 2 ≤ P → FCluster (1 / 100) x.fractions (ext.labels x))
    (hC : 3 ≤ C) (hl : 0 < l) (ha : l * chi = transition C) {ρ : ℝ} (hρ : 0 < ρ) (hρl : ρ < 4 * l) :
    ∃ s₀, ∀ shift, s₀ ≤ shift → ∃ a₀ > 0, ∀ a : FinderArgs, Careful C (C + 1) shift ρ a₀ a →
      ∃ p > 0, ∃ N : ℕ, ∀ maxSteps : ℚ, N ≤ maxSteps →
      ∀ {Ω : Type} [MeasurableSpace Ω] {P : Measure Ω} {g : Ω → G}, NormalDraws P env.rng g (C * (C + 1)) →
        p ≤ P {ω | ∃ r, findCoexistingPhases env ext (g ω) C (NDArr.ofMat (symmetricChis C chi))
          (some (NDArr.ofVec fun _ : Fin C => 1 / (C : ℝ))) (some (NDArr.ofVec fun _ : Fin C => l)) .none
          { a with maxSteps := maxSteps } = .ok r ∧ ErrorsLT a.tolerance r.info ∧ r.numPhases = C + 1} := by
  have hs2 := order_pos hC (order_transition hC ha rfl)
  obtain ⟨hco, hst⟩ := C97_all_coexist hC hl ha rfl
  have far : ∀ m n, (∃ i, allPhases C (((C : ℝ) - 2) / (C - 1)) i m ≠ allPhases C (((C : ℝ) - 2) / (C - 1)) i n) →
      1 / 100 < eucl (fun i => allPhases C (((C : ℝ) - 2) / (C - 1)) i m)
        (fun i => allPhases C (((C : ℝ) - 2) / (C - 1)) i n) := by
    rintro m n ⟨i, hi⟩
    exact allPhases_injective hC hs2 fun e => hi (by rw [e])
  obtain ⟨s₀, h⟩ := C94_found hrng ext hext chis_symm (fun _ => hl) hco hst far hρ fun _ => hρl
  refine ⟨s₀, fun shift hshift => ?_⟩
  obtain ⟨a₀, ha₀, h⟩ := h shift hshift
  refine ⟨a₀, ha₀, fun a hcar => ?_⟩
  obtain ⟨p, hp, N, h⟩ := h a hcar (1 / 200) (by norm_num) le_rfl
  refine ⟨p, hp, N, fun maxSteps hN Ω _ P g hg => (h maxSteps hN hg).trans (measure_mono ?_)⟩
  rintro ω ⟨r, h1, h2, h3⟩
  refine ⟨r, h1, h2, ?_⟩
  rw [C94_count le_rfl far h3, Nat.card_range_of_injective, Nat.card_fin]
  intro m n hmn
  by_contra hne
  have := allPhases_injective hC hs2 hne
  have hmn' : (fun i => allPhases C (((C : ℝ) - 2) / (C - 1)) i m) =
    fun i => allPhases C (((C : ℝ) - 2) / (C - 1)) i n := hmn
  rw [hmn'] at this
  simp [eucl] at this
  linarith

/-! ## The reservoir -/

/-- **C97**: a reservoir that provides all components at the same chemical potential selects the mixed state
below the transition and the separated phases above it. -/
theorem C97_reservoir [NeZero C] [NeZero M] (hC : 3 ≤ C) (hl : 0 < l) (mu : ℝ) {sigma : Vec M ℝ}
    {k : Fin M → Fin C} (h0 : ∀ m, 0 ≤ sigma m) (h1 : ∀ m, sigma m < 1)
    (hb : ∀ m, ExcessBalanced C (l * chi) (sigma m))
    (hst : ∀ m, l * chi * ((1 + (C - 1) * sigma m) * (1 - sigma m)) < C) :
    (∃ s₀, ∀ shift, s₀ ≤ shift → SelectsPhases G (FHCompiled.new (symmetricChis C chi) shift) (fun _ => l)
      (fun _ => mu) id (fun i m => enriched C (sigma m) (k m) i)
      fun m => grandPotential (symmetricChis C chi) id (fun _ => l) (fun _ => mu) (enriched C (sigma m) (k m))) ∧
    (l * chi < transition C → ∀ m n, sigma m = 0 → sigma n ≠ 0 →
      grandPotential (symmetricChis C chi) id (fun _ => l) (fun _ => mu) (enriched C (sigma m) (k m)) <
        grandPotential (symmetricChis C chi) id (fun _ => l) (fun _ => mu) (enriched C (sigma n) (k n))) ∧
    (transition C < l * chi → ∀ m n, OrderParameter C (l * chi) (sigma m) → sigma n ≠ sigma m →
      grandPotential (symmetricChis C chi) id (fun _ => l) (fun _ => mu) (enriched C (sigma m) (k m)) <
        grandPotential (symmetricChis C chi) id (fun _ => l) (fun _ => mu) (enriched C (sigma n) (k n))) := by
  have hgp : ∀ m, grandPotential (symmetricChis C chi) id (fun _ => l) (fun _ => mu) (enriched C (sigma m) (k m)) =
      freeEnergy (symmetricChis C chi) (fun _ => l) (enriched C (sigma m) (k m)) - (mu + (1 + Real.log l) / l) := by
    intro m
    unfold grandPotential
    rw [← sum_mul, sum_enriched (by omega), one_mul]
    rfl
  refine ⟨?_, fun ha m n hm hn => ?_, fun ha m n hm hn => ?_⟩
  · refine C92_selects chis_symm (fun _ => hl) Function.surjective_id (fun m => ?_) fun m =>
      (C97_stable_iff (by omega) hl (h0 m) (h1 m) (k m)).2 (hst m)
    refine ⟨E C (l * chi) (sigma m) / l + chi / 2 - (mu + (1 + Real.log l) / l),
      enriched_pos (by omega) (h0 m) (h1 m) _, sum_enriched (by omega) _, fun i => ?_⟩
    refine (chemPot_enriched (by omega) hl.ne' (h0 m) (h1 m) (hb m) (k m) i).trans ?_
    ring
  · rw [hgp, hgp, hm, enriched_zero]
    refine sub_lt_sub_right (C97_mixed hC hl ha (fun i => (enriched_pos (by omega) (h0 n) (h1 n) _ i).le)
      (sum_enriched (by omega) _) fun e => hn ?_) _
    have hc : (C : ℝ) ≠ 0 := by exact_mod_cast (by omega : C ≠ 0)
    have := congrFun e (k n)
    unfold enriched at this
    rw [if_pos rfl] at this
    field_simp at this
    have hn1 := card_ge hC
    rcases mul_eq_zero.1 (by linarith : ((C : ℝ) - 1) * sigma n = 0) with h | h
    · linarith
    · exact h
  · rw [hgp, hgp]
    have h := C97_separated hC hl ha hm (k m) (fun i => (enriched_pos (C := C) (by omega) (h0 n) (h1 n) (k n) i).le)
      (sum_enriched (by omega) _)
    refine sub_lt_sub_right (lt_of_le_of_ne h.1 fun e => ?_) _
    obtain ⟨j, e⟩ := h.2.1 e
    have hs2 := order_pos hC hm
    have hc : (C : ℝ) ≠ 0 := by exact_mod_cast (by omega : C ≠ 0)
    have hcp : (0 : ℝ) < C := by exact_mod_cast (by omega : 0 < C)
    have hn1 := card_ge hC
    have e1 := congrFun e j
    have e2 := congrFun e (k n)
    unfold enriched at e1 e2
    rw [if_pos rfl] at e1 e2
    by_cases hj : j = k n
    · rw [if_pos hj] at e1
      rw [div_left_inj' hc] at e1
      exact hn (mul_left_cancel₀ (by linarith : (C : ℝ) - 1 ≠ 0) (by linarith))
    · rw [if_neg hj, div_left_inj' hc] at e1
      nlinarith [h0 n]

/-! ## The reference of the test suite -/

/-- **C97**: bounds on the fraction of the components that are not enriched. -/
theorem C97_fraction (hC : 3 ≤ C) (ha : transition C ≤ a) (hs : OrderParameter C a s) :
    Real.exp (-a) ≤ (1 - s) / C ∧ (1 - s) / C ≤ Real.exp (-a) * Real.exp (a * C * ((1 - s) / C)) ∧
      a * C * ((1 - s) / C) ≤ 3 / 2 := by
  have hn := card_ge hC
  have hs2 := order_pos hC hs
  have hc : (0 : ℝ) < C := by linarith
  set x := (1 - s) / C with hx
  set h := (1 + ((C : ℝ) - 1) * s) / C with hh
  have hx0 : 0 < x := div_pos (by linarith [hs.lt_one]) hc
  have hh0 : 0 < h := div_pos (by nlinarith) hc
  have hsx : s = 1 - C * x := by rw [hx]; field_simp; ring
  have hsum : h + (C - 1) * x = 1 := by rw [hh, hx]; field_simp; ring
  have hhl : 2 / 3 ≤ h := by
    have h1 : sc C ≤ s := hs.lower
    have h2 : 1 + ((C : ℝ) - 1) * sc C = C - 1 := by
      have : (C : ℝ) - 1 ≠ 0 := by linarith
      unfold sc; field_simp; ring
    have h3 : (C : ℝ) - 1 ≤ 1 + ((C : ℝ) - 1) * s := by nlinarith
    rw [hh, le_div_iff₀ hc]
    linarith
  have hst : a * C * x * h < 1 := by
    have h := W_slope hn ha (by linarith [sc_pos hn, show sc C ≤ s from hs.lower]) hs.lt_one
      (balanced_iff.1 hs.balanced)
    have hpos : 0 < (1 + ((C : ℝ) - 1) * s) * (1 - s) := mul_pos (by nlinarith) (by linarith [hs.lt_one])
    rw [lt_div_iff₀ hpos] at h
    have e : (1 + ((C : ℝ) - 1) * s) * (1 - s) = C * (C * (x * (1 + ((C : ℝ) - 1) * s) / C)) := by
      rw [hx]; field_simp
    have e' : a * C * x * ((1 + ((C : ℝ) - 1) * s) / C) * C = a * ((1 + ((C : ℝ) - 1) * s) * (1 - s)) := by
      rw [e]; field_simp
    rw [← hh] at e'
    nlinarith
  have ha1 : 1 ≤ a := by
    have h1 : Real.log 2 ≤ Real.log (C - 1) := Real.log_le_log (by norm_num) (by linarith)
    have h2 := Real.log_two_gt_d9
    have h3 : 2 * Real.log (C - 1) ≤ ac C := by
      unfold ac
      rw [le_div_iff₀ (by linarith)]
      nlinarith
    have h4 : ac C ≤ a := ha
    linarith
  have heq : x = h * (Real.exp (-a) * Real.exp (a * C * x)) := by
    have hb := hs.balanced
    unfold ExcessBalanced at hb
    have h1 : Real.log h - Real.log x = a * s := by
      rw [hh, hx, Real.log_div (by nlinarith) hc.ne', Real.log_div (by linarith [hs.lt_one]) hc.ne']
      linarith
    rw [← Real.exp_add, show -a + a * C * x = Real.log x - Real.log h by rw [hsx] at h1; linarith, Real.exp_sub,
      Real.exp_log hx0, Real.exp_log hh0]
    field_simp
  have hE := Real.exp_pos (-a)
  refine ⟨?_, ?_, ?_⟩
  · have h1 : 1 ≤ h * Real.exp (a * C * x) := by
      have h2 : 1 + a * C * x ≤ Real.exp (a * C * x) := by linarith [Real.add_one_le_exp (a * C * x)]
      have h3 : h * (1 + a * C * x) ≤ h * Real.exp (a * C * x) := mul_le_mul_of_nonneg_left h2 hh0.le
      have h4 : (C : ℝ) - 1 ≤ a * C * h := by
        have : (C : ℝ) - 1 ≤ C * h := by
          have h1 : sc C ≤ s := hs.lower
          have h2 : 1 + ((C : ℝ) - 1) * sc C = C - 1 := by
            have : (C : ℝ) - 1 ≠ 0 := by linarith
            unfold sc; field_simp; ring
          have h3 : (C : ℝ) * h = 1 + ((C : ℝ) - 1) * s := by rw [hh]; field_simp
          rw [h3]; nlinarith
        nlinarith [mul_pos hc hh0]
      nlinarith
    calc Real.exp (-a) = Real.exp (-a) * 1 := (mul_one _).symm
      _ ≤ Real.exp (-a) * (h * Real.exp (a * C * x)) := mul_le_mul_of_nonneg_left h1 hE.le
      _ = h * (Real.exp (-a) * Real.exp (a * C * x)) := by ring
      _ = x := heq.symm
  · have hh1 : h ≤ 1 := by nlinarith
    have hpos : 0 < Real.exp (-a) * Real.exp (a * C * x) := by positivity
    calc x = h * (Real.exp (-a) * Real.exp (a * C * x)) := heq
      _ ≤ 1 * (Real.exp (-a) * Real.exp (a * C * x)) := mul_le_mul_of_nonneg_right hh1 hpos.le
      _ = _ := one_mul _
  · have : 0 ≤ a * C * x := by positivity
    nlinarith

namespace SymMix

theorem exp_le_inv {t : ℝ} (ht : t < 1) : Real.exp t ≤ 1 / (1 - t) := by
  have h := Real.add_one_le_exp (-t)
  rw [Real.exp_neg] at h
  rw [le_div_iff₀ (by linarith)]
  have hp := Real.exp_pos t
  have : (-t + 1) * Real.exp t ≤ (Real.exp t)⁻¹ * Real.exp t := mul_le_mul_of_nonneg_right h hp.le
  rw [inv_mul_cancel₀ hp.ne'] at this
  linarith

theorem exp_eight : Real.exp (-8) ≤ 1 / 2980 := by
  have h3 := Real.exp_one_gt_d9
  have h4 : Real.exp 8 = Real.exp 1 ^ 8 := by rw [← Real.exp_nat_mul]; norm_num
  rw [Real.exp_neg, ← one_div]
  refine one_div_le_one_div_of_le (by norm_num) ?_
  rw [h4]
  calc (2980 : ℝ) ≤ (2.7182818283) ^ 8 := by norm_num
    _ ≤ _ := pow_le_pow_left₀ (by norm_num) h3.le 8

/-- `a * exp (-a)` decreases. -/
theorem mul_exp_neg {a : ℝ} (ha : 8 ≤ a) : a * Real.exp (-a) ≤ 8 / 2980 := by
  have h1 : Real.exp (-a) = Real.exp (-8) * Real.exp (-(a - 8)) := by rw [← Real.exp_add]; ring_nf
  have h2 : a / 8 ≤ Real.exp (a - 8) := by
    have := Real.add_one_le_exp (a - 8)
    linarith
  have h3 : a * Real.exp (-(a - 8)) ≤ 8 := by
    rw [Real.exp_neg, ← div_eq_mul_inv, div_le_iff₀ (Real.exp_pos _)]
    linarith
  calc a * Real.exp (-a) = Real.exp (-8) * (a * Real.exp (-(a - 8))) := by rw [h1]; ring
    _ ≤ 1 / 2980 * 8 := mul_le_mul exp_eight h3 (by positivity) (by norm_num)
    _ = _ := by norm_num

theorem exp_three_halves : Real.exp (3 / 2) ≤ 9 / 2 := by
  have h : Real.exp (3 / 2) ^ 2 = Real.exp 1 ^ 3 := by
    rw [← Real.exp_nat_mul, ← Real.exp_nat_mul]; norm_num
  have h3 := Real.exp_one_lt_d9
  have h4 : Real.exp 1 ^ 3 ≤ (2.7182818286) ^ 3 := pow_le_pow_left₀ (Real.exp_pos 1).le h3.le 3
  have h5 := Real.exp_pos (3 / 2)
  by_contra hc
  push Not at hc
  nlinarith

end SymMix

/-- **C97**: the reference of the test suite (`tests/test_shortcut.py`, up to five components, `size * chi` at
least 8) is as near to the exact phases as the test demands, with enough room for the error `1/200000` of a
result. -/
theorem C97_tests (hC : 3 ≤ C) (hC5 : C ≤ 5) (ha : 8 ≤ a) (hs : OrderParameter C a s) (k i : Fin C) {y : ℝ}
    (hy : |y - enriched C s k i| ≤ 1 / 200000) :
    |y - if i = k then 1 - (C - 1) * Real.exp (-a) else Real.exp (-a)| ≤
      1 / 100000 + 1 / 100 * |if i = k then 1 - (C - 1) * Real.exp (-a) else Real.exp (-a)| := by
  have hn := card_ge hC
  have hn5 : (C : ℝ) ≤ 5 := by exact_mod_cast hC5
  have hc : (0 : ℝ) < C := by linarith
  have htr : transition C ≤ a := by linarith [transition_lt hC]
  obtain ⟨h1, h2, h3⟩ := C97_fraction hC htr hs
  set x := (1 - s) / C with hx
  set q := Real.exp (-a) with hq
  have hq0 : 0 < q := Real.exp_pos _
  have haq : a * q ≤ 8 / 2980 := mul_exp_neg ha
  have hq1 : q ≤ 1 / 2980 := by nlinarith
  have hx1 : x ≤ 9 / 2 * q := by
    have := (Real.exp_le_exp.2 h3).trans exp_three_halves
    nlinarith
  have step : ∀ B : ℝ, 0 ≤ B → x ≤ B * q → 40 * B / 2980 < 1 → x ≤ 1 / (1 - 40 * B / 2980) * q := by
    intro B hB hxB hB1
    have h4 : a * C * x ≤ 40 * B / 2980 := by
      have h5 : a * C * x ≤ a * C * (B * q) := mul_le_mul_of_nonneg_left hxB (by positivity)
      have h6 : a * C * (B * q) = C * B * (a * q) := by ring
      have h7 : C * B * (a * q) ≤ C * B * (8 / 2980) := mul_le_mul_of_nonneg_left haq (by positivity)
      have h8 : (C : ℝ) * B ≤ 5 * B := mul_le_mul_of_nonneg_right hn5 hB
      linarith
    have h5 := (Real.exp_le_exp.2 h4).trans (exp_le_inv hB1)
    calc x ≤ q * Real.exp (a * C * x) := h2
      _ ≤ q * (1 / (1 - 40 * B / 2980)) := mul_le_mul_of_nonneg_left h5 hq0.le
      _ = _ := mul_comm _ _
  have hx2 : x ≤ 107 / 100 * q := by
    have := step (9 / 2) (by norm_num) hx1 (by norm_num)
    have h4 : (1 : ℝ) / (1 - 40 * (9 / 2) / 2980) ≤ 107 / 100 := by norm_num
    nlinarith
  have hx3 : x ≤ 1015 / 1000 * q := by
    have := step (107 / 100) (by norm_num) hx2 (by norm_num)
    have h4 : (1 : ℝ) / (1 - 40 * (107 / 100) / 2980) ≤ 1015 / 1000 := by norm_num
    nlinarith
  have hy' := abs_le.1 hy
  unfold enriched at hy'
  by_cases hik : i = k
  · rw [if_pos hik] at hy'
    have e : (1 + ((C : ℝ) - 1) * s) / C = 1 - (C - 1) * x := by rw [hx]; field_simp; ring
    rw [e] at hy'
    simp only [if_pos hik]
    have hb : (C - 1) * (x - q) ≤ 4 * (x - q) := mul_le_mul_of_nonneg_right (by linarith) (by linarith)
    have hb0 : 0 ≤ (C - 1) * (x - q) := mul_nonneg (by linarith) (by linarith)
    have hb1 : ((C : ℝ) - 1) * q ≤ 4 * q := mul_le_mul_of_nonneg_right (by linarith) hq0.le
    rw [abs_of_pos (by linarith : 0 < 1 - (C - 1) * q), abs_le]
    constructor <;> nlinarith
  · rw [if_neg hik] at hy'
    simp only [if_neg hik]
    rw [abs_of_pos hq0, abs_le]
    constructor <;> linarith

/-- **C97**: for sizes of at least one, `is_stable` accepts the separated phases. -/
theorem C97_verdict {n : ℕ} (hC : 2 ≤ n) (hl : 1 ≤ l) (ha : transition (n + 1) ≤ l * chi)
    (hs : OrderParameter (n + 1) (l * chi) s) {phis : NDArr ℝ} {r : Rows Bool}
    (h : (fhFree (symmetricChis (n + 1) chi) fun _ => l).isStable phis = .ok r) {idx : List ℕ} {k : Fin (n + 1)}
    (hk : composition (n + 1) phis idx = enriched (n + 1) s k) : r.row idx = true := by
  have hs2 := order_pos (by omega) hs
  have hpos : ∀ i, 0 < composition (n + 1) phis idx i := fun i => by
    rw [hk]; exact enriched_pos (by omega) (by linarith) hs.lt_one k i
  refine (C55_stability_partial chis_symm h hpos).1 (fun _ => hl) fun y hy => ?_
  rw [second_deriv chis_symm hpos]
  unfold trueHessian
  rw [quad_diag, hk]
  by_cases hy0 : y = 0
  · subst hy0; simp [quad]
  · have hst := C97_stable (by omega) (by linarith) ha hs k y hy hy0
    refine le_of_lt (lt_of_lt_of_eq hst ?_)
    rw [add_comm]
    congr 1
    · unfold quad
      refine sum_congr rfl fun i _ => sum_congr rfl fun j _ => ?_
      simp only [id]
      ring
    · exact sum_congr rfl fun i _ => by rw [one_div, div_eq_inv_mul]

/-! ## Examples -/

-- C97: three components at the transition, `chi = 4 ln 2`: the phases are (2/3, 1/6, 1/6) and its permutations.
example : transition 3 = 4 * Real.log 2 ∧ OrderParameter 3 (1 * (4 * Real.log 2)) (1 / 2) ∧
    enriched 3 (1 / 2) 0 = ![2 / 3, 1 / 6, 1 / 6] ∧
    Coexistence (symmetricChis 3 (4 * Real.log 2)) id (fun _ => 1) (fun _ => 1 / ((3 : ℕ) : ℝ)) (fun _ => 1)
      (allPhases 3 (1 / 2)) := by
  have ht : transition 3 = 4 * Real.log 2 := by
    unfold transition; norm_num
  have hs : (1 / 2 : ℝ) = (((3 : ℕ) : ℝ) - 2) / (((3 : ℕ) : ℝ) - 1) := by norm_num
  refine ⟨ht, order_transition le_rfl (by rw [ht, one_mul]) hs, ?_,
    (C97_all_coexist le_rfl one_pos (by rw [ht, one_mul]) hs).1⟩
  funext i
  fin_cases i <;> norm_num [enriched]

-- C97: a search with four compartments returns four phases of this ternary mixture with positive probability.
example : ∃ (ext : PhasesExt) (a : FinderArgs) (p : ENNReal) (maxSteps : ℚ), 0 < p ∧
    p ≤ (Measure.pi fun _ : Fin (3 * (3 + 1)) => gaussianReal 0 1)
      {x | ∃ r, findCoexistingPhases (⟨Demo.gaussRng, fun _ _ _ s => s⟩ : FinderEnv _) ext (Demo.tapeOf x) 3
        (NDArr.ofMat (symmetricChis 3 (4 * Real.log 2)))
        (some (NDArr.ofVec fun _ : Fin 3 => 1 / ((3 : ℕ) : ℝ))) (some (NDArr.ofVec fun _ : Fin 3 => 1)) .none
        { a with maxSteps := maxSteps } = .ok r ∧ ErrorsLT a.tolerance r.info ∧ r.numPhases = 3 + 1} := by
  obtain ⟨ext, hext⟩ := Demo.cluster_ext
  have ht : 1 * (4 * Real.log 2) = transition 3 := by
    unfold transition; norm_num
  obtain ⟨s₀, h⟩ := C97_more_phases (env := (⟨Demo.gaussRng, fun _ _ _ s => s⟩ : FinderEnv _)) Demo.gaussRng_ok
    ext hext le_rfl one_pos ht (ρ := 1 / 10) (by norm_num) (by norm_num)
  obtain ⟨a₀, ha₀, h⟩ := h s₀ le_rfl
  obtain ⟨p, hp, N, h⟩ := h
    { numPart := some 4
      kwargs := [("additional_chis_shift", s₀)]
      acceptanceOmega := a₀
      acceptanceJs := 1 / 10 * a₀ }
    ⟨rfl, rfl, by norm_num, by norm_num, by norm_num, by norm_num, by norm_num, rfl, by norm_num, by norm_num,
      ha₀, le_rfl, rfl⟩
  exact ⟨ext, _, p, N, hp, h N le_rfl (Demo.gauss_draws (3 * (3 + 1)))⟩

-- C97: five components with `chi = 8` and size 1.2, as in the test suite, with ten compartments.
example : ∃ s, OrderParameter 5 (6 / 5 * 8) s ∧ transition 5 < 6 / 5 * 8 ∧
    Coexistence (symmetricChis 5 8) id (fun _ => 6 / 5) (fun _ => 1 / ((5 : ℕ) : ℝ)) (fun _ : Fin 10 => 1)
      (fun i m => enriched 5 s (⟨m / 2, by omega⟩ : Fin 5) i) := by
  have h5 := transition_lt (C := 5) (by norm_num)
  have ht : transition 5 < 6 / 5 * 8 := by push_cast at h5; linarith
  obtain ⟨s, hs, -⟩ := C97_order (C := 5) (by norm_num) ht.le
  exact ⟨s, hs, ht, C97_separated_coexist (by norm_num) (by norm_num) hs
    (k := fun m : Fin 10 => (⟨m / 2, by omega⟩ : Fin 5)) (by decide)⟩

-- C97: a metastable ternary mixture in contact with a reservoir.
example : ∃ s, transition 3 < 1 * (29 / 10) ∧ (1 * (29 / 10) : ℝ) < 3 ∧ OrderParameter 3 (1 * (29 / 10)) s ∧
    ∀ m : Fin 2, ExcessBalanced 3 (1 * (29 / 10)) (![0, s] m) ∧
      1 * (29 / 10) * ((1 + (((3 : ℕ) : ℝ) - 1) * ![0, s] m) * (1 - ![0, s] m)) < ((3 : ℕ) : ℝ) := by
  have ht : transition 3 < 1 * (29 / 10) := by
    have h2 := Real.log_two_lt_d9
    have : transition 3 = 4 * Real.log 2 := by unfold transition; norm_num
    rw [this]; linarith
  obtain ⟨s, hs, -⟩ := C97_order (C := 3) le_rfl ht.le
  refine ⟨s, ht, by norm_num, hs, fun m => ?_⟩
  have hst := C97_stable (C := 3) (l := 1) (chi := 29 / 10) le_rfl one_pos ht.le hs 0
  rw [C97_stable_iff (by norm_num) one_pos (by linarith [order_pos le_rfl hs]) hs.lt_one] at hst
  fin_cases m
  · exact ⟨by simp [ExcessBalanced], by norm_num⟩
  · exact ⟨hs.balanced, hst⟩

end Flory
