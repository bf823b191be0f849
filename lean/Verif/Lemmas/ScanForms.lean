import Verif.Lemmas.PersistMap

/-! # Forms that decrease along families of separated phases -/

set_option linter.unusedSectionVars false

namespace Flory

open Finset

section Forms

variable {T : Type} [TopologicalSpace T] [CompactSpace T]
variable {E : Type} [NormedAddCommGroup E] [NormedSpace ℝ E] [ProperSpace E]

theorem exists_form_le_on {f : T → E → ℝ} (hc : Continuous fun p : T × E => f p.1 p.2)
    (hh : ∀ τ (t : ℝ) w, f τ (t • w) = t ^ 2 * f τ w) : ∃ L > 0, ∀ τ w, |f τ w| ≤ L * ‖w‖ ^ 2 := by
  obtain ⟨L, hL⟩ := ((isCompact_univ (X := T)).prod (isCompact_sphere (0 : E) 1)).exists_bound_of_continuousOn
    hc.continuousOn
  refine ⟨max L 1, lt_max_of_lt_right one_pos, fun τ w => ?_⟩
  by_cases hw : w = 0
  · subst hw
    have := hh τ 0 (0 : E)
    simp at this
    simp [this]
  have hn : ‖w‖ ≠ 0 := norm_ne_zero_iff.mpr hw
  have h1 := hL (τ, ‖w‖⁻¹ • w) ⟨Set.mem_univ _, by simp [norm_smul, hn]⟩
  simp only at h1
  rw [hh, Real.norm_eq_abs, abs_mul, abs_of_nonneg (by positivity), inv_pow, inv_mul_le_iff₀ (by positivity)] at h1
  calc |f τ w| ≤ ‖w‖ ^ 2 * L := h1
    _ ≤ max L 1 * ‖w‖ ^ 2 := by rw [mul_comm]; gcongr; exact le_max_left _ _

/-- Finsler's lemma for families of forms. -/
theorem exists_form_bound_on {f g : T → E → ℝ} (hf : Continuous fun p : T × E => f p.1 p.2)
    (hg : Continuous fun p : T × E => g p.1 p.2)
    (hfh : ∀ τ (t : ℝ) w, f τ (t • w) = t ^ 2 * f τ w) (hgh : ∀ τ (t : ℝ) w, g τ (t • w) = t ^ 2 * g τ w)
    (hg0 : ∀ τ w, 0 ≤ g τ w) (hpos : ∀ τ w, w ≠ 0 → g τ w = 0 → 0 < f τ w) :
    ∃ c₀ > 0, ∃ v > 0, ∀ c, c₀ ≤ c → ∀ τ w, v * ‖w‖ ^ 2 ≤ f τ w + c * g τ w := by
  set Z : Set (T × E) := Set.univ ×ˢ Metric.sphere (0 : E) 1 with hZ
  have hcomp : IsCompact Z := (isCompact_univ (X := T)).prod (isCompact_sphere (0 : E) 1)
  have hmem : ∀ τ w, ‖w‖ = 1 → (τ, w) ∈ Z := fun τ w hw => ⟨Set.mem_univ _, by simpa using hw⟩
  have h1 : ∃ c₀ > 0, ∀ τ w, ‖w‖ = 1 → 0 < f τ w + c₀ * g τ w := by
    have hK : IsCompact (Z ∩ {p | f p.1 p.2 ≤ 0}) := hcomp.inter_right (isClosed_le hf continuous_const)
    rcases Set.eq_empty_or_nonempty (Z ∩ {p | f p.1 p.2 ≤ 0}) with he | hne
    · refine ⟨1, one_pos, fun τ w hw => ?_⟩
      have : 0 < f τ w := by
        by_contra hcon
        have : (τ, w) ∈ Z ∩ {p | f p.1 p.2 ≤ 0} := ⟨hmem τ w hw, not_lt.mp hcon⟩
        rw [he] at this
        exact this
      linarith [hg0 τ w]
    · obtain ⟨p₀, hp₀, hmin⟩ := hK.exists_isMinOn hne hg.continuousOn
      obtain ⟨F, hF⟩ := hcomp.exists_bound_of_continuousOn hf.continuousOn
      have hg1 : 0 < g p₀.1 p₀.2 := by
        refine lt_of_le_of_ne (hg0 _ _) fun h0 => ?_
        have hne0 : p₀.2 ≠ 0 := by
          have h2 : ‖p₀.2‖ = 1 := by simpa using hp₀.1.2
          intro h3
          rw [h3, norm_zero] at h2
          exact zero_ne_one h2
        exact absurd (hpos _ _ hne0 h0.symm) (not_lt.mpr hp₀.2)
      have hF0 : 0 ≤ F := (norm_nonneg _).trans (hF p₀ hp₀.1)
      refine ⟨(F + 1) / g p₀.1 p₀.2, by positivity, fun τ w hw => ?_⟩
      by_cases hfw : f τ w ≤ 0
      · have h2 : g p₀.1 p₀.2 ≤ g τ w := hmin (a := (τ, w)) ⟨hmem τ w hw, hfw⟩
        have h3 := (abs_le.mp ((Real.norm_eq_abs _).symm.trans_le (hF (τ, w) (hmem τ w hw)))).1
        have h4 : (F + 1) / g p₀.1 p₀.2 * g p₀.1 p₀.2 ≤ (F + 1) / g p₀.1 p₀.2 * g τ w := by gcongr
        rw [div_mul_cancel₀ _ hg1.ne'] at h4
        simp only at h3
        linarith
      · have : 0 ≤ (F + 1) / g p₀.1 p₀.2 * g τ w := mul_nonneg (by positivity) (hg0 τ w)
        linarith [not_le.mp hfw]
  obtain ⟨c₀, hc₀, h1⟩ := h1
  have h2 : ∃ v > 0, ∀ τ w, ‖w‖ = 1 → v ≤ f τ w + c₀ * g τ w := by
    rcases Set.eq_empty_or_nonempty Z with he | hne
    · refine ⟨1, one_pos, fun τ w hw => ?_⟩
      have := hmem τ w hw
      rw [he] at this
      exact this.elim
    · obtain ⟨p₀, hp₀, hmin⟩ := hcomp.exists_isMinOn hne
        (f := fun p : T × E => f p.1 p.2 + c₀ * g p.1 p.2) (by fun_prop)
      exact ⟨_, h1 p₀.1 p₀.2 (by simpa using hp₀.2), fun τ w hw => hmin (a := (τ, w)) (hmem τ w hw)⟩
  obtain ⟨v, hv, h2⟩ := h2
  refine ⟨c₀, hc₀, v, hv, fun c hc τ w => ?_⟩
  have h3 : v * ‖w‖ ^ 2 ≤ f τ w + c₀ * g τ w := by
    by_cases hw : w = 0
    · subst hw
      have a1 := hfh τ 0 (0 : E)
      have a2 := hgh τ 0 (0 : E)
      simp at a1 a2
      simp [a1, a2]
    have hn : ‖w‖ ≠ 0 := norm_ne_zero_iff.mpr hw
    have h4 := h2 τ (‖w‖⁻¹ • w) (by simp [norm_smul, hn])
    rw [hfh, hgh] at h4
    have h5 : v * ‖w‖ ^ 2 ≤ (‖w‖⁻¹ ^ 2 * f τ w + c₀ * (‖w‖⁻¹ ^ 2 * g τ w)) * ‖w‖ ^ 2 := by gcongr
    calc _ ≤ _ := h5
      _ = f τ w + c₀ * g τ w := by field_simp
  have h4 : c₀ * g τ w ≤ c * g τ w := mul_le_mul_of_nonneg_right hc (hg0 τ w)
  linarith

theorem exists_lower_on {ι : Type} [Finite ι] {f : T → ι → ℝ} (hf : ∀ i, Continuous fun t => f t i) {b : ℝ}
    (hb : ∀ t i, b < f t i) : ∃ n, b < n ∧ ∀ t i, n ≤ f t i := by
  have h1 : ∀ i, ∃ n, b < n ∧ ∀ t, n ≤ f t i := fun i => by
    rcases isEmpty_or_nonempty T with h | h
    · exact ⟨b + 1, by linarith, fun t => h.elim t⟩
    · obtain ⟨t₀, -, ht₀⟩ := isCompact_univ.exists_isMinOn Set.univ_nonempty (hf i).continuousOn
      exact ⟨f t₀ i, hb t₀ i, fun t => ht₀ (Set.mem_univ t)⟩
  choose n hn h1 using h1
  rcases isEmpty_or_nonempty ι with h | h
  · exact ⟨b + 1, by linarith, fun t i => h.elim i⟩
  · obtain ⟨i₀, hi₀⟩ := Finite.exists_min n
    exact ⟨n i₀, hn i₀, fun t i => (hi₀ i).trans (h1 i t)⟩

end Forms

namespace Sep

variable {C S M : ℕ} [NeZero M] [NeZero S]
variable {T : Type} [TopologicalSpace T] [CompactSpace T]
variable {l : Vec C ℝ} {σ : Fin S → Fin C} {X : T → Mat C C ℝ} {J : T → Vec M ℝ} {φ : T → Mat C M ℝ}

section

variable (hX : ∀ i j, Continuous fun t => X t i j) (hJ : ∀ m, Continuous fun t => J t m)
  (hφ : ∀ i m, Continuous fun t => φ t i m) (hp : ∀ t, StablePhases (X t) l (J t) (φ t))
include hX hJ hφ hp

theorem continuous_hess (i : Fin C) (m : Fin M) :
    Continuous fun p : T × Mat C M ℝ => hess (X p.1) l (φ p.1) p.2 i m := by
  have hw : ∀ i m, Continuous fun p : T × Mat C M ℝ => p.2 i m := fun i m =>
    (continuous_apply m).comp ((continuous_apply i).comp continuous_snd)
  unfold hess
  refine Continuous.add ?_ ?_
  · exact continuous_finsetSum _ fun j _ => ((hX i j).comp continuous_fst).mul (hw j m)
  · exact (hw i m).div (continuous_const.mul ((hφ i m).comp continuous_fst)) fun p =>
      (mul_pos ((hp p.1).size i) ((hp p.1).pos i m)).ne'

theorem continuous_avg (m : Fin M) :
    Continuous fun p : T × Mat C M ℝ => avg (X p.1) l (φ p.1) σ p.2 m := by
  unfold avg
  exact (continuous_finsetSum _ fun r _ => continuous_hess hX hJ hφ hp (σ r) m).div_const _

theorem continuous_form {c : T → ℝ} (hc : Continuous c) :
    Continuous fun p : T × Mat C M ℝ => form (X p.1) l (J p.1) (φ p.1) σ (c p.1) p.2 p.2 := by
  have hw : ∀ i m, Continuous fun p : T × Mat C M ℝ => p.2 i m := fun i m =>
    (continuous_apply m).comp ((continuous_apply i).comp continuous_snd)
  have ht : ∀ m, Continuous fun p : T × Mat C M ℝ => tot p.2 m := fun m =>
    continuous_finsetSum _ fun i _ => hw i m
  have hh := continuous_hess hX hJ hφ hp
  have ha := continuous_avg (σ := σ) hX hJ hφ hp
  have hJ' : ∀ m, Continuous fun p : T × Mat C M ℝ => J p.1 m := fun m => (hJ m).comp continuous_fst
  have hc' : Continuous fun p : T × Mat C M ℝ => c p.1 := hc.comp continuous_fst
  unfold form
  fun_prop

/-- The form bounds the deviation along a family of separated phases. -/
theorem form_coercive_on : ∃ c₀ > 0, ∃ v > 0, ∀ c, c₀ ≤ c → ∀ t (w : Mat C M ℝ),
    v * ‖w‖ ^ 2 ≤ form (X t) l (J t) (φ t) σ c w w := by
  have hS : (0 : ℝ) < S := by exact_mod_cast Nat.pos_of_ne_zero (NeZero.ne S)
  have hw : ∀ i m, Continuous fun p : T × Mat C M ℝ => p.2 i m := fun i m =>
    (continuous_apply m).comp ((continuous_apply i).comp continuous_snd)
  have ht : ∀ m, Continuous fun p : T × Mat C M ℝ => tot p.2 m := fun m =>
    continuous_finsetSum _ fun i _ => hw i m
  have hJ' : ∀ m, Continuous fun p : T × Mat C M ℝ => J p.1 m := fun m => (hJ m).comp continuous_fst
  obtain ⟨c₀, hc₀, v, hv, h⟩ := exists_form_bound_on (E := Mat C M ℝ)
    (f := fun t w => form (X t) l (J t) (φ t) σ 0 w w) (g := fun t w => ∑ m, J t m * tot w m ^ 2)
    (continuous_form hX hJ hφ hp continuous_const) (by fun_prop) (fun τ t w => form_smul (hp τ) w 0 t)
    (fun τ t w => by
      rw [mul_sum]
      refine sum_congr rfl fun m _ => ?_
      have : tot (t • w) m = t * tot w m := by unfold tot; rw [mul_sum]; rfl
      rw [this]; ring)
    (fun τ w => sum_nonneg fun m _ => mul_nonneg ((hp τ).vol m).le (sq_nonneg _))
    (fun τ w hw hg => form_pos (hp τ) hw hg)
  refine ⟨c₀ * S, by positivity, v, hv, fun c hc t w => ?_⟩
  have h1 := h (c / S) (by rw [le_div_iff₀ hS]; exact hc) t w
  refine h1.trans (le_of_eq ?_)
  unfold form
  rw [mul_sum, ← sum_add_distrib]
  refine sum_congr rfl fun m _ => ?_
  ring

theorem exists_avg_le_on : ∃ K > 0, ∀ t (w : Mat C M ℝ) (m : Fin M),
    |avg (X t) l (φ t) σ w m| ≤ K * ‖w‖ := by
  have ha := continuous_avg (σ := σ) hX hJ hφ hp
  obtain ⟨L, hL, h⟩ := exists_form_le_on (E := Mat C M ℝ) (f := fun t w => ∑ m, avg (X t) l (φ t) σ w m ^ 2)
    (by fun_prop) (fun τ t w => by
      rw [mul_sum]
      refine sum_congr rfl fun m _ => ?_
      have := avg_sub_smul (X := X τ) (l := l) (phi := φ τ) (σ := σ) (-t) 0 w m
      have h0 : avg (X τ) l (φ τ) σ (0 : Mat C M ℝ) m = 0 := by simp [avg, hess]
      rw [h0] at this
      simp only [zero_sub, neg_smul, neg_neg] at this
      rw [this]
      ring)
  refine ⟨√L, Real.sqrt_pos.mpr hL, fun t w m => ?_⟩
  have h1 : avg (X t) l (φ t) σ w m ^ 2 ≤ L * ‖w‖ ^ 2 :=
    (single_le_sum (f := fun m => avg (X t) l (φ t) σ w m ^ 2) (fun m _ => sq_nonneg _) (mem_univ m)).trans
      ((le_abs_self _).trans (h t w))
  have h2 := Real.abs_le_sqrt h1
  rwa [Real.sqrt_mul hL.le, Real.sqrt_sq (norm_nonneg _)] at h2

/-- Acceptances and shifts for which the form decreases along a whole family of separated phases. -/
theorem exists_shrinks_on (htot : ∀ t, ∑ m, J t m = M) {R : ℝ} (hR : ∀ t i m, R < 4 * (J t m * l i)) :
    ∃ c₀ > 0, ∀ c : T → ℝ, Continuous c → (∀ t, c₀ ≤ c t) → ∀ ρ, 0 < ρ → ρ ≤ R → ∃ a₀ > 0, ∀ a, 0 < a → a ≤ a₀ →
      ∀ t, Shrinks (X t) l (J t) (φ t) σ (c t) ρ a := by
  have hM : (0 : ℝ) < M := by exact_mod_cast Nat.pos_of_ne_zero (NeZero.ne M)
  obtain ⟨κ, hκR, hκ⟩ := exists_lower_on (T := T) (f := fun t (a : Fin C × Fin M) => J t a.2 * l a.1)
    (fun a => (hJ a.2).mul continuous_const) (b := max 0 (R / 4)) (fun t a => max_lt
      (mul_pos ((hp t).vol _) ((hp t).size _)) (by have := hR t a.1 a.2; linarith))
  have hκ0 : 0 < κ := (le_max_left _ _).trans_lt hκR
  have hκ4 : R < 4 * κ := by linarith [(le_max_right 0 (R / 4)).trans_lt hκR]
  obtain ⟨c₁, hc₁, v, hv, hco⟩ := form_coercive_on (σ := σ) hX hJ hφ hp
  obtain ⟨K, hK, havg⟩ := exists_avg_le_on (σ := σ) hX hJ hφ hp
  obtain ⟨n, hn, hn1⟩ := exists_lower_on (T := T) (f := fun t (a : Fin C × Fin M) => J t a.2 * (l a.1 * φ t a.1 a.2))
    (fun a => (hJ a.2).mul (continuous_const.mul (hφ a.1 a.2))) (b := 0) (fun t a =>
      mul_pos ((hp t).vol _) (mul_pos ((hp t).size _) ((hp t).pos _ _)))
  set Lz := ∑ i, |l i| + 1 with hLz
  have hLz0 : 0 < Lz := by positivity
  have hz : ∀ t i m, l i * φ t i m ≤ Lz := fun t i m => by
    have h1 : φ t i m ≤ 1 := by
      rw [← (hp t).sum m]
      exact single_le_sum (f := fun i => φ t i m) (fun j _ => ((hp t).pos j m).le) (mem_univ i)
    have h2 : |l i| ≤ ∑ i, |l i| := single_le_sum (f := fun i => |l i|) (fun j _ => abs_nonneg _) (mem_univ i)
    have h3 := (hp t).size i
    rw [abs_of_pos h3] at h2
    nlinarith [(hp t).pos i m]
  obtain ⟨c₀, hc₀, hcc, h⟩ := decrease_of (M := M) (σ := σ) (l := l) hc₁ hv hn hK hLz0 hκ0 hM hκ4
  refine ⟨c₀, hc₀, fun c hcc' hct ρ hρ hρR => ?_⟩
  obtain ⟨L, hL, hLf⟩ := exists_form_le_on (E := Mat C M ℝ) (f := fun t w => form (X t) l (J t) (φ t) σ (c t) w w)
    (continuous_form hX hJ hφ hp hcc') (fun τ t w => form_smul (hp τ) w (c τ) t)
  obtain ⟨a₀, ha₀, h⟩ := h ρ hρ hρR L hL
  refine ⟨min a₀ 1, by positivity, fun a ha haa t => ?_⟩
  obtain ⟨γ, hγ, h⟩ := h (c t) (hct t) (X t) (J t) (φ t) (hp t)
    ⟨fun c hc => hco c hc t, energy_ge (hp t) hn fun i m => hn1 t (i, m), havg t, hz t, fun i m => hκ t (i, m), htot t⟩
    fun w => (le_abs_self _).trans (hLf t w)
  have hcoer := hco (c t) (hcc.trans (hct t)) t
  refine ⟨haa.trans (min_le_right _ _), ⟨v, hv, hcoer⟩, min (γ * a) (1 / 2), by positivity,
    (min_le_right _ _).trans_lt (by norm_num), fun w j hj => ?_⟩
  refine (h a ha (haa.trans (min_le_left _ _)) w j hj).trans (mul_le_mul_of_nonneg_right ?_
    (le_trans (by positivity) (hcoer w)))
  linarith [min_le_left (γ * a) (1 / 2)]

end

end Sep

end Flory
