import Verif.Lemmas.PersistRun
import Verif.Lemmas.ScanForms

/-! # Scans that follow coexisting phases -/

set_option linter.unusedSectionVars false

namespace Flory

open Spec Finset

variable {G : Type} {C S M : ℕ} [NeZero M] [NeZero S]

theorem coef_new (chis : Mat S S ℝ) (shift : ℝ) :
    (FHCompiled.new chis shift).coef = (∑ r, ∑ s, chis r s) + shift * S * S := by
  simp [FHCompiled.new]

section Start

/-- Arrays near coexisting phases, in terms of volumes, fractions and fields. -/
structure NearPhases (chis : Mat S S ℝ) (feat : Fin C → Fin S) (l x : Vec C ℝ) (J : Vec M ℝ) (φ : Mat C M ℝ)
    (U Λ : ℝ) (st : State C S M ℝ G) : Prop where
  volumes : ∑ m, st.Js m = M
  near : ∀ m, |st.Js m - J m| ≤ U
  fracs : ∀ i m, |fracsOf feat l x st.Js st.omegas i m - φ i m| ≤ U
  lag : ∀ r m, |lag chis feat (fracsOf feat l x st.Js st.omegas) st.omegas r m| ≤ Λ
  cons : ∀ k ∈ st.cons, k.Trivial

theorem NearPhases.mono {chis : Mat S S ℝ} {feat : Fin C → Fin S} {l x : Vec C ℝ} {J : Vec M ℝ} {φ : Mat C M ℝ}
    {U U' Λ Λ' : ℝ} {st : State C S M ℝ G} (h : NearPhases chis feat l x J φ U Λ st) (hU : U ≤ U') (hΛ : Λ ≤ Λ') :
    NearPhases chis feat l x J φ U' Λ' st :=
  ⟨h.volumes, fun m => (h.near m).trans hU, fun i m => (h.fracs i m).trans hU, fun r m => (h.lag r m).trans hΛ,
    h.cons⟩

/-- The fractions are proportional to the mean composition. -/
theorem fracsOf_means {feat : Fin C → Fin S} {l x x' : Vec C ℝ} {J : Vec M ℝ} {om : Mat S M ℝ} {i : Fin C}
    (hx : x i ≠ 0) (m : Fin M) : fracsOf feat l x' J om i m = x' i / x i * fracsOf feat l x J om i m := by
  show x' i / partitionFn feat l (fun m => J m / M) om i * Real.exp (-om (feat i) m * l i) =
    x' i / x i * (x i / partitionFn feat l (fun m => J m / M) om i * Real.exp (-om (feat i) m * l i))
  field_simp

/-- The lag changes little when interaction and fractions do. -/
theorem lag_move {chis chis' : Mat S S ℝ} {feat : Fin C → Fin S} {φ φ' : Mat C M ℝ} {om : Mat S M ℝ}
    {ω X F d : ℝ} (hF : ∀ i m, |φ' i m| ≤ F) (hω : ∀ r q, |chis' r q - chis r q| ≤ ω)
    (hX : ∀ r, ∑ j, |chis r (feat j)| ≤ X) (hd0 : 0 ≤ d) (hd : ∀ i m, |φ' i m - φ i m| ≤ d) (r : Fin S) (m : Fin M) :
    |lag chis' feat φ' om r m - lag chis feat φ om r m| ≤ 2 * (C * (ω * F) + X * d) := by
  have e : lag chis' feat φ' om r m - lag chis feat φ om r m =
      lag (fun r _ => ∑ j, (chis' r (feat j) * φ' j m - chis r (feat j) * φ j m)) (fun _ : Fin 1 => r)
        (fun _ _ => 1) (fun _ _ => 0) r m := by
    unfold lag
    simp only [Fin.sum_univ_one, mul_one, sub_zero, sum_sub_distrib]
    ring
  rw [e]
  refine lag_le (fun q => ?_) r
  simp only [Fin.sum_univ_one, mul_one, sub_zero]
  refine (abs_sum_le_sum_abs _ _).trans ?_
  calc ∑ j, |chis' q (feat j) * φ' j m - chis q (feat j) * φ j m|
      ≤ ∑ j, (ω * F + |chis q (feat j)| * d) := by
        refine sum_le_sum fun j _ => ?_
        have e1 : chis' q (feat j) * φ' j m - chis q (feat j) * φ j m =
            (chis' q (feat j) - chis q (feat j)) * φ' j m + chis q (feat j) * (φ' j m - φ j m) := by ring
        rw [e1]
        refine (abs_add_le _ _).trans (add_le_add ?_ ?_)
        · rw [abs_mul]
          exact mul_le_mul (hω _ _) (hF _ _) (abs_nonneg _) ((abs_nonneg _).trans (hω q q))
        · rw [abs_mul]
          exact mul_le_mul_of_nonneg_left (hd _ _) (abs_nonneg _)
    _ = C * (ω * F) + (∑ j, |chis q (feat j)|) * d := by
        rw [sum_add_distrib, sum_const, card_univ, Fintype.card_fin, nsmul_eq_mul, sum_mul]
    _ ≤ _ := by
        have := mul_le_mul_of_nonneg_right (hX q) hd0
        linarith

/-- Arrays near coexisting phases are near other phases that differ little. -/
theorem near_shift {l : Vec C ℝ} {x₀ X U : ℝ} (hx₀ : 0 < x₀) (hX0 : 0 ≤ X) (hU : 0 < U) : ∃ ω > 0, ∃ u > 0,
    ∀ (chis chis' : Mat S S ℝ) (feat : Fin C → Fin S) (x x' : Vec C ℝ) (J J' : Vec M ℝ) (φ φ' : Mat C M ℝ),
      (∀ i, x₀ ≤ x i) → (∀ r, ∑ j, |chis r (feat j)| ≤ X) → (∀ i m, 0 < φ i m) → (∀ i m, φ i m ≤ 1) →
      (∀ r q, |chis' r q - chis r q| ≤ ω) → (∀ i, |x' i - x i| ≤ ω) → (∀ m, |J' m - J m| ≤ ω) →
      (∀ i m, |φ' i m - φ i m| ≤ ω) → ∀ (Λ : ℝ) (st : State C S M ℝ G), NearPhases chis feat l x J φ u Λ st →
        NearPhases chis' feat l x' J' φ' U (Λ + 1) st := by
  set A := 4 / x₀ + 1 with hA
  have hA0 : 0 < A := by positivity
  set D := 2 * (C * (3 + A) + X * A) + 1 with hD
  have hD0 : 0 < D := by positivity
  set ω := min (min 1 (x₀ / 2)) (min (U / (2 * A)) (1 / D)) with hω
  have hω0 : 0 < ω := by positivity
  have hω1 : ω ≤ 1 := (min_le_left _ _).trans (min_le_left _ _)
  have hωx : ω ≤ x₀ / 2 := (min_le_left _ _).trans (min_le_right _ _)
  have hωU : A * ω ≤ U / 2 := by
    have := (min_le_right (min 1 (x₀ / 2)) (min (U / (2 * A)) (1 / D))).trans (min_le_left _ _)
    rw [← hω, le_div_iff₀ (by positivity)] at this
    linarith
  have hωD : D * ω ≤ 1 := by
    have := (min_le_right (min 1 (x₀ / 2)) (min (U / (2 * A)) (1 / D))).trans (min_le_right _ _)
    rw [← hω, le_div_iff₀ hD0] at this
    linarith
  clear_value ω
  refine ⟨ω, hω0, min 1 (U / 2), by positivity, fun chis chis' feat x x' J J' φ φ' hx hX hφ hφ1 k1 k2 k3 k4 Λ st hst => ?_⟩
  have hu1 : min 1 (U / 2) ≤ 1 := min_le_left _ _
  have hu2 : min 1 (U / 2) ≤ U / 2 := min_le_right _ _
  have hAω : ω ≤ A * ω := le_mul_of_one_le_left hω0.le (by
    have : 0 ≤ 4 / x₀ := by positivity
    linarith)
  -- fractions
  have hf2 : ∀ i m, |fracsOf feat l x st.Js st.omegas i m| ≤ 2 := fun i m => by
    have e1 := hst.fracs i m
    have e2 := abs_add_le (fracsOf feat l x st.Js st.omegas i m - φ i m) (φ i m)
    rw [sub_add_cancel, abs_of_pos (hφ i m)] at e2
    linarith [hφ1 i m]
  have hfd : ∀ i m, |fracsOf feat l x' st.Js st.omegas i m - fracsOf feat l x st.Js st.omegas i m| ≤
      2 / x₀ * ω := fun i m => by
    have hxt := hx₀.trans_le (hx i)
    rw [fracsOf_means (x' := x') hxt.ne']
    have e1 : x' i / x i * fracsOf feat l x st.Js st.omegas i m - fracsOf feat l x st.Js st.omegas i m =
        (x' i - x i) / x i * fracsOf feat l x st.Js st.omegas i m := by
      field_simp
    rw [e1, abs_mul, abs_div, abs_of_pos hxt]
    have e2 : |x' i - x i| / x i ≤ ω / x₀ := div_le_div₀ hω0.le (k2 i) hx₀ (hx i)
    calc _ ≤ ω / x₀ * 2 := mul_le_mul e2 (hf2 i m) (abs_nonneg _) (by positivity)
      _ = _ := by ring
  have hfA : 2 / x₀ * ω + ω ≤ A * ω := by
    have e1 : A * ω = 2 / x₀ * ω + ω + 2 / x₀ * ω := by rw [hA]; ring
    have : 0 ≤ 2 / x₀ * ω := by positivity
    linarith
  have hfdA : 2 / x₀ * ω ≤ A * ω := by linarith
  refine ⟨hst.volumes, fun m => ?_, fun i m => ?_, fun r m => ?_, hst.cons⟩
  · have e1 := abs_sub_le (st.Js m) (J m) (J' m)
    have e2 := k3 m
    rw [abs_sub_comm] at e2
    linarith [hst.near m]
  · have e1 := abs_sub_le (fracsOf feat l x' st.Js st.omegas i m) (fracsOf feat l x st.Js st.omegas i m)
      (φ' i m)
    have e2 := abs_sub_le (fracsOf feat l x st.Js st.omegas i m) (φ i m) (φ' i m)
    have e3 := k4 i m
    rw [abs_sub_comm] at e3
    linarith [hfd i m, hst.fracs i m]
  · have hF : ∀ i m, |fracsOf feat l x' st.Js st.omegas i m| ≤ 2 + A := fun i m => by
      have e2 := abs_add_le (fracsOf feat l x' st.Js st.omegas i m - fracsOf feat l x st.Js st.omegas i m)
        (fracsOf feat l x st.Js st.omegas i m)
      rw [sub_add_cancel] at e2
      have : A * ω ≤ A := mul_le_of_le_one_right hA0.le hω1
      linarith [hfd i m, hf2 i m]
    have e1 := lag_move (om := st.omegas) hF k1 hX (by positivity)
      (fun i m => (hfd i m).trans hfdA) r m
    have e2 := abs_add_le
      (lag chis' feat (fracsOf feat l x' st.Js st.omegas) st.omegas r m -
        lag chis feat (fracsOf feat l x st.Js st.omegas) st.omegas r m)
      (lag chis feat (fracsOf feat l x st.Js st.omegas) st.omegas r m)
    rw [sub_add_cancel] at e2
    have e3 : 2 * (C * (ω * (2 + A)) + X * (A * ω)) ≤ D * ω := by
      have : D * ω - 2 * (C * (ω * (2 + A)) + X * (A * ω)) = 2 * C * ω + ω := by rw [hD]; ring
      have : 0 ≤ 2 * C * ω + ω := by positivity
      linarith
    linarith [hst.lag r m]

/-- Arrays whose volumes and fields are near those of coexisting phases. -/
theorem near_fields {l : Vec C ℝ} (hl : ∀ i, 0 < l i) {x₀ U : ℝ} (hx₀ : 0 < x₀) (hU : 0 < U) : ∃ η > 0,
    ∀ (chis : Mat S S ℝ) (feat : Fin C → Fin S) (x : Vec C ℝ) (J : Vec M ℝ) (φ : Mat C M ℝ), (∀ m, 0 < J m) →
      Coexistence chis feat l x J φ → (∀ i, x₀ ≤ x i) → ∀ (X W : ℝ) (offset : Vec S ℝ),
      (∀ r, ∑ j, |chis r (feat j)| ≤ X) → (∀ r m, |equilibriumField chis feat l (fun j => φ j m) r| ≤ W) →
      ∀ st : State C S M ℝ G, ∑ m, st.Js m = M → (∀ m, |st.Js m - J m| ≤ η) →
      (∀ r m, |st.omegas r m - (equilibriumField chis feat l (fun j => φ j m) r + offset r)| ≤ η) →
      (∀ c ∈ st.cons, c.Trivial) →
        NearPhases chis feat l x J φ U (2 * (X * (1 + U) + (W + ∑ r, |offset r|) + η)) st := by
  obtain ⟨B, hB, η, hη, h⟩ := fracsOf_near (S := S) (M := M) hl hx₀
  set η' := min (min η U) (U / B) with hη'
  have hη'0 : 0 < η' := by positivity
  have h1 : η' ≤ η := (min_le_left _ _).trans (min_le_left _ _)
  have h2 : η' ≤ U := (min_le_left _ _).trans (min_le_right _ _)
  have h3 : B * η' ≤ U := by
    have : η' ≤ U / B := min_le_right _ _
    rw [le_div_iff₀ hB] at this
    linarith
  refine ⟨η', hη'0, fun chis feat x J φ hJ0 hc hx X W offset hX hW st hv hJ hom hcons => ?_⟩
  have hf := h chis feat x J φ hJ0 hc hx st.Js st.omegas offset η' hη'0.le h1 hJ hom
  exact ⟨hv, fun m => (hJ m).trans h2, fun i m => (hf i m).trans h3, lag_near hc hU.le hX
    (fun i m => (hf i m).trans h3) (fun r m => add_le_add (hW r m)
      (single_le_sum (f := fun r => |offset r|) (fun r _ => abs_nonneg _) (mem_univ r))) hom, hcons⟩

end Start

section Path

variable {T : Type} [PseudoMetricSpace T] [CompactSpace T] {feat : Fin C → Fin S} {l : Vec C ℝ}
  {chis : T → Mat S S ℝ} {x : T → Vec C ℝ} {J : T → Vec M ℝ} {φ : T → Mat C M ℝ} {σ : Fin S → Fin C}

theorem uniform_family {ι : Type} [Finite ι] {f : ι → T → ℝ} (hf : ∀ i, Continuous (f i)) {ω : ℝ} (hω : 0 < ω) :
    ∃ h > 0, ∀ t t', dist t t' ≤ h → ∀ i, |f i t' - f i t| ≤ ω := by
  have h1 : ∀ i, ∃ h > 0, ∀ t t', dist t t' ≤ h → |f i t' - f i t| ≤ ω := fun i => by
    have := CompactSpace.uniformContinuous_of_continuous (hf i)
    obtain ⟨h, hh, H⟩ := Metric.uniformContinuous_iff.mp this ω hω
    refine ⟨h / 2, by positivity, fun t t' ht => ?_⟩
    have h2 := H (a := t') (b := t) (by rw [dist_comm]; linarith)
    rw [Real.dist_eq] at h2
    exact h2.le
  choose h hh h1 using h1
  obtain ⟨n, hn, hn1⟩ := Sep.exists_lower h hh
  exact ⟨n, hn, fun t t' ht i => h1 i t t' (ht.trans (hn1 i))⟩

variable (hbr : Branch feat l chis x J φ) (hl : ∀ i, 0 < l i)
include hbr hl

theorem branch_means (t : T) (i : Fin C) : 0 < x t i := by
  have hM : (0 : ℝ) < M := by exact_mod_cast Nat.pos_of_ne_zero (NeZero.ne M)
  have h1 := (hbr.coexist t).mean i
  have h2 : 0 < ∑ m, J t m * φ t i m :=
    sum_pos (fun m _ => mul_pos (hbr.vol t m) ((hbr.coexist t).pos i m)) univ_nonempty
  rw [h1] at h2
  exact (mul_pos_iff_of_pos_left hM).mp h2

theorem branch_le_one (t : T) (i : Fin C) (m : Fin M) : φ t i m ≤ 1 := by
  rw [← (hbr.coexist t).incompressible m]
  exact single_le_sum (f := fun i => φ t i m) (fun j _ => ((hbr.coexist t).pos j m).le) (mem_univ i)

theorem branch_chis : ∃ X ≥ 0, ∀ t r, ∑ j, |chis t r (feat j)| ≤ X := by
  have h1 : ∀ r, ∃ X, ∀ t, ∑ j, |chis t r (feat j)| ≤ X := fun r => by
    obtain ⟨X, hX⟩ := (isCompact_univ (X := T)).exists_bound_of_continuousOn
      (f := fun t => ∑ j, |chis t r (feat j)|)
      (continuous_finsetSum _ fun j _ => (hbr.contChis r (feat j)).abs).continuousOn
    exact ⟨X, fun t => (le_abs_self _).trans (hX t (Set.mem_univ t))⟩
  choose X h1 using h1
  refine ⟨∑ r, |X r|, sum_nonneg fun r _ => abs_nonneg _, fun t r => (h1 r t).trans ((le_abs_self _).trans ?_)⟩
  exact single_le_sum (f := fun r => |X r|) (fun r _ => abs_nonneg _) (mem_univ r)

/-- Arrays near the phases at one point are near the phases at close points. -/
theorem near_move {U : ℝ} (hU : 0 < U) : ∃ h > 0, ∃ u > 0, ∀ t t', dist t t' ≤ h →
    ∀ st : State C S M ℝ G, NearPhases (chis t) feat l (x t) (J t) (φ t) u 1 st →
      NearPhases (chis t') feat l (x t') (J t') (φ t') U 2 st := by
  obtain ⟨X, hX0, hX⟩ := branch_chis hbr hl
  obtain ⟨x₀, hx₀, hx⟩ := exists_lower_on (f := x) hbr.contX (b := 0) (branch_means hbr hl)
  obtain ⟨ω, hω0, u, hu, H⟩ := near_shift (G := G) (S := S) (M := M) (l := l) hx₀ hX0 hU
  obtain ⟨h₁, hh₁, H₁⟩ := uniform_family (f := fun a : Fin S × Fin S => fun t => chis t a.1 a.2)
    (fun a => hbr.contChis a.1 a.2) hω0
  obtain ⟨h₂, hh₂, H₂⟩ := uniform_family (f := fun i t => x t i) hbr.contX hω0
  obtain ⟨h₃, hh₃, H₃⟩ := uniform_family (f := fun m t => J t m) hbr.contJ hω0
  obtain ⟨h₄, hh₄, H₄⟩ := uniform_family (f := fun a : Fin C × Fin M => fun t => φ t a.1 a.2)
    (fun a => hbr.contPhi a.1 a.2) hω0
  refine ⟨min (min h₁ h₂) (min h₃ h₄), by positivity, min u 1, by positivity, fun t t' ht st hst => ?_⟩
  have k1 : ∀ r q, |chis t' r q - chis t r q| ≤ ω := fun r q =>
    H₁ t t' (ht.trans ((min_le_left _ _).trans (min_le_left _ _))) (r, q)
  have k2 := H₂ t t' (ht.trans ((min_le_left _ _).trans (min_le_right _ _)))
  have k3 := H₃ t t' (ht.trans ((min_le_right _ _).trans (min_le_left _ _)))
  have k4 : ∀ i m, |φ t' i m - φ t i m| ≤ ω := fun i m =>
    H₄ t t' (ht.trans ((min_le_right _ _).trans (min_le_right _ _))) (i, m)
  exact (H (chis t) (chis t') feat (x t) (x t') (J t) (J t') (φ t) (φ t') (hx t) (hX t) (hbr.coexist t).pos
    (branch_le_one hbr hl t) k1 k2 k3 k4 1 st (hst.mono (min_le_left _ _) le_rfl)).mono le_rfl (by norm_num)

/-- Fields near those of the phases at a point of the branch. -/
theorem near_start {U : ℝ} (hU : 0 < U) : ∃ η > 0, ∀ offset : Vec S ℝ, ∃ Λ ≥ 0, ∀ t (st : State C S M ℝ G),
    ∑ m, st.Js m = M → (∀ m, |st.Js m - J t m| ≤ η) →
    (∀ r m, |st.omegas r m - (equilibriumField (chis t) feat l (fun j => φ t j m) r + offset r)| ≤ η) →
    (∀ c ∈ st.cons, c.Trivial) → NearPhases (chis t) feat l (x t) (J t) (φ t) U Λ st := by
  obtain ⟨X, hX0, hX⟩ := branch_chis hbr hl
  obtain ⟨x₀, hx₀, hx⟩ := exists_lower_on (f := x) hbr.contX (b := 0) (branch_means hbr hl)
  obtain ⟨η, hη, h⟩ := near_fields (G := G) (S := S) (M := M) hl hx₀ hU
  have hW : ∃ W ≥ 0, ∀ t r m, |equilibriumField (chis t) feat l (fun j => φ t j m) r| ≤ W := by
    have h1 : ∀ a : Fin S × Fin M, ∃ W, ∀ t, |equilibriumField (chis t) feat l (fun j => φ t j a.2) a.1| ≤ W :=
      fun a => by
        have hcont : Continuous fun t => equilibriumField (chis t) feat l (fun j => φ t j a.2) a.1 := by
          have c1 := hbr.contChis
          have c2 := hbr.contPhi
          unfold equilibriumField
          fun_prop
        obtain ⟨W, hW⟩ := (isCompact_univ (X := T)).exists_bound_of_continuousOn hcont.continuousOn
        exact ⟨W, fun t => hW t (Set.mem_univ t)⟩
    choose W h1 using h1
    refine ⟨∑ a, |W a|, sum_nonneg fun a _ => abs_nonneg _, fun t r m =>
      (h1 (r, m) t).trans ((le_abs_self _).trans ?_)⟩
    exact single_le_sum (f := fun a => |W a|) (fun a _ => abs_nonneg _) (mem_univ (r, m))
  obtain ⟨W, hW0, hW⟩ := hW
  exact ⟨η, hη, fun offset => ⟨2 * (X * (1 + U) + (W + ∑ r, |offset r|) + η), by positivity,
    fun t st hv hJ hom hcons => h (chis t) feat (x t) (J t) (φ t) (hbr.vol t) (hbr.coexist t) (hx t) X W offset (hX t)
      (hW t) st hv hJ hom hcons⟩⟩

/-- Runs that start near the phases at a point of the branch, with the same constants for all points. -/
theorem uniform_runs (hσ : ∀ r, feat (σ r) = r) {c : T → ℝ} (hcc : Continuous c) {ρ : ℝ} {p : Params ℝ}
    (hsh : ∀ t, Sep.Shrinks (fun i j => chis t (feat i) (feat j)) l (J t) (φ t) σ (c t) ρ p.acceptanceOmega)
    (hρ : 0 < ρ) (hp : ParamSetup M p ρ) (hkill : ∀ t m, p.killThreshold < J t m) :
    ∃ η > 0, ∃ B > 0, ∀ Λ, 0 ≤ Λ → ∃ K > 0, ∀ tol > 0, ∃ N : ℕ, LogSteps K tol N ∧
    ∀ t (ia : FHCompiled S ℝ) (es : CanonicalC C ℝ), ia.chis = chis t → ia.coef = c t → es.phiMeans = x t →
    ∀ e : RunEnv C S M ℝ G, RunSetup ia es feat l p e →
    ∀ st : State C S M ℝ G, NearPhases (chis t) feat l (x t) (J t) (φ t) η Λ st →
    ∀ (maxSteps : ℚ) (interval b : ℤ), N ≤ maxSteps → 0 < interval →
      ∃ f ph d, runImpl e maxSteps tol interval st b = (f, .ok (ph, d)) ∧
        (d.reviveCountLeft = b ∧ d.maxAbsIncomp < tol ∧ d.maxAbsOmegaDiff < tol ∧ d.maxAbsJsDiff < tol ∧
          d.maxConstraintResidue = 0 ∧ (∀ m i, |ph.fractions m i - φ t i m| ≤ B * tol) ∧
          ∀ m, |ph.volumes m - J t m| ≤ B * tol) ∧
        NearPhases (chis t) feat l (x t) (J t) (φ t) (B * tol) (B * tol) f.st := by
  have hM : (0 : ℝ) < M := by exact_mod_cast Nat.pos_of_ne_zero (NeZero.ne M)
  have hM1 : (1 : ℝ) ≤ M := by exact_mod_cast Nat.pos_of_ne_zero (NeZero.ne M)
  have hloc := fun t => local_runs (G := G) (P := M) (phase := id) (ψ₀ := φ t) (hbr.symm t) hl hσ (hbr.vol t) (hkill t)
    (hbr.coexist t) (hbr.stable t) (hbr.independent t) hρ hp (hsh t)
  choose r hr η hη B hB q hq0 hq1 hrun using hloc
  have hnb : ∀ t, {t' : T | (∀ k q, |chis t' k q - chis t k q| ≤ r t) ∧ |c t' - c t| ≤ r t ∧
      (∀ m, |J t' m - J t m| ≤ r t) ∧ ∀ i m, |φ t' i m - φ t i m| ≤ r t} ∈ nhds t := fun t => by
    have near : ∀ f : T → ℝ, Continuous f → ∀ᶠ t' in nhds t, |f t' - f t| ≤ r t := fun f hf => by
      have := (hf.tendsto t).eventually (Metric.closedBall_mem_nhds (f t) (hr t))
      exact this.mono fun t' h => by rwa [Real.dist_eq] at h
    have h1 : ∀ᶠ t' in nhds t, ∀ k q, |chis t' k q - chis t k q| ≤ r t :=
      Filter.eventually_all.mpr fun k => Filter.eventually_all.mpr fun q => near _ (hbr.contChis k q)
    have h2 := near c hcc
    have h3 : ∀ᶠ t' in nhds t, ∀ m, |J t' m - J t m| ≤ r t :=
      Filter.eventually_all.mpr fun m => near _ (hbr.contJ m)
    have h4 : ∀ᶠ t' in nhds t, ∀ i m, |φ t' i m - φ t i m| ≤ r t :=
      Filter.eventually_all.mpr fun i => Filter.eventually_all.mpr fun m => near _ (hbr.contPhi i m)
    filter_upwards [h1, h2, h3, h4] with t' a1 a2 a3 a4 using ⟨a1, a2, a3, a4⟩
  obtain ⟨s, hs⟩ := CompactSpace.elim_nhds_subcover _ hnb
  have hcov : ∀ t : T, ∃ t₀ : s, (∀ k q, |chis t k q - chis t₀ k q| ≤ r t₀) ∧ |c t - c t₀| ≤ r t₀ ∧
      (∀ m, |J t m - J t₀ m| ≤ r t₀) ∧ ∀ i m, |φ t i m - φ t₀ i m| ≤ r t₀ := fun t => by
    have h1 : t ∈ (⊤ : Set T) := trivial
    rw [← hs] at h1
    simp only [Set.mem_iUnion] at h1
    obtain ⟨t₀, ht₀, h⟩ := h1
    exact ⟨⟨t₀, ht₀⟩, h⟩
  obtain ⟨n, hn, hnle⟩ := Sep.exists_lower (fun t : s => η t) fun t => hη t
  set A := ∑ t : s, B t + 1 with hA
  have hA0 : 0 < A := by
    have : 0 ≤ ∑ t : s, B t := sum_nonneg fun t _ => (hB t).le
    linarith
  have hBA : ∀ t : s, B t ≤ A := fun t => by
    have : B t ≤ ∑ t : s, B t := single_le_sum (f := fun t : s => B t) (fun t _ => (hB t).le) (mem_univ t)
    linarith
  refine ⟨n, hn, M * A, by positivity, fun Λ hΛ => ?_⟩
  choose K hK hrun using fun t => hrun t Λ hΛ
  have hK0 : 0 ≤ ∑ t : s, K t := sum_nonneg fun t _ => (hK t).le
  refine ⟨∑ t : s, K t + 1, by linarith, fun tol htol => ?_⟩
  choose N hN0 hN using fun t => hrun t tol htol
  refine ⟨∑ t : s, N t + 1, ⟨by omega, ?_⟩, fun t ia es hia hco hes e he st hst maxSteps interval b hmax hint => ?_⟩
  · push_cast
    rw [add_mul, sum_mul, one_mul]
    have : 0 < 1 / tol := by positivity
    have := Real.log_nonneg (by linarith : 1 ≤ 1 + 1 / tol)
    exact add_le_add (sum_le_sum fun t _ => (hN0 t).2) (by linarith)
  obtain ⟨t₀, a1, a2, a3, a4⟩ := hcov t
  have hle : ((N t₀ : ℕ) : ℚ) ≤ maxSteps := by
    refine le_trans ?_ hmax
    have : N t₀ ≤ ∑ t : s, N t := single_le_sum (f := fun t : s => N t) (fun t _ => Nat.zero_le _) (mem_univ t₀)
    exact_mod_cast this.trans (Nat.le_succ _)
  obtain ⟨f, ph, d, hf, hres⟩ := hN t₀ ia es (J t) (φ t) (hia ▸ hbr.symm t) (hia ▸ a1) (hco ▸ a2) a3 a4
    (by rw [hia, hes]; exact hbr.coexist t) (by rw [hia]; exact hbr.stable t) e he st n hn.le (hnle t₀) hst.volumes
    hst.near (by rw [hes]; exact hst.fracs) (by rw [hia, hes]; exact hst.lag) hst.cons maxSteps interval b hle hint
  have hk1 : B t₀ * tol ≤ M * A * tol :=
    mul_le_mul_of_nonneg_right ((hBA t₀).trans (le_mul_of_one_le_left hA0.le hM1)) htol.le
  have hJ : ∀ m, |f.st.Js m - J t m| ≤ M * A * tol := fun m => by
    have h1 := hres.phasesTol m
    unfold Persist.phaseVolume at h1
    simp only [id, sum_filter, sum_ite_eq', mem_univ, if_true] at h1
    rw [← sub_div, abs_div, abs_of_pos hM, div_le_iff₀ hM] at h1
    have h2 := mul_le_mul_of_nonneg_right (hBA t₀) (mul_pos htol hM).le
    linarith
  refine ⟨f, ph, d, hf, ⟨hres.revive, hres.incomp, hres.omegaDiff, hres.jsDiff, hres.residue,
    fun m i => (hres.fractionsTol m i).trans hk1, fun m => ?_⟩, hres.volumes, hJ, fun i m => ?_, fun r m => ?_, hres.cons⟩
  · rw [hres.phVolumes]
    exact hJ m
  · have := hres.fracsTol i m
    rw [hes] at this
    exact this.trans hk1
  · have := hres.lagTol r m
    rw [hes, hia] at this
    exact this.trans hk1

/-- Scans along a branch of coexisting phases. -/
theorem follows_branch (hσ : ∀ r, feat (σ r) = r) {shift : T → ℝ} (hs : Continuous shift) {ρ : ℝ} {p : Params ℝ}
    (hsh : ∀ t, Sep.Shrinks (fun i j => chis t (feat i) (feat j)) l (J t) (φ t) σ
      (FHCompiled.new (chis t) (shift t)).coef ρ p.acceptanceOmega)
    (hρ : 0 < ρ) (hp : ParamSetup M p ρ) (hkill : ∀ t m, p.killThreshold < J t m) :
    FollowsBranch G feat l chis x J φ shift p := by
  have hcc : Continuous fun t => (FHCompiled.new (chis t) (shift t)).coef := by
    have c1 := hbr.contChis
    simp only [coef_new]
    fun_prop
  obtain ⟨n, hn, B, hB, hrun⟩ := uniform_runs (G := G) hbr hl hσ hcc hsh hρ hp hkill
  obtain ⟨h, hh, u, hu, hmove⟩ := near_move (G := G) hbr hl hn
  obtain ⟨η, hη, hstart⟩ := near_start (G := G) hbr hl hn
  refine ⟨h, hh, η, hη, min u 1 / B, by positivity, B, hB, fun offset => ?_⟩
  obtain ⟨Λ, hΛ, hstart⟩ := hstart offset
  obtain ⟨K, hK, hrun⟩ := hrun (max Λ 2) (hΛ.trans (le_max_left _ _))
  refine ⟨K, hK, fun tol htol hτ => ?_⟩
  obtain ⟨N, hN0, hrun⟩ := hrun tol htol
  refine ⟨N, hN0, fun ts hts es hes e he st h1 h2 h3 h4 maxSteps interval b hmax hint => ?_⟩
  have hBt : B * tol ≤ min u 1 := by
    rw [le_div_iff₀ hB] at hτ
    linarith
  have hnear : ∀ k, NearPhases (chis (ts k)) feat l (x (ts k)) (J (ts k)) (φ (ts k)) n (max Λ 2)
      (scanState e maxSteps tol interval b st k) := fun k => by
    induction k with
    | zero => exact (hstart (ts 0) st h1 h2 h3 h4).mono le_rfl (le_max_left _ _)
    | succ k ih =>
      obtain ⟨f, ph, d, hf, -, hst⟩ := hrun (ts k) _ (es k) rfl rfl (hes k) (e k) (he k) _ ih (maxSteps k) (interval k)
        (b k) (hmax k) (hint k)
      have e1 : scanState e maxSteps tol interval b st (k + 1) = f.st := by
        show (runImpl (e k) (maxSteps k) tol (interval k) (scanState e maxSteps tol interval b st k) (b k)).1.st = _
        rw [hf]
      rw [e1]
      exact (hmove _ _ (hts k) _ (hst.mono (hBt.trans (min_le_left _ _)) (hBt.trans (min_le_right _ _)))).mono le_rfl
        (le_max_right _ _)
  intro k
  obtain ⟨f, ph, d, hf, hres, -⟩ := hrun (ts k) _ (es k) rfl rfl (hes k) (e k) (he k) _ (hnear k) (maxSteps k) (interval k)
    (b k) (hmax k) (hint k)
  exact ⟨ph, d, by rw [hf], hres⟩

/-- With a large enough shift and small enough acceptances scans follow the branch. -/
theorem exists_follows_branch (hfeat : Function.Surjective feat) {R : ℝ} (hR : ∀ t i m, R < 4 * (J t m * l i)) :
    ∃ s₀ : ℝ, ∀ shift : T → ℝ, Continuous shift → (∀ t, s₀ ≤ shift t) → ∀ ρ, 0 < ρ → ρ ≤ R → ∃ a₀ > 0,
      ∀ p : Params ℝ, ParamSetup M p ρ → (∀ t m, p.killThreshold < J t m) → p.acceptanceOmega ≤ a₀ →
        ∀ G : Type, FollowsBranch G feat l chis x J φ shift p := by
  obtain ⟨σ, hσ⟩ := hfeat.hasRightInverse
  have hS : (1 : ℝ) ≤ (S : ℝ) * S := by
    have : (1 : ℝ) ≤ S := by exact_mod_cast Nat.pos_of_ne_zero (NeZero.ne S)
    nlinarith
  obtain ⟨c₀, hc₀, hsh⟩ := Sep.exists_shrinks_on (T := T) (σ := σ) (X := fun t i j => chis t (feat i) (feat j))
    (J := J) (φ := φ) (l := l) (fun i j => hbr.contChis _ _) hbr.contJ hbr.contPhi
    (fun t => (hbr.coexist t).stablePhases (hbr.symm t) hl (hbr.vol t) (hbr.stable t))
    (fun t => (hbr.coexist t).volumes) hR
  obtain ⟨K, hK⟩ := (isCompact_univ (X := T)).exists_bound_of_continuousOn
    (f := fun t => ∑ r, ∑ q, chis t r q)
    (continuous_finsetSum _ fun r _ => continuous_finsetSum _ fun q _ => hbr.contChis r q).continuousOn
  refine ⟨c₀ + |K|, fun shift hs hs0 ρ hρ hρR => ?_⟩
  have hcc : Continuous fun t => (FHCompiled.new (chis t) (shift t)).coef := by
    have c1 := hbr.contChis
    simp only [coef_new]
    fun_prop
  obtain ⟨a₀, ha₀, hsh⟩ := hsh _ hcc (fun t => by
    have e1 := hK t (Set.mem_univ t)
    rw [Real.norm_eq_abs] at e1
    have e2 := (abs_le.mp e1).1
    have e3 := le_abs_self K
    have e4 : c₀ + |K| ≤ shift t * (S * S) :=
      (hs0 t).trans (le_mul_of_one_le_right ((add_pos_of_pos_of_nonneg hc₀ (abs_nonneg _)).le.trans (hs0 t)) hS)
    simp only [coef_new]
    rw [mul_assoc]
    linarith) ρ hρ hρR
  exact ⟨a₀, ha₀, fun p hp hkill hpa G => follows_branch hbr hl hσ hs
    (fun t => hsh p.acceptanceOmega hp.omega hpa t) hρ hp hkill⟩

end Path

end Flory
