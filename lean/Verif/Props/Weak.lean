import Verif.Spec.Weak
import Verif.Lemmas.WeakRun
import Verif.Props.Chance

/-! # C95: weakly interacting mixtures do not separate -/

set_option linter.unusedSectionVars false

namespace Flory

open Finset Spec MeasureTheory ProbabilityTheory

variable {G : Type}

section Run

variable {C S M : ℕ}

theorem run_mixes [NeZero M] [NeZero S] {ia : FHCompiled S ℝ} {es : CanonicalC C ℝ} {l : Vec C ℝ}
    {feat : Fin C → Fin S} {l₀ l₁ X V₁ K lam R v q A B : ℝ} {e : RunEnv C S M ℝ G} (hB : 0 ≤ B)
    (hd : WeakData M ia es.phiMeans l e.params l₀ l₁ X V₁ (4 * B + 2) K lam R (2 * B + K * (2 * B + 2)) v q A)
    (hX : X ≤ 1) (hq : 0 < q) (hok : e.rng.Ok) (hthr : 0 ≤ e.params.killThreshold)
    (hthr2 : 2 * e.params.killThreshold * ((M : ℝ) - 1) < 1) (hstd : e.criterion = "standard")
    (hia : e.ia = ia.toI M) (hen : IsIdealGas e.en l feat) (hes : e.es = es.toI M)
    {D : ℝ} (hD : 4 * M * l₁ * (4 * (1 + K) / lam) * S ≤ D) (hD' : 4 * M * l₁ * (4 * (1 + K) / lam) * ia.coef ≤ D) :
    Mixes e es.phiMeans B v D := by
  have hM : (0 : ℝ) < M := by exact_mod_cast Nat.pos_of_ne_zero (NeZero.ne M)
  have hK := hd.K_ge
  set Z₀ := 2 * B + K * (2 * B + 2) with hZ₀
  have hZ0 : 0 ≤ Z₀ := hd.Z₀_nonneg
  have hA0 : 0 < A := by
    have h1 := hd.A_js
    have hX0 : 0 ≤ X := (abs_nonneg _).trans (hd.X_ge 0 0)
    have hl₁ : 0 ≤ l₁ := by
      have hC : Nonempty (Fin C) := by
        by_contra hC
        rw [not_nonempty_iff] at hC
        have := hd.sum
        simp at this
      obtain ⟨i⟩ := hC
      exact hd.l₀_pos.le.trans ((hd.size_ge i).trans (hd.size_le i))
    have := hd.coef
    have := hd.l₀_pos
    have : 0 ≤ (2 * M * X + X + ia.coef / S + 1 / l₀) * (4 * M * l₁) := by positivity
    linarith
  refine ⟨A * (Z₀ + 1) / q, by positivity, q, hq, hd.q_lt, ?_⟩
  obtain ⟨K', hK', hlog⟩ := exists_logSteps (show 0 < 0 + A * Z₀ + 1 by positivity) hq.le hd.q_lt
  refine ⟨K', hK', fun tol htol => ?_⟩
  obtain ⟨n, hn, hlog⟩ := hlog tol htol
  refine ⟨2 * (n + 1), hlog, fun st hJ hom hcons maxSteps interval b hN hint => ?_⟩
  have hplace : WeakPlace ia.chis feat es.phiMeans K R Z₀ q 0 st := by
    have hlev : ∀ m, |Weak.level st.omegas m| ≤ B := fun m => Weak.abs_mean_le fun r => hom r m
    refine ⟨by simp [hJ], hcons, 2 * B, 2 * B + 2, Z₀, by linarith, ⟨fun m n => ?_, fun r m => ?_⟩, le_rfl,
      by simp, fun m => by simp [hJ]⟩
    · refine (abs_sub _ _).trans ?_
      linarith [hlev m, hlev n]
    · have h1 : |Weak.gap ia.chis feat es.phiMeans r| ≤ 2 := by
        refine (Weak.abs_gap_le hd.X_ge r).trans ?_
        rw [sum_congr rfl fun i _ => abs_of_pos (hd.pos i), hd.sum]
        linarith
      have h2 := abs_sub (st.omegas r m - Weak.level st.omegas m) (Weak.gap ia.chis feat es.phiMeans r)
      have h3 := abs_sub (st.omegas r m) (Weak.level st.omegas m)
      linarith [hlev m, hom r m]
  have hpos : 0 < maxSteps := by
    refine lt_of_lt_of_le ?_ hN
    exact_mod_cast (by omega : 0 < 2 * (n + 1))
  have hprop : ∀ k ∈ st.cons, k.Proper := by
    intro k hk
    have := hcons k hk
    cases k with
    | no c => trivial
    | loc A c => exact this.elim
    | glob A c => exact this.elim
  obtain ⟨f, ph, d, h⟩ := run_ok (e := e) hok hen (hes ▸ es.total) hthr (hd.kill.trans (by norm_num)) hthr2
    hd.bound hstd (tol := tol) (maxSteps := maxSteps) (interval := interval) hpos hint st b hprop
    (Or.inl ⟨0, hplace.alive hd 0⟩)
  obtain ⟨r1, r2, r3, r4, r5, r6, r8, r7, r9, r10⟩ := run_weak hd hen hia hes hthr hplace h
  obtain ⟨hsteps0, hlong⟩ := run_long hthr hN hint h
  have hqs : q ^ (d.steps - 1) = q ^ d.steps / q := by
    rw [eq_div_iff hq.ne', ← pow_succ, Nat.sub_add_cancel hsteps0]
  have herr : d.maxAbsIncomp < tol ∧ d.maxAbsOmegaDiff < tol ∧ d.maxAbsJsDiff < tol := by
    rcases hlong with hnd | hmet
    · have hlt := decay_lt hq.le le_rfl hd.q_lt le_rfl hA0.le hZ0 hnd hn
      rw [zero_mul, zero_add] at hlt
      exact ⟨r2.trans_lt hlt, r3.trans_lt hlt, r4.trans_lt hlt⟩
    · exact hmet
  refine ⟨f, ph, d, h, r1, herr.1, herr.2.1, herr.2.2, r5, fun m i => ⟨(r6 m i).trans ?_, (r8 m i).trans ?_⟩, r7⟩
  swap
  · have h1 := mul_le_mul_of_nonneg_right hD r9
    have h2 := mul_le_mul_of_nonneg_right hD' r10
    linarith
  rw [hqs]
  have e1 : A * (Z₀ * (q ^ d.steps / q)) = A * Z₀ / q * q ^ d.steps := by ring
  rw [e1]
  have : A * Z₀ ≤ A * (Z₀ + 1) := mul_le_mul_of_nonneg_left (by linarith) hA0.le
  gcongr

/-- **C95**: if the interaction is weak enough, every run mixes, whatever the fields at the beginning. -/
theorem C95_mixes [NeZero C] [NeZero M] [NeZero S] {l : Vec C ℝ} (hl : ∀ i, 0 < l i) (feat : Fin C → Fin S) {s₀ s₁ : ℝ}
    (hs₀ : 0 < s₀) (hs₁ : s₀ ≤ s₁) :
    ∃ a₀ > 0, ∀ B v : ℝ, 0 ≤ B → 0 < v → ∃ X > 0, ∃ ρ > 0, ∃ D > 0,
      ∀ (chis : Mat S S ℝ), (∀ r s, |chis r s| ≤ X) →
      ∀ shift, s₀ ≤ shift → shift ≤ s₁ → ∀ phi : Vec C ℝ, (∀ i, 0 < phi i) → ∑ i, phi i = 1 →
      ∀ (e : RunEnv C S M ℝ G), e.rng.Ok → 0 ≤ e.params.killThreshold → e.params.killThreshold < 1 / 2 →
        2 * e.params.killThreshold * ((M : ℝ) - 1) < 1 → 0 < e.params.JsStepUpperBound →
        e.criterion = "standard" → e.ia = (FHCompiled.new chis shift).toI M → IsIdealGas e.en l feat →
        e.es = (⟨phi⟩ : CanonicalC C ℝ).toI M → 0 < e.params.acceptanceOmega → e.params.acceptanceOmega ≤ a₀ →
        0 ≤ e.params.acceptanceJs → e.params.acceptanceJs ≤ ρ * e.params.acceptanceOmega →
        Mixes e phi B v D := by
  have hM : (0 : ℝ) < M := by exact_mod_cast Nat.pos_of_ne_zero (NeZero.ne M)
  have hS : (0 : ℝ) < S := by exact_mod_cast Nat.pos_of_ne_zero (NeZero.ne S)
  obtain ⟨l₀, hl₀, hll⟩ := Sep.exists_lower l hl
  set l₁ := ∑ i, l i with hl₁
  have hlu : ∀ i, l i ≤ l₁ := fun i => single_le_sum (f := l) (fun j _ => (hl j).le) (mem_univ i)
  have hl₁0 : 0 < l₁ := (hl 0).trans_le (hlu 0)
  set k₀ := S * s₀ / 2 with hk₀
  set k₁ := S * (s₁ + s₀) with hk₁
  have hk₀0 : 0 < k₀ := by positivity
  have hk₁0 : 0 < k₁ := by have : 0 < s₁ + s₀ := by linarith
                           positivity
  refine ⟨min 1 (1 / (k₁ * (2 * M * l₁))), by positivity, fun B v hB hv => ?_⟩
  set E₁ := 4 * B + 2 with hE₁
  set K := max 1 (2 * (4 * k₁ * M * l₁ * Real.exp (2 * l₁ * E₁))) with hK
  have hK1 : 1 ≤ K := le_max_left _ _
  set Z₀ := 2 * B + K * (2 * B + 2) with hZ₀
  have hZ0 : 0 < Z₀ := by
    have : 0 < K * (2 * B + 2) := by positivity
    linarith
  set κ := k₀ * l₀ * Real.exp (-(l₁ * (2 * Z₀ + 2 * E₁))) with hκ
  have hκ0 : 0 < κ := by positivity
  set lam := min (κ / 2) (1 / 4) with hlam
  have hlam0 : 0 < lam := by positivity
  set X := min (min (s₀ / 2) 1) (min (κ / (16 * K * M * l₁)) (1 / (64 * M * l₁))) with hX
  have hX0 : 0 < X := by positivity
  have hX1 : X ≤ s₀ / 2 := (min_le_left _ _).trans (min_le_left _ _)
  have hX2 : X ≤ 1 := (min_le_left _ _).trans (min_le_right _ _)
  have hX3 : X * (16 * K * M * l₁) ≤ κ := by
    rw [← le_div_iff₀ (by positivity)]
    exact (min_le_right _ _).trans (min_le_left _ _)
  have hX4 : X * (64 * M * l₁) ≤ 1 := by
    rw [← le_div_iff₀ (by positivity)]
    exact (min_le_right _ _).trans (min_le_right _ _)
  set H := 1 + (2 * M * X + X + k₁ + 1 / l₀) * (4 * M * l₁) with hH
  have hH0 : 0 < H := by positivity
  set R := min v (1 / 2) / (Z₀ + 1) with hR
  have hR0 : 0 < R := by positivity
  refine ⟨X, hX0, R * lam / (4 * H), by positivity, 4 * M * l₁ * (4 * (1 + K) / lam) * (S + S * k₁),
    by positivity, ?_⟩
  intro chis hchis shift hsh0 hsh1 phi hphi hsum e hok hthr hthr1 hthr2 hub hstd hia hen hes ha haa hb hba
  set ia := FHCompiled.new chis shift with hiadef
  have hcsum : |∑ r, ∑ s, chis r s| ≤ S * (S * X) := by
    refine (abs_sum_le_sum_abs _ _).trans
      ((sum_le_sum fun r _ => (abs_sum_le_sum_abs _ _).trans (sum_le_sum fun s _ => hchis r s)).trans ?_)
    simp
  have hcoef : ia.coef = (∑ r, ∑ s, chis r s) + shift * S * S := rfl
  have hck : ia.coef / S ≤ k₁ := by
    rw [div_le_iff₀ hS, hcoef, hk₁]
    have h1 := (abs_le.mp hcsum).2
    have h2 : S * (S * X) ≤ S * (S * s₀) := by
      have : X ≤ s₀ := by linarith
      gcongr
    have h3 : shift * S * S ≤ s₁ * S * S := by gcongr
    linarith
  have hck0 : k₀ ≤ ia.coef / S := by
    rw [le_div_iff₀ hS, hcoef, hk₀]
    have h1 := (abs_le.mp hcsum).1
    have h2 : S * (S * X) ≤ S * (S * (s₀ / 2)) := by gcongr
    have h3 : s₀ * S * S ≤ shift * S * S := by gcongr
    linarith
  have hc0 : 0 ≤ ia.coef := by
    have := hk₀0.le.trans hck0
    rw [le_div_iff₀ hS, zero_mul] at this
    exact this
  have hκle : κ ≤ ia.coef / S * l₀ * Real.exp (-(l₁ * (2 * Z₀ + 2 * E₁))) := by
    rw [hκ]
    gcongr
  have hH' : 1 + (2 * M * X + X + ia.coef / S + 1 / l₀) * (4 * M * l₁) ≤ H := by
    rw [hH]
    gcongr
  set H' := 1 + (2 * M * X + X + ia.coef / S + 1 / l₀) * (4 * M * l₁) with hH'def
  have hH'0 : 0 < H' := by
    have : 0 ≤ ia.coef / S := hk₀0.le.trans hck0
    rw [hH'def]
    positivity
  set θ := e.params.JsStepUpperBound / max (H' * (2 * Z₀) * e.params.acceptanceJs) e.params.JsStepUpperBound
    with hθ
  have hθ0 : 0 < θ := div_pos hub (lt_max_of_lt_right hub)
  have hdrift : R * Z₀ ≤ min v (1 / 2) := by
    rw [hR, div_mul_eq_mul_div, div_le_iff₀ (by linarith)]
    exact mul_le_mul_of_nonneg_left (by linarith) (by positivity)
  have hd : WeakData M ia phi l e.params l₀ l₁ X Z₀ E₁ K lam R Z₀ (min v (1 / 2))
      (max (1 / 2) (1 - e.params.acceptanceOmega * θ * lam))
      (2 * (4 * M * l₁) + 2 * H' + (2 * (ia.coef / S) * (4 * M * l₁) + 4 * X * (4 * M * l₁) + 1)) := by
    have hcS : 0 ≤ ia.coef / S := hk₀0.le.trans hck0
    refine ⟨hl₀, hll, hlu, hphi, hsum, hchis, hc0, hK1, ?_, ?_, ?_, hlam0, ?_, min_le_right _ _, hZ0.le, le_rfl, ?_, ha,
      haa.trans (min_le_left _ _), ?_, hb, hR0.le, ?_, hdrift, min_le_right _ _, hthr1, hub, le_max_right _ _,
      by positivity, max_lt (by norm_num) ?_, ?_, ?_, ?_⟩
    · have h1 := le_max_right 1 (2 * (4 * k₁ * M * l₁ * Real.exp (2 * l₁ * E₁)))
      rw [← hK] at h1
      have h2 : 4 * (ia.coef / S) * M * l₁ * Real.exp (2 * l₁ * E₁) ≤ 4 * k₁ * M * l₁ * Real.exp (2 * l₁ * E₁) := by
        gcongr
      linarith
    · linarith
    · linarith
    · have := min_le_left (κ / 2) (1 / 4)
      rw [← hlam] at this
      linarith
    · have : B ≤ K * B := le_mul_of_one_le_left hB hK1
      rw [hZ₀, hE₁]
      linarith
    · have h1 := haa.trans (min_le_right _ _)
      rw [le_div_iff₀ (by positivity)] at h1
      refine le_trans ?_ h1
      rw [mul_assoc]
      gcongr
    · have h1 : e.params.acceptanceJs * (4 * H) ≤ R * lam * e.params.acceptanceOmega := by
        have := mul_le_mul_of_nonneg_right hba (by positivity : 0 ≤ 4 * H)
        refine this.trans (le_of_eq ?_)
        field_simp
      have h2 : e.params.acceptanceJs * (4 * H') ≤ e.params.acceptanceJs * (4 * H) := by gcongr
      linarith
    · have : 0 < e.params.acceptanceOmega * θ * lam := by positivity
      linarith
    · have : 0 ≤ 2 * (ia.coef / S) * (4 * M * l₁) + 4 * X * (4 * M * l₁) + 1 := by positivity
      linarith
    · have : 0 ≤ 2 * (4 * M * l₁) := by positivity
      have : 0 ≤ 2 * (ia.coef / S) * (4 * M * l₁) + 4 * X * (4 * M * l₁) + 1 := by positivity
      linarith
    · have : 0 ≤ 2 * (4 * M * l₁) := by positivity
      linarith
  have hck' : ia.coef ≤ S + S * k₁ := by
    rw [div_le_iff₀ hS] at hck
    linarith
  obtain ⟨A, hA, q, hq0, hq1, K', hK', h⟩ := run_mixes (es := ⟨phi⟩) hB hd hX2 (by positivity) hok hthr hthr2 hstd hia hen hes
    (D := 4 * M * l₁ * (4 * (1 + K) / lam) * (S + S * k₁))
    (mul_le_mul_of_nonneg_left (by linarith [mul_pos hS hk₁0]) (by positivity))
    (mul_le_mul_of_nonneg_left hck' (by positivity))
  refine ⟨A, hA, q, hq0, hq1, K', hK', fun tol htol => ?_⟩
  obtain ⟨N, hN, h⟩ := h tol htol
  refine ⟨N, hN, fun st h1 h2 h3 maxSteps interval b h4 h5 => ?_⟩
  obtain ⟨f, ph, d, i1, i2, i3, i4, i5, i6, i7, i8⟩ := h st h1 h2 h3 maxSteps interval b h4 h5
  exact ⟨f, ph, d, i1, i2, i3, i4, i5, i6, i7, fun m => (i8 m).trans (min_le_left _ _)⟩

end Run

section Search

variable {C M : ℕ}

/-- Finitely many standard normal variables are bounded with a probability near 1. -/
theorem gaussian_box (n : ℕ) {δ : ENNReal} (hδ : 0 < δ) :
    ∃ T : ℕ, 1 - δ ≤ ∏ _k : Fin n, gaussianReal 0 1 {x : ℝ | |x| ≤ T} := by
  set μ := Measure.pi fun _ : Fin n => gaussianReal 0 1 with hμ
  have hmono : Monotone fun T : ℕ => Set.pi Set.univ fun _ : Fin n => {x : ℝ | |x| ≤ T} := fun a b hab =>
    Set.pi_mono fun k _ x hx => le_trans (show |x| ≤ (a : ℝ) from hx) (by exact_mod_cast hab)
  have hU : (⋃ T : ℕ, Set.pi Set.univ fun _ : Fin n => {x : ℝ | |x| ≤ T}) = Set.univ := by
    refine Set.eq_univ_of_forall fun x => Set.mem_iUnion.mpr ?_
    obtain ⟨T, hT⟩ := exists_nat_ge (∑ k, |x k|)
    refine ⟨T, fun k _ => ?_⟩
    exact le_trans (single_le_sum (f := fun k => |x k|) (fun _ _ => abs_nonneg _) (mem_univ k)) hT
  have ht := tendsto_measure_iUnion_atTop (μ := μ) hmono
  rw [hU, measure_univ] at ht
  rcases le_or_gt 1 δ with h1 | h1
  · exact ⟨0, by rw [tsub_eq_zero_of_le h1]; exact zero_le⟩
  · have hlt : 1 - δ < 1 := ENNReal.sub_lt_self (by simp) (by simp) hδ.ne'
    obtain ⟨T, hT⟩ := (ht.eventually (lt_mem_nhds hlt)).exists
    refine ⟨T, hT.le.trans (le_of_eq ?_)⟩
    rw [hμ, Function.comp_apply, Measure.pi_pi]

/-- **C95**, the whole search: if the interaction is weak enough, `find_coexisting_phases` returns the
homogeneous mixture with a probability as near to 1 as wanted. -/
theorem C95_search {env : FinderEnv G} (hrng : env.rng.Ok) (ext : PhasesExt) [NeZero C] [NeZero M]
    (hext : ∀ {P : ℕ} (x : Phases P C ℝ), 2 ≤ P → FCluster (1 / 100) x.fractions (ext.labels x))
    {l : Vec C ℝ} (hl : ∀ i, 0 < l i) {shift : ℝ} (hshift : 0 < shift) :
    ∃ a₀ > 0, ∀ (σ : ℝ) (δ : ENNReal), 0 < δ → ∀ ε > 0, ε ≤ 1 / 200 → ∃ X > 0, ∃ ρ₀ > 0, ∃ t₀ > 0,
      ∀ chis : Mat C C ℝ, (∀ i j, chis i j = chis j i) → (∀ i j, |chis i j| ≤ X) →
      ∀ phi : Vec C ℝ, (∀ i, 0 < phi i) → ∑ i, phi i = 1 → ∀ ρ, 0 ≤ ρ → ρ ≤ ρ₀ →
      ∀ a : FinderArgs, Careful C M shift ρ a₀ a → a.randomStd ≤ σ → a.killThreshold < 1 / 2 →
      a.tolerance ≤ t₀ → ∃ N : ℕ, ∀ maxSteps : ℚ, N ≤ maxSteps →
      ∀ {Ω : Type} [MeasurableSpace Ω] {P : Measure Ω} {g : Ω → G}, NormalDraws P env.rng g (C * M) →
        1 - δ ≤ P (foundEvent env ext g chis l phi a maxSteps (fun i (_ : Fin M) => phi i) ε) := by
  have hC : (0 : ℝ) < C := by exact_mod_cast Nat.pos_of_ne_zero (NeZero.ne C)
  obtain ⟨a₀, ha₀, h⟩ := C95_mixes (G := G) (M := M) hl id (half_pos hshift) (by linarith : shift / 2 ≤ 2 * shift)
  refine ⟨a₀, ha₀, fun σ δ hδ ε hε hε' => ?_⟩
  obtain ⟨T, hT⟩ := gaussian_box (C * M) hδ
  obtain ⟨X, hX, ρ₀, hρ₀, D, hD, h⟩ := h (|σ| * T) (ε / (4 * C)) (by positivity) (by positivity)
  refine ⟨min X (shift / 2), by positivity, ρ₀, hρ₀, ε / (4 * C) / (2 * D), by positivity, ?_⟩
  intro chis hsym hchis phi hphi hsum ρ hρ hρ' a ha hσ hkill htol
  have hmin : |matMin chis| ≤ shift / 2 := by
    obtain ⟨r, s, e⟩ := matMin_mem chis
    rw [e]
    exact (hchis r s).trans (min_le_right _ _)
  obtain ⟨A, -, q, -, -, K, hK, h⟩ := h chis (fun r s => (hchis r s).trans (min_le_left _ _)) (-matMin chis + shift)
    (by linarith [(abs_le.mp hmin).2]) (by linarith [(abs_le.mp hmin).1]) phi hphi hsum
    ⟨(FHCompiled.new chis (-matMin chis + shift)).toI M, (⟨l⟩ : IdealC C).toI M,
      (⟨phi⟩ : CanonicalC C ℝ).toI M, env.rng, ⟨a.acceptanceJs, a.JsStepUpperBound, a.acceptanceOmega,
        a.killThreshold, a.reviveScaler⟩, a.criterion, env.crash C C M⟩
    hrng ha.kill hkill ha.kill_share ha.step ha.criterion rfl (IdealC.isIdealGas _) rfl ha.omega ha.omega_le
    (by show 0 ≤ a.acceptanceJs; rw [ha.Js]; exact mul_nonneg hρ ha.omega.le)
    (by show a.acceptanceJs ≤ _; rw [ha.Js]; exact mul_le_mul_of_nonneg_right hρ' ha.omega.le)
  obtain ⟨N, hN, h⟩ := h a.tolerance ha.tolerance
  refine ⟨N, fun maxSteps hmax Ω _ P g hg => hT.trans ?_⟩
  rw [← draws_probability hg fun k => measurableSet_le (by fun_prop) (by fun_prop)]
  refine measure_mono fun ω hω => ?_
  have hsteps : 0 < maxSteps := lt_of_lt_of_le (by exact_mod_cast hN.1) hmax
  refine shortcut_near hrng ext (g ω) hext hsym (a := { a with maxSteps := maxSteps }) (shift := shift) (ρ := ρ)
    (a₀ := a₀) ⟨ha.numPart, ha.shift, ha.std, ha.kill, ha.kill_one, ha.kill_share, ha.step, ha.criterion,
      ha.tolerance, ha.interval, ha.omega, ha.omega_le, ha.Js⟩ hsteps (T := fun _ _ => 0) (U := |σ| * T)
    (δ := ε / (4 * C)) (by positivity) (le_of_eq (by field_simp)) hε' (fun m n ⟨i, hi⟩ => absurd rfl hi) ?_ ?_
  · intro st interval b hint hJ hom hcons
    obtain ⟨f, ph, d, i1, -, i2, i3, i4, -, i5, i6⟩ := h st hJ (fun r m => by simpa using hom r m) hcons maxSteps
      interval b hmax hint
    refine ⟨f, ph, d, i1, ⟨i2, i3, i4⟩, fun m i => (i5 m i).2.trans ?_, i6⟩
    have h1 : D * (d.maxAbsOmegaDiff + d.maxAbsIncomp) ≤ D * (2 * a.tolerance) :=
      mul_le_mul_of_nonneg_left (by linarith) hD.le
    rw [le_div_iff₀ (by positivity)] at htol
    linarith
  · intro r m
    have hk : (r : ℕ) * M + m < C * M := by
      have := (finProdFinEquiv (r, m)).2
      rw [finProdFinEquiv_apply_val] at this
      linarith
    have h1 := Set.mem_iInter.mp hω ⟨r * M + m, hk⟩
    change |normalDraw env.rng (g ω) (r * M + m)| ≤ (T : ℝ) at h1
    show |a.randomStd * _ - 0| ≤ _
    rw [sub_zero, abs_mul, abs_of_pos ha.std]
    exact mul_le_mul (hσ.trans (le_abs_self σ)) h1 (abs_nonneg _) (abs_nonneg _)

/-- **C95**: the result of such a search is one phase of the mean composition. -/
theorem C95_one [NeZero M] {phi : Vec C ℝ} {ε : ℝ} (hε : ε ≤ 1 / 200) {r : ShortcutResult}
    (h : Finds (fun i (_ : Fin M) => phi i) ε r) :
    ∃ ph : Phases 1 C ℝ, r = ⟨1, C, ph, r.info⟩ ∧ eucl (ph.fractions 0) phi ≤ ε ∧ |ph.volumes 0 - 1| ≤ ε := by
  have hM : (M : ℝ) ≠ 0 := by exact_mod_cast NeZero.ne M
  have hcard := C94_count hε (fun m n ⟨i, hi⟩ => absurd rfl hi) h
  obtain ⟨P, ph, hr, h1, -⟩ := h
  have hP : P = 1 := by
    rw [hr] at hcard
    refine hcard.trans ?_
    rw [Set.range_const, Nat.card_coe_set_eq, Set.ncard_singleton]
  subst hP
  obtain ⟨m, h2, h3⟩ := h1 0
  refine ⟨ph, hr, h2, ?_⟩
  have : (Nat.card {n : Fin M // ∀ i, phi i = phi i} : ℝ) / M = 1 := by
    simp [hM]
  rwa [this] at h3

end Search

/-- Three components of different sizes with weak repulsion: with the default shift, noise of strength 5 and
eight compartments, the search returns one phase with a probability of at least 99 %. -/
example : ∃ (ext : PhasesExt) (a : FinderArgs) (X : ℝ) (maxSteps : ℚ), 0 < X ∧ a.kwargs = [] ∧ a.randomStd = 5 ∧
    1 - 1 / 100 ≤ (Measure.pi fun _ : Fin (3 * 8) => gaussianReal 0 1)
      {x | ∃ r, findCoexistingPhases (⟨Demo.gaussRng, fun _ _ _ s => s⟩ : FinderEnv _) ext (Demo.tapeOf x) 3
        (NDArr.ofMat fun (i j : Fin 3) => if i = j then 0 else X) (some (NDArr.ofVec ![1 / 2, 1 / 3, 1 / 6]))
        (some (NDArr.ofVec ![1, 2, 30])) .none { a with maxSteps := maxSteps } = .ok r ∧ r.numPhases = 1} := by
  obtain ⟨ext, hext⟩ := Demo.cluster_ext
  obtain ⟨a₀, ha₀, h⟩ := C95_search (env := (⟨Demo.gaussRng, fun _ _ _ s => s⟩ : FinderEnv _)) (C := 3) (M := 8)
    Demo.gaussRng_ok ext hext (l := ![1, 2, 30]) (fun i => by fin_cases i <;> norm_num) one_pos
  obtain ⟨X, hX, ρ, hρ, t₀, ht₀, h⟩ := h 5 (1 / 100) (by norm_num) (1 / 200) (by norm_num) le_rfl
  set a : FinderArgs :=
    { numPart := some 8
      tolerance := min t₀ (1 / 1000)
      acceptanceOmega := a₀
      acceptanceJs := ρ * a₀ } with ha
  obtain ⟨N, h⟩ := h (fun i j => if i = j then 0 else X) (fun i j => by simp only [eq_comm (a := i)])
    (fun i j => by split_ifs <;> simp [hX.le, abs_of_pos hX]) ![1 / 2, 1 / 3, 1 / 6]
    (fun i => by fin_cases i <;> norm_num) (by
      rw [Fin.sum_univ_three]
      show (1 / 2 : ℝ) + 1 / 3 + 1 / 6 = 1
      norm_num) ρ hρ.le le_rfl
    a
    ⟨rfl, rfl, by norm_num [ha], by norm_num [ha], by norm_num [ha], by norm_num [ha], by norm_num [ha], rfl, lt_min ht₀ (by norm_num [ha]),
      by norm_num [ha], ha₀, le_rfl, rfl⟩ (by norm_num [ha]) (by norm_num [ha]) (min_le_left _ _)
  refine ⟨ext, a, X, N, hX, rfl, rfl, (h N le_rfl (Demo.gauss_draws (3 * 8))).trans (measure_mono ?_)⟩
  rintro x ⟨r, h1, -, h2⟩
  obtain ⟨ph, h3, -⟩ := C95_one le_rfl h2
  exact ⟨r, h1, congrArg ShortcutResult.numPhases h3⟩

end Flory
