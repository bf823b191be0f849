import Verif.Lemmas.WeakMap
import Verif.Lemmas.SeparatedRun
import Verif.Lemmas.MergeRun

/-! # Runs of weakly interacting mixtures -/

set_option linter.unusedSectionVars false

namespace Flory

open Spec Finset

variable {G : Type} {C S M : ℕ} [NeZero M] [NeZero S]
variable {ia : FHCompiled S ℝ} {en : EntropyI C S M ℝ} {es : CanonicalC C ℝ} {rng : Rng G ℝ}
  {p : Params ℝ} {tries : ℤ} {count k : ℕ} {s : State C S M ℝ G} {t : Trace C S M ℝ G}
  {l : Vec C ℝ} {feat : Fin C → Fin S} {l₀ l₁ X V₁ E₁ K lam R Z₀ v q A : ℝ}

/-- The mixture, the settings and the constants of the estimates. -/
structure WeakData (M : ℕ) (ia : FHCompiled S ℝ) (x l : Vec C ℝ) (p : Params ℝ)
    (l₀ l₁ X V₁ E₁ K lam R Z₀ v q A : ℝ) : Prop where
  l₀_pos : 0 < l₀
  size_ge : ∀ i, l₀ ≤ l i
  size_le : ∀ i, l i ≤ l₁
  pos : ∀ i, 0 < x i
  sum : ∑ i, x i = 1
  X_ge : ∀ r s, |ia.chis r s| ≤ X
  coef : 0 ≤ ia.coef
  K_ge : 1 ≤ K
  gain : 4 * (ia.coef / S) * M * l₁ * Real.exp (2 * l₁ * E₁) ≤ K / 2
  weak : 2 * K * X * (4 * M * l₁) ≤ ia.coef / S * l₀ * Real.exp (-(l₁ * (2 * V₁ + 2 * E₁))) / 2
  weak' : 4 * X * (4 * M * l₁) ≤ 1 / 4
  lam_pos : 0 < lam
  lam_le : lam ≤ ia.coef / S * l₀ * Real.exp (-(l₁ * (2 * V₁ + 2 * E₁))) / 2
  lam_le' : lam ≤ 1 / 4
  Z₀_nonneg : 0 ≤ Z₀
  V₁_ge : Z₀ ≤ V₁
  E₁_ge : Z₀ ≤ K * E₁
  a_pos : 0 < p.acceptanceOmega
  a_le : p.acceptanceOmega ≤ 1
  a_small : p.acceptanceOmega * (ia.coef / S) * (2 * M * l₁) ≤ 1
  b_nonneg : 0 ≤ p.acceptanceJs
  R_nonneg : 0 ≤ R
  R_ge : 4 * p.acceptanceJs * (1 + (2 * M * X + X + ia.coef / S + 1 / l₀) * (4 * M * l₁)) ≤
    R * lam * p.acceptanceOmega
  drift : R * Z₀ ≤ v
  v_le : v ≤ 1 / 2
  kill : p.killThreshold < 1 / 2
  bound : 0 < p.JsStepUpperBound
  q_ge : 1 - p.acceptanceOmega * (p.JsStepUpperBound / max ((1 + (2 * M * X + X + ia.coef / S + 1 / l₀) *
    (4 * M * l₁)) * (2 * Z₀) * p.acceptanceJs) p.JsStepUpperBound) * lam ≤ q
  q_nonneg : 0 ≤ q
  q_lt : q < 1
  A_phi : 2 * (4 * M * l₁) ≤ A
  A_js : 2 * (1 + (2 * M * X + X + ia.coef / S + 1 / l₀) * (4 * M * l₁)) ≤ A
  A_om : 2 * (ia.coef / S) * (4 * M * l₁) + 4 * X * (4 * M * l₁) + 1 ≤ A

/-- The state after `k` passes. -/
structure WeakPlace (chis : Mat S S ℝ) (feat : Fin C → Fin S) (x : Vec C ℝ) (K R Z₀ q : ℝ) (k : ℕ)
    (s : State C S M ℝ G) : Prop where
  volumes : ∑ m, s.Js m = M
  cons : ∀ c ∈ s.cons, c.Trivial
  near : ∃ V E Z, 0 ≤ E ∧ Weak.Bounds chis feat x s.omegas V E ∧ V + K * E ≤ Z ∧ Z ≤ Z₀ * q ^ k ∧
    ∀ m, |s.Js m - 1| ≤ R * (Z₀ - Z)

/-- What a pass reports. -/
structure WeakPass (x : Vec C ℝ) (β : ℝ) (t : Trace C S M ℝ G) : Prop where
  phis : ∀ i m, |t.phisComp i m - x i| ≤ β
  incomp : t.maxAbsIncomp ≤ β
  jsDiff : t.maxAbsJsDiff ≤ β
  omegaDiff : t.maxAbsOmegaDiff ≤ β
  residue : t.maxConstraintResidue = 0
  omegaDiff_nonneg : 0 ≤ t.maxAbsOmegaDiff
  incomp_nonneg : 0 ≤ t.maxAbsIncomp

variable (hd : WeakData M ia es.phiMeans l p l₀ l₁ X V₁ E₁ K lam R Z₀ v q A)
include hd

theorem WeakPlace.volume (hs : WeakPlace ia.chis feat es.phiMeans K R Z₀ q k s) (m : Fin M) :
    |s.Js m - 1| ≤ v := by
  obtain ⟨V, E, Z, hE, hb, hZ, -, hJ⟩ := hs.near
  have hV : 0 ≤ V := (abs_nonneg _).trans (hb.level m m)
  have hZ0 : 0 ≤ Z := le_trans (add_nonneg hV (mul_nonneg (by linarith [hd.K_ge]) hE)) hZ
  have := mul_le_mul_of_nonneg_left (by linarith : Z₀ - Z ≤ Z₀) hd.R_nonneg
  exact (hJ m).trans (this.trans hd.drift)

theorem WeakPlace.half (hs : WeakPlace ia.chis feat es.phiMeans K R Z₀ q k s) (m : Fin M) :
    1 / 2 ≤ s.Js m := by
  have := (abs_le.mp (hs.volume hd m)).1
  linarith [hd.v_le]

theorem WeakPlace.alive (hs : WeakPlace ia.chis feat es.phiMeans K R Z₀ q k s) (m : Fin M) :
    p.killThreshold < s.Js m := hd.kill.trans_le (hs.half hd m)

theorem WeakPlace.mixture (hs : WeakPlace ia.chis feat es.phiMeans K R Z₀ q k s) :
    Weak.Mixture l es.phiMeans s.Js l₀ l₁ :=
  ⟨hd.l₀_pos, hd.size_ge, hd.size_le, hd.pos, hd.sum, hs.half hd, hs.volumes⟩

theorem weak_next (hen : IsIdealGas en l feat)
    (hf : IterFacts (ia.toI M) en (es.toI M) rng p tries count s t)
    (hs : WeakPlace ia.chis feat es.phiMeans K R Z₀ q k s) :
    WeakPass es.phiMeans (A * (Z₀ * q ^ k)) t ∧ t.reviveCount = count ∧
      WeakPlace ia.chis feat es.phiMeans K R Z₀ q (k + 1) t.state := by
  have hal := hs.alive hd
  have hmix := hs.mixture hd
  have hJ0 := hmix.Js_pos
  obtain ⟨hmk, hJ, hom, hcount, hn⟩ := hf.masks_one hal
  have hP := hf.schemePass hen hal hs.volumes hs.cons
  have hM : (0 : ℝ) < M := by exact_mod_cast Nat.pos_of_ne_zero (NeZero.ne M)
  have hS : (0 : ℝ) < S := by exact_mod_cast Nat.pos_of_ne_zero (NeZero.ne S)
  have hl₁ := hmix.l₁_pos
  have hl₀ := hd.l₀_pos
  have hX0 : 0 ≤ X := (abs_nonneg _).trans (hd.X_ge 0 0)
  have hc0 := hd.coef
  obtain ⟨V, E, Z, hE0, hb, hZ, hZq, hdr⟩ := hs.near
  have hV0 : 0 ≤ V := (abs_nonneg _).trans (hb.level 0 0)
  have hK := hd.K_ge
  have hKE : E ≤ K * E := le_mul_of_one_le_left hE0 hK
  have hZ0 : 0 ≤ Z := by linarith
  have hqk1 : q ^ k ≤ 1 := pow_le_one₀ hd.q_nonneg hd.q_lt.le
  have hZZ : Z ≤ Z₀ := hZq.trans (mul_le_of_le_one_right hd.Z₀_nonneg hqk1)
  have hV1 : V ≤ V₁ := by linarith [hd.V₁_ge]
  have hE1 : E ≤ E₁ := by
    have : K * E ≤ K * E₁ := by linarith [hd.E₁_ge]
    exact le_of_mul_le_mul_left this (by linarith)
  have hVE : V + 2 * E ≤ 2 * Z := by linarith
  have hVE0 : 0 ≤ V + 2 * E := by linarith
  set φ := fracsOf feat l es.phiMeans s.Js s.omegas with hφ
  set H := 1 + (2 * M * X + X + ia.coef / S + 1 / l₀) * (4 * M * l₁) with hH
  have hH0 : 0 ≤ H := by rw [hH]; positivity
  have heta : ∀ m n, |schemeEta ia.chis ia.coef feat l s.omegas φ m -
      schemeEta ia.chis ia.coef feat l s.omegas φ n| ≤ H * (2 * Z) := fun m n =>
    (Weak.eta_diff hmix hb hd.X_ge hc0 hE0 m n).trans (mul_le_mul_of_nonneg_left hVE hH0)
  have hjs : ∀ m, |t.JsDiff m| ≤ H * (2 * Z) := fun m => by
    have e : t.JsDiff m = (∑ n, (schemeEta ia.chis ia.coef feat l s.omegas φ m -
        schemeEta ia.chis ia.coef feat l s.omegas φ n) * s.Js n) / M := by
      rw [hP.jsDiff]
      simp only [sub_mul, sum_sub_distrib, ← mul_sum, hs.volumes]
      field_simp
    rw [e, abs_div, abs_of_pos hM, div_le_iff₀ hM]
    refine (abs_sum_le_sum_abs _ _).trans ?_
    refine (sum_le_sum fun n _ => (?_ : _ ≤ H * (2 * Z) * s.Js n)).trans (by rw [← mul_sum, hs.volumes])
    rw [abs_mul, abs_of_pos (hJ0 n)]
    exact mul_le_mul_of_nonneg_right (heta m n) (hJ0 n).le
  have hmaxjs : t.maxAbsJsDiff ≤ H * (2 * Z) := by
    rw [hf.maxAbsJsDiff]
    obtain ⟨m, hm⟩ := npMax_mem fun m => |t.JsDiff m|
    rw [hm]
    exact hjs m
  have hub := hd.bound
  have hb0 := hd.b_nonneg
  have ha0 := hd.a_pos
  have hfac0 : 0 < t.factor := by
    rw [hf.factor]
    exact div_pos hub (lt_max_of_lt_right hub)
  have hfac1 : t.factor ≤ 1 := by
    rw [hf.factor]
    exact div_le_one_of_le₀ (le_max_right _ _) (le_max_of_le_right hub.le)
  have hfacq : p.JsStepUpperBound / max (H * (2 * Z₀) * p.acceptanceJs) p.JsStepUpperBound ≤ t.factor := by
    rw [hf.factor]
    refine div_le_div_of_nonneg_left hub.le (lt_max_of_lt_right hub) (max_le_max ?_ le_rfl)
    exact mul_le_mul_of_nonneg_right (hmaxjs.trans (mul_le_mul_of_nonneg_left (by linarith) hH0)) hb0
  set α := t.factor * p.acceptanceOmega with hα
  have hα0 : 0 ≤ α := by positivity
  have hαa : α ≤ p.acceptanceOmega := mul_le_of_le_one_left ha0.le hfac1
  have hα1 : α ≤ 1 := hαa.trans hd.a_le
  have homs : ∀ r m, t.omegas r m = s.omegas r m + α * (schemeField ia.chis ia.coef feat s.omegas φ r m -
      s.omegas r m) := fun r m => by
    rw [hf.omegas, hmk, hom, hP.omegaDiff]
    ring
  have hsmall : α * (ia.coef / S) * (2 * M * l₁) ≤ 1 := by
    refine le_trans ?_ hd.a_small
    gcongr
  have hvolt : ∑ m, t.Js m = M := by rw [hf.sum_Js, hn]
  have hphi : ∀ m, ∑ i, |φ i m - es.phiMeans i| ≤ 4 * M * l₁ * (2 * Z) := fun m =>
    (Weak.sum_frac_mean hmix hb m).trans (mul_le_mul_of_nonneg_left hVE (by positivity))
  have hinc : ∀ m, |∑ i, φ i m - 1| ≤ 4 * M * l₁ * (2 * Z) := fun m => by
    rw [← hd.sum, ← sum_sub_distrib]
    exact (abs_sum_le_sum_abs _ _).trans (hphi m)
  have hAZ : ∀ {b : ℝ}, b ≤ A → b * Z ≤ A * (Z₀ * q ^ k) := fun hb' =>
    mul_le_mul hb' hZq hZ0 (by
      have := hd.A_phi
      have : 0 ≤ 2 * (4 * (M : ℝ) * l₁) := by positivity
      linarith)
  refine ⟨⟨fun i m => ?_, ?_, ?_, ?_, residue_trivial hf hs.cons, ?_, ?_⟩, hcount, ⟨hvolt, ?_, ?_⟩⟩
  · rw [hP.phis]
    refine le_trans (single_le_sum (f := fun i => |φ i m - es.phiMeans i|) (fun _ _ => abs_nonneg _)
      (mem_univ i)) ((hphi m).trans (le_trans (le_of_eq ?_) (hAZ hd.A_phi)))
    ring
  · rw [hf.maxAbsIncomp]
    obtain ⟨m, hm⟩ := npMax_mem fun m => |t.incomp m|
    rw [hm, hP.incomp]
    exact (hinc m).trans (le_trans (le_of_eq (by ring)) (hAZ hd.A_phi))
  · exact hmaxjs.trans (le_trans (le_of_eq (by ring)) (hAZ hd.A_js))
  · rw [hf.maxAbsOmegaDiff]
    have hAnn : 0 ≤ A * (Z₀ * q ^ k) := le_trans (by positivity) (hAZ hd.A_phi)
    refine rowsMax_le hAnn fun r m => ?_
    rw [hP.omegaDiff]
    have e1 := Weak.level_next (om := s.omegas) (om' := schemeField ia.chis ia.coef feat s.omegas φ) (α := 1)
      (chis := ia.chis) (c := ia.coef) (feat := feat) (phi := φ) (fun r m => by ring) m
    have e2 := Weak.gap_next (om := s.omegas) (om' := schemeField ia.chis ia.coef feat s.omegas φ) (α := 1)
      (chis := ia.chis) (c := ia.coef) (feat := feat) (phi := φ) (fun r m => by ring) r m
    have e3 := Weak.gap_sub (chis := ia.chis) (feat := feat) (fun i => φ i m) es.phiMeans r
    have e : schemeField ia.chis ia.coef feat s.omegas φ r m - s.omegas r m =
        ia.coef / S * (∑ i, φ i m - 1) + Weak.gap ia.chis feat (fun i => φ i m - es.phiMeans i) r -
        (s.omegas r m - Weak.level s.omegas m - Weak.gap ia.chis feat es.phiMeans r) := by
      rw [e3]
      linear_combination e1 + e2
    rw [e]
    refine le_trans ?_ (hAZ hd.A_om)
    refine (abs_sub _ _).trans ?_
    have h1 := abs_add_le (ia.coef / S * (∑ i, φ i m - 1)) (Weak.gap ia.chis feat (fun i => φ i m - es.phiMeans i) r)
    have h2 : |ia.coef / S * (∑ i, φ i m - 1)| ≤ ia.coef / S * (4 * M * l₁ * (2 * Z)) := by
      rw [abs_mul, abs_of_nonneg (by positivity)]
      exact mul_le_mul_of_nonneg_left (hinc m) (by positivity)
    have h3 : |Weak.gap ia.chis feat (fun i => φ i m - es.phiMeans i) r| ≤ 2 * X * (4 * M * l₁ * (2 * Z)) :=
      (Weak.abs_gap_le hd.X_ge r).trans (mul_le_mul_of_nonneg_left (hphi m) (by positivity))
    have h4 := hb.gap r m
    linarith
  · rw [hf.maxAbsOmegaDiff]
    exact (rowsMax_spec _).1
  · rw [hf.maxAbsIncomp]
    exact (abs_nonneg _).trans (le_npMax (fun m => |t.incomp m|) 0)
  · exact (hf.cons_inv Cons.Trivial (fun c pf J mk h => h.prepare pf J mk)
      (fun c step mk res c' h he => h.evolve he) hs.cons).2
  · refine ⟨(1 - α * (ia.coef / S * l₀ * Real.exp (-(l₁ * (2 * V₁ + 2 * E₁))))) * V +
        α * (4 * (ia.coef / S) * M * l₁ * Real.exp (2 * l₁ * E₁)) * E,
      (1 - α) * E + α * (2 * X * (4 * M * l₁ * (V + 2 * E))), (1 - α * lam) * Z, ?_, ⟨fun m n => ?_, fun r m => ?_⟩,
      ?_, ?_, fun m => ?_⟩
    · have : 0 ≤ 1 - α := by linarith
      positivity
    · show |Weak.level t.omegas m - Weak.level t.omegas n| ≤ _
      have h1 := Weak.level_step hmix hb hV1 hE1 hE0 hc0 hα0 hsmall homs m n
      have h2 := Weak.level_step hmix hb hV1 hE1 hE0 hc0 hα0 hsmall homs n m
      rw [abs_le]
      exact ⟨by linarith, h1⟩
    · exact Weak.gap_step hmix hb hd.X_ge hα0 hα1 homs r m
    · set κ := ia.coef / S * l₀ * Real.exp (-(l₁ * (2 * V₁ + 2 * E₁)))
      set g := 4 * (ia.coef / S) * M * l₁ * Real.exp (2 * l₁ * E₁)
      have e : (1 - α * κ) * V + α * g * E + K * ((1 - α) * E + α * (2 * X * (4 * M * l₁ * (V + 2 * E)))) =
          V + K * E - α * ((κ - 2 * K * X * (4 * M * l₁)) * V) -
          α * (K * (1 - 4 * X * (4 * M * l₁)) * E - g * E) := by ring
      rw [e]
      have h1 : lam * V ≤ (κ - 2 * K * X * (4 * M * l₁)) * V :=
        mul_le_mul_of_nonneg_right (by linarith [hd.weak, hd.lam_le]) hV0
      have h2 : lam * (K * E) ≤ K * (1 - 4 * X * (4 * M * l₁)) * E - g * E := by
        have h3 := mul_le_mul_of_nonneg_right hd.gain hE0
        have h4 := mul_le_mul_of_nonneg_right hd.weak' (by positivity : 0 ≤ K * E)
        have h5 := mul_le_mul_of_nonneg_right hd.lam_le' (by positivity : 0 ≤ K * E)
        linarith
      have h3 := mul_le_mul_of_nonneg_left (add_le_add h1 h2) hα0
      have h4 : 0 ≤ 1 - α * lam := by
        have := mul_le_mul hα1 hd.lam_le' hd.lam_pos.le one_pos.le
        linarith
      have h5 := mul_le_mul_of_nonneg_left hZ h4
      linarith
    · rw [pow_succ]
      have hq : 1 - α * lam ≤ q := by
        refine le_trans ?_ hd.q_ge
        have := mul_le_mul_of_nonneg_right (mul_le_mul_of_nonneg_left hfacq ha0.le) hd.lam_pos.le
        rw [hα]
        linarith
      have h1 := mul_le_mul_of_nonneg_right hq hZ0
      have h2 := mul_le_mul_of_nonneg_left hZq hd.q_nonneg
      linarith
    · show |t.Js m - 1| ≤ _
      have e : t.Js m = s.Js m + t.factor * p.acceptanceJs * (t.JsDiff m - (∑ n, t.JsDiff n) / M) := by
        rw [hf.Js, hmk, hn, hJ]
        simp only [hmk, mul_one, sum_add_distrib, hs.volumes, ← mul_sum]
        field_simp
        ring
      have h1 : |(∑ n, t.JsDiff n) / M| ≤ H * (2 * Z) := Weak.abs_mean_le hjs
      have h2 : |t.JsDiff m - (∑ n, t.JsDiff n) / M| ≤ 4 * H * Z := by
        refine (abs_sub _ _).trans ?_
        linarith [hjs m]
      have h3 : |t.factor * p.acceptanceJs * (t.JsDiff m - (∑ n, t.JsDiff n) / M)| ≤ R * (α * lam * Z) := by
        rw [abs_mul, abs_of_nonneg (by positivity)]
        have h4 := mul_le_mul_of_nonneg_left h2 (by positivity : 0 ≤ t.factor * p.acceptanceJs)
        have h5 := mul_le_mul_of_nonneg_left hd.R_ge (by positivity : 0 ≤ t.factor * Z)
        rw [← hH] at h5
        rw [hα]
        linarith
      rw [e]
      have h4 := abs_add_le (s.Js m - 1) (t.factor * p.acceptanceJs * (t.JsDiff m - (∑ n, t.JsDiff n) / M))
      have e2 : s.Js m + t.factor * p.acceptanceJs * (t.JsDiff m - (∑ n, t.JsDiff n) / M) - 1 =
        s.Js m - 1 + t.factor * p.acceptanceJs * (t.JsDiff m - (∑ n, t.JsDiff n) / M) := by ring
      rw [e2]
      linarith [hdr m]

/-- The distance from equilibrium is bounded by the reported change of the fields. -/
theorem weak_residual (hen : IsIdealGas en l feat)
    (hf : IterFacts (ia.toI M) en (es.toI M) rng p tries count s t)
    (hs : WeakPlace ia.chis feat es.phiMeans K R Z₀ q k s) (i : Fin C) (m : Fin M) :
    |t.phisComp i m - es.phiMeans i| ≤ 4 * M * l₁ * (4 * (1 + K) / lam) *
      (S * t.maxAbsOmegaDiff + ia.coef * t.maxAbsIncomp) := by
  have hmix := hs.mixture hd
  have hP := hf.schemePass hen (hs.alive hd) hs.volumes hs.cons
  have hl₁ := hmix.l₁_pos
  have hK := hd.K_ge
  have hα0 := hd.a_pos
  have hlam := hd.lam_pos
  set φ := fracsOf feat l es.phiMeans s.Js s.omegas with hφ
  set τ := S * t.maxAbsOmegaDiff + ia.coef * t.maxAbsIncomp with hτ
  set α := p.acceptanceOmega with hα
  set D : Mat S M ℝ := fun r m => schemeField ia.chis ia.coef feat s.omegas φ r m - s.omegas r m with hD
  have hDτ : ∀ r m, |D r m| ≤ τ := fun r m => by
    have hS : (1 : ℝ) ≤ S := by exact_mod_cast Nat.one_le_iff_ne_zero.mpr (NeZero.ne S)
    have hc := hd.coef
    obtain ⟨w0, w1, -⟩ := rowsMax_spec t.omegaDiff
    rw [← hf.maxAbsOmegaDiff] at w0
    have hle : ∀ r, D r m ≤ t.maxAbsOmegaDiff := fun r => by
      rw [hf.maxAbsOmegaDiff]
      have := w1 r m
      rwa [hP.omegaDiff] at this
    have hι : |∑ i, φ i m - 1| ≤ t.maxAbsIncomp := by
      rw [hf.maxAbsIncomp, ← hP.incomp]
      exact le_npMax (fun m => |t.incomp m|) m
    have hsum : ∑ r, D r m = ia.coef * (∑ i, φ i m - 1) := by
      have e1 := Weak.level_next (om := s.omegas) (om' := schemeField ia.chis ia.coef feat s.omegas φ) (α := 1)
        (chis := ia.chis) (c := ia.coef) (feat := feat) (phi := φ) (fun r m => by ring) m
      unfold Weak.level at e1
      have hS' : (S : ℝ) ≠ 0 := by linarith
      simp only [hD, sum_sub_distrib]
      field_simp at e1
      linarith
    have hco : |∑ r, D r m| ≤ ia.coef * t.maxAbsIncomp := by
      rw [hsum, abs_mul, abs_of_nonneg hc]
      exact mul_le_mul_of_nonneg_left hι hc
    have hrest : ∑ r' ∈ univ.erase r, D r' m ≤ (S - 1) * t.maxAbsOmegaDiff := by
      refine (sum_le_card_nsmul _ _ _ fun r' _ => hle r').trans (le_of_eq ?_)
      rw [card_erase_of_mem (mem_univ r), card_univ, Fintype.card_fin, nsmul_eq_mul,
        Nat.cast_sub (Nat.one_le_iff_ne_zero.mpr (NeZero.ne S))]
      simp
    have hadd := add_sum_erase univ (fun r => D r m) (mem_univ r)
    have hco0 := (abs_nonneg _).trans hco
    have h1 := mul_le_mul_of_nonneg_right hS w0
    rw [hτ, abs_le]
    constructor <;> linarith [hle r, (abs_le.mp hco).1]
  obtain ⟨V', E', Z, -, hb', hZ, hZq, -⟩ := hs.near
  obtain ⟨⟨m₁, n₁⟩, hV⟩ := Finite.exists_max fun mn : Fin M × Fin M =>
    |Weak.level s.omegas mn.1 - Weak.level s.omegas mn.2|
  obtain ⟨⟨r₁, m₂⟩, hE⟩ := Finite.exists_max fun rm : Fin S × Fin M =>
    |s.omegas rm.1 rm.2 - Weak.level s.omegas rm.2 - Weak.gap ia.chis feat es.phiMeans rm.1|
  dsimp only at hV hE
  set V := |Weak.level s.omegas m₁ - Weak.level s.omegas n₁| with hVd
  set E := |s.omegas r₁ m₂ - Weak.level s.omegas m₂ - Weak.gap ia.chis feat es.phiMeans r₁| with hEd
  have hV0 : 0 ≤ V := abs_nonneg _
  have hE0 : 0 ≤ E := abs_nonneg _
  have hb : Weak.Bounds ia.chis feat es.phiMeans s.omegas V E := ⟨fun m n => hV (m, n), fun r m => hE (r, m)⟩
  have hVV : V ≤ V' := hb'.level m₁ n₁
  have hEE : E ≤ E' := hb'.gap r₁ m₂
  have hqk1 : q ^ k ≤ 1 := pow_le_one₀ hd.q_nonneg hd.q_lt.le
  have hZZ : Z ≤ Z₀ := hZq.trans (mul_le_of_le_one_right hd.Z₀_nonneg hqk1)
  have hKE : K * E ≤ K * E' := mul_le_mul_of_nonneg_left hEE (by linarith)
  have hKE0 : 0 ≤ K * E := by positivity
  have hV1 : V ≤ V₁ := by linarith [hd.V₁_ge]
  have hE1 : E ≤ E₁ := by
    have : K * E ≤ K * E₁ := by linarith [hd.E₁_ge]
    exact le_of_mul_le_mul_left this (by linarith)
  set om' : Mat S M ℝ := fun r m => s.omegas r m + α * (schemeField ia.chis ia.coef feat s.omegas φ r m -
      s.omegas r m) with hom'
  have hlev : ∀ m, Weak.level om' m = Weak.level s.omegas m + α * ((∑ r, D r m) / S) := fun m => by
    unfold Weak.level
    simp only [hom', sum_add_distrib, ← mul_sum]
    rw [add_div, mul_div_assoc]
  have hDm : ∀ m, |(∑ r, D r m) / S| ≤ τ := fun m => Weak.abs_mean_le fun r => hDτ r m
  have h1 : ∀ m n, Weak.level om' m - Weak.level om' n ≤ _ := fun m n =>
    Weak.level_step hmix hb hV1 hE1 hE0 hd.coef hα0.le hd.a_small (fun r m => rfl) m n
  have h2 : |om' r₁ m₂ - Weak.level om' m₂ - Weak.gap ia.chis feat es.phiMeans r₁| ≤ _ :=
    Weak.gap_step hmix hb hd.X_ge hα0.le hd.a_le (fun r m => rfl) r₁ m₂
  set κ := ia.coef / S * l₀ * Real.exp (-(l₁ * (2 * V₁ + 2 * E₁))) with hκ
  set g := 4 * (ia.coef / S) * M * l₁ * Real.exp (2 * l₁ * E₁) with hg
  have h3 : α * (κ * V) ≤ α * (g * E + 2 * τ) := by
    have a1 := mul_le_mul_of_nonneg_left (hDm m₁) hα0.le
    have a2 := mul_le_mul_of_nonneg_left (hDm n₁) hα0.le
    have a3 := mul_le_mul_of_nonneg_left (abs_le.mp (hDm m₁)).1 hα0.le
    have a4 := mul_le_mul_of_nonneg_left (abs_le.mp (hDm n₁)).1 hα0.le
    have a5 := mul_le_mul_of_nonneg_left (abs_le.mp (hDm m₁)).2 hα0.le
    have a6 := mul_le_mul_of_nonneg_left (abs_le.mp (hDm n₁)).2 hα0.le
    have b1 := h1 m₁ n₁
    have b2 := h1 n₁ m₁
    rw [hlev, hlev] at b1 b2
    rcases abs_cases (Weak.level s.omegas m₁ - Weak.level s.omegas n₁) with ⟨c1, -⟩ | ⟨c1, -⟩ <;>
    · rw [← hVd] at c1
      linarith
  have h4 : α * E ≤ α * (2 * τ + 2 * X * (4 * M * l₁ * (V + 2 * E))) := by
    rw [hlev] at h2
    have e : om' r₁ m₂ - (Weak.level s.omegas m₂ + α * ((∑ r, D r m₂) / S)) -
        Weak.gap ia.chis feat es.phiMeans r₁ =
        (s.omegas r₁ m₂ - Weak.level s.omegas m₂ - Weak.gap ia.chis feat es.phiMeans r₁) +
        α * (D r₁ m₂ - (∑ r, D r m₂) / S) := by
      simp only [hom', hD]
      ring
    rw [e] at h2
    have b1 : |α * (D r₁ m₂ - (∑ r, D r m₂) / S)| ≤ α * (2 * τ) := by
      rw [abs_mul, abs_of_pos hα0]
      refine mul_le_mul_of_nonneg_left ((abs_sub _ _).trans ?_) hα0.le
      linarith [hDτ r₁ m₂, hDm m₂]
    have b2 := abs_sub_abs_le_abs_sub (s.omegas r₁ m₂ - Weak.level s.omegas m₂ -
      Weak.gap ia.chis feat es.phiMeans r₁) (-(α * (D r₁ m₂ - (∑ r, D r m₂) / S)))
    rw [abs_neg, sub_neg_eq_add, ← hEd] at b2
    linarith
  have h3' := le_of_mul_le_mul_left h3 hα0
  have h4' := mul_le_mul_of_nonneg_left (le_of_mul_le_mul_left h4 hα0) (by linarith : 0 ≤ K)
  have h5 : lam * V ≤ (κ - 2 * K * X * (4 * M * l₁)) * V :=
    mul_le_mul_of_nonneg_right (by linarith [hd.weak, hd.lam_le]) hV0
  have h6 : lam * (K * E) ≤ K * (1 - 4 * X * (4 * M * l₁)) * E - g * E := by
    have c3 := mul_le_mul_of_nonneg_right hd.gain hE0
    have c4 := mul_le_mul_of_nonneg_right hd.weak' hKE0
    have c5 := mul_le_mul_of_nonneg_right hd.lam_le' hKE0
    linarith
  have h7 : lam * (V + K * E) ≤ 2 * (1 + K) * τ := by linarith
  have h8 : V + 2 * E ≤ 4 * (1 + K) / lam * τ := by
    have : V + K * E ≤ 2 * (1 + K) * τ / lam := by
      rw [le_div_iff₀ hlam]
      linarith
    have c1 : E ≤ K * E := le_mul_of_one_le_left hE0 hK
    have e : 4 * (1 + K) / lam * τ = 2 * (2 * (1 + K) * τ / lam) := by ring
    rw [e]
    linarith
  rw [hP.phis, mul_assoc]
  refine le_trans (single_le_sum (f := fun i => |φ i m - es.phiMeans i|) (fun _ _ => abs_nonneg _)
      (mem_univ i)) ((Weak.sum_frac_mean hmix hb m).trans (mul_le_mul_of_nonneg_left h8 (by positivity)))

omit hd in
variable {e : RunEnv C S M ℝ G} in
theorem Spec.Passes.weak (hd : WeakData M ia es.phiMeans l e.params l₀ l₁ X V₁ E₁ K lam R Z₀ v q A)
    (hen : IsIdealGas e.en l feat) (hia : e.ia = ia.toI M) (hes : e.es = es.toI M) {b : ℤ} {n : ℕ}
    (h : Passes e b n count s t) (hs : WeakPlace ia.chis feat es.phiMeans K R Z₀ q k s) :
    WeakPass es.phiMeans (A * (Z₀ * q ^ (k + n - 1))) t ∧ t.reviveCount = count ∧
      WeakPlace ia.chis feat es.phiMeans K R Z₀ q (k + n) t.state ∧ ∀ i m,
      |t.phisComp i m - es.phiMeans i| ≤ 4 * M * l₁ * (4 * (1 + K) / lam) *
      (S * t.maxAbsOmegaDiff + ia.coef * t.maxAbsIncomp) := by
  induction h with
  | one h =>
    rw [hia, hes] at h
    obtain ⟨j1, j2, j3⟩ := weak_next hd hen (iterate_facts h) hs
    exact ⟨j1, j2, j3, weak_residual hd hen (iterate_facts h) hs⟩
  | more h1 h2 ih =>
    obtain ⟨i1, i2, i3, -⟩ := ih hs
    rw [hia, hes] at h2
    obtain ⟨j1, j2, j3⟩ := weak_next hd hen (iterate_facts h2) i3
    exact ⟨j1, j2.trans i2, j3, weak_residual hd hen (iterate_facts h2) i3⟩

omit hd in
variable {e : RunEnv C S M ℝ G} in
theorem Spec.Chain.weak (hd : WeakData M ia es.phiMeans l e.params l₀ l₁ X V₁ E₁ K lam R Z₀ v q A)
    (hen : IsIdealGas e.en l feat) (hia : e.ia = ia.toI M) (hes : e.es = es.toI M) {b b' : ℤ} {inner : ℕ}
    {ts : List (Trace C S M ℝ G)} {s s' : State C S M ℝ G} (h : Chain e inner ts s b s' b')
    (hs : WeakPlace ia.chis feat es.phiMeans K R Z₀ q k s) :
    b' = b ∧ WeakPlace ia.chis feat es.phiMeans K R Z₀ q (k + ts.length * inner) s' := by
  induction h generalizing k with
  | nil => exact ⟨rfl, by simpa using hs⟩
  | cons h1 h2 ih =>
    obtain ⟨i1, i2, i3, -⟩ := h1.weak hd hen hia hes hs
    obtain ⟨j1, j2⟩ := ih i3
    have hk : ∀ n : ℕ, k + inner + n * inner = k + (n + 1) * inner := fun n => by ring
    rw [hk] at j2
    exact ⟨by rw [j1, i2]; simp, j2⟩

omit hd in
variable {e : RunEnv C S M ℝ G} in
theorem run_weak (hd : WeakData M ia es.phiMeans l e.params l₀ l₁ X V₁ E₁ K lam R Z₀ v q A)
    (hen : IsIdealGas e.en l feat) (hia : e.ia = ia.toI M) (hes : e.es = es.toI M)
    (hthr : 0 ≤ e.params.killThreshold) {st : State C S M ℝ G}
    (hs : WeakPlace ia.chis feat es.phiMeans K R Z₀ q 0 st) {maxSteps : ℚ} {tol : ℝ} {interval b : ℤ}
    {f : RunState C S M ℝ G} {ph : Phases M C ℝ} {d : Diagnostics ℝ}
    (h : runImpl e maxSteps tol interval st b = (f, .ok (ph, d))) :
    d.reviveCountLeft = b ∧ d.maxAbsIncomp ≤ A * (Z₀ * q ^ (d.steps - 1)) ∧
    d.maxAbsOmegaDiff ≤ A * (Z₀ * q ^ (d.steps - 1)) ∧ d.maxAbsJsDiff ≤ A * (Z₀ * q ^ (d.steps - 1)) ∧
    d.maxConstraintResidue = 0 ∧
    (∀ m i, |ph.fractions m i - es.phiMeans i| ≤ A * (Z₀ * q ^ (d.steps - 1))) ∧
    (∀ m i, |ph.fractions m i - es.phiMeans i| ≤ 4 * M * l₁ * (4 * (1 + K) / lam) *
      (S * d.maxAbsOmegaDiff + ia.coef * d.maxAbsIncomp)) ∧
    (∀ m, |ph.volumes m - 1| ≤ v) ∧ 0 ≤ d.maxAbsOmegaDiff ∧ 0 ≤ d.maxAbsIncomp := by
  obtain ⟨tr, inner, ts, t, cp, a1, a2, hf⟩ := run_facts hthr h
  obtain ⟨s₀, b₀, c1, c2, c3, c4⟩ := hf.chain.last
  obtain ⟨k1, k2⟩ := c1.weak hd hen hia hes hs
  obtain ⟨l1, l2, l3, l4⟩ := c2.weak hd hen hia hes k2
  have hal : ∀ m, e.params.killThreshold < t.Js m := fun m => l3.alive hd m
  obtain ⟨li, n, hc⟩ := reviveByCopy_all_alive (rng := e.rng) (T := t.phisComp) (g := t.g) hthr hal
  obtain rfl := Except.ok.inj (hf.copy.symm.trans hc)
  have hst : 0 + ts.length * inner + inner = d.steps := by rw [hf.diag]; ring
  rw [hst] at l1 l3
  refine ⟨?_, ?_, ?_, ?_, ?_, fun m i => ?_, fun m i => ?_, fun m => ?_, ?_, ?_⟩
  · rw [hf.diag]
    show f.reviveLeft = b
    rw [c4, k1, l2]; simp
  · exact (congrArg Diagnostics.maxAbsIncomp hf.diag).trans_le l1.incomp
  · exact (congrArg Diagnostics.maxAbsOmegaDiff hf.diag).trans_le l1.omegaDiff
  · exact (congrArg Diagnostics.maxAbsJsDiff hf.diag).trans_le l1.jsDiff
  · rw [hf.diag]; exact l1.residue
  · rw [hf.fractions]; exact l1.phis i m
  · rw [hf.fractions, congrArg Diagnostics.maxAbsOmegaDiff hf.diag,
      congrArg Diagnostics.maxAbsIncomp hf.diag]; exact l4 i m
  · rw [hf.volumes]; exact l3.volume hd m
  · rw [hf.diag]; exact l1.omegaDiff_nonneg
  · rw [hf.diag]; exact l1.incomp_nonneg

end Flory
