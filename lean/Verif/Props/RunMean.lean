import Verif.Props.Run

/-! # The mean composition returned by canonical runs (C42) -/

set_option linter.unusedSectionVars false

namespace Flory

open Spec

section Steps

variable {K G : Type} [Field K] [LinearOrder K] [IsStrictOrderedRing K] {C S M : ℕ} [NeZero M]
variable {ia : InteractionI S M K} {en : EntropyI C S M K} {es : EnsembleI C M K}
  {rng : Rng G K} {p : Params K} {tries : ℤ} {count : ℕ} {s : State C S M K G}
  {t : Trace C S M K G}

/-- Change of the volume of compartment `m` before renormalisation. -/
def volStep (p : Params K) (t : Trace C S M K G) (m : Fin M) : K :=
  t.factor * p.acceptanceJs * t.JsDiff m

namespace IterFacts

theorem volStep_mask (h : IterFacts ia en es rng p tries count s t) (m : Fin M) :
    volStep p t m * t.masks m = volStep p t m := by
  unfold volStep
  rw [mul_assoc, h.JsDiff_mask]

theorem abs_mean_volStep (h : IterFacts ia en es rng p tries count s t) {X : K}
    (hX : ∀ m, |volStep p t m| ≤ X) : |(∑ m, volStep p t m) / t.nValid| ≤ X := by
  rw [abs_div, abs_of_pos h.nValid_pos, div_le_iff₀ h.nValid_pos]
  refine (Finset.abs_sum_le_sum_abs _ _).trans ?_
  rw [h.nValid, Finset.mul_sum]
  refine Finset.sum_le_sum fun m _ => ?_
  rcases h.mask_cases m with e | e
  · rw [e, mul_one]; exact hX m
  · rw [← h.volStep_mask, e]; simp

theorem Js_step (h : IterFacts ia en es rng p tries count s t)
    (hsum : ∑ m, t.JsOld m = t.nValid) (m : Fin M) :
    t.Js m = t.JsOld m + (volStep p t m - (∑ k, volStep p t k) / t.nValid) * t.masks m := by
  rw [h.Js_eq, hsum, add_div, div_self h.nValid_ne, add_mul, add_mul, h.JsOld_mask]
  show _ + volStep p t m * t.masks m + (1 - (1 + (∑ k, volStep p t k) / t.nValid)) * t.masks m = _
  ring

theorem abs_step_le (h : IterFacts ia en es rng p tries count s t)
    (hb : 0 < p.JsStepUpperBound) (ha : 0 ≤ p.acceptanceJs) (m : Fin M) :
    |volStep p t m| ≤ p.acceptanceJs * t.maxAbsJsDiff := by
  obtain ⟨f1, f2⟩ := h.factor_le_one hb
  unfold volStep
  rw [abs_mul, abs_mul, abs_of_nonneg ha, abs_of_pos f1]
  have h1 : p.acceptanceJs * |t.JsDiff m| ≤ p.acceptanceJs * t.maxAbsJsDiff :=
    mul_le_mul_of_nonneg_left (h.JsDiff_le m) ha
  have h2 : 0 ≤ p.acceptanceJs * |t.JsDiff m| := mul_nonneg ha (abs_nonneg _)
  rw [mul_assoc]
  nlinarith

/-- As long as nothing dies, volumes stay near one. -/
theorem near (h : IterFacts ia en es rng p tries count s t)
    (hb : 0 < p.JsStepUpperBound) (ha : 0 ≤ p.acceptanceJs) {x : K}
    (hx : ∀ m, |s.Js m - 1| ≤ x) (hlt : x < 1 - p.killThreshold) (hsum : ∑ m, s.Js m = (M : K)) :
    (∀ m, |t.Js m - 1| ≤ x + 2 * p.JsStepUpperBound) ∧ ∑ m, t.Js m = (M : K) ∧
    (∀ m, t.masks m = 1) ∧ ∑ m, t.JsOld m = t.nValid ∧ t.JsOld = s.Js ∧ t.omegasOld = s.omegas := by
  have hal : ∀ m, p.killThreshold < s.Js m := fun m => by
    have := (abs_le.mp (hx m)).1
    linarith
  have hrv := reviveBlock_all_alive (rng := rng) (p := p) (tries := tries) (Js := s.Js)
    (om := s.omegas) (g := s.g) (count := count) hal
  have hmk : ∀ m, t.masks m = 1 := fun m => by rw [h.mask_eq, hrv, if_pos (hal m)]
  have hold : t.JsOld = s.Js := funext fun m => by rw [h.JsOld, hrv, hmk, mul_one]
  have hn : t.nValid = (M : K) := by rw [h.nValid]; simp [hmk]
  have hs : ∑ m, t.JsOld m = t.nValid := by rw [hold, hsum, hn]
  refine ⟨fun m => ?_, by rw [h.sum_Js, hn], hmk, hs, hold, ?_⟩
  · rw [h.Js_step hs, hmk, mul_one, hold]
    have h1 := h.step_le hb ha
    have h2 := h.abs_mean_volStep h1
    have h3 := h1 m
    have h4 := hx m
    have : ∀ u v w : K, u + (v - w) - 1 = (u - 1) + v - w := by intros; ring
    rw [this]
    refine (abs_sub _ _).trans ?_
    have := abs_add_le (s.Js m - 1) (volStep p t m)
    have h5 : |volStep p t m| ≤ p.JsStepUpperBound := h3
    linarith
  · rw [h.omegasOld, hrv]

end IterFacts

end Steps

section Mean

variable {G : Type} {C S M : ℕ} [NeZero M]
variable {e : RunEnv C S M ℝ G} {maxSteps : ℚ} {tol : ℝ} {interval : ℤ} {st : State C S M ℝ G} {b : ℤ}
  {s' : RunState C S M ℝ G} {ph : Phases M C ℝ} {d : Diagnostics ℝ}
  {sizes : Vec C ℝ} {feat : Fin C → Fin S}

/-- Exact account of the returned mean composition. -/
theorem mean_identity {es : CanonicalC C ℝ}
    (hen : IsIdealGas e.en sizes feat) (hes : e.es = es.toI M) {b₀ : ℤ} {count : ℕ}
    {s : State C S M ℝ G} {t : Trace C S M ℝ G} (hs : Source e st ph d b₀ count s t)
    (hsafe : ∀ m, e.params.killThreshold < t.JsOld m → e.params.killThreshold < t.Js m)
    (hsum : ∑ m, t.JsOld m = t.nValid) (i : Fin C) :
    ph.meanFractions i - es.phiMeans i =
      (∑ m, (volStep e.params t m - (∑ k, volStep e.params t k) / t.nValid) * t.phisComp i m)
        / t.nValid := by
  have hF := iterate_facts hs.pass
  have hpass := hs.pass
  rw [hes] at hpass
  obtain ⟨hmean, -⟩ := C24_canonical_mean es hen hpass i
  have hn := hF.nValid_pos
  have hall : ∀ f : Fin M → ℝ, ∑ m with e.params.killThreshold < t.Js m, t.Js m * f m =
      ∑ m, t.Js m * f m := by
    intro f
    rw [Finset.sum_filter]
    refine Finset.sum_congr rfl fun m _ => ?_
    split
    · rfl
    · rename_i hlt
      rcases hF.mask_cases m with h1 | h0
      · exact absurd (hsafe m (hF.JsOld_gt h1)) hlt
      · rw [hF.Js_dead h0, zero_mul]
  have hV : ∑ q, ph.volumes q = t.nValid := by
    have := hs.conserve fun _ => 1
    rw [hall] at this
    simpa [hF.sum_Js] using this
  have hA : ∑ q, ph.volumes q * ph.fractions q i = ∑ m, t.Js m * t.phisComp i m := by
    have := hs.conserve fun v => v i
    rwa [hall] at this
  have hmk : ∀ m, t.masks m * t.phisComp i m = t.phisComp i m := by
    intro m
    rw [hF.phis_eq hen (hes ▸ es.scales)]
    rw [mul_comm, mul_assoc, hF.mask_mul]
  have hJ : ∑ m, t.Js m * t.phisComp i m = es.phiMeans i * t.nValid +
      ∑ m, (volStep e.params t m - (∑ k, volStep e.params t k) / t.nValid) * t.phisComp i m := by
    have h1 : ∑ m, t.JsOld m * t.phisComp i m = es.phiMeans i * t.nValid := by
      rw [← hmean, hsum, div_mul_cancel₀ _ hF.nValid_ne]
      exact Finset.sum_congr rfl fun m _ => mul_comm _ _
    rw [← h1, ← Finset.sum_add_distrib]
    refine Finset.sum_congr rfl fun m _ => ?_
    rw [hF.Js_step hsum, add_mul, mul_assoc, hmk]
  show (∑ q, ph.volumes q * ph.fractions q i) / (∑ q, ph.volumes q) - es.phiMeans i = _
  rw [hA, hV, hJ]
  field_simp
  ring

theorem mean_bound {es : CanonicalC C ℝ} (hthr : 0 ≤ e.params.killThreshold)
    (hb : 0 < e.params.JsStepUpperBound) (hacc : 0 ≤ e.params.acceptanceJs)
    (hen : IsIdealGas e.en sizes feat) (hes : e.es = es.toI M) (hphi : ∀ j, 0 ≤ es.phiMeans j)
    {b₀ : ℤ} {count : ℕ} {s : State C S M ℝ G} {t : Trace C S M ℝ G}
    (hs : Source e st ph d b₀ count s t)
    (hsafe : ∀ m, e.params.killThreshold < t.JsOld m → e.params.killThreshold < t.Js m)
    (hsum : ∑ m, t.JsOld m = t.nValid) (i : Fin C) :
    |ph.meanFractions i - es.phiMeans i| ≤
      2 * (e.params.acceptanceJs * d.maxAbsJsDiff) * (1 + d.maxAbsIncomp) := by
  have hF := iterate_facts hs.pass
  have hn := hF.nValid_pos
  have hsc : Scales e.es _ := hes ▸ es.scales
  have hQ : ∀ j, 0 ≤ t.Qs j := by
    intro j
    rw [hF.Qs_eq hen]
    exact div_nonneg (Finset.sum_nonneg fun m _ => mul_nonneg (Real.exp_pos _).le
      (hF.JsOld_nonneg hthr m)) (Finset.sum_nonneg fun m _ => hF.JsOld_nonneg hthr m)
  have hpos : ∀ j m, 0 ≤ t.phisComp j m := by
    intro j m
    rw [hF.phis_eq hen hsc]
    exact mul_nonneg (mul_nonneg (div_nonneg (hphi j) (hQ j)) (Real.exp_pos _).le) (hF.mask_le m).1
  set X := e.params.acceptanceJs * t.maxAbsJsDiff with hX
  have hx := hF.abs_step_le hb hacc
  have hmean := hF.abs_mean_volStep hx
  have hX0 : 0 ≤ X := (abs_nonneg _).trans hmean
  have hle : ∀ m, |(volStep e.params t m - (∑ k, volStep e.params t k) / t.nValid)
      * t.phisComp i m| ≤ 2 * X * (1 + t.maxAbsIncomp) * t.masks m := by
    intro m
    rcases hF.mask_cases m with h1 | h0
    · rw [h1, mul_one, abs_mul, abs_of_nonneg (hpos i m)]
      have e1 : |volStep e.params t m - (∑ k, volStep e.params t k) / t.nValid| ≤ 2 * X := by
        have := abs_sub (volStep e.params t m) ((∑ k, volStep e.params t k) / t.nValid)
        have := hx m
        linarith
      have e2 : t.phisComp i m ≤ 1 + t.maxAbsIncomp := by
        have h2 := hF.incomp_le m
        rw [hF.incomp_eq hsc, h1, mul_one] at h2
        have h3 := Finset.single_le_sum (f := fun j => t.phisComp j m) (fun j _ => hpos j m)
          (Finset.mem_univ i)
        have h4 := (abs_le.mp h2).2
        linarith
      exact mul_le_mul e1 e2 (hpos i m) (by linarith)
    · rw [hF.phis_eq hen hsc, h0]
      simp
  rw [mean_identity hen hes hs hsafe hsum, hs.js, hs.incomp, abs_div, abs_of_pos hn,
    div_le_iff₀ hn]
  refine (Finset.abs_sum_le_sum_abs _ _).trans ((Finset.sum_le_sum fun m _ => hle m).trans ?_)
  rw [← Finset.mul_sum, ← hF.nValid]

/-- The volumes after some passes of a short run. -/
theorem Spec.Passes.near {tries : ℤ} {n count : ℕ} {s : State C S M ℝ G} {t : Trace C S M ℝ G}
    (h : Passes e tries n count s t) (hb : 0 < e.params.JsStepUpperBound)
    (ha : 0 ≤ e.params.acceptanceJs) {x : ℝ} (hx : ∀ m, |s.Js m - 1| ≤ x)
    (hsum : ∑ m, s.Js m = (M : ℝ))
    (hlt : x + n * (2 * e.params.JsStepUpperBound) < 1 - e.params.killThreshold) :
    (∀ m, |t.Js m - 1| ≤ x + n * (2 * e.params.JsStepUpperBound)) ∧ ∑ m, t.Js m = (M : ℝ) ∧
    (∀ m, t.masks m = 1) ∧ ∑ m, t.JsOld m = t.nValid := by
  induction h with
  | one h =>
    simp only [Nat.cast_one, one_mul] at hlt ⊢
    obtain ⟨h1, h2, h3, h4, -⟩ := (iterate_facts h).near hb ha hx (by linarith) hsum
    exact ⟨h1, h2, h3, h4⟩
  | more h1 h2 ih =>
    push_cast at hlt ⊢
    obtain ⟨i1, i2, -⟩ := ih hx hsum (by nlinarith)
    obtain ⟨j1, j2, j3, j4, -⟩ := (iterate_facts h2).near hb ha i1 (by linarith) i2
    exact ⟨fun m => (j1 m).trans (by linarith), j2, j3, j4⟩

theorem Spec.Chain.near {inner : ℕ} {ts : List (Trace C S M ℝ G)} {s s₁ : State C S M ℝ G} {b b₁ : ℤ}
    (h : Chain e inner ts s b s₁ b₁) (hb : 0 < e.params.JsStepUpperBound)
    (ha : 0 ≤ e.params.acceptanceJs) {x : ℝ} (hx : ∀ m, |s.Js m - 1| ≤ x)
    (hsum : ∑ m, s.Js m = (M : ℝ))
    (hlt : x + (ts.length * inner : ℕ) * (2 * e.params.JsStepUpperBound)
      < 1 - e.params.killThreshold) :
    (∀ m, |s₁.Js m - 1| ≤ x + (ts.length * inner : ℕ) * (2 * e.params.JsStepUpperBound)) ∧
    ∑ m, s₁.Js m = (M : ℝ) := by
  induction h generalizing x with
  | nil => exact ⟨by simpa using hx, hsum⟩
  | @cons ts s s₁ b b₁ t h1 h2 ih =>
    have e1 : (((t :: ts).length * inner : ℕ) : ℝ) = inner + (ts.length * inner : ℕ) := by
      push_cast [List.length_cons]; ring
    rw [e1] at hlt ⊢
    have hnn : (0 : ℝ) ≤ (ts.length * inner : ℕ) * (2 * e.params.JsStepUpperBound) := by positivity
    obtain ⟨i1, i2, -⟩ := h1.near hb ha hx hsum (by linarith)
    obtain ⟨j1, j2⟩ := ih i1 i2 (by linarith)
    exact ⟨fun m => (j1 m).trans (by linarith), j2⟩

/-- **C42**, what holds (the property itself is false, see below).  The returned phases are those of
the last pass, but their volumes have already been updated.  If no compartment died in the last two
passes (the volumes of the last pass still add up to the number of living compartments, and none of
them falls below the threshold), the returned mean composition deviates from `phi_means` by at most
`2 acceptance_Js max_abs_js_diff (1 + max_abs_incomp)`.  Missing: equality. -/
theorem C42_mean_composition_partial {es : CanonicalC C ℝ} (hok : e.rng.Ok)
    (hthr : 0 ≤ e.params.killThreshold)
    (hb : 0 < e.params.JsStepUpperBound) (hacc : 0 ≤ e.params.acceptanceJs)
    (hen : IsIdealGas e.en sizes feat) (hes : e.es = es.toI M) (hphi : ∀ j, 0 ≤ es.phiMeans j)
    (h : runImpl e maxSteps tol interval st b = (s', .ok (ph, d))) :
    ∃ b₀ count s t, iterate e.ia e.en e.es e.rng e.params b₀ count s = .ok t ∧
      (∀ p, ∃ m, t.masks m = 1 ∧ ∀ i, ph.fractions p i = t.phisComp i m) ∧
      ((∀ m, e.params.killThreshold < t.JsOld m → e.params.killThreshold < t.Js m) →
        ∑ m, t.JsOld m = t.nValid → ∀ i, |ph.meanFractions i - es.phiMeans i| ≤
          2 * (e.params.acceptanceJs * d.maxAbsJsDiff) * (1 + d.maxAbsIncomp)) := by
  obtain ⟨b₀, count, s, t, hs⟩ := run_source hok hthr h
  refine ⟨b₀, count, s, t, hs.pass, fun p => ?_, fun h1 h2 i =>
    mean_bound hthr hb hacc hen hes hphi hs h1 h2 i⟩
  obtain ⟨m, hm, -, hpm⟩ := hs.rows p
  exact ⟨m, hm, hpm⟩

/-- **C42** for runs too short for any compartment to die (from volumes one, as after every
reinitialization): the bound holds without conditions on the trajectory.  Missing: equality. -/
theorem C42_short_runs_partial {es : CanonicalC C ℝ} (hok : e.rng.Ok)
    (hthr : 0 ≤ e.params.killThreshold)
    (hb : 0 < e.params.JsStepUpperBound) (hacc : 0 ≤ e.params.acceptanceJs)
    (hen : IsIdealGas e.en sizes feat) (hes : e.es = es.toI M) (hphi : ∀ j, 0 ≤ es.phiMeans j)
    (h1 : 0 < maxSteps) (h2 : 0 < interval) (hst : ∀ m, st.Js m = 1)
    (hshort : (⌈maxSteps⌉ : ℝ) * (2 * e.params.JsStepUpperBound) < 1 - e.params.killThreshold)
    (h : runImpl e maxSteps tol interval st b = (s', .ok (ph, d))) (i : Fin C) :
    |ph.meanFractions i - es.phiMeans i| ≤
      2 * (e.params.acceptanceJs * d.maxAbsJsDiff) * (1 + d.maxAbsIncomp) := by
  obtain ⟨tracker, inner, ts, t, c, ht, hi, hf⟩ := run_facts hthr h
  obtain ⟨k, hk, hk1, hk2⟩ := stepsTracker_pos h1 h2
  obtain ⟨inner', hi1, hi2, hi3, hi4, hi5⟩ := stepsInner_spec h1 h2 hk hk2
  have e1 : tracker = k := Except.ok.inj (ht.symm.trans hk1)
  subst e1
  have e2 : inner = inner' := Except.ok.inj (hi.symm.trans hi1)
  subst e2
  have hcount := hf.count
  rw [Int.toNat_natCast] at hcount
  have htot : (((ts.length + 1) * inner : ℕ) : ℝ) ≤ (⌈maxSteps⌉ : ℝ) := by
    have : (((ts.length + 1) * inner : ℕ) : ℤ) ≤ ⌈maxSteps⌉ :=
      le_trans (by exact_mod_cast Nat.mul_le_mul_right inner hcount) hi4
    exact_mod_cast this
  have hlt : (((ts.length + 1) * inner : ℕ) : ℝ) * (2 * e.params.JsStepUpperBound)
      < 1 - e.params.killThreshold :=
    lt_of_le_of_lt (mul_le_mul_of_nonneg_right htot (by linarith)) hshort
  obtain ⟨s₀, b₀, c1, c2, -, -⟩ := hf.chain.last
  have hx0 : ∀ m, |st.Js m - 1| ≤ 0 := fun m => by rw [hst]; simp
  have hsum0 : ∑ m, st.Js m = (M : ℝ) := by simp [hst]
  have hcast : (((ts.length + 1) * inner : ℕ) : ℝ) = (ts.length * inner : ℕ) + inner := by
    push_cast; ring
  rw [hcast, add_mul] at hlt
  have hnn : (0 : ℝ) ≤ inner * (2 * e.params.JsStepUpperBound) := by positivity
  obtain ⟨n1, n2⟩ := c1.near hb hacc hx0 hsum0 (by linarith)
  obtain ⟨m1, m2, m3, m4⟩ := c2.near hb hacc n1 n2 (by linarith)
  obtain ⟨count, s, h3, h4, h5⟩ := c2.lastPass
  have hsafe : ∀ m, e.params.killThreshold < t.Js m := fun m => by
    have := (abs_le.mp (m1 m)).1
    linarith
  have hsrc : Source e st ph d b₀ count s t := hf.source hok hthr h3 (h4.trans c1.cons_plain)
    fun P hp he hs => h5 P hp he (c1.cons_inv P hp he hs)
  exact mean_bound hthr hb hacc hen hes hphi hsrc (fun m _ => hsafe m) m4 i

end Mean

namespace Demo

/-- One component, two compartments. -/
noncomputable def env1 : RunEnv 1 1 2 ℝ Unit :=
  ⟨(⟨fun _ _ => 0, 1⟩ : FHCompiled 1 ℝ).toI 2, (⟨fun _ => 1⟩ : IdealC 1).toI 2,
    (⟨fun _ => 1⟩ : CanonicalC 1 ℝ).toI 2, rngZero ℝ, params, "standard", id⟩

/-- Volumes one and different fields. -/
noncomputable def state1 : State 1 1 2 ℝ Unit where
  omegas := fun _ => ![0, Real.log 3]
  Js := fun _ => 1
  phisComp := fun _ _ => 0
  phisFeat := fun _ _ => 0
  cons := []
  g := ()

end Demo

/-- **C42** is false: after one step the returned mean fraction of the only component is not the
requested one, because the volumes have been updated but the fractions have not. -/
theorem C42_mean_composition_wrong :
    ∃ s' ph d, runImpl Demo.env1 1 (1 / 100000) 10000 Demo.state1 0 = (s', .ok (ph, d)) ∧
      ph.meanFractions 0 ≠ 1 := by
  have hen : IsIdealGas Demo.env1.en (fun _ => (1 : ℝ)) id :=
    (⟨fun _ => 1⟩ : IdealC 1).isIdealGas (M := 2)
  have hthr : Demo.env1.params.killThreshold = 0 := rfl
  obtain ⟨s', ph, d, h⟩ := run_ok (e := Demo.env1) (tol := 1 / 100000) (maxSteps := 1)
    (interval := 10000) (rngZero_ok ℝ) hen
    ((⟨fun _ => 1⟩ : CanonicalC 1 ℝ).total (M := 2)) le_rfl (by rw [hthr]; norm_num)
    (by rw [hthr]; norm_num) (by simp [Demo.env1, Demo.params]) rfl (by norm_num) (by norm_num)
    Demo.state1 0 (by simp [Demo.state1]) (Or.inl ⟨0, by rw [hthr]; simp [Demo.state1]⟩)
  refine ⟨s', ph, d, h, ?_⟩
  obtain ⟨tracker, inner, ts, t, c, ht, hi, hf⟩ := run_facts (e := Demo.env1) le_rfl h
  have htr : tracker = 1 := by
    have : stepsTracker 1 10000 = .ok 1 := by
      unfold stepsTracker
      norm_num [Int.ceil_eq_iff]
    exact Except.ok.inj (ht.symm.trans this)
  subst htr
  have hin : inner = 1 := by
    have : stepsInner 1 1 = .ok 1 := by
      unfold stepsInner
      norm_num
    exact Except.ok.inj (hi.symm.trans this)
  subst hin
  have hts : ts = [] := by
    have := hf.count
    simpa using this
  subst hts
  obtain ⟨s₀, b₀, c1, c2, -, -⟩ := hf.chain.last
  cases c1
  cases c2 with
  | more h1 _ => exact absurd h1.pos (lt_irrefl 0)
  | one hp =>
    have hF := iterate_facts hp
    have hsrc : Source Demo.env1 Demo.state1 ph d 0 0 Demo.state1 t :=
      hf.source (rngZero_ok ℝ) le_rfl hp rfl fun _ _ _ h => h
    obtain ⟨n1, n2, hmk, hsum, hJ, hom⟩ := hF.near (by simp [Demo.env1, Demo.params])
      (by norm_num [Demo.env1, Demo.params]) (x := 0) (by simp [Demo.state1])
      (by rw [hthr]; norm_num) (by simp [Demo.state1])
    have hsafe : ∀ m, Demo.env1.params.killThreshold < t.Js m := by
      intro m
      have := (abs_le.mp (n1 m)).1
      rw [hthr]
      have hb : Demo.env1.params.JsStepUpperBound = 1 / 1000 := rfl
      rw [hb] at this
      linarith
    have hid := mean_identity (es := ⟨fun _ => 1⟩) hen rfl hsrc (fun m _ => hsafe m) hsum 0
    have hnv : t.nValid = 2 := by rw [hF.nValid]; simp [hmk]
    have hQ : t.Qs 0 = 2 / 3 := by
      rw [hF.Qs_eq hen]
      simp only [hJ, hom, Demo.state1, Fin.sum_univ_two]
      simp only [Matrix.cons_val_zero, Matrix.cons_val_one, mul_one, neg_zero, Real.exp_zero,
        Real.exp_neg, Real.exp_log (by norm_num : (0 : ℝ) < 3)]
      norm_num
    have hphi := hF.phis_eq hen (CanonicalC.scales (⟨fun _ => 1⟩ : CanonicalC 1 ℝ)) 0
    have hp0 : t.phisComp 0 0 = 3 / 2 := by
      rw [hphi, hmk, hQ, hom]
      simp [Demo.state1]
    have hp1 : t.phisComp 0 1 = 1 / 2 := by
      rw [hphi, hmk, hQ, hom]
      have e3 := Real.exp_log (by norm_num : (0 : ℝ) < 3)
      simp only [Demo.state1, id, Matrix.cons_val_one, mul_one, Real.exp_neg]
      norm_num [e3]
    have hcons : t.consPrep = [] := by rw [hF.consPrep]; rfl
    have hloc : ∀ m, t.localEnergy m = 1 - 2 * t.phisComp 0 m - t.omegasOld 0 m := by
      intro m
      have hF' : IterFacts ((⟨fun _ _ => 0, 1⟩ : FHCompiled 1 ℝ).toI 2) _ _ _ _ _ _ _ t := hF
      have hsc := CanonicalC.scales (M := 2) (⟨fun _ => 1⟩ : CanonicalC 1 ℝ)
      rw [hF'.localEnergy_eq hen hsc (hmk m), hF'.xi, hF'.incomp_eq hsc, hmk m]
      have hpot : ∀ r, t.potential r m = 0 := by
        intro r
        rw [hF'.potential_feat hen]
        simp
      have hc : ((⟨fun _ _ => 0, 1⟩ : FHCompiled 1 ℝ).toI 2).incompCoef t.phisFeat = 1 := rfl
      simp only [hpot, hcons, hc, liftChis, consVd, consPot, List.map_nil, List.sum_nil,
        Finset.univ_unique, Fin.default_eq_zero, Finset.sum_singleton, Nat.cast_one]
      ring
    have hd : t.JsDiff 0 - t.JsDiff 1 = 2 - Real.log 3 := by
      rw [hF.JsDiff, hF.JsDiff, hmk, hmk, hloc, hloc, hp0, hp1, hom]
      simp only [Demo.state1, Matrix.cons_val_zero, Matrix.cons_val_one]
      ring
    have hlog : Real.log 3 < 2 := by
      rw [Real.log_lt_iff_lt_exp (by norm_num)]
      have := Real.add_one_lt_exp (x := 2) (by norm_num)
      linarith
    have hfac := (hF.factor_le_one (by simp [Demo.env1, Demo.params])).1
    intro hc
    rw [hc, hnv] at hid
    simp only [Fin.sum_univ_two, hp0, hp1, volStep] at hid
    have hz : t.factor * Demo.env1.params.acceptanceJs * (t.JsDiff 0 - t.JsDiff 1) = 0 := by
      linear_combination (-4 : ℝ) * hid
    have ha : Demo.env1.params.acceptanceJs = 2 / 10000 := rfl
    rw [hd, ha] at hz
    have : 0 < t.factor * (2 / 10000) * (2 - Real.log 3) :=
      mul_pos (mul_pos hfac (by norm_num)) (by linarith)
    linarith

-- The hypotheses of the bound for short runs are met by up to 499 steps with default parameters.
example : ∃ s' ph d, runImpl Demo.env1 499 (1 / 100000) 10000 Demo.state1 0 = (s', .ok (ph, d)) ∧
    |ph.meanFractions 0 - 1| ≤ 2 * (2 / 10000 * d.maxAbsJsDiff) * (1 + d.maxAbsIncomp) := by
  have hen : IsIdealGas Demo.env1.en (fun _ => (1 : ℝ)) id :=
    (⟨fun _ => 1⟩ : IdealC 1).isIdealGas (M := 2)
  have hthr : Demo.env1.params.killThreshold = 0 := rfl
  obtain ⟨s', ph, d, h⟩ := run_ok (e := Demo.env1) (tol := 1 / 100000) (maxSteps := 499)
    (interval := 10000) (rngZero_ok ℝ) hen
    ((⟨fun _ => 1⟩ : CanonicalC 1 ℝ).total (M := 2)) le_rfl (by rw [hthr]; norm_num)
    (by rw [hthr]; norm_num) (by simp [Demo.env1, Demo.params]) rfl (by norm_num) (by norm_num)
    Demo.state1 0 (by simp [Demo.state1]) (Or.inl ⟨0, by rw [hthr]; simp [Demo.state1]⟩)
  have hc : ⌈(499 : ℚ)⌉ = 499 := by norm_num
  exact ⟨s', ph, d, h, C42_short_runs_partial (e := Demo.env1) (es := ⟨fun _ => 1⟩) (rngZero_ok ℝ)
    le_rfl (by simp [Demo.env1, Demo.params]) (by norm_num [Demo.env1, Demo.params]) hen rfl
    (fun _ => zero_le_one) (by norm_num) (by norm_num) (fun _ => rfl)
    (by rw [hc, hthr]; norm_num [Demo.env1, Demo.params]) h 0⟩

end Flory
