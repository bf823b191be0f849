import Verif.Lemmas.Merging
import Verif.Spec.Merge
import Verif.Lemmas.Steps

/-! # Runs that start near a homogeneous state -/

set_option linter.unusedSectionVars false

namespace Flory

open Spec

variable {G : Type} {C S : ℕ} {ia : FHCompiled S ℝ} {es : CanonicalC C ℝ} {l : Vec C ℝ}
  {feat : Fin C → Fin S}

theorem run_merging {M : ℕ} [NeZero M] {e : RunEnv C S M ℝ G} {W : Mat S S ℝ} {ε c A β q D E θ : ℝ}
    (hd : MergeData ia.chis ia.coef es.phiMeans l feat e.params W ε c A β q D E θ)
    (hl : ∀ i, 0 < l i) (hx : ∀ i, 0 ≤ es.phiMeans i) (hthr : 0 ≤ e.params.killThreshold)
    (hb : 0 < e.params.JsStepUpperBound) (hia : e.ia = ia.toI M) (hen : IsIdealGas e.en l feat)
    (hes : e.es = es.toI M) (hA : NearBound ia es e.en e.rng e.params feat A) {st : State C S M ℝ G}
    (hs : Merging ia.chis feat es.phiMeans W c β q D E θ 0 st) {maxSteps : ℚ} {tol : ℝ} {interval b : ℤ}
    {f : RunState C S M ℝ G} {ph : Phases M C ℝ} {d : Diagnostics ℝ}
    (h : runImpl e maxSteps tol interval st b = (f, .ok (ph, d))) :
    d.reviveCountLeft = b ∧ d.maxAbsIncomp ≤ A * (β * q ^ (d.steps - 1)) ∧
    d.maxAbsJsDiff ≤ A * (β * q ^ (d.steps - 1)) ∧
    d.maxAbsOmegaDiff ≤ E * θ ^ (d.steps - 1) + A * (β * q ^ (d.steps - 1)) ∧
    d.maxConstraintResidue = 0 ∧
    (∀ m i, |ph.fractions m i - es.phiMeans i| ≤ A * (β * q ^ (d.steps - 1))) ∧
    (∀ r m n, |f.st.omegas r m - f.st.omegas r n| ≤ β * q ^ d.steps) ∧
    ∀ m, |ph.volumes m - 1| ≤ D / (1 - q) := by
  obtain ⟨tr, inner, ts, t, cp, a1, a2, hf⟩ := run_facts hthr h
  obtain ⟨s₀, b₀, c1, c2, c3, c4⟩ := hf.chain.last
  obtain ⟨k1, k2⟩ := c1.merging hd hl hx hthr hb hia hen hes hA hs
  obtain ⟨l1, l2, l3⟩ := c2.merging hd hl hx hthr hb hia hen hes hA k2
  have hal : ∀ m, e.params.killThreshold < t.Js m := fun m => l3.alive hd m
  obtain ⟨li, n, hc⟩ := reviveByCopy_all_alive (rng := e.rng) (T := t.phisComp) (g := t.g) hthr hal
  obtain rfl := Except.ok.inj (hf.copy.symm.trans hc)
  have hst : 0 + ts.length * inner + inner = d.steps := by rw [hf.diag]; ring
  rw [hst] at l1 l3
  have hD : 0 ≤ D := by
    rw [hd.D_eq]
    have := hd.A_pos
    have := hd.β_nonneg
    positivity
  refine ⟨?_, ?_, ?_, ?_, ?_, fun m i => ?_, fun r m n => ?_, fun m => ?_⟩
  · rw [hf.diag]
    show f.reviveLeft = b
    rw [c4, k1, l2]; simp
  · exact (congrArg Diagnostics.maxAbsIncomp hf.diag).trans_le l1.incomp
  · exact (congrArg Diagnostics.maxAbsJsDiff hf.diag).trans_le l1.jsDiff
  · exact (congrArg Diagnostics.maxAbsOmegaDiff hf.diag).trans_le l1.omegaDiff
  · rw [hf.diag]; exact l1.residue
  · rw [hf.fractions]; exact l1.phis i m
  · rw [hf.arrays]; exact l3.near hd r m n
  · rw [hf.volumes]
    refine (l3.drift m).trans ?_
    rw [div_eq_mul_one_div]
    exact mul_le_mul_of_nonneg_left (geom_le hd.q_nonneg hd.q_lt _) hD

/-- A run either makes many passes or stops because its errors are small. -/
theorem run_long {M : ℕ} [NeZero M] {e : RunEnv C S M ℝ G} (hthr : 0 ≤ e.params.killThreshold)
    {st : State C S M ℝ G} {maxSteps : ℚ} {tol : ℝ} {interval b : ℤ} {n : ℕ}
    (hN : ((2 * (n + 1) : ℕ) : ℚ) ≤ maxSteps) (hint : 0 < interval)
    {f : RunState C S M ℝ G} {ph : Phases M C ℝ} {d : Diagnostics ℝ}
    (h : runImpl e maxSteps tol interval st b = (f, .ok (ph, d))) :
    0 < d.steps ∧ (n ≤ d.steps - 1 ∨
      (d.maxAbsIncomp < tol ∧ d.maxAbsOmegaDiff < tol ∧ d.maxAbsJsDiff < tol)) := by
  have hpos : 0 < maxSteps := by
    refine lt_of_lt_of_le ?_ hN
    exact_mod_cast (by omega : 0 < 2 * (n + 1))
  obtain ⟨tr, inner, ts, t, cp, a1, a2, hf⟩ := run_facts hthr h
  obtain ⟨k, hk, hk1, hk2⟩ := stepsTracker_pos hpos hint
  obtain ⟨inner', hi1, hi2, hi3, -, hi5⟩ := stepsInner_spec hpos hint hk hk2
  obtain rfl := Except.ok.inj (a1.symm.trans hk1)
  obtain rfl := Except.ok.inj (a2.symm.trans hi1)
  constructor
  · rw [hf.diag]
    show 0 < (ts.length + 1) * inner
    positivity
  rcases hf.stop with hst | hmet
  · have hsteps : d.steps = k * inner := by
      rw [hf.diag]
      show (ts.length + 1) * inner = _
      rw [hst]; simp
    have hlt : 2 * (n + 1) < k * inner + k := by
      have : ((2 * (n + 1) : ℕ) : ℚ) < ((k * inner + k : ℕ) : ℚ) := lt_of_le_of_lt hN hi5
      exact_mod_cast this
    have hle : k ≤ k * inner := Nat.le_mul_of_pos_right k hi2
    exact Or.inl (by rw [hsteps]; omega)
  · refine Or.inr ?_
    rw [hf.diag]
    exact ⟨hmet.2.1, hmet.2.2.1, hmet.2.2.2.1⟩

theorem decay_lt {q θ E A β tol : ℝ} {n k : ℕ} (hq : 0 ≤ q) (hqθ : q ≤ θ) (hθ : θ < 1) (hE : 0 ≤ E)
    (hA : 0 ≤ A) (hβ : 0 ≤ β) (hk : n ≤ k) (hn : θ ^ n < tol / (E + A * β + 1)) :
    E * θ ^ k + A * (β * q ^ k) < tol := by
  have hθ0 := hq.trans hqθ
  have h1 : θ ^ k ≤ θ ^ n := pow_le_pow_of_le_one hθ0 hθ.le hk
  have h2 : q ^ k ≤ θ ^ n := (pow_le_pow_left₀ hq hqθ k).trans h1
  rw [lt_div_iff₀ (by positivity)] at hn
  have h3 : 0 ≤ θ ^ n := pow_nonneg hθ0 n
  have h4 := mul_le_mul_of_nonneg_left h1 hE
  have h5 := mul_le_mul_of_nonneg_left h2 (mul_nonneg hA hβ)
  have h6 : θ ^ n * (E + A * β + 1) = E * θ ^ n + A * β * θ ^ n + θ ^ n := by ring
  rw [mul_assoc] at h5
  linarith

/-- If a quadratic form contracts at the given `acceptance_omega` then runs merge. -/
theorem merges_of_contraction {M : ℕ} [NeZero M] {e : RunEnv C S M ℝ G} (hl : ∀ i, 0 < l i)
    (hx : ∀ i, 0 ≤ es.phiMeans i) (hsum : ∑ i, es.phiMeans i = 1) {W : Mat S S ℝ}
    (hW : ∀ u, u ≠ 0 → 0 < quad W u) (hok : e.rng.Ok) (hthr : 0 ≤ e.params.killThreshold)
    (hthr1 : e.params.killThreshold < 1) (hthr2 : 2 * e.params.killThreshold * ((M : ℝ) - 1) < 1)
    (hb : 0 < e.params.JsStepUpperBound) (hstd : e.criterion = "standard") (hia : e.ia = ia.toI M)
    (hen : IsIdealGas e.en l feat) (hes : e.es = es.toI M) (ha : 0 < e.params.acceptanceOmega)
    (hle2 : e.params.acceptanceOmega ≤ 1) {ε q : ℝ} (hε : 0 < ε) (hq0 : 0 < q) (hq1 : q < 1)
    (hdec : ∀ d, (∀ r, |d r - loads l feat es.phiMeans r| ≤ ε) → ∀ u,
      quad W (u - e.params.acceptanceOmega • response ia.chis ia.coef d u) ≤ q ^ 2 * quad W u) :
    Merges e es.phiMeans := by
  obtain ⟨L, hL, hLq⟩ := exists_quad_le W
  obtain ⟨c, hc, hcq⟩ := exists_coercive (continuous_quad W) (quad_smul W) hW
  obtain ⟨A, hA0, hA⟩ := exists_near_bound (G := G) ia es M l feat hl hx hsum
  set a := e.params.acceptanceOmega with hadef
  set A₀ := √(L * S / c) with hA₀
  have hA₀0 : 0 ≤ A₀ := Real.sqrt_nonneg _
  have hA₀2 : A₀ ^ 2 = L * S / c := Real.sq_sqrt (by positivity)
  set sl := ∑ i, l i with hsl
  have hsl0 : 0 ≤ sl := Finset.sum_nonneg fun i _ => (hl i).le
  set aJ := |e.params.acceptanceJs| with haJ
  have haJ0 : 0 ≤ aJ := abs_nonneg _
  set T := (1 + A₀) * (1 + A) * (1 + sl) * (1 + aJ) with hT
  have hT0 : 0 < T := by positivity
  have hT1 : A₀ ≤ T := by
    have : 0 ≤ T - A₀ := by
      rw [hT, show (1 + A₀) * (1 + A) * (1 + sl) * (1 + aJ) - A₀ = 1 + (1 + A₀) * ((1 + A) * (1 + sl) * aJ +
        (1 + A) * sl + A) by ring]
      positivity
    linarith
  have hT2 : sl * (A * A₀) ≤ T := by
    have : 0 ≤ T - sl * (A * A₀) := by
      rw [hT, show (1 + A₀) * (1 + A) * (1 + sl) * (1 + aJ) - sl * (A * A₀) =
        (1 + A₀) * (1 + A) * (1 + sl) * aJ + (1 + A₀) * (1 + A) + (1 + A₀) * sl + A * sl by ring]
      positivity
    linarith
  have hT3 : aJ * (A * A₀) ≤ T := by
    have : 0 ≤ T - aJ * (A * A₀) := by
      rw [hT, show (1 + A₀) * (1 + A) * (1 + sl) * (1 + aJ) - aJ * (A * A₀) =
        (1 + A₀) * (1 + A) * sl * (1 + aJ) + (1 + A₀) * (1 + A) + (1 + A₀) * aJ + A * aJ by ring]
      positivity
    linarith
  set μ := min (min 1 ε) (min e.params.JsStepUpperBound ((1 - e.params.killThreshold) * (1 - q))) with hμ
  have hμ0 : 0 < μ := by
    have h1 : 0 < (1 - e.params.killThreshold) * (1 - q) := mul_pos (by linarith) (by linarith)
    exact lt_min (lt_min one_pos hε) (lt_min hb h1)
  have hμ1 : μ ≤ 1 := (min_le_left _ _).trans (min_le_left _ _)
  have hμ2 : μ ≤ ε := (min_le_left _ _).trans (min_le_right _ _)
  have hμ3 : μ ≤ e.params.JsStepUpperBound := (min_le_right _ _).trans (min_le_left _ _)
  have hμ4 : μ ≤ (1 - e.params.killThreshold) * (1 - q) := (min_le_right _ _).trans (min_le_right _ _)
  clear_value T μ A₀
  refine ⟨μ / (4 * T), by positivity, A * A₀ / q + A₀ + 2 * aJ * (A * A₀) / (1 - q) + 1, ?_, q, hq0, hq1, ?_⟩
  · have : 0 < 1 - q := by linarith
    positivity
  intro st U hUη hJ hU hU0 hcons
  have hTU : T * U ≤ μ / 4 := by
    rw [le_div_iff₀ (by positivity)] at hUη
    linarith
  set θ := max q (1 - a / 2) with hθ
  have hθ1 : θ < 1 := max_lt hq1 (by linarith)
  have hθ0 : 0 ≤ θ := hq0.le.trans (le_max_left _ _)
  set E₀ := ∑ r, ∑ m, |st.omegas r m - homogeneousField ia.chis feat es.phiMeans (fun q => st.omegas q m) r|
    with hE₀
  set β := A₀ * U with hβ
  have hβ0 : 0 ≤ β := mul_nonneg hA₀0 hU0
  set E := max (4 * (A * β)) E₀ with hE
  have hE0 : 0 ≤ E := le_trans (by positivity) (le_max_left _ _)
  have g1 : A₀ * U ≤ T * U := mul_le_mul_of_nonneg_right hT1 hU0
  have g2 : sl * (A * A₀) * U ≤ T * U := mul_le_mul_of_nonneg_right hT2 hU0
  have g3 : aJ * (A * A₀) * U ≤ T * U := mul_le_mul_of_nonneg_right hT3 hU0
  have hd : MergeData ia.chis ia.coef es.phiMeans l feat e.params W ε c A β q (2 * aJ * (A * β)) E θ := by
    refine ⟨hc, hcq, fun d hd u => ?_, hA0, hβ0, ?_, ?_, ?_, hq0.le, hq1, rfl, ?_, ha, hle2, le_max_left _ _,
      le_max_right _ _, le_max_left _ _⟩
    · exact hdec d hd u
    · rw [hβ]; linarith
    · calc sl * (A * β) = sl * (A * A₀) * U := by rw [hβ]; ring
        _ ≤ ε := by linarith
    · calc aJ * (A * β) = aJ * (A * A₀) * U := by rw [hβ]; ring
        _ ≤ _ := by linarith
    · rw [div_lt_iff₀ (by linarith)]
      calc 2 * aJ * (A * β) = 2 * (aJ * (A * A₀) * U) := by rw [hβ]; ring
        _ < _ := by linarith
  have hs : Merging ia.chis feat es.phiMeans W c β q (2 * aJ * (A * β)) E θ 0 st := by
    refine ⟨by simp [hJ], fun m => by simp [hJ], fun m n => ?_, fun r m => ?_, hcons⟩
    · have h1 := (abs_le.mp (hLq fun r => st.omegas r m - st.omegas r n)).2
      have h2 : sumSq (fun r => st.omegas r m - st.omegas r n) ≤ S * U ^ 2 := by
        unfold sumSq
        refine (Finset.sum_le_sum (g := fun _ => U ^ 2) fun r _ => ?_).trans (by simp)
        exact sq_le_sq' (abs_le.mp (hU r m n)).1 (abs_le.mp (hU r m n)).2
      calc _ ≤ L * (S * U ^ 2) := h1.trans (mul_le_mul_of_nonneg_left h2 hL.le)
        _ = c * (A₀ ^ 2 * U ^ 2) := by rw [hA₀2]; field_simp
        _ = _ := by rw [hβ]; ring
    · rw [pow_zero, mul_one]
      refine le_trans ?_ (le_max_right _ _)
      refine le_trans ?_ (Finset.single_le_sum (f := fun r => ∑ m, |st.omegas r m -
        homogeneousField ia.chis feat es.phiMeans (fun q => st.omegas q m) r|)
        (fun r _ => Finset.sum_nonneg fun m _ => abs_nonneg _) (Finset.mem_univ r))
      exact Finset.single_le_sum (f := fun m => |st.omegas r m -
        homogeneousField ia.chis feat es.phiMeans (fun q => st.omegas q m) r|)
        (fun m _ => abs_nonneg _) (Finset.mem_univ m)
  have hnear : NearBound ia es e.en e.rng e.params feat A := fun hf hal hvol hc hU h0 h1 =>
    hA hf hen hthr hal hvol hc hU h0 h1
  obtain ⟨K, hK, hlog⟩ := exists_logSteps (show 0 < E + A * β + 1 by positivity) hθ0 hθ1
  refine ⟨K, hK, fun tol htol => ?_⟩
  obtain ⟨n, hn, hlog⟩ := hlog tol htol
  refine ⟨2 * (n + 1), hlog, fun maxSteps interval b hN hint => ?_⟩
  have hpos : 0 < maxSteps := by
    refine lt_of_lt_of_le ?_ hN
    exact_mod_cast (by omega : 0 < 2 * (n + 1))
  have hprop : ∀ k ∈ st.cons, k.Proper := by
    intro k hk
    have := hcons k hk
    cases k with
    | no c => trivial
    | loc A c => exact this.elim
    | glob A c => exact this.elim
  obtain ⟨f, ph, d, h⟩ := run_ok (e := e) hok hen (hes ▸ es.total) hthr hthr1 hthr2 hb hstd (tol := tol)
    (maxSteps := maxSteps) (interval := interval) hpos hint st b hprop
    (Or.inl ⟨0, by rw [hJ]; exact hthr1⟩)
  obtain ⟨r1, r2, r3, r4, r5, r6, r7, r8⟩ := run_merging hd hl hx hthr hb hia hen hes hnear hs h
  obtain ⟨hsteps0, hlong⟩ := run_long hthr hN hint h
  have hqs : q ^ (d.steps - 1) = q ^ d.steps / q := by
    rw [eq_div_iff hq0.ne', ← pow_succ, Nat.sub_add_cancel hsteps0]
  have herr : d.maxAbsIncomp < tol ∧ d.maxAbsOmegaDiff < tol ∧ d.maxAbsJsDiff < tol := by
    rcases hlong with hnd | hmet
    · have hlt2 := decay_lt hq0.le (le_max_left _ _) hθ1 hE0 hA0.le hβ0 hnd hn
      have hE' : 0 ≤ E * θ ^ (d.steps - 1) := mul_nonneg hE0 (pow_nonneg hθ0 _)
      exact ⟨by linarith, by linarith, by linarith⟩
    · exact hmet
  have hq1' : 0 < 1 - q := by linarith
  have hqd : 0 ≤ q ^ d.steps := pow_nonneg hq0.le _
  refine ⟨f, ph, d, h, r1, herr.1, herr.2.1, herr.2.2, r5, fun m i => (r6 m i).trans ?_,
    fun r m n => (r7 r m n).trans ?_, fun m => (r8 m).trans ?_⟩
  · rw [hqs]
    have e1 : A * (β * (q ^ d.steps / q)) = A * A₀ / q * U * q ^ d.steps := by rw [hβ]; ring
    rw [e1]
    refine mul_le_mul_of_nonneg_right (mul_le_mul_of_nonneg_right ?_ hU0) hqd
    have : 0 ≤ A₀ + 2 * aJ * (A * A₀) / (1 - q) + 1 := by positivity
    linarith
  · rw [hβ]
    refine mul_le_mul_of_nonneg_right (mul_le_mul_of_nonneg_right ?_ hU0) hqd
    have : 0 ≤ A * A₀ / q + 2 * aJ * (A * A₀) / (1 - q) + 1 := by positivity
    linarith
  · have e1 : 2 * aJ * (A * β) / (1 - q) = 2 * aJ * (A * A₀) / (1 - q) * U := by rw [hβ]; ring
    rw [e1]
    refine mul_le_mul_of_nonneg_right ?_ hU0
    have : 0 ≤ A * A₀ / q + A₀ + 1 := by positivity
    linarith

theorem converges_of_form (hl : ∀ i, 0 < l i) (hx : ∀ i, 0 ≤ es.phiMeans i)
    (hsum : ∑ i, es.phiMeans i = 1) {W : Mat S S ℝ} (hW : ∀ u, u ≠ 0 → 0 < quad W u)
    (hF : ∀ u, u ≠ 0 → 0 < bil W u (response ia.chis ia.coef (loads l feat es.phiMeans) u) +
      bil W (response ia.chis ia.coef (loads l feat es.phiMeans) u) u) :
    ConvergesToMean G ia es l feat := by
  obtain ⟨L, hL, hLq⟩ := exists_quad_le W
  obtain ⟨ε, hε, a₁, ha₁, c₂, hc₂, hdec⟩ := exists_decrease W (response ia.chis ia.coef)
    (response_smul ia.chis ia.coef) (continuous_response ia.chis ia.coef) (loads l feat es.phiMeans) hF
  refine ⟨min (min a₁ 1) (L / (2 * c₂)), by positivity, ?_⟩
  intro M _ e hok hthr hthr1 hthr2 hb hstd hia hen hes ha ha0
  set a := e.params.acceptanceOmega with hadef
  have hle1 : a ≤ a₁ := ha0.trans ((min_le_left _ _).trans (min_le_left _ _))
  have hle2 : a ≤ 1 := ha0.trans ((min_le_left _ _).trans (min_le_right _ _))
  have hle3 : a ≤ L / (2 * c₂) := ha0.trans (min_le_right _ _)
  set ρ := a * c₂ / L with hρ
  have hρ0 : 0 < ρ := by positivity
  have hρ1 : ρ ≤ 1 / 2 := by
    rw [hρ, div_le_iff₀ hL]
    rw [le_div_iff₀ (by positivity)] at hle3
    linarith
  have hq2 : √(1 - ρ) ^ 2 = 1 - ρ := Real.sq_sqrt (by linarith)
  have hq0 : 0 < √(1 - ρ) := Real.sqrt_pos.mpr (by linarith)
  have hq1 : √(1 - ρ) < 1 := by
    by_contra hcon
    have : 1 ≤ √(1 - ρ) := not_lt.mp hcon
    nlinarith
  refine merges_of_contraction hl hx hsum hW hok hthr hthr1 hthr2 hb hstd hia hen hes ha hle2 hε hq0 hq1
    fun d hd u => ?_
  refine (hdec d hd a ha.le hle1 u).trans ?_
  have h1 := (abs_le.mp (hLq u)).2
  have h2 : ρ * quad W u ≤ a * c₂ * sumSq u := by
    calc ρ * quad W u ≤ ρ * (L * sumSq u) := mul_le_mul_of_nonneg_left h1 hρ0.le
      _ = a * c₂ * sumSq u := by rw [hρ]; field_simp
  rw [hq2]; linarith

end Flory
