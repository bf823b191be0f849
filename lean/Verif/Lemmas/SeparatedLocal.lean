import Verif.Lemmas.SeparatedAccuracy
import Verif.Lemmas.MergeRun
import Verif.Spec.Separated
import Mathlib.Analysis.Normed.Module.FiniteDimension

/-! # Runs that start near separated phases -/

set_option linter.unusedSectionVars false

namespace Flory

open Spec Finset

variable {G : Type} {C S M : ℕ} [NeZero M] [NeZero S]

namespace Sep

variable {X : Mat C C ℝ} {l : Vec C ℝ} {J₀ : Vec M ℝ} {φ₀ : Mat C M ℝ} {σ : Fin S → Fin C}

/-- The form decreases in passes near the phases. -/
theorem exists_near (hp : StablePhases X l J₀ φ₀) (hb : Balanced X l φ₀) {R : ℝ}
    (hR : ∀ i m, R < 4 * (J₀ m * l i)) :
    ∃ c₀ > 0, ∀ c, c₀ ≤ c → ∃ v > 0, (∀ w : Mat C M ℝ, v * ‖w‖ ^ 2 ≤ form X l J₀ φ₀ σ c w w) ∧
    ∀ ρ, 0 < ρ → ρ ≤ R → ∃ a₀ > 0, ∀ a, 0 < a → a ≤ a₀ → a ≤ 1 ∧ ∃ q, 0 < q ∧ q < 1 ∧ ∃ L > 0, ∃ δ > 0,
      ∀ w J, Conserving J₀ φ₀ w (J - J₀) → ‖w‖ ≤ δ → ‖J - J₀‖ ≤ δ →
        form X l J₀ φ₀ σ c (devNext X l σ a (ρ * a) c J₀ φ₀ (w, J))
          (devNext X l σ a (ρ * a) c J₀ φ₀ (w, J)) ≤ q ^ 2 * form X l J₀ φ₀ σ c w w ∧
        ‖volNext X l σ (ρ * a) c J₀ φ₀ (w, J)‖ ≤ L * ‖w‖ := by
  have hκ : ∃ κ > 0, (∀ i m, κ ≤ J₀ m * l i) ∧ R < 4 * κ := by
    rcases isEmpty_or_nonempty (Fin C × Fin M) with h | h
    · have h1 := hp.sum 0
      rw [sum_eq_zero fun i _ => h.elim (i, 0)] at h1
      exact absurd h1 zero_ne_one
    · obtain ⟨a, ha⟩ := Finite.exists_min fun a : Fin C × Fin M => J₀ a.2 * l a.1
      exact ⟨J₀ a.2 * l a.1, mul_pos (hp.vol _) (hp.size _), fun i m => ha (i, m), hR _ _⟩
  obtain ⟨κ, hκ0, hκ1, hκ2⟩ := hκ
  obtain ⟨c₀, hc₀, h⟩ := form_decrease (σ := σ) hp hκ0 hκ1 hκ2
  refine ⟨c₀, hc₀, fun c hc => ?_⟩
  obtain ⟨v, hv, hco, h⟩ := h c hc
  refine ⟨v, hv, hco, fun ρ hρ hρR => ?_⟩
  obtain ⟨a₀, ha₀, γ, hγ, h⟩ := h ρ hρ hρR
  refine ⟨min (min a₀ 1) (1 / γ), by positivity, fun a ha haa => ?_⟩
  have ha0 : a ≤ a₀ := haa.trans ((min_le_left _ _).trans (min_le_left _ _))
  have ha1 : a ≤ 1 := haa.trans ((min_le_left _ _).trans (min_le_right _ _))
  have hγa : γ * a ≤ 1 := by
    have := haa.trans (min_le_right _ _)
    rw [le_div_iff₀ hγ] at this
    linarith
  have hγa0 : 0 < γ * a := mul_pos hγ ha
  obtain ⟨n, hn, hJn⟩ := exists_lower J₀ hp.vol
  have hz : ∀ y : Vec M ℝ, ‖y - J₀‖ < n → devNext X l σ a (ρ * a) c J₀ φ₀ (0, y) = 0 := fun y hy => by
    refine devNext_zero a (ρ * a) c hp hb fun m => ?_
    have := (norm_le_pi_norm (y - J₀) m).trans_lt hy
    rw [Real.norm_eq_abs, Pi.sub_apply, abs_lt] at this
    linarith [this.1, hJn m]
  have hS1 := (devNext_contDiffAt (σ := σ) a (ρ * a) c hp hb).hasStrictFDerivAt one_ne_zero
  have hS2 := (volNext_contDiffAt (σ := σ) (ρ * a) c hp).hasStrictFDerivAt one_ne_zero
  set D := fderiv ℝ (devNext X l σ a (ρ * a) c J₀ φ₀) (0, J₀) with hD
  have hDw : ∀ w, D (w, 0) = w - a • dphi X l J₀ φ₀ σ ρ c w := fun w => by
    have h1 := devNext_line (σ := σ) a (ρ * a) c hp hb rfl w
    have hl : HasDerivAt (fun t : ℝ => ((t • w, J₀) : Mat C M ℝ × Vec M ℝ)) (w, 0) 0 := by
      have e1 : HasDerivAt (fun t : ℝ => t • w) w 0 := by
        simpa using (hasDerivAt_id (0 : ℝ)).smul_const w
      exact e1.prodMk (hasDerivAt_const (0 : ℝ) J₀)
    have h2 : HasFDerivAt (devNext X l σ a (ρ * a) c J₀ φ₀) D ((fun t : ℝ => (t • w, J₀)) 0) := by
      simpa using hS1.hasFDerivAt
    have h3 := h2.comp_hasDerivAt (0 : ℝ) hl
    exact h3.unique h1
  obtain ⟨δ₁, hδ₁, h1⟩ := strict_decrease hS1 hn hz (Q := fun w => form X l J₀ φ₀ σ c w w)
    (by unfold form hess avg tot hess; fun_prop) (fun t w => form_smul hp w c t) hv hγa0 hco
    (K := {w | ∃ j, Conserving J₀ φ₀ w j}) (fun w ⟨j, hj⟩ => by
      rw [hDw]
      exact h a ha ha0 w j hj)
  obtain ⟨L, hL, δ₂, hδ₂, h2⟩ := strict_lipschitz hS2 one_pos
    fun y _ => volNext_zero (σ := σ) (ρ * a) c hp hb y
  have hq2 : √(1 - γ * a / 2) ^ 2 = 1 - γ * a / 2 := Real.sq_sqrt (by linarith)
  refine ⟨ha1, √(1 - γ * a / 2), Real.sqrt_pos.mpr (by linarith), ?_, L, hL, min δ₁ δ₂, lt_min hδ₁ hδ₂,
    fun w J hc hw hJ => ⟨?_, h2 w J (hw.trans (min_le_right _ _)) (hJ.trans (min_le_right _ _))⟩⟩
  · rw [Real.sqrt_lt' one_pos]
    linarith
  · rw [hq2]
    exact h1 w ⟨_, hc⟩ J (hw.trans (min_le_left _ _)) (hJ.trans (min_le_left _ _))

/-- Independent phases determine the volumes. -/
theorem exists_volume_bound (hi : IndependentPhases φ₀) :
    ∃ K > 0, ∀ (w : Mat C M ℝ) (j : Vec M ℝ), Conserving J₀ φ₀ w j → ‖j‖ ≤ K * ‖w‖ := by
  let T : Vec M ℝ →ₗ[ℝ] Vec C ℝ :=
    { toFun := fun y i => ∑ m, y m * φ₀ i m
      map_add' := fun y z => by funext i; simp [add_mul, sum_add_distrib]
      map_smul' := fun t y => by funext i; simp [mul_sum, mul_assoc] }
  have hker : T.ker = ⊥ := by
    rw [LinearMap.ker_eq_bot']
    exact fun y hy => hi y fun i => congrFun hy i
  obtain ⟨K, hK, hT⟩ := T.exists_antilipschitzWith hker
  refine ⟨K * (∑ m, |J₀ m| + 1), by positivity, fun w j hc => ?_⟩
  have h1 : ‖j‖ ≤ K * ‖T j‖ := by
    have := hT.le_mul_dist j 0
    simpa using this
  have h2 : ‖T j‖ ≤ (∑ m, |J₀ m| + 1) * ‖w‖ := by
    refine (pi_norm_le_iff_of_nonneg (by positivity)).mpr fun i => ?_
    have e : T j i = -∑ m, J₀ m * w i m := by
      have := hc.2 i
      show ∑ m, j m * φ₀ i m = _
      linarith
    rw [e, norm_neg, Real.norm_eq_abs]
    refine (abs_sum_le_sum_abs _ _).trans ?_
    calc ∑ m, |J₀ m * w i m| ≤ ∑ m, |J₀ m| * ‖w‖ := by
          refine sum_le_sum fun m _ => ?_
          rw [abs_mul]
          exact mul_le_mul_of_nonneg_left (norm_entry w i m) (abs_nonneg _)
      _ = (∑ m, |J₀ m|) * ‖w‖ := by rw [sum_mul]
      _ ≤ _ := by
          refine mul_le_mul_of_nonneg_right ?_ (norm_nonneg _)
          linarith
  calc ‖j‖ ≤ K * ‖T j‖ := h1
    _ ≤ K * ((∑ m, |J₀ m| + 1) * ‖w‖) := mul_le_mul_of_nonneg_left h2 K.2
    _ = _ := by ring

end Sep

theorem frac_close {x f y d κ κ' U : ℝ} (hx : 0 < x) (hf0 : 0 ≤ f) (hf1 : f ≤ 1) (hy : |y - 1| ≤ κ * U)
    (hd : |d - x| ≤ κ' * U) (hU : κ' * U ≤ x / 2) : |x * f * y / d - f| ≤ (2 * κ + 2 * κ' / x) * U := by
  have hd0 : x / 2 ≤ d := by linarith [(abs_le.mp hd).1]
  have hdp : 0 < d := by linarith
  have e : x * f * y / d - f = f * (x * (y - 1) - (d - x)) / d := by
    field_simp
    ring
  have h1 : |x * (y - 1) - (d - x)| ≤ x * (κ * U) + κ' * U := by
    refine (abs_sub _ _).trans (add_le_add ?_ hd)
    rw [abs_mul, abs_of_pos hx]
    exact mul_le_mul_of_nonneg_left hy hx.le
  have h0 : 0 ≤ x * (κ * U) + κ' * U := (abs_nonneg _).trans h1
  rw [e, abs_div, abs_mul, abs_of_nonneg hf0, abs_of_pos hdp, div_le_iff₀ hdp]
  calc f * |x * (y - 1) - (d - x)| ≤ 1 * (x * (κ * U) + κ' * U) :=
        mul_le_mul hf1 h1 (abs_nonneg _) one_pos.le
    _ = (2 * κ + 2 * κ' / x) * U * (x / 2) := by field_simp
    _ ≤ _ := by
        refine mul_le_mul_of_nonneg_left hd0 ?_
        have e2 : (2 * κ + 2 * κ' / x) * U = 2 * (x * (κ * U) + κ' * U) / x := by field_simp
        rw [e2]
        positivity

/-- Fractions of fields near those of an equilibrium. -/
theorem fracsOf_near {l : Vec C ℝ} (hl : ∀ i, 0 < l i) {x₀ : ℝ} (hx₀ : 0 < x₀) :
    ∃ B > 0, ∃ η > 0, ∀ (chis : Mat S S ℝ) (feat : Fin C → Fin S) (x : Vec C ℝ) (J₀ : Vec M ℝ)
      (φ₀ : Mat C M ℝ), (∀ m, 0 < J₀ m) → Coexistence chis feat l x J₀ φ₀ → (∀ i, x₀ ≤ x i) →
      ∀ (J : Vec M ℝ) (om : Mat S M ℝ) (shift : Vec S ℝ) (U : ℝ), 0 ≤ U → U ≤ η →
      (∀ m, |J m - J₀ m| ≤ U) →
      (∀ r m, |om r m - (equilibriumField chis feat l (fun j => φ₀ j m) r + shift r)| ≤ U) →
      ∀ i m, |fracsOf feat l x J om i m - φ₀ i m| ≤ B * U := by
  have hM : (0 : ℝ) < M := by exact_mod_cast Nat.pos_of_ne_zero (NeZero.ne M)
  set κ := ∑ i, l i * Real.exp (l i) with hκ
  have hκi : ∀ i, l i * Real.exp (l i) ≤ κ := fun i =>
    single_le_sum (f := fun i => l i * Real.exp (l i)) (fun j _ => (mul_pos (hl j) (Real.exp_pos _)).le)
      (mem_univ i)
  have hκ0 : 0 ≤ κ := sum_nonneg fun i _ => (mul_pos (hl i) (Real.exp_pos _)).le
  clear_value κ
  refine ⟨2 * κ + 2 * (1 + 2 * κ) / x₀, by positivity, min 1 (x₀ / (2 * (1 + 2 * κ))), by positivity,
    fun chis feat x J₀ φ₀ hJ₀ hc hxl J om shift U hU0 hUη hJ hom i m => ?_⟩
  have hx : ∀ i, 0 < x i := fun i => hx₀.trans_le (hxl i)
  have hφ1 : ∀ i m, φ₀ i m ≤ 1 := fun i m => by
    rw [← hc.incompressible m]
    exact single_le_sum (f := fun i => φ₀ i m) (fun j _ => (hc.pos j m).le) (mem_univ i)
  obtain ⟨mu, hmu⟩ := hc.balance
  have hU1 : U ≤ 1 := hUη.trans (min_le_left _ _)
  have hUx : (1 + 2 * κ) * U ≤ x i / 2 := by
    have h1 := hUη.trans (min_le_right _ _)
    rw [le_div_iff₀ (by positivity)] at h1
    linarith [hxl i]
  set u : Fin M → ℝ := fun n =>
    om (feat i) n - (equilibriumField chis feat l (fun j => φ₀ j n) (feat i) + shift (feat i)) with hu
  have hui : ∀ n, |u n| ≤ U := fun n => hom _ _
  set y : Fin M → ℝ := fun n => Real.exp (-(l i * u n)) with hy
  have hyi : ∀ n, |y n - 1| ≤ κ * U := fun n =>
    (exp_near (hl i).le (hui n) hU1).trans (mul_le_mul_of_nonneg_right (hκi i) hU0)
  set Z := Real.exp (-(l i * (mu i + shift (feat i))) + 1) with hZ
  have hZ0 : Z ≠ 0 := (Real.exp_pos _).ne'
  have hli := (hl i).ne'
  have he : ∀ n, Real.exp (-om (feat i) n * l i) = Z * φ₀ i n * y n := fun n => by
    have h1 := hmu i n
    unfold chemPot at h1
    have h2 : equilibriumField chis feat l (fun j => φ₀ j n) (feat i) =
        mu i - (Real.log (φ₀ i n) + 1) / l i := by
      unfold equilibriumField
      linarith
    have h3 : -om (feat i) n * l i = (-(l i * (mu i + shift (feat i))) + 1) + Real.log (φ₀ i n) +
        -(l i * u n) := by
      simp only [hu, h2]
      field_simp
      ring
    rw [h3, Real.exp_add, Real.exp_add, Real.exp_log (hc.pos i n)]
  set d := ∑ n, J n / M * (φ₀ i n * y n) with hd
  have hQ : partitionFn feat l (fun m => J m / M) om i = Z * d := by
    unfold partitionFn
    rw [hd, mul_sum]
    refine sum_congr rfl fun n _ => ?_
    rw [he]
    ring
  have hfr : fracsOf feat l x J om i m = x i * φ₀ i m * y m / d := by
    show x i / partitionFn feat l (fun m => J m / M) om i * Real.exp (-om (feat i) m * l i) = _
    rw [hQ, he]
    rcases eq_or_ne d 0 with h0 | h0
    · rw [h0]; simp
    · field_simp
  have hdx : |d - x i| ≤ (1 + 2 * κ) * U := by
    have e1 : d - x i = (∑ n, φ₀ i n * (J n * y n - J₀ n)) / M := by
      have h1 : x i = (∑ n, J₀ n * φ₀ i n) / M := by
        rw [hc.mean]
        field_simp
      rw [h1, hd, sum_div, sum_div, ← sum_sub_distrib]
      exact sum_congr rfl fun n _ => by ring
    rw [e1, abs_div, abs_of_pos hM, div_le_iff₀ hM]
    have h2 : ∀ n, |φ₀ i n * (J n * y n - J₀ n)| ≤ U * (1 + κ) + J₀ n * (κ * U) := fun n => by
      rw [abs_mul, abs_of_pos (hc.pos i n)]
      have h3 : |J n * y n - J₀ n| ≤ U * (1 + κ) + J₀ n * (κ * U) := by
        have e2 : J n * y n - J₀ n = (J n - J₀ n) * y n + J₀ n * (y n - 1) := by ring
        rw [e2]
        refine (abs_add_le _ _).trans (add_le_add ?_ ?_)
        · rw [abs_mul]
          refine mul_le_mul (hJ n) ?_ (abs_nonneg _) hU0
          have h4 := abs_le.mp (hyi n)
          have h5 : κ * U ≤ κ := mul_le_of_le_one_right hκ0 hU1
          rw [abs_of_pos (Real.exp_pos _)]
          linarith [h4.2]
        · rw [abs_mul, abs_of_pos (hJ₀ n)]
          exact mul_le_mul_of_nonneg_left (hyi n) (hJ₀ n).le
      calc _ ≤ 1 * |J n * y n - J₀ n| := mul_le_mul_of_nonneg_right (hφ1 i n) (abs_nonneg _)
        _ ≤ _ := by rw [one_mul]; exact h3
    refine (abs_sum_le_sum_abs _ _).trans ((sum_le_sum fun n _ => h2 n).trans ?_)
    rw [sum_add_distrib, ← sum_mul univ J₀, hc.volumes]
    simp
    linarith
  rw [hfr]
  refine (frac_close (hx i) (hc.pos i m).le (hφ1 i m) (hyi m) hdx hUx).trans ?_
  refine mul_le_mul_of_nonneg_right ?_ hU0
  have : 2 * (1 + 2 * κ) / x i ≤ 2 * (1 + 2 * κ) / x₀ :=
    div_le_div_of_nonneg_left (by positivity) hx₀ (hxl i)
  linarith

variable {ia : FHCompiled S ℝ} {es : CanonicalC C ℝ} {l : Vec C ℝ} {feat : Fin C → Fin S}
  {σ : Fin S → Fin C} {J₀ : Vec M ℝ} {φ₀ : Mat C M ℝ}

theorem run_separated {e : RunEnv C S M ℝ G} {Q : Mat C M ℝ → ℝ} {v δ L A X β q D E θ : ℝ}
    (hd : SepData ia.chis feat l σ ia.coef J₀ φ₀ e.params Q v δ L A X β q D E θ)
    (hu : SepSetup ia es feat l σ J₀ φ₀ e) (hthr : 0 ≤ e.params.killThreshold) {st : State C S M ℝ G}
    (hs : SepPlace feat l es.phiMeans J₀ φ₀ Q v L β q D 0 st)
    (hlag : SepLag ia.chis feat l es.phiMeans E θ 0 st) {maxSteps : ℚ} {tol : ℝ} {interval b : ℤ}
    {f : RunState C S M ℝ G} {ph : Phases M C ℝ} {d : Diagnostics ℝ}
    (h : runImpl e maxSteps tol interval st b = (f, .ok (ph, d))) :
    d.reviveCountLeft = b ∧ d.maxAbsIncomp ≤ A * (β * q ^ (d.steps - 1)) ∧
    d.maxAbsJsDiff ≤ A * (β * q ^ (d.steps - 1)) ∧
    d.maxAbsOmegaDiff ≤ E * θ ^ (d.steps - 1) + A * (β * q ^ (d.steps - 1)) ∧
    d.maxConstraintResidue = 0 ∧
    (∀ m i, |ph.fractions m i - φ₀ i m| ≤ A * (β * q ^ (d.steps - 1))) ∧ ph.volumes = f.st.Js ∧
    SepPlace feat l es.phiMeans J₀ φ₀ Q v L β q D d.steps f.st ∧
    SepLag ia.chis feat l es.phiMeans E θ d.steps f.st ∧
    ∃ t, SepLast ia es feat l J₀ φ₀ e Q v L β q D t ∧ d.maxAbsIncomp = t.maxAbsIncomp ∧
      d.maxAbsOmegaDiff = t.maxAbsOmegaDiff ∧ d.maxAbsJsDiff = t.maxAbsJsDiff ∧ f.st.Js = t.Js ∧
      f.st.omegas = t.omegas ∧ ∀ m i, ph.fractions m i = t.phisComp i m := by
  obtain ⟨tr, inner, ts, t, cp, a1, a2, hf⟩ := run_facts hthr h
  obtain ⟨s₀, b₀, c1, c2, c3, c4⟩ := hf.chain.last
  obtain ⟨k1, k2, k3⟩ := c1.separated hd hu hs hlag
  obtain ⟨l1, l2, l3, l4⟩ := c2.separated hd hu k2 k3
  have hal : ∀ m, e.params.killThreshold < t.Js m := fun m => l3.alive hd m
  obtain ⟨li, n, hc⟩ := reviveByCopy_all_alive (rng := e.rng) (T := t.phisComp) (g := t.g) hthr hal
  obtain rfl := Except.ok.inj (hf.copy.symm.trans hc)
  have hst : 0 + ts.length * inner + inner = d.steps := by rw [hf.diag]; ring
  rw [hst] at l1 l3 l4
  refine ⟨?_, ?_, ?_, ?_, ?_, fun m i => ?_, ?_, ?_, ?_, t, c2.separated_last hd hu k2 k3,
    congrArg Diagnostics.maxAbsIncomp hf.diag, congrArg Diagnostics.maxAbsOmegaDiff hf.diag,
    congrArg Diagnostics.maxAbsJsDiff hf.diag, by rw [hf.arrays]; rfl, by rw [hf.arrays]; rfl,
    fun m i => by rw [hf.fractions]⟩
  · rw [hf.diag]
    show f.reviveLeft = b
    rw [c4, k1, l2]; simp
  · exact (congrArg Diagnostics.maxAbsIncomp hf.diag).trans_le l1.incomp
  · exact (congrArg Diagnostics.maxAbsJsDiff hf.diag).trans_le l1.jsDiff
  · exact (congrArg Diagnostics.maxAbsOmegaDiff hf.diag).trans_le l1.omegaDiff
  · rw [hf.diag]; exact l1.residue
  · rw [hf.fractions]; exact l1.phis i m
  · rw [hf.volumes, hf.arrays]; rfl
  · rw [hf.arrays]
    exact ⟨l3.volumes, l3.drift, l3.form, l3.cons⟩
  · rw [hf.arrays]
    exact l4

theorem lag_le {chis : Mat S S ℝ} {feat : Fin C → Fin S} {φ : Mat C M ℝ} {om : Mat S M ℝ} {V : ℝ}
    {m : Fin M} (h : ∀ r, |∑ j, chis r (feat j) * φ j m - om r m| ≤ V) (r : Fin S) :
    |lag chis feat φ om r m| ≤ 2 * V := by
  have hS : (0 : ℝ) < S := by exact_mod_cast Fin.pos r
  have h1 : |(∑ q, (∑ j, chis q (feat j) * φ j m - om q m)) / S| ≤ V := by
    rw [abs_div, abs_of_pos hS, div_le_iff₀ hS]
    refine (abs_sum_le_sum_abs _ _).trans ((sum_le_sum fun q _ => h q).trans ?_)
    simp [mul_comm]
  unfold lag
  refine (abs_sub _ _).trans ?_
  linarith [h r]

/-- What separated phases have in common with nearby ones. -/
structure SepSpot (ia : FHCompiled S ℝ) (feat : Fin C → Fin S) (l : Vec C ℝ) (σ : Fin S → Fin C)
    (J₀ : Vec M ℝ) (φ₀ : Mat C M ℝ) (p : Params ℝ) (Q : Mat C M ℝ → ℝ) (v Lf δ L q n X c ε : ℝ) : Prop where
  coercive : ∀ w, v * ‖w‖ ^ 2 ≤ Q w
  upper : ∀ w, Q w ≤ Lf * ‖w‖ ^ 2
  near : ∀ w J, Sep.Conserving J₀ φ₀ w (J - J₀) → ‖w‖ ≤ δ → ‖J - J₀‖ ≤ δ →
    Q (Sep.devNext (fun i j => ia.chis (feat i) (feat j)) l σ p.acceptanceOmega p.acceptanceJs ia.coef J₀ φ₀
      (w, J)) ≤ q ^ 2 * Q w ∧
    ‖Sep.volNext (fun i j => ia.chis (feat i) (feat j)) l σ p.acceptanceJs ia.coef J₀ φ₀ (w, J)‖ ≤ L * ‖w‖
  vol : ∀ m, n ≤ J₀ m
  kill : ∀ m, n ≤ J₀ m - p.killThreshold
  X_ge : ∀ r, ∑ j, |ia.chis r (feat j)| ≤ X
  c_ge : |ia.coef| ≤ c
  gap : ∀ w w', Q w' ≤ q ^ 2 * Q w → ε * ‖w‖ ≤ ‖w' - w‖
  small : ∀ i m, φ₀ i m ≤ 1

/-- What a run that starts near separated phases returns. -/
structure SepResult (ia : FHCompiled S ℝ) (es : CanonicalC C ℝ) (feat : Fin C → Fin S) (l : Vec C ℝ)
    (J₀ : Vec M ℝ) (φ₀ : Mat C M ℝ) (tol B U q Λ θ : ℝ) (b : ℤ) (f : RunState C S M ℝ G) (ph : Phases M C ℝ)
    (d : Diagnostics ℝ) : Prop where
  revive : d.reviveCountLeft = b
  incomp : d.maxAbsIncomp < tol
  omegaDiff : d.maxAbsOmegaDiff < tol
  jsDiff : d.maxAbsJsDiff < tol
  residue : d.maxConstraintResidue = 0
  fractions : ∀ m i, |ph.fractions m i - φ₀ i m| ≤ B * U * q ^ d.steps
  phVolumes : ph.volumes = f.st.Js
  volumes : ∑ m, f.st.Js m = M
  drift : ∀ m, |f.st.Js m - J₀ m| ≤ B * U
  dev : ‖devOf J₀ φ₀ f.st.Js (fracsOf feat l es.phiMeans f.st.Js f.st.omegas)‖ ≤ B * U * q ^ d.steps
  conserving : Sep.Conserving J₀ φ₀ (devOf J₀ φ₀ f.st.Js (fracsOf feat l es.phiMeans f.st.Js f.st.omegas))
    (f.st.Js - J₀)
  lag : ∀ r m, |lag ia.chis feat (fracsOf feat l es.phiMeans f.st.Js f.st.omegas) f.st.omegas r m| ≤
    (Λ + B * U) * θ ^ d.steps
  cons : ∀ k ∈ f.st.cons, k.Trivial
  fractionsTol : ∀ m i, |ph.fractions m i - φ₀ i m| ≤ B * tol
  devTol : ‖devOf J₀ φ₀ f.st.Js (fracsOf feat l es.phiMeans f.st.Js f.st.omegas)‖ ≤ B * tol
  lagTol : ∀ r m, |Flory.lag ia.chis feat (fracsOf feat l es.phiMeans f.st.Js f.st.omegas) f.st.omegas r m| ≤ B * tol

/-- Runs that start near separated phases, with bounds that only depend on the constants. -/
theorem separated_core {l : Vec C ℝ} (hl : ∀ i, 0 < l i) {p : Params ℝ} {v Lf δ₁ L q n X c ε θ : ℝ} (hε : 0 < ε) (hv : 0 < v) (hLf : 0 < Lf) (hδ₁ : 0 < δ₁)
    (hL : 0 < L) (hq0 : 0 < q) (hq1 : q < 1) (hn0 : 0 < n) (hX : 0 ≤ X) (hc : 0 ≤ c)
    (ha : 0 < p.acceptanceOmega) (ha1 : p.acceptanceOmega ≤ 1) (hbJ : 0 < p.acceptanceJs)
    (hb : 0 < p.JsStepUpperBound) (hθ : θ = max q (1 - p.acceptanceOmega / 2)) :
    ∃ η > 0, ∃ B > 0, ∀ Λ, 0 ≤ Λ → ∃ K > 0, ∀ tol > 0, ∃ N : ℕ, LogSteps K tol N ∧
    ∀ (ia : FHCompiled S ℝ) (es : CanonicalC C ℝ) (feat : Fin C → Fin S) (σ : Fin S → Fin C)
      (J₀ : Vec M ℝ) (φ₀ : Mat C M ℝ) (Q : Mat C M ℝ → ℝ), SepSpot ia feat l σ J₀ φ₀ p Q v Lf δ₁ L q n X c ε →
    ∀ (e : RunEnv C S M ℝ G), SepSetup ia es feat l σ J₀ φ₀ e → e.params = p → e.rng.Ok →
      0 ≤ p.killThreshold → p.killThreshold < 1 → 2 * p.killThreshold * ((M : ℝ) - 1) < 1 →
      e.criterion = "standard" → ∀ (st : State C S M ℝ G) (U : ℝ), 0 ≤ U → U ≤ η → ∑ m, st.Js m = M →
      (∀ m, |st.Js m - J₀ m| ≤ U) →
      (∀ i m, |fracsOf feat l es.phiMeans st.Js st.omegas i m - φ₀ i m| ≤ U) →
      (∀ r m, |lag ia.chis feat (fracsOf feat l es.phiMeans st.Js st.omegas) st.omegas r m| ≤ Λ) →
      (∀ k ∈ st.cons, k.Trivial) → ∀ (maxSteps : ℚ) (interval b : ℤ), N ≤ maxSteps → 0 < interval →
      ∃ f ph d, runImpl e maxSteps tol interval st b = (f, .ok (ph, d)) ∧
        SepResult ia es feat l J₀ φ₀ tol B U q Λ θ b f ph d := by
  set δ := min δ₁ (n / 2) with hδ
  have hδ0 : 0 < δ := by positivity
  have hδ1 : δ ≤ δ₁ := min_le_left _ _
  have hδ2 : δ ≤ n / 2 := min_le_right _ _
  set A₀ := √(Lf / v) * 2 with hA₀
  have hsq : √(Lf / v) ^ 2 = Lf / v := Real.sq_sqrt (by positivity)
  have hA₀0 : 0 < A₀ := by
    have : 0 < √(Lf / v) := Real.sqrt_pos.mpr (by positivity)
    positivity
  have hA₀2 : v * A₀ ^ 2 = Lf * 2 ^ 2 := by
    rw [hA₀, mul_pow, hsq]
    field_simp
  have hq1' : 0 < 1 - q := by linarith
  set A := 2 + 2 * (C : ℝ) + 2 * L / p.acceptanceJs + c * (2 * C) with hA
  have hA2 : 0 ≤ 2 * L / p.acceptanceJs := by positivity
  have hA3 : 0 ≤ c * (2 * C) := by positivity
  have hC0 : (0 : ℝ) ≤ C := Nat.cast_nonneg C
  have hA0 : 0 < A := by rw [hA]; positivity
  set T := 1 + A₀ + L * A₀ / (1 - q) + 2 * L * A₀ with hT
  have hTp1 : 0 ≤ L * A₀ / (1 - q) := by positivity
  have hTp2 : 0 ≤ 2 * L * A₀ := by positivity
  have hT0 : 0 < T := by rw [hT]; positivity
  set a := p.acceptanceOmega with hadef
  clear_value A₀ A T δ
  set η := min δ p.JsStepUpperBound / T with hη
  have hη0 : 0 < η := by positivity
  have hXa : 0 ≤ 16 * X * A₀ / a := by positivity
  obtain ⟨B', hB', hacc⟩ := sep_accuracy (G := G) (S := S) (M := M) hl (p := p) hn0 hδ0 hX hc hε hbJ
  refine ⟨η, hη0, A * A₀ / q + (1 + L * A₀ / (1 - q)) + A₀ + 16 * X * A₀ / a + B', by positivity,
    fun Λ hΛ => ?_⟩
  have hθ1 : θ < 1 := hθ ▸ max_lt hq1 (by linarith)
  have hθq : q ≤ θ := hθ ▸ le_max_left _ _
  have hθ0 : 0 ≤ θ := hq0.le.trans hθq
  obtain ⟨K, hK, hlog⟩ := exists_logSteps
    (show 0 < (Λ + 16 * X * A₀ / a * η) + A * (A₀ * η) + 1 by positivity) hθ0 hθ1
  refine ⟨K, hK, fun tol htol => ?_⟩
  obtain ⟨n', hn', hlog⟩ := hlog tol htol
  refine ⟨2 * (n' + 1), hlog, fun ia es feat σ J₀ φ₀ Q hsp e hu hep hok hthr hthr1 hthr2 hstd st U hU0 hUη
    hvol hJU hfU hlag0 hcons maxSteps interval b hN hint => ?_⟩
  subst hep
  have hTU : T * U ≤ min δ e.params.JsStepUpperBound := by
    have := hUη
    rw [hη, le_div_iff₀ hT0] at this
    linarith
  have hTU1 : T * U ≤ δ := hTU.trans (min_le_left _ _)
  have hTU2 : T * U ≤ e.params.JsStepUpperBound := hTU.trans (min_le_right _ _)
  have g1 : U ≤ T * U := le_mul_of_one_le_left hU0 (by rw [hT]; linarith)
  have g2 : A₀ * U ≤ T * U := mul_le_mul_of_nonneg_right (by rw [hT]; linarith) hU0
  have g3 : (1 + L * A₀ / (1 - q)) * U ≤ T * U := mul_le_mul_of_nonneg_right (by rw [hT]; linarith) hU0
  have g4 : 2 * L * A₀ * U ≤ T * U := mul_le_mul_of_nonneg_right (by rw [hT]; linarith) hU0
  set β := A₀ * U with hβ
  have hβ0 : 0 ≤ β := mul_nonneg hA₀0.le hU0
  have hβη : β ≤ A₀ * η := mul_le_mul_of_nonneg_left hUη hA₀0.le
  set E := Λ + 16 * X * A₀ / a * U with hE
  have hE0 : 0 ≤ E := by positivity
  have hEη : E ≤ Λ + 16 * X * A₀ / a * η := by
    have := mul_le_mul_of_nonneg_left hUη hXa
    linarith
  have hn : θ ^ n' < tol / (E + A * β + 1) := by
    refine hn'.trans_le (div_le_div_of_nonneg_left htol.le (by positivity) ?_)
    have := mul_le_mul_of_nonneg_left hβη hA0.le
    linarith
  set φ := fracsOf feat l es.phiMeans st.Js st.omegas with hφ
  have hcA : |ia.coef| * (2 * C) ≤ c * (2 * C) := mul_le_mul_of_nonneg_right hsp.c_ge (by positivity)
  have hJ₀ : ∀ m, 0 < J₀ m := fun m => hn0.trans_le (hsp.vol m)
  have hd : SepData ia.chis feat l σ ia.coef J₀ φ₀ e.params Q v δ L A X β q U E θ := by
    refine ⟨hv, hsp.coercive, fun w J h1 h2 h3 => hsp.near w J h1 (h2.trans hδ1) (h3.trans hδ1), hL,
      fun m => by linarith [hsp.vol m], fun m => by linarith [hsp.kill m], hδ0, hβ0, by linarith, hU0, ?_,
      hq0.le, hq1, ?_, ha, ha1, hbJ, hθq, hθ ▸ le_max_right _ _, hsp.X_ge, ?_, ?_, ?_, ?_, ?_⟩
    · calc U + L * β / (1 - q) = (1 + L * A₀ / (1 - q)) * U := by rw [hβ]; ring
        _ ≤ δ := g3.trans hTU1
    · calc 2 * L * β = 2 * L * A₀ * U := by rw [hβ]; ring
        _ ≤ _ := g4.trans hTU2
    · have e1 : 16 * X * β = a * (16 * X * A₀ / a * U) := by
        rw [hβ]
        field_simp
      rw [e1]
      exact mul_le_mul_of_nonneg_left (by rw [hE]; linarith) ha.le
    all_goals (rw [hA]; linarith)
  have hplace : SepPlace feat l es.phiMeans J₀ φ₀ Q v L β q U 0 st := by
    refine ⟨hvol, ?_, ?_, hcons⟩
    · simp only [range_zero, sum_empty, mul_zero, add_zero]
      exact (pi_norm_le_iff_of_nonneg hU0).mpr hJU
    · have hdev : ‖devOf J₀ φ₀ st.Js φ‖ ≤ 2 * U := by
        refine (pi_norm_le_iff_of_nonneg (by positivity)).mpr fun i =>
          (pi_norm_le_iff_of_nonneg (by positivity)).mpr fun m => ?_
        have h2 : |st.Js m / J₀ m| ≤ 2 := by
          rw [abs_div, abs_of_pos (hJ₀ m), div_le_iff₀ (hJ₀ m)]
          have h3 := abs_le.mp (hJU m)
          have h4 := hsp.vol m
          rw [abs_le]
          constructor <;> linarith [h3.1, h3.2]
        unfold devOf
        rw [Real.norm_eq_abs, abs_mul]
        exact mul_le_mul h2 (hfU i m) (abs_nonneg _) two_pos.le
      calc _ ≤ Lf * ‖devOf J₀ φ₀ st.Js φ‖ ^ 2 := hsp.upper _
        _ ≤ Lf * (2 * U) ^ 2 := by gcongr
        _ = (Lf * 2 ^ 2) * U ^ 2 := by ring
        _ = _ := by rw [← hA₀2, hβ]; ring
  have hlag : SepLag ia.chis feat l es.phiMeans E θ 0 st := by
    intro r m
    rw [pow_zero, mul_one]
    refine (hlag0 r m).trans ?_
    have : 0 ≤ 16 * X * A₀ / a * U := mul_nonneg hXa hU0
    linarith
  have hpos : 0 < maxSteps := by
    refine lt_of_lt_of_le ?_ hN
    exact_mod_cast (by omega : 0 < 2 * (n' + 1))
  have hprop : ∀ k ∈ st.cons, k.Proper := by
    intro k hk
    have := hcons k hk
    cases k with
    | no c => trivial
    | loc A c => exact this.elim
    | glob A c => exact this.elim
  obtain ⟨f, ph, d, h⟩ := run_ok (e := e) hok hu.gas (hu.ensemble ▸ es.total) hthr hthr1 hthr2 hb hstd (tol := tol)
    (maxSteps := maxSteps) (interval := interval) hpos hint st b hprop
    (Or.inl ⟨0, hplace.alive hd 0⟩)
  obtain ⟨r1, r2, r3, r4, r5, r6, r7, r8, r9, t, r10, u1, u2, u3, u4, u5, u6⟩ := run_separated hd hu hthr hplace hlag h
  obtain ⟨hsteps0, hlong⟩ := run_long hthr hN hint h
  have hqs : q ^ (d.steps - 1) = q ^ d.steps / q := by
    rw [eq_div_iff hq0.ne', ← pow_succ, Nat.sub_add_cancel hsteps0]
  have herr : d.maxAbsIncomp < tol ∧ d.maxAbsOmegaDiff < tol ∧ d.maxAbsJsDiff < tol := by
    rcases hlong with hnd | hmet
    · have hlt2 := decay_lt hq0.le hθq hθ1 hE0 hA0.le hβ0 hnd hn
      have hE' : 0 ≤ E * θ ^ (d.steps - 1) := mul_nonneg hE0 (pow_nonneg hθ0 _)
      exact ⟨by linarith, by linarith, by linarith⟩
    · exact hmet
  have hqd : 0 ≤ q ^ d.steps := pow_nonneg hq0.le _
  have hAA : 0 ≤ A * A₀ / q := by positivity
  obtain ⟨k, count, tries, s, v1, v2, v3, v4⟩ := r10
  obtain ⟨w1, w2, w3⟩ := hacc ia es feat σ J₀ φ₀ Q v L A β q U E θ k count tries e.en e.rng s t tol hd hsp.vol
    hsp.c_ge hu.means hsp.small hsp.gap v1 v2 v3 v4 (u1 ▸ herr.1.le) (u2 ▸ herr.2.1.le) (u3 ▸ herr.2.2.le)
  have hBB : B' * tol ≤ (A * A₀ / q + (1 + L * A₀ / (1 - q)) + A₀ + 16 * X * A₀ / a + B') * tol := by
    refine mul_le_mul_of_nonneg_right ?_ htol.le
    have : 0 ≤ L * A₀ / (1 - q) := hTp1
    linarith
  refine ⟨f, ph, d, h, r1, herr.1, herr.2.1, herr.2.2, r5, fun m i => (r6 m i).trans ?_, r7, r8.volumes,
    fun m => ?_, (r8.dev_le hd).trans ?_, r8.conserving hd hu.volumes hu.mean, fun r m => (r9 r m).trans ?_,
    r8.cons, fun m i => by rw [u6]; exact (w1 i m).trans hBB, by rw [u4, u5]; exact w2.trans hBB,
    fun r m => by rw [u4, u5]; exact (w3 r m).trans hBB⟩
  · rw [hqs]
    have e1 : A * (β * (q ^ d.steps / q)) = A * A₀ / q * U * q ^ d.steps := by rw [hβ]; ring
    rw [e1]
    refine mul_le_mul_of_nonneg_right (mul_le_mul_of_nonneg_right ?_ hU0) hqd
    linarith
  · have hentry : |f.st.Js m - J₀ m| ≤ ‖f.st.Js - J₀‖ := norm_le_pi_norm (f.st.Js - J₀) m
    refine (hentry.trans r8.drift).trans ?_
    have h1 : U + L * β * ∑ j ∈ range d.steps, q ^ j ≤ (1 + L * A₀ / (1 - q)) * U := by
      have := mul_le_mul_of_nonneg_left (geom_le hq0.le hq1 d.steps) (mul_nonneg hL.le hβ0)
      calc _ ≤ U + L * β * (1 / (1 - q)) := by linarith
        _ = _ := by rw [hβ]; ring
    refine h1.trans (mul_le_mul_of_nonneg_right ?_ hU0)
    linarith
  · have e1 : β * q ^ d.steps = A₀ * U * q ^ d.steps := by rw [hβ]
    rw [e1]
    refine mul_le_mul_of_nonneg_right (mul_le_mul_of_nonneg_right ?_ hU0) hqd
    linarith
  · refine mul_le_mul_of_nonneg_right ?_ (pow_nonneg hθ0 _)
    rw [hE]
    have : 16 * X * A₀ / a * U ≤ (A * A₀ / q + (1 + L * A₀ / (1 - q)) + A₀ + 16 * X * A₀ / a + B') * U :=
      mul_le_mul_of_nonneg_right (by linarith) hU0
    linarith

/-- Fields near those of an equilibrium lag behind by a bounded amount. -/
theorem lag_near {chis : Mat S S ℝ} {feat : Fin C → Fin S} {x : Vec C ℝ} {φ : Mat C M ℝ} {om : Mat S M ℝ}
    {X B U W : ℝ} {shift : Vec S ℝ} (hc : Coexistence chis feat l x J₀ φ₀) (hB : 0 ≤ B)
    (hXr : ∀ r, ∑ j, |chis r (feat j)| ≤ X) (hfr : ∀ i m, |φ i m - φ₀ i m| ≤ B)
    (hW : ∀ r m, |equilibriumField chis feat l (fun j => φ₀ j m) r| + |shift r| ≤ W)
    (hsh : ∀ r m, |om r m - (equilibriumField chis feat l (fun j => φ₀ j m) r + shift r)| ≤ U)
    (r : Fin S) (m : Fin M) : |lag chis feat φ om r m| ≤ 2 * (X * (1 + B) + W + U) := by
  have hφ1 : ∀ i m, |φ i m| ≤ 1 + B := fun i m => by
    have h1 := hfr i m
    have h2 : |φ₀ i m| ≤ 1 := by
      rw [abs_of_pos (hc.pos i m), ← hc.incompressible m]
      exact single_le_sum (f := fun i => φ₀ i m) (fun j _ => (hc.pos j m).le) (mem_univ i)
    have h3 := abs_add_le (φ i m - φ₀ i m) (φ₀ i m)
    rw [sub_add_cancel] at h3
    linarith
  refine lag_le (fun r => ?_) r
  have h1 : |∑ j, chis r (feat j) * φ j m| ≤ X * (1 + B) := by
    refine (abs_sum_le_sum_abs _ _).trans ?_
    calc _ ≤ ∑ j, |chis r (feat j)| * (1 + B) := by
          refine sum_le_sum fun j _ => ?_
          rw [abs_mul]
          exact mul_le_mul_of_nonneg_left (hφ1 j m) (abs_nonneg _)
      _ = (∑ j, |chis r (feat j)|) * (1 + B) := by rw [sum_mul]
      _ ≤ _ := mul_le_mul_of_nonneg_right (hXr r) (by positivity)
  have h2 := hW r m
  have h3 := abs_sub (∑ j, chis r (feat j) * φ j m) (om r m)
  have h4 := abs_add_le (om r m - (equilibriumField chis feat l (fun j => φ₀ j m) r + shift r))
    (equilibriumField chis feat l (fun j => φ₀ j m) r + shift r)
  rw [sub_add_cancel] at h4
  have h5 := abs_add_le (equilibriumField chis feat l (fun j => φ₀ j m) r) (shift r)
  linarith [hsh r m]

theorem converges_to_phases {chis : Mat S S ℝ} (hsym : ∀ r q, chis r q = chis q r) (hl : ∀ i, 0 < l i)
    (hσ : ∀ r, feat (σ r) = r) (hJ₀ : ∀ m, 0 < J₀ m) (hc : Coexistence chis feat l es.phiMeans J₀ φ₀)
    (hstab : ∀ m, StablePhase chis feat l fun i => φ₀ i m) {R : ℝ}
    (hR : ∀ i m, R < 4 * (J₀ m * l i)) :
    ∃ c₀ > 0, ∀ ia : FHCompiled S ℝ, ia.chis = chis → c₀ ≤ ia.coef →
      ConvergesToPhases G ia es l feat J₀ φ₀ R := by
  have hM : (0 : ℝ) < M := by exact_mod_cast Nat.pos_of_ne_zero (NeZero.ne M)
  have hp : StablePhases (fun i j => chis (feat i) (feat j)) l J₀ φ₀ :=
    ⟨fun i j => hsym _ _, hl, hJ₀, hc.pos, hc.incompressible, fun m z hz hz0 => hstab m z hz hz0⟩
  have hbal : Sep.Balanced (fun i j => chis (feat i) (feat j)) l φ₀ := by
    obtain ⟨mu, hmu⟩ := hc.balance
    refine ⟨fun i => mu i - 1 / l i, fun i m => ?_⟩
    have h1 := hmu i m
    unfold chemPot at h1
    unfold Sep.pot
    rw [add_div] at h1
    linarith
  have hx : ∀ i, 0 < es.phiMeans i := fun i => by
    have h1 := hc.mean i
    have h2 : 0 < ∑ m, J₀ m * φ₀ i m := sum_pos (fun m _ => mul_pos (hJ₀ m) (hc.pos i m)) univ_nonempty
    rw [h1] at h2
    exact (mul_pos_iff_of_pos_left hM).mp h2
  obtain ⟨x₀, hx₀, hxl⟩ := Sep.exists_lower es.phiMeans hx
  obtain ⟨c₀, hc₀, hnear⟩ := Sep.exists_near (σ := σ) hp hbal hR
  refine ⟨c₀, hc₀, fun ia hia hcoef ρ hρ hρR => ?_⟩
  subst hia
  obtain ⟨v, hv, hco, hnear⟩ := hnear ia.coef hcoef
  obtain ⟨a₀, ha₀, hnear⟩ := hnear ρ hρ hρR
  refine ⟨a₀, ha₀, fun e hok hthr hthr1 hthr2 hkill hb hstd hiae hen hes ha haa hJs => ?_⟩
  set a := e.params.acceptanceOmega with hadef
  obtain ⟨ha1, q, hq0, hq1, L, hL, δ₁, hδ₁, hnear⟩ := hnear a ha haa
  rw [← hJs] at hnear
  have hu : SepSetup ia es feat l σ J₀ φ₀ e :=
    ⟨hl, hx, hσ, hc.volumes, hc.mean, hc.incompressible, hb, hen, hiae, hes⟩
  obtain ⟨n₁, hn₁, hJn⟩ := Sep.exists_lower J₀ hJ₀
  obtain ⟨n₂, hn₂, hkn⟩ := Sep.exists_lower (fun m => J₀ m - e.params.killThreshold)
    fun m => sub_pos.mpr (hkill m)
  obtain ⟨Lf, hLf, hform⟩ := exists_form_le (E := Mat C M ℝ)
    (f := fun w => Sep.form (fun i j => ia.chis (feat i) (feat j)) l J₀ φ₀ σ ia.coef w w)
    (by unfold Sep.form Sep.hess Sep.avg Sep.tot Sep.hess; fun_prop) (fun t w => Sep.form_smul hp w ia.coef t)
  obtain ⟨ε, hε, hgap⟩ := form_gap (V := Mat C M ℝ)
    (Q := fun w => Sep.form (fun i j => ia.chis (feat i) (feat j)) l J₀ φ₀ σ ia.coef w w)
    (by unfold Sep.form Sep.hess Sep.avg Sep.tot Sep.hess; fun_prop) (fun t w => Sep.form_smul hp w ia.coef t)
    hv hco hq0.le hq1
  obtain ⟨B₁, hB₁, η₁, hη₁, hfr⟩ := fracsOf_near (S := S) (M := M) hl hx₀
  replace hfr := hfr ia.chis feat es.phiMeans J₀ φ₀ hJ₀ hc hxl
  have hK : ∃ K > 0, IndependentPhases φ₀ → ∀ (w : Mat C M ℝ) (j : Vec M ℝ), Sep.Conserving J₀ φ₀ w j →
      ‖j‖ ≤ K * ‖w‖ := by
    by_cases hi : IndependentPhases φ₀
    · obtain ⟨K, hK, h⟩ := Sep.exists_volume_bound (J₀ := J₀) hi
      exact ⟨K, hK, fun _ => h⟩
    · exact ⟨1, one_pos, fun h => absurd h hi⟩
  obtain ⟨K, hK0, hK⟩ := hK
  set X := ∑ r, ∑ j, |ia.chis r (feat j)| with hX
  have hXr : ∀ r, ∑ j, |ia.chis r (feat j)| ≤ X := fun r =>
    single_le_sum (f := fun r => ∑ j, |ia.chis r (feat j)|) (fun r _ => sum_nonneg fun j _ => abs_nonneg _)
      (mem_univ r)
  have hX0 : 0 ≤ X := hX ▸ sum_nonneg fun r _ => sum_nonneg fun j _ => abs_nonneg _
  have hbJ : 0 < e.params.acceptanceJs := by rw [hJs]; positivity
  obtain ⟨η, hη, B, hB, hcore⟩ := separated_core (G := G) (C := C) (S := S) (M := M) hl (p := e.params) hε hv hLf hδ₁ hL
    hq0 hq1 (lt_min hn₁ hn₂) hX0 (abs_nonneg ia.coef) ha ha1 hbJ hb rfl
  have hφ1 : ∀ i m, φ₀ i m ≤ 1 := fun i m => by
    rw [← hc.incompressible m]
    exact single_le_sum (f := fun i => φ₀ i m) (fun j _ => (hc.pos j m).le) (mem_univ i)
  have hsp : SepSpot ia feat l σ J₀ φ₀ e.params
      (fun w => Sep.form (fun i j => ia.chis (feat i) (feat j)) l J₀ φ₀ σ ia.coef w w) v Lf δ₁ L q (min n₁ n₂)
      X |ia.coef| ε :=
    ⟨hco, fun w => (le_abs_self _).trans (hform w), hnear, fun m => (min_le_left _ _).trans (hJn m),
      fun m => (min_le_right _ _).trans (hkn m), hXr, le_rfl, hgap, hφ1⟩
  set B₂ := B₁ + 1 with hB₂
  have hB₂0 : 0 < B₂ := by positivity
  refine ⟨min η₁ (η / B₂), by positivity, B * B₂ + K * (B * B₂) + B, by positivity, q, hq0, hq1,
    fun shift => ?_⟩
  set W := ∑ r, ∑ m, |equilibriumField ia.chis feat l (fun j => φ₀ j m) r| + ∑ r, |shift r| with hW
  have hWr : ∀ r m, |equilibriumField ia.chis feat l (fun j => φ₀ j m) r| + |shift r| ≤ W := fun r m => by
    refine add_le_add ?_ (single_le_sum (f := fun r => |shift r|) (fun _ _ => abs_nonneg _) (mem_univ r))
    refine le_trans ?_ (single_le_sum
      (f := fun r => ∑ m, |equilibriumField ia.chis feat l (fun j => φ₀ j m) r|)
      (fun r _ => sum_nonneg fun m _ => abs_nonneg _) (mem_univ r))
    exact single_le_sum (f := fun m => |equilibriumField ia.chis feat l (fun j => φ₀ j m) r|)
      (fun m _ => abs_nonneg _) (mem_univ m)
  have hW0 : 0 ≤ W := by positivity
  obtain ⟨K', hK', hrun⟩ := hcore (2 * (X * (1 + B₁ * η₁) + W + η₁)) (by positivity)
  refine ⟨K', hK', fun tol htol => ?_⟩
  obtain ⟨N, hN0, hrun⟩ := hrun tol htol
  refine ⟨N, hN0, fun st U hU0 hUη hvol hJU hsh hcons maxSteps interval b hN hint => ?_⟩
  have hU1 : U ≤ η₁ := hUη.trans (min_le_left _ _)
  have hU2 : B₂ * U ≤ η := by
    have := hUη.trans (min_le_right _ _)
    rw [le_div_iff₀ hB₂0] at this
    linarith
  have hfU := hfr st.Js st.omegas shift U hU0 hU1 hJU hsh
  have hBU : 0 ≤ B₁ * U := mul_nonneg hB₁.le hU0
  obtain ⟨f, ph, d, h, hres⟩ := hrun ia es feat σ J₀ φ₀ _ hsp e hu rfl hok hthr hthr1 hthr2 hstd st (B₂ * U)
    (by positivity) hU2 hvol (fun m => (hJU m).trans (by rw [hB₂]; linarith))
    (fun i m => (hfU i m).trans (by rw [hB₂]; linarith))
    (fun r m => by
      have h1 := lag_near hc (by positivity : 0 ≤ B₁ * η₁) hXr
        (fun i m => (hfU i m).trans (mul_le_mul_of_nonneg_left hU1 hB₁.le)) hWr hsh r m
      linarith) hcons maxSteps interval b hN hint
  have hqd : 0 ≤ q ^ d.steps := pow_nonneg hq0.le _
  refine ⟨f, ph, d, h, hres.revive, hres.incomp, hres.omegaDiff, hres.jsDiff, hres.residue,
    fun m i => (hres.fractions m i).trans ?_, fun m i => (hres.fractionsTol m i).trans ?_, fun m => ?_,
    fun hi m => ?_⟩
  · rw [← mul_assoc B]
    refine mul_le_mul_of_nonneg_right (mul_le_mul_of_nonneg_right ?_ hU0) hqd
    have : 0 ≤ K * (B * B₂) := by positivity
    linarith
  · refine mul_le_mul_of_nonneg_right ?_ htol.le
    have : 0 ≤ K * (B * B₂) := by positivity
    have : 0 ≤ B * B₂ := by positivity
    linarith
  · rw [hres.phVolumes]
    refine (hres.drift m).trans ?_
    rw [← mul_assoc B]
    refine mul_le_mul_of_nonneg_right ?_ hU0
    have : 0 ≤ K * (B * B₂) := by positivity
    linarith
  · rw [hres.phVolumes]
    have h1 : |f.st.Js m - J₀ m| ≤ ‖f.st.Js - J₀‖ := norm_le_pi_norm (f.st.Js - J₀) m
    refine (h1.trans ((hK hi _ _ hres.conserving).trans (mul_le_mul_of_nonneg_left hres.dev hK0.le))).trans ?_
    have e1 : K * (B * (B₂ * U) * q ^ d.steps) = K * (B * B₂) * U * q ^ d.steps := by ring
    rw [e1]
    refine mul_le_mul_of_nonneg_right (mul_le_mul_of_nonneg_right ?_ hU0) hqd
    have : 0 ≤ B * B₂ := by positivity
    linarith

end Flory
