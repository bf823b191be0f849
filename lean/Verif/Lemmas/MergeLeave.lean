import Verif.Lemmas.MergeRun

/-! # Runs that start near an unstable homogeneous state -/

set_option linter.unusedSectionVars false

namespace Flory

open Spec Topology

variable {G : Type} {C S : ℕ} {ia : FHCompiled S ℝ} {es : CanonicalC C ℝ} {l : Vec C ℝ}
  {feat : Fin C → Fin S}

theorem exists_log_near (hl : ∀ i, 0 < l i) {x : Vec C ℝ} (hx : ∀ i, 0 < x i) {b : ℝ} (hb : 0 < b) :
    ∃ ε > 0, ε < b ∧ ∀ i y, |y - x i| ≤ ε → 0 < y ∧ |Real.log y - Real.log (x i)| ≤ l i / 2 := by
  have key : ∀ i, ∃ δ > 0, ∀ y, |y - x i| < δ → 0 < y ∧ |Real.log y - Real.log (x i)| ≤ l i / 2 := by
    intro i
    have h1 : ∀ᶠ y in 𝓝 (x i), 0 < y := lt_mem_nhds (hx i)
    have h2 : ∀ᶠ y in 𝓝 (x i), dist (Real.log y) (Real.log (x i)) < l i / 2 :=
      (Real.continuousAt_log (hx i).ne').eventually (Metric.ball_mem_nhds _ (half_pos (hl i)))
    obtain ⟨δ, hδ, h⟩ := Metric.eventually_nhds_iff.mp (h1.and h2)
    exact ⟨δ, hδ, fun y hy => ⟨(h hy).1, by rw [← Real.dist_eq]; exact (h hy).2.le⟩⟩
  choose δ hδ h using key
  have h3 : ∀ᶠ ε in 𝓝[>] (0 : ℝ), ∀ i, ε < δ i := Filter.eventually_all.mpr fun i =>
    nhdsWithin_le_nhds (gt_mem_nhds (hδ i))
  have h4 : ∀ᶠ ε in 𝓝[>] (0 : ℝ), ε < b := nhdsWithin_le_nhds (gt_mem_nhds hb)
  obtain ⟨ε, h5, h6, h7⟩ := (h3.and (h4.and self_mem_nhdsWithin)).exists
  exact ⟨ε, h7, h6, fun i y hy => h i y (hy.trans_lt (h5 i))⟩

/-- Compartments whose fractions are near the means have similar fields. -/
theorem IterFacts.fields_near {M : ℕ} [NeZero M] {en : EntropyI C S M ℝ} {rng : Rng G ℝ} {p : Params ℝ}
    {tries : ℤ} {count : ℕ} {s : State C S M ℝ G} {t : Trace C S M ℝ G}
    (h : IterFacts (ia.toI M) en (es.toI M) rng p tries count s t) (hen : IsIdealGas en l feat)
    (hl : ∀ i, 0 < l i) (hal : ∀ m, p.killThreshold < s.Js m) {x : Vec C ℝ}
    (hnear : ∀ i m, 0 < t.phisComp i m ∧ |Real.log (t.phisComp i m) - Real.log (x i)| ≤ l i / 2)
    (hfeat : Function.Surjective feat) (r : Fin S) (m n : Fin M) :
    |s.omegas r m - s.omegas r n| ≤ 1 := by
  obtain ⟨hmk, hJ, hom, -, hn⟩ := h.masks_one hal
  have hes : Scales (es.toI M) fun Qs i => es.phiMeans i / Qs i := es.scales
  obtain ⟨i, rfl⟩ := hfeat r
  have hphi : ∀ m, t.phisComp i m = es.phiMeans i / t.Qs i * Real.exp (-s.omegas (feat i) m * l i) :=
    fun m => by rw [h.phis_eq hen hes, hmk, mul_one, hom]
  have hc : es.phiMeans i / t.Qs i ≠ 0 := by
    intro h0
    have := (hnear i 0).1
    rw [hphi, h0, zero_mul] at this
    exact lt_irrefl _ this
  have hlog : ∀ m, Real.log (t.phisComp i m) =
      Real.log (es.phiMeans i / t.Qs i) + -s.omegas (feat i) m * l i := fun m => by
    rw [hphi, Real.log_mul hc (Real.exp_pos _).ne', Real.log_exp]
  have h1 := (hnear i m).2
  have h2 := (hnear i n).2
  have h3 : |l i * (s.omegas (feat i) m - s.omegas (feat i) n)| ≤ l i * 1 := by
    rw [hlog] at h1 h2
    rw [abs_le] at *
    constructor <;> linarith [h1.1, h1.2, h2.1, h2.2]
  rw [abs_mul, abs_of_pos (hl i)] at h3
  exact le_of_mul_le_mul_left h3 (hl i)

/-- One pass of the growth argument. -/
theorem leave_pass {M : ℕ} [NeZero M] {en : EntropyI C S M ℝ} {rng : Rng G ℝ} {p : Params ℝ}
    {tries : ℤ} {count : ℕ} {s : State C S M ℝ G} {t : Trace C S M ℝ G} {W : Mat S S ℝ}
    {ε ε₁ a₁ c₂ L A : ℝ}
    (h : IterFacts (ia.toI M) en (es.toI M) rng p tries count s t) (hen : IsIdealGas en l feat)
    (hl : ∀ i, 0 < l i) (hx : ∀ i, 0 < es.phiMeans i) (hthr : 0 ≤ p.killThreshold)
    (hb : 0 < p.JsStepUpperBound) (hal : ∀ m, p.killThreshold < s.Js m) (hvol : ∑ m, s.Js m = M)
    (hcons : ∀ k ∈ s.cons, k.Trivial) (hA : NearBound ia es en rng p feat A)
    (hlog : ∀ i y, |y - es.phiMeans i| ≤ ε → 0 < y ∧ |Real.log y - Real.log (es.phiMeans i)| ≤ l i / 2)
    (hε0 : 0 ≤ ε) (hε : (∑ i, l i) * ε ≤ ε₁) (hfeat : Function.Surjective feat)
    (hdec : ∀ d, (∀ r, |d r - loads l feat es.phiMeans r| ≤ ε₁) → ∀ a, 0 ≤ a → a ≤ a₁ → ∀ u,
      quad W (u - a • response ia.chis ia.coef d u) ≤ quad W u - a * c₂ * sumSq u)
    (hc₂ : 0 < c₂) (hL : 0 < L) (hLq : ∀ u, |quad W u| ≤ L * sumSq u)
    (ha : 0 < p.acceptanceOmega) (ha1 : p.acceptanceOmega ≤ a₁)
    (hnear : ∀ i m, |t.phisComp i m - es.phiMeans i| ≤ ε) (m n : Fin M) :
    -quad W (fun r => s.omegas r m - s.omegas r n) ≤ L * S ∧
    quad W (fun r => t.omegas r m - t.omegas r n) ≤
      (1 + p.JsStepUpperBound / max (A * |p.acceptanceJs|) p.JsStepUpperBound * p.acceptanceOmega * c₂ / L) *
        quad W (fun r => s.omegas r m - s.omegas r n) := by
  obtain ⟨hmk, hJ, hom, -, hn⟩ := h.masks_one hal
  have hes : Scales (es.toI M) fun Qs i => es.phiMeans i / Qs i := es.scales
  have hfld := h.fields_near hen hl hal (fun i m => hlog i _ (hnear i m)) hfeat
  have hN := hA h hal hvol hcons hfld zero_le_one le_rfl
  set u : Vec S ℝ := fun r => s.omegas r m - s.omegas r n with hu
  have hLu := (abs_le.mp (hLq u)).1
  constructor
  · have h1 : sumSq u ≤ S := by
      unfold sumSq
      refine (Finset.sum_le_sum (g := fun _ => (1 : ℝ)) fun r _ => ?_).trans (by simp)
      have := abs_le.mp (hfld r m n)
      show (s.omegas r m - s.omegas r n) ^ 2 ≤ 1
      nlinarith [this.1, this.2]
    have := mul_le_mul_of_nonneg_left h1 hL.le
    linarith
  have hmax : t.maxAbsJsDiff ≤ A := by
    rw [h.maxAbsJsDiff]
    obtain ⟨m, hm⟩ := npMax_mem fun m => |t.JsDiff m|
    rw [hm]
    simpa using hN.jsDiff m
  have hmax0 : 0 ≤ t.maxAbsJsDiff := by
    rw [h.maxAbsJsDiff]
    obtain ⟨m, hm⟩ := npMax_mem fun m => |t.JsDiff m|
    rw [hm]; exact abs_nonneg _
  set f₀ := p.JsStepUpperBound / max (A * |p.acceptanceJs|) p.JsStepUpperBound with hf₀
  have hf₀0 : 0 < f₀ := div_pos hb (lt_of_lt_of_le hb (le_max_right _ _))
  have hfac : f₀ ≤ t.factor := by
    rw [h.factor, hf₀]
    refine div_le_div_of_nonneg_left hb.le (lt_of_lt_of_le hb (le_max_right _ _)) (max_le_max ?_ le_rfl)
    calc t.maxAbsJsDiff * p.acceptanceJs ≤ t.maxAbsJsDiff * |p.acceptanceJs| :=
          mul_le_mul_of_nonneg_left (le_abs_self _) hmax0
      _ ≤ _ := mul_le_mul_of_nonneg_right hmax (abs_nonneg _)
  have hfac1 : t.factor ≤ 1 := (h.factor_le_one hb).2
  have hQ : ∀ i, 0 ≤ es.phiMeans i / t.Qs i := fun i => by
    refine div_nonneg (hx i).le ?_
    rw [h.Qs_eq hen, hJ]
    exact div_nonneg (Finset.sum_nonneg fun m _ => mul_nonneg (Real.exp_pos _).le (hthr.trans (hal m).le))
      (Finset.sum_nonneg fun m _ => hthr.trans (hal m).le)
  obtain ⟨psi, hp1, hp2⟩ := h.difference hen hes hQ hcons (hmk m) (hmk n)
  have hpsi : ∀ i, |psi i - es.phiMeans i| ≤ ε := fun i =>
    between_near (hp1 i).1 (hp1 i).2 (hnear i m) (hnear i n)
  have hload : ∀ r, |loads l feat psi r - loads l feat es.phiMeans r| ≤ ε₁ := fun r =>
    (loads_near hl hpsi hε0 r).trans hε
  have e1 : (fun r => t.omegas r m - t.omegas r n) = u -
      (t.factor * p.acceptanceOmega) • response ia.chis ia.coef (loads l feat psi) u := by
    funext r
    rw [hp2, hom]
    rfl
  rw [e1]
  have hstep := hdec _ hload (t.factor * p.acceptanceOmega) (mul_nonneg (hf₀0.le.trans hfac) ha.le)
    (by nlinarith) u
  have hs0 := sumSq_nonneg u
  have h5 : f₀ * p.acceptanceOmega * c₂ * sumSq u ≤ t.factor * p.acceptanceOmega * c₂ * sumSq u := by
    refine mul_le_mul_of_nonneg_right (mul_le_mul_of_nonneg_right
      (mul_le_mul_of_nonneg_right hfac ha.le) hc₂.le) hs0
  have h6 : -(f₀ * p.acceptanceOmega * c₂ * sumSq u) ≤ f₀ * p.acceptanceOmega * c₂ / L * quad W u := by
    have h7 : -(L * sumSq u) ≤ quad W u := hLu
    have h8 := mul_le_mul_of_nonneg_left h7 (show 0 ≤ f₀ * p.acceptanceOmega * c₂ / L by positivity)
    have h9 : f₀ * p.acceptanceOmega * c₂ / L * -(L * sumSq u) = -(f₀ * p.acceptanceOmega * c₂ * sumSq u) := by
      field_simp
    linarith
  linarith

theorem leaves_of_form (hl : ∀ i, 0 < l i) (hx : ∀ i, 0 < es.phiMeans i)
    (hsum : ∑ i, es.phiMeans i = 1) (hfeat : Function.Surjective feat) {W : Mat S S ℝ}
    (hW : ∃ u, quad W u < 0)
    (hF : ∀ u, u ≠ 0 → 0 < bil W u (response ia.chis ia.coef (loads l feat es.phiMeans) u) +
      bil W (response ia.chis ia.coef (loads l feat es.phiMeans) u) u) :
    LeavesMean G ia es l feat := by
  obtain ⟨L, hL, hLq⟩ := exists_quad_le W
  obtain ⟨ε₁, hε₁, a₁, ha₁, c₂, hc₂, hdec⟩ := exists_decrease W (response ia.chis ia.coef)
    (response_smul ia.chis ia.coef) (continuous_response ia.chis ia.coef) (loads l feat es.phiMeans) hF
  obtain ⟨u₀, hu₀⟩ := hW
  have hsl0 : 0 ≤ ∑ i, l i := Finset.sum_nonneg fun i _ => (hl i).le
  obtain ⟨ε, hε0, hεb, hlog⟩ := exists_log_near hl hx (b := ε₁ / (∑ i, l i + 1)) (by positivity)
  have hε : (∑ i, l i) * ε ≤ ε₁ := by
    rw [lt_div_iff₀ (by positivity)] at hεb
    nlinarith
  refine ⟨a₁, ha₁, ε, hε0, ?_⟩
  intro M _ e hM hok hthr hthr1 hb hia hen hes ha ha1 w η hη
  obtain ⟨A, hA0, hA⟩ := exists_near_bound (G := G) ia es M l feat hl (fun i => (hx i).le) hsum
  have hnb : NearBound ia es e.en e.rng e.params feat A := fun hf hal hvol hc hU h0 h1 =>
    hA hf hen hthr hal hvol hc hU h0 h1
  -- a small multiple of the unstable direction in one compartment
  set τ := η / (∑ r, |u₀ r| + 1) with hτ
  have hs0 : 0 ≤ ∑ r, |u₀ r| := Finset.sum_nonneg fun r _ => abs_nonneg _
  have hτ0 : 0 < τ := by positivity
  let n1 : Fin M := ⟨1, by omega⟩
  have hne : n1 ≠ (0 : Fin M) := by
    intro h0
    have := congrArg Fin.val h0
    simp [n1] at this
  refine ⟨fun r m => if m = 0 then w r + τ * u₀ r else w r, fun r m => ?_, ?_⟩
  · show |(if m = 0 then w r + τ * u₀ r else w r) - w r| ≤ η
    split
    · rw [add_sub_cancel_left, abs_mul, abs_of_pos hτ0, hτ]
      have : |u₀ r| ≤ ∑ r, |u₀ r| :=
        Finset.single_le_sum (f := fun r => |u₀ r|) (fun _ _ => abs_nonneg _) (Finset.mem_univ r)
      rw [div_mul_eq_mul_div, div_le_iff₀ (by positivity)]
      nlinarith
    · rw [sub_self, abs_zero]; exact hη.le
  set V₀ := quad W (τ • u₀) with hV₀
  have hV₀neg : V₀ < 0 := by
    rw [hV₀, quad_smul]
    exact mul_neg_of_pos_of_neg (by positivity) hu₀
  set g := 1 + e.params.JsStepUpperBound / max (A * |e.params.acceptanceJs|) e.params.JsStepUpperBound *
    e.params.acceptanceOmega * c₂ / L with hg
  have hg1 : 1 < g := by
    have : 0 < e.params.JsStepUpperBound / max (A * |e.params.acceptanceJs|) e.params.JsStepUpperBound :=
      div_pos hb (lt_of_lt_of_le hb (le_max_right _ _))
    have : 0 < e.params.JsStepUpperBound / max (A * |e.params.acceptanceJs|) e.params.JsStepUpperBound *
      e.params.acceptanceOmega * c₂ / L := by positivity
    linarith
  obtain ⟨N, hN⟩ := pow_unbounded_of_one_lt (L * S / (-V₀)) hg1
  refine ⟨N + 1, fun b st hJ hom hcons => ?_⟩
  by_contra hcon
  push Not at hcon
  have hVst : quad W (fun r => st.omegas r 0 - st.omegas r n1) = V₀ := by
    rw [hV₀]
    congr 1
    funext r
    rw [hom]
    simp only [if_pos, if_neg hne]
    simp
  have hproper : ∀ {cs : List (Cons S M ℝ)}, (∀ k ∈ cs, k.Trivial) → ∀ k ∈ cs, k.Proper := by
    intro cs h k hk
    have := h k hk
    cases k with
    | no c => trivial
    | loc A c => exact this.elim
    | glob A c => exact this.elim
  -- one pass
  have one : ∀ (k count : ℕ) (s : State C S M ℝ G) (t : Trace C S M ℝ G),
      (∀ m, e.params.killThreshold < s.Js m) → ∑ m, s.Js m = M → (∀ c ∈ s.cons, c.Trivial) →
      quad W (fun r => s.omegas r 0 - s.omegas r n1) ≤ g ^ k * V₀ →
      iterate e.ia e.en e.es e.rng e.params b count s = .ok t →
      (∀ i m, |t.phisComp i m - es.phiMeans i| ≤ ε) →
      -(g ^ k * V₀) ≤ L * S ∧ ∑ m, t.Js m = M ∧ (∀ c ∈ t.cons, c.Trivial) ∧
      quad W (fun r => t.omegas r 0 - t.omegas r n1) ≤ g ^ (k + 1) * V₀ := by
    intro k count s t hal hvol hc hV hit hnear
    rw [hia, hes] at hit
    have hf := iterate_facts hit
    obtain ⟨r1, r2⟩ := leave_pass hf hen hl hx hthr hb hal hvol hc hnb hlog hε0.le hε hfeat hdec hc₂ hL
      hLq ha ha1 hnear 0 n1
    refine ⟨by linarith, ?_, ?_, ?_⟩
    · rw [hf.sum_Js, (hf.masks_one hal).2.2.2.2]
    · exact (hf.cons_inv Cons.Trivial (fun c pf J mk h => h.prepare pf J mk)
        (fun c step mk res c' h he => h.evolve he) hc).2
    · refine r2.trans ?_
      have := mul_le_mul_of_nonneg_left hV (show 0 ≤ g by linarith)
      calc _ ≤ g * (g ^ k * V₀) := this
        _ = _ := by ring
  have all : ∀ k : ℕ, k ≤ N → ∃ t, Passes e b (k + 1) 0 st t ∧ -(g ^ k * V₀) ≤ L * S ∧
      ∑ m, t.Js m = M ∧ (∀ c ∈ t.cons, c.Trivial) ∧
      quad W (fun r => t.omegas r 0 - t.omegas r n1) ≤ g ^ (k + 1) * V₀ := by
    intro k
    induction k with
    | zero =>
      intro _
      obtain ⟨t, ht, -⟩ := iterate_ok (ia := e.ia) (tries := b) (count := 0) (s := st) hok hen (hes ▸ es.total)
        hthr hthr1 hb (hproper hcons) (Or.inl ⟨0, by rw [hJ]; exact hthr1⟩)
      have hp : Passes e b 1 0 st t := .one ht
      exact ⟨t, hp, one 0 0 st t (fun m => by rw [hJ]; exact hthr1) (by simp [hJ]) hcons
        (by rw [hVst]; simp) ht fun i m => (hcon 1 t (by omega) hp m).2 i⟩
    | succ k ih =>
      intro hk
      obtain ⟨t, hp, -, i2, i3, i4⟩ := ih (by omega)
      have hal : ∀ m, e.params.killThreshold < t.Js m := fun m => (hcon (k + 1) t (by omega) hp m).1
      obtain ⟨t', ht', -⟩ := iterate_ok (ia := e.ia) (tries := b) (count := t.reviveCount) (s := t.state) hok
        hen (hes ▸ es.total) hthr hthr1 hb (hproper i3) (Or.inl ⟨0, hal 0⟩)
      have hp' : Passes e b (k + 1 + 1) 0 st t' := hp.more ht'
      exact ⟨t', hp', one (k + 1) _ t.state t' hal i2 i3 i4 ht' fun i m => (hcon _ t' (by omega) hp' m).2 i⟩
  obtain ⟨-, -, h1, -⟩ := all N le_rfl
  rw [div_lt_iff₀ (by linarith)] at hN
  linarith

end Flory
