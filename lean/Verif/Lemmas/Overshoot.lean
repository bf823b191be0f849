import Verif.Lemmas.Contraction
import Verif.Spec.Overshoot

/-! # Step sizes at which differences between compartments decay or grow -/

set_option linter.unusedSectionVars false

namespace Flory

open Spec Topology

variable {G : Type} {C S : ℕ} {ia : FHCompiled S ℝ} {es : CanonicalC C ℝ} {l : Vec C ℝ}
  {feat : Fin C → Fin S}

/-- The matrix of `response`. -/
def responseMat {K : Type} [Field K] (chis : Fin S → Fin S → K) (kap : K) (d : Fin S → K) :
    Matrix (Fin S) (Fin S) K :=
  Matrix.of fun r s => ((if r = s then 1 else 0) + chis r s * d s)
    - (∑ q, ((if q = s then 1 else 0) + chis q s * d s)) / S + kap / S * d s

theorem responseMat_mulVec {K : Type} [Field K] (chis : Fin S → Fin S → K) (kap : K) (d u : Fin S → K)
    (r : Fin S) : (responseMat chis kap d).mulVec u r =
      (u r + ∑ s, chis r s * (d s * u s)) - (∑ q, (u q + ∑ s, chis q s * (d s * u s))) / S
        + kap / S * ∑ s, d s * u s := by
  have h1 : ∀ q, ∑ s, ((if q = s then 1 else 0) + chis q s * d s) * u s = u q + ∑ s, chis q s * (d s * u s) := by
    intro q
    simp [add_mul, Finset.sum_add_distrib, mul_assoc]
  have h2 : ∑ s, (∑ q, ((if q = s then 1 else 0) + chis q s * d s)) / S * u s =
      (∑ q, (u q + ∑ s, chis q s * (d s * u s))) / S := by
    simp only [← h1]
    rw [Finset.sum_comm, Finset.sum_div]
    refine Finset.sum_congr rfl fun s _ => ?_
    rw [← Finset.sum_mul]; ring
  have h3 : ∑ s, kap / S * d s * u s = kap / S * ∑ s, d s * u s := by
    rw [Finset.mul_sum]
    exact Finset.sum_congr rfl fun s _ => by ring
  rw [← h1, ← h2, ← h3, ← Finset.sum_sub_distrib, ← Finset.sum_add_distrib]
  simp only [Matrix.mulVec, dotProduct, responseMat, Matrix.of_apply]
  exact Finset.sum_congr rfl fun s _ => by ring

/-- The matrix that a pass applies to a small difference of fields. -/
noncomputable def stepMat (chis : Mat S S ℝ) (kap : ℝ) (d : Vec S ℝ) (a : ℝ) : Matrix (Fin S) (Fin S) ℝ :=
  1 - a • responseMat chis kap d

theorem stepMat_mulVec (chis : Mat S S ℝ) (kap : ℝ) (d : Vec S ℝ) (a : ℝ) (u : Vec S ℝ) :
    (stepMat chis kap d a).mulVec u = u - a • response chis kap d u := by
  rw [stepMat, Matrix.sub_mulVec, Matrix.one_mulVec, Matrix.smul_mulVec]
  congr 2
  funext r
  exact responseMat_mulVec _ _ _ _ _

theorem stepMat_map (chis : Mat S S ℝ) (kap : ℝ) (d : Vec S ℝ) (a : ℝ) :
    (stepMat chis kap d a).map Complex.ofReal =
      1 - (a : ℂ) • responseMat (fun r s => (chis r s : ℂ)) kap (fun s => (d s : ℂ)) := by
  ext r s
  have h1 : ∀ q : Fin S, ((if q = s then 1 else 0 : ℝ) : ℂ) = if q = s then 1 else 0 := fun q => by
    split_ifs <;> simp
  simp only [stepMat, responseMat, Matrix.map_apply, Matrix.sub_apply, Matrix.smul_apply, Matrix.of_apply,
    Matrix.one_apply, smul_eq_mul]
  push_cast
  simp only [h1]

/-- Modes are the eigenvectors of a pass. -/
theorem stepMat_mode {chis : Mat S S ℝ} {kap : ℝ} {d : Vec S ℝ} {a : ℝ} (ha : a ≠ 0) {ν : ℂ}
    {u : Fin S → ℂ} (hu : u ≠ 0) :
    ((stepMat chis kap d a).map Complex.ofReal).mulVec u = ν • u ↔ FieldMode chis kap d ((1 - ν) / a) u := by
  have ha' : (a : ℂ) ≠ 0 := Complex.ofReal_ne_zero.mpr ha
  rw [stepMat_map, Matrix.sub_mulVec, Matrix.one_mulVec, Matrix.smul_mulVec]
  unfold FieldMode
  rw [funext_iff, and_iff_right hu]
  refine forall_congr' fun r => ?_
  simp only [Pi.sub_apply, Pi.smul_apply, smul_eq_mul, responseMat_mulVec]
  rw [show (1 - ν) / (a : ℂ) * u r = (1 - ν) * u r / a by ring, eq_div_iff ha']
  constructor <;> intro h <;> linear_combination -h

theorem merges_of_modes {M : ℕ} [NeZero M] {e : RunEnv C S M ℝ G} (hl : ∀ i, 0 < l i)
    (hx : ∀ i, 0 ≤ es.phiMeans i) (hsum : ∑ i, es.phiMeans i = 1) (hok : e.rng.Ok)
    (hthr : 0 ≤ e.params.killThreshold)
    (hthr1 : e.params.killThreshold < 1) (hthr2 : 2 * e.params.killThreshold * ((M : ℝ) - 1) < 1)
    (hb : 0 < e.params.JsStepUpperBound) (hstd : e.criterion = "standard") (hia : e.ia = ia.toI M)
    (hen : IsIdealGas e.en l feat) (hes : e.es = es.toI M) (ha : 0 < e.params.acceptanceOmega)
    (ha1 : e.params.acceptanceOmega ≤ 1)
    (hmodes : ∀ μ u, FieldMode ia.chis ia.coef (loads l feat es.phiMeans) μ u →
      ‖1 - e.params.acceptanceOmega * μ‖ < 1) : Merges e es.phiMeans := by
  obtain ⟨W, hW, hdec⟩ := exists_form_of_spectrum
    (stepMat ia.chis ia.coef (loads l feat es.phiMeans) e.params.acceptanceOmega) fun ν u hu h => by
      have h1 := hmodes _ _ ((stepMat_mode ha.ne' hu).mp h)
      rwa [mul_div_cancel₀ _ (Complex.ofReal_ne_zero.mpr ha.ne'), sub_sub_cancel] at h1
  obtain ⟨ε, hε, q, hq0, hq1, hq⟩ := exists_contract W (response ia.chis ia.coef)
    (response_smul ia.chis ia.coef) (continuous_response ia.chis ia.coef) (loads l feat es.phiMeans)
    e.params.acceptanceOmega fun u hu => by rw [← stepMat_mulVec]; exact hdec u hu
  exact merges_of_contraction hl hx hsum hW hok hthr hthr1 hthr2 hb hstd hia hen hes ha ha1 hε hq0 hq1 hq

/-- Compartments whose fractions are near the means have fields that agree up to `U`. -/
theorem IterFacts.fields_close {M : ℕ} [NeZero M] {en : EntropyI C S M ℝ} {rng : Rng G ℝ} {p : Params ℝ}
    {tries : ℤ} {count : ℕ} {s : State C S M ℝ G} {t : Trace C S M ℝ G} {U : ℝ}
    (h : IterFacts (ia.toI M) en (es.toI M) rng p tries count s t) (hen : IsIdealGas en l feat)
    (hl : ∀ i, 0 < l i) (hal : ∀ m, p.killThreshold < s.Js m) {x : Vec C ℝ}
    (hnear : ∀ i m, 0 < t.phisComp i m ∧ |Real.log (t.phisComp i m) - Real.log (x i)| ≤ U * l i / 2)
    (hfeat : Function.Surjective feat) (r : Fin S) (m n : Fin M) :
    |s.omegas r m - s.omegas r n| ≤ U := by
  obtain ⟨hmk, hJ, hom, -, hn⟩ := h.masks_one hal
  have hes : Scales (es.toI M) fun Qs i => es.phiMeans i / Qs i := es.scales
  obtain ⟨i, rfl⟩ := hfeat r
  have hphi : ∀ m, t.phisComp i m = es.phiMeans i / t.Qs i * Real.exp (-s.omegas (feat i) m * l i) :=
    fun m => by rw [h.phis_eq hen hes, hmk, mul_one, hom]
  have hc : es.phiMeans i / t.Qs i ≠ 0 := by
    intro h0
    have := (hnear i 0).1
    rw [hphi, h0, zero_mul] at this
    exact lt_irrefl _ this
  have hlog : ∀ m, Real.log (t.phisComp i m) =
      Real.log (es.phiMeans i / t.Qs i) + -s.omegas (feat i) m * l i := fun m => by
    rw [hphi, Real.log_mul hc (Real.exp_pos _).ne', Real.log_exp]
  have h1 := (hnear i m).2
  have h2 := (hnear i n).2
  have h3 : |l i * (s.omegas (feat i) m - s.omegas (feat i) n)| ≤ l i * U := by
    rw [hlog] at h1 h2
    rw [abs_le] at *
    constructor <;> linarith [h1.1, h1.2, h2.1, h2.2]
  rw [abs_mul, abs_of_pos (hl i)] at h3
  exact le_of_mul_le_mul_left h3 (hl i)

/-- One pass of the growth argument at full step size. -/
theorem growth_pass {M : ℕ} [NeZero M] {en : EntropyI C S M ℝ} {rng : Rng G ℝ} {p : Params ℝ}
    {tries : ℤ} {count : ℕ} {s : State C S M ℝ G} {t : Trace C S M ℝ G} {W : Mat S S ℝ}
    {ε ε₁ g L A U : ℝ}
    (h : IterFacts (ia.toI M) en (es.toI M) rng p tries count s t) (hen : IsIdealGas en l feat)
    (hl : ∀ i, 0 < l i) (hx : ∀ i, 0 < es.phiMeans i) (hthr : 0 ≤ p.killThreshold)
    (hb : 0 < p.JsStepUpperBound) (hal : ∀ m, p.killThreshold < s.Js m) (hvol : ∑ m, s.Js m = M)
    (hcons : ∀ k ∈ s.cons, k.Trivial) (hA : NearBound ia es en rng p feat A)
    (hU0 : 0 ≤ U) (hU1 : U ≤ 1) (hUb : A * U * |p.acceptanceJs| ≤ p.JsStepUpperBound)
    (hlog : ∀ i y, |y - es.phiMeans i| ≤ ε → 0 < y ∧ |Real.log y - Real.log (es.phiMeans i)| ≤ U * l i / 2)
    (hε0 : 0 ≤ ε) (hε : (∑ i, l i) * ε ≤ ε₁) (hfeat : Function.Surjective feat)
    (hgr : ∀ d, (∀ r, |d r - loads l feat es.phiMeans r| ≤ ε₁) → ∀ u,
      quad W (u - p.acceptanceOmega • response ia.chis ia.coef d u) ≤ g * quad W u)
    (hL : 0 < L) (hLq : ∀ u, |quad W u| ≤ L * sumSq u)
    (hnear : ∀ i m, |t.phisComp i m - es.phiMeans i| ≤ ε) (m n : Fin M) :
    -quad W (fun r => s.omegas r m - s.omegas r n) ≤ L * S ∧
    quad W (fun r => t.omegas r m - t.omegas r n) ≤ g * quad W (fun r => s.omegas r m - s.omegas r n) := by
  obtain ⟨hmk, hJ, hom, -, hn⟩ := h.masks_one hal
  have hes : Scales (es.toI M) fun Qs i => es.phiMeans i / Qs i := es.scales
  have hfld := h.fields_close hen hl hal (fun i m => hlog i _ (hnear i m)) hfeat
  have hN := hA h hal hvol hcons hfld hU0 hU1
  set u : Vec S ℝ := fun r => s.omegas r m - s.omegas r n with hu
  have hLu := (abs_le.mp (hLq u)).1
  constructor
  · have h1 : sumSq u ≤ S := by
      unfold sumSq
      refine (Finset.sum_le_sum (g := fun _ => (1 : ℝ)) fun r _ => ?_).trans (by simp)
      have := abs_le.mp ((hfld r m n).trans hU1)
      show (s.omegas r m - s.omegas r n) ^ 2 ≤ 1
      nlinarith [this.1, this.2]
    have := mul_le_mul_of_nonneg_left h1 hL.le
    linarith
  have hmax : t.maxAbsJsDiff ≤ A * U := by
    rw [h.maxAbsJsDiff]
    obtain ⟨m, hm⟩ := npMax_mem fun m => |t.JsDiff m|
    rw [hm]
    exact hN.jsDiff m
  have hmax0 : 0 ≤ t.maxAbsJsDiff := by
    rw [h.maxAbsJsDiff]
    obtain ⟨m, hm⟩ := npMax_mem fun m => |t.JsDiff m|
    rw [hm]; exact abs_nonneg _
  have hfac : t.factor = 1 := by
    rw [h.factor, max_eq_right, div_self hb.ne']
    calc t.maxAbsJsDiff * p.acceptanceJs ≤ t.maxAbsJsDiff * |p.acceptanceJs| :=
          mul_le_mul_of_nonneg_left (le_abs_self _) hmax0
      _ ≤ A * U * |p.acceptanceJs| := mul_le_mul_of_nonneg_right hmax (abs_nonneg _)
      _ ≤ _ := hUb
  have hQ : ∀ i, 0 ≤ es.phiMeans i / t.Qs i := fun i => by
    refine div_nonneg (hx i).le ?_
    rw [h.Qs_eq hen, hJ]
    exact div_nonneg (Finset.sum_nonneg fun m _ => mul_nonneg (Real.exp_pos _).le (hthr.trans (hal m).le))
      (Finset.sum_nonneg fun m _ => hthr.trans (hal m).le)
  obtain ⟨psi, hp1, hp2⟩ := h.difference hen hes hQ hcons (hmk m) (hmk n)
  have hpsi : ∀ i, |psi i - es.phiMeans i| ≤ ε := fun i =>
    between_near (hp1 i).1 (hp1 i).2 (hnear i m) (hnear i n)
  have e1 : (fun r => t.omegas r m - t.omegas r n) = u -
      p.acceptanceOmega • response ia.chis ia.coef (loads l feat psi) u := by
    funext r
    rw [hp2, hom, hfac, one_mul]
    rfl
  rw [e1]
  exact hgr _ (fun r => (loads_near hl hpsi hε0 r).trans hε) u

theorem leaves_of_growth {M : ℕ} [NeZero M] {e : RunEnv C S M ℝ G} (hM : 2 ≤ M) (hl : ∀ i, 0 < l i)
    (hx : ∀ i, 0 < es.phiMeans i) (hsum : ∑ i, es.phiMeans i = 1) (hfeat : Function.Surjective feat)
    (hok : e.rng.Ok) (hthr : 0 ≤ e.params.killThreshold) (hthr1 : e.params.killThreshold < 1)
    (hb : 0 < e.params.JsStepUpperBound) (hia : e.ia = ia.toI M) (hen : IsIdealGas e.en l feat)
    (hes : e.es = es.toI M) {W : Mat S S ℝ} {g ε₁ : ℝ} (hW : ∃ u, quad W u < 0) (hg1 : 1 < g) (hε₁ : 0 < ε₁)
    (hgr : ∀ d, (∀ r, |d r - loads l feat es.phiMeans r| ≤ ε₁) → ∀ u,
      quad W (u - e.params.acceptanceOmega • response ia.chis ia.coef d u) ≤ g * quad W u) :
    Leaves e es.phiMeans := by
  obtain ⟨L, hL, hLq⟩ := exists_quad_le W
  obtain ⟨u₀, hu₀⟩ := hW
  obtain ⟨A, hA0, hA⟩ := exists_near_bound (G := G) ia es M l feat hl (fun i => (hx i).le) hsum
  have hnb : NearBound ia es e.en e.rng e.params feat A := fun hf hal hvol hc hU h0 h1 =>
    hA hf hen hthr hal hvol hc hU h0 h1
  set U := min 1 (e.params.JsStepUpperBound / (A * |e.params.acceptanceJs| + 1)) with hU
  have hU0 : 0 < U := by positivity
  have hU1 : U ≤ 1 := min_le_left _ _
  have hUb : A * U * |e.params.acceptanceJs| ≤ e.params.JsStepUpperBound := by
    have h1 : U ≤ e.params.JsStepUpperBound / (A * |e.params.acceptanceJs| + 1) := min_le_right _ _
    rw [le_div_iff₀ (by positivity)] at h1
    linarith
  have hsl0 : 0 ≤ ∑ i, l i := Finset.sum_nonneg fun i _ => (hl i).le
  obtain ⟨ε, hε0, hεb, hlog⟩ := exists_log_near (l := fun i => U * l i) (fun i => mul_pos hU0 (hl i)) hx
    (b := ε₁ / (∑ i, l i + 1)) (by positivity)
  have hε : (∑ i, l i) * ε ≤ ε₁ := by
    rw [lt_div_iff₀ (by positivity)] at hεb
    nlinarith
  refine ⟨ε, hε0, ?_⟩
  intro w η hη
  -- a small multiple of the unstable direction in one compartment
  set τ := η / (∑ r, |u₀ r| + 1) with hτ
  have hs0 : 0 ≤ ∑ r, |u₀ r| := Finset.sum_nonneg fun r _ => abs_nonneg _
  have hτ0 : 0 < τ := by positivity
  let n1 : Fin M := ⟨1, by omega⟩
  have hne : n1 ≠ (0 : Fin M) := by
    intro h0
    have := congrArg Fin.val h0
    simp [n1] at this
  refine ⟨fun r m => if m = 0 then w r + τ * u₀ r else w r, fun r m => ?_, ?_⟩
  · show |(if m = 0 then w r + τ * u₀ r else w r) - w r| ≤ η
    split
    · rw [add_sub_cancel_left, abs_mul, abs_of_pos hτ0, hτ]
      have : |u₀ r| ≤ ∑ r, |u₀ r| :=
        Finset.single_le_sum (f := fun r => |u₀ r|) (fun _ _ => abs_nonneg _) (Finset.mem_univ r)
      rw [div_mul_eq_mul_div, div_le_iff₀ (by positivity)]
      nlinarith
    · rw [sub_self, abs_zero]; exact hη.le
  set V₀ := quad W (τ • u₀) with hV₀
  have hV₀neg : V₀ < 0 := by
    rw [hV₀, quad_smul]
    exact mul_neg_of_pos_of_neg (by positivity) hu₀
  obtain ⟨N, hN⟩ := pow_unbounded_of_one_lt (L * S / (-V₀)) hg1
  refine ⟨N + 1, fun b st hJ hom hcons => ?_⟩
  by_contra hcon
  push Not at hcon
  have hVst : quad W (fun r => st.omegas r 0 - st.omegas r n1) = V₀ := by
    rw [hV₀]
    congr 1
    funext r
    rw [hom]
    simp only [if_pos, if_neg hne]
    simp
  have hproper : ∀ {cs : List (Cons S M ℝ)}, (∀ k ∈ cs, k.Trivial) → ∀ k ∈ cs, k.Proper := by
    intro cs h k hk
    have := h k hk
    cases k with
    | no c => trivial
    | loc A c => exact this.elim
    | glob A c => exact this.elim
  -- one pass
  have one : ∀ (k count : ℕ) (s : State C S M ℝ G) (t : Trace C S M ℝ G),
      (∀ m, e.params.killThreshold < s.Js m) → ∑ m, s.Js m = M → (∀ c ∈ s.cons, c.Trivial) →
      quad W (fun r => s.omegas r 0 - s.omegas r n1) ≤ g ^ k * V₀ →
      iterate e.ia e.en e.es e.rng e.params b count s = .ok t →
      (∀ i m, |t.phisComp i m - es.phiMeans i| ≤ ε) →
      -(g ^ k * V₀) ≤ L * S ∧ ∑ m, t.Js m = M ∧ (∀ c ∈ t.cons, c.Trivial) ∧
      quad W (fun r => t.omegas r 0 - t.omegas r n1) ≤ g ^ (k + 1) * V₀ := by
    intro k count s t hal hvol hc hV hit hnear
    rw [hia, hes] at hit
    have hf := iterate_facts hit
    obtain ⟨r1, r2⟩ := growth_pass hf hen hl hx hthr hb hal hvol hc hnb hU0.le hU1 hUb hlog hε0.le hε hfeat
      hgr hL hLq hnear 0 n1
    refine ⟨by linarith, ?_, ?_, ?_⟩
    · rw [hf.sum_Js, (hf.masks_one hal).2.2.2.2]
    · exact (hf.cons_inv Cons.Trivial (fun c pf J mk h => h.prepare pf J mk)
        (fun c step mk res c' h he => h.evolve he) hc).2
    · refine r2.trans ?_
      have := mul_le_mul_of_nonneg_left hV (show 0 ≤ g by linarith)
      calc _ ≤ g * (g ^ k * V₀) := this
        _ = _ := by ring
  have all : ∀ k : ℕ, k ≤ N → ∃ t, Passes e b (k + 1) 0 st t ∧ -(g ^ k * V₀) ≤ L * S ∧
      ∑ m, t.Js m = M ∧ (∀ c ∈ t.cons, c.Trivial) ∧
      quad W (fun r => t.omegas r 0 - t.omegas r n1) ≤ g ^ (k + 1) * V₀ := by
    intro k
    induction k with
    | zero =>
      intro _
      obtain ⟨t, ht, -⟩ := iterate_ok (ia := e.ia) (tries := b) (count := 0) (s := st) hok hen (hes ▸ es.total)
        hthr hthr1 hb (hproper hcons) (Or.inl ⟨0, by rw [hJ]; exact hthr1⟩)
      have hp : Passes e b 1 0 st t := .one ht
      exact ⟨t, hp, one 0 0 st t (fun m => by rw [hJ]; exact hthr1) (by simp [hJ]) hcons
        (by rw [hVst]; simp) ht fun i m => (hcon 1 t (by omega) hp m).2 i⟩
    | succ k ih =>
      intro hk
      obtain ⟨t, hp, -, i2, i3, i4⟩ := ih (by omega)
      have hal : ∀ m, e.params.killThreshold < t.Js m := fun m => (hcon (k + 1) t (by omega) hp m).1
      obtain ⟨t', ht', -⟩ := iterate_ok (ia := e.ia) (tries := b) (count := t.reviveCount) (s := t.state) hok
        hen (hes ▸ es.total) hthr hthr1 hb (hproper i3) (Or.inl ⟨0, hal 0⟩)
      have hp' : Passes e b (k + 1 + 1) 0 st t' := hp.more ht'
      exact ⟨t', hp', one (k + 1) _ t.state t' hal i2 i3 i4 ht' fun i m => (hcon _ t' (by omega) hp' m).2 i⟩
  obtain ⟨-, -, h1, -⟩ := all N le_rfl
  rw [div_lt_iff₀ (by linarith)] at hN
  linarith

theorem leaves_of_mode {M : ℕ} [NeZero M] {e : RunEnv C S M ℝ G} (hM : 2 ≤ M) (hl : ∀ i, 0 < l i)
    (hx : ∀ i, 0 < es.phiMeans i) (hsum : ∑ i, es.phiMeans i = 1) (hfeat : Function.Surjective feat)
    (hok : e.rng.Ok) (hthr : 0 ≤ e.params.killThreshold) (hthr1 : e.params.killThreshold < 1)
    (hb : 0 < e.params.JsStepUpperBound) (hia : e.ia = ia.toI M) (hen : IsIdealGas e.en l feat)
    (hes : e.es = es.toI M) (ha : e.params.acceptanceOmega ≠ 0) {μ : ℂ} {u : Fin S → ℂ}
    (hmode : FieldMode ia.chis ia.coef (loads l feat es.phiMeans) μ u)
    (hμ : 1 < ‖1 - e.params.acceptanceOmega * μ‖) : Leaves e es.phiMeans := by
  have ha' : (e.params.acceptanceOmega : ℂ) ≠ 0 := Complex.ofReal_ne_zero.mpr ha
  obtain ⟨W, g, hg1, hW, hgr⟩ := exists_form_of_unstable
    (stepMat ia.chis ia.coef (loads l feat es.phiMeans) e.params.acceptanceOmega) hmode.1
    ((stepMat_mode ha hmode.1).mpr (by rwa [sub_sub_cancel, mul_div_cancel_left₀ _ ha'])) hμ
  obtain ⟨ε₁, hε₁, h⟩ := exists_growth W (response ia.chis ia.coef)
    (response_smul ia.chis ia.coef) (continuous_response ia.chis ia.coef) (loads l feat es.phiMeans)
    e.params.acceptanceOmega g fun u hu => by rw [← stepMat_mulVec]; exact hgr u hu
  exact leaves_of_growth hM hl hx hsum hfeat hok hthr hthr1 hb hia hen hes hW hg1 hε₁ h

end Flory
