import Verif.Lemmas.SeparatedPass

/-! # Sequences of passes near separated phases -/

set_option linter.unusedSectionVars false

namespace Flory

open Spec Finset

variable {G : Type} {C S M : ℕ} [NeZero M] [NeZero S]

/-- Deviation of the amounts from those of the phases. -/
noncomputable def devOf (J₀ : Vec M ℝ) (φ₀ : Mat C M ℝ) (J : Vec M ℝ) (φ : Mat C M ℝ) : Mat C M ℝ :=
  fun i m => J m / J₀ m * (φ i m - φ₀ i m)

/-- Difference between interaction and field, relative to its average over the features. -/
noncomputable def lag (chis : Mat S S ℝ) (feat : Fin C → Fin S) (φ : Mat C M ℝ) (om : Mat S M ℝ)
    (r : Fin S) (m : Fin M) : ℝ :=
  (∑ j, chis r (feat j) * φ j m - om r m) - (∑ q, (∑ j, chis q (feat j) * φ j m - om q m)) / S

theorem schemeField_lag (chis : Mat S S ℝ) (c : ℝ) (feat : Fin C → Fin S) (om : Mat S M ℝ) (φ : Mat C M ℝ)
    (r : Fin S) (m : Fin M) : schemeField chis c feat om φ r m - om r m =
      lag chis feat φ om r m + c / S * (∑ i, φ i m - 1) := by
  unfold schemeField schemeXi lag
  simp only [sum_sub_distrib]
  ring

theorem sum_lag (chis : Mat S S ℝ) (feat : Fin C → Fin S) (om : Mat S M ℝ) (φ : Mat C M ℝ) (m : Fin M) :
    ∑ r, lag chis feat φ om r m = 0 := by
  have hS : (S : ℝ) ≠ 0 := by exact_mod_cast NeZero.ne S
  unfold lag
  rw [sum_sub_distrib, sum_const, card_univ, Fintype.card_fin, nsmul_eq_mul, mul_div_cancel₀ _ hS, sub_self]

theorem lag_next {chis : Mat S S ℝ} {c a : ℝ} {feat : Fin C → Fin S} {om om' : Mat S M ℝ} {φ φ' : Mat C M ℝ}
    (h : ∀ r m, om' r m = om r m + a * (schemeField chis c feat om φ r m - om r m)) (r : Fin S) (m : Fin M) :
    lag chis feat φ' om' r m = (1 - a) * lag chis feat φ om r m +
      (∑ j, chis r (feat j) * (φ' j m - φ j m) - (∑ q, ∑ j, chis q (feat j) * (φ' j m - φ j m)) / S) := by
  have hS : (S : ℝ) ≠ 0 := by exact_mod_cast NeZero.ne S
  have e : ∀ q, ∑ j, chis q (feat j) * φ' j m - om' q m = (∑ j, chis q (feat j) * φ j m - om q m) +
      ∑ j, chis q (feat j) * (φ' j m - φ j m) -
      a * (lag chis feat φ om q m + c / S * (∑ i, φ i m - 1)) := fun q => by
    rw [h, schemeField_lag]
    simp only [mul_sub, sum_sub_distrib]
    ring
  rw [lag, e, sum_congr rfl fun q _ => e q]
  rw [sum_sub_distrib, sum_add_distrib, ← mul_sum, sum_add_distrib, sum_lag, sum_const, card_univ,
    Fintype.card_fin, nsmul_eq_mul]
  have : lag chis feat φ om r m = (∑ j, chis r (feat j) * φ j m - om r m) -
      (∑ q, (∑ j, chis q (feat j) * φ j m - om q m)) / S := rfl
  rw [this]
  field_simp
  ring

/-- Constants that describe how compartments approach separated phases. -/
structure SepData (chis : Mat S S ℝ) (feat : Fin C → Fin S) (l : Vec C ℝ) (σ : Fin S → Fin C) (c : ℝ)
    (J₀ : Vec M ℝ) (φ₀ : Mat C M ℝ) (p : Params ℝ) (Q : Mat C M ℝ → ℝ) (v δ L A X β q D E θ : ℝ) : Prop where
  v_pos : 0 < v
  coercive : ∀ w, v * ‖w‖ ^ 2 ≤ Q w
  near : ∀ w J, Sep.Conserving J₀ φ₀ w (J - J₀) → ‖w‖ ≤ δ → ‖J - J₀‖ ≤ δ →
    Q (Sep.devNext (fun i j => chis (feat i) (feat j)) l σ p.acceptanceOmega p.acceptanceJs c J₀ φ₀ (w, J)) ≤
      q ^ 2 * Q w ∧
    ‖Sep.volNext (fun i j => chis (feat i) (feat j)) l σ p.acceptanceJs c J₀ φ₀ (w, J)‖ ≤ L * ‖w‖
  L_pos : 0 < L
  vol : ∀ m, 2 * δ ≤ J₀ m
  kill : ∀ m, p.killThreshold < J₀ m - δ
  δ_pos : 0 < δ
  β_nonneg : 0 ≤ β
  β_le : β ≤ δ
  D_nonneg : 0 ≤ D
  drift : D + L * β / (1 - q) ≤ δ
  q_nonneg : 0 ≤ q
  q_lt : q < 1
  bound : 2 * L * β ≤ p.JsStepUpperBound
  a_pos : 0 < p.acceptanceOmega
  a_le : p.acceptanceOmega ≤ 1
  b_pos : 0 < p.acceptanceJs
  q_le : q ≤ θ
  a_ge : 1 - p.acceptanceOmega / 2 ≤ θ
  X_ge : ∀ r, ∑ j, |chis r (feat j)| ≤ X
  E_ge : 16 * X * β ≤ p.acceptanceOmega * E
  A_phi : 2 ≤ A
  A_inc : 2 * C ≤ A
  A_js : 2 * L / p.acceptanceJs ≤ A
  A_om : |c| * (2 * C) ≤ A

/-- Volumes and fractions after `k` passes. -/
structure SepPlace (feat : Fin C → Fin S) (l x : Vec C ℝ)
    (J₀ : Vec M ℝ) (φ₀ : Mat C M ℝ) (Q : Mat C M ℝ → ℝ) (v L β q D : ℝ) (k : ℕ) (s : State C S M ℝ G) : Prop where
  volumes : ∑ m, s.Js m = M
  drift : ‖s.Js - J₀‖ ≤ D + L * β * ∑ j ∈ range k, q ^ j
  form : Q (devOf J₀ φ₀ s.Js (fracsOf feat l x s.Js s.omegas)) ≤ v * (β * q ^ k) ^ 2
  cons : ∀ k ∈ s.cons, k.Trivial

/-- Fields after `k` passes. -/
def SepLag (chis : Mat S S ℝ) (feat : Fin C → Fin S) (l x : Vec C ℝ) (E θ : ℝ) (k : ℕ)
    (s : State C S M ℝ G) : Prop :=
  ∀ r m, |lag chis feat (fracsOf feat l x s.Js s.omegas) s.omegas r m| ≤ E * θ ^ k

/-- What is known about the last of `k + 1` passes. -/
structure SepPass (A β q E θ : ℝ) (φ₀ : Mat C M ℝ) (k : ℕ) (t : Trace C S M ℝ G) : Prop where
  phis : ∀ i m, |t.phisComp i m - φ₀ i m| ≤ A * (β * q ^ k)
  incomp : t.maxAbsIncomp ≤ A * (β * q ^ k)
  jsDiff : t.maxAbsJsDiff ≤ A * (β * q ^ k)
  omegaDiff : t.maxAbsOmegaDiff ≤ E * θ ^ k + A * (β * q ^ k)
  residue : t.maxConstraintResidue = 0

variable {ia : FHCompiled S ℝ} {en : EntropyI C S M ℝ} {es : CanonicalC C ℝ} {rng : Rng G ℝ}
  {p : Params ℝ} {tries : ℤ} {count : ℕ} {s : State C S M ℝ G} {t : Trace C S M ℝ G}
  {l : Vec C ℝ} {feat : Fin C → Fin S} {σ : Fin S → Fin C} {J₀ : Vec M ℝ} {φ₀ : Mat C M ℝ}
  {Q : Mat C M ℝ → ℝ} {v δ L A X β q D E θ : ℝ} {k : ℕ}

section State

variable (hd : SepData ia.chis feat l σ ia.coef J₀ φ₀ p Q v δ L A X β q D E θ)
  (hs : SepPlace feat l es.phiMeans J₀ φ₀ Q v L β q D k s)
include hd hs

theorem SepPlace.near : ‖s.Js - J₀‖ ≤ δ := by
  refine (hs.drift.trans ?_).trans hd.drift
  have h := mul_le_mul_of_nonneg_left (geom_le hd.q_nonneg hd.q_lt k)
    (mul_nonneg hd.L_pos.le hd.β_nonneg)
  rw [div_eq_mul_one_div]
  linarith

theorem SepPlace.volume (m : Fin M) : J₀ m - δ ≤ s.Js m ∧ s.Js m ≤ J₀ m + δ := by
  have h := (norm_le_pi_norm (s.Js - J₀) m).trans (hs.near hd)
  rw [Real.norm_eq_abs, Pi.sub_apply, abs_le] at h
  constructor <;> linarith [h.1, h.2]

theorem SepPlace.alive (m : Fin M) : p.killThreshold < s.Js m :=
  (hd.kill m).trans_le (hs.volume hd m).1

theorem SepPlace.Js_pos (m : Fin M) : 0 < s.Js m := by
  have := (hs.volume hd m).1
  have := hd.vol m
  have := hd.δ_pos
  linarith

theorem SepPlace.dev_le :
    ‖devOf J₀ φ₀ s.Js (fracsOf feat l es.phiMeans s.Js s.omegas)‖ ≤ β * q ^ k := by
  have h1 := (hd.coercive _).trans hs.form
  have h2 := le_of_mul_le_mul_left h1 hd.v_pos
  have h3 := abs_le_of_sq_le_sq h2 (mul_nonneg hd.β_nonneg (pow_nonneg hd.q_nonneg k))
  exact (le_abs_self _).trans h3

theorem SepPlace.frac_le (i : Fin C) (m : Fin M) :
    |fracsOf feat l es.phiMeans s.Js s.omegas i m - φ₀ i m| ≤ 2 * (β * q ^ k) := by
  have h := (norm_le_pi_norm _ m).trans ((norm_le_pi_norm
    (devOf J₀ φ₀ s.Js (fracsOf feat l es.phiMeans s.Js s.omegas)) i).trans (hs.dev_le hd))
  have hJ := hs.Js_pos hd m
  have h0 : 0 < J₀ m := by linarith [hd.vol m, hd.δ_pos]
  unfold devOf at h
  rw [Real.norm_eq_abs, abs_mul, abs_of_pos (div_pos hJ h0)] at h
  have h1 : 1 / 2 ≤ s.Js m / J₀ m := by
    rw [div_le_div_iff₀ two_pos h0]
    linarith [(hs.volume hd m).1, hd.vol m]
  have h2 := mul_le_mul_of_nonneg_right h1
    (abs_nonneg (fracsOf feat l es.phiMeans s.Js s.omegas i m - φ₀ i m))
  linarith

theorem SepPlace.conserving (h0 : ∑ m, J₀ m = M) (hm : ∀ i, ∑ m, J₀ m * φ₀ i m = M * es.phiMeans i) :
    Sep.Conserving J₀ φ₀ (devOf J₀ φ₀ s.Js (fracsOf feat l es.phiMeans s.Js s.omegas)) (s.Js - J₀) := by
  constructor
  · simp [hs.volumes, h0]
  · intro i
    have e : ∀ m, J₀ m * devOf J₀ φ₀ s.Js (fracsOf feat l es.phiMeans s.Js s.omegas) i m =
        s.Js m * fracsOf feat l es.phiMeans s.Js s.omegas i m - s.Js m * φ₀ i m := fun m => by
      have h0 : J₀ m ≠ 0 := by linarith [hd.vol m, hd.δ_pos]
      unfold devOf
      field_simp
    simp only [e, Pi.sub_apply, sub_mul, sum_sub_distrib]
    rw [fracsOf_mean (hs.Js_pos hd), hm]
    ring

theorem SepPlace.fracs :
    Sep.fracs J₀ φ₀ (devOf J₀ φ₀ s.Js (fracsOf feat l es.phiMeans s.Js s.omegas)) s.Js =
      fracsOf feat l es.phiMeans s.Js s.omegas := by
  funext i m
  have hJ := (hs.Js_pos hd m).ne'
  have h0 : J₀ m ≠ 0 := by linarith [hd.vol m, hd.δ_pos]
  unfold Sep.fracs devOf
  field_simp
  ring

end State

/-- A pass in terms of the reduced map. -/
structure SepStep (ia : FHCompiled S ℝ) (es : CanonicalC C ℝ) (feat : Fin C → Fin S) (l : Vec C ℝ)
    (J₀ : Vec M ℝ) (φ₀ : Mat C M ℝ) (p : Params ℝ) (Q : Mat C M ℝ → ℝ) (L β q : ℝ) (k : ℕ) (s : State C S M ℝ G) (t : Trace C S M ℝ G) : Prop where
  scheme : SchemePass ia feat l (fracsOf feat l es.phiMeans s.Js s.omegas) s t
  js : p.acceptanceJs * t.maxAbsJsDiff ≤ 2 * L * (β * q ^ k)
  vols : ∀ m, |t.Js m - s.Js m| ≤ 2 * (p.acceptanceJs * t.maxAbsJsDiff)
  contract : Q (devOf J₀ φ₀ t.Js (fracsOf feat l es.phiMeans t.Js t.omegas)) ≤
    q ^ 2 * Q (devOf J₀ φ₀ s.Js (fracsOf feat l es.phiMeans s.Js s.omegas))
  omegas : ∀ r m, t.omegas r m = s.omegas r m + p.acceptanceOmega *
    (schemeField ia.chis ia.coef feat s.omegas (fracsOf feat l es.phiMeans s.Js s.omegas) r m - s.omegas r m)

theorem sep_bound {b x y z d : ℝ} (hx : |b * (x - z)| ≤ d) (hy : |b * (y - z)| ≤ d) (hb : 0 < b) :
    b * |x - y| ≤ 2 * d := by
  have e : b * |x - y| = |b * (x - z) - b * (y - z)| := by
    rw [← mul_sub, abs_mul, abs_of_pos hb]
    congr 2
    ring
  rw [e]
  refine (abs_sub _ _).trans ?_
  linarith

theorem sepPlace_next (hd : SepData ia.chis feat l σ ia.coef J₀ φ₀ p Q v δ L A X β q D E θ)
    (hl : ∀ i, 0 < l i) (hx : ∀ i, 0 < es.phiMeans i) (hσ : ∀ r, feat (σ r) = r)
    (h0 : ∑ m, J₀ m = M) (hm : ∀ i, ∑ m, J₀ m * φ₀ i m = M * es.phiMeans i)
    (hb : 0 < p.JsStepUpperBound) (hen : IsIdealGas en l feat)
    (hf : IterFacts (ia.toI M) en (es.toI M) rng p tries count s t)
    (hs : SepPlace feat l es.phiMeans J₀ φ₀ Q v L β q D k s) :
    SepStep ia es feat l J₀ φ₀ p Q L β q k s t ∧
      SepPlace feat l es.phiMeans J₀ φ₀ Q v L β q D (k + 1) t.state := by
  have hal := hs.alive hd
  have hJ0 := hs.Js_pos hd
  obtain ⟨hmk, hJ, hom, hcount, hn⟩ := hf.masks_one hal
  have hP := hf.schemePass hen hal hs.volumes hs.cons
  have hM : (0 : ℝ) < M := by exact_mod_cast Nat.pos_of_ne_zero (NeZero.ne M)
  set Y : Mat C C ℝ := fun i j => ia.chis (feat i) (feat j) with hY
  set φ := fracsOf feat l es.phiMeans s.Js s.omegas with hφ
  set w := devOf J₀ φ₀ s.Js φ with hw
  have hfr : Sep.fracs J₀ φ₀ w s.Js = φ := hs.fracs hd
  have hwn : ‖w‖ ≤ β * q ^ k := hs.dev_le hd
  have hqk : 0 ≤ q ^ k := pow_nonneg hd.q_nonneg k
  have hqk1 : q ^ k ≤ 1 := pow_le_one₀ hd.q_nonneg hd.q_lt.le
  have hU0 : 0 ≤ β * q ^ k := mul_nonneg hd.β_nonneg hqk
  have hUβ : β * q ^ k ≤ β := by nlinarith [hd.β_nonneg]
  have hnear := hd.near w s.Js (hs.conserving hd h0 hm) (hwn.trans (hUβ.trans hd.β_le)) (hs.near hd)
  have hb0 := hd.b_pos
  have hL0 := hd.L_pos
  have hvol : ∀ m, |p.acceptanceJs * (Sep.eta Y l σ ia.coef φ m - (∑ n, Sep.eta Y l σ ia.coef φ n) / M)| ≤
      L * (β * q ^ k) := fun m => by
    have h1 := (norm_le_pi_norm _ m).trans hnear.2
    rw [Real.norm_eq_abs] at h1
    unfold Sep.volNext Sep.nextJ at h1
    rw [hfr] at h1
    simp only [add_sub_cancel_left] at h1
    exact h1.trans (mul_le_mul_of_nonneg_left hwn hL0.le)
  have heta : ∀ m n, p.acceptanceJs * |Sep.eta Y l σ ia.coef φ m - Sep.eta Y l σ ia.coef φ n| ≤
      2 * L * (β * q ^ k) := fun m n => by
    have := sep_bound (hvol m) (hvol n) hb0
    linarith
  have hjsd : ∀ m, t.JsDiff m = Sep.eta Y l σ ia.coef φ m - (∑ n, Sep.eta Y l σ ia.coef φ n * s.Js n) / M :=
    fun m => by
      rw [hP.jsDiff]
      simp only [hφ, schemeEta_eq hl hx hJ0 hσ, add_mul, sum_add_distrib, ← mul_sum, hs.volumes]
      field_simp
      ring
  have hjs : ∀ m, p.acceptanceJs * |t.JsDiff m| ≤ 2 * L * (β * q ^ k) := fun m => by
    have e : t.JsDiff m = (∑ n, (Sep.eta Y l σ ia.coef φ m - Sep.eta Y l σ ia.coef φ n) * s.Js n) / M := by
      rw [hjsd]
      simp only [sub_mul, sum_sub_distrib, ← mul_sum, hs.volumes]
      field_simp
    rw [e, abs_div, abs_of_pos hM, ← mul_div_assoc, div_le_iff₀ hM]
    have h1 : |∑ n, (Sep.eta Y l σ ia.coef φ m - Sep.eta Y l σ ia.coef φ n) * s.Js n| ≤
        ∑ n, |Sep.eta Y l σ ia.coef φ m - Sep.eta Y l σ ia.coef φ n| * s.Js n := by
      refine (abs_sum_le_sum_abs _ _).trans (le_of_eq (sum_congr rfl fun n _ => ?_))
      rw [abs_mul, abs_of_pos (hJ0 n)]
    calc _ ≤ p.acceptanceJs * ∑ n, |Sep.eta Y l σ ia.coef φ m - Sep.eta Y l σ ia.coef φ n| * s.Js n :=
          mul_le_mul_of_nonneg_left h1 hb0.le
      _ = ∑ n, p.acceptanceJs * |Sep.eta Y l σ ia.coef φ m - Sep.eta Y l σ ia.coef φ n| * s.Js n := by
          rw [mul_sum]; exact sum_congr rfl fun n _ => by ring
      _ ≤ ∑ n, 2 * L * (β * q ^ k) * s.Js n :=
          sum_le_sum fun n _ => mul_le_mul_of_nonneg_right (heta m n) (hJ0 n).le
      _ = _ := by rw [← mul_sum, hs.volumes]
  have hmaxeq := hf.maxAbsJsDiff
  have hmax : p.acceptanceJs * t.maxAbsJsDiff ≤ 2 * L * (β * q ^ k) := by
    rw [hmaxeq]
    obtain ⟨m, hm⟩ := npMax_mem fun m => |t.JsDiff m|
    rw [hm]; exact hjs m
  have hfac : t.factor = 1 := by
    rw [hf.factor, max_eq_right, div_self hb.ne']
    rw [mul_comm]
    refine hmax.trans (le_trans ?_ hd.bound)
    exact mul_le_mul_of_nonneg_left hUβ (by positivity)
  have hJs : ∀ m, t.Js m = Sep.nextJ Y l σ p.acceptanceJs ia.coef φ s.Js m := by
    intro m
    rw [hf.Js]
    simp only [hmk, hJ, hfac, hn, one_mul, mul_one, sum_add_distrib, hs.volumes, ← mul_sum, hjsd,
      sum_sub_distrib, sum_const, card_univ, Fintype.card_fin, nsmul_eq_mul]
    unfold Sep.nextJ
    field_simp
    ring
  have homs : ∀ r m, t.omegas r m = s.omegas r m + p.acceptanceOmega *
      (schemeField ia.chis ia.coef feat s.omegas φ r m - s.omegas r m) := fun r m => by
    rw [hf.omegas, hmk, hfac, hom, hP.omegaDiff]
    ring
  have hnext : fracsOf feat l es.phiMeans t.Js t.omegas =
      Sep.nextPhi Y l σ p.acceptanceOmega p.acceptanceJs ia.coef φ s.Js :=
    fracsOf_next hl hx hJ0 hσ hJs homs
  have hdev : devOf J₀ φ₀ t.Js (fracsOf feat l es.phiMeans t.Js t.omegas) =
      Sep.devNext Y l σ p.acceptanceOmega p.acceptanceJs ia.coef J₀ φ₀ (w, s.Js) := by
    funext i m
    unfold devOf Sep.devNext
    rw [hnext, hJs]
    simp only [hfr]
  have hvols2 : ∀ m, |t.Js m - s.Js m| ≤ 2 * (p.acceptanceJs * t.maxAbsJsDiff) := fun m => by
    have hle : ∀ m, |t.JsDiff m| ≤ t.maxAbsJsDiff := fun m => by
      rw [hmaxeq]
      exact le_npMax (fun m => |t.JsDiff m|) m
    have e : t.Js m - s.Js m = p.acceptanceJs * (t.JsDiff m - (∑ n, t.JsDiff n) / M) := by
      rw [hJs]
      unfold Sep.nextJ
      simp only [hjsd, sum_sub_distrib, sum_const, card_univ, Fintype.card_fin, nsmul_eq_mul]
      field_simp
      ring
    have h1 : |(∑ n, t.JsDiff n) / M| ≤ t.maxAbsJsDiff := by
      rw [abs_div, abs_of_pos hM, div_le_iff₀ hM]
      refine (abs_sum_le_sum_abs _ _).trans ((sum_le_sum fun n _ => hle n).trans ?_)
      simp [mul_comm]
    rw [e, abs_mul, abs_of_pos hb0]
    have h2 := (abs_sub (t.JsDiff m) ((∑ n, t.JsDiff n) / M)).trans (add_le_add (hle m) h1)
    have := mul_le_mul_of_nonneg_left h2 hb0.le
    linarith
  refine ⟨⟨hP, hmax, hvols2, by rw [hdev]; exact hnear.1, homs⟩, ?_⟩
  have hform : Q (devOf J₀ φ₀ t.Js (fracsOf feat l es.phiMeans t.Js t.omegas)) ≤ v * (β * q ^ (k + 1)) ^ 2 := by
    rw [hdev]
    calc _ ≤ q ^ 2 * Q w := hnear.1
      _ ≤ q ^ 2 * (v * (β * q ^ k) ^ 2) := mul_le_mul_of_nonneg_left hs.form (sq_nonneg q)
      _ = _ := by ring
  have hdrift : ‖t.Js - J₀‖ ≤ D + L * β * ∑ j ∈ range (k + 1), q ^ j := by
    have e : t.Js - J₀ = (s.Js - J₀) +
        Sep.volNext Y l σ p.acceptanceJs ia.coef J₀ φ₀ (w, s.Js) := by
      funext m
      simp only [Pi.sub_apply, Pi.add_apply, Sep.volNext, hfr]
      rw [hJs]
      ring
    rw [e, sum_range_succ, mul_add, ← add_assoc]
    refine (norm_add_le _ _).trans (add_le_add hs.drift (hnear.2.trans ?_))
    calc L * ‖w‖ ≤ L * (β * q ^ k) := mul_le_mul_of_nonneg_left hwn hL0.le
      _ = _ := by ring
  have hvols : ∑ m, t.Js m = M := by
    simp only [hJs, Sep.nextJ, sum_add_distrib, hs.volumes, ← mul_sum, sum_sub_distrib, sum_const, card_univ,
      Fintype.card_fin, nsmul_eq_mul]
    field_simp
    ring
  have hcons' : ∀ k ∈ t.state.cons, k.Trivial :=
    (hf.cons_inv Cons.Trivial (fun c pf J mk h => h.prepare pf J mk)
      (fun c step mk res c' h he => h.evolve he) hs.cons).2
  exact ⟨hvols, hdrift, hform, hcons'⟩

theorem lag_bound {x d e a B Q E T θ X : ℝ} (h1 : |x| ≤ E * T) (h2 : |d| ≤ X * (4 * (B * Q)))
    (h3 : |e| ≤ X * (4 * (B * Q))) (ha : a ≤ 1) (h5 : 16 * X * B * Q ≤ a * E * T)
    (h6 : (1 - a / 2) * (E * T) ≤ θ * (E * T)) : |(1 - a) * x + (d - e)| ≤ E * (T * θ) := by
  have h7 : |(1 - a) * x| ≤ (1 - a) * (E * T) := by
    rw [abs_mul, abs_of_nonneg (by linarith)]
    exact mul_le_mul_of_nonneg_left h1 (by linarith)
  have h8 : |d - e| ≤ X * (4 * (B * Q)) + X * (4 * (B * Q)) := (abs_sub _ _).trans (add_le_add h2 h3)
  refine (abs_add_le _ _).trans ((add_le_add h7 h8).trans ?_)
  linarith

section Lag

variable (hd : SepData ia.chis feat l σ ia.coef J₀ φ₀ p Q v δ L A X β q D E θ)
include hd

theorem SepData.E_nonneg : 0 ≤ E := by
  have h1 : 0 ≤ 16 * X * β := by
    have : 0 ≤ X := (sum_nonneg fun j _ => abs_nonneg _).trans (hd.X_ge 0)
    have := hd.β_nonneg
    positivity
  exact nonneg_of_mul_nonneg_right (h1.trans hd.E_ge) hd.a_pos

theorem sepLag_next (hs : SepPlace feat l es.phiMeans J₀ φ₀ Q v L β q D k s)
    (ht : SepPlace feat l es.phiMeans J₀ φ₀ Q v L β q D (k + 1) t.state)
    (hst : SepStep ia es feat l J₀ φ₀ p Q L β q k s t) (hlag : SepLag ia.chis feat l es.phiMeans E θ k s) :
    SepLag ia.chis feat l es.phiMeans E θ (k + 1) t.state := by
  intro r m
  have hS : (0 : ℝ) < S := by exact_mod_cast Nat.pos_of_ne_zero (NeZero.ne S)
  have hqk : 0 ≤ q ^ k := pow_nonneg hd.q_nonneg k
  have hU0 : 0 ≤ β * q ^ k := mul_nonneg hd.β_nonneg hqk
  have hE0 := hd.E_nonneg
  have hθ0 : 0 ≤ θ := hd.q_nonneg.trans hd.q_le
  have hfrac := hs.frac_le hd
  have hfrac' := ht.frac_le hd
  have hpot : ∀ r, |∑ j, ia.chis r (feat j) * (fracsOf feat l es.phiMeans t.state.Js t.state.omegas j m -
      fracsOf feat l es.phiMeans s.Js s.omegas j m)| ≤ X * (4 * (β * q ^ k)) := fun r => by
    refine (abs_sum_le_sum_abs _ _).trans ?_
    refine le_trans ?_ (mul_le_mul_of_nonneg_right (hd.X_ge r) (by positivity))
    rw [sum_mul]
    refine sum_le_sum fun j _ => ?_
    rw [abs_mul]
    refine mul_le_mul_of_nonneg_left ?_ (abs_nonneg _)
    have h1 := abs_le.mp (hfrac' j m)
    have h2 := abs_le.mp (hfrac j m)
    have h3 : β * q ^ (k + 1) ≤ β * q ^ k := by
      rw [pow_succ]
      have := mul_le_mul_of_nonneg_left hd.q_lt.le hU0
      linarith
    rw [abs_le]
    constructor <;> linarith [h1.1, h1.2, h2.1, h2.2]
  have homs : ∀ r m, t.state.omegas r m = s.omegas r m + p.acceptanceOmega *
    (schemeField ia.chis ia.coef feat s.omegas (fracsOf feat l es.phiMeans s.Js s.omegas) r m - s.omegas r m) :=
    hst.omegas
  rw [lag_next homs, pow_succ]
  have hmean : |(∑ q, ∑ j, ia.chis q (feat j) * (fracsOf feat l es.phiMeans t.state.Js t.state.omegas j m -
      fracsOf feat l es.phiMeans s.Js s.omegas j m)) / S| ≤ X * (4 * (β * q ^ k)) := by
    rw [abs_div, abs_of_pos hS, div_le_iff₀ hS]
    refine (abs_sum_le_sum_abs _ _).trans ((sum_le_sum fun r _ => hpot r).trans ?_)
    simp [mul_comm]
  refine lag_bound (hlag r m) (hpot r) hmean hd.a_le ?_ ?_
  · exact mul_le_mul hd.E_ge (pow_le_pow_left₀ hd.q_nonneg hd.q_le k) hqk (mul_nonneg hd.a_pos.le hE0)
  · exact mul_le_mul_of_nonneg_right hd.a_ge (by positivity)

theorem sepPass_of (hsum : ∀ m, ∑ i, φ₀ i m = 1)
    (hf : IterFacts (ia.toI M) en (es.toI M) rng p tries count s t)
    (hs : SepPlace feat l es.phiMeans J₀ φ₀ Q v L β q D k s)
    (hst : SepStep ia es feat l J₀ φ₀ p Q L β q k s t) (hlag : SepLag ia.chis feat l es.phiMeans E θ k s) :
    SepPass A β q E θ φ₀ k t := by
  have hS : (1 : ℝ) ≤ S := by exact_mod_cast Nat.one_le_iff_ne_zero.mpr (NeZero.ne S)
  have hP := hst.scheme
  have hqk : 0 ≤ q ^ k := pow_nonneg hd.q_nonneg k
  have hU0 : 0 ≤ β * q ^ k := mul_nonneg hd.β_nonneg hqk
  have hfrac := hs.frac_le hd
  have hinc : ∀ m, |∑ i, fracsOf feat l es.phiMeans s.Js s.omegas i m - 1| ≤ 2 * C * (β * q ^ k) := fun m => by
    rw [← hsum m, ← sum_sub_distrib]
    refine (abs_sum_le_sum_abs _ _).trans ((sum_le_sum fun i _ => hfrac i m).trans ?_)
    simp
    linarith
  have hE0 := hd.E_nonneg
  have hθ0 : 0 ≤ θ := hd.q_nonneg.trans hd.q_le
  have hA0 : 0 ≤ A := by linarith [hd.A_phi]
  refine ⟨fun i m => ?_, ?_, ?_, ?_, residue_trivial hf hs.cons⟩
  · rw [hP.phis]
    exact (hfrac i m).trans (mul_le_mul_of_nonneg_right hd.A_phi hU0)
  · rw [hf.maxAbsIncomp]
    obtain ⟨m, hm⟩ := npMax_mem fun m => |t.incomp m|
    rw [hm, hP.incomp]
    exact (hinc m).trans (mul_le_mul_of_nonneg_right hd.A_inc hU0)
  · have h1 : t.maxAbsJsDiff ≤ 2 * L / p.acceptanceJs * (β * q ^ k) := by
      rw [div_mul_eq_mul_div, le_div_iff₀ hd.b_pos, mul_comm]
      exact hst.js
    exact h1.trans (mul_le_mul_of_nonneg_right hd.A_js hU0)
  · rw [hf.maxAbsOmegaDiff]
    refine rowsMax_le (by positivity) fun r m => ?_
    rw [hP.omegaDiff, schemeField_lag]
    refine (abs_add_le _ _).trans (add_le_add (hlag r m) ?_)
    rw [abs_mul, abs_div, abs_of_pos (by linarith : (0 : ℝ) < S)]
    have h1 : |ia.coef| / S ≤ |ia.coef| := div_le_self (abs_nonneg _) hS
    calc _ ≤ |ia.coef| * (2 * C * (β * q ^ k)) :=
          mul_le_mul h1 (hinc m) (abs_nonneg _) (abs_nonneg _)
      _ = |ia.coef| * (2 * C) * (β * q ^ k) := by ring
      _ ≤ _ := mul_le_mul_of_nonneg_right hd.A_om hU0

end Lag

theorem sep_next (hd : SepData ia.chis feat l σ ia.coef J₀ φ₀ p Q v δ L A X β q D E θ)
    (hl : ∀ i, 0 < l i) (hx : ∀ i, 0 < es.phiMeans i) (hσ : ∀ r, feat (σ r) = r)
    (h0 : ∑ m, J₀ m = M) (hm : ∀ i, ∑ m, J₀ m * φ₀ i m = M * es.phiMeans i) (hsum : ∀ m, ∑ i, φ₀ i m = 1)
    (hb : 0 < p.JsStepUpperBound) (hen : IsIdealGas en l feat)
    (h : iterate (ia.toI M) en (es.toI M) rng p tries count s = .ok t)
    (hs : SepPlace feat l es.phiMeans J₀ φ₀ Q v L β q D k s)
    (hlag : SepLag ia.chis feat l es.phiMeans E θ k s) :
    SepPass A β q E θ φ₀ k t ∧ t.reviveCount = count ∧
      SepPlace feat l es.phiMeans J₀ φ₀ Q v L β q D (k + 1) t.state ∧
      SepLag ia.chis feat l es.phiMeans E θ (k + 1) t.state := by
  have hf := iterate_facts h
  obtain ⟨h1, h2⟩ := sepPlace_next hd hl hx hσ h0 hm hb hen hf hs
  exact ⟨sepPass_of hd hsum hf hs h1 hlag, (hf.masks_one (hs.alive hd)).2.2.2.1, h2,
    sepLag_next hd hs h2 h1 hlag⟩

/-- Everything that is assumed about the phases and the settings. -/
structure SepSetup (ia : FHCompiled S ℝ) (es : CanonicalC C ℝ) (feat : Fin C → Fin S) (l : Vec C ℝ)
    (σ : Fin S → Fin C) (J₀ : Vec M ℝ) (φ₀ : Mat C M ℝ) (e : RunEnv C S M ℝ G) : Prop where
  size : ∀ i, 0 < l i
  means : ∀ i, 0 < es.phiMeans i
  section' : ∀ r, feat (σ r) = r
  volumes : ∑ m, J₀ m = M
  mean : ∀ i, ∑ m, J₀ m * φ₀ i m = M * es.phiMeans i
  sum : ∀ m, ∑ i, φ₀ i m = 1
  bound : 0 < e.params.JsStepUpperBound
  gas : IsIdealGas e.en l feat
  interaction : e.ia = ia.toI M
  ensemble : e.es = es.toI M

variable {e : RunEnv C S M ℝ G}

theorem Spec.Passes.separated (hd : SepData ia.chis feat l σ ia.coef J₀ φ₀ e.params Q v δ L A X β q D E θ)
    (hu : SepSetup ia es feat l σ J₀ φ₀ e) {b : ℤ} {n : ℕ} (h : Passes e b n count s t)
    (hs : SepPlace feat l es.phiMeans J₀ φ₀ Q v L β q D k s)
    (hlag : SepLag ia.chis feat l es.phiMeans E θ k s) :
    SepPass A β q E θ φ₀ (k + n - 1) t ∧ t.reviveCount = count ∧
      SepPlace feat l es.phiMeans J₀ φ₀ Q v L β q D (k + n) t.state ∧
      SepLag ia.chis feat l es.phiMeans E θ (k + n) t.state := by
  induction h with
  | one h =>
    rw [hu.interaction, hu.ensemble] at h
    exact sep_next hd hu.size hu.means hu.section' hu.volumes hu.mean hu.sum hu.bound hu.gas h hs hlag
  | more h1 h2 ih =>
    obtain ⟨i1, i2, i3, i4⟩ := ih hs hlag
    rw [hu.interaction, hu.ensemble] at h2
    obtain ⟨j1, j2, j3⟩ := sep_next hd hu.size hu.means hu.section' hu.volumes hu.mean hu.sum hu.bound hu.gas
      h2 i3 i4
    exact ⟨j1, j2.trans i2, j3⟩

theorem Spec.Chain.separated (hd : SepData ia.chis feat l σ ia.coef J₀ φ₀ e.params Q v δ L A X β q D E θ)
    (hu : SepSetup ia es feat l σ J₀ φ₀ e) {b b' : ℤ} {inner : ℕ} {ts : List (Trace C S M ℝ G)}
    {s s' : State C S M ℝ G} (h : Chain e inner ts s b s' b')
    (hs : SepPlace feat l es.phiMeans J₀ φ₀ Q v L β q D k s)
    (hlag : SepLag ia.chis feat l es.phiMeans E θ k s) :
    b' = b ∧ SepPlace feat l es.phiMeans J₀ φ₀ Q v L β q D (k + ts.length * inner) s' ∧
      SepLag ia.chis feat l es.phiMeans E θ (k + ts.length * inner) s' := by
  induction h generalizing k with
  | nil => exact ⟨rfl, by simpa using hs, by simpa using hlag⟩
  | cons h1 h2 ih =>
    obtain ⟨i1, i2, i3, i4⟩ := h1.separated hd hu hs hlag
    obtain ⟨j1, j2⟩ := ih i3 i4
    have hk : ∀ n : ℕ, k + inner + n * inner = k + (n + 1) * inner := fun n => by ring
    rw [hk] at j2
    exact ⟨by rw [j1, i2]; simp, j2⟩

end Flory
