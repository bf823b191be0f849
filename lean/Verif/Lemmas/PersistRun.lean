import Verif.Lemmas.PersistMap
import Verif.Spec.Scan

/-! # Runs near phases that are close to given ones -/

set_option linter.unusedSectionVars false

namespace Flory

open Spec Finset

variable {G : Type} {C S M P : ℕ} [NeZero M] [NeZero S]

namespace Sep

/-- Deviation of the amounts relative to other volumes. -/
noncomputable def scale (J J₀ : Vec M ℝ) (w : Mat C M ℝ) : Mat C M ℝ := fun i m => J m / J₀ m * w i m

variable {X : Mat C C ℝ} {l : Vec C ℝ} {σ : Fin S → Fin C} {J₁ J₀ : Vec M ℝ} {φ : Mat C M ℝ} {a b c : ℝ}

theorem fracs_scale (h0 : ∀ m, J₀ m ≠ 0) (w : Mat C M ℝ) (J : Vec M ℝ) :
    fracs J₀ φ (scale J₁ J₀ w) J = fracs J₁ φ w J := by
  funext i m
  unfold fracs scale
  have := h0 m
  field_simp

theorem devNext_scale (h0 : ∀ m, J₀ m ≠ 0) (h1 : ∀ m, J₁ m ≠ 0) (w : Mat C M ℝ) (J : Vec M ℝ) :
    devNext X l σ a b c J₀ φ (scale J₁ J₀ w, J) = scale J₁ J₀ (devNext X l σ a b c J₁ φ (w, J)) := by
  funext i m
  unfold devNext
  rw [fracs_scale h0]
  unfold scale
  have := h0 m
  have := h1 m
  field_simp

theorem volNext_scale (h0 : ∀ m, J₀ m ≠ 0) (w : Mat C M ℝ) (J : Vec M ℝ) :
    volNext X l σ b c J₀ φ (scale J₁ J₀ w, J) = volNext X l σ b c J₁ φ (w, J) := by
  funext m
  unfold volNext
  rw [fracs_scale h0]

theorem Conserving.scale (h0 : ∀ m, J₀ m ≠ 0) {w : Mat C M ℝ} {j : Vec M ℝ} (h : Conserving J₁ φ w j) :
    Conserving J₀ φ (Sep.scale J₁ J₀ w) j := by
  refine ⟨h.1, fun i => ?_⟩
  have e : ∀ m, J₀ m * Sep.scale J₁ J₀ w i m = J₁ m * w i m := fun m => by
    unfold Sep.scale
    have := h0 m
    field_simp
  simp only [e]
  exact h.2 i

theorem scale_sub (w w' : Mat C M ℝ) : scale J₁ J₀ (w' - w) = scale J₁ J₀ w' - scale J₁ J₀ w := by
  funext i m
  simp only [scale, Pi.sub_apply]
  ring

theorem scale_norm (h0 : ∀ m, 0 < J₀ m) (h : ∀ m, |J₁ m - J₀ m| ≤ J₀ m / 2) (w : Mat C M ℝ) :
    ‖scale J₁ J₀ w‖ ≤ 2 * ‖w‖ ∧ ‖w‖ ≤ 2 * ‖scale J₁ J₀ w‖ := by
  have hr : ∀ m, 1 / 2 ≤ J₁ m / J₀ m ∧ J₁ m / J₀ m ≤ 2 := fun m => by
    have := abs_le.mp (h m)
    have := h0 m
    rw [le_div_iff₀ (h0 m), div_le_iff₀ (h0 m)]
    constructor <;> linarith
  constructor
  · refine (pi_norm_le_iff_of_nonneg (by positivity)).mpr fun i =>
      (pi_norm_le_iff_of_nonneg (by positivity)).mpr fun m => ?_
    unfold scale
    rw [Real.norm_eq_abs, abs_mul, abs_of_pos (by linarith [(hr m).1])]
    exact mul_le_mul (hr m).2 (entry_le w i m) (abs_nonneg _) two_pos.le
  · refine (pi_norm_le_iff_of_nonneg (by positivity)).mpr fun i =>
      (pi_norm_le_iff_of_nonneg (by positivity)).mpr fun m => ?_
    have h1 := entry_le (scale J₁ J₀ w) i m
    unfold scale at h1
    rw [abs_mul, abs_of_pos (by linarith [(hr m).1])] at h1
    have h2 := mul_le_mul_of_nonneg_right (hr m).1 (abs_nonneg (w i m))
    rw [Real.norm_eq_abs]
    unfold scale
    linarith

end Sep

theorem Spec.Coexistence.stablePhases {chis : Mat S S ℝ} {feat : Fin C → Fin S} {l x : Vec C ℝ}
    {J J' : Vec M ℝ} {φ : Mat C M ℝ} (hc : Coexistence chis feat l x J φ) (hsym : ∀ r q, chis r q = chis q r)
    (hl : ∀ i, 0 < l i) (hJ' : ∀ m, 0 < J' m) (hst : ∀ m, StablePhase chis feat l fun i => φ i m) :
    StablePhases (fun i j => chis (feat i) (feat j)) l J' φ :=
  ⟨fun _ _ => hsym _ _, hl, hJ', hc.pos, hc.incompressible, fun m z hz hz0 => hst m z hz hz0⟩

theorem Spec.Coexistence.sepBalanced {chis : Mat S S ℝ} {feat : Fin C → Fin S} {l x : Vec C ℝ}
    {J : Vec M ℝ} {φ : Mat C M ℝ} (hc : Coexistence chis feat l x J φ) :
    Sep.Balanced (fun i j => chis (feat i) (feat j)) l φ := by
  obtain ⟨mu, hmu⟩ := hc.balance
  refine ⟨fun i => mu i - 1 / l i, fun i m => ?_⟩
  have h1 := hmu i m
  unfold chemPot at h1
  unfold Sep.pot
  rw [add_div] at h1
  linarith

/-- Phases close to given ones share the constants of the local convergence. -/
theorem exists_spot {chis : Mat S S ℝ} {feat : Fin C → Fin S} {l x : Vec C ℝ} {σ : Fin S → Fin C}
    {J₀ : Vec M ℝ} {phase : Fin M → Fin P} {ψ₀ : Mat C P ℝ} {c ρ : ℝ} {p : Params ℝ}
    (hsym : ∀ r q, chis r q = chis q r) (hl : ∀ i, 0 < l i) (hJ₀ : ∀ m, 0 < J₀ m)
    (hkill : ∀ m, p.killThreshold < J₀ m) (hc : Coexistence chis feat l x J₀ fun i m => ψ₀ i (phase m))
    (hst : ∀ m, StablePhase chis feat l fun i => ψ₀ i (phase m)) (hi : IndependentPhases ψ₀)
    (hJs : p.acceptanceJs = ρ * p.acceptanceOmega)
    (hsh : Sep.Shrinks (fun i j => chis (feat i) (feat j)) l J₀ (fun i m => ψ₀ i (phase m)) σ c ρ
      p.acceptanceOmega) :
    ∃ v > 0, ∃ Lf > 0, ∃ δ > 0, ∃ L > 0, ∃ q, 0 < q ∧ q < 1 ∧ ∃ n > 0, ∃ X ≥ 0, ∃ c₁ ≥ 0, ∃ ε > 0, ∃ K > 0,
    ∃ r > 0, ∀ (ia : FHCompiled S ℝ) (J : Vec M ℝ) (ψ : Mat C P ℝ) (x' : Vec C ℝ),
      (∀ r q, ia.chis r q = ia.chis q r) → (∀ k q, |ia.chis k q - chis k q| ≤ r) → |ia.coef - c| ≤ r →
      (∀ m, |J m - J₀ m| ≤ r) → (∀ i k, |ψ i k - ψ₀ i k| ≤ r) →
      (Coexistence ia.chis feat l x' J fun i m => ψ i (phase m)) →
      (∀ m, StablePhase ia.chis feat l fun i => ψ i (phase m)) →
      (∀ m, 0 < J m) ∧
      (∃ Q, SepSpot ia feat l σ J (fun i m => ψ i (phase m)) p Q v Lf δ L q n X c₁ ε) ∧
      ∀ w j, Sep.Conserving J (fun i m => ψ i (phase m)) w j → ‖Persist.phaseVolume j phase‖ ≤ K * ‖w‖ := by
  obtain ⟨Q, v, hv, Lf, hLf, q, hq0, hq1, ε, hε, K, hK, hco, hup, hgap, L, hL, δ, hδ, hnear⟩ :=
    Sep.exists_near_all (hc.stablePhases hsym hl hJ₀ hst) hc.sepBalanced hi hsh
  obtain ⟨n₁, hn₁, hJn⟩ := Sep.exists_lower J₀ hJ₀
  obtain ⟨n₂, hn₂, hkn⟩ := Sep.exists_lower (fun m => J₀ m - p.killThreshold) fun m => sub_pos.mpr (hkill m)
  set n := min n₁ n₂ with hn
  have hn0 : 0 < n := lt_min hn₁ hn₂
  set r := min (min (δ / 2) 1) (n / 2) with hr
  have hr0 : 0 < r := by positivity
  have hrδ : r ≤ δ / 2 := (min_le_left _ _).trans (min_le_left _ _)
  have hr1 : r ≤ 1 := (min_le_left _ _).trans (min_le_right _ _)
  have hrn : r ≤ n / 2 := min_le_right _ _
  set X := ∑ r, ∑ j, |chis r (feat j)| with hX
  have hX0 : 0 ≤ X := hX ▸ sum_nonneg fun r _ => sum_nonneg fun j _ => abs_nonneg _
  have hXr : ∀ r, ∑ j, |chis r (feat j)| ≤ X := fun r =>
    single_le_sum (f := fun r => ∑ j, |chis r (feat j)|) (fun r _ => sum_nonneg fun j _ => abs_nonneg _)
      (mem_univ r)
  clear_value r n X
  refine ⟨v / 4, by positivity, 4 * Lf, by positivity, δ / 2, by positivity, 2 * L, by positivity, q, hq0, hq1,
    n / 2, by positivity, X + C, by positivity, |c| + 1, by positivity, ε / 4, by positivity, K * 2,
    by positivity, r, hr0, fun ia J ψ x' hs hchi hcoef hJ hψ hco' hst' => ?_⟩
  have h0 : ∀ m, J₀ m ≠ 0 := fun m => (hJ₀ m).ne'
  have hn1 : ∀ m, n ≤ J₀ m := fun m => hn ▸ (min_le_left _ _).trans (hJn m)
  have hn2 : ∀ m, n ≤ J₀ m - p.killThreshold := fun m => hn ▸ (min_le_right _ _).trans (hkn m)
  have hJ1 : ∀ m, J₀ m - r ≤ J m := fun m => by linarith [(abs_le.mp (hJ m)).1]
  have hJpos : ∀ m, 0 < J m := fun m => by linarith [hJ1 m, hn1 m]
  have h1 : ∀ m, J m ≠ 0 := fun m => (hJpos m).ne'
  have hrel : ∀ m, |J m - J₀ m| ≤ J₀ m / 2 := fun m => (hJ m).trans (by linarith [hn1 m])
  have hnorm := fun w : Mat C M ℝ => Sep.scale_norm (J₁ := J) hJ₀ hrel w
  have hXX : ‖(fun i j => ia.chis (feat i) (feat j)) - (fun i j => chis (feat i) (feat j))‖ ≤ δ :=
    (pi_norm_le_iff_of_nonneg hδ.le).mpr fun i => (pi_norm_le_iff_of_nonneg hδ.le).mpr fun j =>
      (hchi _ _).trans (by linarith)
  have hψψ : ‖ψ - ψ₀‖ ≤ δ :=
    (pi_norm_le_iff_of_nonneg hδ.le).mpr fun i => (pi_norm_le_iff_of_nonneg hδ.le).mpr fun k =>
      (hψ _ _).trans (by linarith)
  have hall := hnear _ ψ ia.coef hXX hψψ (hcoef.trans (by linarith)) (hco'.stablePhases hs hl hJ₀ hst')
    hco'.sepBalanced
  refine ⟨hJpos, ⟨fun w => Q (Sep.scale J J₀ w), ?_⟩, fun w j hw => ?_⟩
  · refine ⟨fun w => ?_, fun w => ?_, fun w J' hw hwn hJ' => ?_, fun m => by linarith [hJ1 m, hn1 m],
      fun m => by linarith [hJ1 m, hn2 m], fun k => ?_, ?_, fun w w' hw => ?_, fun i m => ?_⟩
    · refine le_trans ?_ (hco _)
      have h2 := (hnorm w).2
      have h3 : ‖w‖ ^ 2 ≤ (2 * ‖Sep.scale J J₀ w‖) ^ 2 := by gcongr
      calc v / 4 * ‖w‖ ^ 2 ≤ v / 4 * (2 * ‖Sep.scale J J₀ w‖) ^ 2 := by gcongr
        _ = _ := by ring
    · refine (hup _).trans ?_
      calc Lf * ‖Sep.scale J J₀ w‖ ^ 2 ≤ Lf * (2 * ‖w‖) ^ 2 := by gcongr; exact (hnorm w).1
        _ = _ := by ring
    · have h2 := (hall _ _ (hw.scale h0)).2 J' ((hnorm w).1.trans (by linarith)) (by
        refine (pi_norm_le_iff_of_nonneg hδ.le).mpr fun m => ?_
        have e1 := norm_le_pi_norm (J' - J) m
        rw [Real.norm_eq_abs, Pi.sub_apply] at e1 ⊢
        have e2 := abs_add_le (J' m - J m) (J m - J₀ m)
        rw [sub_add_sub_cancel] at e2
        linarith [hJ m])
      rw [Sep.devNext_scale h0 h1, Sep.volNext_scale h0, ← hJs] at h2
      exact ⟨h2.1, h2.2.trans (by nlinarith [(hnorm w).1])⟩
    · calc ∑ j, |ia.chis k (feat j)| ≤ ∑ j, (|chis k (feat j)| + 1) := by
            refine sum_le_sum fun j _ => ?_
            have e2 := abs_add_le (ia.chis k (feat j) - chis k (feat j)) (chis k (feat j))
            rw [sub_add_cancel] at e2
            linarith [hchi k (feat j)]
        _ ≤ _ := by
            rw [sum_add_distrib]
            simp only [sum_const, card_univ, Fintype.card_fin, nsmul_eq_mul, mul_one]
            linarith [hXr k]
    · have e2 := abs_add_le (ia.coef - c) c
      rw [sub_add_cancel] at e2
      linarith
    · have h2 := hgap _ _ hw
      rw [← Sep.scale_sub] at h2
      have h3 := (hnorm (w' - w)).1
      have h4 := mul_le_mul_of_nonneg_left (hnorm w).2 hε.le
      linarith
    · show ψ i (phase m) ≤ 1
      have := hco'.incompressible m
      rw [← this]
      exact single_le_sum (f := fun i => ψ i (phase m)) (fun j _ => (hco'.pos j m).le) (mem_univ i)
  · refine (hall _ _ (hw.scale h0)).1.trans ?_
    have := mul_le_mul_of_nonneg_left (hnorm w).1 hK.le
    linarith

/-- What a run that starts near coexisting phases returns and leaves behind. -/
structure LocalResult (ia : FHCompiled S ℝ) (es : CanonicalC C ℝ) (feat : Fin C → Fin S) (l : Vec C ℝ)
    (J : Vec M ℝ) (phase : Fin M → Fin P) (φ : Mat C M ℝ) (tol B U q : ℝ) (b : ℤ) (f : RunState C S M ℝ G)
    (ph : Phases M C ℝ) (d : Diagnostics ℝ) : Prop where
  revive : d.reviveCountLeft = b
  incomp : d.maxAbsIncomp < tol
  omegaDiff : d.maxAbsOmegaDiff < tol
  jsDiff : d.maxAbsJsDiff < tol
  residue : d.maxConstraintResidue = 0
  fractions : ∀ m i, |ph.fractions m i - φ i m| ≤ B * U * q ^ d.steps
  fractionsTol : ∀ m i, |ph.fractions m i - φ i m| ≤ B * tol
  phVolumes : ph.volumes = f.st.Js
  drift : ∀ m, |f.st.Js m - J m| ≤ B * U
  phases : ∀ k, |Persist.phaseVolume f.st.Js phase k - Persist.phaseVolume J phase k| ≤ B * U * q ^ d.steps
  phasesTol : ∀ k, |Persist.phaseVolume f.st.Js phase k - Persist.phaseVolume J phase k| ≤ B * tol
  volumes : ∑ m, f.st.Js m = M
  fracsTol : ∀ i m, |fracsOf feat l es.phiMeans f.st.Js f.st.omegas i m - φ i m| ≤ B * tol
  lagTol : ∀ r m, |lag ia.chis feat (fracsOf feat l es.phiMeans f.st.Js f.st.omegas) f.st.omegas r m| ≤ B * tol
  cons : ∀ k ∈ f.st.cons, k.Trivial

theorem phaseVolume_sub (J J' : Vec M ℝ) (phase : Fin M → Fin P) (k : Fin P) :
    Persist.phaseVolume (J' - J) phase k = Persist.phaseVolume J' phase k - Persist.phaseVolume J phase k := by
  unfold Persist.phaseVolume
  rw [← sub_div]
  congr 1
  rw [← sum_sub_distrib]
  rfl

/-- Runs that start near phases close to given ones, with constants that only depend on the given ones. -/
theorem local_runs {chis : Mat S S ℝ} {feat : Fin C → Fin S} {l x : Vec C ℝ} {σ : Fin S → Fin C}
    {J₀ : Vec M ℝ} {phase : Fin M → Fin P} {ψ₀ : Mat C P ℝ} {c ρ : ℝ} {p : Params ℝ}
    (hsym : ∀ r q, chis r q = chis q r) (hl : ∀ i, 0 < l i) (hσ : ∀ r, feat (σ r) = r) (hJ₀ : ∀ m, 0 < J₀ m)
    (hkill : ∀ m, p.killThreshold < J₀ m) (hc : Coexistence chis feat l x J₀ fun i m => ψ₀ i (phase m))
    (hst : ∀ m, StablePhase chis feat l fun i => ψ₀ i (phase m)) (hi : IndependentPhases ψ₀) (hρ : 0 < ρ)
    (hp : ParamSetup M p ρ)
    (hsh : Sep.Shrinks (fun i j => chis (feat i) (feat j)) l J₀ (fun i m => ψ₀ i (phase m)) σ c ρ
      p.acceptanceOmega) :
    ∃ r > 0, ∃ η > 0, ∃ B > 0, ∃ q, 0 < q ∧ q < 1 ∧ ∀ Λ, 0 ≤ Λ →
    ∃ K > 0, ∀ tol > 0, ∃ N : ℕ, LogSteps K tol N ∧
    ∀ (ia : FHCompiled S ℝ) (es : CanonicalC C ℝ) (J : Vec M ℝ) (ψ : Mat C P ℝ),
      (∀ r q, ia.chis r q = ia.chis q r) → (∀ k q, |ia.chis k q - chis k q| ≤ r) → |ia.coef - c| ≤ r →
      (∀ m, |J m - J₀ m| ≤ r) → (∀ i k, |ψ i k - ψ₀ i k| ≤ r) →
      (Coexistence ia.chis feat l es.phiMeans J fun i m => ψ i (phase m)) →
      (∀ m, StablePhase ia.chis feat l fun i => ψ i (phase m)) →
    ∀ (e : RunEnv C S M ℝ G), RunSetup ia es feat l p e → ∀ (st : State C S M ℝ G) (U : ℝ), 0 ≤ U → U ≤ η →
      ∑ m, st.Js m = M → (∀ m, |st.Js m - J m| ≤ U) →
      (∀ i m, |fracsOf feat l es.phiMeans st.Js st.omegas i m - ψ i (phase m)| ≤ U) →
      (∀ r m, |lag ia.chis feat (fracsOf feat l es.phiMeans st.Js st.omegas) st.omegas r m| ≤ Λ) →
      (∀ k ∈ st.cons, k.Trivial) → ∀ (maxSteps : ℚ) (interval b : ℤ), N ≤ maxSteps → 0 < interval →
      ∃ f ph d, runImpl e maxSteps tol interval st b = (f, .ok (ph, d)) ∧
        LocalResult ia es feat l J phase (fun i m => ψ i (phase m)) tol B U q b f ph d := by
  have hM : (0 : ℝ) < M := by exact_mod_cast Nat.pos_of_ne_zero (NeZero.ne M)
  have hbJ : 0 < p.acceptanceJs := by rw [hp.js]; exact mul_pos hρ hp.omega
  obtain ⟨v, hv, Lf, hLf, δ, hδ, L, hL, q, hq0, hq1, n, hn, X, hX, c₁, hc₁, ε, hε, K, hK, r, hr, hspot⟩ :=
    exists_spot (p := p) hsym hl hJ₀ hkill hc hst hi hp.js hsh
  obtain ⟨η, hη, B, hB, hcore⟩ := separated_core (G := G) (C := C) (S := S) (M := M) hl (p := p) hε hv hLf hδ hL
    hq0 hq1 hn hX hc₁ hp.omega hsh.small hbJ hp.bound rfl
  refine ⟨r, hr, min η (n / (2 * B)), by positivity, 2 * B + K * B, by positivity, q, hq0, hq1,
    fun Λ hΛ => ?_⟩
  obtain ⟨K', hK', hrun⟩ := hcore Λ hΛ
  refine ⟨K', hK', fun tol htol => ?_⟩
  obtain ⟨N, hN0, hrun⟩ := hrun tol htol
  refine ⟨N, hN0, fun ia es J ψ h1 h2 h3 h4 h5 h6 h7 e he st U hU0 hUη hvol hJU hfU hlag hcons maxSteps interval b
    hN hint => ?_⟩
  obtain ⟨hJpos, ⟨Q, hsp⟩, hKj⟩ := hspot ia J ψ es.phiMeans h1 h2 h3 h4 h5 h6 h7
  have hx : ∀ i, 0 < es.phiMeans i := fun i => by
    have e1 := h6.mean i
    have e2 : 0 < ∑ m, J m * ψ i (phase m) := sum_pos (fun m _ => mul_pos (hJpos m) (h6.pos i m)) univ_nonempty
    rw [e1] at e2
    exact (mul_pos_iff_of_pos_left hM).mp e2
  have hu : SepSetup ia es feat l σ J (fun i m => ψ i (phase m)) e :=
    ⟨hl, hx, hσ, h6.volumes, h6.mean, h6.incompressible, he.params ▸ hp.bound, he.gas, he.interaction,
      he.ensemble⟩
  obtain ⟨f, ph, d, h, hres⟩ := hrun ia es feat σ J _ Q hsp e hu he.params he.rng hp.kill hp.kill_lt hp.kill_all
    he.criterion st U hU0 (hUη.trans (min_le_left _ _)) hvol hJU hfU hlag hcons maxSteps interval b hN hint
  have hqd : 0 ≤ q ^ d.steps := pow_nonneg hq0.le _
  have hB1 : B ≤ 2 * B + K * B := by nlinarith [mul_pos hK hB]
  have hKB : K * B ≤ 2 * B + K * B := by linarith
  have hBt : B * tol ≤ (2 * B + K * B) * tol := mul_le_mul_of_nonneg_right hB1 htol.le
  have hBU : B * U * q ^ d.steps ≤ (2 * B + K * B) * U * q ^ d.steps :=
    mul_le_mul_of_nonneg_right (mul_le_mul_of_nonneg_right hB1 hU0) hqd
  have hphase : ∀ k, |Persist.phaseVolume f.st.Js phase k - Persist.phaseVolume J phase k| ≤
      K * ‖devOf J (fun i m => ψ i (phase m)) f.st.Js (fracsOf feat l es.phiMeans f.st.Js f.st.omegas)‖ :=
    fun k => by
      rw [← phaseVolume_sub]
      exact (norm_le_pi_norm (Persist.phaseVolume (f.st.Js - J) phase) k).trans (hKj _ _ hres.conserving)
  have hhalf : ∀ m, J m / 2 ≤ f.st.Js m := fun m => by
    have e1 := (abs_le.mp (hres.drift m)).1
    have e2 := hUη.trans (min_le_right _ _)
    rw [le_div_iff₀ (by positivity)] at e2
    linarith [hsp.vol m]
  refine ⟨f, ph, d, h, hres.revive, hres.incomp, hres.omegaDiff, hres.jsDiff, hres.residue,
    fun m i => (hres.fractions m i).trans hBU, fun m i => (hres.fractionsTol m i).trans hBt, hres.phVolumes,
    fun m => (hres.drift m).trans (mul_le_mul_of_nonneg_right hB1 hU0), fun k => ?_, fun k => ?_, hres.volumes,
    fun i m => ?_, fun r m => (hres.lagTol r m).trans hBt, hres.cons⟩
  · refine (hphase k).trans ((mul_le_mul_of_nonneg_left hres.dev hK.le).trans ?_)
    calc K * (B * U * q ^ d.steps) = K * B * U * q ^ d.steps := by ring
      _ ≤ _ := mul_le_mul_of_nonneg_right (mul_le_mul_of_nonneg_right hKB hU0) hqd
  · refine (hphase k).trans ((mul_le_mul_of_nonneg_left hres.devTol hK.le).trans ?_)
    calc K * (B * tol) = K * B * tol := by ring
      _ ≤ _ := mul_le_mul_of_nonneg_right hKB htol.le
  · have e1 := (Sep.entry_le _ i m).trans hres.devTol
    unfold devOf at e1
    have e2 : 1 / 2 ≤ f.st.Js m / J m := by
      rw [div_le_div_iff₀ two_pos (hJpos m)]
      linarith [hhalf m]
    rw [abs_mul, abs_of_pos (by linarith)] at e1
    have e3 := mul_le_mul_of_nonneg_right e2
      (abs_nonneg (fracsOf feat l es.phiMeans f.st.Js f.st.omegas i m - ψ i (phase m)))
    have e4 : 2 * (B * tol) ≤ (2 * B + K * B) * tol := by
      have : 0 ≤ K * B * tol := by positivity
      linarith
    linarith

end Flory
