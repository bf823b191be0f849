import Verif.Lemmas.SeparatedRun

/-! # Small reported errors mean that the phases are close -/

set_option linter.unusedSectionVars false

namespace Flory

open Spec Finset

section Gap

variable {V : Type} [NormedAddCommGroup V] [NormedSpace ℝ V] [ProperSpace V]

/-- A vector whose form shrinks moves by a part of its length. -/
theorem form_gap {Q : V → ℝ} (hc : Continuous Q) (hh : ∀ (t : ℝ) w, Q (t • w) = t ^ 2 * Q w) {v q : ℝ}
    (hv : 0 < v) (hco : ∀ w, v * ‖w‖ ^ 2 ≤ Q w) (hq0 : 0 ≤ q) (hq : q < 1) :
    ∃ ε > 0, ∀ w w', Q w' ≤ q ^ 2 * Q w → ε * ‖w‖ ≤ ‖w' - w‖ := by
  obtain ⟨Lf, hLf, hup⟩ := exists_form_le hc hh
  have hq2 : q ^ 2 < 1 := by nlinarith
  have hsq : √(Lf / v) ^ 2 = Lf / v := Real.sq_sqrt (by positivity)
  obtain ⟨ε, hε, h⟩ := form_perturb hc hh (L := √(Lf / v)) (η := (1 - q ^ 2) * v / 2)
    (by have : 0 < 1 - q ^ 2 := by linarith
        positivity)
  refine ⟨ε, hε, fun w w' hw => ?_⟩
  by_contra hcon
  have hlt := not_le.mp hcon
  have h1 : v * ‖w'‖ ^ 2 ≤ Lf * ‖w‖ ^ 2 := by
    have h2 := (le_abs_self _).trans (hup w)
    have h3 : 0 ≤ Q w := le_trans (by positivity) (hco w)
    have h4 := (hco w').trans hw
    nlinarith
  have h2 : ‖w'‖ ≤ √(Lf / v) * ‖w‖ := by
    refine (le_abs_self _).trans (abs_le_of_sq_le_sq ?_ (by positivity))
    rw [mul_pow, hsq, div_mul_eq_mul_div, le_div_iff₀ hv]
    linarith
  have h3 := h w w' (w - w') h2 (by rw [norm_sub_rev]; exact hlt.le)
  rw [add_sub_cancel] at h3
  have h4 := mul_le_mul_of_nonneg_left (hco w) (show 0 ≤ 1 - q ^ 2 by linarith)
  have h5 : (1 - q ^ 2) * (v * ‖w‖ ^ 2) ≤ (1 - q ^ 2) * v / 2 * ‖w‖ ^ 2 := by linarith
  have h6 : 0 < (1 - q ^ 2) * v := mul_pos (by linarith) hv
  have h7 : ‖w‖ ^ 2 ≤ 0 := by
    by_contra hpos
    have := mul_pos h6 (not_le.mp hpos)
    linarith
  have h8 : ‖w‖ = 0 := by nlinarith [norm_nonneg w]
  rw [h8, mul_zero] at hlt
  exact absurd hlt (not_lt.mpr (norm_nonneg _))

end Gap

theorem exp_near {l u U : ℝ} (hl : 0 ≤ l) (hu : |u| ≤ U) (hU : U ≤ 1) :
    |Real.exp (-(l * u)) - 1| ≤ l * Real.exp l * U := by
  have hU0 : 0 ≤ U := (abs_nonneg _).trans hu
  obtain ⟨h1, h2⟩ := exp_sub_one_bound hl hU0 hU
  rw [abs_le] at hu
  have h3 : Real.exp (-(l * u)) ≤ Real.exp (l * U) :=
    Real.exp_le_exp.mpr (by nlinarith)
  have h4 : Real.exp (-(l * U)) ≤ Real.exp (-(l * u)) :=
    Real.exp_le_exp.mpr (by nlinarith)
  rw [abs_le]
  constructor <;> linarith

variable {G : Type} {C S M : ℕ} [NeZero M] [NeZero S]

/-- Fractions move little when fields and volumes do. -/
theorem fracsOf_move {feat : Fin C → Fin S} {l x : Vec C ℝ} {J J' : Vec M ℝ} {om om' : Mat S M ℝ}
    {n κ b τ F : ℝ} (hl : ∀ i, 0 < l i) (hκ : ∀ i, l i * Real.exp (l i) ≤ κ) (hx : ∀ i, 0 < x i)
    (hn : 0 < n) (hb : 0 ≤ b) (hJ : ∀ m, n ≤ J m)
    (hτ0 : 0 ≤ τ) (hτ : τ ≤ 1) (hom : ∀ r m, |om' r m - om r m| ≤ τ) (hJ' : ∀ m, |J' m - J m| ≤ b * τ)
    (hsmall : (b / n * (1 + κ) + κ) * τ ≤ 1 / 2) {i : Fin C} {m : Fin M}
    (hF : fracsOf feat l x J om i m ≤ F) :
    |fracsOf feat l x J' om' i m - fracsOf feat l x J om i m| ≤ F * (2 * (b / n * (1 + κ) + 2 * κ)) * τ := by
  have hM : (0 : ℝ) < M := by exact_mod_cast Nat.pos_of_ne_zero (NeZero.ne M)
  have hκ0 : 0 ≤ κ := (mul_pos (hl i) (Real.exp_pos _)).le.trans (hκ i)
  have hJp : ∀ m, 0 < J m := fun m => hn.trans_le (hJ m)
  set y : Fin M → ℝ := fun k => Real.exp (-(l i * (om' (feat i) k - om (feat i) k))) with hy
  have hyk : ∀ k, |y k - 1| ≤ κ * τ := fun k =>
    (exp_near (hl i).le (hom _ _) hτ).trans (mul_le_mul_of_nonneg_right (hκ i) hτ0)
  have he : ∀ k, Real.exp (-om' (feat i) k * l i) = y k * Real.exp (-om (feat i) k * l i) := fun k => by
    rw [hy, ← Real.exp_add]
    congr 1
    ring
  set P := partitionFn feat l (fun m => J m / M) om i with hP
  set P' := partitionFn feat l (fun m => J' m / M) om' i with hP'
  have hP0 : 0 < P := sum_pos (fun k _ => mul_pos (div_pos (hJp k) hM) (Real.exp_pos _)) univ_nonempty
  set g := (b / n * (1 + κ) + κ) * τ with hg
  have hPP : |P' - P| ≤ g * P := by
    have e : P' - P = ∑ k, (J' k * y k - J k) / M * Real.exp (-om (feat i) k * l i) := by
      rw [hP, hP']
      unfold partitionFn
      rw [← sum_sub_distrib]
      refine sum_congr rfl fun k _ => ?_
      rw [he]
      ring
    rw [e]
    refine (abs_sum_le_sum_abs _ _).trans ?_
    rw [hP]
    unfold partitionFn
    rw [mul_sum]
    refine sum_le_sum fun k _ => ?_
    rw [abs_mul, abs_of_pos (Real.exp_pos _), abs_div, abs_of_pos hM, ← mul_assoc]
    refine mul_le_mul_of_nonneg_right ?_ (Real.exp_pos _).le
    rw [← mul_div_assoc]
    refine div_le_div_of_nonneg_right ?_ hM.le
    have e2 : J' k * y k - J k = (J' k - J k) * y k + J k * (y k - 1) := by ring
    rw [e2]
    have hy1 : |y k| ≤ 1 + κ := by
      have h1 := abs_le.mp (hyk k)
      have h2 : κ * τ ≤ κ := mul_le_of_le_one_right hκ0 hτ
      rw [abs_of_pos (Real.exp_pos _)]
      linarith [h1.2]
    have h1 : |(J' k - J k) * y k| ≤ b * τ * (1 + κ) := by
      rw [abs_mul]
      exact mul_le_mul (hJ' k) hy1 (abs_nonneg _) (by positivity)
    have h2 : b * τ * (1 + κ) ≤ b / n * (1 + κ) * τ * J k := by
      have : b * τ * (1 + κ) = b / n * (1 + κ) * τ * n := by field_simp
      rw [this]
      exact mul_le_mul_of_nonneg_left (hJ k) (by positivity)
    have h3 : |J k * (y k - 1)| ≤ J k * (κ * τ) := by
      rw [abs_mul, abs_of_pos (hJp k)]
      exact mul_le_mul_of_nonneg_left (hyk k) (hJp k).le
    refine (abs_add_le _ _).trans ((add_le_add (h1.trans h2) h3).trans (le_of_eq ?_))
    rw [hg]
    ring
  have hP'0 : P / 2 ≤ P' := by
    have h1 := (abs_le.mp hPP).1
    have h2 : g * P ≤ 1 / 2 * P := mul_le_mul_of_nonneg_right hsmall hP0.le
    linarith
  have hP'p : 0 < P' := by linarith
  have hf : fracsOf feat l x J' om' i m - fracsOf feat l x J om i m =
      fracsOf feat l x J om i m * ((P * (y m - 1) - (P' - P)) / P') := by
    show x i / P' * Real.exp (-om' (feat i) m * l i) - x i / P * Real.exp (-om (feat i) m * l i) =
      x i / P * Real.exp (-om (feat i) m * l i) * ((P * (y m - 1) - (P' - P)) / P')
    rw [he]
    field_simp
    ring
  have hfp := fracsOf_pos (feat := feat) (l := l) (om := om) hx hJp i m
  rw [hf, abs_mul, abs_of_pos hfp, mul_assoc]
  refine mul_le_mul hF ?_ (abs_nonneg _) (hfp.le.trans hF)
  rw [abs_div, abs_of_pos hP'p, div_le_iff₀ hP'p]
  have h1 : |P * (y m - 1)| ≤ P * (κ * τ) := by
    rw [abs_mul, abs_of_pos hP0]
    exact mul_le_mul_of_nonneg_left (hyk m) hP0.le
  refine ((abs_sub _ _).trans (add_le_add h1 hPP)).trans ?_
  calc P * (κ * τ) + g * P = 2 * (b / n * (1 + κ) + 2 * κ) * τ * (P / 2) := by rw [hg]; ring
    _ ≤ _ := mul_le_mul_of_nonneg_left hP'0 (by positivity)

variable {ia : FHCompiled S ℝ} {en : EntropyI C S M ℝ} {es : CanonicalC C ℝ} {rng : Rng G ℝ}
  {p : Params ℝ} {tries : ℤ} {count : ℕ} {s : State C S M ℝ G} {t : Trace C S M ℝ G}
  {l : Vec C ℝ} {feat : Fin C → Fin S} {σ : Fin S → Fin C} {J₀ : Vec M ℝ} {φ₀ : Mat C M ℝ}
  {Q : Mat C M ℝ → ℝ} {v δ L A X β q D E θ : ℝ} {k : ℕ}

/-- All the changes of the fields are small if the reported errors are, although the reported maximum is
one of signed numbers. -/
theorem omegaDiff_le (hf : IterFacts (ia.toI M) en (es.toI M) rng p tries count s t)
    (hP : SchemePass ia feat l (fracsOf feat l es.phiMeans s.Js s.omegas) s t) {c tol : ℝ}
    (hc : |ia.coef| ≤ c) (h1 : t.maxAbsIncomp ≤ tol) (h2 : t.maxAbsOmegaDiff ≤ tol)
    (r : Fin S) (m : Fin M) : |t.omegaDiff r m| ≤ (S + c) * tol := by
  have hS : (0 : ℝ) < S := by exact_mod_cast Nat.pos_of_ne_zero (NeZero.ne S)
  have hS1 : (1 : ℝ) ≤ S := by exact_mod_cast Nat.one_le_iff_ne_zero.mpr (NeZero.ne S)
  have hup : ∀ r m, t.omegaDiff r m ≤ tol := fun r m => by
    rw [hf.maxAbsOmegaDiff] at h2
    exact ((rowsMax_spec _).2.1 r m).trans h2
  have hinc : |t.incomp m| ≤ tol := by
    rw [hf.maxAbsIncomp] at h1
    exact (le_npMax (fun m => |t.incomp m|) m).trans h1
  have htol : 0 ≤ tol := (abs_nonneg _).trans hinc
  have hc0 : 0 ≤ c := (abs_nonneg _).trans hc
  have hsum : ∑ r, t.omegaDiff r m = ia.coef * t.incomp m := by
    simp only [hP.omegaDiff, schemeField_lag, sum_add_distrib, sum_lag, hP.incomp, sum_const, card_univ,
      Fintype.card_fin, nsmul_eq_mul, zero_add]
    field_simp
  have h3 : |ia.coef * t.incomp m| ≤ c * tol := by
    rw [abs_mul]
    exact mul_le_mul hc hinc (abs_nonneg _) hc0
  have h4 : ∑ q ∈ univ.erase r, t.omegaDiff q m ≤ (S - 1) * tol := by
    refine (sum_le_sum fun q _ => hup q m).trans (le_of_eq ?_)
    rw [sum_const, card_erase_of_mem (mem_univ r), card_univ, Fintype.card_fin, nsmul_eq_mul,
      Nat.cast_sub (Nat.one_le_iff_ne_zero.mpr (NeZero.ne S)), Nat.cast_one]
  have h5 := add_sum_erase univ (fun q => t.omegaDiff q m) (mem_univ r)
  have h6 := abs_le.mp h3
  have h7 := hup r m
  have h8 : (S : ℝ) * tol = tol + (S - 1) * tol := by ring
  have h9 : 0 ≤ ((S : ℝ) - 1) * tol := mul_nonneg (by linarith) htol
  have h10 : 0 ≤ c * tol := mul_nonneg hc0 htol
  rw [abs_le, add_mul]
  constructor <;> linarith [h6.1, h6.2]

/-- Accuracy of a pass that reports small errors. -/
theorem sep_accuracy {l : Vec C ℝ} (hl : ∀ i, 0 < l i) {p : Params ℝ} {δ X n c ε : ℝ} (hn : 0 < n)
    (hδ : 0 < δ) (hX : 0 ≤ X) (hc : 0 ≤ c) (hε : 0 < ε) (hb : 0 < p.acceptanceJs) :
    ∃ B > 0, ∀ (ia : FHCompiled S ℝ) (es : CanonicalC C ℝ) (feat : Fin C → Fin S) (σ : Fin S → Fin C)
      (J₀ : Vec M ℝ) (φ₀ : Mat C M ℝ) (Q : Mat C M ℝ → ℝ) (v L A β q D E θ : ℝ) (k count : ℕ) (tries : ℤ)
      (en : EntropyI C S M ℝ) (rng : Rng G ℝ) (s : State C S M ℝ G) (t : Trace C S M ℝ G) (tol : ℝ),
      SepData ia.chis feat l σ ia.coef J₀ φ₀ p Q v δ L A X β q D E θ →
      (∀ m, n ≤ J₀ m) → |ia.coef| ≤ c → (∀ i, 0 < es.phiMeans i) →
      (∀ i m, φ₀ i m ≤ 1) → (∀ w w', Q w' ≤ q ^ 2 * Q w → ε * ‖w‖ ≤ ‖w' - w‖) →
      IterFacts (ia.toI M) en (es.toI M) rng p tries count s t →
      SepPlace feat l es.phiMeans J₀ φ₀ Q v L β q D k s →
      SepPlace feat l es.phiMeans J₀ φ₀ Q v L β q D (k + 1) t.state →
      SepStep ia es feat l J₀ φ₀ p Q L β q k s t →
      t.maxAbsIncomp ≤ tol → t.maxAbsOmegaDiff ≤ tol → t.maxAbsJsDiff ≤ tol →
      (∀ i m, |t.phisComp i m - φ₀ i m| ≤ B * tol) ∧
      ‖devOf J₀ φ₀ t.Js (fracsOf feat l es.phiMeans t.Js t.omegas)‖ ≤ B * tol ∧
      ∀ r m, |lag ia.chis feat (fracsOf feat l es.phiMeans t.Js t.omegas) t.omegas r m| ≤ B * tol := by
  have hS : (0 : ℝ) < S := by exact_mod_cast Nat.pos_of_ne_zero (NeZero.ne S)
  have hS1 : (1 : ℝ) ≤ S := by exact_mod_cast Nat.one_le_iff_ne_zero.mpr (NeZero.ne S)
  set κ := ∑ i, l i * Real.exp (l i) with hκ
  have hκi : ∀ i, l i * Real.exp (l i) ≤ κ := fun i =>
    single_le_sum (f := fun i => l i * Real.exp (l i)) (fun j _ => (mul_pos (hl j) (Real.exp_pos _)).le)
      (mem_univ i)
  have hκ0 : 0 ≤ κ := sum_nonneg fun i _ => (mul_pos (hl i) (Real.exp_pos _)).le
  clear_value κ
  set b := 2 * p.acceptanceJs with hbdef
  have hb0 : 0 < b := by positivity
  set T := (S : ℝ) + c with hT
  have hT0 : 0 < T := by positivity
  have hT1 : 1 ≤ T := by rw [hT]; linarith
  set F := 1 + 2 * δ with hF
  have hF0 : 0 < F := by positivity
  set h₀ := b / (n / 2) * (1 + κ) + κ with hh₀
  have hh0 : 0 < h₀ := by positivity
  -- small errors
  set tol₀ := min (1 / T) (1 / (2 * h₀ * T)) with htol₀
  have htol₀0 : 0 < tol₀ := by positivity
  set H := F * (2 * (b / (n / 2) * (1 + κ) + 2 * κ)) * T + 4 * δ / tol₀ with hH
  have hH0 : 0 < H := by positivity
  set W := b * F / n + 2 * H with hW
  have hW0 : 0 < W := by positivity
  set B := W + W / ε + δ / tol₀ + H + (2 * (W / ε + δ / tol₀)) + (T + c + 2 * X * H) with hB
  have hXH : 0 ≤ 2 * X * H := by positivity
  have hWε : 0 < W / ε := by positivity
  have hδt : 0 < δ / tol₀ := by positivity
  have hB0 : 0 < B := by positivity
  clear_value b T F h₀
  refine ⟨B, hB0, fun ia es feat σ J₀ φ₀ Q v L A β q D E θ k count tries en rng s t tol hd hJn hcc hx hφ1
    hgap hf hs ht hst h1 h2 h3 => ?_⟩
  have hP := hst.scheme
  have hinc : ∀ m, |t.incomp m| ≤ tol := fun m => by
    rw [hf.maxAbsIncomp] at h1
    exact (le_npMax (fun m => |t.incomp m|) m).trans h1
  have htol : 0 ≤ tol := (abs_nonneg _).trans (hinc 0)
  have hom : ∀ r m, |t.omegaDiff r m| ≤ T * tol := fun r m => hT ▸ omegaDiff_le hf hP hcc h1 h2 r m
  have hqk : 0 ≤ q ^ k := pow_nonneg hd.q_nonneg k
  have hqk1 : q ^ k ≤ 1 := pow_le_one₀ hd.q_nonneg hd.q_lt.le
  have hβk : β * q ^ k ≤ δ := (mul_le_of_le_one_right hd.β_nonneg hqk1).trans hd.β_le
  have hβk1 : β * q ^ (k + 1) ≤ δ :=
    (mul_le_of_le_one_right hd.β_nonneg (pow_le_one₀ hd.q_nonneg hd.q_lt.le)).trans hd.β_le
  have hfs : ∀ i m, |fracsOf feat l es.phiMeans s.Js s.omegas i m - φ₀ i m| ≤ 2 * δ := fun i m =>
    (hs.frac_le hd i m).trans (by linarith)
  have hft : ∀ i m, |fracsOf feat l es.phiMeans t.Js t.omegas i m - φ₀ i m| ≤ 2 * δ := fun i m =>
    (ht.frac_le hd i m).trans (by linarith)
  have hJs2 : ∀ m, n / 2 ≤ s.Js m := fun m => by
    have := (hs.volume hd m).1
    linarith [hd.vol m, hJn m]
  have hJ2 : ∀ m, s.Js m / J₀ m ≤ 2 := fun m => by
    have h0 : 0 < J₀ m := hn.trans_le (hJn m)
    rw [div_le_iff₀ h0]
    have := (hs.volume hd m).2
    linarith [hd.vol m]
  -- fractions move little
  have hmove : ∀ i m, |fracsOf feat l es.phiMeans t.Js t.omegas i m -
      fracsOf feat l es.phiMeans s.Js s.omegas i m| ≤ H * tol := fun i m => by
    by_cases hlarge : tol₀ < tol
    · have h4 : |fracsOf feat l es.phiMeans t.Js t.omegas i m -
          fracsOf feat l es.phiMeans s.Js s.omegas i m| ≤ 4 * δ := by
        have e1 := abs_le.mp (hfs i m)
        have e2 := abs_le.mp (hft i m)
        rw [abs_le]
        constructor <;> linarith [e1.1, e1.2, e2.1, e2.2]
      refine h4.trans ?_
      have h5 : 4 * δ = 4 * δ / tol₀ * tol₀ := by field_simp
      have h6 : 4 * δ / tol₀ * tol₀ ≤ 4 * δ / tol₀ * tol := mul_le_mul_of_nonneg_left hlarge.le (by positivity)
      have h7 : 0 ≤ F * (2 * (b / (n / 2) * (1 + κ) + 2 * κ)) * T * tol := by positivity
      rw [hH, add_mul]
      linarith
    · have hsm := not_lt.mp hlarge
      have hτ1 : T * tol ≤ 1 := by
        have := hsm.trans (min_le_left _ _)
        rw [le_div_iff₀ hT0] at this
        linarith
      have hτ2 : h₀ * (T * tol) ≤ 1 / 2 := by
        have := hsm.trans (min_le_right _ _)
        rw [le_div_iff₀ (by positivity)] at this
        linarith
      have hdiff : ∀ r m, |t.omegas r m - s.omegas r m| ≤ T * tol := fun r m => by
        rw [hst.omegas, add_sub_cancel_left, abs_mul, abs_of_pos hd.a_pos, ← hP.omegaDiff]
        exact (mul_le_of_le_one_left (abs_nonneg _) hd.a_le).trans (hom r m)
      have hvol : ∀ m, |t.Js m - s.Js m| ≤ b * (T * tol) := fun m => by
        refine (hst.vols m).trans ?_
        have h4 : t.maxAbsJsDiff ≤ T * tol := h3.trans (le_mul_of_one_le_left htol hT1)
        have := mul_le_mul_of_nonneg_left h4 hb0.le
        rw [hbdef] at this ⊢
        linarith
      have hFi : fracsOf feat l es.phiMeans s.Js s.omegas i m ≤ F := by
        have := (abs_le.mp (hfs i m)).2
        rw [hF]
        linarith [hφ1 i m]
      have h4 := fracsOf_move (x := es.phiMeans) hl hκi hx (half_pos hn) hb0.le hJs2 (by positivity) hτ1 hdiff
        hvol (hh₀ ▸ hτ2) hFi
      refine h4.trans ?_
      have h7 : 0 ≤ 4 * δ / tol₀ * tol := by positivity
      rw [hH, add_mul]
      linarith
  set w := devOf J₀ φ₀ s.Js (fracsOf feat l es.phiMeans s.Js s.omegas) with hw
  set w' := devOf J₀ φ₀ t.Js (fracsOf feat l es.phiMeans t.Js t.omegas) with hw'
  have hdiff : ‖w' - w‖ ≤ W * tol := by
    refine (pi_norm_le_iff_of_nonneg (by positivity)).mpr fun i =>
      (pi_norm_le_iff_of_nonneg (by positivity)).mpr fun m => ?_
    have h0 : 0 < J₀ m := hn.trans_le (hJn m)
    have hs0 := hs.Js_pos hd m
    have e : (w' - w) i m = (t.Js m - s.Js m) / J₀ m * (fracsOf feat l es.phiMeans t.Js t.omegas i m - φ₀ i m) +
        s.Js m / J₀ m * (fracsOf feat l es.phiMeans t.Js t.omegas i m -
          fracsOf feat l es.phiMeans s.Js s.omegas i m) := by
      simp only [hw, hw', Pi.sub_apply]
      unfold devOf
      ring
    rw [e, Real.norm_eq_abs]
    have h4 : |(t.Js m - s.Js m) / J₀ m * (fracsOf feat l es.phiMeans t.Js t.omegas i m - φ₀ i m)| ≤
        b * tol / n * F := by
      rw [abs_mul, abs_div, abs_of_pos h0]
      refine mul_le_mul ?_ ((hft i m).trans (by rw [hF]; linarith)) (abs_nonneg _) (by positivity)
      have h5 : |t.Js m - s.Js m| ≤ b * tol := by
        refine (hst.vols m).trans ?_
        have := mul_le_mul_of_nonneg_left h3 hb0.le
        rw [hbdef] at this ⊢
        linarith
      exact div_le_div₀ (by positivity) h5 hn (hJn m)
    have h6 : |s.Js m / J₀ m * (fracsOf feat l es.phiMeans t.Js t.omegas i m -
          fracsOf feat l es.phiMeans s.Js s.omegas i m)| ≤ 2 * (H * tol) := by
      rw [abs_mul, abs_of_pos (div_pos hs0 h0)]
      exact mul_le_mul (hJ2 m) (hmove i m) (abs_nonneg _) two_pos.le
    refine (abs_add_le _ _).trans ((add_le_add h4 h6).trans (le_of_eq ?_))
    rw [hW]
    ring
  have hwn : ‖w‖ ≤ W / ε * tol := by
    have := (hgap w w' hst.contract).trans hdiff
    rw [div_mul_eq_mul_div, le_div_iff₀ hε]
    linarith
  have hwn' : ‖w'‖ ≤ (W + W / ε) * tol := by
    have := norm_add_le (w' - w) w
    rw [sub_add_cancel] at this
    rw [add_mul]
    linarith
  have hWt : 0 ≤ W * tol := by positivity
  refine ⟨fun i m => ?_, hwn'.trans (mul_le_mul_of_nonneg_right (by rw [hB]; linarith) htol), fun r m => ?_⟩
  · rw [hP.phis]
    have h0 : 0 < J₀ m := hn.trans_le (hJn m)
    have hJ := hs.Js_pos hd m
    have h := (norm_le_pi_norm _ m).trans ((norm_le_pi_norm w i).trans hwn)
    rw [hw] at h
    unfold devOf at h
    rw [Real.norm_eq_abs, abs_mul, abs_of_pos (div_pos hJ h0)] at h
    have h4 : 1 / 2 ≤ s.Js m / J₀ m := by
      rw [div_le_div_iff₀ two_pos h0]
      linarith [(hs.volume hd m).1, hd.vol m]
    have h5 := mul_le_mul_of_nonneg_right h4
      (abs_nonneg (fracsOf feat l es.phiMeans s.Js s.omegas i m - φ₀ i m))
    have h6 : 2 * (W / ε) * tol ≤ B * tol := mul_le_mul_of_nonneg_right (by rw [hB]; linarith) htol
    linarith
  · have hls : ∀ r m, |lag ia.chis feat (fracsOf feat l es.phiMeans s.Js s.omegas) s.omegas r m| ≤
        (T + c) * tol := fun r m => by
      have e : lag ia.chis feat (fracsOf feat l es.phiMeans s.Js s.omegas) s.omegas r m =
          t.omegaDiff r m - ia.coef / S * t.incomp m := by
        rw [hP.omegaDiff, schemeField_lag, hP.incomp]
        ring
      rw [e, add_mul]
      refine (abs_sub _ _).trans (add_le_add (hom r m) ?_)
      rw [abs_mul, abs_div, abs_of_pos hS]
      exact mul_le_mul ((div_le_self (abs_nonneg _) hS1).trans hcc) (hinc m) (abs_nonneg _) hc
    have hpot : ∀ r, |∑ j, ia.chis r (feat j) * (fracsOf feat l es.phiMeans t.Js t.omegas j m -
        fracsOf feat l es.phiMeans s.Js s.omegas j m)| ≤ X * (H * tol) := fun r => by
      refine (abs_sum_le_sum_abs _ _).trans ?_
      refine le_trans ?_ (mul_le_mul_of_nonneg_right (hd.X_ge r) (by positivity))
      rw [sum_mul]
      refine sum_le_sum fun j _ => ?_
      rw [abs_mul]
      exact mul_le_mul_of_nonneg_left (hmove j m) (abs_nonneg _)
    have hmean : |(∑ q, ∑ j, ia.chis q (feat j) * (fracsOf feat l es.phiMeans t.Js t.omegas j m -
        fracsOf feat l es.phiMeans s.Js s.omegas j m)) / S| ≤ X * (H * tol) := by
      rw [abs_div, abs_of_pos hS, div_le_iff₀ hS]
      refine (abs_sum_le_sum_abs _ _).trans ((sum_le_sum fun r _ => hpot r).trans ?_)
      simp [mul_comm]
    rw [lag_next hst.omegas]
    have h4 : |(1 - p.acceptanceOmega) * lag ia.chis feat (fracsOf feat l es.phiMeans s.Js s.omegas) s.omegas r m|
        ≤ (T + c) * tol := by
      rw [abs_mul]
      refine (mul_le_of_le_one_left (abs_nonneg _) ?_).trans (hls r m)
      rw [abs_le]
      constructor <;> linarith [hd.a_pos, hd.a_le]
    have h5 := (abs_sub _ _).trans (add_le_add (hpot r) hmean)
    refine (abs_add_le _ _).trans ((add_le_add h4 h5).trans ?_)
    have h6 : (T + c + 2 * X * H) * tol ≤ B * tol := mul_le_mul_of_nonneg_right (by rw [hB]; linarith) htol
    linarith

/-- The last of some passes, in terms of the reduced map. -/
def SepLast (ia : FHCompiled S ℝ) (es : CanonicalC C ℝ) (feat : Fin C → Fin S) (l : Vec C ℝ) (J₀ : Vec M ℝ)
    (φ₀ : Mat C M ℝ) (e : RunEnv C S M ℝ G) (Q : Mat C M ℝ → ℝ) (v L β q D : ℝ) (t : Trace C S M ℝ G) : Prop :=
  ∃ k count tries s, IterFacts (ia.toI M) e.en (es.toI M) e.rng e.params tries count s t ∧
    SepPlace feat l es.phiMeans J₀ φ₀ Q v L β q D k s ∧
    SepPlace feat l es.phiMeans J₀ φ₀ Q v L β q D (k + 1) t.state ∧
    SepStep ia es feat l J₀ φ₀ e.params Q L β q k s t

theorem Spec.Passes.separated_last {e : RunEnv C S M ℝ G}
    (hd : SepData ia.chis feat l σ ia.coef J₀ φ₀ e.params Q v δ L A X β q D E θ)
    (hu : SepSetup ia es feat l σ J₀ φ₀ e) {b : ℤ} {n : ℕ} (h : Passes e b n count s t)
    (hs : SepPlace feat l es.phiMeans J₀ φ₀ Q v L β q D k s)
    (hlag : SepLag ia.chis feat l es.phiMeans E θ k s) : SepLast ia es feat l J₀ φ₀ e Q v L β q D t := by
  cases h with
  | one h =>
    rw [hu.interaction, hu.ensemble] at h
    have hf := iterate_facts h
    obtain ⟨h1, h2⟩ := sepPlace_next hd hu.size hu.means hu.section' hu.volumes hu.mean hu.bound hu.gas hf hs
    exact ⟨_, _, _, _, hf, hs, h2, h1⟩
  | more h1 h2 =>
    obtain ⟨-, -, i3, -⟩ := h1.separated hd hu hs hlag
    rw [hu.interaction, hu.ensemble] at h2
    have hf := iterate_facts h2
    obtain ⟨h1, h2⟩ := sepPlace_next hd hu.size hu.means hu.section' hu.volumes hu.mean hu.bound hu.gas hf i3
    exact ⟨_, _, _, _, hf, i3, h2, h1⟩

end Flory
