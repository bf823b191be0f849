import Verif.Lemmas.Reservoir
import Verif.Lemmas.MergeRun

/-! # Sequences of passes that select phases -/

set_option linter.unusedSectionVars false

namespace Flory

open Spec Finset

variable {G : Type} {C S M : ℕ} [NeZero M]

/-- Constants that describe how compartments in contact with a reservoir evolve. -/
structure SelData (ia : FHCompiled S ℝ) (l mus : Vec C ℝ) (feat : Fin C → Fin S) (phi : Mat C M ℝ)
    (c : Vec M ℝ) (p : Params ℝ) (W : Fin M → Mat S S ℝ) (ε v A β q E f₀ γ D₀ D H : ℝ) (T : ℕ) : Prop where
  phase : ∀ m, ReservoirPhase ia.chis feat l mus (fun i => phi i m) (c m)
  near : ∀ m (w : Vec S ℝ) (U : ℝ), 0 ≤ U → U ≤ β →
    (∀ r, |w r - (equilibriumField ia.chis feat l (fun j => phi j m) r - c m)| ≤ U) →
    FieldNear ia.chis ia.coef l mus feat (fun i => phi i m) (c m) w (A * U)
  v_pos : 0 < v
  coercive : ∀ m u, v * sumSq u ≤ quad (W m) u
  decrease : ∀ m d, (∀ r, |d r - loads l feat (fun i => phi i m) r| ≤ ε) → ∀ a, f₀ * p.acceptanceOmega ≤ a →
    a ≤ p.acceptanceOmega → ∀ u, quad (W m) (u - a • response ia.chis ia.coef d u) ≤ q ^ 2 * quad (W m) u
  A_pos : 0 < A
  β_nonneg : 0 ≤ β
  load : (∑ i, l i) * (A * β) ≤ ε
  q_nonneg : 0 ≤ q
  q_lt : q < 1
  energy : ∀ m, |c m| + A * β ≤ E
  aω_pos : 0 < p.acceptanceOmega
  aJ_pos : 0 < p.acceptanceJs
  ub_pos : 0 < p.JsStepUpperBound
  thr_nonneg : 0 ≤ p.killThreshold
  H_eq : H = M * (2 + 2 * p.JsStepUpperBound)
  f_pos : 0 < f₀
  f_le : f₀ * max ((M * E * H + E) * p.acceptanceJs) p.JsStepUpperBound ≤ p.JsStepUpperBound
  D_eq : D = p.acceptanceJs * (2 * (A * β))
  D₀_nonneg : 0 ≤ D₀
  alive : p.killThreshold < 1 - D₀ - (D₀ + D / (1 - q))
  γ_nonneg : 0 ≤ γ
  gap : ∀ m n, c m < c n → γ ≤ f₀ * p.acceptanceJs * (c n - c m - 2 * (A * β))
  gap_pos : ∀ m n, c m < c n → 4 * (A * β) < c n - c m
  T_ge : H + D₀ + D / (1 - q) ≤ γ * T ∨ ∀ n, Least c n

/-- A state after `k` passes. -/
structure Sel (ia : FHCompiled S ℝ) (l : Vec C ℝ) (feat : Fin C → Fin S) (phi : Mat C M ℝ) (c : Vec M ℝ)
    (thr : ℝ) (W : Fin M → Mat S S ℝ) (v β q γ D₀ D H : ℝ) (T k : ℕ) (s : State C S M ℝ G) : Prop where
  cons : ∀ k ∈ s.cons, k.Trivial
  form : ∀ m, thr < s.Js m → quad (W m)
    (fun r => s.omegas r m - (equilibriumField ia.chis feat l (fun j => phi j m) r - c m)) ≤ v * (β * q ^ k) ^ 2
  large : ∃ n, 1 - D₀ ≤ s.Js n
  le : ∀ m, s.Js m ≤ H
  order : ∀ m, Least c m → ∀ n, thr < s.Js n → s.Js n ≤ s.Js m + D₀ + D * ∑ j ∈ range k, q ^ j
  gain : ∀ m n, c m < c n → Least c m → thr < s.Js n →
    s.Js n + γ * k ≤ s.Js m + D₀ + D * ∑ j ∈ range k, q ^ j
  settled : T < k → ∑ m, (if thr < s.Js m then s.Js m else 0) = ∑ m, if thr < s.Js m then (1 : ℝ) else 0

/-- What is known about the last of `k + 1` passes. -/
structure SelPass (phi : Mat C M ℝ) (c : Vec M ℝ) (A β q : ℝ) (T k : ℕ) (t : Trace C S M ℝ G) : Prop where
  phis : ∀ m, t.masks m = 1 → ∀ i, |t.phisComp i m - phi i m| ≤ A * (β * q ^ k)
  energy : ∀ m, t.masks m = 1 → |t.localEnergy m - c m| ≤ A * (β * q ^ k)
  incomp : t.maxAbsIncomp ≤ A * (β * q ^ k)
  omegaDiff : t.maxAbsOmegaDiff ≤ A * (β * q ^ k)
  residue : t.maxConstraintResidue = 0
  least : ∀ m, Least c m → t.masks m = 1
  selected : T ≤ k → ∀ m, t.masks m = 1 → Least c m
  jsDiff : T < k → t.maxAbsJsDiff ≤ 2 * (A * (β * q ^ k))

variable {ia : FHCompiled S ℝ} {en : EntropyI C S M ℝ} {rng : Rng G ℝ}
  {p : Params ℝ} {tries : ℤ} {count : ℕ} {s : State C S M ℝ G} {t : Trace C S M ℝ G}
  {l mus : Vec C ℝ} {feat : Fin C → Fin S} {phi : Mat C M ℝ} {c : Vec M ℝ} {W : Fin M → Mat S S ℝ}
  {ε v A β q E f₀ γ D₀ D H : ℝ} {T k : ℕ}

section State

variable (hd : SelData ia l mus feat phi c p W ε v A β q E f₀ γ D₀ D H T)
include hd

theorem SelData.D_nonneg : 0 ≤ D := by
  rw [hd.D_eq]
  have := hd.aJ_pos
  have := hd.A_pos
  have := hd.β_nonneg
  positivity

theorem SelData.geom (k : ℕ) : D * ∑ j ∈ range k, q ^ j ≤ D / (1 - q) := by
  rw [div_eq_mul_one_div]
  exact mul_le_mul_of_nonneg_left (geom_le hd.q_nonneg hd.q_lt k) hd.D_nonneg

theorem SelData.U_nonneg (k : ℕ) : 0 ≤ β * q ^ k := mul_nonneg hd.β_nonneg (pow_nonneg hd.q_nonneg k)

theorem SelData.U_le (k : ℕ) : β * q ^ k ≤ β :=
  mul_le_of_le_one_right hd.β_nonneg (pow_le_one₀ hd.q_nonneg hd.q_lt.le)

theorem SelData.thr_lt : p.killThreshold < 1 - D₀ := by
  have h1 := hd.alive
  have h2 : 0 ≤ D / (1 - q) := div_nonneg hd.D_nonneg (by linarith [hd.q_lt])
  linarith [hd.D₀_nonneg]

variable (hs : Sel ia l feat phi c p.killThreshold W v β q γ D₀ D H T k s)
include hs

theorem Sel.alive {m : Fin M} (hm : Least c m) : p.killThreshold < s.Js m := by
  obtain ⟨n, hn⟩ := hs.large
  have h1 := hs.order m hm n (hd.thr_lt.trans_le hn)
  linarith [hd.geom k, hd.alive]

theorem Sel.near {m : Fin M} (hm : p.killThreshold < s.Js m) (r : Fin S) :
    |s.omegas r m - (equilibriumField ia.chis feat l (fun j => phi j m) r - c m)| ≤ β * q ^ k := by
  set u : Vec S ℝ := fun r => s.omegas r m - (equilibriumField ia.chis feat l (fun j => phi j m) r - c m) with hu
  have h1 := (hd.coercive m u).trans (hs.form m hm)
  have h2 := le_of_mul_le_mul_left h1 hd.v_pos
  exact abs_le_of_sq_le_sq ((sq_le_sumSq u r).trans h2) (hd.U_nonneg k) 

theorem Sel.least_of_alive (hk : T ≤ k) {n : Fin M} (hn : p.killThreshold < s.Js n) : Least c n := by
  rcases hd.T_ge with h | h
  · by_contra hc
    obtain ⟨m, hm⟩ := Finite.exists_min c
    have hlt : c m < c n := by
      by_contra h'
      exact hc fun k => (not_lt.mp h').trans (hm k)
    have h1 := hs.gain m n hlt hm hn
    have h2 := hd.geom k
    have h3 := hs.le m
    have h4 : γ * T ≤ γ * k := mul_le_mul_of_nonneg_left (by exact_mod_cast hk) hd.γ_nonneg
    linarith [hd.thr_nonneg]
  · exact h n

end State

/-- The bound on the change of the volumes. -/
theorem sel_factor {f ub x y b : ℝ} (hub : 0 < ub) (hx : x ≤ y) (hb : 0 ≤ b)
    (hf : f * max (y * b) ub ≤ ub) (hf0 : 0 < f) : f ≤ ub / max (x * b) ub := by
  have h1 : max (x * b) ub ≤ max (y * b) ub := max_le_max (mul_le_mul_of_nonneg_right hx hb) le_rfl
  have h2 : 0 < max (x * b) ub := hub.trans_le (le_max_right _ _)
  rw [le_div_iff₀ h2]
  exact (mul_le_mul_of_nonneg_left h1 hf0.le).trans hf

section Next

variable (hd : SelData ia l mus feat phi c p W ε v A β q E f₀ γ D₀ D H T) (hl : ∀ i, 0 < l i)
  (hen : IsIdealGas en l feat) (ht : tries ≤ count)
  (hf : IterFacts (ia.toI M) en ((GrandC.fromChemicalPotential mus l).toI M) rng p tries count s t)
  (hs : Sel ia l feat phi c p.killThreshold W v β q γ D₀ D H T k s)
include hd hen ht hf hs

theorem Sel.alive_iff (m : Fin M) : t.masks m = 1 ↔ p.killThreshold < s.Js m := by
  rw [(hf.exhausted ht).1 m]
  split <;> simp_all

theorem Sel.field {m : Fin M} (hm : t.masks m = 1) :
    FieldNear ia.chis ia.coef l mus feat (fun i => phi i m) (c m) (fun r => s.omegas r m) (A * (β * q ^ k)) :=
  hd.near m _ _ (hd.U_nonneg k) (hd.U_le k) (hs.near hd ((hs.alive_iff hd hen ht hf m).mp hm))

theorem Sel.energy_near {m : Fin M} (hm : t.masks m = 1) : |t.localEnergy m - c m| ≤ A * (β * q ^ k) := by
  rw [hf.fieldEnergy hen hs.cons hm, (hf.exhausted ht).2.2.1]
  exact (hs.field hd hen ht hf hm).energy

theorem Sel.energy_le {m : Fin M} (hm : t.masks m = 1) : |t.localEnergy m| ≤ E := by
  have h1 := hs.energy_near hd hen ht hf hm
  have h2 := hd.energy m
  have h3 : |t.localEnergy m| ≤ |t.localEnergy m - c m| + |c m| := by
    have := abs_add_le (t.localEnergy m - c m) (c m)
    rwa [sub_add_cancel] at this
  have h4 := mul_le_mul_of_nonneg_left (hd.U_le k) hd.A_pos.le
  linarith

theorem Sel.JsOld_le (m : Fin M) : 0 ≤ t.JsOld m ∧ t.JsOld m ≤ H := by
  refine ⟨hf.JsOld_nonneg hd.thr_nonneg m, ?_⟩
  rw [(hf.exhausted ht).2.1]
  rcases hf.mask_cases m with e | e
  · rw [e, mul_one]; exact hs.le m
  · rw [e, mul_zero, hd.H_eq]
    have := hd.ub_pos
    positivity

theorem Sel.nValid_ge : 1 ≤ t.nValid := by
  have h1 := hf.nValid_pos
  rw [hf.nValid_card] at h1 ⊢
  exact_mod_cast Nat.succ_le_of_lt (by exact_mod_cast h1)

theorem Sel.jsDiff_le (m : Fin M) : |t.JsDiff m| ≤ M * E * H + E := by
  have hE : ∀ n, t.masks n = 1 → |t.localEnergy n| ≤ E := fun n hn => hs.energy_le hd hen ht hf hn
  have hH : 0 ≤ H := (hs.JsOld_le hd hen ht hf m).1.trans (hs.JsOld_le hd hen ht hf m).2
  have hE0 : 0 ≤ E := by
    have h2 := hd.energy m
    have := hd.A_pos
    have := hd.β_nonneg
    exact le_trans (by positivity) h2
  have hmean : |t.localEnergyMean| ≤ M * E * H := by
    rw [hf.localEnergyMean, abs_div, abs_of_pos hf.nValid_pos]
    refine (div_le_self (abs_nonneg _) (hs.nValid_ge hd hen ht hf)).trans ?_
    refine (abs_sum_le_sum_abs _ _).trans ((sum_le_sum (g := fun _ => E * H) fun n _ => ?_).trans ?_)
    · obtain ⟨h1, h2⟩ := hs.JsOld_le hd hen ht hf n
      rcases hf.mask_cases n with e | e
      · rw [abs_mul, abs_of_nonneg h1]
        exact mul_le_mul (hE n e) h2 h1 hE0
      · rw [hf.JsOld_dead e, mul_zero, abs_zero]
        positivity
    · simp only [sum_const, card_univ, Fintype.card_fin, nsmul_eq_mul, mul_assoc, le_refl]
  rw [hf.JsDiff]
  rcases hf.mask_cases m with e | e
  · rw [e, mul_one]
    exact (abs_sub _ _).trans (add_le_add hmean (hE m e))
  · rw [e, mul_zero, abs_zero]
    positivity

theorem Sel.factor_ge : f₀ ≤ t.factor := by
  rw [hf.factor]
  refine sel_factor hd.ub_pos ?_ hd.aJ_pos.le hd.f_le hd.f_pos
  rw [hf.maxAbsJsDiff]
  obtain ⟨m, hm⟩ := npMax_mem fun m => |t.JsDiff m|
  rw [hm]
  exact hs.jsDiff_le hd hen ht hf m

/-- Differences of volumes of living compartments. -/
theorem Sel.Js_sub {m n : Fin M} (hm : t.masks m = 1) (hn : t.masks n = 1) :
    t.Js n - t.Js m = s.Js n - s.Js m + t.factor * p.acceptanceJs * (t.localEnergy m - t.localEnergy n) := by
  rw [hf.Js_eq, hf.Js_eq, hf.JsDiff, hf.JsDiff, (hf.exhausted ht).2.1, (hf.exhausted ht).2.1, hm, hn]
  ring

theorem Sel.Js_le (m : Fin M) : t.Js m ≤ H := by
  have hub := hd.ub_pos
  have hM1 : (1 : ℝ) ≤ M := by exact_mod_cast Nat.one_le_iff_ne_zero.mpr (NeZero.ne M)
  rcases hf.mask_cases m with e | e
  · have hn1 := hs.nValid_ge hd hen ht hf
    have hn0 := hf.nValid_pos
    have hnM : t.nValid ≤ M := by
      rw [hf.nValid_card]
      exact_mod_cast (card_filter_le _ _).trans (by simp)
    set n := t.nValid with hn
    have hst : ∀ j, |t.factor * p.acceptanceJs * t.JsDiff j| ≤ p.JsStepUpperBound := fun j =>
      hf.step_le hub hd.aJ_pos.le j
    have hsum : -(n * p.JsStepUpperBound) ≤ ∑ j, t.factor * p.acceptanceJs * t.JsDiff j := by
      rw [hn, hf.nValid, sum_mul, ← sum_neg_distrib]
      refine sum_le_sum fun j _ => ?_
      rcases hf.mask_cases j with e | e
      · rw [e, one_mul]; exact (abs_le.mp (hst j)).1
      · rw [hf.JsDiff, e]; simp
    have hJ : t.JsOld m ≤ ∑ j, t.JsOld j :=
      single_le_sum (f := t.JsOld) (fun j _ => (hs.JsOld_le hd hen ht hf j).1) (mem_univ m)
    have hJH := (hs.JsOld_le hd hen ht hf m).2
    have h1 := (abs_le.mp (hst m)).2
    rw [hf.Js_eq, e, mul_one, ← hn]
    have h2 : (t.JsOld m - n * p.JsStepUpperBound) / n ≤
        (∑ j, t.JsOld j + ∑ j, t.factor * p.acceptanceJs * t.JsDiff j) / n :=
      div_le_div_of_nonneg_right (by linarith) hn0.le
    have h3 : (t.JsOld m - n * p.JsStepUpperBound) / n = t.JsOld m / n - p.JsStepUpperBound := by
      field_simp
    have h4 : t.JsOld m / M ≤ t.JsOld m / n :=
      div_le_div_of_nonneg_left (hs.JsOld_le hd hen ht hf m).1 hn0 hnM
    have h5 : t.JsOld m - t.JsOld m / M ≤ H - H / M := by
      have : t.JsOld m * (1 - 1 / M) ≤ H * (1 - 1 / M) :=
        mul_le_mul_of_nonneg_right hJH (by
          have : (1 : ℝ) / M ≤ 1 := by rw [div_le_one (by linarith)]; exact hM1
          linarith)
      calc _ = t.JsOld m * (1 - 1 / M) := by ring
        _ ≤ _ := this
        _ = _ := by ring
    have h6 : H / M = 2 + 2 * p.JsStepUpperBound := by
      rw [hd.H_eq, mul_div_cancel_left₀ _ (by linarith)]
    linarith
  · rw [hf.Js_dead e, hd.H_eq]
    positivity

include hl

theorem Sel.form_next {m : Fin M} (hm : t.masks m = 1) : quad (W m)
    (fun r => t.omegas r m - (equilibriumField ia.chis feat l (fun j => phi j m) r - c m)) ≤
      v * (β * q ^ (k + 1)) ^ 2 := by
  have hal := (hs.alive_iff hd hen ht hf m).mp hm
  have hom := (hf.exhausted ht).2.2.1
  set u : Vec S ℝ := fun r => s.omegas r m - (equilibriumField ia.chis feat l (fun j => phi j m) r - c m) with hu
  have hS : S ≠ 0 ∨ S = 0 := (eq_or_ne S 0).symm
  rcases hS with hS | hS
  · have : NeZero S := ⟨hS⟩
    obtain ⟨psi, hpsi, hresp⟩ := fieldGap_response (coef := ia.coef) hl (hd.phase m) fun r => s.omegas r m
    have hfld := hs.field hd hen ht hf hm
    have hAU : 0 ≤ A * (β * q ^ k) := mul_nonneg hd.A_pos.le (hd.U_nonneg k)
    have hload : ∀ r, |loads l feat psi r - loads l feat (fun i => phi i m) r| ≤ ε := fun r => by
      refine (loads_near hl (fun i => between_near (hpsi i).1 (hpsi i).2 (hfld.phi i) (by simpa using hAU))
        hAU r).trans (le_trans ?_ hd.load)
      exact mul_le_mul_of_nonneg_left (mul_le_mul_of_nonneg_left (hd.U_le k) hd.A_pos.le)
        (sum_nonneg fun i _ => (hl i).le)
    have hfac := hs.factor_ge hd hen ht hf
    have hfac1 := (hf.factor_le_one hd.ub_pos).2
    have h1 := hd.decrease m _ hload (t.factor * p.acceptanceOmega)
      (mul_le_mul_of_nonneg_right hfac hd.aω_pos.le) (by nlinarith [hd.aω_pos]) u
    have e : (fun r => t.omegas r m - (equilibriumField ia.chis feat l (fun j => phi j m) r - c m)) =
        u - (t.factor * p.acceptanceOmega) • response ia.chis ia.coef (loads l feat psi) u := by
      funext r
      simp only [Pi.sub_apply, Pi.smul_apply, smul_eq_mul]
      rw [hf.omegas, hm, mul_one, hf.fieldGap hen hs.cons hm, hom, hresp]
      simp only [hu]
      ring
    rw [e]
    calc _ ≤ q ^ 2 * quad (W m) u := h1
      _ ≤ q ^ 2 * (v * (β * q ^ k) ^ 2) := mul_le_mul_of_nonneg_left (hs.form m hal) (sq_nonneg q)
      _ = _ := by ring
  · subst hS
    simp only [quad_eq_bil, bil, univ_eq_empty, sum_empty]
    have := hd.v_pos
    positivity

theorem sel_next : SelPass phi c A β q T k t ∧ t.reviveCount = count ∧
    Sel ia l feat phi c p.killThreshold W v β q γ D₀ D H T (k + 1) t.state := by
  have hmk := hs.alive_iff hd hen ht hf
  have hom := (hf.exhausted ht).2.2.1
  have hJold := (hf.exhausted ht).2.1
  have hAU : 0 ≤ A * (β * q ^ k) := mul_nonneg hd.A_pos.le (hd.U_nonneg k)
  have hAUβ : A * (β * q ^ k) ≤ A * β := mul_le_mul_of_nonneg_left (hd.U_le k) hd.A_pos.le
  have hen' : ∀ m, t.masks m = 1 → |t.localEnergy m - c m| ≤ A * (β * q ^ k) :=
    fun m hm => hs.energy_near hd hen ht hf hm
  have hold : ∀ n, p.killThreshold < t.Js n → t.masks n = 1 := fun n hn =>
    (hf.mask_cases n).resolve_right fun h0 => absurd (hf.Js_dead h0 ▸ hn) (not_lt.mpr hd.thr_nonneg)
  have hleast : ∀ m, Least c m → t.masks m = 1 := fun m hm => (hmk m).mpr (hs.alive hd hm)
  have hsel : T ≤ k → ∀ m, t.masks m = 1 → Least c m := fun hk m hm => hs.least_of_alive hd hk ((hmk m).mp hm)
  have hfac := hs.factor_ge hd hen ht hf
  have hfac1 := (hf.factor_le_one hd.ub_pos).2
  have hfac0 := (hf.factor_le_one hd.ub_pos).1
  have hDk : D * q ^ k = p.acceptanceJs * (2 * (A * (β * q ^ k))) := by rw [hd.D_eq]; ring
  have haJ := hd.aJ_pos
  have horder : ∀ m, Least c m → ∀ n, t.masks n = 1 → t.Js n - t.Js m ≤ s.Js n - s.Js m + D * q ^ k := by
    intro m hm n hn
    rw [hs.Js_sub hd hen ht hf (hleast m hm) hn, hDk]
    have h1 := abs_le.mp (hen' m (hleast m hm))
    have h2 := abs_le.mp (hen' n hn)
    have h3 : t.localEnergy m - t.localEnergy n ≤ 2 * (A * (β * q ^ k)) := by linarith [hm n, h1.2, h2.1]
    have h4 : t.factor * p.acceptanceJs * (t.localEnergy m - t.localEnergy n) ≤
        p.acceptanceJs * (2 * (A * (β * q ^ k))) := by
      calc _ ≤ t.factor * p.acceptanceJs * (2 * (A * (β * q ^ k))) :=
            mul_le_mul_of_nonneg_left h3 (by positivity)
        _ ≤ 1 * p.acceptanceJs * (2 * (A * (β * q ^ k))) := by gcongr
        _ = _ := by ring
    linarith
  have hgain : ∀ m n, c m < c n → Least c m → t.masks n = 1 → t.Js n - t.Js m ≤ s.Js n - s.Js m - γ := by
    intro m n hlt hm hn
    rw [hs.Js_sub hd hen ht hf (hleast m hm) hn]
    have h1 := abs_le.mp (hen' m (hleast m hm))
    have h2 := abs_le.mp (hen' n hn)
    have h0 := hd.gap_pos m n hlt
    have hAβ : 0 ≤ A * β := hAU.trans hAUβ
    have h3 : c n - c m - 2 * (A * β) ≤ t.localEnergy n - t.localEnergy m := by linarith [h1.2, h2.1]
    have h4 : γ ≤ t.factor * p.acceptanceJs * (t.localEnergy n - t.localEnergy m) := by
      refine (hd.gap m n hlt).trans (mul_le_mul ?_ h3 (by linarith) (by positivity))
      exact mul_le_mul_of_nonneg_right hfac haJ.le
    linarith
  have hlarge : ∃ n, 1 - D₀ ≤ t.Js n := by
    obtain ⟨n, -, hn⟩ := hf.exists_Js_ge_one
    exact ⟨n, by linarith [hd.D₀_nonneg]⟩
  have hcons' : ∀ k ∈ t.state.cons, k.Trivial :=
    (hf.cons_inv Cons.Trivial (fun c pf J mk h => h.prepare pf J mk)
      (fun c step mk res c' h he => h.evolve he) hs.cons).2
  have horder' : ∀ m, Least c m → ∀ n, p.killThreshold < t.Js n →
      t.Js n ≤ t.Js m + D₀ + D * ∑ j ∈ range (k + 1), q ^ j := by
    intro m hm n hn
    have h1 := horder m hm n (hold n hn)
    have h2 := hs.order m hm n ((hmk n).mp (hold n hn))
    rw [sum_range_succ, mul_add]
    linarith
  have hsettled : T < k + 1 → ∑ m, (if p.killThreshold < t.Js m then t.Js m else 0) =
      ∑ m, if p.killThreshold < t.Js m then (1 : ℝ) else 0 := by
    intro hk
    have hiff : ∀ m, p.killThreshold < t.Js m ↔ t.masks m = 1 := fun m => ⟨hold m, fun hm => by
      have hmin := hsel (Nat.lt_succ_iff.mp hk) m hm
      obtain ⟨n, hn⟩ := hlarge
      have h1 := horder' m hmin n (hd.thr_lt.trans_le hn)
      linarith [hd.geom (k + 1), hd.alive]⟩
    have h1 := hf.sum_Js
    rw [hf.nValid] at h1
    have e1 : ∀ m, (if p.killThreshold < t.Js m then t.Js m else 0) = t.Js m := fun m => by
      rcases hf.mask_cases m with e | e
      · rw [if_pos ((hiff m).mpr e)]
      · rw [hf.Js_dead e]; simp
    have e2 : ∀ m, (if p.killThreshold < t.Js m then (1 : ℝ) else 0) = t.masks m := fun m => by
      rcases hf.mask_cases m with e | e
      · rw [if_pos ((hiff m).mpr e), e]
      · rw [if_neg (fun h => by rw [(hiff m).mp h] at e; exact one_ne_zero e), e]
    simp only [e1, e2, h1]
  refine ⟨⟨fun m hm i => ?_, hen', ?_, ?_, residue_trivial hf hs.cons, hleast, hsel, fun hk => ?_⟩,
    (hf.exhausted ht).2.2.2, ⟨hcons', fun m hm => hs.form_next hd hl hen ht hf (hold m hm), hlarge,
    fun m => hs.Js_le hd hen ht hf m, horder', fun m n hlt hm hn => ?_, hsettled⟩⟩
  · have := (hs.field hd hen ht hf hm).phi i
    rwa [← hom, ← hf.fieldPhi hen hm] at this
  · rw [hf.maxAbsIncomp]
    obtain ⟨m, hm⟩ := npMax_mem fun m => |t.incomp m|
    rw [hm, hf.incomp_eq (GrandC.scales _)]
    rcases hf.mask_cases m with e | e
    · have := (hs.field hd hen ht hf e).incomp
      rw [← hom, ← hf.fieldPhi hen e] at this
      rwa [e, mul_one]
    · rw [e, mul_zero, abs_zero]; exact hAU
  · rw [hf.maxAbsOmegaDiff]
    refine rowsMax_le hAU fun r m => ?_
    rcases hf.mask_cases m with e | e
    · rw [hf.fieldGap hen hs.cons e, hom]
      exact (hs.field hd hen ht hf e).gap r
    · rw [hf.omegaDiff, e, mul_zero, abs_zero]; exact hAU
  · rw [hf.maxAbsJsDiff]
    obtain ⟨m, hm⟩ := npMax_mem fun m => |t.JsDiff m|
    rw [hm, hf.JsDiff]
    rcases hf.mask_cases m with e | e
    · have hmin := hsel hk.le m e
      have hsum : ∑ n, t.JsOld n = t.nValid := by
        have h1 := hs.settled hk
        rw [hf.nValid]
        have e1 : ∀ n, (if p.killThreshold < s.Js n then s.Js n else 0) = t.JsOld n := fun n => by
          rw [hJold, (hf.exhausted ht).1]
          split <;> simp
        have e2 : ∀ n, (if p.killThreshold < s.Js n then (1 : ℝ) else 0) = t.masks n := fun n =>
          ((hf.exhausted ht).1 n).symm
        simpa only [e1, e2] using h1
      have hn0 := hf.nValid_pos
      have e3 : t.localEnergyMean - t.localEnergy m =
          (∑ n, (t.localEnergy n - t.localEnergy m) * t.JsOld n) / t.nValid := by
        rw [hf.localEnergyMean]
        simp only [sub_mul, sum_sub_distrib, ← mul_sum, hsum]
        field_simp
      rw [e, mul_one, e3, abs_div, abs_of_pos hn0, div_le_iff₀ hn0, ← hsum, mul_sum]
      refine (abs_sum_le_sum_abs _ _).trans (sum_le_sum fun n _ => ?_)
      have hJn := (hs.JsOld_le hd hen ht hf n).1
      rw [abs_mul, abs_of_nonneg hJn]
      rcases hf.mask_cases n with en' | en'
      · refine mul_le_mul_of_nonneg_right ?_ hJn
        have hc : c n = c m := le_antisymm (hsel hk.le n en' m) (hmin n)
        have h1 := abs_le.mp (hen' n en')
        have h2 := abs_le.mp (hen' m e)
        rw [abs_le]
        constructor <;> linarith [h1.1, h1.2, h2.1, h2.2]
      · rw [hf.JsOld_dead en', mul_zero, mul_zero]
    · rw [e, mul_zero, abs_zero]
      linarith
  · have h1 := hgain m n hlt hm (hold n hn)
    have h2 := hs.gain m n hlt hm ((hmk n).mp (hold n hn))
    have h3 : 0 ≤ D * q ^ k := mul_nonneg hd.D_nonneg (pow_nonneg hd.q_nonneg k)
    show t.Js n + γ * ((k + 1 : ℕ) : ℝ) ≤ t.Js m + D₀ + D * ∑ j ∈ range (k + 1), q ^ j
    rw [sum_range_succ, mul_add]
    push_cast
    linarith

end Next

variable {e : RunEnv C S M ℝ G}

/-- What is known about the finder. -/
structure SelSetup (ia : FHCompiled S ℝ) (l mus : Vec C ℝ) (feat : Fin C → Fin S) (e : RunEnv C S M ℝ G) :
    Prop where
  size : ∀ i, 0 < l i
  gas : IsIdealGas e.en l feat
  interaction : e.ia = ia.toI M
  ensemble : e.es = (GrandC.fromChemicalPotential mus l).toI M

theorem Spec.Passes.selection (hd : SelData ia l mus feat phi c e.params W ε v A β q E f₀ γ D₀ D H T)
    (hu : SelSetup ia l mus feat e) {b : ℤ} {n : ℕ} (h : Passes e b n count s t) (hb : b ≤ count)
    (hs : Sel ia l feat phi c e.params.killThreshold W v β q γ D₀ D H T k s) :
    SelPass phi c A β q T (k + n - 1) t ∧ t.reviveCount = count ∧
      Sel ia l feat phi c e.params.killThreshold W v β q γ D₀ D H T (k + n) t.state := by
  induction h with
  | one h =>
    rw [hu.interaction, hu.ensemble] at h
    exact sel_next hd hu.size hu.gas hb (iterate_facts h) hs
  | more h1 h2 ih =>
    obtain ⟨i1, i2, i3⟩ := ih hb hs
    rw [hu.interaction, hu.ensemble] at h2
    obtain ⟨j1, j2, j3⟩ := sel_next hd hu.size hu.gas (by rw [i2]; exact hb) (iterate_facts h2) i3
    exact ⟨j1, j2.trans i2, j3⟩

theorem Spec.Chain.selection (hd : SelData ia l mus feat phi c e.params W ε v A β q E f₀ γ D₀ D H T)
    (hu : SelSetup ia l mus feat e) {b b' : ℤ} {inner : ℕ} {ts : List (Trace C S M ℝ G)}
    {s s' : State C S M ℝ G} (h : Chain e inner ts s b s' b') (hb : b ≤ 0)
    (hs : Sel ia l feat phi c e.params.killThreshold W v β q γ D₀ D H T k s) :
    b' = b ∧ Sel ia l feat phi c e.params.killThreshold W v β q γ D₀ D H T (k + ts.length * inner) s' := by
  induction h generalizing k with
  | nil => exact ⟨rfl, by simpa using hs⟩
  | cons h1 h2 ih =>
    obtain ⟨i1, i2, i3⟩ := h1.selection hd hu (by simpa using hb) hs
    obtain ⟨j1, j2⟩ := ih (by rw [i2]; simpa using hb) i3
    have hk : ∀ n : ℕ, k + inner + n * inner = k + (n + 1) * inner := fun n => by ring
    rw [hk] at j2
    exact ⟨by rw [j1, i2]; simp, j2⟩

end Flory
