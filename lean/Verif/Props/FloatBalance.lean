import Verif.Lemmas.FloatBalance
import Verif.Props.FloatRounding
import Verif.Spec.FreeEnergy

/-! # C87: balance of the chemical potentials in spite of rounding errors -/

set_option linter.unusedSectionVars false

namespace Flory

open Spec

variable {o : Floats ℝ} {rnd : ℝ → ℝ} {u v : ℝ} {G : Type} {C S M : ℕ} [NeZero M]

section Pass

variable (h : RoundedOps o rnd u) (hv : ExpAccurate o v) {chis : Mat S S ℝ} {coef : ℝ} {en : EntropyI C S M ℝ}
    {es : EnsembleI C M ℝ} {rng : Rng G ℝ} {p : Params ℝ} {tries : ℤ} {count : ℕ} {s : State C S M ℝ G}
    {t : Trace C S M ℝ G} (ht : iterateF o (floryHugginsF o chis coef M) en es rng p tries count s = .ok t)
    {sizes : Vec C ℝ} {feat : Fin C → Fin S} (hg : FloatGas o en sizes feat) (hes : NonnegEnsemble o es)
include h ht hg hes

/-- The fractions are Boltzmann weights times a factor of the component. -/
theorem fraction_factor (i : Fin C) : ∃ fac, ∀ m, t.masks m = 1 →
    t.phisComp i m = rnd (fac * o.exp (rnd (-t.omegasOld (feat i) m * sizes i))) := by
  obtain ⟨tmp, f⟩ := iterateF_facts ht
  obtain ⟨phi0, hp, hn⟩ := f.partition
  have hw := (hg.weights hp i).1
  rcases hes with ⟨e, rfl, hi⟩ | ⟨e, rfl, hi⟩
  · refine ⟨o.div (e.phiMeans i) (t.Qs i), fun m hm => ?_⟩
    rw [((canonicalF_entries hn).1 i).2 m, hm, h.mul_one, hw m, h.mul, h.rounds.idem, h.neg, h.mul]
  · refine ⟨e.scaledActivity i, fun m hm => ?_⟩
    rw [(grandF_entries (Qs := t.Qs) hn).1 i m, hm, h.mul_one, hw m, h.mul, h.rounds.idem, h.neg, h.mul]

include hv in
/-- Logarithms of the fractions. -/
theorem fraction_log (hl : ∀ i, 0 < sizes i) (i : Fin C) : ∃ L, ∀ m, t.masks m = 1 → 0 < t.phisComp i m →
    |Real.log (t.phisComp i m) + t.omegasOld (feat i) m * sizes i - L| ≤
      u / (1 - u) + v / (1 - v) + u * (|t.omegasOld (feat i) m| * sizes i) := by
  obtain ⟨fac, hfac⟩ := fraction_factor h ht hg hes i
  refine ⟨Real.log fac, fun m hm hpos => ?_⟩
  have hr := h.rounds
  set a := rnd (-t.omegasOld (feat i) m * sizes i) with ha
  have hφ := hfac m hm
  rw [← ha] at hφ
  have he : 0 < o.exp a := h.exp a
  have hf : 0 < fac := by
    by_contra hc
    have : t.phisComp i m ≤ 0 := by
      rw [hφ]
      rw [← hr.zero]
      exact hr.mono (mul_nonpos_of_nonpos_of_nonneg (not_lt.mp hc) he.le)
    linarith
  have hfe : 0 < fac * o.exp a := mul_pos hf he
  have e1 : |Real.log (t.phisComp i m) - Real.log (fac * o.exp a)| ≤ u / (1 - u) := by
    refine log_near hr.lt_one hfe ?_
    have := hr.err (fac * o.exp a)
    rwa [← hφ, abs_of_pos hfe] at this
  rw [Real.log_mul hf.ne' he.ne'] at e1
  have e2 := log_near hv.1 (Real.exp_pos a) (hv.2 a)
  rw [Real.log_exp] at e2
  have e3 := hr.err (-t.omegasOld (feat i) m * sizes i)
  rw [← ha, abs_mul, abs_neg, abs_of_pos (hl i)] at e3
  rw [abs_le] at *
  constructor <;> linarith [e1.1, e1.2, e2.1, e2.2, e3.1, e3.2]

variable {k : ℕ} (hfeat : SumsFeatures en feat u k) (hvd : en.volumeDerivative = gasVolumeDerivativeF o sizes)
    (hl : ∀ i, 0 < sizes i) (hcons : s.cons = []) (hthr : 0 ≤ p.killThreshold)
include hfeat hl hcons hthr

/-- Size of the numbers in a compartment. -/
private noncomputable abbrev W (chis : Mat S S ℝ) (coef : ℝ) (sizes : Vec C ℝ) (feat : Fin C → Fin S)
    (t : Trace C S M ℝ G) (m : Fin M) : ℝ :=
  magnitude chis coef sizes feat (fun i => t.phisComp i m) (fun r => t.omegasOld r m) (t.xi m) (t.incomp m)

omit h ht hg hes hfeat hl hcons hthr in
theorem magnitude_feat (φ : Vec C ℝ) (w : Vec S ℝ) (x inc : ℝ) : magnitude chis coef sizes feat φ w x inc =
    ∑ r, ((∑ q, |chis r q| * featSum feat φ q) + |x| + |w r|) * (1 + 2 * featSum feat φ r) + |x| +
      ∑ i, φ i / sizes i + |coef * inc| := by
  unfold magnitude
  simp only [featSum_weighted (feat := feat) (fun q => |chis _ q|)]
  rfl

omit h ht hg hes hfeat hcons hthr in
theorem magnitude_parts {φ : Vec C ℝ} (hφ : ∀ i, 0 ≤ φ i) (w : Vec S ℝ) (x inc : ℝ) :
    (∑ r, ((∑ q, |chis r q| * featSum feat φ q) + |x| + |w r|)) + |coef * inc| ≤
      magnitude chis coef sizes feat φ w x inc ∧
    (∑ r, ((∑ q, |chis r q| * featSum feat φ q) + |x| + |w r|)) +
      ((∑ r, (∑ q, |chis r q| * featSum feat φ q) * featSum feat φ r) * (1 / 2) + (∑ i, φ i / sizes i) +
        |x| * (1 + ∑ i, φ i) + ∑ r, ((∑ q, |chis r q| * featSum feat φ q) + |x|) * featSum feat φ r) ≤
      magnitude chis coef sizes feat φ w x inc := by
  rw [magnitude_feat]
  have hA : ∀ r, 0 ≤ ∑ q, |chis r q| * featSum feat φ q := fun r =>
    Finset.sum_nonneg fun q _ => mul_nonneg (abs_nonneg _) (featSum_nonneg hφ q)
  have hF : ∀ r, 0 ≤ featSum feat φ r := featSum_nonneg hφ
  have hs : 0 ≤ ∑ i, φ i / sizes i := Finset.sum_nonneg fun i _ => div_nonneg (hφ i) (hl i).le
  have e1 : ∑ i, φ i = ∑ r, featSum feat φ r := (featSum_sum (feat := feat) φ).symm
  constructor
  · have : (∑ r, ((∑ q, |chis r q| * featSum feat φ q) + |x| + |w r|)) ≤
        ∑ r, ((∑ q, |chis r q| * featSum feat φ q) + |x| + |w r|) * (1 + 2 * featSum feat φ r) :=
      Finset.sum_le_sum fun r _ => le_mul_of_one_le_right
        (by linarith [hA r, abs_nonneg x, abs_nonneg (w r)]) (by linarith [hF r])
    linarith [abs_nonneg x]
  · rw [e1]
    have : (∑ r, ((∑ q, |chis r q| * featSum feat φ q) + |x| + |w r|)) +
        ((∑ r, (∑ q, |chis r q| * featSum feat φ q) * featSum feat φ r) * (1 / 2) +
          |x| * (∑ r, featSum feat φ r) + ∑ r, ((∑ q, |chis r q| * featSum feat φ q) + |x|) * featSum feat φ r) ≤
        ∑ r, ((∑ q, |chis r q| * featSum feat φ q) + |x| + |w r|) * (1 + 2 * featSum feat φ r) := by
      rw [Finset.sum_mul, Finset.mul_sum, ← Finset.sum_add_distrib, ← Finset.sum_add_distrib,
        ← Finset.sum_add_distrib]
      refine Finset.sum_le_sum fun r _ => ?_
      have h1 := mul_nonneg (hA r) (hF r)
      have h2 := mul_nonneg (abs_nonneg (w r)) (hF r)
      linarith
    linarith [abs_nonneg (coef * inc)]

/-- A field error is not much below zero. -/
theorem diff_low (hS : rnd S = S) {m : Fin M} (hm : t.masks m = 1) (r : Fin S) :
    -((S - 1) * t.maxAbsOmegaDiff + |coef| * t.maxAbsIncomp +
      2 * ((1 + u) ^ (3 * k + 3 * S + C + 5) - 1) * W chis coef sizes feat t m) ≤ t.omegaDiff r m ∧
    t.omegaDiff r m ≤ t.maxAbsOmegaDiff := by
  have hu := h.rounds.nonneg
  have hφ := (fractions_rounded h ht hthr hg hes m).1
  have hd := err_diff h ht hfeat hφ hcons hm
  have hx := err_xi h ht hfeat hφ hcons hm hS (fun hc => by subst hc; exact r.elim0)
  obtain ⟨hW, -⟩ := magnitude_parts (chis := chis) (coef := coef) (feat := feat) hl hφ
    (fun r => t.omegasOld r m) (t.xi m) (t.incomp m)
  obtain ⟨tmp, f⟩ := iterateF_facts ht
  obtain ⟨hD0, hD⟩ := updateOmegasF_max h f.omegas
  refine ⟨?_, hD r m⟩
  have hS0 : (0 : ℝ) < S := Nat.cast_pos.mpr r.pos
  have hinc : |t.incomp m| ≤ t.maxAbsIncomp := by
    rw [f.maxAbsIncomp, h.max]
    have := le_npMax (fun m => o.abs (t.incomp m)) m
    rwa [h.abs] at this
  set γ := (1 + u) ^ (3 * k + 3 * S + C + 5) - 1 with hγ
  have hγ0 : 0 ≤ γ := by linarith [Err.pow_ge hu (3 * k + 3 * S + C + 5)]
  set P : Fin S → ℝ := fun r => ∑ q, chis r q * featSum feat (fun i => t.phisComp i m) q with hP
  set A : Fin S → ℝ := fun r => ∑ q, |chis r q| * featSum feat (fun i => t.phisComp i m) q with hA
  have e1 := (Err.mono hu hx (k := 3 * k + 3 * S + C + 5) (by omega) le_rfl).err
  have e2 := (Err.mono hu (Err.sum hu (s := Finset.univ) fun r _ => hd r) (k := 3 * k + 3 * S + C + 5) (by omega) le_rfl).err
  rw [← hγ] at e1 e2
  have e3 : |S * t.xi m - (coef * t.incomp m + ∑ r, (t.omegasOld r m - P r))| ≤
      γ * (|coef * t.incomp m| + ∑ r, (|t.omegasOld r m| + A r)) := by
    generalize coef * t.incomp m + ∑ r, (t.omegasOld r m - P r) = X at e1 ⊢
    generalize |coef * t.incomp m| + ∑ r, (|t.omegasOld r m| + A r) = T at e1 ⊢
    have q : S * t.xi m - X = S * (t.xi m - X / S) := by field_simp
    rw [q, abs_mul, abs_of_pos hS0]
    exact (mul_le_mul_of_nonneg_left e1 hS0.le).trans (le_of_eq (by field_simp))
  have e4 : ∑ r, (P r + t.xi m - t.omegasOld r m) = S * t.xi m - ∑ r, (t.omegasOld r m - P r) := by
    simp only [Finset.sum_sub_distrib, Finset.sum_add_distrib, Finset.sum_const, Finset.card_univ, Fintype.card_fin,
      nsmul_eq_mul]
    ring
  have e5 : ∑ r, (|t.omegasOld r m| + A r) ≤ ∑ r, (A r + |t.xi m| + |t.omegasOld r m|) :=
    Finset.sum_le_sum fun r _ => by linarith [abs_nonneg (t.xi m)]
  have e6 : γ * (|coef * t.incomp m| + ∑ r, (|t.omegasOld r m| + A r)) ≤ γ * W chis coef sizes feat t m :=
    mul_le_mul_of_nonneg_left (by linarith) hγ0
  have e7 : γ * ∑ r, (A r + |t.xi m| + |t.omegasOld r m|) ≤ γ * W chis coef sizes feat t m :=
    mul_le_mul_of_nonneg_left (by linarith [abs_nonneg (coef * t.incomp m)]) hγ0
  have e8 : |coef * t.incomp m| ≤ |coef| * t.maxAbsIncomp := by
    rw [abs_mul]; exact mul_le_mul_of_nonneg_left hinc (abs_nonneg _)
  have e9 : ∑ q, t.omegaDiff q m ≤ t.omegaDiff r m + (S - 1) * t.maxAbsOmegaDiff := by
    rw [← Finset.add_sum_erase _ _ (Finset.mem_univ r)]
    refine add_le_add le_rfl ((Finset.sum_le_sum fun q _ => hD q m).trans (le_of_eq ?_))
    rw [Finset.sum_const, Finset.card_erase_of_mem (Finset.mem_univ r), Finset.card_univ, Fintype.card_fin,
      nsmul_eq_mul, Nat.cast_pred r.pos]
  have a1 := (abs_le.mp e2).1
  have a2 := (abs_le.mp e3).1
  have a3 := (abs_le.mp e8).1
  have a3' := (abs_le.mp (le_refl |coef * t.incomp m|)).1
  change -(γ * _) ≤ _ - ∑ r, (P r + t.xi m - t.omegasOld r m) at a1
  rw [e4] at a1
  linarith

include hv hvd in
/-- Chemical potential of a component in a compartment. -/
theorem potential_near (i : Fin C) : ∃ L, ∀ m, t.masks m = 1 → 0 < t.phisComp i m →
    |chemPot (fun i j => chis (feat i) (feat j)) sizes (fun j => t.phisComp j m) i -
      (L + t.omegaDiff (feat i) m + t.localEnergy m)| ≤
      (u / (1 - u) + v / (1 - v)) / sizes i +
        2 * ((1 + u) ^ (3 * k + 3 * S + C + 5) - 1) * W chis coef sizes feat t m := by
  obtain ⟨L, hL⟩ := fraction_log h hv ht hg hes hl i
  refine ⟨(L + 1) / sizes i, fun m hm hpos => ?_⟩
  have hu := h.rounds.nonneg
  obtain ⟨hφ, hi⟩ := fractions_rounded h ht hthr hg hes m
  have hd := err_diff h ht hfeat hφ hcons hm (feat i)
  have he := err_local h ht hfeat hφ hcons hvd hl hm hi
  have hlog := hL m hm hpos
  obtain ⟨hW1, hW⟩ := magnitude_parts (chis := chis) (coef := coef) (feat := feat) hl hφ
    (fun r => t.omegasOld r m) (t.xi m) (t.incomp m)
  set γ := (1 + u) ^ (3 * k + 3 * S + C + 5) - 1 with hγ
  have hγ0 : 0 ≤ γ := by linarith [Err.pow_ge hu (3 * k + 3 * S + C + 5)]
  have huγ : u ≤ γ := by
    have := pow_le_pow_right₀ (show 1 ≤ 1 + u by linarith) (show 1 ≤ 3 * k + 3 * S + C + 5 by omega)
    rw [pow_one] at this
    linarith
  have e1 := (Err.mono hu hd (k := 3 * k + 3 * S + C + 5) (by omega) le_rfl).err
  have e2 := he.err
  rw [← hγ] at e1 e2
  clear_value γ
  set Φ := featSum feat (fun i => t.phisComp i m) with hΦ
  set P : Fin S → ℝ := fun r => ∑ q, chis r q * Φ q with hP
  set A : Fin S → ℝ := fun r => ∑ q, |chis r q| * Φ q with hA
  have hA0 : ∀ r, 0 ≤ A r := fun r =>
    Finset.sum_nonneg fun q _ => mul_nonneg (abs_nonneg _) (featSum_nonneg hφ q)
  have hl' := hl i
  have hchem : chemPot (fun i j => chis (feat i) (feat j)) sizes (fun j => t.phisComp j m) i =
      (Real.log (t.phisComp i m) + t.omegasOld (feat i) m * sizes i + 1) / sizes i +
        (P (feat i) + t.xi m - t.omegasOld (feat i) m) +
        ((∑ r, P r * Φ r) * (1 / 2) + -(∑ i, t.phisComp i m / sizes i) + t.xi m * (∑ i, t.phisComp i m - 1) -
          ∑ r, (P r + t.xi m) * Φ r) := by
    unfold chemPot
    have c1 : ∀ r, ∑ j, chis r (feat j) * t.phisComp j m = P r := fun r => (featSum_weighted (chis r) _).symm
    have c2 : ∑ j, ∑ k, chis (feat j) (feat k) * t.phisComp j m * t.phisComp k m = ∑ r, P r * Φ r := by
      rw [featSum_weighted P]
      refine Finset.sum_congr rfl fun j _ => ?_
      rw [← c1, Finset.sum_mul]
      exact Finset.sum_congr rfl fun k _ => by ring
    have c3 : ∑ r, (P r + t.xi m) * Φ r = ∑ r, P r * Φ r + t.xi m * ∑ i, t.phisComp i m := by
      rw [← featSum_sum (feat := feat) (fun i => t.phisComp i m), Finset.mul_sum, ← Finset.sum_add_distrib]
      exact Finset.sum_congr rfl fun r _ => by ring
    rw [c1, c2, c3]
    field_simp
    ring
  have e3 : |(Real.log (t.phisComp i m) + t.omegasOld (feat i) m * sizes i + 1) / sizes i - (L + 1) / sizes i| ≤
      (u / (1 - u) + v / (1 - v)) / sizes i + u * |t.omegasOld (feat i) m| := by
    rw [← sub_div, abs_div, abs_of_pos hl', div_le_iff₀ hl', add_mul, div_mul_cancel₀ _ hl'.ne']
    refine le_trans (le_of_eq ?_) (hlog.trans (le_of_eq ?_))
    · congr 1; ring
    · ring
  have e4 : |t.omegasOld (feat i) m| ≤ W chis coef sizes feat t m := by
    refine le_trans ?_ (le_trans (le_add_of_nonneg_right (abs_nonneg _)) hW1)
    refine le_trans ?_ (Finset.single_le_sum (f := fun r => A r + |t.xi m| + |t.omegasOld r m|)
      (fun r _ => by linarith [hA0 r, abs_nonneg (t.xi m), abs_nonneg (t.omegasOld r m)]) (Finset.mem_univ (feat i)))
    linarith [hA0 (feat i), abs_nonneg (t.xi m)]
  have e5 : u * |t.omegasOld (feat i) m| ≤ γ * W chis coef sizes feat t m :=
    mul_le_mul huγ e4 (abs_nonneg _) hγ0
  have e6 := mul_le_mul_of_nonneg_left (le_trans (add_le_add (Finset.single_le_sum
    (f := fun r => A r + |t.xi m| + |t.omegasOld r m|)
    (fun r _ => by linarith [hA0 r, abs_nonneg (t.xi m), abs_nonneg (t.omegasOld r m)]) (Finset.mem_univ (feat i)))
    le_rfl) hW) hγ0
  rw [mul_add] at e6
  rw [hchem]
  have b1 := abs_le.mp e1
  have b2 := abs_le.mp e2
  have b3 := abs_le.mp e3
  rw [abs_le]
  constructor <;> linarith [b1.1, b1.2, b2.1, b2.2, b3.1, b3.2]

/-- The local energies of two compartments in use differ by at most twice the reported error. -/
theorem energy_near {m n : Fin M} (hm : t.masks m = 1) (hn : t.masks n = 1) :
    |t.localEnergy m - t.localEnergy n| ≤ 2 / (1 - u) * t.maxAbsJsDiff := by
  have hu1 : 0 < 1 - u := by linarith [h.rounds.lt_one]
  obtain ⟨tmp, f⟩ := iterateF_facts ht
  have key : ∀ m, t.masks m = 1 → |t.localEnergyMean - t.localEnergy m| ≤ t.maxAbsJsDiff / (1 - u) := by
    intro m hm
    have h1 : |t.JsDiff m| ≤ t.maxAbsJsDiff := by
      rw [f.maxAbsJsDiff, h.max]
      have := le_npMax (fun m => o.abs (t.JsDiff m)) m
      rwa [h.abs] at this
    rw [f.JsDiff, hm, h.mul_one, h.sub, h.rounds.idem] at h1
    have h2 := h.rounds.err (t.localEnergyMean - t.localEnergy m)
    have h3 := abs_sub_abs_le_abs_sub (t.localEnergyMean - t.localEnergy m)
      (rnd (t.localEnergyMean - t.localEnergy m))
    rw [abs_sub_comm _ (rnd (t.localEnergyMean - t.localEnergy m))] at h3
    rw [le_div_iff₀ hu1]
    linarith
  have k1 := abs_le.mp (key m hm)
  have k2 := abs_le.mp (key n hn)
  have : 2 / (1 - u) * t.maxAbsJsDiff = t.maxAbsJsDiff / (1 - u) + t.maxAbsJsDiff / (1 - u) := by ring
  rw [this, abs_le]
  constructor <;> linarith [k1.1, k1.2, k2.1, k2.2]

include hv hvd in
/-- **C87**, balance in a pass: the chemical potentials of a component in two compartments in use differ at most
by the reported errors and by rounding errors proportional to the numbers that are computed with. -/
theorem C87_pass (hS : rnd S = S) {m n : Fin M} (hm : t.masks m = 1) (hn : t.masks n = 1) (i : Fin C)
    (him : 0 < t.phisComp i m) (hin : 0 < t.phisComp i n) :
    |chemPot (fun i j => chis (feat i) (feat j)) sizes (fun j => t.phisComp j m) i -
      chemPot (fun i j => chis (feat i) (feat j)) sizes (fun j => t.phisComp j n) i| ≤
      S * t.maxAbsOmegaDiff + |coef| * t.maxAbsIncomp + 2 / (1 - u) * t.maxAbsJsDiff +
      2 * (u / (1 - u) + v / (1 - v)) / sizes i + 4 * ((1 + u) ^ (3 * k + 3 * S + C + 5) - 1) *
        (magnitude chis coef sizes feat (fun j => t.phisComp j m) (fun r => t.omegasOld r m) (t.xi m) (t.incomp m) +
         magnitude chis coef sizes feat (fun j => t.phisComp j n) (fun r => t.omegasOld r n) (t.xi n) (t.incomp n)) := by
  obtain ⟨L, hL⟩ := potential_near h hv ht hg hes hfeat hvd hl hcons hthr i
  have a1 := abs_le.mp (hL m hm him)
  have a2 := abs_le.mp (hL n hn hin)
  have a3 := diff_low h ht hg hes hfeat hl hcons hthr hS hm (feat i)
  have a4 := diff_low h ht hg hes hfeat hl hcons hthr hS hn (feat i)
  have a5 := abs_le.mp (energy_near h ht hg hes hfeat hl hcons hthr hm hn)
  set γ := (1 + u) ^ (3 * k + 3 * S + C + 5) - 1 with hγ
  have hγ0 : 0 ≤ γ := by linarith [Err.pow_ge h.rounds.nonneg (3 * k + 3 * S + C + 5)]
  have hW0 : ∀ m, 0 ≤ W chis coef sizes feat t m := by
    intro m
    have hφ := (fractions_rounded h ht hthr hg hes m).1
    refine le_trans (add_nonneg (Finset.sum_nonneg fun r _ => ?_) (abs_nonneg (coef * t.incomp m)))
      (magnitude_parts (chis := chis) (coef := coef) (feat := feat) hl hφ
        (fun r => t.omegasOld r m) (t.xi m) (t.incomp m)).1
    have : 0 ≤ ∑ q, |chis r q| * featSum feat (fun i => t.phisComp i m) q :=
      Finset.sum_nonneg fun q _ => mul_nonneg (abs_nonneg _) (featSum_nonneg hφ q)
    linarith [abs_nonneg (t.xi m), abs_nonneg (t.omegasOld r m)]
  have b1 := mul_nonneg hγ0 (hW0 m)
  have b2 := mul_nonneg hγ0 (hW0 n)
  clear_value γ
  have e1 : 2 * (u / (1 - u) + v / (1 - v)) / sizes i =
    (u / (1 - u) + v / (1 - v)) / sizes i + (u / (1 - u) + v / (1 - v)) / sizes i := by ring
  rw [e1, abs_le]
  constructor <;> linarith [a1.1, a1.2, a2.1, a2.2, a3.1, a3.2, a4.1, a4.2, a5.1, a5.2]

end Pass

/-- **C87**, positive fractions: a component with a positive prescribed mean is present in every compartment in
use, so that its chemical potential is defined. -/
theorem C87_positive (h : RoundedOps o rnd u) {ia : InteractionI S M ℝ} {en : EntropyI C S M ℝ}
    {e : CanonicalC C ℝ} {rng : Rng G ℝ} {p : Params ℝ} {tries : ℤ} {count : ℕ} {s : State C S M ℝ G}
    {t : Trace C S M ℝ G} (ht : iterateF o ia en ⟨e.normalizeF o⟩ rng p tries count s = .ok t)
    (hthr : 0 ≤ p.killThreshold) {sizes : Vec C ℝ} {feat : Fin C → Fin S} (hg : FloatGas o en sizes feat)
    {i : Fin C} (hi : 0 < e.phiMeans i) {m : Fin M} (hm : t.masks m = 1) : 0 < t.phisComp i m := by
  have hJ := Js_rounded h ht hthr
  have hr := h.rounds
  have hmask := masks_rounded h ht
  have hmean := C86_mean h ht hthr hg (e := e) rfl i hi.le
  have hT : 0 < ∑ m, t.JsOld m :=
    Finset.sum_pos' (fun m _ => (hJ m).1) ⟨m, Finset.mem_univ _, (hJ m).2.2 hm⟩
  have hpos := hmean.pos_left hr (mul_pos hi hT)
  obtain ⟨tmp, f⟩ := iterateF_facts ht
  obtain ⟨phi0, hp, hn⟩ := f.partition
  have hφ := ((canonicalF_entries hn).1 i).2
  have hp0 : ∀ m, 0 < phi0 i m := fun m => by rw [(hg.weights hp i).1]; exact h.exp _
  obtain ⟨n, -, hn0⟩ := Finset.exists_lt_of_sum_lt (s := Finset.univ) (f := fun _ => (0 : ℝ))
    (g := fun m => t.JsOld m * t.phisComp i m) (by simpa using hpos)
  have hn1 : t.masks n = 1 := by
    rcases (hmask n).1 with h0 | h0
    · rw [(hJ n).2.1 h0, zero_mul] at hn0
      exact absurd hn0 (lt_irrefl _)
    · exact h0
  have hn2 : 0 < t.phisComp i n := pos_of_mul_pos_right hn0 (hJ n).1
  have hfac : 0 < o.div (e.phiMeans i) (t.Qs i) := by
    by_contra hc
    rw [hφ n, hn1, h.mul_one, h.mul, hr.idem] at hn2
    have := hr.mono (mul_nonpos_of_nonpos_of_nonneg (not_lt.mp hc) (hp0 n).le)
    rw [hr.zero] at this
    linarith
  rw [hφ m, hm, h.mul_one, h.mul, hr.idem]
  exact hr.pos_of (mul_pos hfac (hp0 m))

/-- The last pass of a metastep without constraints starts without constraints. -/
theorem metastepF_noCons {e : RunEnv C S M ℝ G} {tries : ℤ} {n : ℕ} {s : State C S M ℝ G}
    {r : MetaResult C S M ℝ G} (h : metastepF o e.ia e.en e.es e.rng e.params tries n s = .ok r)
    (hs : s.cons = []) :
    ∃ k s', s'.cons = [] ∧ iterateF o e.ia e.en e.es e.rng e.params tries k s' = .ok r.last := by
  have keep : ∀ {k s t}, s.cons = [] → iterateF o e.ia e.en e.es e.rng e.params tries k s = .ok t →
      t.state.cons = [] := by
    intro k s t hs ht
    obtain ⟨tmp, f⟩ := iterateF_facts ht
    have hc := f.cons
    rw [f.consPrep, hs, List.map_nil] at hc
    exact (Prod.mk.inj (Except.ok.inj hc)).2.symm
  cases n with
  | zero => cases h
  | succ n =>
    unfold metastepF at h
    simp only [bind_eq_ok] at h
    obtain ⟨t, h1, t', h2, h3⟩ := h
    cases h3
    have key : ∀ (n : ℕ) (t t' : Trace C S M ℝ G), (∃ k s', s'.cons = [] ∧
        iterateF o e.ia e.en e.es e.rng e.params tries k s' = .ok t) →
        iterateMoreF o e.ia e.en e.es e.rng e.params tries n t = .ok t' →
        ∃ k s', s'.cons = [] ∧ iterateF o e.ia e.en e.es e.rng e.params tries k s' = .ok t' := by
      intro n
      induction n with
      | zero => intro t t' ht h; cases h; exact ht
      | succ n ih =>
        intro t t' ht h
        obtain ⟨k, s', h1, h2⟩ := ht
        unfold iterateMoreF at h
        rw [bind_eq_ok] at h
        obtain ⟨t1, a, b⟩ := h
        exact ih t1 t' ⟨_, _, keep h1 h2, a⟩ b
    exact key n t t' ⟨_, _, hs, h1⟩ h2

/-- **C87**, balance in converged runs: in all compartments with a volume above the threshold the chemical
potentials of a component agree up to a multiple of the tolerance and rounding errors. -/
theorem C87_converged (h : RoundedOps o rnd u) (hv : ExpAccurate o v) {e : RunEnv C S M ℝ G} {chis : Mat S S ℝ}
    {coef : ℝ} (hia : e.ia = floryHugginsF o chis coef M) (hthr : 0 ≤ e.params.killThreshold) {sizes : Vec C ℝ}
    {feat : Fin C → Fin S} (hg : FloatGas o e.en sizes feat) (hes : NonnegEnsemble o e.es) {k : ℕ}
    (hfeat : SumsFeatures e.en feat u k) (hvd : e.en.volumeDerivative = gasVolumeDerivativeF o sizes)
    (hl : ∀ i, 0 < sizes i) (hk : ∀ k : ℕ, k ≤ M → rnd k = k) (hS : rnd S = S) {tries : ℤ} {n : ℕ} {tol : ℝ}
    {s : State C S M ℝ G} (hcons : s.cons = []) {r : MetaResult C S M ℝ G}
    (hr : metastepF o e.ia e.en e.es e.rng e.params tries n s = .ok r) (hc : convergedF o tol r = true)
    {a b : Fin M} (ha : e.params.killThreshold < r.last.Js a) (hb : e.params.killThreshold < r.last.Js b)
    (i : Fin C) (hia' : 0 < r.last.phisComp i a) (hib : 0 < r.last.phisComp i b) :
    |chemPot (fun i j => chis (feat i) (feat j)) sizes (fun j => r.last.phisComp j a) i -
      chemPot (fun i j => chis (feat i) (feat j)) sizes (fun j => r.last.phisComp j b) i| ≤
      (S + |coef| + 2 / (1 - u)) * tol + 2 * (u / (1 - u) + v / (1 - v)) / sizes i +
      4 * ((1 + u) ^ (3 * k + 3 * S + C + 5) - 1) *
        (magnitude chis coef sizes feat (fun j => r.last.phisComp j a) (fun q => r.last.omegasOld q a)
          (r.last.xi a) (r.last.incomp a) +
         magnitude chis coef sizes feat (fun j => r.last.phisComp j b) (fun q => r.last.omegasOld q b)
          (r.last.xi b) (r.last.incomp b)) := by
  obtain ⟨hiff, -, -⟩ := C86_converged h hthr hg hes hk hr hc
  obtain ⟨count, s', hs', hp⟩ := metastepF_noCons hr hcons
  rw [hia] at hp
  have hu1 : 0 < 1 - u := by linarith [h.rounds.lt_one]
  refine (C87_pass h hv hp hg hes hfeat hvd hl hs' hthr hS ((hiff a).mpr ha) ((hiff b).mpr hb) i hia' hib).trans ?_
  unfold convergedF at hc
  simp only [Bool.and_eq_true, decide_eq_true_eq] at hc
  obtain ⟨⟨⟨⟨-, h1⟩, h2⟩, h3⟩, -⟩ := hc
  rw [h.lt] at h1 h2 h3
  have e1 := mul_le_mul_of_nonneg_left h2.le (Nat.cast_nonneg (α := ℝ) S)
  have e2 := mul_le_mul_of_nonneg_left h1.le (abs_nonneg coef)
  have e3 := mul_le_mul_of_nonneg_left h3.le (div_pos two_pos hu1).le
  linarith

/-- **C87**, the entropies: both meet the assumptions, the ideal gas without roundings of the fractions of the
features, the polydispersed one with at most one rounding per component. -/
theorem C87_entropies (h : RoundedOps o rnd u) (sizes : Vec C ℝ) {per : Vec S ℕ} (hC : C = ∑ r, per r)
    (hp : ∀ r, 1 ≤ per r) {feat : Fin C → Fin S} (hf : IsFeat per feat) :
    (FloatGas o (idealF o sizes M) sizes id ∧ SumsFeatures (idealF o sizes M) id u 0 ∧
      (idealF o sizes M).volumeDerivative = gasVolumeDerivativeF o sizes) ∧
    FloatGas o (polyF o sizes per M) sizes feat ∧ SumsFeatures (polyF o sizes per M) feat u C ∧
      (polyF o sizes per M).volumeDerivative = gasVolumeDerivativeF o sizes :=
  ⟨⟨idealF_gas sizes, idealF_sums sizes, rfl⟩, polyF_gas sizes hC hp hf, polyF_sums h sizes hC hp hf, rfl⟩

example : ∃ feat : Fin 3 → Fin 2, SumsFeatures (polyF realDoubles ![1, 2, 3] ![2, 1] 2) feat (2⁻¹ ^ 53) 3 := by
  obtain ⟨feat, hf⟩ := exists_isFeat (C := 3) (![2, 1] : Vec 2 ℕ) (by decide)
  exact ⟨feat, (C87_entropies (M := 2) realDoubles_rounded ![1, 2, 3] (by decide)
    (fun r => by fin_cases r <;> simp) hf).2.2.1⟩

theorem realDoubles_exp : ExpAccurate realDoubles (2⁻¹ ^ 53) := by
  refine ⟨by norm_num, fun x => ?_⟩
  have := double_rounds.err (Real.exp x)
  rwa [abs_of_pos (Real.exp_pos x)] at this

/-- Few roundings in double precision. -/
theorem double_pow {N : ℕ} (hN : N ≤ 2 ^ 53) : (1 + (2⁻¹ : ℝ) ^ 53) ^ N - 1 ≤ N * 2⁻¹ ^ 52 := by
  have hN' : (N : ℝ) ≤ 2 ^ 53 := by exact_mod_cast hN
  have h1 : (1 + (2⁻¹ : ℝ) ^ 53) ^ N ≤ Real.exp (N * 2⁻¹ ^ 53) := by
    rw [Real.exp_nat_mul]
    refine pow_le_pow_left₀ (by positivity) ?_ N
    have := Real.add_one_le_exp ((2⁻¹ : ℝ) ^ 53)
    linarith
  have h0 : (0 : ℝ) ≤ N * 2⁻¹ ^ 53 := by positivity
  have h2 : (N : ℝ) * 2⁻¹ ^ 53 ≤ 1 := by
    have : (2 : ℝ) ^ 53 * 2⁻¹ ^ 53 = 1 := by norm_num
    rw [← this]
    exact mul_le_mul_of_nonneg_right hN' (by positivity)
  have h3 := Real.abs_exp_sub_one_sub_id_le (x := N * 2⁻¹ ^ 53) (by rwa [abs_of_nonneg h0])
  have h4 := (abs_le.mp h3).2
  have h5 : ((N : ℝ) * 2⁻¹ ^ 53) ^ 2 ≤ N * 2⁻¹ ^ 53 := by nlinarith
  have h6 : (N : ℝ) * 2⁻¹ ^ 52 = 2 * (N * 2⁻¹ ^ 53) := by ring
  linarith

/-- **C87** in double precision: the constants with an exponential function rounded to double precision. -/
theorem C87_double {e : RunEnv C S M ℝ G} {chis : Mat S S ℝ} {coef : ℝ}
    (hia : e.ia = floryHugginsF realDoubles chis coef M) (hthr : 0 ≤ e.params.killThreshold) {sizes : Vec C ℝ}
    {feat : Fin C → Fin S} (hg : FloatGas realDoubles e.en sizes feat) (hes : NonnegEnsemble realDoubles e.es) {k : ℕ}
    (hfeat : SumsFeatures e.en feat (2⁻¹ ^ 53) k) (hvd : e.en.volumeDerivative = gasVolumeDerivativeF realDoubles sizes)
    (hl : ∀ i, 0 < sizes i) (hM : M ≤ 2 ^ 53) {N : ℕ} (hN : N = 3 * k + 3 * S + C + 5) (hN' : N ≤ 2 ^ 53)
    {tries : ℤ} {n : ℕ} {tol : ℝ} {s : State C S M ℝ G} (hcons : s.cons = []) {r : MetaResult C S M ℝ G}
    (hr : metastepF realDoubles e.ia e.en e.es e.rng e.params tries n s = .ok r)
    (hc : convergedF realDoubles tol r = true) {a b : Fin M} (ha : e.params.killThreshold < r.last.Js a)
    (hb : e.params.killThreshold < r.last.Js b) (i : Fin C) (hia' : 0 < r.last.phisComp i a)
    (hib : 0 < r.last.phisComp i b) :
    |chemPot (fun i j => chis (feat i) (feat j)) sizes (fun j => r.last.phisComp j a) i -
      chemPot (fun i j => chis (feat i) (feat j)) sizes (fun j => r.last.phisComp j b) i| ≤
      (S + |coef| + 3) * tol + 2⁻¹ ^ 50 * (1 / sizes i + N *
        (magnitude chis coef sizes feat (fun j => r.last.phisComp j a) (fun q => r.last.omegasOld q a)
          (r.last.xi a) (r.last.incomp a) +
         magnitude chis coef sizes feat (fun j => r.last.phisComp j b) (fun q => r.last.omegasOld q b)
          (r.last.xi b) (r.last.incomp b))) := by
  subst hN
  have h := realDoubles_rounded
  have main := C87_converged h realDoubles_exp hia hthr hg hes hfeat hvd hl
    (fun k hk => double_nat (hk.trans hM)) (double_nat (by omega)) hcons hr hc ha hb i hia' hib
  obtain ⟨-, hfr, -⟩ := C86_converged h hthr hg hes (fun k hk => double_nat (hk.trans hM)) hr hc
  refine main.trans ?_
  obtain ⟨count, s', hs', hp⟩ := metastepF_noCons hr hcons
  have htol : 0 ≤ tol := by
    unfold convergedF at hc
    simp only [Bool.and_eq_true, decide_eq_true_eq] at hc
    obtain ⟨⟨⟨⟨-, h1⟩, h2⟩, h3⟩, -⟩ := hc
    rw [h.lt] at h3
    obtain ⟨tmp, f⟩ := iterateF_facts hp
    have := le_npMax (fun m => realDoubles.abs (r.last.JsDiff m)) a
    rw [← h.max, ← f.maxAbsJsDiff, h.abs] at this
    linarith [abs_nonneg (r.last.JsDiff a)]
  have hmag : ∀ {m : Fin M}, (∀ i, 0 ≤ r.last.phisComp i m) →
      0 ≤ magnitude chis coef sizes feat (fun j => r.last.phisComp j m) (fun q => r.last.omegasOld q m)
          (r.last.xi m) (r.last.incomp m) := by
    intro m hφ
    unfold magnitude
    refine add_nonneg (add_nonneg (add_nonneg (Finset.sum_nonneg fun r _ => mul_nonneg (add_nonneg (add_nonneg
      (Finset.sum_nonneg fun j _ => mul_nonneg (abs_nonneg _) (hφ j)) (abs_nonneg _)) (abs_nonneg _))
      (add_nonneg zero_le_one (mul_nonneg zero_le_two (Finset.sum_nonneg fun j _ => ?_)))) (abs_nonneg _))
      (Finset.sum_nonneg fun j _ => div_nonneg (hφ j) (hl j).le)) (abs_nonneg _)
    split_ifs
    exacts [hφ j, le_rfl]
  have hW := add_nonneg (hmag (hfr a ha).1) (hmag (hfr b hb).1)
  generalize magnitude chis coef sizes feat (fun j => r.last.phisComp j a) _ _ _ +
    magnitude chis coef sizes feat (fun j => r.last.phisComp j b) _ _ _ = Z at hW ⊢
  have e1 := mul_le_mul_of_nonneg_right (double_pow hN') hW
  have e2 : (2 : ℝ) / (1 - 2⁻¹ ^ 53) * tol ≤ 3 * tol := mul_le_mul_of_nonneg_right (by norm_num) htol
  have e3 : (2 : ℝ) * (2⁻¹ ^ 53 / (1 - 2⁻¹ ^ 53) + 2⁻¹ ^ 53 / (1 - 2⁻¹ ^ 53)) / sizes i ≤ 2⁻¹ ^ 50 * (1 / sizes i) := by
    rw [mul_one_div]
    exact div_le_div_of_nonneg_right (by norm_num) (hl i).le
  generalize (3 * k + 3 * S + C + 5 : ℕ) = N at e1 ⊢
  have e4 : (2⁻¹ : ℝ) ^ 50 * (1 / sizes i + N * Z) = 2⁻¹ ^ 50 * (1 / sizes i) + 4 * (N * 2⁻¹ ^ 52 * Z) := by ring
  rw [e4]
  linarith

namespace RoundingExample

/-- Equal volumes and different fields. -/
noncomputable def state2 : State 2 2 2 ℝ Unit := { state with Js := fun _ => 1 }

theorem pass2 : ∃ t, iterateF realDoubles (env ![1 / 3, 2 / 3]).ia (env ![1 / 3, 2 / 3]).en
    (env ![1 / 3, 2 / 3]).es (env ![1 / 3, 2 / 3]).rng (env ![1 / 3, 2 / 3]).params 0 0 state2 = .ok t :=
  C86_returns realDoubles_rounded _ _ 0 0 le_rfl (idealF_gas _) (Or.inl ⟨_, rfl⟩) (fun k hk => counts hk)
    (by norm_num [env]) (by intro c hc; cases hc) ⟨0, one_pos⟩

theorem converged2 : ∃ r tol, metastepF realDoubles (env ![1 / 3, 2 / 3]).ia (env ![1 / 3, 2 / 3]).en
    (env ![1 / 3, 2 / 3]).es (env ![1 / 3, 2 / 3]).rng (env ![1 / 3, 2 / 3]).params 0 1 state2 = .ok r ∧
    convergedF realDoubles tol r = true ∧ ∀ m, 0 < r.last.Js m := by
  have h := realDoubles_rounded
  have hr := h.rounds
  obtain ⟨t, ht⟩ := pass2
  have hm : ∀ m, t.masks m = 1 := fun m => (masks_rounded h ht m).2.mpr one_pos
  have hstep := step_rounded h ht (by norm_num [env]) (by norm_num [env])
  have hJ : ∀ m, t.JsOld m = 1 := by
    intro m
    obtain ⟨tmp, f⟩ := iterateF_facts ht
    rw [f.JsOld, hm, h.mul_one]
    exact double_one
  have hn : t.nValid = 2 := by
    rw [nValid_rounded h ht (fun k hk => counts hk)]
    simp [hm]
  have hpos : ∀ m, 0 < t.Js m := by
    obtain ⟨tmp, f⟩ := iterateF_facts ht
    have hj := f.Js
    unfold updateJsF at hj
    dsimp only at hj
    rw [bind_eq_ok] at hj
    obtain ⟨mean, h1, h2⟩ := hj
    obtain ⟨hne, h1⟩ := pyDivF_eq_ok.mp h1
    rw [h.eq_zero] at hne
    rw [h.div _ _ hne, hn] at h1
    have hy : ∀ m, |realDoubles.mul (realDoubles.add (t.JsOld m) (realDoubles.mul (realDoubles.mul t.factor
        (env ![1 / 3, 2 / 3]).params.acceptanceJs) (t.JsDiff m))) (t.masks m) - 1| ≤ 1 / 100 := by
      intro m
      rw [hm, h.mul_one, hJ, h.add, hr.idem]
      have e1 := hstep m
      rw [show (env ![1 / 3, 2 / 3]).params.JsStepUpperBound = 1 / 1000 from rfl] at e1
      have e2 : (1 + (2⁻¹ : ℝ) ^ 53) ^ 3 / (1 - 2⁻¹ ^ 53) * (1 / 1000) ≤ 1 / 500 := by norm_num
      have e3 := abs_le.mp (e1.trans e2)
      generalize realDoubles.mul _ _ = z at e3
      have e4 := hr.err (1 + z)
      rw [abs_of_nonneg (by linarith [e3.1] : 0 ≤ 1 + z)] at e4
      have e5 := e4.trans (mul_le_mul_of_nonneg_left (show 1 + z ≤ 2 by linarith [e3.2]) (by norm_num))
      have e6 := abs_le.mp (e5.trans (show (2⁻¹ : ℝ) ^ 53 * 2 ≤ 1 / 500 by norm_num))
      rw [abs_le]
      constructor <;> linarith [e3.1, e3.2, e6.1, e6.2]
    generalize hyy : (fun m => realDoubles.mul (realDoubles.add (t.JsOld m) (realDoubles.mul (realDoubles.mul t.factor
        (env ![1 / 3, 2 / 3]).params.acceptanceJs) (t.JsDiff m))) (t.masks m)) = y at h1 h2
    replace hy : ∀ m, |y m - 1| ≤ 1 / 100 := fun m => by rw [← hyy]; exact hy m
    have hy0 := abs_le.mp (hy 0)
    have hy1 := abs_le.mp (hy 1)
    have hs := h.sum_err y
    rw [Fin.sum_univ_two, Fin.sum_univ_two, abs_of_nonneg (by linarith [hy0.1] : 0 ≤ y 0),
      abs_of_nonneg (by linarith [hy1.1] : 0 ≤ y 1)] at hs
    have hs1 := abs_le.mp (hs.trans (show ((1 + (2⁻¹ : ℝ) ^ 53) ^ 2 - 1) * (y 0 + y 1) ≤ 1 / 100 by
      nlinarith [hy0.2, hy1.2]))
    have hmean : mean ≤ 21 / 20 := by
      rw [h1]
      have e1 := hr.err (realDoubles.sum y / 2)
      have e2 : 0 ≤ realDoubles.sum y / 2 := by linarith [hs1.1, hy0.1, hy1.1]
      have e3 : realDoubles.sum y / 2 ≤ 103 / 100 := by linarith [hs1.2, hy0.2, hy1.2]
      rw [abs_of_nonneg e2] at e1
      have e4 := e1.trans (mul_le_mul_of_nonneg_left e3 (by norm_num))
      have e5 := (abs_le.mp (e4.trans (show (2⁻¹ : ℝ) ^ 53 * (103 / 100) ≤ 1 / 100 by norm_num))).2
      linarith
    intro m
    have h3 : t.Js m = realDoubles.mul (realDoubles.add (y m) (realDoubles.sub (realDoubles.ofNat 1) mean))
        (t.masks m) := by
      rw [← Except.ok.inj h2, ← hyy]
    rw [h3, hm, h.mul_one, h.add, hr.idem, h.sub, h.one]
    refine hr.pos_of ?_
    have e1 : -(1 / 10) ≤ double (1 - mean) := by
      have e2 := hr.mono (show -(1 / 16) ≤ 1 - mean by linarith)
      have e3 := hr.err (-(1 / 16))
      rw [abs_neg, abs_of_pos (by norm_num : (0 : ℝ) < 1 / 16)] at e3
      have e4 := (abs_le.mp (e3.trans (show (2⁻¹ : ℝ) ^ 53 * (1 / 16) ≤ 1 / 100 by norm_num))).1
      linarith
    have := (abs_le.mp (hy m)).1
    linarith
  have hcount : countValidF realDoubles t.Js (env ![1 / 3, 2 / 3]).params.killThreshold = 2 := by
    unfold countValidF
    have h0 : ∀ m, realDoubles.lt (env ![1 / 3, 2 / 3]).params.killThreshold (t.Js m) := hpos
    rw [Fin.sum_univ_two, if_pos (h0 0), if_pos (h0 1)]
  obtain ⟨tol, h1, h2, h3, h4⟩ : ∃ tol, t.maxAbsIncomp < tol ∧ t.maxAbsOmegaDiff < tol ∧ t.maxAbsJsDiff < tol ∧
      t.maxConstraintResidue < tol := by
    refine ⟨|t.maxAbsIncomp| + |t.maxAbsOmegaDiff| + |t.maxAbsJsDiff| + |t.maxConstraintResidue| + 1, ?_, ?_, ?_, ?_⟩ <;>
      linarith [le_abs_self t.maxAbsIncomp, le_abs_self t.maxAbsOmegaDiff, le_abs_self t.maxAbsJsDiff,
        le_abs_self t.maxConstraintResidue, abs_nonneg t.maxAbsIncomp, abs_nonneg t.maxAbsOmegaDiff,
        abs_nonneg t.maxAbsJsDiff, abs_nonneg t.maxConstraintResidue]
  refine ⟨⟨t, decide (realDoubles.eq t.nValid (realDoubles.ofNat
    (countValidF realDoubles t.Js (env ![1 / 3, 2 / 3]).params.killThreshold)))⟩, tol, ?_, ?_, hpos⟩
  · unfold metastepF
    rw [ht]
    rfl
  · have hs : realDoubles.eq t.nValid (realDoubles.ofNat
        (countValidF realDoubles t.Js (env ![1 / 3, 2 / 3]).params.killThreshold)) := by
      rw [hcount, hn]
      exact (counts le_rfl).symm
    have e1 : realDoubles.lt t.maxAbsIncomp tol := h1
    have e2 : realDoubles.lt t.maxAbsOmegaDiff tol := h2
    have e3 : realDoubles.lt t.maxAbsJsDiff tol := h3
    have e4 : realDoubles.lt t.maxConstraintResidue tol := h4
    unfold convergedF
    simp only [decide_eq_true hs, decide_eq_true e1, decide_eq_true e2, decide_eq_true e3, decide_eq_true e4,
      Bool.and_self]

example : ∃ (r : MetaResult 2 2 2 ℝ Unit) (tol : ℝ), convergedF realDoubles tol r = true ∧ ∀ i,
    0 < r.last.phisComp i 0 ∧ 0 < r.last.phisComp i 1 ∧
    |chemPot ![![0, 3], ![3, 0]] ![1, 2] (fun j => r.last.phisComp j 0) i -
      chemPot ![![0, 3], ![3, 0]] ![1, 2] (fun j => r.last.phisComp j 1) i| ≤
      (2 + 6 + 3) * tol + 2⁻¹ ^ 50 * (1 / (![1, 2] : Vec 2 ℝ) i + 13 *
        (magnitude ![![0, 3], ![3, 0]] 6 ![1, 2] id (fun j => r.last.phisComp j 0) (fun q => r.last.omegasOld q 0)
          (r.last.xi 0) (r.last.incomp 0) +
         magnitude ![![0, 3], ![3, 0]] 6 ![1, 2] id (fun j => r.last.phisComp j 1) (fun q => r.last.omegasOld q 1)
          (r.last.xi 1) (r.last.incomp 1))) := by
  obtain ⟨r, tol, hr, hc, hpos⟩ := converged2
  have hm := (C86_converged (e := env ![1 / 3, 2 / 3]) realDoubles_rounded le_rfl (idealF_gas _)
    (Or.inl ⟨⟨![1 / 3, 2 / 3]⟩, rfl, fun i => by fin_cases i <;> norm_num⟩) (fun k hk => counts hk) hr hc).1
  have hφ : ∀ i m, 0 < r.last.phisComp i m := by
    intro i m
    obtain ⟨count, s', -, hp⟩ := metastepF_noCons hr rfl
    refine C87_positive realDoubles_rounded (e := ⟨![1 / 3, 2 / 3]⟩) hp le_rfl (idealF_gas _) ?_
      ((hm m).mpr (hpos m))
    fin_cases i <;> norm_num
  refine ⟨r, tol, hc, fun i => ⟨hφ i 0, hφ i 1, ?_⟩⟩
  have := C87_double (e := env ![1 / 3, 2 / 3]) (chis := ![![0, 3], ![3, 0]]) (coef := 6) rfl le_rfl
    (idealF_gas ![1, 2]) (Or.inl ⟨⟨![1 / 3, 2 / 3]⟩, rfl, fun i => by fin_cases i <;> norm_num⟩)
    (idealF_sums ![1, 2]) rfl (fun i => by fin_cases i <;> norm_num) (by norm_num) (N := 13) rfl (by norm_num) rfl
    hr hc (hpos 0) (hpos 1) i (hφ i 0) (hφ i 1)
  rw [abs_of_pos (by norm_num : (0 : ℝ) < 6)] at this
  exact_mod_cast this

end RoundingExample

end Flory
