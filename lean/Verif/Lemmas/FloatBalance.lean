import Verif.Lemmas.ErrCalc
import Mathlib.Analysis.SpecialFunctions.Log.Basic

/-! # Rounding errors of the fields and the energies of a pass -/

set_option linter.unusedSectionVars false

namespace Flory

open Spec

theorem forRange_apply {α β : Type} {n : ℕ} (f : α → β) (g : Fin n → α → β → β) (m : α) :
    forRange n f (fun r f m => g r m (f m)) m = forRange n (f m) fun r a => g r m a := by
  induction n with
  | zero => rfl
  | succ n ih => rw [forRange_succ, forRange_succ, ← ih]

theorem sum_below_succ {S : ℕ} (y : Fin S → ℝ) (j : Fin S) :
    (∑ r : Fin S, if r.1 < j.1 + 1 then y r else 0) = (∑ r : Fin S, if r.1 < j.1 then y r else 0) + y j := by
  have : ∀ r : Fin S, (if r.1 < j.1 + 1 then y r else 0) =
      (if r.1 < j.1 then y r else 0) + if r = j then y r else 0 := by
    intro r
    by_cases h : r = j
    · subst h; simp
    · have : r.1 ≠ j.1 := fun e => h (Fin.ext e)
      by_cases hl : r.1 < j.1
      · simp [hl, h, Nat.lt_succ_of_lt hl]
      · simp [hl, h, show ¬r.1 < j.1 + 1 by omega]
  rw [Finset.sum_congr rfl fun r _ => this r, Finset.sum_add_distrib, Finset.sum_ite_eq' Finset.univ j y,
    if_pos (Finset.mem_univ j)]

theorem sum_below_all {S : ℕ} (y : Fin S → ℝ) : (∑ r : Fin S, if r.1 < S then y r else 0) = ∑ r, y r :=
  Finset.sum_congr rfl fun r _ => if_pos r.2

section Structure

variable {F : Type} {o : Floats F} {S M : ℕ}

/-- The total fields without constraints. -/
theorem computeLocalF_fields [NeZero M] (a b x i : Vec M F) (q f : Mat S M F) (r : Fin S) (m : Fin M) :
    (computeLocalF o a b x i q f []).2 r m = o.add (q r m) (x m) := by
  unfold computeLocalF
  have := forRange_inv (n := S) (s := ((fun m => o.add (o.add (a m) (b m)) (o.mul (x m) (i m)) : Vec M F), q))
    (body := fun r s =>
      let omegaTemp := setAt s.2 r fun m => o.add (s.2 r m) (x m)
      ((fun m => o.sub (s.1 m) (o.mul (omegaTemp r m) (f r m)) : Vec M F), omegaTemp))
    (P := fun k (s : Vec M F × Mat S M F) => ∀ r : Fin S,
      (r.1 < k → s.2 r = fun m => o.add (q r m) (x m)) ∧ (k ≤ r.1 → s.2 r = q r))
    (fun r => ⟨fun h => absurd h (Nat.not_lt_zero _), fun _ => rfl⟩) (by
      intro j s ih r
      dsimp only
      by_cases h : r = j
      · subst h
        rw [setAt_same, (ih r).2 le_rfl]
        exact ⟨fun _ => rfl, fun h => absurd h (by omega)⟩
      · have : r.1 ≠ j.1 := fun e => h (Fin.ext e)
        rw [setAt_ne _ _ h]
        exact ⟨fun hl => (ih r).1 (by omega), fun hl => (ih r).2 (by omega)⟩)
  exact congrFun ((this r).1 r.2) m

variable [NeZero M]

/-- The field errors. -/
theorem updateOmegasF_entries {step : F} {masks : Vec M F} {tmp w d w' : Mat S M F} {mx : F}
    (h : (mx, d, w') = updateOmegasF o step masks tmp w) (r : Fin S) (m : Fin M) :
    d r m = o.mul (o.sub (tmp r m) (w r m)) (masks m) := by
  unfold updateOmegasF at h
  have := forRange_inv (n := S) (s := (o.ofNat 0, tmp, w)) (body := fun r s =>
      let omegaTemp := setAt s.2.1 r fun m => o.sub (s.2.1 r m) (s.2.2 r m)
      let omegaTemp := setAt omegaTemp r fun m => o.mul (omegaTemp r m) (masks m)
      let maxDiff := o.max2 s.1 (o.max (omegaTemp r))
      let omegas := setAt s.2.2 r fun m => o.add (s.2.2 r m) (o.mul step (omegaTemp r m))
      let omegas := setAt omegas r fun m => o.mul (omegas r m) (masks m)
      (maxDiff, omegaTemp, omegas))
    (P := fun k (s : F × Mat S M F × Mat S M F) => ∀ r : Fin S,
      (r.1 < k → ∀ m, s.2.1 r m = o.mul (o.sub (tmp r m) (w r m)) (masks m)) ∧
      (k ≤ r.1 → s.2.1 r = tmp r ∧ s.2.2 r = w r))
    (fun r => ⟨fun h => absurd h (Nat.not_lt_zero _), fun _ => ⟨rfl, rfl⟩⟩) (by
      intro j s ih r
      dsimp only
      by_cases h : r = j
      · subst h
        obtain ⟨e1, e2⟩ := (ih r).2 le_rfl
        refine ⟨fun _ m => ?_, fun h => absurd h (by omega)⟩
        rw [setAt_same, setAt_same, e1, e2]
      · have : r.1 ≠ j.1 := fun e => h (Fin.ext e)
        simp only [setAt_ne _ _ h]
        exact ⟨fun hl => (ih r).1 (by omega), fun hl => (ih r).2 (by omega)⟩)
  rw [← h] at this
  exact (this r).1 r.2 m

end Structure

section Structure

variable {o : Floats ℝ} {rnd : ℝ → ℝ} {u : ℝ} {S M : ℕ} [NeZero M] (h : RoundedOps o rnd u)
include h

theorem updateOmegasF_max {step : ℝ} {masks : Vec M ℝ} {tmp w d w' : Mat S M ℝ} {mx : ℝ}
    (hh : (mx, d, w') = updateOmegasF o step masks tmp w) : 0 ≤ mx ∧ ∀ r m, d r m ≤ mx := by
  unfold updateOmegasF at hh
  have := forRange_inv (n := S) (s := (o.ofNat 0, tmp, w)) (body := fun r s =>
      let omegaTemp := setAt s.2.1 r fun m => o.sub (s.2.1 r m) (s.2.2 r m)
      let omegaTemp := setAt omegaTemp r fun m => o.mul (omegaTemp r m) (masks m)
      let maxDiff := o.max2 s.1 (o.max (omegaTemp r))
      let omegas := setAt s.2.2 r fun m => o.add (s.2.2 r m) (o.mul step (omegaTemp r m))
      let omegas := setAt omegas r fun m => o.mul (omegas r m) (masks m)
      (maxDiff, omegaTemp, omegas))
    (P := fun k (s : ℝ × Mat S M ℝ × Mat S M ℝ) => 0 ≤ s.1 ∧ ∀ r : Fin S, r.1 < k → ∀ m, s.2.1 r m ≤ s.1)
    ⟨h.zero.ge, fun r h => absurd h (Nat.not_lt_zero _)⟩ (by
      intro j s ih
      dsimp only
      rw [h.max2, h.max]
      refine ⟨ih.1.trans (le_max_left _ _), fun r hl m => ?_⟩
      by_cases h : r = j
      · subst h
        exact (le_npMax _ m).trans (le_max_right _ _)
      · have : r.1 ≠ j.1 := fun e => h (Fin.ext e)
        rw [setAt_ne _ _ h, setAt_ne _ _ h]
        exact (ih.2 r (by omega) m).trans (le_max_left _ _))
  rw [← hh] at this
  exact ⟨this.1, fun r m => this.2 r r.2 m⟩

/-- Error of the local energies. -/
theorem computeLocalF_energy {a b x i : Vec M ℝ} {q f : Mat S M ℝ} {m : Fin M} {n : ℕ} {ya yb yi Ta Tb Ti : ℝ}
    {yq yf Tq Tf : Fin S → ℝ} {k : ℕ} (ha : Err u n (a m) ya Ta) (hb : Err u n (b m) yb Tb)
    (hi : Err u n (i m) yi Ti) (hq : ∀ r, Err u n (q r m) (yq r) (Tq r))
    (hf : ∀ r, Err u k (f r m) (yf r) (Tf r)) :
    Err u (n + k + 2 + S) ((computeLocalF o a b x i q f []).1 m)
      (ya + yb + x m * yi - ∑ r, (yq r + x m) * yf r)
      (Ta + Tb + |x m| * Ti + ∑ r, (Tq r + |x m|) * Tf r) := by
  have hu := h.rounds.nonneg
  unfold computeLocalF
  have := forRange_inv (n := S) (s := ((fun m => o.add (o.add (a m) (b m)) (o.mul (x m) (i m)) : Vec M ℝ), q))
    (body := fun r s =>
      let omegaTemp := setAt s.2 r fun m => o.add (s.2 r m) (x m)
      ((fun m => o.sub (s.1 m) (o.mul (omegaTemp r m) (f r m)) : Vec M ℝ), omegaTemp))
    (P := fun j (s : Vec M ℝ × Mat S M ℝ) => (∀ r : Fin S, j ≤ r.1 → s.2 r = q r) ∧
      Err u (n + k + 2 + j) (s.1 m)
      (ya + yb + x m * yi - ∑ r : Fin S, if r.1 < j then (yq r + x m) * yf r else 0)
      (Ta + Tb + |x m| * Ti + ∑ r : Fin S, if r.1 < j then (Tq r + |x m|) * Tf r else 0))
    ⟨fun r _ => rfl, by
      simp only [Nat.not_lt_zero, if_false, Finset.sum_const_zero, sub_zero, add_zero]
      have e1 := err_mul h (Err.refl (u := u) (x m)) hi
      have e2 := err_add h (err_add h ha hb) (e1.mono hu (k := n + 1) (by omega) le_rfl)
      exact e2.mono hu (by omega) le_rfl⟩ (by
      intro j s ih
      dsimp only
      refine ⟨fun r hr => ?_, ?_⟩
      · have : r ≠ j := fun e => by subst e; omega
        rw [setAt_ne _ _ this]
        exact ih.1 r (by omega)
      · rw [setAt_same, ih.1 j le_rfl, sum_below_succ, sum_below_succ, ← sub_sub, ← add_assoc (Ta + Tb + |x m| * Ti)]
        have e1 := err_add h (hq j) ((Err.refl (u := u) (x m)).mono hu (Nat.zero_le n) le_rfl)
        have e2 := err_mul h e1 (hf j)
        exact err_sub h ih.2 (e2.mono hu (k := n + k + 2 + j.1) (by omega) le_rfl))
  have h2 := this.2
  rw [sum_below_all, sum_below_all] at h2
  exact h2

end Structure

section Pass

variable {o : Floats ℝ} {rnd : ℝ → ℝ} {u : ℝ} {G : Type} {C S M : ℕ} [NeZero M] (h : RoundedOps o rnd u)
    {chis : Mat S S ℝ} {coef : ℝ} {en : EntropyI C S M ℝ}
    {es : EnsembleI C M ℝ} {rng : Rng G ℝ} {p : Params ℝ} {tries : ℤ} {count : ℕ} {s : State C S M ℝ G}
    {t : Trace C S M ℝ G} (ht : iterateF o (floryHugginsF o chis coef M) en es rng p tries count s = .ok t)
    {feat : Fin C → Fin S} {k : ℕ} (hfeat : SumsFeatures en feat u k) {m : Fin M} (hm : t.masks m = 1)
    (hφ : ∀ i, 0 ≤ t.phisComp i m)

/-- Fractions of the features. -/
def featSum (feat : Fin C → Fin S) (φ : Vec C ℝ) (r : Fin S) : ℝ := ∑ i, if feat i = r then φ i else 0

theorem featSum_nonneg {φ : Vec C ℝ} (hφ : ∀ i, 0 ≤ φ i) (r : Fin S) : 0 ≤ featSum feat φ r :=
  Finset.sum_nonneg fun i _ => by split_ifs; exacts [hφ i, le_rfl]

theorem featSum_sum (φ : Vec C ℝ) : ∑ r, featSum feat φ r = ∑ i, φ i := by
  unfold featSum
  rw [Finset.sum_comm]
  exact Finset.sum_congr rfl fun i _ => by rw [Finset.sum_ite_eq]; simp

theorem featSum_weighted (g : Fin S → ℝ) (φ : Vec C ℝ) :
    ∑ r, g r * featSum feat φ r = ∑ j, g (feat j) * φ j := by
  unfold featSum
  simp only [Finset.mul_sum]
  rw [Finset.sum_comm]
  refine Finset.sum_congr rfl fun j _ => ?_
  rw [Finset.sum_eq_single (feat j)]
  · rw [if_pos rfl]
  · intro r _ hr; rw [if_neg hr.symm, mul_zero]
  · intro hc; exact absurd (Finset.mem_univ _) hc

include h ht hfeat hφ

theorem err_feat (r : Fin S) : Err u k (t.phisFeat r m) (featSum feat (fun i => t.phisComp i m) r)
    (featSum feat (fun i => t.phisComp i m) r) := by
  obtain ⟨tmp, f⟩ := iterateF_facts ht
  have := hfeat _ _ _ f.phisFeat r m
  refine ⟨?_, by rw [abs_of_nonneg (featSum_nonneg hφ r)]⟩
  refine this.trans (le_of_eq ?_)
  congr 1
  exact Finset.sum_congr rfl fun i _ => by rw [abs_of_nonneg (hφ i)]

theorem err_potential (r : Fin S) : Err u (k + S + 1) (t.potential r m)
    (∑ q, chis r q * featSum feat (fun i => t.phisComp i m) q)
    (∑ q, |chis r q| * featSum feat (fun i => t.phisComp i m) q) := by
  have hf := err_feat h ht hfeat hφ
  obtain ⟨tmp, f⟩ := iterateF_facts ht
  rw [f.potential]
  have := err_dot h (n := 0 + k) (v := chis r) (w := fun q => t.phisFeat q m)
    fun q => Err.mul h.rounds.nonneg (Err.refl (u := u) (chis r q)) (hf q)
  rw [zero_add] at this
  exact this

theorem err_vdInteraction : Err u (2 * k + 2 * S + 3)
    ((floryHugginsF o chis coef M).volumeDerivative t.potential t.phisFeat m)
    ((∑ r, (∑ q, chis r q * featSum feat (fun i => t.phisComp i m) q) *
      featSum feat (fun i => t.phisComp i m) r) * (1 / 2))
    ((∑ r, (∑ q, |chis r q| * featSum feat (fun i => t.phisComp i m) q) *
      featSum feat (fun i => t.phisComp i m) r) * (1 / 2)) := by
  have hu := h.rounds.nonneg
  have hf := err_feat h ht hfeat hφ
  have hp := err_potential h ht hfeat hφ
  show Err u _ (o.mul (forRange S (fun _ => o.ofNat 0) (fun r (ans : Vec M ℝ) m =>
    o.add (ans m) (o.mul (t.potential r m) (t.phisFeat r m))) m) o.half) _ _
  rw [forRange_apply (fun _ => o.ofNat 0) (fun r m a => o.add a (o.mul (t.potential r m) (t.phisFeat r m))) m,
    h.zero, h.half]
  have e1 := err_loop_add h (a := 0) (b := 0) (A := 0) (n := 2 * k + S + 2) ((Err.refl' (by simp)).mono hu (Nat.zero_le _) le_rfl)
    (fun r => (err_mul h (hp r) (hf r)).mono hu (by omega) le_rfl)
  have e2 := err_mul h e1 (Err.refl' (u := u) (x := 1 / 2) (T := 1 / 2) (by norm_num))
  rw [zero_add, zero_add] at e2
  exact e2.mono hu (by omega) le_rfl

omit hfeat in
theorem err_vdEntropy {sizes : Vec C ℝ} (hl : ∀ i, 0 < sizes i) : Err u (C + 1)
    (gasVolumeDerivativeF o sizes t.phisComp m) (-∑ i, t.phisComp i m / sizes i)
    (∑ i, t.phisComp i m / sizes i) := by
  have hu := h.rounds.nonneg
  unfold gasVolumeDerivativeF
  rw [forRange_apply (fun _ => o.ofNat 0) (fun i m a => o.sub a (o.div (t.phisComp i m) (sizes i))) m, h.zero]
  have e1 := err_loop_sub h (a := 0) (b := 0) (A := 0) (n := 1) ((Err.refl' (by simp)).mono hu (Nat.zero_le _) le_rfl)
    (fun i => err_div h (hl i).ne' (Err.refl (u := u) (t.phisComp i m)))
  rw [zero_add, zero_sub] at e1
  have e3 : ∑ i, |t.phisComp i m| / |sizes i| = ∑ i, t.phisComp i m / sizes i :=
    Finset.sum_congr rfl fun i _ => by rw [abs_of_nonneg (hφ i), abs_of_pos (hl i)]
  rw [e3] at e1
  exact e1.mono hu (by omega) le_rfl

omit hfeat in
theorem err_incomp (hm : t.masks m = 1) (hi : t.incomp m = o.mul (forRange C (o.mul (o.neg (o.ofNat 1)) (o.ofNat 1))
      fun i a => o.add a (t.phisComp i m)) (t.masks m)) :
    Err u C (t.incomp m) (∑ i, t.phisComp i m - 1) (1 + ∑ i, t.phisComp i m) := by
  rw [hi, h.start, hm, h.mul_one, loopSum_float h]
  have e1 := err_loop_add h (a := -1) (b := -1) (A := 1) (n := 0) (Err.refl' (by simp))
    (fun i => Err.refl' (u := u) (x := t.phisComp i m) (T := t.phisComp i m) (by rw [abs_of_nonneg (hφ i)]))
  rw [zero_add, neg_add_eq_sub] at e1
  exact e1

variable (hcons : s.cons = [])
include hcons

theorem err_local {sizes : Vec C ℝ} (hvd : en.volumeDerivative = gasVolumeDerivativeF o sizes)
    (hl : ∀ i, 0 < sizes i) (hm : t.masks m = 1)
    (hi : t.incomp m = o.mul (forRange C (o.mul (o.neg (o.ofNat 1)) (o.ofNat 1))
      fun i a => o.add a (t.phisComp i m)) (t.masks m)) :
    Err u (3 * k + 3 * S + C + 5) (t.localEnergy m)
      ((∑ r, (∑ q, chis r q * featSum feat (fun i => t.phisComp i m) q) *
        featSum feat (fun i => t.phisComp i m) r) * (1 / 2) + -(∑ i, t.phisComp i m / sizes i) +
        t.xi m * (∑ i, t.phisComp i m - 1) -
        ∑ r, ((∑ q, chis r q * featSum feat (fun i => t.phisComp i m) q) + t.xi m) *
          featSum feat (fun i => t.phisComp i m) r)
      ((∑ r, (∑ q, |chis r q| * featSum feat (fun i => t.phisComp i m) q) *
        featSum feat (fun i => t.phisComp i m) r) * (1 / 2) + (∑ i, t.phisComp i m / sizes i) +
        |t.xi m| * (1 + ∑ i, t.phisComp i m) +
        ∑ r, ((∑ q, |chis r q| * featSum feat (fun i => t.phisComp i m) q) + |t.xi m|) *
          featSum feat (fun i => t.phisComp i m) r) := by
  have hu := h.rounds.nonneg
  have e1 := err_vdInteraction h ht hfeat hφ
  have e2 := err_vdEntropy h ht hφ hl
  have e3 := err_incomp h ht hφ hm hi
  have e4 := err_potential h ht hfeat hφ
  have e5 := err_feat h ht hfeat hφ
  obtain ⟨tmp, f⟩ := iterateF_facts ht
  have hc : t.consPrep = [] := by rw [f.consPrep, hcons, List.map_nil]
  have hloc := f.loc
  rw [hc, hvd] at hloc
  have := computeLocalF_energy h (x := t.xi) (n := 2 * k + 2 * S + C + 3) (e1.mono hu (by omega) le_rfl)
    (e2.mono hu (by omega) le_rfl) (e3.mono hu (by omega) le_rfl) (fun r => (e4 r).mono hu (by omega) le_rfl) e5
  rw [← hloc] at this
  exact this.mono hu (by omega) le_rfl

theorem err_diff (hm : t.masks m = 1) (r : Fin S) : Err u (k + S + 4) (t.omegaDiff r m)
    ((∑ q, chis r q * featSum feat (fun i => t.phisComp i m) q) + t.xi m - t.omegasOld r m)
    ((∑ q, |chis r q| * featSum feat (fun i => t.phisComp i m) q) + |t.xi m| + |t.omegasOld r m|) := by
  have hu := h.rounds.nonneg
  have e4 := err_potential h ht hfeat hφ
  obtain ⟨tmp, f⟩ := iterateF_facts ht
  have hc : t.consPrep = [] := by rw [f.consPrep, hcons, List.map_nil]
  have hloc := f.loc
  rw [hc] at hloc
  have htmp : tmp r m = o.add (t.potential r m) (t.xi m) := by
    rw [← computeLocalF_fields, ← hloc]
  rw [updateOmegasF_entries f.omegas, htmp, hm, h.mul_one]
  have e1 := err_add h (e4 r) ((Err.refl (u := u) (t.xi m)).mono hu (Nat.zero_le _) le_rfl)
  have e2 := err_sub h e1 ((Err.refl (u := u) (t.omegasOld r m)).mono hu (Nat.zero_le _) le_rfl)
  exact (e2.rounded h.rounds).mono hu (by omega) le_rfl

theorem err_xi (hm : t.masks m = 1) (hS : rnd S = S) (hS0 : S ≠ 0) : Err u (k + 2 * S + 4) (t.xi m)
    ((coef * t.incomp m + ∑ r, (t.omegasOld r m - ∑ q, chis r q * featSum feat (fun i => t.phisComp i m) q)) / S)
    ((|coef * t.incomp m| + ∑ r, (|t.omegasOld r m| +
      ∑ q, |chis r q| * featSum feat (fun i => t.phisComp i m) q)) / S) := by
  have hu := h.rounds.nonneg
  have e4 := err_potential h ht hfeat hφ
  obtain ⟨tmp, f⟩ := iterateF_facts ht
  have hc : t.consPrep = [] := by rw [f.consPrep, hcons, List.map_nil]
  have hx := congrFun f.xi m
  rw [hc] at hx
  unfold computeXiF at hx
  dsimp only [List.foldl_nil] at hx
  rw [forRange_apply (fun m => o.mul ((floryHugginsF o chis coef M).incompCoef t.phisFeat) (t.incomp m))
    (fun r m a => o.add a (o.sub (t.omegasOld r m) (t.potential r m))) m, hm, h.mul_one, h.ofNat, hS] at hx
  have hS' : (S : ℝ) ≠ 0 := Nat.cast_ne_zero.mpr hS0
  have e0 : Err u 1 (o.mul ((floryHugginsF o chis coef M).incompCoef t.phisFeat) (t.incomp m))
      (coef * t.incomp m) |coef * t.incomp m| := by
    rw [h.mul]
    exact (Err.refl (coef * t.incomp m)).rounded h.rounds
  have e1 := err_loop_add h (n := k + S + 2) (e0.mono hu (by omega) le_rfl) (fun r =>
    err_sub h ((Err.refl (u := u) (t.omegasOld r m)).mono hu (Nat.zero_le _) le_rfl) (e4 r))
  have e2 := err_div h hS' (e1.rounded h.rounds)
  rw [← hx, abs_of_nonneg (a := (S : ℝ)) (Nat.cast_nonneg S)] at e2
  exact e2.mono hu (by omega) le_rfl

end Pass

section Logs

/-- Logarithms of numbers with a small relative difference. -/
theorem log_near {x y u : ℝ} (hu : u < 1) (hy : 0 < y) (h : |x - y| ≤ u * y) :
    |Real.log x - Real.log y| ≤ u / (1 - u) := by
  have h1 := abs_le.mp h
  have hu1 : 0 < 1 - u := by linarith
  have hx : (1 - u) * y ≤ x := by linarith
  have hx0 : 0 < x := lt_of_lt_of_le (mul_pos hu1 hy) hx
  have hu0 : 0 ≤ u := by
    by_contra hc
    have := mul_neg_of_neg_of_pos (not_le.mp hc) hy
    linarith [abs_nonneg (x - y)]
  rw [abs_le]
  constructor
  · have := Real.log_le_sub_one_of_pos (div_pos hy hx0)
    rw [Real.log_div hy.ne' hx0.ne'] at this
    have h2 : y / x ≤ 1 / (1 - u) := by
      rw [div_le_div_iff₀ hx0 hu1]; linarith
    have h3 : 1 / (1 - u) - 1 = u / (1 - u) := by field_simp; ring
    linarith
  · have := Real.log_le_sub_one_of_pos (div_pos hx0 hy)
    rw [Real.log_div hx0.ne' hy.ne'] at this
    have h2 : x / y ≤ 1 + u := by
      rw [div_le_iff₀ hy]; linarith
    have h3 : u ≤ u / (1 - u) := by
      rw [le_div_iff₀ hu1]; nlinarith
    linarith

end Logs

section Features

variable {o : Floats ℝ} {rnd : ℝ → ℝ} {u : ℝ} {C S M : ℕ}

theorem idealF_sums (sizes : Vec C ℝ) : SumsFeatures (idealF o sizes M) id u 0 := by
  intro pf ph x hx r m
  have : x = ph := by
    rw [← Except.ok.inj hx]
    funext r
    have := forRange_inv (n := C) (s := pf) (body := fun r a => setAt a r (ph r))
      (P := fun k (a : Mat C M ℝ) => ∀ r : Fin C, r.1 < k → a r = ph r)
      (fun r h => absurd h (Nat.not_lt_zero _)) (by
        intro j a ih r hr
        by_cases h : r = j
        · subst h; rw [setAt_same]
        · have : r.1 ≠ j.1 := fun e => h (Fin.ext e)
          rw [setAt_ne _ _ h]
          exact ih r (by omega))
    exact this r r.2
  subst this
  simp

variable (h : RoundedOps o rnd u)
include h

private theorem polyFeatF_inner {per : Vec S ℕ} (ph : Mat C M ℝ) {feat : Fin C → Fin S} (hf : IsFeat per feat)
    (hC : C = ∑ r, per r) (r : Fin S) (pf : Mat S M ℝ) (h1 : ∀ (r' : Fin S) m, (r' : ℕ) < r →
      Err u C (pf r' m) (∑ i, if feat i = r' then ph i m else 0) (∑ i, if feat i = r' then |ph i m| else 0))
    (hr : 1 ≤ per r) : ∃ s', (do
      let row ← readAt ph (offset per r)
      let feat := setAt pf r row
      forRangeM (per r - 1) (feat, offset per r + 1) fun _ s => do
        let (feat, itr) := s
        let row ← readAt ph itr
        return (setAt feat r fun m => o.add (feat r m) (row m), itr + 1)) = Except.ok (ε := PyErr) s' ∧
      s'.2 = offset per (r + 1) ∧ ∀ (r' : Fin S) m, (r' : ℕ) < r + 1 →
        Err u C (s'.1 r' m) (∑ i, if feat i = r' then ph i m else 0) (∑ i, if feat i = r' then |ph i m| else 0) := by
  have hu := h.rounds.nonneg
  have hle := offset_add_le per r
  have hlt : offset per r < C := by omega
  rw [readAt_ok _ hlt]
  simp only [bind_ok]
  have split : ∀ (g : Fin C → ℝ) (itr j : ℕ) (hi : itr < C), itr = offset per r + 1 + j →
      (∑ i : Fin C, if offset per r ≤ i ∧ (i : ℕ) < offset per r + 1 + (j + 1) then g i else 0) =
      (∑ i : Fin C, if offset per r ≤ i ∧ (i : ℕ) < offset per r + 1 + j then g i else 0) + g ⟨itr, hi⟩ := by
    intro g itr j hi he
    have : ∀ i : Fin C, (if offset per r ≤ i ∧ (i : ℕ) < offset per r + 1 + (j + 1) then g i else 0) =
        (if offset per r ≤ i ∧ (i : ℕ) < offset per r + 1 + j then g i else 0) +
          if i = ⟨itr, hi⟩ then g i else 0 := by
      intro i
      by_cases hi' : i = ⟨itr, hi⟩
      · subst hi'
        simp only [if_true]
        rw [if_pos (by omega), if_neg (by omega)]; simp
      · have : (i : ℕ) ≠ itr := fun e => hi' (Fin.ext e)
        simp only [hi', if_false, add_zero]
        congr 1
        apply propext
        omega
    simp [this, Finset.sum_add_distrib]
  obtain ⟨s, hs, h2, h3, h4⟩ := forRangeM_ok (n := per r - 1)
    (s := (setAt pf r (ph ⟨offset per r, hlt⟩), offset per r + 1))
    (body := fun _ s => do
        let (feat, itr) := s
        let row ← readAt ph itr
        return (setAt feat r fun m => o.add (feat r m) (row m), itr + 1))
    (fun j s => s.2 = offset per r + 1 + j ∧ (∀ r', r' ≠ r → s.1 r' = pf r') ∧
      ∀ m, Err u j (s.1 r m) (∑ i : Fin C, if offset per r ≤ i ∧ (i : ℕ) < offset per r + 1 + j then ph i m else 0)
        (∑ i : Fin C, if offset per r ≤ i ∧ (i : ℕ) < offset per r + 1 + j then |ph i m| else 0)) (by
      refine ⟨rfl, fun r' hr' => setAt_ne _ _ hr', fun m => ?_⟩
      simp only [setAt_same]
      have : ∀ g : Fin C → ℝ, (∑ i : Fin C, if offset per r ≤ i ∧ (i : ℕ) < offset per r + 1 + 0 then g i else 0) =
          g ⟨offset per r, hlt⟩ := by
        intro g
        rw [Finset.sum_eq_single ⟨offset per r, hlt⟩]
        · simp
        · intro i _ hi
          have : (i : ℕ) ≠ offset per r := fun e => hi (Fin.ext e)
          rw [if_neg]; omega
        · simp
      rw [this fun i => ph i m, this fun i => |ph i m|]
      exact Err.refl _) (by
      rintro j ⟨feat', itr⟩ ⟨h1, h2, h3⟩
      simp only at h1 h2 h3 ⊢
      have hlt' : itr < C := by have := j.2; omega
      rw [readAt_ok _ hlt']
      refine ⟨_, rfl, by simp only; omega, fun r' hr' => ?_, fun m => ?_⟩
      · show setAt feat' r _ r' = _
        rw [setAt_ne _ _ hr', h2 r' hr']
      · simp only [setAt_same]
        rw [split (fun i => ph i m) itr j hlt' h1, split (fun i => |ph i m|) itr j hlt' h1]
        exact err_add h (h3 m) ((Err.refl (u := u) (ph ⟨itr, hlt'⟩ m)).mono hu (Nat.zero_le _) le_rfl))
  refine ⟨s, hs, ?_, fun r' m hr' => ?_⟩
  · rw [offset_succ, h2]; omega
  · by_cases he : r' = r
    · subst he
      have hiff : ∀ g : Fin C → ℝ, (∑ i : Fin C, if offset per r' ≤ i ∧ (i : ℕ) < offset per r' + 1 + (per r' - 1)
          then g i else 0) = ∑ i, if feat i = r' then g i else 0 := by
        intro g
        refine Finset.sum_congr rfl fun i _ => ?_
        congr 1
        rw [hf.eq_iff]
        apply propext
        omega
      have := h4 m
      rw [hiff fun i => ph i m, hiff fun i => |ph i m|] at this
      exact this.mono hu (by omega) le_rfl
    · have : (r' : ℕ) ≠ r := fun e => he (Fin.ext e)
      rw [h3 r' he]
      exact h1 r' m (by omega)

theorem polyF_sums (sizes : Vec C ℝ) {per : Vec S ℕ} (hC : C = ∑ r, per r) (hp : ∀ r, 1 ≤ per r)
    {feat : Fin C → Fin S} (hf : IsFeat per feat) : SumsFeatures (polyF o sizes per M) feat u C := by
  intro pf ph x hx r m
  obtain ⟨s, hs, h1, h2⟩ := forRangeM_ok (n := S) (s := (pf, 0))
    (body := fun r s => do
    let (feat, itr) := s
    let row ← readAt ph itr
    let feat := setAt feat r row
    forRangeM (per r - 1) (feat, itr + 1) fun _ s => do
      let (feat, itr) := s
      let row ← readAt ph itr
      return (setAt feat r fun m => o.add (feat r m) (row m), itr + 1))
    (fun k s => s.2 = offset per k ∧ ∀ (r' : Fin S) m, (r' : ℕ) < k →
      Err u C (s.1 r' m) (∑ i, if feat i = r' then ph i m else 0) (∑ i, if feat i = r' then |ph i m| else 0))
    (by simp [offset_zero]) (by
      rintro r ⟨pf', itr⟩ ⟨h1, h2⟩
      simp only at h1 h2
      subst h1
      exact polyFeatF_inner h ph hf hC r pf' h2 (hp r))
  have hx' : polyCompToFeatF o per pf ph = .ok x := hx
  unfold polyCompToFeatF at hx'
  rw [hs] at hx'
  cases hx'
  exact (h2 r m r.2).1

end Features

end Flory
