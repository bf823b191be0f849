import Verif.Props.Equilibrium
import Verif.Lemmas.Steps
import Mathlib.Analysis.SpecificLimits.Basic

/-! # Runs from fields that are the same in all compartments (C68) -/

set_option linter.unusedSectionVars false

namespace Flory

open Spec

variable {G : Type} {C S M : ℕ} [NeZero M]

/-- The field of the homogeneous mixture of composition `phi` with the same mean as `w`. -/
noncomputable def homogeneousField (chis : Mat S S ℝ) (feat : Fin C → Fin S) (phi : Vec C ℝ) (w : Vec S ℝ)
    (r : Fin S) : ℝ :=
  ∑ j, chis r (feat j) * phi j + (∑ q, (w q - ∑ j, chis q (feat j) * phi j)) / S

/-- All compartments have the fields `w`. -/
structure Alike (feat : Fin C → Fin S) (phiMeans : Vec C ℝ) (thr : ℝ) (w : Vec S ℝ)
    (s : State C S M ℝ G) : Prop where
  alive : ∀ m, thr < s.Js m
  volumes : ∑ m, s.Js m = (M : ℝ)
  field : ∀ r m, s.omegas r m = w r
  cons : ∀ k ∈ s.cons, Fulfilled (fun r _ => ∑ i, if feat i = r then phiMeans i else 0) s.Js k

variable {ia : FHCompiled S ℝ} {en : EntropyI C S M ℝ} {es : CanonicalC C ℝ} {rng : Rng G ℝ}
  {p : Params ℝ} {tries : ℤ} {count : ℕ} {s : State C S M ℝ G} {t : Trace C S M ℝ G}
  {l : Vec C ℝ} {feat : Fin C → Fin S} {w : Vec S ℝ}

/-- What a pass does to such a state. -/
structure AlikePass (p : Params ℝ) (phi : Vec C ℝ) (d : Vec S ℝ) (w : Vec S ℝ) (count : ℕ)
    (s : State C S M ℝ G) (t : Trace C S M ℝ G) : Prop where
  phisComp : ∀ i m, t.phisComp i m = phi i
  Js : t.Js = s.Js
  JsOld : t.JsOld = s.Js
  omegas : ∀ r m, t.omegas r m = w r + p.acceptanceOmega * d r
  incomp : t.maxAbsIncomp = 0
  omegaDiff : ∀ r m, t.omegaDiff r m = d r
  jsDiff : t.maxAbsJsDiff = 0
  residue : t.maxConstraintResidue = 0
  reviveCount : t.reviveCount = count

theorem alike_pass (hb : 0 < p.JsStepUpperBound) (hen : IsIdealGas en l feat)
    (hsum : ∑ i, es.phiMeans i = 1)
    (h : iterate (ia.toI M) en (es.toI M) rng p tries count s = .ok t)
    (hs : Alike feat es.phiMeans p.killThreshold w s) :
    AlikePass p es.phiMeans (fun r => homogeneousField ia.chis feat es.phiMeans w r - w r) w count s t ∧
      Alike feat es.phiMeans p.killThreshold
        (fun r => w r + p.acceptanceOmega * (homogeneousField ia.chis feat es.phiMeans w r - w r))
        t.state := by
  have hf := iterate_facts h
  have hes : Scales (es.toI M) fun Qs i => es.phiMeans i / Qs i := es.scales
  have hrv := reviveBlock_all_alive (rng := rng) (p := p) (tries := tries) (Js := s.Js)
    (om := s.omegas) (g := s.g) (count := count) hs.alive
  have hM : (M : ℝ) ≠ 0 := by exact_mod_cast NeZero.ne M
  have hmk : ∀ m, t.masks m = 1 := fun m => by rw [hf.mask_eq, hrv, if_pos (hs.alive m)]
  have hJ : t.JsOld = s.Js := funext fun m => by rw [hf.JsOld, hrv, hmk, mul_one]
  have hom : t.omegasOld = s.omegas := by rw [hf.omegasOld, hrv]
  have hn : t.nValid = (M : ℝ) := by rw [hf.nValid]; simp [hmk]
  have hphi : ∀ i m, t.phisComp i m = es.phiMeans i := by
    intro i m
    rw [hf.phis_eq hen hes, hmk, mul_one, hf.Qs_eq hen, hJ, hom, hs.volumes]
    simp only [hs.field]
    rw [← Finset.mul_sum, hs.volumes, mul_div_cancel_right₀ _ hM,
      div_mul_cancel₀ _ (Real.exp_pos _).ne']
  have hinc : ∀ m, t.incomp m = 0 := fun m => by
    rw [hf.incomp_eq hes]; simp only [hphi, hsum]; simp
  have hpf : t.phisFeat = fun r _ => ∑ i, if feat i = r then es.phiMeans i else 0 :=
    funext fun r => funext fun m => by
      rw [hf.phisFeat_eq hen]
      exact Finset.sum_congr rfl fun i _ => by rw [hphi]
  have hprep : ∀ k ∈ t.consPrep,
      Fulfilled (fun r _ => ∑ i, if feat i = r then es.phiMeans i else 0) s.Js k ∧
      (∀ r m, k.potential r m = 0) ∧ (∀ m, k.volumeDerivative m = 0) ∧ k.ResidueLe 0 := by
    intro k hk
    rw [hf.consPrep, hpf, hJ] at hk
    obtain ⟨k', hk', rfl⟩ := List.mem_map.mp hk
    exact (hs.cons k' hk').prepare
  have hcp : ∀ r m, consPot t.consPrep r m = 0 := fun r m => by
    unfold consPot
    exact List.sum_eq_zero fun x hx => by
      obtain ⟨k, hk, rfl⟩ := List.mem_map.mp hx
      exact (hprep k hk).2.1 r m
  have hcv : ∀ m, consVd t.consPrep m = 0 := fun m => by
    unfold consVd
    exact List.sum_eq_zero fun x hx => by
      obtain ⟨k, hk, rfl⟩ := List.mem_map.mp hx
      exact (hprep k hk).2.2.1 m
  have hpot : ∀ r m, t.potential r m = ∑ j, ia.chis r (feat j) * es.phiMeans j := by
    intro r m
    rw [hf.potential_feat hen]
    exact Finset.sum_congr rfl fun j _ => by rw [hphi]
  have hxi : ∀ m, t.xi m = (∑ q, (w q - ∑ j, ia.chis q (feat j) * es.phiMeans j)) / S := by
    intro m
    rw [hf.xi, hinc, hmk, hom]
    simp only [hcp, hpot, hs.field, mul_zero, zero_add, mul_one, Finset.sum_const_zero, sub_zero]
  have hle : ∀ m, t.localEnergy m = t.localEnergy 0 := by
    intro m
    rw [hf.localEnergy_eq hen hes (hmk m), hf.localEnergy_eq hen hes (hmk 0), hcv, hcv, hxi, hxi]
    simp only [hphi, hcp, zero_mul]
  have hmean : t.localEnergyMean = t.localEnergy 0 := by
    rw [hf.localEnergyMean, hn, hJ]
    rw [Finset.sum_congr rfl fun m _ => by rw [hle m], ← Finset.mul_sum, hs.volumes,
      mul_div_cancel_right₀ _ hM]
  have hjd : ∀ m, t.JsDiff m = 0 := fun m => by rw [hf.JsDiff, hmean, hle m]; simp
  have hod : ∀ r m, t.omegaDiff r m = homogeneousField ia.chis feat es.phiMeans w r - w r :=
    fun r m => by
      rw [hf.omegaDiff, hcp, hxi, hpot, hom, hs.field, hmk, mul_one, add_zero]
      rfl
  have hjs0 : t.maxAbsJsDiff = 0 := by
    rw [hf.maxAbsJsDiff]
    exact npMax_zero fun m => by rw [hjd, abs_zero]
  have hfac : t.factor = 1 := by
    rw [hf.factor, hjs0, zero_mul, max_eq_right hb.le, div_self hb.ne']
  have hJs : t.Js = s.Js := by
    funext m
    rw [hf.Js]
    simp only [hjd, hmk, hJ, mul_zero, add_zero, mul_one, hs.volumes, hn, div_self hM, sub_self]
  have homs : ∀ r m, t.omegas r m =
      w r + p.acceptanceOmega * (homogeneousField ia.chis feat es.phiMeans w r - w r) := by
    intro r m
    rw [hf.omegas, hod, hmk, hom, hs.field, hfac, one_mul, mul_one]
  have hres : t.maxConstraintResidue = 0 := by
    obtain ⟨h1, h2⟩ := evolveCons_spec hf.cons
    exact le_antisymm ((h2 0 le_rfl).mpr ⟨le_rfl, fun k hk => (hprep k hk).2.2.2⟩) h1
  have hcons := evolveCons_fulfilled (fun k hk => ⟨(hprep k hk).1, (hprep k hk).2.2.2⟩) hf.cons
  refine ⟨⟨hphi, hJs, hJ, homs, ?_, hod, hjs0, hres, ?_⟩, ⟨?_, ?_, homs, ?_⟩⟩
  · rw [hf.maxAbsIncomp]
    exact npMax_zero fun m => by rw [hinc, abs_zero]
  · rw [hf.reviveCount, hrv]
  · show ∀ m, _ < t.Js m
    rw [hJs]; exact hs.alive
  · show ∑ m, t.Js m = _
    rw [hJs]; exact hs.volumes
  · show ∀ k ∈ t.cons, Fulfilled _ t.Js k
    rw [hJs]; exact hcons

/-- The target of the fields does not move. -/
theorem homogeneousField_step (chis : Mat S S ℝ) (phi : Vec C ℝ) (a : ℝ) (r : Fin S) :
    homogeneousField chis feat phi (fun q => w q + a * (homogeneousField chis feat phi w q - w q)) r =
      homogeneousField chis feat phi w r := by
  have hS : (S : ℝ) ≠ 0 := by
    have := r.pos
    exact_mod_cast this.ne'
  have h0 : ∑ q, (homogeneousField chis feat phi w q - w q) = 0 := by
    unfold homogeneousField
    simp only [Finset.sum_sub_distrib, Finset.sum_add_distrib, Finset.sum_const, Finset.card_univ,
      Fintype.card_fin, nsmul_eq_mul]
    field_simp
    ring
  have h1 : ∑ q, (w q + a * (homogeneousField chis feat phi w q - w q) - ∑ j, chis q (feat j) * phi j) =
      ∑ q, (w q - ∑ j, chis q (feat j) * phi j) := by
    have : ∀ q, w q + a * (homogeneousField chis feat phi w q - w q) - ∑ j, chis q (feat j) * phi j =
        (w q - ∑ j, chis q (feat j) * phi j) + a * (homogeneousField chis feat phi w q - w q) :=
      fun q => by ring
    simp only [this]
    rw [Finset.sum_add_distrib, ← Finset.mul_sum, h0, mul_zero, add_zero]
  unfold homogeneousField at *
  rw [h1]

/-- The fields after `n` passes. -/
noncomputable def relaxed (a : ℝ) (w inf : Vec S ℝ) (n : ℕ) (r : Fin S) : ℝ :=
  inf r + (1 - a) ^ n * (w r - inf r)

variable {e : RunEnv C S M ℝ G}

/-- The state after `n` passes, the last of which has trace `t`. -/
structure AlikeAfter (p : Params ℝ) (feat : Fin C → Fin S) (chis : Mat S S ℝ) (phi : Vec C ℝ) (w : Vec S ℝ)
    (n : ℕ) (J : Vec M ℝ) (t : Trace C S M ℝ G) : Prop where
  phisComp : ∀ i m, t.phisComp i m = phi i
  Js : t.Js = J
  JsOld : t.JsOld = J
  incomp : t.maxAbsIncomp = 0
  omegaDiff : ∀ r m, t.omegaDiff r m =
    (1 - p.acceptanceOmega) ^ (n - 1) * (homogeneousField chis feat phi w r - w r)
  jsDiff : t.maxAbsJsDiff = 0
  residue : t.maxConstraintResidue = 0

theorem alike_next (hb : 0 < p.JsStepUpperBound) (hen : IsIdealGas en l feat)
    (hsum : ∑ i, es.phiMeans i = 1) {n : ℕ}
    (h : iterate (ia.toI M) en (es.toI M) rng p tries count s = .ok t)
    (hw : ∀ r, homogeneousField ia.chis feat es.phiMeans
      (relaxed p.acceptanceOmega w (homogeneousField ia.chis feat es.phiMeans w) n) r =
        homogeneousField ia.chis feat es.phiMeans w r)
    (hs : Alike feat es.phiMeans p.killThreshold
      (relaxed p.acceptanceOmega w (homogeneousField ia.chis feat es.phiMeans w) n) s) :
    AlikeAfter p feat ia.chis es.phiMeans w (n + 1) s.Js t ∧ t.reviveCount = count ∧
    Alike feat es.phiMeans p.killThreshold
      (relaxed p.acceptanceOmega w (homogeneousField ia.chis feat es.phiMeans w) (n + 1)) t.state ∧
    ∀ r, homogeneousField ia.chis feat es.phiMeans
      (relaxed p.acceptanceOmega w (homogeneousField ia.chis feat es.phiMeans w) (n + 1)) r =
        homogeneousField ia.chis feat es.phiMeans w r := by
  obtain ⟨h1, h2⟩ := alike_pass hb hen hsum h hs
  have e1 : (fun r => relaxed p.acceptanceOmega w (homogeneousField ia.chis feat es.phiMeans w) n r +
      p.acceptanceOmega * (homogeneousField ia.chis feat es.phiMeans
        (relaxed p.acceptanceOmega w (homogeneousField ia.chis feat es.phiMeans w) n) r -
        relaxed p.acceptanceOmega w (homogeneousField ia.chis feat es.phiMeans w) n r)) =
      relaxed p.acceptanceOmega w (homogeneousField ia.chis feat es.phiMeans w) (n + 1) := by
    funext r
    rw [hw]
    unfold relaxed
    ring
  refine ⟨⟨h1.phisComp, h1.Js, h1.JsOld, h1.incomp, fun r m => ?_, h1.jsDiff, h1.residue⟩,
    h1.reviveCount, e1 ▸ h2, fun r => ?_⟩
  · rw [h1.omegaDiff, hw]
    unfold relaxed
    simp only [Nat.add_sub_cancel]
    ring
  · rw [← e1, homogeneousField_step, hw]

theorem Spec.Passes.alike (hb : 0 < e.params.JsStepUpperBound)
    (hia : e.ia = ia.toI M) (hen : IsIdealGas e.en l feat) (hes : e.es = es.toI M)
    (hsum : ∑ i, es.phiMeans i = 1) {b : ℤ} {n k count : ℕ} {s : State C S M ℝ G} {t : Trace C S M ℝ G}
    (h : Passes e b n count s t)
    (hw : ∀ r, homogeneousField ia.chis feat es.phiMeans
      (relaxed e.params.acceptanceOmega w (homogeneousField ia.chis feat es.phiMeans w) k) r =
        homogeneousField ia.chis feat es.phiMeans w r)
    (hs : Alike feat es.phiMeans e.params.killThreshold
      (relaxed e.params.acceptanceOmega w (homogeneousField ia.chis feat es.phiMeans w) k) s) :
    AlikeAfter e.params feat ia.chis es.phiMeans w (k + n) s.Js t ∧ t.reviveCount = count ∧
    Alike feat es.phiMeans e.params.killThreshold
      (relaxed e.params.acceptanceOmega w (homogeneousField ia.chis feat es.phiMeans w) (k + n)) t.state ∧
    ∀ r, homogeneousField ia.chis feat es.phiMeans
      (relaxed e.params.acceptanceOmega w (homogeneousField ia.chis feat es.phiMeans w) (k + n)) r =
        homogeneousField ia.chis feat es.phiMeans w r := by
  induction h with
  | one h =>
    rw [hia, hes] at h
    exact alike_next hb hen hsum h hw hs
  | more h1 h2 ih =>
    obtain ⟨i1, i2, i3, i4⟩ := ih hs
    rw [hia, hes] at h2
    obtain ⟨j1, j2, j3, j4⟩ := alike_next hb hen hsum h2 i4 i3
    refine ⟨?_, j2.trans i2, j3, j4⟩
    exact ⟨j1.phisComp, j1.Js.trans i1.Js, j1.JsOld.trans i1.Js, j1.incomp, j1.omegaDiff, j1.jsDiff,
      j1.residue⟩

theorem Spec.Chain.alike (hb : 0 < e.params.JsStepUpperBound)
    (hia : e.ia = ia.toI M) (hen : IsIdealGas e.en l feat) (hes : e.es = es.toI M)
    (hsum : ∑ i, es.phiMeans i = 1) {b b' : ℤ} {inner k : ℕ} {ts : List (Trace C S M ℝ G)}
    {s s' : State C S M ℝ G} (h : Chain e inner ts s b s' b')
    (hw : ∀ r, homogeneousField ia.chis feat es.phiMeans
      (relaxed e.params.acceptanceOmega w (homogeneousField ia.chis feat es.phiMeans w) k) r =
        homogeneousField ia.chis feat es.phiMeans w r)
    (hs : Alike feat es.phiMeans e.params.killThreshold
      (relaxed e.params.acceptanceOmega w (homogeneousField ia.chis feat es.phiMeans w) k) s) :
    b' = b ∧ s'.Js = s.Js ∧ Alike feat es.phiMeans e.params.killThreshold
      (relaxed e.params.acceptanceOmega w (homogeneousField ia.chis feat es.phiMeans w)
        (k + ts.length * inner)) s' ∧
    ∀ r, homogeneousField ia.chis feat es.phiMeans
      (relaxed e.params.acceptanceOmega w (homogeneousField ia.chis feat es.phiMeans w)
        (k + ts.length * inner)) r = homogeneousField ia.chis feat es.phiMeans w r := by
  induction h generalizing k with
  | nil => simpa using ⟨hs, hw⟩
  | cons h1 h2 ih =>
    obtain ⟨i1, i2, i3, i4⟩ := h1.alike hb hia hen hes hsum hw hs
    obtain ⟨j1, j2, j3, j4⟩ := ih i4 i3
    have hk : ∀ n : ℕ, k + inner + n * inner = k + (n + 1) * inner := fun n => by ring
    rw [hk] at j3 j4
    exact ⟨by rw [j1, i2]; simp, j2.trans i1.Js, j3, j4⟩

/-- **C68**. If all compartments start with the same fields (and volumes with mean one), a canonical
run without constraints that matter returns the homogeneous mixture in every compartment, whatever the
interactions; all reported errors except the field error vanish, and the fields approach those of the
homogeneous mixture by the factor `1 - acceptance_omega` in every pass. -/
theorem C68_uniform_run (hthr : 0 ≤ e.params.killThreshold) (hb : 0 < e.params.JsStepUpperBound)
    (hia : e.ia = ia.toI M) (hen : IsIdealGas e.en l feat) (hes : e.es = es.toI M)
    (hsum : ∑ i, es.phiMeans i = 1) {maxSteps : ℚ} {tol : ℝ} {interval b : ℤ}
    {st : State C S M ℝ G} {f : RunState C S M ℝ G} {ph : Phases M C ℝ} {d : Diagnostics ℝ}
    (halive : ∀ m, e.params.killThreshold < st.Js m) (hvol : ∑ m, st.Js m = (M : ℝ))
    (hom : ∀ r m, st.omegas r m = w r)
    (hcons : ∀ k ∈ st.cons, Fulfilled (fun r _ => ∑ i, if feat i = r then es.phiMeans i else 0) st.Js k)
    (h : runImpl e maxSteps tol interval st b = (f, .ok (ph, d))) :
    ph.volumes = st.Js ∧ (∀ m i, ph.fractions m i = es.phiMeans i) ∧ d.reviveCountLeft = b ∧
    d.maxAbsIncomp = 0 ∧ d.maxAbsJsDiff = 0 ∧ d.maxConstraintResidue = 0 ∧
    (∀ r m, f.st.omegas r m = homogeneousField ia.chis feat es.phiMeans w r +
      (1 - e.params.acceptanceOmega) ^ d.steps * (w r - homogeneousField ia.chis feat es.phiMeans w r)) ∧
    ∀ B, (∀ r, |homogeneousField ia.chis feat es.phiMeans w r - w r| ≤ B) → 0 ≤ B →
      d.maxAbsOmegaDiff ≤ |1 - e.params.acceptanceOmega| ^ (d.steps - 1) * B := by
  obtain ⟨tr, inner, ts, t, cp, a1, a2, hf⟩ := run_facts hthr h
  have hrel : relaxed e.params.acceptanceOmega w (homogeneousField ia.chis feat es.phiMeans w) 0 = w := by
    funext r; unfold relaxed; ring
  obtain ⟨s₀, b₀, c1, c2, c3, c4⟩ := hf.chain.last
  have h0 : Alike feat es.phiMeans e.params.killThreshold
      (relaxed e.params.acceptanceOmega w (homogeneousField ia.chis feat es.phiMeans w) 0) st := by
    rw [hrel]; exact ⟨halive, hvol, hom, hcons⟩
  obtain ⟨k1, k2, k3, k4⟩ := c1.alike hb hia hen hes hsum (fun r => by rw [hrel]) h0
  obtain ⟨l1, l2, l3, l4⟩ := c2.alike hb hia hen hes hsum k4 k3
  have hal : ∀ m, e.params.killThreshold < t.Js m := by rw [l1.Js, k2]; exact halive
  obtain ⟨li, n, hc⟩ := reviveByCopy_all_alive (rng := e.rng) (T := t.phisComp) (g := t.g) hthr hal
  obtain rfl := Except.ok.inj (hf.copy.symm.trans hc)
  have hst : 0 + ts.length * inner + inner = d.steps := by rw [hf.diag]; ring
  rw [hst] at l1 l3
  refine ⟨?_, fun m i => ?_, ?_, ?_, ?_, ?_, fun r m => ?_, fun B hB hB0 => ?_⟩
  · rw [hf.volumes]; exact l1.Js.trans k2
  · rw [hf.fractions]; exact l1.phisComp i m
  · rw [hf.diag]
    show f.reviveLeft = b
    rw [c4, k1, l2]; simp
  · rw [hf.diag]; exact l1.incomp
  · rw [hf.diag]; exact l1.jsDiff
  · rw [hf.diag]; exact l1.residue
  · rw [hf.arrays]
    exact l3.field r m
  · have : d.maxAbsOmegaDiff = t.maxAbsOmegaDiff := by rw [hf.diag]
    rw [this]
    obtain ⟨cnt, s', hF⟩ := c2.facts
    rw [hF.maxAbsOmegaDiff]
    rcases (rowsMax_spec t.omegaDiff).2.2 with e0 | ⟨r, m, e0⟩
    · rw [e0]; positivity
    · rw [e0, l1.omegaDiff]
      refine (le_abs_self _).trans ?_
      rw [abs_mul, abs_pow]
      exact mul_le_mul_of_nonneg_left (hB r) (by positivity)

/-- **C68**, convergence. With `0 < acceptance_omega < 2` such a run reports errors below any tolerance
once it is given enough steps; their number grows at most like the logarithm of the inverse tolerance. -/
theorem C68_uniform_converges (hthr : 0 ≤ e.params.killThreshold) (hb : 0 < e.params.JsStepUpperBound)
    (hia : e.ia = ia.toI M) (hen : IsIdealGas e.en l feat) (hes : e.es = es.toI M)
    (hsum : ∑ i, es.phiMeans i = 1) (hp0 : 0 < e.params.acceptanceOmega) (hp2 : e.params.acceptanceOmega < 2)
    (w : Vec S ℝ) :
    ∃ K > 0, ∀ tol > 0, ∃ N : ℕ, LogSteps K tol N ∧ ∀ (maxSteps : ℚ) (interval b : ℤ) (st : State C S M ℝ G) (f : RunState C S M ℝ G)
      (ph : Phases M C ℝ) (d : Diagnostics ℝ), N ≤ maxSteps → 0 < interval →
      (∀ m, e.params.killThreshold < st.Js m) → ∑ m, st.Js m = (M : ℝ) →
      (∀ r m, st.omegas r m = w r) →
      (∀ k ∈ st.cons, Fulfilled (fun r _ => ∑ i, if feat i = r then es.phiMeans i else 0) st.Js k) →
      runImpl e maxSteps tol interval st b = (f, .ok (ph, d)) →
      d.maxAbsOmegaDiff < tol ∧ d.maxAbsIncomp = 0 ∧ d.maxAbsJsDiff = 0 ∧ d.maxConstraintResidue = 0 ∧
      ∀ m i, ph.fractions m i = es.phiMeans i := by
  set q := |1 - e.params.acceptanceOmega| with hq
  have hq0 : 0 ≤ q := abs_nonneg _
  have hq1 : q < 1 := by rw [hq, abs_lt]; constructor <;> linarith
  set B := ∑ r, |homogeneousField ia.chis feat es.phiMeans w r - w r| with hB
  have hB0 : 0 ≤ B := Finset.sum_nonneg fun r _ => abs_nonneg _
  have hBr : ∀ r, |homogeneousField ia.chis feat es.phiMeans w r - w r| ≤ B := fun r =>
    Finset.single_le_sum (f := fun r => |homogeneousField ia.chis feat es.phiMeans w r - w r|)
      (fun r _ => abs_nonneg _) (Finset.mem_univ r)
  obtain ⟨K, hK, hlog⟩ := exists_logSteps (show 0 < B + 1 by positivity) hq0 hq1
  refine ⟨K, hK, fun tol htol => ?_⟩
  obtain ⟨n, hn, hlog⟩ := hlog tol htol
  refine ⟨2 * (n + 1), hlog, fun maxSteps interval b st f ph d hN hint halive hvol hom hcons h => ?_⟩
  obtain ⟨h1, h2, h3, h4, h5, h6, h7, h8⟩ := C68_uniform_run hthr hb hia hen hes hsum halive hvol hom hcons h
  refine ⟨?_, h4, h5, h6, h2⟩
  obtain ⟨tr, inner, ts, t, cp, a1, a2, hf⟩ := run_facts hthr h
  rcases hf.stop with hst | hmet
  · have hpos : 0 < maxSteps := by
      refine lt_of_lt_of_le ?_ hN
      exact_mod_cast (by omega : 0 < 2 * (n + 1))
    obtain ⟨k, hk, hk1, hk2⟩ := stepsTracker_pos hpos hint
    obtain ⟨inner', hi1, hi2, hi3, -, hi5⟩ := stepsInner_spec hpos hint hk hk2
    obtain rfl := Except.ok.inj (a1.symm.trans hk1)
    obtain rfl := Except.ok.inj (a2.symm.trans hi1)
    have hsteps : d.steps = k * inner := by
      rw [hf.diag]
      show (ts.length + 1) * inner = _
      rw [hst]; simp
    have hlt : 2 * (n + 1) < k * inner + k := by
      have : ((2 * (n + 1) : ℕ) : ℚ) < ((k * inner + k : ℕ) : ℚ) := lt_of_le_of_lt hN hi5
      exact_mod_cast this
    have hle : k ≤ k * inner := Nat.le_mul_of_pos_right k hi2
    have hnd : n ≤ d.steps - 1 := by rw [hsteps]; omega
    calc d.maxAbsOmegaDiff ≤ q ^ (d.steps - 1) * B := h8 B hBr hB0
      _ ≤ q ^ n * B := mul_le_mul_of_nonneg_right (pow_le_pow_of_le_one hq0 hq1.le hnd) hB0
      _ ≤ q ^ n * (B + 1) := mul_le_mul_of_nonneg_left (by linarith) (by positivity)
      _ < tol := by rwa [lt_div_iff₀ (by positivity)] at hn
  · have := hmet.2.2.1
    rw [hf.diag]
    exact this

/-- **C68**, one compartment: with `num_part = 1` and volume one, every run given enough steps succeeds
and returns the mean composition with errors below the tolerance, for every initial field. -/
theorem C68_single_compartment {e : RunEnv C S 1 ℝ G} (hok : e.rng.Ok)
    (hthr : 0 ≤ e.params.killThreshold) (hthr1 : e.params.killThreshold < 1)
    (hb : 0 < e.params.JsStepUpperBound) (hstd : e.criterion = "standard")
    (hia : e.ia = ia.toI 1) (hen : IsIdealGas e.en l feat) (hes : e.es = es.toI 1)
    (hsum : ∑ i, es.phiMeans i = 1) (hp0 : 0 < e.params.acceptanceOmega) (hp2 : e.params.acceptanceOmega < 2)
    (w : Vec S ℝ) :
    ∃ K > 0, ∀ tol > 0, ∃ N : ℕ, LogSteps K tol N ∧ ∀ (maxSteps : ℚ) (interval b : ℤ) (st : State C S 1 ℝ G), N ≤ maxSteps → 0 < interval →
      st.Js 0 = 1 → (∀ r, st.omegas r 0 = w r) → (∀ k ∈ st.cons, k.Trivial) →
      ∃ f ph d, runImpl e maxSteps tol interval st b = (f, .ok (ph, d)) ∧
        ph.volumes 0 = 1 ∧ (∀ i, ph.fractions 0 i = es.phiMeans i) ∧
        d.maxAbsOmegaDiff < tol ∧ d.maxAbsIncomp = 0 ∧ d.maxAbsJsDiff = 0 ∧
        d.maxConstraintResidue = 0 := by
  obtain ⟨K, hK, h⟩ := C68_uniform_converges (M := 1) hthr hb hia hen hes hsum hp0 hp2 w
  refine ⟨K, hK, fun tol htol => ?_⟩
  obtain ⟨N, hlog, hN⟩ := h tol htol
  refine ⟨N, hlog, fun maxSteps interval b st h1 h2 h3 h4 h5 => ?_⟩
  have hNn : (0 : ℚ) < N := by exact_mod_cast hlog.1
  have hal : ∀ m, e.params.killThreshold < st.Js m := fun m => by
    rw [Subsingleton.elim m 0, h3]; exact hthr1
  have hvol : ∑ m, st.Js m = ((1 : ℕ) : ℝ) := by simp [h3]
  have hom : ∀ r m, st.omegas r m = w r := fun r m => by rw [Subsingleton.elim m 0, h4]
  have hcons : ∀ k ∈ st.cons,
      Fulfilled (fun r _ => ∑ i, if feat i = r then es.phiMeans i else 0) st.Js k := by
    intro k hk
    have := h5 k hk
    cases k with
    | no c => exact this
    | loc A c => exact this.elim
    | glob A c => exact this.elim
  have hprop : ∀ k ∈ st.cons, k.Proper := by
    intro k hk
    have := h5 k hk
    cases k with
    | no c => trivial
    | loc A c => exact this.elim
    | glob A c => exact this.elim
  obtain ⟨f, ph, d, h⟩ := run_ok (e := e) hok hen (hes ▸ es.total) hthr hthr1 (by simp) hb hstd (tol := tol)
    (maxSteps := maxSteps) (interval := interval) (by linarith) h2 st b hprop (Or.inl ⟨0, hal 0⟩)
  obtain ⟨r1, r2, r3, r4, r5⟩ := hN maxSteps interval b st f ph d (by linarith) h2 hal hvol hom hcons h
  have hv := (C68_uniform_run hthr hb hia hen hes hsum hal hvol hom hcons h).1
  exact ⟨f, ph, d, h, by rw [hv, h3], fun i => r5 0 i, r1, r2, r3, r4⟩

/-! ## Non-vacuity -/

-- C68: the mixture of which 1/4 and 3/4 coexist, from equal fields that are not those of the mixture,
-- in unequal compartments, with a global constraint: the phases are not found.
example : ∃ f ph d, runImpl Demo.coexEnv 1000000 (1 / 100000) 10000
    { Demo.coexState with omegas := fun r _ => ![3, -8] r } 32 = (f, .ok (ph, d)) ∧
    ph.volumes 1 = 3 / 2 ∧ ph.fractions 0 0 = 5 / 8 ∧ ph.fractions 1 0 = 5 / 8 ∧ d.maxAbsIncomp = 0 := by
  have hen : IsIdealGas Demo.coexEnv.en (fun _ => (1 : ℝ)) id :=
    (⟨fun _ => 1⟩ : IdealC 2).isIdealGas (M := 2)
  obtain ⟨f, ph, d, h⟩ := run_ok (e := Demo.coexEnv) (maxSteps := 1000000) (interval := 10000)
    (tol := 1 / 100000) (rngZero_ok ℝ) hen Demo.coexEns.total
    (by simp [Demo.coexEnv, Demo.params]) (by simp [Demo.coexEnv, Demo.params])
    (by simp [Demo.coexEnv, Demo.params]) (by simp [Demo.coexEnv, Demo.params]) rfl (by norm_num)
    (by norm_num) { Demo.coexState with omegas := fun r _ => ![3, -8] r } 32
    (by simp [Demo.coexState, Cons.Proper])
    (Or.inl ⟨0, by simp [Demo.coexEnv, Demo.params, Demo.coexState]⟩)
  have := C68_uniform_run (e := Demo.coexEnv) (ia := Demo.coexFH) (es := Demo.coexEns) (w := ![3, -8])
    (by simp [Demo.coexEnv, Demo.params]) (by simp [Demo.coexEnv, Demo.params]) rfl hen rfl
    (by simp [Demo.coexEns, Fin.sum_univ_two]; norm_num)
    (by intro m; fin_cases m <;> simp [Demo.coexEnv, Demo.params, Demo.coexState])
    (by simp [Demo.coexState, Fin.sum_univ_two]; norm_num) (fun _ _ => rfl)
    (by
      intro k hk
      simp only [Demo.coexState, List.mem_cons, List.not_mem_nil, or_false] at hk
      rcases hk with rfl | rfl
      · simp [Fulfilled, NoC.new]
      · refine ⟨fun a => rfl, fun a => ?_⟩
        simp [GlobalC.new, Fin.sum_univ_two, Demo.coexEns, Demo.coexState]) h
  refine ⟨f, ph, d, h, ?_, ?_, ?_, this.2.2.2.1⟩
  · rw [this.1]; simp [Demo.coexState]
  · rw [this.2.1]; simp [Demo.coexEns]
  · rw [this.2.1]; simp [Demo.coexEns]

-- C68, convergence: the step size of the example allows it.
example : 0 < Demo.coexEnv.params.acceptanceOmega ∧ Demo.coexEnv.params.acceptanceOmega < 2 := by
  norm_num [Demo.coexEnv, Demo.params]

-- C68, one compartment: the same mixture.
example : ∃ N : ℕ, 0 < N ∧ ∀ (maxSteps : ℚ) (interval b : ℤ) (st : State 2 2 1 ℝ Unit), N ≤ maxSteps →
    0 < interval → st.Js 0 = 1 → (∀ r, st.omegas r 0 = ![3, -8] r) → st.cons = [] →
    ∃ f ph d, runImpl (⟨Demo.coexFH.toI 1, (⟨fun _ => 1⟩ : IdealC 2).toI 1, Demo.coexEns.toI 1, rngZero ℝ,
      Demo.params, "standard", id⟩ : RunEnv 2 2 1 ℝ Unit) maxSteps (1 / 100000) interval st b =
        (f, .ok (ph, d)) ∧ ph.fractions 0 0 = 5 / 8 ∧ d.maxAbsOmegaDiff < 1 / 100000 := by
  obtain ⟨K, -, h⟩ := C68_single_compartment (ia := Demo.coexFH) (es := Demo.coexEns)
    (e := ⟨Demo.coexFH.toI 1, (⟨fun _ => 1⟩ : IdealC 2).toI 1, Demo.coexEns.toI 1, rngZero ℝ,
      Demo.params, "standard", id⟩) (rngZero_ok ℝ) (by simp [Demo.params]) (by simp [Demo.params])
    (by simp [Demo.params]) rfl rfl ((⟨fun _ => 1⟩ : IdealC 2).isIdealGas (M := 1)) rfl
    (by simp [Demo.coexEns, Fin.sum_univ_two]; norm_num) (by norm_num [Demo.params])
    (by norm_num [Demo.params]) ![3, -8]
  obtain ⟨N, h1, h2⟩ := h (1 / 100000) (by norm_num)
  refine ⟨N, h1.1, fun maxSteps interval b st a1 a2 a3 a4 a5 => ?_⟩
  obtain ⟨f, ph, d, c1, c2, c3, c4, -⟩ := h2 maxSteps interval b st a1 a2 a3 a4 (by simp [a5])
  exact ⟨f, ph, d, c1, by rw [c3]; simp [Demo.coexEns], c4⟩

end Flory
