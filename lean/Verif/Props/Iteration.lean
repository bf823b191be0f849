import Verif.Props.Demo
import Mathlib.Analysis.Complex.ExponentialBounds

/-!
# C34 – C38: volumes, revival budget, dead compartments, reported field error
-/

set_option linter.unusedSectionVars false

namespace Flory

section General

variable {K G : Type} [Field K] [LinearOrder K] [IsStrictOrderedRing K]
variable {C S M : ℕ} [NeZero M]
variable {ia : InteractionI S M K} {en : EntropyI C S M K} {es : EnsembleI C M K}
  {rng : Rng G K} {p : Params K} {tries : ℤ} {count : ℕ} {s : State C S M K G}
  {t : Trace C S M K G}

/-- **C34**, volumes: after a pass the volumes add up to the number of compartments that were above
the threshold in that pass; all others have volume zero; some compartment has at least volume one and
so is alive afterwards if `kill_threshold < 1`.  Holds for arbitrary interaction, entropy and
ensemble. -/
theorem C34_volume_conservation (hthr : 0 ≤ p.killThreshold)
    (h : iterate ia en es rng p tries count s = .ok t) :
    ∑ m, t.Js m = (Fintype.card {m // p.killThreshold < t.JsOld m} : K) ∧
    (∀ m, t.JsOld m ≤ p.killThreshold → t.JsOld m = 0 ∧ t.Js m = 0) ∧
    (∃ m, 1 ≤ t.Js m) ∧
    (p.killThreshold < 1 → ∃ m, p.killThreshold < t.Js m) := by
  have hf := iterate_facts h
  have hiff : ∀ m, t.masks m = 1 ↔ p.killThreshold < t.JsOld m := by
    intro m
    refine ⟨hf.JsOld_gt, fun hlt => ?_⟩
    rcases hf.mask_cases m with e | e
    · exact e
    · rw [hf.JsOld_dead e] at hlt; exact absurd hlt (not_lt.mpr hthr)
  obtain ⟨m0, -, hm0⟩ := hf.exists_Js_ge_one
  refine ⟨?_, fun m hm => ?_, ⟨m0, hm0⟩, fun h1 => ⟨m0, lt_of_lt_of_le h1 hm0⟩⟩
  · rw [hf.sum_Js, hf.nValid_card, Fintype.card_subtype]
    simp only [hiff]
  · have : t.masks m = 0 := by
      rcases hf.mask_cases m with e | e
      · exact absurd ((hiff m).1 e) (not_lt.mpr hm)
      · exact e
    exact ⟨hf.JsOld_dead this, hf.Js_dead this⟩

example : (0 : ℝ) ≤ Demo.params.killThreshold ∧
    ∃ t, iterate (Demo.fh.toI 3) (Demo.gas.toI 3) (Demo.canonical.toI 3) (rngZero ℝ) Demo.params
      0 0 (Demo.state Demo.allCons) = .ok t :=
  ⟨by simp [Demo.params], Demo.iterate_canonical 0 _ Demo.allCons_proper⟩

/-- **C35**, the part that holds: if the volumes at the beginning of the pass average to one over
the living compartments (true after every pass without revival, by C34), no volume changes by more
than `2 (1 - 1/n)` times `Js_step_upper_bound`, where `n` is the number of living compartments.
Missing: the documented factor one, which is exceeded (`C35_bound_exceeded`); the constant proved
here is attained there. -/
theorem C35_volume_step_partial (hb : 0 < p.JsStepUpperBound) (ha : 0 ≤ p.acceptanceJs)
    (h : iterate ia en es rng p tries count s = .ok t)
    (hsum : ∑ m, t.JsOld m = t.nValid) (m : Fin M) :
    |t.Js m - t.JsOld m| ≤ 2 * (1 - 1 / t.nValid) * p.JsStepUpperBound := by
  have hf := iterate_facts h
  have hn := hf.nValid_pos
  have hn1 : 1 ≤ t.nValid := by
    have : (0 : K) < ((Finset.univ.filter fun m => t.masks m = 1).card : K) := hf.nValid_card ▸ hn
    rw [hf.nValid_card]
    exact_mod_cast Nat.one_le_iff_ne_zero.mpr (by rintro e; rw [e] at this; simp at this)
  have hfac : 0 ≤ 2 * (1 - 1 / t.nValid) * p.JsStepUpperBound := by
    have : 1 / t.nValid ≤ 1 := (div_le_one hn).2 hn1
    have : 0 ≤ 1 - 1 / t.nValid := by linarith
    positivity
  rcases hf.mask_cases m with e | e
  swap
  · rw [hf.Js_dead e, hf.JsOld_dead e, sub_zero, abs_zero]; exact hfac
  set δ : Fin M → K := fun k => t.factor * p.acceptanceJs * t.JsDiff k with hδ
  have hδb : ∀ k, |δ k| ≤ p.JsStepUpperBound := fun k => hf.step_le hb ha k
  have hδ0 : ∀ k, t.masks k = 0 → δ k = 0 := by
    intro k hk
    simp [hδ, hf.JsDiff, hk]
  have e1 : t.Js m - t.JsOld m = δ m - (∑ k, δ k) / t.nValid := by
    rw [hf.Js_eq, e, mul_one, hsum]
    field_simp
    ring
  rw [e1]
  have e2 : δ m - (∑ k, δ k) / t.nValid =
      (1 - 1 / t.nValid) * δ m - (∑ k ∈ Finset.univ.erase m, δ k) / t.nValid := by
    rw [← Finset.add_sum_erase _ _ (Finset.mem_univ m)]
    field_simp
    ring
  have e3 : |∑ k ∈ Finset.univ.erase m, δ k| ≤ (t.nValid - 1) * p.JsStepUpperBound := by
    refine (Finset.abs_sum_le_sum_abs _ _).trans ?_
    have : ∑ k ∈ Finset.univ.erase m, |δ k| ≤
        ∑ k ∈ Finset.univ.erase m, t.masks k * p.JsStepUpperBound := by
      refine Finset.sum_le_sum fun k _ => ?_
      rcases hf.mask_cases k with e' | e'
      · rw [e', one_mul]; exact hδb k
      · rw [hδ0 k e', e']; simp
    refine this.trans (le_of_eq ?_)
    rw [← Finset.sum_mul, hf.nValid, ← Finset.add_sum_erase _ _ (Finset.mem_univ m), e]
    ring
  have h1 : 0 ≤ 1 - 1 / t.nValid := by
    have : 1 / t.nValid ≤ 1 := (div_le_one hn).2 hn1
    linarith
  calc |δ m - (∑ k, δ k) / t.nValid|
      = |(1 - 1 / t.nValid) * δ m - (∑ k ∈ Finset.univ.erase m, δ k) / t.nValid| := by rw [e2]
    _ ≤ |(1 - 1 / t.nValid) * δ m| + |(∑ k ∈ Finset.univ.erase m, δ k) / t.nValid| :=
        abs_sub _ _
    _ = (1 - 1 / t.nValid) * |δ m| + |∑ k ∈ Finset.univ.erase m, δ k| / t.nValid := by
        rw [abs_mul, abs_of_nonneg h1, abs_div, abs_of_pos hn]
    _ ≤ (1 - 1 / t.nValid) * p.JsStepUpperBound +
          (t.nValid - 1) * p.JsStepUpperBound / t.nValid :=
        add_le_add (mul_le_mul_of_nonneg_left (hδb m) h1)
          (div_le_div_of_nonneg_right e3 hn.le)
    _ = 2 * (1 - 1 / t.nValid) * p.JsStepUpperBound := by field_simp; ring

/-- The hypothesis of `C35_volume_step_partial` holds in every pass after the first one as long as no
compartment died or was revived. -/
theorem C35_hypothesis_reached {s0 : State C S M K G} {t0 : Trace C S M K G} {tries0 : ℤ}
    {count0 : ℕ} (hthr : 0 ≤ p.killThreshold)
    (h0 : iterate ia en es rng p tries0 count0 s0 = .ok t0)
    (hsafe : ∀ m, p.killThreshold < t0.JsOld m → p.killThreshold < t0.Js m)
    (h : iterate ia en es rng p tries count t0.state = .ok t) (hex : tries ≤ count) :
    ∑ m, t.JsOld m = t.nValid := by
  have hf0 := iterate_facts h0
  have hf := iterate_facts h
  have hrv := reviveBlock_exhausted (rng := rng) (p := p) (Js := t0.state.Js)
    (om := t0.state.omegas) (g := t0.state.g) hex
  have hmk : ∀ m, t.masks m = t0.masks m := by
    intro m
    rw [hf.mask_eq, hrv]
    rcases hf0.mask_cases m with e | e
    · rw [e, if_pos]; exact hsafe m (hf0.JsOld_gt e)
    · rw [e, if_neg]
      show ¬ p.killThreshold < t0.Js m
      rw [hf0.Js_dead e]; exact not_lt.mpr hthr
  have hJ : ∀ m, t.JsOld m = t0.Js m := by
    intro m
    rw [hf.JsOld, hrv, hmk]
    show t0.Js m * _ = _
    rcases hf0.mask_cases m with e | e
    · rw [e, mul_one]
    · rw [e, hf0.Js_dead e, mul_zero]
  rw [Finset.sum_congr rfl fun m _ => hJ m, hf0.sum_Js, hf.nValid, hf0.nValid]
  exact Finset.sum_congr rfl fun m _ => (hmk m).symm

/-- **C36**, one call of the core routine: the number of revivals is zero for an exhausted budget and
otherwise exceeds the budget by less than the number of compartments. -/
theorem C36_revivals_of_metastep (hok : rng.Ok) {n : ℕ} {r : MetaResult C S M K G}
    (h : metastep ia en es rng p tries n s = .ok r) :
    (tries ≤ 0 → r.last.reviveCount = 0) ∧
    (0 < tries → (r.last.reviveCount : ℤ) < tries + M) := by
  have step : ∀ count (s : State C S M K G) t',
      iterate ia en es rng p tries count s = .ok t' →
      (tries ≤ 0 → count = 0 → t'.reviveCount = 0) ∧
      (0 < tries → (count : ℤ) < tries + M → (t'.reviveCount : ℤ) < tries + M) := by
    intro count s t' ht
    have hf := iterate_facts ht
    obtain ⟨-, h2⟩ := reviveBlock_spec (S := S) (p := p) (tries := tries) (Js := s.Js)
      (om := s.omegas) (g := s.g) (count := count) hok
    constructor
    · intro h0 hc
      rw [if_neg (by omega)] at h2
      rw [hf.reviveCount, h2, hc]
    · intro h0 hc
      split at h2
      · rename_i hlt
        have : (Finset.univ.filter fun m => s.Js m ≤ p.killThreshold).card ≤ M := by
          simpa using Finset.card_filter_le (Finset.univ : Finset (Fin M))
            fun m => s.Js m ≤ p.killThreshold
        rw [hf.reviveCount, h2.1]
        push_cast
        omega
      · rw [hf.reviveCount, h2]; exact hc
  refine ⟨fun h0 => ?_, fun h0 => ?_⟩
  · exact metastep_inv (fun t => t.reviveCount = 0) h (fun t ht => (step 0 s t ht).1 h0 rfl)
      (fun t t' hc ht => (step _ _ t' ht).1 h0 hc)
  · exact metastep_inv (fun t => (t.reviveCount : ℤ) < tries + M) h
      (fun t ht => (step 0 s t ht).2 h0 (by have := NeZero.pos M; push_cast; omega))
      (fun t t' hc ht => (step _ _ t' ht).2 h0 hc)

example : ∃ r, metastep (Demo.fh.toI 3) (Demo.gas.toI 3) (Demo.canonical.toI 3) (rngZero ℝ)
    Demo.params 1 7 (Demo.state Demo.allCons) = .ok r :=
  Demo.metastep_canonical 1 _ Demo.allCons_proper 6

/-- **C37**, one pass without revival budget: a dead compartment (volume not above the threshold)
ends with volume zero, fractions zero and fields zero, hence is dead in the next pass as well. -/
theorem C37_dead_stays_dead_pass (hthr : 0 ≤ p.killThreshold) (hes : ∃ a, Scales es a)
    (hbudget : tries ≤ count) (h : iterate ia en es rng p tries count s = .ok t) (m : Fin M)
    (hdead : s.Js m ≤ p.killThreshold) :
    t.Js m = 0 ∧ t.Js m ≤ p.killThreshold ∧ (∀ r, t.omegas r m = 0) ∧
    (∀ i, t.phisComp i m = 0) ∧ t.reviveCount = count := by
  have hf := iterate_facts h
  have hrv := reviveBlock_exhausted (rng := rng) (p := p) (Js := s.Js)
    (om := s.omegas) (g := s.g) hbudget
  have hm : t.masks m = 0 := by
    rw [hf.mask_eq, hrv, if_neg (not_lt.mpr hdead)]
  obtain ⟨a, ha⟩ := hes
  refine ⟨hf.Js_dead hm, by rw [hf.Js_dead hm]; exact hthr, fun r => ?_, fun i => ?_, ?_⟩
  · rw [hf.omegas, hm, mul_zero]
  · obtain ⟨phi0, -, h2⟩ := hf.partition
    rw [(Prod.mk.inj (ha.inv h2)).1]
    simp [hm]
  · rw [hf.reviveCount, hrv]

/-- **C37**. Once the revive budget is exhausted, a dead compartment stays dead during any number of
further passes, with volume, fractions and fields zero. -/
theorem C37_dead_stays_dead (hthr : 0 ≤ p.killThreshold) (hes : ∃ a, Scales es a)
    (hbudget : tries ≤ 0) {n : ℕ} {r : MetaResult C S M K G}
    (h : metastep ia en es rng p tries n s = .ok r) (m : Fin M)
    (hdead : s.Js m ≤ p.killThreshold) :
    r.last.Js m = 0 ∧ (∀ q, r.last.omegas q m = 0) ∧ (∀ i, r.last.phisComp i m = 0) := by
  have := metastep_inv (fun t => t.Js m = 0 ∧ (∀ q, t.omegas q m = 0) ∧
      (∀ i, t.phisComp i m = 0) ∧ t.reviveCount = 0) h (fun t ht => by
      obtain ⟨h1, -, h3, h4, h5⟩ := C37_dead_stays_dead_pass hthr hes (by simpa using hbudget) ht m
        hdead
      exact ⟨h1, h3, h4, h5⟩) (fun t t' hc ht => by
      obtain ⟨h1, -, h3, h4, h5⟩ := C37_dead_stays_dead_pass hthr hes
        (by rw [hc.2.2.2]; simpa using hbudget) ht m
        (by show t.Js m ≤ _; rw [hc.1]; exact hthr)
      exact ⟨h1, h3, h4, by rw [h5, hc.2.2.2]⟩)
  exact ⟨this.1, this.2.1, this.2.2.1⟩

example : ∃ r, (Demo.state Demo.allCons).Js 2 ≤ Demo.params.killThreshold ∧
    metastep (Demo.fh.toI 3) (Demo.gas.toI 3) (Demo.canonical.toI 3) (rngZero ℝ)
      Demo.params 0 7 (Demo.state Demo.allCons) = .ok r := by
  obtain ⟨r, hr⟩ := Demo.metastep_canonical 0 _ Demo.allCons_proper 6
  exact ⟨r, by simp [Demo.state, Demo.params], hr⟩

/-- **C38**, the part that holds: the reported number is never below any signed field difference,
it is attained (or zero), and every absolute difference is at most `max 1 (N_S - 1)` times the
reported number plus the incompressibility coefficient times the reported incompressibility; so
if both reported numbers vanish the fields are exactly self-consistent.
Missing: equality with the largest absolute value, which is false (`C38_abs_missing`). -/
theorem C38_field_error_partial (h : iterate ia en es rng p tries count s = .ok t) :
    (∀ r m, t.omegaDiff r m ≤ t.maxAbsOmegaDiff) ∧
    (t.maxAbsOmegaDiff = 0 ∨ ∃ r m, t.maxAbsOmegaDiff = t.omegaDiff r m) ∧
    (∀ r m, |t.omegaDiff r m| ≤ max 1 ((S : K) - 1) * t.maxAbsOmegaDiff +
      |ia.incompCoef t.phisFeat| * t.maxAbsIncomp) ∧
    (t.maxAbsOmegaDiff = 0 → t.maxAbsIncomp = 0 → ∀ r m, t.omegaDiff r m = 0) ∧
    (∀ r m, t.omegas r m = (t.omegasOld r m + t.factor * p.acceptanceOmega * t.omegaDiff r m)
      * t.masks m) := by
  have hf := iterate_facts h
  refine ⟨hf.omegaDiff_le, ?_, hf.abs_omegaDiff_le, fun h1 h2 r m => ?_, hf.omegas⟩
  · rw [hf.maxAbsOmegaDiff]; exact (rowsMax_spec _).2.2
  · have := hf.abs_omegaDiff_le r m
    rw [h1, h2, mul_zero, mul_zero, add_zero] at this
    exact abs_nonpos_iff.mp this

end General

section Witness38

/-- Three components and features without interaction in one compartment, in the fields
`(2, -1, -1)`. -/
noncomputable def w38State : State 3 3 1 ℝ Unit where
  omegas := ![![2], ![-1], ![-1]]
  Js := fun _ => 1
  phisComp := fun _ _ => 0
  phisFeat := fun _ _ => 0
  cons := []
  g := ()

/-- **C38 fails**: `.max()` is taken without `abs`.  In a regular canonical pass (three
components, mean fractions 1/3) the field differences are `-2, 1, 1` but `max_abs_omega_diff`
is reported as 1. -/
theorem C38_abs_missing : ∃ t,
    iterate ((FHCompiled.new (fun _ _ => 0) 1).toI 1) ((IdealC.mk fun _ => 1).toI 1)
      ((CanonicalC.mk fun _ => 1 / 3).toI 1) (rngZero ℝ) Demo.params 0 0 w38State = .ok t ∧
    t.maxAbsOmegaDiff = 1 ∧
    t.omegas 0 0 = t.omegasOld 0 0 + t.factor * Demo.params.acceptanceOmega * (-2) ∧
    ¬ IsGreatest (Set.range fun x : Fin 3 × Fin 1 => |t.omegaDiff x.1 x.2|) t.maxAbsOmegaDiff := by
  obtain ⟨t, ht, -⟩ := iterate_ok (ia := (FHCompiled.new (fun _ _ => 0) 1).toI 1) (tries := 0)
    (count := 0) (s := w38State) (rngZero_ok ℝ) (IdealC.mk fun _ : Fin 3 => 1).isIdealGas
    (CanonicalC.mk fun _ : Fin 3 => (1 / 3 : ℝ)).total (p := Demo.params)
    (by simp [Demo.params]) (by simp [Demo.params]) (by simp [Demo.params]) (by simp [w38State])
    (Or.inl ⟨0, by simp [Demo.params, w38State]⟩)
  have hf := iterate_facts ht
  have hen := (IdealC.mk fun _ : Fin 3 => 1).isIdealGas (M := 1)
  have hes := (CanonicalC.mk fun _ : Fin 3 => (1 / 3 : ℝ)).scales (M := 1)
  have hrv := reviveBlock_exhausted (rng := rngZero ℝ) (p := Demo.params) (Js := w38State.Js)
    (om := w38State.omegas) (g := w38State.g) (tries := 0) (count := 0) (by simp)
  have hom : t.omegasOld = w38State.omegas := by rw [hf.omegasOld, hrv]
  have hmask : t.masks 0 = 1 := by
    rw [hf.mask_eq, hrv]; simp [w38State, Demo.params]
  have hJ : t.JsOld 0 = 1 := by rw [hf.JsOld, hrv, hmask]; simp [w38State]
  have hphi : ∀ i, t.phisComp i 0 = 1 / 3 := by
    intro i
    rw [hf.phis_eq hen hes, hf.Qs_eq hen, hmask]
    simp only [hJ, mul_one, div_one, Finset.univ_unique, Fin.default_eq_zero,
      Finset.sum_singleton]
    field_simp
  have hinc : t.incomp 0 = 0 := by
    rw [hf.incomp_eq hes, hmask, Finset.sum_congr rfl fun i _ => hphi i]; simp
  have hcp : t.consPrep = [] := by rw [hf.consPrep]; rfl
  have hpot : ∀ r, t.potential r 0 = 0 := by
    intro r; rw [hf.potential]; simp [FHCompiled.toI, FHCompiled.potential, FHCompiled.new]
  have hxi : t.xi 0 = 0 := by
    rw [hf.xi, hinc, hom, hcp]
    simp only [hpot, consPot, List.map_nil, List.sum_nil, mul_zero, Finset.sum_const_zero]
    simp [Fin.sum_univ_succ, w38State]
    norm_num
  have hd : ∀ r, t.omegaDiff r 0 = -w38State.omegas r 0 := by
    intro r
    rw [hf.omegaDiff, hpot, hxi, hmask, hom, hcp]
    simp [consPot]
  have hd0 : t.omegaDiff 0 0 = -2 := by rw [hd]; simp [w38State]
  have hmax : t.maxAbsOmegaDiff = 1 := by
    rw [hf.maxAbsOmegaDiff]
    obtain ⟨-, h2, h3⟩ := rowsMax_spec t.omegaDiff
    have h4 : 1 ≤ rowsMax t.omegaDiff := by
      have := h2 1 0
      rw [hd] at this
      simpa [w38State] using this
    rcases h3 with h | ⟨r, m, h⟩
    · rw [h] at h4; exact absurd h4 (by norm_num)
    · rw [Subsingleton.elim m 0, hd] at h
      refine le_antisymm ?_ h4
      rw [h]
      fin_cases r <;> simp [w38State]
      norm_num
  refine ⟨t, ht, hmax, ?_, ?_⟩
  · rw [hf.omegas, hmask, hd0, mul_one]
  · intro hg
    have := hg.2 ⟨(0, 0), rfl⟩
    simp only [hd0, hmax] at this
    norm_num at this

end Witness38

section Witness35

/-- One component in three compartments with volumes `1.5, 0.75, 0.75` and fields `0, ln 2, ln 2`. -/
noncomputable def w35State : State 1 1 3 ℝ Unit where
  omegas := ![![0, Real.log 2, Real.log 2]]
  Js := ![3 / 2, 3 / 4, 3 / 4]
  phisComp := fun _ _ => 0
  phisFeat := fun _ _ => 0
  cons := []
  g := ()

/-- Parameters with a large volume acceptance, so that the bound is active. -/
noncomputable def w35Params : Params ℝ where
  acceptanceJs := 1
  JsStepUpperBound := 1 / 10
  acceptanceOmega := 1
  killThreshold := 0
  reviveScaler := 1

/-- **C35 fails**: `Js_step_upper_bound` limits the change before the volumes are renormalised; the
renormalisation can enlarge it.  Here a volume changes by 4/3 of the bound, with all volumes alive
and averaging to one. -/
theorem C35_bound_exceeded : ∃ t,
    iterate ((FHCompiled.new (fun _ _ => 0) 1).toI 3) ((IdealC.mk fun _ => 1).toI 3)
      ((CanonicalC.mk fun _ => 1).toI 3) (rngZero ℝ) w35Params 0 0 w35State = .ok t ∧
    t.JsOld = w35State.Js ∧ ∑ m, t.JsOld m = t.nValid ∧
    t.Js 0 - t.JsOld 0 = 4 / 3 * w35Params.JsStepUpperBound ∧
    |t.Js 0 - t.JsOld 0| = 2 * (1 - 1 / t.nValid) * w35Params.JsStepUpperBound := by
  obtain ⟨t, ht, -⟩ := iterate_ok (ia := (FHCompiled.new (fun _ _ => 0) 1).toI 3) (tries := 0)
    (count := 0) (s := w35State) (rngZero_ok ℝ) (IdealC.mk fun _ : Fin 1 => 1).isIdealGas
    (CanonicalC.mk fun _ : Fin 1 => (1 : ℝ)).total (p := w35Params)
    (by simp [w35Params]) (by simp [w35Params]) (by simp [w35Params]) (by simp [w35State])
    (Or.inl ⟨0, by simp [w35Params, w35State]⟩)
  have hf := iterate_facts ht
  have hen := (IdealC.mk fun _ : Fin 1 => 1).isIdealGas (M := 3)
  have hes := (CanonicalC.mk fun _ : Fin 1 => (1 : ℝ)).scales (M := 3)
  have hrv := reviveBlock_exhausted (rng := rngZero ℝ) (p := w35Params) (Js := w35State.Js)
    (om := w35State.omegas) (g := w35State.g) (tries := 0) (count := 0) (by simp)
  have hom : t.omegasOld = w35State.omegas := by rw [hf.omegasOld, hrv]
  have hmask : ∀ m, t.masks m = 1 := by
    intro m
    rw [hf.mask_eq, hrv, if_pos]
    fin_cases m <;> simp [w35State, w35Params]
  have hJ : ∀ m, t.JsOld m = w35State.Js m := by
    intro m
    rw [hf.JsOld, hrv, hmask]; simp
  have hn : t.nValid = 3 := by
    rw [hf.nValid]; simp [hmask]
  have hsum : ∑ m, t.JsOld m = 3 := by
    simp only [hJ, Fin.sum_univ_three]
    simp [w35State]; norm_num
  have hexp : Real.exp (-Real.log 2) = 1 / 2 := by
    rw [Real.exp_neg, Real.exp_log (by norm_num)]; norm_num
  have hQ : t.Qs 0 = 3 / 4 := by
    rw [hf.Qs_eq hen, hsum]
    simp only [hom, hJ, Fin.sum_univ_three]
    simp [w35State, hexp]; norm_num
  have hphi : t.phisComp 0 0 = 4 / 3 ∧ t.phisComp 0 1 = 2 / 3 ∧ t.phisComp 0 2 = 2 / 3 := by
    simp only [hf.phis_eq hen hes, hmask, hQ, hom]
    simp [w35State, hexp]; norm_num
  have hinc : ∀ m, t.incomp m = t.phisComp 0 m - 1 := by
    intro m
    rw [hf.incomp_eq hes, hmask]; simp
  have hpf : ∀ m, t.phisFeat 0 m = t.phisComp 0 m := by
    intro m
    rw [hf.phisFeat_eq hen]; simp
  have hcp : t.consPrep = [] := by rw [hf.consPrep]; rfl
  have hpot : ∀ m, t.potential 0 m = 0 := by
    intro m
    rw [hf.potential]; simp [FHCompiled.toI, FHCompiled.potential, FHCompiled.new]
  have hxi : ∀ m, t.xi m = t.phisComp 0 m - 1 + w35State.omegas 0 m := by
    intro m
    rw [hf.xi, hinc, hom, hcp, hmask]
    simp [hpot, consPot, FHCompiled.toI, FHCompiled.incompCoef, FHCompiled.new]
  have hle : ∀ m, t.localEnergy m = 1 - 2 * t.phisComp 0 m - w35State.omegas 0 m := by
    intro m
    rw [hf.localEnergy, hen.volumeDerivative, hcp, hinc, hxi]
    simp only [FHCompiled.toI, FHCompiled.volumeDerivative_eq, hpot, hpf, consPot,
      consVd, List.map_nil, List.sum_nil, Finset.univ_unique, Fin.default_eq_zero,
      Finset.sum_singleton]
    ring
  obtain ⟨hp0, hp1, hp2⟩ := hphi
  have hl0 : t.localEnergy 0 = -5 / 3 := by rw [hle, hp0]; simp [w35State]; norm_num
  have hl1 : t.localEnergy 1 = -1 / 3 - Real.log 2 := by rw [hle, hp1]; simp [w35State]; norm_num
  have hl2 : t.localEnergy 2 = -1 / 3 - Real.log 2 := by rw [hle, hp2]; simp [w35State]; norm_num
  have hmean : t.localEnergyMean = -1 - Real.log 2 / 2 := by
    rw [hf.localEnergyMean, hn]
    simp only [Fin.sum_univ_three, hl0, hl1, hl2, hJ]
    simp [w35State]; ring
  set D := 2 / 3 - Real.log 2 / 2 with hD
  have hlog : Real.log 2 < 0.6931471808 := Real.log_two_lt_d9
  have hDpos : 1 / 10 < D := by rw [hD]; norm_num at hlog ⊢; linarith
  have hd0 : t.JsDiff 0 = D := by rw [hf.JsDiff, hmean, hl0, hmask, hD]; ring
  have hd1 : t.JsDiff 1 = -D := by rw [hf.JsDiff, hmean, hl1, hmask, hD]; ring
  have hd2 : t.JsDiff 2 = -D := by rw [hf.JsDiff, hmean, hl2, hmask, hD]; ring
  have hmaxd : t.maxAbsJsDiff = D := by
    rw [hf.maxAbsJsDiff]
    refine npMax_eq_of _ _ (fun m => ?_) ⟨0, ?_⟩
    · have hD0 : 0 < D := by linarith
      fin_cases m
      · simp [hd0, abs_of_pos hD0]
      · simp [hd1, abs_of_pos hD0]
      · simp [hd2, abs_of_pos hD0]
    · have hD0 : 0 < D := by linarith
      simp [hd0, abs_of_pos hD0]
  have hfac : t.factor = 1 / 10 / D := by
    rw [hf.factor, hmaxd]
    simp only [w35Params, mul_one]
    rw [max_eq_left hDpos.le]
  have hDne : D ≠ 0 := by linarith
  have hmain : t.Js 0 - t.JsOld 0 = 4 / 3 * w35Params.JsStepUpperBound := by
    rw [hf.Js_eq, hmask, hsum, hn]
    simp only [Fin.sum_univ_three, hd0, hd1, hd2, hfac, w35Params]
    field_simp
    ring
  refine ⟨t, ht, funext hJ, by rw [hsum, hn], hmain, ?_⟩
  rw [hmain, hn]
  simp only [w35Params]
  rw [abs_of_pos (by norm_num)]
  norm_num

end Witness35

section Interference

variable {G : Type} {C S M : ℕ} [NeZero M]
variable {ia : InteractionI S M ℝ} {en : EntropyI C S M ℝ} {es : EnsembleI C M ℝ}
  {rng : Rng G ℝ} {p : Params ℝ} {tries : ℤ} {count : ℕ} {s s' : State C S M ℝ G}
  {t t' : Trace C S M ℝ G} {sizes : Vec C ℝ} {feat : Fin C → Fin S} {a : Vec C ℝ → Vec C ℝ}

/-- **C37**, no influence: without revival budget, whatever the fields (and sub-threshold volumes) of
the dead compartments are, they do not influence anything: two states that agree in the living
compartments, with the same constraints, lead to the same volumes, fields, fractions, constraints
and reported errors. -/
theorem C37_dead_without_influence (hen : IsIdealGas en sizes feat) (hes : Scales es a)
    (hbudget : tries ≤ count)
    (h : iterate ia en es rng p tries count s = .ok t)
    (h' : iterate ia en es rng p tries count s' = .ok t')
    (hdead : ∀ m, s.Js m ≤ p.killThreshold ↔ s'.Js m ≤ p.killThreshold)
    (hJs : ∀ m, p.killThreshold < s.Js m → s.Js m = s'.Js m)
    (hom : ∀ m, p.killThreshold < s.Js m → ∀ r, s.omegas r m = s'.omegas r m)
    (hcons : s.cons = s'.cons) :
    t.Js = t'.Js ∧ t.omegas = t'.omegas ∧ t.phisComp = t'.phisComp ∧ t.phisFeat = t'.phisFeat ∧
    t.cons = t'.cons ∧ t.maxAbsIncomp = t'.maxAbsIncomp ∧ t.maxAbsOmegaDiff = t'.maxAbsOmegaDiff ∧
    t.maxAbsJsDiff = t'.maxAbsJsDiff ∧ t.maxConstraintResidue = t'.maxConstraintResidue := by
  have hf := iterate_facts h
  have hf' := iterate_facts h'
  have hrv := reviveBlock_exhausted (rng := rng) (p := p) (Js := s.Js)
    (om := s.omegas) (g := s.g) hbudget
  have hrv' := reviveBlock_exhausted (rng := rng) (p := p) (Js := s'.Js)
    (om := s'.omegas) (g := s'.g) hbudget
  have hdead' : ∀ m, p.killThreshold < s.Js m ↔ p.killThreshold < s'.Js m := fun m => by
    rw [← not_le, ← not_le, hdead m]
  have emask : t.masks = t'.masks := by
    funext m
    rw [hf.mask_eq, hf'.mask_eq, hrv, hrv']
    simp only [hdead' m]
  have hlive : ∀ m, t.masks m = 1 → p.killThreshold < s.Js m := by
    intro m hm
    rw [hf.mask_eq, hrv] at hm
    by_contra hc
    rw [if_neg hc] at hm
    exact zero_ne_one hm
  have eJ : t.JsOld = t'.JsOld := by
    funext m
    rcases hf.mask_cases m with e | e
    · rw [hf.JsOld, hf'.JsOld, hrv, hrv', ← emask, e]
      simp [hJs m (hlive m e)]
    · rw [hf.JsOld_dead e, hf'.JsOld_dead (emask ▸ e)]
  have eom : ∀ r m, t.masks m = 1 → t.omegasOld r m = t'.omegasOld r m := by
    intro r m hm
    rw [hf.omegasOld, hf'.omegasOld, hrv, hrv']
    exact hom m (hlive m hm) r
  have eQ : t.Qs = t'.Qs := by
    funext i
    rw [hf.Qs_eq hen, hf'.Qs_eq hen, eJ]
    congr 1
    refine Finset.sum_congr rfl fun m _ => ?_
    rcases hf.mask_cases m with e | e
    · rw [eom _ m e]
    · rw [← eJ, hf.JsOld_dead e, mul_zero, mul_zero]
  have ephi : t.phisComp = t'.phisComp := by
    funext i m
    rw [hf.phis_eq hen hes, hf'.phis_eq hen hes, eQ, emask]
    rcases hf.mask_cases m with e | e
    · rw [eom _ m e]
    · rw [← emask, e, mul_zero, mul_zero]
  have einc : t.incomp = t'.incomp := by
    funext m
    rw [hf.incomp_eq hes, hf'.incomp_eq hes, ephi, emask]
  have epf : t.phisFeat = t'.phisFeat := by
    funext r m
    rw [hf.phisFeat_eq hen, hf'.phisFeat_eq hen, ephi]
  have ecp : t.consPrep = t'.consPrep := by
    rw [hf.consPrep, hf'.consPrep, epf, eJ, emask, hcons]
  have epot : t.potential = t'.potential := by rw [hf.potential, hf'.potential, epf]
  have exi : t.xi = t'.xi := by
    funext m
    rw [hf.xi, hf'.xi, epf, einc, epot, ecp, emask]
    rcases hf.mask_cases m with e | e
    · simp only [eom _ m e]
    · rw [← emask, e]; simp
  have ele : t.localEnergy = t'.localEnergy := by
    funext m
    rw [hf.localEnergy, hf'.localEnergy, epot, epf, ephi, exi, einc, ecp]
  have enV : t.nValid = t'.nValid := by rw [hf.nValid, hf'.nValid, emask]
  have emean : t.localEnergyMean = t'.localEnergyMean := by
    rw [hf.localEnergyMean, hf'.localEnergyMean, ele, eJ, enV]
  have ejd : t.JsDiff = t'.JsDiff := by
    funext m
    rw [hf.JsDiff, hf'.JsDiff, emean, ele, emask]
  have emj : t.maxAbsJsDiff = t'.maxAbsJsDiff := by rw [hf.maxAbsJsDiff, hf'.maxAbsJsDiff, ejd]
  have efac : t.factor = t'.factor := by rw [hf.factor, hf'.factor, emj]
  have eod : t.omegaDiff = t'.omegaDiff := by
    funext r m
    rw [hf.omegaDiff, hf'.omegaDiff, epot, ecp, exi, emask]
    rcases hf.mask_cases m with e | e
    · rw [eom _ m e]
    · rw [← emask, e, mul_zero, mul_zero]
  have ec := hf.cons
  rw [efac, emask, ecp] at ec
  replace ec := ec.symm.trans hf'.cons
  obtain ⟨ec1, ec2⟩ := Prod.mk.inj (Except.ok.inj ec)
  refine ⟨?_, ?_, ephi, epf, ec2, by rw [hf.maxAbsIncomp, hf'.maxAbsIncomp, einc],
    by rw [hf.maxAbsOmegaDiff, hf'.maxAbsOmegaDiff, eod], emj, ec1⟩
  · funext m
    rw [hf.Js, hf'.Js, eJ, efac, ejd, emask, enV]
  · funext r m
    rw [hf.omegas, hf'.omegas, efac, eod, emask]
    rcases hf.mask_cases m with e | e
    · rw [eom _ m e]
    · rw [← emask, e, mul_zero, mul_zero]

example : ∃ t t', iterate (Demo.fh.toI 3) (Demo.gas.toI 3) (Demo.canonical.toI 3) (rngZero ℝ)
      Demo.params 0 0 (Demo.state Demo.allCons) = .ok t ∧
    iterate (Demo.fh.toI 3) (Demo.gas.toI 3) (Demo.canonical.toI 3) (rngZero ℝ)
      Demo.params 0 0 { Demo.state Demo.allCons with
        omegas := ![![1, -1, 17], ![-1, 1, -18]], Js := ![1, 2, -5] } = .ok t' := by
  obtain ⟨t, ht⟩ := Demo.iterate_canonical 0 _ Demo.allCons_proper
  obtain ⟨t', ht', -⟩ := iterate_ok (ia := Demo.fh.toI 3) (tries := 0) (count := 0)
    (s := { Demo.state Demo.allCons with
        omegas := ![![1, -1, 17], ![-1, 1, -18]], Js := ![1, 2, -5] }) (rngZero_ok ℝ)
    Demo.gas.isIdealGas Demo.canonical.total (p := Demo.params)
    (by simp [Demo.params]) (by simp [Demo.params]) (by simp [Demo.params]) Demo.allCons_proper
    (Or.inl ⟨0, by simp [Demo.params]⟩)
  exact ⟨t, t', ht, ht'⟩

/-- **C34**, no failure: with `0 ≤ kill_threshold < 1`, a positive step bound and non-empty
constraints, starting with a living compartment (or a revive budget), any positive number of passes
succeeds, in particular never divides by zero, and leaves a living compartment. -/
theorem C34_passes_never_fail (hok : rng.Ok) (hen : IsIdealGas en sizes feat) (hes : es.Total)
    (hthr : 0 ≤ p.killThreshold) (hthr1 : p.killThreshold < 1)
    (hb : 0 < p.JsStepUpperBound) {n : ℕ} (hn : n ≠ 0)
    (hcons : ∀ c ∈ s.cons, c.Proper)
    (halive : (∃ m, p.killThreshold < s.Js m) ∨ 0 < tries) :
    ∃ r, metastep ia en es rng p tries n s = .ok r ∧ ∃ m, p.killThreshold < r.last.Js m := by
  obtain ⟨r, h1, -, h2⟩ := metastep_ok (ia := ia) hok hen hes hthr hthr1 hb hn hcons halive
  exact ⟨r, h1, h2⟩

end Interference

end Flory
