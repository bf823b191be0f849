import Verif.Lemmas.Iteration
import Verif.Lemmas.Instances
import Mathlib.Algebra.Order.Group.Unbundled.Abs

/-! # Consequences of the closed forms: masks, volumes, success -/

set_option linter.unusedSectionVars false

namespace Flory

variable {K G : Type} [Field K] [LinearOrder K] [IsStrictOrderedRing K]
variable {C S M : ℕ} [NeZero M]

section Revive

variable {rng : Rng G K} {p : Params K} {tries : ℤ} {Js : Vec M K} {om : Mat S M K} {g : G}
  {count : ℕ}

theorem reviveBlock_exhausted (h : tries ≤ count) :
    reviveBlock rng p tries Js om g count = ⟨Js, om, g, count⟩ := by
  unfold reviveBlock
  rw [if_neg (not_lt.mpr h)]

theorem reviveBlock_all_alive (h : ∀ m, p.killThreshold < Js m) :
    reviveBlock rng p tries Js om g count = ⟨Js, om, g, count⟩ := by
  unfold reviveBlock
  have : countValid Js p.killThreshold = M := by
    rw [countValid_eq, Finset.filter_true_of_mem (fun m _ => h m)]; simp
  simp [this]

/-- Living compartments are untouched by the revival block; the rest is either untouched (no budget)
or revived. -/
theorem reviveBlock_spec (hok : rng.Ok) :
    let r := reviveBlock rng p tries Js om g count
    (∀ m, p.killThreshold < Js m → r.Js m = Js m ∧ ∀ q, r.targets q m = om q m) ∧
    (if (count : ℤ) < tries then
      r.count = count + (Finset.univ.filter fun m => Js m ≤ p.killThreshold).card ∧
      (∀ m, Js m ≤ p.killThreshold → r.Js m = 1)
     else r = ⟨Js, om, g, count⟩) := by
  intro r
  by_cases h : (count : ℤ) < tries
  · by_cases hc : countValid Js p.killThreshold = M
    · have hr : r = ⟨Js, om, g, count⟩ := by
        show reviveBlock rng p tries Js om g count = _
        unfold reviveBlock
        simp [hc]
      have hall : ∀ m, p.killThreshold < Js m := by
        rw [countValid_eq] at hc
        have : (Finset.univ.filter fun m => p.killThreshold < Js m) = Finset.univ :=
          Finset.eq_univ_of_card _ (by simpa using hc)
        intro m
        have := Finset.mem_univ m
        rw [← ‹_ = Finset.univ›] at this
        simpa using this
      rw [hr, if_pos h]
      refine ⟨fun m _ => ⟨rfl, fun _ => rfl⟩, ?_, fun m hm => absurd (hall m) (not_lt.mpr hm)⟩
      rw [Finset.filter_false_of_mem (fun m _ => not_le.mpr (hall m))]
      simp
    · obtain ⟨h1, h2, h3⟩ := reviveByRandom_spec (R := S) hok Js om p.killThreshold p.reviveScaler g
      have hr : r = { reviveByRandom rng Js om p.killThreshold p.reviveScaler g with
          count := count + (reviveByRandom rng Js om p.killThreshold p.reviveScaler g).count } := by
        show reviveBlock rng p tries Js om g count = _
        unfold reviveBlock
        simp [h, hc]
      rw [hr, if_pos h]
      refine ⟨h3, by simp only [h1], fun m hm => (h2 m hm).1⟩
  · have hr : r = ⟨Js, om, g, count⟩ := reviveBlock_exhausted (not_lt.mp h)
    rw [if_neg h]
    exact ⟨fun m _ => by rw [hr]; exact ⟨rfl, fun _ => rfl⟩, hr⟩

end Revive

section Facts

variable {ia : InteractionI S M K} {en : EntropyI C S M K} {es : EnsembleI C M K}
  {rng : Rng G K} {p : Params K} {tries : ℤ} {count : ℕ} {s : State C S M K G}
  {t : Trace C S M K G}

/-- Compartment `m` takes part in the pass. -/
def Trace.alive (t : Trace C S M K G) (m : Fin M) : Prop := t.masks m = 1

namespace IterFacts

theorem mask_eq (h : IterFacts ia en es rng p tries count s t) (m : Fin M) :
    t.masks m = if p.killThreshold <
      (reviveBlock rng p tries s.Js s.omegas s.g count).Js m then 1 else 0 := by
  rw [h.masks, makeMasks_eq]

theorem mask_cases (h : IterFacts ia en es rng p tries count s t) (m : Fin M) :
    t.masks m = 1 ∨ t.masks m = 0 := by
  rw [h.mask_eq]; split <;> simp

theorem mask_mul (h : IterFacts ia en es rng p tries count s t) (m : Fin M) :
    t.masks m * t.masks m = t.masks m := by
  rcases h.mask_cases m with e | e <;> simp [e]

theorem mask_le (h : IterFacts ia en es rng p tries count s t) (m : Fin M) :
    0 ≤ t.masks m ∧ t.masks m ≤ 1 := by
  rcases h.mask_cases m with e | e <;> simp [e]

theorem JsOld_mask (h : IterFacts ia en es rng p tries count s t) (m : Fin M) :
    t.JsOld m * t.masks m = t.JsOld m := by
  rw [h.JsOld, mul_assoc, h.mask_mul]

theorem JsOld_gt (h : IterFacts ia en es rng p tries count s t) {m : Fin M}
    (hm : t.masks m = 1) : p.killThreshold < t.JsOld m := by
  have := h.mask_eq m
  rw [hm] at this
  rw [h.JsOld, hm, mul_one]
  by_contra hc
  rw [if_neg hc] at this
  exact one_ne_zero this

theorem JsOld_dead (h : IterFacts ia en es rng p tries count s t) {m : Fin M}
    (hm : t.masks m = 0) : t.JsOld m = 0 := by
  rw [h.JsOld, hm, mul_zero]

theorem JsOld_nonneg (h : IterFacts ia en es rng p tries count s t)
    (hthr : 0 ≤ p.killThreshold) (m : Fin M) : 0 ≤ t.JsOld m := by
  rcases h.mask_cases m with e | e
  · exact hthr.trans (h.JsOld_gt e).le
  · rw [h.JsOld_dead e]

theorem JsDiff_mask (h : IterFacts ia en es rng p tries count s t) (m : Fin M) :
    t.JsDiff m * t.masks m = t.JsDiff m := by
  rw [h.JsDiff, mul_assoc, h.mask_mul]

theorem nValid_pos (h : IterFacts ia en es rng p tries count s t) : 0 < t.nValid := by
  refine lt_of_le_of_ne ?_ h.nValid_ne.symm
  rw [h.nValid]
  exact Finset.sum_nonneg fun m _ => (h.mask_le m).1

theorem nValid_card (h : IterFacts ia en es rng p tries count s t) :
    t.nValid = ((Finset.univ.filter fun m => t.masks m = 1).card : K) := by
  rw [h.nValid, Finset.card_filter]
  push_cast
  refine Finset.sum_congr rfl fun m _ => ?_
  rcases h.mask_cases m with e | e <;> simp [e]

/-- New volume, written with the change `δ` before renormalisation. -/
theorem Js_eq (h : IterFacts ia en es rng p tries count s t) (m : Fin M) :
    t.Js m = (t.JsOld m + t.factor * p.acceptanceJs * t.JsDiff m + (1 -
      (∑ k, t.JsOld k + ∑ k, t.factor * p.acceptanceJs * t.JsDiff k) / t.nValid)) * t.masks m := by
  have e : ∀ k, (t.JsOld k + t.factor * p.acceptanceJs * t.JsDiff k) * t.masks k =
      t.JsOld k + t.factor * p.acceptanceJs * t.JsDiff k := by
    intro k
    rw [add_mul, h.JsOld_mask, mul_assoc _ _ (t.masks k), h.JsDiff_mask]
  rw [h.Js]
  simp only [e, Finset.sum_add_distrib]

theorem Js_dead (h : IterFacts ia en es rng p tries count s t) {m : Fin M}
    (hm : t.masks m = 0) : t.Js m = 0 := by
  rw [h.Js, hm, mul_zero]

theorem sum_Js (h : IterFacts ia en es rng p tries count s t) : ∑ m, t.Js m = t.nValid := by
  have e : ∀ m, t.Js m = t.JsOld m + t.factor * p.acceptanceJs * t.JsDiff m + (1 -
      (∑ k, t.JsOld k + ∑ k, t.factor * p.acceptanceJs * t.JsDiff k) / t.nValid) * t.masks m := by
    intro m
    rw [h.Js_eq, add_mul, add_mul, h.JsOld_mask, mul_assoc _ _ (t.masks m), h.JsDiff_mask]
  rw [Finset.sum_congr rfl fun m _ => e m, Finset.sum_add_distrib, Finset.sum_add_distrib]
  generalize (∑ k, t.JsOld k + ∑ k, t.factor * p.acceptanceJs * t.JsDiff k) = c
  rw [← Finset.mul_sum, ← h.nValid]
  have := h.nValid_ne
  field_simp
  ring

/-- Some compartment has at least the average volume one. -/
theorem exists_Js_ge_one (h : IterFacts ia en es rng p tries count s t) :
    ∃ m, t.masks m = 1 ∧ 1 ≤ t.Js m := by
  by_contra hc
  push Not at hc
  have hs := h.sum_Js
  have hp := h.nValid_pos
  rw [h.nValid] at hs hp
  obtain ⟨m0, -, hm0⟩ : ∃ m ∈ Finset.univ, 0 < t.masks m := by
    by_contra hn
    push Not at hn
    exact absurd (Finset.sum_nonpos hn) (not_le.mpr hp)
  have h1 : t.masks m0 = 1 := by
    rcases h.mask_cases m0 with e | e
    · exact e
    · rw [e] at hm0; exact absurd hm0 (lt_irrefl _)
  have : ∑ m, t.Js m < ∑ m, t.masks m := by
    refine Finset.sum_lt_sum (fun m _ => ?_) ⟨m0, Finset.mem_univ _, ?_⟩
    · rcases h.mask_cases m with e | e
      · rw [e]; exact (hc m e).le
      · rw [e, h.Js_dead e]
    · rw [h1]; exact hc m0 h1
  exact absurd hs (ne_of_lt this)

theorem factor_le_one (h : IterFacts ia en es rng p tries count s t)
    (hb : 0 < p.JsStepUpperBound) : 0 < t.factor ∧ t.factor ≤ 1 := by
  have hpos : 0 < max (t.maxAbsJsDiff * p.acceptanceJs) p.JsStepUpperBound :=
    lt_of_lt_of_le hb (le_max_right _ _)
  rw [h.factor]
  exact ⟨div_pos hb hpos, (div_le_one hpos).2 (le_max_right _ _)⟩

/-- The change of a volume before renormalisation respects the bound. -/
theorem step_le (h : IterFacts ia en es rng p tries count s t)
    (hb : 0 < p.JsStepUpperBound) (ha : 0 ≤ p.acceptanceJs) (m : Fin M) :
    |t.factor * p.acceptanceJs * t.JsDiff m| ≤ p.JsStepUpperBound := by
  have hpos : 0 < max (t.maxAbsJsDiff * p.acceptanceJs) p.JsStepUpperBound :=
    lt_of_lt_of_le hb (le_max_right _ _)
  have hd : |t.JsDiff m| ≤ t.maxAbsJsDiff := by
    rw [h.maxAbsJsDiff]; exact le_npMax (fun m => |t.JsDiff m|) m
  rw [abs_mul, abs_mul, abs_of_nonneg ha, abs_of_pos (h.factor_le_one hb).1, h.factor,
    div_mul_eq_mul_div, div_mul_eq_mul_div, div_le_iff₀ hpos, mul_assoc]
  refine mul_le_mul_of_nonneg_left ?_ hb.le
  rw [mul_comm]
  exact (mul_le_mul_of_nonneg_right hd ha).trans (le_max_left _ _)

/-- The volume-weighted mean of the volume errors vanishes if the volumes average to one. -/
theorem sum_JsDiff_mul (h : IterFacts ia en es rng p tries count s t)
    (hsum : ∑ m, t.JsOld m = t.nValid) : ∑ m, t.JsDiff m * t.JsOld m = 0 := by
  have e : ∀ m, t.JsDiff m * t.JsOld m =
      t.localEnergyMean * t.JsOld m - t.localEnergy m * t.JsOld m := by
    intro m
    rw [h.JsDiff, mul_assoc, mul_comm (t.masks m), h.JsOld_mask, sub_mul]
  rw [Finset.sum_congr rfl fun m _ => e m, Finset.sum_sub_distrib, ← Finset.mul_sum, hsum,
    h.localEnergyMean]
  have := h.nValid_ne
  field_simp
  ring

theorem omegaDiff_mask (h : IterFacts ia en es rng p tries count s t) (r : Fin S) (m : Fin M) :
    t.omegaDiff r m * t.masks m = t.omegaDiff r m := by
  rw [h.omegaDiff, mul_assoc, h.mask_mul]

/-- The field errors of a compartment add up to the incompressibility times its coefficient. -/
theorem sum_omegaDiff (h : IterFacts ia en es rng p tries count s t) (m : Fin M)
    (hS : S ≠ 0) : ∑ r, t.omegaDiff r m =
      ia.incompCoef t.phisFeat * t.incomp m * t.masks m := by
  have hS' : (S : K) ≠ 0 := by exact_mod_cast hS
  rw [Finset.sum_congr rfl fun r _ => h.omegaDiff r m, ← Finset.sum_mul]
  simp only [Finset.sum_sub_distrib, Finset.sum_add_distrib, Finset.sum_const, Finset.card_univ,
    Fintype.card_fin, nsmul_eq_mul]
  rw [h.xi m]
  simp only [Finset.sum_sub_distrib]
  rcases h.mask_cases m with e | e
  · rw [e]; field_simp; ring
  · rw [e]; simp

theorem omegaDiff_le (h : IterFacts ia en es rng p tries count s t) (r : Fin S) (m : Fin M) :
    t.omegaDiff r m ≤ t.maxAbsOmegaDiff := by
  rw [h.maxAbsOmegaDiff]; exact (rowsMax_spec _).2.1 r m

theorem maxAbsOmegaDiff_nonneg (h : IterFacts ia en es rng p tries count s t) :
    0 ≤ t.maxAbsOmegaDiff := by
  rw [h.maxAbsOmegaDiff]; exact (rowsMax_spec _).1

theorem incomp_le (h : IterFacts ia en es rng p tries count s t) (m : Fin M) :
    |t.incomp m| ≤ t.maxAbsIncomp := by
  rw [h.maxAbsIncomp]; exact le_npMax (fun m => |t.incomp m|) m

theorem JsDiff_le (h : IterFacts ia en es rng p tries count s t) (m : Fin M) :
    |t.JsDiff m| ≤ t.maxAbsJsDiff := by
  rw [h.maxAbsJsDiff]; exact le_npMax (fun m => |t.JsDiff m|) m

/-- Lower bound for the field errors. -/
theorem neg_omegaDiff_le (h : IterFacts ia en es rng p tries count s t) (r : Fin S) (m : Fin M) :
    -t.omegaDiff r m ≤ ((S : K) - 1) * t.maxAbsOmegaDiff +
      |ia.incompCoef t.phisFeat| * t.maxAbsIncomp := by
  have hS : S ≠ 0 := by rintro rfl; exact r.elim0
  have h1 := h.sum_omegaDiff m hS
  have h2 : ∑ q, t.omegaDiff q m ≤ t.omegaDiff r m + ((S : K) - 1) * t.maxAbsOmegaDiff := by
    rw [← Finset.add_sum_erase _ _ (Finset.mem_univ r)]
    have : ∑ q ∈ Finset.univ.erase r, t.omegaDiff q m ≤
        ∑ q ∈ (Finset.univ : Finset (Fin S)).erase r, t.maxAbsOmegaDiff :=
      Finset.sum_le_sum fun q _ => h.omegaDiff_le q m
    refine add_le_add le_rfl (this.trans (le_of_eq ?_))
    rw [Finset.sum_const, Finset.card_erase_of_mem (Finset.mem_univ r), Finset.card_univ,
      Fintype.card_fin, nsmul_eq_mul, Nat.cast_sub (Nat.pos_of_ne_zero hS)]
    simp
  have h3 : |ia.incompCoef t.phisFeat * t.incomp m * t.masks m| ≤
      |ia.incompCoef t.phisFeat| * t.maxAbsIncomp := by
    rw [abs_mul, abs_mul, abs_of_nonneg (h.mask_le m).1, mul_assoc]
    refine mul_le_mul_of_nonneg_left ?_ (abs_nonneg _)
    refine le_trans ?_ (h.incomp_le m)
    exact mul_le_of_le_one_right (abs_nonneg _) (h.mask_le m).2
  have h4 := neg_abs_le (ia.incompCoef t.phisFeat * t.incomp m * t.masks m)
  rw [h1] at h2
  linarith

theorem abs_omegaDiff_le (h : IterFacts ia en es rng p tries count s t) (r : Fin S) (m : Fin M) :
    |t.omegaDiff r m| ≤ max 1 ((S : K) - 1) * t.maxAbsOmegaDiff +
      |ia.incompCoef t.phisFeat| * t.maxAbsIncomp := by
  have h0 := h.maxAbsOmegaDiff_nonneg
  have hi : 0 ≤ |ia.incompCoef t.phisFeat| * t.maxAbsIncomp :=
    mul_nonneg (abs_nonneg _) ((abs_nonneg _).trans (h.incomp_le m))
  rw [abs_le]
  constructor
  · have := h.neg_omegaDiff_le r m
    have := mul_le_mul_of_nonneg_right (le_max_right 1 ((S : K) - 1)) h0
    linarith
  · have := h.omegaDiff_le r m
    have := mul_le_mul_of_nonneg_right (le_max_left 1 ((S : K) - 1)) h0
    linarith

end IterFacts

/-- A constraint object contains at least one constraint (an empty one makes `.max()` of an empty
array raise). -/
def Cons.Proper : Cons S M K → Prop
  | .no _ => True
  | .loc A _ => A ≠ 0
  | .glob A _ => A ≠ 0

theorem Cons.prepare_proper {c : Cons S M K} (h : c.Proper) (pf : Mat S M K) (J mk : Vec M K) :
    (c.prepare pf J mk).Proper := by
  cases c <;> exact h

theorem Cons.evolve_ok {c : Cons S M K} (h : c.Proper) (step : K) (mk : Vec M K) :
    ∃ r c', c.evolve step mk = .ok (r, c') ∧ c'.Proper := by
  cases c with
  | no c => exact ⟨_, _, rfl, trivial⟩
  | loc A c =>
    have : NeZero A := ⟨h⟩
    obtain ⟨x, hx⟩ : ∃ x, c.evolve step mk = .ok x := by
      simp only [LocalC.evolve, npMaxPy_ok, bind_ok, pure_eq_ok]; exact ⟨_, rfl⟩
    simp only [Cons.evolve, hx]
    exact ⟨_, .loc A x.2, rfl, h⟩
  | glob A c =>
    have : NeZero A := ⟨h⟩
    obtain ⟨x, hx⟩ : ∃ x, c.evolve step mk = .ok x := by
      simp only [GlobalC.evolve, npMaxPy_ok, bind_ok, pure_eq_ok]; exact ⟨_, rfl⟩
    simp only [Cons.evolve, hx]
    exact ⟨_, .glob A x.2, rfl, h⟩

theorem evolveCons_ok (step : K) (mk : Vec M K) {cs : List (Cons S M K)}
    (h : ∀ c ∈ cs, c.Proper) (acc : K) :
    ∃ r cs', evolveCons step mk cs acc = .ok (r, cs') ∧ ∀ c ∈ cs', c.Proper := by
  induction cs generalizing acc with
  | nil => exact ⟨_, _, rfl, by simp⟩
  | cons c cs ih =>
    obtain ⟨r, c', h1, h2⟩ := Cons.evolve_ok (h c (by simp)) step mk
    obtain ⟨r', cs', h3, h4⟩ := ih (fun c hc => h c (by simp [hc])) (max acc r)
    refine ⟨r', c' :: cs', ?_, ?_⟩
    · simp only [evolveCons, h1, bind_ok, h3, pure_eq_ok]
    · intro x hx
      rcases List.mem_cons.mp hx with rfl | hx
      · exact h2
      · exact h4 x hx

end Facts

end Flory
