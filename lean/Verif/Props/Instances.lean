import Verif.Props.Demo

/-!
# C22, C23, C24, C26: entropies and ensembles seen by the iteration
-/

set_option linter.unusedSectionVars false

namespace Flory

open Spec

variable {C S M : ℕ}

/-- An ordinary ideal gas is an ideal gas in which every component is its own feature. -/
theorem C22_plain_ideal_gas (e : IdealC C) : IsIdealGas (e.toI M) e.sizes id := e.isIdealGas

/-- **C22** (for at least one component per feature). Polydisperse bookkeeping: whatever the
assignment `feat` of components to features by consecutive blocks, Boltzmann factors and partition
functions are those an ordinary ideal gas has in the fields of the features, feature fractions are
sums over the components of the feature, the total fraction in each compartment is preserved, and
the volume derivative is the ordinary one.  Missing: blocks of size zero, see
`C22_empty_block_wrong`. -/
theorem C22_polydisperse_partial (e : PolyC C S) (hC : C = ∑ r, e.perFeat r)
    (hpos : ∀ r, 1 ≤ e.perFeat r) {feat : Fin C → Fin S} (hf : IsFeat e.perFeat feat)
    (oldC : Mat C M ℝ) (oldF : Mat S M ℝ) (om : Mat S M ℝ) (J : Vec M ℝ) (hJ : ∑ m, J m ≠ 0) :
    e.partition oldC om J = (IdealC.mk e.sizes).partition oldC (fun i => om (feat i)) J ∧
    ∃ ph Qs pf, e.partition oldC om J = .ok (ph, Qs) ∧ e.compToFeat oldF ph = .ok pf ∧
      (∀ i m, ph i m = Real.exp (-om (feat i) m * e.sizes i)) ∧
      (∀ i, Qs i = (∑ m, Real.exp (-om (feat i) m * e.sizes i) * J m) / ∑ m, J m) ∧
      (∀ r m, pf r m = ∑ i with feat i = r, ph i m) ∧
      (∀ m, ∑ r, pf r m = ∑ i, ph i m) ∧
      (∀ m, e.volumeDerivative ph m = -∑ i, ph i m / e.sizes i) := by
  have h1 := PolyC.partition_eq e hC hf oldC om hJ
  refine ⟨?_, _, _, _, h1, PolyC.compToFeat_eq e hC hf hpos oldF _, fun _ _ => rfl, fun _ => rfl,
    fun r m => ?_, fun m => ?_, fun m => PolyC.volumeDerivative_eq e _ m⟩
  · obtain ⟨x, hx⟩ := ((IdealC.mk e.sizes).isIdealGas (M := M)).partition_ok oldC
      (fun i => om (feat i)) hJ
    have := (((IdealC.mk e.sizes).isIdealGas (M := M)).partition_inv hx).2
    rw [h1]
    refine Eq.trans ?_ hx.symm
    rw [this]; rfl
  · rw [Finset.sum_filter]
  · rw [Finset.sum_comm]; simp

example : (3 : ℕ) = ∑ r, Demo.poly.perFeat r ∧ (∀ r, 1 ≤ Demo.poly.perFeat r) ∧
    IsFeat Demo.poly.perFeat (![0, 0, 1] : Fin 3 → Fin 2) ∧
    ∑ m, (![1, 2] : Vec 2 ℝ) m ≠ 0 := by
  refine ⟨by decide, by decide, ?_, by simp; norm_num⟩
  intro i
  fin_cases i <;> decide

/-- A compiled polydisperse entropy with at least one component per feature behaves as an ideal gas
(so all statements about runs apply to it). -/
theorem C22_polydisperse_is_ideal_gas_partial (e : PolyC C S) (hC : C = ∑ r, e.perFeat r)
    (hpos : ∀ r, 1 ≤ e.perFeat r) {feat : Fin C → Fin S} (hf : IsFeat e.perFeat feat) :
    IsIdealGas (e.toI M) e.sizes feat := e.isIdealGas hC hf hpos

/-- **C22 fails** when a feature has no component: such a feature should have fraction zero, but
`comp_to_feat` gives it the fractions of the first component of the next feature and runs past the
end of the array. -/
theorem C22_empty_block_wrong : ∃ e : PolyC 1 2, (1 : ℕ) = ∑ r, e.perFeat r ∧
    e.compToFeat (M := 1) (fun _ _ => 0) (fun _ _ => 1) = .error .outOfBounds := by
  refine ⟨⟨fun _ => 1, ![0, 1]⟩, by decide, ?_⟩
  unfold PolyC.compToFeat
  simp [forRangeM_succ, forRangeM_zero, readAt]

/-- **C22 fails** exactly when a feature has no component: `comp_to_feat` takes at least one component
for every feature, so it then runs past the end of its array. -/
theorem C22_empty_blocks (e : PolyC C S) (hC : C = ∑ r, e.perFeat r) (pf : Mat S M ℝ) (ph : Mat C M ℝ) :
    e.compToFeat pf ph = .error .outOfBounds ↔ ∃ r, e.perFeat r = 0 := by
  constructor
  · intro h
    by_contra hn
    push Not at hn
    obtain ⟨feat, hf⟩ : ∃ feat : Fin C → Fin S, IsFeat e.perFeat feat := exists_isFeat _ hC
    rw [PolyC.compToFeat_eq e hC hf (fun r => Nat.one_le_iff_ne_zero.mpr (hn r))] at h
    cases h
  · rintro ⟨r, hr⟩
    cases h : e.compToFeat pf ph with
    | error x => rw [e.compToFeat_error pf ph h]
    | ok x =>
      have h1 := e.compToFeat_used pf ph h
      have h2 : ∑ r, e.perFeat r < ∑ r, max 1 (e.perFeat r) :=
        Finset.sum_lt_sum (fun s _ => le_max_right _ _) ⟨r, Finset.mem_univ _, by simp [hr]⟩
      omega
theorem isFeat_ones : IsFeat (fun _ : Fin C => 1) (id : Fin C → Fin C) := by
  intro i
  have : offset (fun _ : Fin C => 1) i = i := by
    have h : ∀ k, k ≤ C → offset (fun _ : Fin C => 1) k = k := by
      intro k
      induction k with
      | zero => intro _; exact offset_zero _
      | succ k ih =>
        intro hk
        rw [offset_succ _ ⟨k, hk⟩, ih (by omega)]
    exact h i i.2.le
  simp [this]

/-- **C23**. With one component per feature the polydisperse entropy computes exactly what the plain
ideal gas computes: fractions, partition functions, feature fractions, volume derivatives. -/
theorem C23_one_component_per_feature (sizes : Vec C ℝ) (oldC : Mat C M ℝ)
    (oldF : Mat C M ℝ) (om : Mat C M ℝ) (J : Vec M ℝ) (hJ : ∑ m, J m ≠ 0) (ph : Mat C M ℝ) :
    (PolyC.mk sizes (fun _ : Fin C => 1)).partition oldC om J =
      (IdealC.mk sizes).partition oldC om J ∧
    (PolyC.mk sizes (fun _ : Fin C => 1)).compToFeat oldF ph =
      (IdealC.mk sizes).compToFeat oldF ph ∧
    (PolyC.mk sizes (fun _ : Fin C => 1)).volumeDerivative ph =
      (IdealC.mk sizes).volumeDerivative ph := by
  have hC : C = ∑ r : Fin C, (PolyC.mk sizes (fun _ : Fin C => 1)).perFeat r := by simp
  have h := C22_polydisperse_partial (PolyC.mk sizes (fun _ : Fin C => 1)) hC
    (fun _ => le_rfl) isFeat_ones oldC oldF om J hJ
  refine ⟨h.1, ?_, funext fun m => ?_⟩
  · rw [PolyC.compToFeat_eq _ hC isFeat_ones (fun _ => le_rfl)]
    exact (((IdealC.mk sizes).isIdealGas (M := M)).compToFeat oldF ph).symm
  · rw [PolyC.volumeDerivative_eq]
    exact (((IdealC.mk sizes).isIdealGas (M := M)).volumeDerivative ph m).symm

example : ∑ m, (![1, 1] : Vec 2 ℝ) m ≠ 0 := by simp

section Ensembles

variable {K : Type} [Field K] [LinearOrder K]

/-- **C26** for the canonical ensemble: the returned
incompressibility is the sum of the (new) fractions minus one in living compartments and zero in
dead ones, where all fractions are zero; it raises `ZeroDivisionError` exactly if a partition
function vanishes. -/
theorem C26_incompressibility_canonical (e : CanonicalC C K) (ph : Mat C M K) (Qs : Vec C K)
    (masks : Vec M K) :
    ((∃ x, e.normalize ph Qs masks = .ok x) ↔ ∀ i, Qs i ≠ 0) ∧
    ∀ ph' incomp, e.normalize ph Qs masks = .ok (ph', incomp) →
      (∀ m, masks m = 1 → incomp m = ∑ i, ph' i m - 1) ∧
      (∀ m, masks m = 0 → incomp m = 0 ∧ ∀ i, ph' i m = 0) ∧
      (∀ i m, masks m = 1 → ph' i m = e.phiMeans i / Qs i * ph i m) := by
  refine ⟨⟨fun ⟨x, hx⟩ => (CanonicalC.normalize_inv hx).1, e.normalize_ok ph masks⟩, ?_⟩
  intro ph' incomp h
  have := (CanonicalC.normalize_inv h).2
  obtain ⟨h1, h2⟩ := Prod.mk.inj this
  subst h1 h2
  exact ⟨fun m h => by simp [h], fun m h => by simp [h], fun i m h => by simp [h]⟩

example : ∃ x, (CanonicalC.mk (![1 / 2, 1 / 2] : Vec 2 ℚ)).normalize (fun _ _ => 1) ![2, 3]
    (![0, 1] : Vec 2 ℚ) = .ok x :=
  (C26_incompressibility_canonical _ _ _ _).1.2 (by intro i; fin_cases i <;> simp)

/-- **C26** for the grand canonical ensemble; it never raises. -/
theorem C26_incompressibility_grand (e : GrandC C K) (ph : Mat C M K) (Qs : Vec C K)
    (masks : Vec M K) :
    ∃ ph' incomp, e.normalize ph Qs masks = .ok (ph', incomp) ∧
      (∀ m, masks m = 1 → incomp m = ∑ i, ph' i m - 1) ∧
      (∀ m, masks m = 0 → incomp m = 0 ∧ ∀ i, ph' i m = 0) ∧
      (∀ i m, masks m = 1 → ph' i m = e.scaledActivity i * ph i m) := by
  refine ⟨_, _, e.normalize_eq ph Qs masks, fun m h => by simp [h], fun m h => by simp [h],
    fun i m h => by simp [h]⟩

end Ensembles

variable {G : Type} [NeZero M]
variable {ia : InteractionI S M ℝ} {en : EntropyI C S M ℝ} {es : EnsembleI C M ℝ}
  {rng : Rng G ℝ} {p : Params ℝ} {tries : ℤ} {count : ℕ} {s : State C S M ℝ G}
  {t : Trace C S M ℝ G} {sizes : Vec C ℝ} {feat : Fin C → Fin S} {a : Vec C ℝ → Vec C ℝ}

/-- **C26** in the iteration: the reported `max_abs_incomp` is the largest deviation of the row sums
from one among the living compartments (zero counts for the dead ones). -/
theorem C26_reported_incompressibility (hes : Scales es a)
    (h : iterate ia en es rng p tries count s = .ok t) :
    IsGreatest (Set.range fun m => if t.masks m = 1 then |∑ i, t.phisComp i m - 1| else 0)
      t.maxAbsIncomp := by
  have hf := iterate_facts h
  have e : ∀ m, (if t.masks m = 1 then |∑ i, t.phisComp i m - 1| else 0) = |t.incomp m| := by
    intro m
    rw [hf.incomp_eq hes]
    rcases hf.mask_cases m with e | e <;> simp [e]
  simp only [e]
  rw [hf.maxAbsIncomp]
  obtain ⟨m, hm⟩ := npMax_mem fun m => |t.incomp m|
  exact ⟨⟨m, hm.symm⟩, by rintro _ ⟨m, rfl⟩; exact le_npMax (fun m => |t.incomp m|) m⟩

example : ∃ t, iterate (Demo.fh.toI 3) (Demo.gas.toI 3) (Demo.grand.toI 3) (rngZero ℝ) Demo.params
    5 0 (Demo.state Demo.allCons) = .ok t := Demo.iterate_grand 5 _ Demo.allCons_proper

/-- **C24**. In every pass of a canonical run, whatever the fields and volumes, the volume-weighted
mean of the new fractions is exactly `phi_means`; `JsOld` are the volumes of the pass, which vanish
(like the fractions) in dead compartments. -/
theorem C24_canonical_mean (e : CanonicalC C ℝ) (hen : IsIdealGas en sizes feat)
    (h : iterate ia en (e.toI M) rng p tries count s = .ok t) (i : Fin C) :
    (∑ m, t.phisComp i m * t.JsOld m) / ∑ m, t.JsOld m = e.phiMeans i ∧
    (∑ m with t.masks m = 1, t.phisComp i m * t.JsOld m) /
      (∑ m with t.masks m = 1, t.JsOld m) = e.phiMeans i := by
  have hf := iterate_facts h
  have hJ := hf.sum_JsOld_ne hen (by rintro rfl; exact i.elim0)
  obtain ⟨phi0, -, h2⟩ := hf.partition
  have hQ := (CanonicalC.normalize_inv h2).1 i
  have e1 : ∀ m, t.phisComp i m * t.JsOld m = e.phiMeans i / t.Qs i *
      (Real.exp (-t.omegasOld (feat i) m * sizes i) * t.JsOld m) := by
    intro m
    rw [hf.phis_eq hen e.scales, mul_assoc, mul_comm (t.masks m), hf.JsOld_mask, mul_assoc]
  have hq := hf.Qs_eq hen i
  have main : (∑ m, t.phisComp i m * t.JsOld m) / ∑ m, t.JsOld m = e.phiMeans i := by
    rw [Finset.sum_congr rfl fun m _ => e1 m, ← Finset.mul_sum, mul_div_assoc, ← hq]
    field_simp
  refine ⟨main, ?_⟩
  rw [Finset.sum_filter, Finset.sum_filter]
  refine Eq.trans ?_ main
  congr 1
  · refine Finset.sum_congr rfl fun m _ => ?_
    rcases hf.mask_cases m with e | e
    · simp [e]
    · simp [e, hf.JsOld_dead e]
  · refine Finset.sum_congr rfl fun m _ => ?_
    rcases hf.mask_cases m with e | e
    · simp [e]
    · simp [e, hf.JsOld_dead e]

example : ∃ t, iterate (Demo.fh.toI 3) (Demo.gas.toI 3) (Demo.canonical.toI 3) (rngZero ℝ) Demo.params
    5 0 (Demo.state Demo.allCons) = .ok t := Demo.iterate_canonical 5 _ Demo.allCons_proper

end Flory
