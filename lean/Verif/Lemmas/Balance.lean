import Verif.Lemmas.Run
import Verif.Lemmas.Constraint
import Verif.Model.Interaction
import Verif.Spec.FreeEnergy
import Verif.Spec.Constraint

/-! # The chemical potentials of an iterate in terms of the reported errors -/

set_option linter.unusedSectionVars false

namespace Flory

open Spec

section Cons

variable {K G : Type} [Field K] [LinearOrder K] [IsStrictOrderedRing K] {C S M : ℕ} [NeZero M]
variable {ia : InteractionI S M K} {en : EntropyI C S M K} {es : EnsembleI C M K}
  {rng : Rng G K} {p : Params K} {tries : ℤ} {count : ℕ} {s : State C S M K G}
  {t : Trace C S M K G}

theorem evolveCons_inv (P : Cons S M K → Prop)
    (hev : ∀ c step mk res c', P c → c.evolve step mk = .ok (res, c') → P c')
    {cs cs' : List (Cons S M K)} {step acc res : K} {mk : Vec M K}
    (h : evolveCons step mk cs acc = .ok (res, cs')) (hcs : ∀ c ∈ cs, P c) : ∀ c ∈ cs', P c := by
  induction cs generalizing acc cs' res with
  | nil =>
    obtain ⟨-, rfl⟩ := Prod.mk.inj (Except.ok.inj h)
    simp
  | cons k ks ih =>
    simp only [evolveCons] at h
    obtain ⟨⟨r1, k1⟩, h1, h2⟩ := bind_eq_ok.mp h
    obtain ⟨⟨r2, ks2⟩, h3, h4⟩ := bind_eq_ok.mp h2
    obtain ⟨-, rfl⟩ := Prod.mk.inj (Except.ok.inj h4)
    intro c hc
    rcases List.mem_cons.mp hc with rfl | hc
    · exact hev _ _ _ _ _ (hcs k (by simp)) h1
    · exact ih h3 (fun c hc => hcs c (by simp [hc])) c hc

/-- Properties of the constraint objects that `prepare` and `evolve` keep. -/
theorem IterFacts.cons_inv (h : IterFacts ia en es rng p tries count s t) (P : Cons S M K → Prop)
    (hprep : ∀ c pf J mk, P c → P (Cons.prepare pf J mk c))
    (hev : ∀ c step mk res c', P c → c.evolve step mk = .ok (res, c') → P c')
    (hs : ∀ c ∈ s.cons, P c) : (∀ c ∈ t.consPrep, P c) ∧ ∀ c ∈ t.cons, P c := by
  have h1 : ∀ c ∈ t.consPrep, P c := by
    rw [h.consPrep]
    intro c hc
    obtain ⟨c', hc', rfl⟩ := List.mem_map.mp hc
    exact hprep _ _ _ _ (hs c' hc')
  exact ⟨h1, evolveCons_inv P hev h.cons h1⟩

variable {e : RunEnv C S M K G}

theorem Spec.Passes.cons_inv {b : ℤ} {n : ℕ} (h : Passes e b n count s t) (P : Cons S M K → Prop)
    (hprep : ∀ c pf J mk, P c → P (Cons.prepare pf J mk c))
    (hev : ∀ c step mk res c', P c → c.evolve step mk = .ok (res, c') → P c')
    (hs : ∀ c ∈ s.cons, P c) : (∀ c ∈ t.consPrep, P c) ∧ ∀ c ∈ t.cons, P c :=
  h.inv (fun t => (∀ c ∈ t.consPrep, P c) ∧ ∀ c ∈ t.cons, P c)
    (fun _ ht => (iterate_facts ht).cons_inv P hprep hev hs)
    (fun _ _ hP ht => (iterate_facts ht).cons_inv P hprep hev hP.2)

theorem Spec.Chain.cons_inv {b b' : ℤ} {inner : ℕ} {ts : List (Trace C S M K G)}
    {s s' : State C S M K G} (h : Chain e inner ts s b s' b') (P : Cons S M K → Prop)
    (hprep : ∀ c pf J mk, P c → P (Cons.prepare pf J mk c))
    (hev : ∀ c step mk res c', P c → c.evolve step mk = .ok (res, c') → P c')
    (hs : ∀ c ∈ s.cons, P c) : ∀ c ∈ s'.cons, P c :=
  h.inv (fun s _ => ∀ c ∈ s.cons, P c) hs fun _ _ _ h1 h2 => (h2.cons_inv P hprep hev h1).2

/-- A constraint list without constraints: only (initialized) `NoConstraint` instances. -/
def Cons.Trivial : Cons S M K → Prop
  | .no c => (∀ r m, c.potential r m = 0) ∧ ∀ m, c.volumeDerivative m = 0
  | .loc _ _ => False
  | .glob _ _ => False

/-- Not a local constraint. -/
def Cons.NotLocal : Cons S M K → Prop
  | .no c => (∀ r m, c.potential r m = 0) ∧ ∀ m, c.volumeDerivative m = 0
  | .loc _ _ => False
  | .glob _ _ => True

theorem Cons.Trivial.notLocal {c : Cons S M K} (h : c.Trivial) : c.NotLocal := by
  cases c <;> simp_all [Cons.Trivial, Cons.NotLocal]

theorem Cons.Trivial.prepare {c : Cons S M K} (pf J mk) (h : c.Trivial) :
    (Cons.prepare pf J mk c).Trivial := by
  cases c <;> simp_all [Cons.Trivial, Cons.prepare, NoC.prepare]

theorem Cons.NotLocal.prepare {c : Cons S M K} (pf J mk) (h : c.NotLocal) :
    (Cons.prepare pf J mk c).NotLocal := by
  cases c <;> simp_all [Cons.NotLocal, Cons.prepare, NoC.prepare]

theorem Cons.evolve_no {c : NoC S M K} {step res : K} {mk : Vec M K} {c' : Cons S M K}
    (h : (Cons.no c).evolve step mk = .ok (res, c')) : c' = .no c := by
  simp only [Cons.evolve, NoC.evolve, bind_ok, pure_eq_ok] at h
  exact (Prod.mk.inj (Except.ok.inj h)).2.symm

theorem Cons.Trivial.evolve {c c' : Cons S M K} {step res : K} {mk : Vec M K} (h : c.Trivial)
    (he : c.evolve step mk = .ok (res, c')) : c'.Trivial := by
  cases c with
  | no c => rw [Cons.evolve_no he]; exact h
  | loc A c => exact h.elim
  | glob A c => exact h.elim

theorem Cons.NotLocal.evolve {c c' : Cons S M K} {step res : K} {mk : Vec M K} (h : c.NotLocal)
    (he : c.evolve step mk = .ok (res, c')) : c'.NotLocal := by
  cases c with
  | no c => rw [Cons.evolve_no he]; exact h
  | loc A c => exact h.elim
  | glob A c =>
    simp only [Cons.evolve] at he
    obtain ⟨⟨r, c1⟩, h1, h2⟩ := bind_eq_ok.mp he
    obtain ⟨-, rfl⟩ := Prod.mk.inj (Except.ok.inj h2)
    trivial

end Cons

section Physics

variable {G : Type} {C S M : ℕ} [NeZero M]
variable {ia : FHCompiled S ℝ} {en : EntropyI C S M ℝ} {es : EnsembleI C M ℝ}
  {rng : Rng G ℝ} {p : Params ℝ} {tries : ℤ} {count : ℕ} {s : State C S M ℝ G}
  {t : Trace C S M ℝ G} {sizes : Vec C ℝ} {feat : Fin C → Fin S} {a : Vec C ℝ → Vec C ℝ}

/-- The interaction between components that belong to features. -/
def liftChis (chis : Mat S S ℝ) (feat : Fin C → Fin S) : Mat C C ℝ :=
  fun i j => chis (feat i) (feat j)

/-- What constraints add to the chemical potential. -/
noncomputable def consShift (t : Trace C S M ℝ G) (r : Fin S) (m : Fin M) : ℝ :=
  (∑ q, consPot t.consPrep q m * t.phisFeat q m) - consVd t.consPrep m - consPot t.consPrep r m

namespace IterFacts

theorem potential_feat (h : IterFacts (ia.toI M) en es rng p tries count s t)
    (hen : IsIdealGas en sizes feat) (r : Fin S) (m : Fin M) :
    t.potential r m = ∑ j, ia.chis r (feat j) * t.phisComp j m := by
  rw [h.potential]
  exact h.sum_mul_phisFeat hen (fun s => ia.chis r s) m

theorem localEnergy_eq (h : IterFacts (ia.toI M) en es rng p tries count s t)
    (hen : IsIdealGas en sizes feat) (hes : Scales es a) {m : Fin M} (hm : t.masks m = 1) :
    t.localEnergy m = -(1 / 2 * ∑ i, ∑ j, liftChis ia.chis feat i j * t.phisComp i m *
      t.phisComp j m) - ∑ i, t.phisComp i m / sizes i - t.xi m + consVd t.consPrep m
      - ∑ r, consPot t.consPrep r m * t.phisFeat r m := by
  have hW : ∑ r, t.potential r m * t.phisFeat r m =
      ∑ i, ∑ j, liftChis ia.chis feat i j * t.phisComp i m * t.phisComp j m := by
    rw [h.sum_mul_phisFeat hen (fun r => t.potential r m) m]
    refine Finset.sum_congr rfl fun i _ => ?_
    rw [h.potential_feat hen, Finset.sum_mul]
    exact Finset.sum_congr rfl fun j _ => by unfold liftChis; ring
  rw [h.localEnergy, hen.volumeDerivative, h.incomp_eq hes, hm, ← h.sum_phisFeat hen]
  have hvd : (ia.toI M).volumeDerivative t.potential t.phisFeat m =
      (∑ r, t.potential r m * t.phisFeat r m) * (1 / 2) := by
    show (forRange S (fun _ => 0) fun r (ans : Vec M ℝ) m =>
      ans m + t.potential r m * t.phisFeat r m) m * (1 / 2) = _
    rw [forRange_add_vec (fun _ => 0) (fun r m => t.potential r m * t.phisFeat r m), zero_add]
  rw [hvd, ← hW]
  simp only [add_mul, Finset.sum_add_distrib, ← Finset.mul_sum]
  ring

/-- The chemical potential of a component in a living compartment: constant + field error + local
energy + constraint forces. -/
theorem chemPot_identity (h : IterFacts (ia.toI M) en es rng p tries count s t)
    (hen : IsIdealGas en sizes feat) (hes : Scales es a) {m : Fin M} (hm : t.masks m = 1)
    {i : Fin C} (hl : sizes i ≠ 0) (ha : 0 < a t.Qs i) :
    chemPot (liftChis ia.chis feat) sizes (fun j => t.phisComp j m) i =
      (Real.log (a t.Qs i) + 1) / sizes i + t.omegaDiff (feat i) m + t.localEnergy m
        + consShift t (feat i) m := by
  have hlog : Real.log (t.phisComp i m) =
      Real.log (a t.Qs i) - t.omegasOld (feat i) m * sizes i := by
    rw [h.phis_eq hen hes, hm, mul_one, Real.log_mul ha.ne' (Real.exp_pos _).ne', Real.log_exp]
    ring
  have hpot : ∑ j, liftChis ia.chis feat i j * t.phisComp j m = t.potential (feat i) m := by
    rw [h.potential_feat hen]
    rfl
  unfold chemPot consShift
  rw [hpot, hlog, h.localEnergy_eq hen hes hm, h.omegaDiff, hm]
  field_simp
  ring

/-- In compartments with positive volume the fractions are positive. -/
theorem Qs_pos (h : IterFacts (ia.toI M) en es rng p tries count s t)
    (hen : IsIdealGas en sizes feat) (hthr : 0 ≤ p.killThreshold) (i : Fin C) : 0 < t.Qs i := by
  rw [h.Qs_eq hen]
  obtain ⟨m, hm⟩ : ∃ m, t.masks m = 1 := by
    by_contra hc
    push Not at hc
    refine h.nValid_ne ?_
    rw [h.nValid]
    exact Finset.sum_eq_zero fun m _ => (h.mask_cases m).resolve_left (hc m)
  exact Q_pos (h.JsOld_nonneg hthr) (lt_of_le_of_lt hthr (h.JsOld_gt hm)) fun m => Real.exp_pos _

theorem local_diff (h : IterFacts (ia.toI M) en es rng p tries count s t) {m n : Fin M}
    (hm : t.masks m = 1) (hn : t.masks n = 1) :
    |t.localEnergy m - t.localEnergy n| ≤ 2 * t.maxAbsJsDiff := by
  have h1 := h.JsDiff m
  have h2 := h.JsDiff n
  rw [hm, mul_one] at h1
  rw [hn, mul_one] at h2
  have e : t.localEnergy m - t.localEnergy n = t.JsDiff n - t.JsDiff m := by rw [h1, h2]; ring
  rw [e]
  have := abs_sub (t.JsDiff n) (t.JsDiff m)
  have := h.JsDiff_le m
  have := h.JsDiff_le n
  linarith

theorem omega_diff (h : IterFacts (ia.toI M) en es rng p tries count s t) (r q : Fin S) (m n : Fin M) :
    |t.omegaDiff r m - t.omegaDiff q n| ≤ S * t.maxAbsOmegaDiff + |ia.coef| * t.maxAbsIncomp := by
  have h1 := h.omegaDiff_le r m
  have h2 := h.omegaDiff_le q n
  have h3 := h.neg_omegaDiff_le r m
  have h4 := h.neg_omegaDiff_le q n
  have hc : (ia.toI M).incompCoef t.phisFeat = ia.coef := rfl
  rw [hc] at h3 h4
  rw [abs_le]
  constructor <;> nlinarith

end IterFacts

/-- The shift caused by a prepared global constraint is the same in all living compartments. -/
theorem Cons.shift_const {c : Cons S M ℝ} (hc : c.NotLocal) (pf : Mat S M ℝ) (J mk : Vec M ℝ)
    {m n : Fin M} (hm : mk m = 1) (hn : mk n = 1) (r : Fin S) :
    ((∑ q, (Cons.prepare pf J mk c).potential q m * pf q m)
      - (Cons.prepare pf J mk c).volumeDerivative m - (Cons.prepare pf J mk c).potential r m) =
    ((∑ q, (Cons.prepare pf J mk c).potential q n * pf q n)
      - (Cons.prepare pf J mk c).volumeDerivative n - (Cons.prepare pf J mk c).potential r n) := by
  cases c with
  | no c =>
    obtain ⟨h1, h2⟩ := hc
    simp only [Cons.prepare, NoC.prepare, Cons.potential, Cons.volumeDerivative, h1, h2]
    simp
  | loc A c => exact hc.elim
  | glob A c =>
    have key : ∀ k, mk k = 1 → (∑ q, (c.prepare pf J mk).potential q k * pf q k)
        - (c.prepare pf J mk).volumeDerivative k = ∑ a, (c.multiplier a + 2 * c.elasticity *
          ∑ m, ((∑ r, c.Cs a r * pf r m) - c.Ts a) * J m) * c.Ts a := by
      intro k hk
      simp only [GlobalC.prepare_potential, GlobalC.prepare_volumeDerivative, hk, mul_one]
      simp only [Finset.sum_mul]
      rw [Finset.sum_comm, ← Finset.sum_sub_distrib]
      refine Finset.sum_congr rfl fun a _ => ?_
      generalize ∑ m, ((∑ r, c.Cs a r * pf r m) - c.Ts a) * J m = W
      have : ∑ q, c.Cs a q * (c.multiplier a + 2 * c.elasticity * W) * pf q k =
          (∑ q, c.Cs a q * pf q k) * (c.multiplier a + 2 * c.elasticity * W) := by
        rw [Finset.sum_mul]
        exact Finset.sum_congr rfl fun q _ => by ring
      rw [this]
      ring
    show (∑ q, (c.prepare pf J mk).potential q m * pf q m) - (c.prepare pf J mk).volumeDerivative m
        - (c.prepare pf J mk).potential r m = (∑ q, (c.prepare pf J mk).potential q n * pf q n)
        - (c.prepare pf J mk).volumeDerivative n - (c.prepare pf J mk).potential r n
    rw [key m hm, key n hn, GlobalC.prepare_potential, GlobalC.prepare_potential, hm, hn]

theorem consShift_eq_sum (t : Trace C S M ℝ G) (r : Fin S) (m : Fin M) :
    consShift t r m = (t.consPrep.map fun c => (∑ q, c.potential q m * t.phisFeat q m)
      - c.volumeDerivative m - c.potential r m).sum := by
  unfold consShift consPot consVd
  induction t.consPrep with
  | nil => simp
  | cons c cs ih =>
    simp only [List.map_cons, List.sum_cons, add_mul, Finset.sum_add_distrib]
    rw [← ih]
    ring

theorem IterFacts.consShift_const (h : IterFacts (ia.toI M) en es rng p tries count s t)
    (hc : ∀ c ∈ s.cons, c.NotLocal) {m n : Fin M} (hm : t.masks m = 1) (hn : t.masks n = 1)
    (r : Fin S) : consShift t r m = consShift t r n := by
  rw [consShift_eq_sum, consShift_eq_sum, h.consPrep, List.map_map, List.map_map]
  congr 1
  refine List.map_congr_left fun c hcm => ?_
  exact Cons.shift_const (hc c hcm) _ _ _ hm hn r

theorem IterFacts.consShift_zero (h : IterFacts (ia.toI M) en es rng p tries count s t)
    (hc : ∀ c ∈ s.cons, c.Trivial) (m : Fin M) (r : Fin S) : consShift t r m = 0 := by
  rw [consShift_eq_sum, h.consPrep, List.map_map]
  refine List.sum_eq_zero fun x hx => ?_
  obtain ⟨c, hcm, rfl⟩ := List.mem_map.mp hx
  have := hc c hcm
  cases c with
  | no c =>
    obtain ⟨h1, h2⟩ := this
    simp [Cons.prepare, NoC.prepare, Cons.potential, Cons.volumeDerivative, h1, h2]
  | loc A c => exact this.elim
  | glob A c => exact this.elim

end Physics

end Flory
