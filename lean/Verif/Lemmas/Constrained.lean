import Verif.Spec.Constrained
import Verif.Props.Ensembles

/-! # Equilibria under constraints are fixed points -/

set_option linter.unusedSectionVars false

namespace Flory

open Spec

variable {G : Type} {C S M : ℕ} [NeZero M]

/-- What preparing a constraint that holds gives. -/
theorem Spec.HoldsFor.prepare {pf : Mat S M ℝ} {J mk : Vec M ℝ} {k : Cons S M ℝ}
    (hmk : ∀ m, mk m = 1) (h : HoldsFor pf J k) :
    HoldsFor pf J (Cons.prepare pf J mk k) ∧
    (∀ r m, (∑ q, (Cons.prepare pf J mk k).potential q m * pf q m)
      - (Cons.prepare pf J mk k).volumeDerivative m - (Cons.prepare pf J mk k).potential r m =
        -force r m k) ∧
    (Cons.prepare pf J mk k).ResidueLe 0 := by
  cases k with
  | no c =>
    refine ⟨h, fun r m => ?_, trivial⟩
    simp only [Cons.prepare, NoC.prepare, Cons.potential, Cons.volumeDerivative, h.1, h.2, force]
    simp
  | loc A c =>
    refine ⟨h, fun r m => ?_, fun a m => ?_⟩
    · show (∑ q, (c.prepare pf J mk).potential q m * pf q m) - (c.prepare pf J mk).volumeDerivative m
        - (c.prepare pf J mk).potential r m = -∑ a, c.multiplier a m * (c.Cs a r - c.Ts a)
      have h' : ∀ a m, ∑ r, c.Cs a r * pf r m = c.Ts a := h
      simp only [LocalC.prepare_potential, LocalC.prepare_volumeDerivative, hmk, mul_one]
      simp only [h', sub_self, mul_zero, add_zero, zero_mul, Finset.sum_const_zero, sub_zero]
      simp only [Finset.sum_mul]
      rw [Finset.sum_comm]
      have : ∀ a, ∑ q, c.Cs a q * c.multiplier a m * pf q m = c.multiplier a m * c.Ts a := fun a => by
        rw [← h' a m, Finset.mul_sum]
        exact Finset.sum_congr rfl fun q _ => by ring
      simp only [this]
      rw [← Finset.sum_sub_distrib, ← Finset.sum_neg_distrib]
      exact Finset.sum_congr rfl fun a _ => by ring
    · show |(c.prepare pf J mk).residue a m| ≤ 0
      rw [LocalC.prepare_residue, h a m]
      simp
  | glob A c =>
    have h' : ∀ a, ∑ m, (∑ r, c.Cs a r * pf r m - c.Ts a) * J m = 0 := h
    refine ⟨h, fun r m => ?_, fun a => ?_⟩
    · show (∑ q, (c.prepare pf J mk).potential q m * pf q m) - (c.prepare pf J mk).volumeDerivative m
        - (c.prepare pf J mk).potential r m = -∑ a, c.multiplier a * (c.Cs a r - c.Ts a)
      simp only [GlobalC.prepare_potential, GlobalC.prepare_volumeDerivative, hmk, mul_one]
      simp only [h', mul_zero, add_zero, zero_mul]
      simp only [Finset.sum_mul]
      rw [Finset.sum_comm]
      have : ∀ a, ∑ q, c.Cs a q * c.multiplier a * pf q m =
          c.multiplier a * ∑ q, c.Cs a q * pf q m := fun a => by
        rw [Finset.mul_sum]
        exact Finset.sum_congr rfl fun q _ => by ring
      simp only [this]
      rw [← Finset.sum_sub_distrib, ← Finset.sum_sub_distrib, ← Finset.sum_neg_distrib]
      exact Finset.sum_congr rfl fun a _ => by ring
    · show |(c.prepare pf J mk).residue a| ≤ 0
      rw [GlobalC.prepare_residue, h']
      simp

theorem Spec.force_prepare {pf : Mat S M ℝ} {J mk : Vec M ℝ} (k : Cons S M ℝ) (r : Fin S) (m : Fin M) :
    force r m (Cons.prepare pf J mk k) = force r m k := by
  cases k <;> rfl

/-- A prepared constraint without residue holds. -/
theorem Spec.HoldsFor.of_prepare {pf : Mat S M ℝ} {J mk : Vec M ℝ} {k : Cons S M ℝ}
    (hmk : ∀ m, mk m = 1) (hJ : ∑ m, J m ≠ 0) (hno : ∀ c, k = .no c → k.Trivial)
    (h : (Cons.prepare pf J mk k).ResidueLe 0) : HoldsFor pf J k := by
  cases k with
  | no c => exact hno c rfl
  | loc A c =>
    intro a m
    have h1 : |(c.prepare pf J mk).residue a m| ≤ 0 := h a m
    rw [LocalC.prepare_residue, hmk, mul_one] at h1
    exact sub_eq_zero.mp (abs_nonpos_iff.mp h1)
  | glob A c =>
    intro a
    have h1 : |(c.prepare pf J mk).residue a| ≤ 0 := h a
    rw [GlobalC.prepare_residue] at h1
    exact (div_eq_zero_iff.mp (abs_nonpos_iff.mp h1)).resolve_right hJ

theorem Spec.HoldsFor.evolve {pf : Mat S M ℝ} {J mk : Vec M ℝ} {k k' : Cons S M ℝ} {step res : ℝ}
    (hmk : ∀ m, mk m = 1) (h : HoldsFor pf J k) (hr : k.ResidueLe 0)
    (he : k.evolve step mk = .ok (res, k')) :
    HoldsFor pf J k' ∧ ∀ r m, force r m k' = force r m k := by
  cases k with
  | no c => rw [Cons.evolve_no he]; exact ⟨h, fun _ _ => rfl⟩
  | loc A c =>
    obtain ⟨⟨r, c'⟩, h1, h2⟩ := bind_eq_ok.mp he
    obtain ⟨rfl, rfl⟩ := Prod.mk.inj (Except.ok.inj h2)
    obtain ⟨y, h3, h4⟩ := bind_eq_ok.mp h1
    obtain ⟨rfl, rfl⟩ := Prod.mk.inj (Except.ok.inj h4)
    refine ⟨h, fun r m => ?_⟩
    have h0 : ∀ a, c.residue a m = 0 := fun a => abs_nonpos_iff.mp (hr a m)
    simp [force, h0, hmk]
  | glob A c =>
    obtain ⟨⟨r, c'⟩, h1, h2⟩ := bind_eq_ok.mp he
    obtain ⟨rfl, rfl⟩ := Prod.mk.inj (Except.ok.inj h2)
    obtain ⟨y, h3, h4⟩ := bind_eq_ok.mp h1
    obtain ⟨rfl, rfl⟩ := Prod.mk.inj (Except.ok.inj h4)
    refine ⟨h, fun r m => ?_⟩
    have h0 : ∀ a, c.residue a = 0 := fun a => abs_nonpos_iff.mp (hr a)
    simp [force, h0]

theorem evolveCons_holds {pf : Mat S M ℝ} {J mk : Vec M ℝ} {ks ks' : List (Cons S M ℝ)}
    {step acc res : ℝ} (hmk : ∀ m, mk m = 1) (h : ∀ k ∈ ks, HoldsFor pf J k ∧ k.ResidueLe 0)
    (he : evolveCons step mk ks acc = .ok (res, ks')) :
    (∀ k ∈ ks', HoldsFor pf J k) ∧ ∀ r m, totalForce ks' r m = totalForce ks r m := by
  induction ks generalizing acc ks' res with
  | nil =>
    obtain ⟨-, rfl⟩ := Prod.mk.inj (Except.ok.inj he)
    simp
  | cons k ks ih =>
    obtain ⟨⟨r, k'⟩, h1, h2⟩ := bind_eq_ok.mp he
    obtain ⟨⟨r2, ks2⟩, h3, h4⟩ := bind_eq_ok.mp h2
    obtain ⟨-, rfl⟩ := Prod.mk.inj (Except.ok.inj h4)
    obtain ⟨i1, i2⟩ := ih (fun k hk => h k (by simp [hk])) h3
    obtain ⟨j1, j2⟩ := (h k (by simp)).1.evolve hmk (h k (by simp)).2 h1
    refine ⟨fun x hx => ?_, fun r m => ?_⟩
    · rcases List.mem_cons.mp hx with rfl | hx
      · exact j1
      · exact i1 x hx
    · have := i2 r m
      unfold totalForce at this ⊢
      rw [List.map_cons, List.map_cons, List.sum_cons, List.sum_cons, j2, this]

/-- A state whose fields produce the fractions `phi`, which are in equilibrium under its constraints;
the ensemble scales component `i` by `f Qs i`. -/
structure Held (chis : Mat S S ℝ) (feat : Fin C → Fin S) (l : Vec C ℝ) (f : Vec C ℝ → Fin C → ℝ)
    (thr : ℝ) (A : Vec C ℝ) (c : ℝ) (phi : Mat C M ℝ) (s : State C S M ℝ G) : Prop where
  alive : ∀ m, thr < s.Js m
  volumes : ∑ m, s.Js m = (M : ℝ)
  boltz : ∀ i m, phi i m = A i * Real.exp (-s.omegas (feat i) m * l i)
  incompressible : ∀ m, ∑ i, phi i m = 1
  scale : ∀ i, f (fun i => (∑ m, Real.exp (-s.omegas (feat i) m * l i) * s.Js m) / M) i = A i
  field : ∀ r m, s.omegas r m = equilibriumField chis feat l (fun j => phi j m) r
    + totalForce s.cons r m + c
  cons : ∀ k ∈ s.cons, HoldsFor (sumFeat feat phi) s.Js k

variable {ia : FHCompiled S ℝ} {en : EntropyI C S M ℝ} {es : EnsembleI C M ℝ}
  {f : Vec C ℝ → Fin C → ℝ} {rng : Rng G ℝ}
  {p : Params ℝ} {tries : ℤ} {count : ℕ} {s : State C S M ℝ G} {t : Trace C S M ℝ G}
  {l : Vec C ℝ} {feat : Fin C → Fin S} {A : Vec C ℝ} {c : ℝ} {phi : Mat C M ℝ}

/-- The forces of the constraints of a pass in which they hold. -/
theorem IterFacts.consShift_holds {ii : InteractionI S M ℝ} {pf : Mat S M ℝ} {J : Vec M ℝ}
    (hf : IterFacts ii en es rng p tries count s t)
    (hmk : ∀ m, t.masks m = 1) (hpf : t.phisFeat = pf) (hJ : t.JsOld = J)
    (hc : ∀ k ∈ s.cons, HoldsFor pf J k) :
    (∀ k ∈ t.consPrep, HoldsFor pf J k ∧ k.ResidueLe 0) ∧
    (∀ r m, totalForce t.consPrep r m = totalForce s.cons r m) ∧
    ∀ r m, consShift t r m = -totalForce s.cons r m := by
  refine ⟨fun k hk => ?_, fun r m => ?_, fun r m => ?_⟩
  · rw [hf.consPrep, hpf, hJ] at hk
    obtain ⟨k', hk', rfl⟩ := List.mem_map.mp hk
    obtain ⟨a1, -, a3⟩ := (hc k' hk').prepare hmk
    exact ⟨a1, a3⟩
  · rw [hf.consPrep]
    unfold totalForce
    rw [List.map_map]
    congr 1
    exact List.map_congr_left fun k _ => force_prepare k r m
  · rw [consShift_eq_sum, hf.consPrep, hpf, hJ, List.map_map]
    unfold totalForce
    have e : ∀ ks : List (Cons S M ℝ), -(ks.map (force r m)).sum = (ks.map fun k => -force r m k).sum := by
      intro ks
      induction ks with
      | nil => simp
      | cons k ks ih => rw [List.map_cons, List.map_cons, List.sum_cons, List.sum_cons, neg_add, ih]
    rw [e]
    congr 1
    exact List.map_congr_left fun k hk => ((hc k hk).prepare hmk).2.1 r m

theorem held_pass (hen : IsIdealGas en l feat) (hes : Scales es f)
    (h : iterate (ia.toI M) en es rng p tries count s = .ok t)
    (hs : Held ia.chis feat l f p.killThreshold A c phi s) :
    AtRest phi count s t ∧ Held ia.chis feat l f p.killThreshold A c phi t.state := by
  have hf := iterate_facts h
  have hrv := reviveBlock_all_alive (rng := rng) (p := p) (tries := tries) (Js := s.Js)
    (om := s.omegas) (g := s.g) (count := count) hs.alive
  have hM : (M : ℝ) ≠ 0 := by exact_mod_cast NeZero.ne M
  have hmk : ∀ m, t.masks m = 1 := fun m => by rw [hf.mask_eq, hrv, if_pos (hs.alive m)]
  have hJ : t.JsOld = s.Js := funext fun m => by rw [hf.JsOld, hrv, hmk, mul_one]
  have hom : t.omegasOld = s.omegas := by rw [hf.omegasOld, hrv]
  have hn : t.nValid = (M : ℝ) := by rw [hf.nValid]; simp [hmk]
  have hQ : t.Qs = fun i => (∑ m, Real.exp (-s.omegas (feat i) m * l i) * s.Js m) / M := by
    funext i
    rw [hf.Qs_eq hen, hJ, hom, hs.volumes]
  have hphi : t.phisComp = phi := by
    funext i m
    rw [hf.phis_eq hen hes, hmk, mul_one, hs.boltz, hom, hQ, hs.scale]
  have hinc : ∀ m, t.incomp m = 0 := fun m => by
    rw [hf.incomp_eq hes, hphi, hs.incompressible]; simp
  have hpf : t.phisFeat = sumFeat feat phi := funext fun r => funext fun m => by
    rw [hf.phisFeat_eq hen, hphi]; rfl
  obtain ⟨hprep, hforce, hshift⟩ := hf.consShift_holds hmk hpf hJ hs.cons
  have hS : (S : ℝ) ≠ 0 := by
    rintro h0
    have hS0 : S = 0 := by exact_mod_cast h0
    subst hS0
    have hC : IsEmpty (Fin C) := ⟨fun i => (feat i).elim0⟩
    have := hs.incompressible 0
    simp at this
  set P : Fin M → ℝ := fun m => c - 1 / 2 * (∑ j, ∑ k, ia.chis (feat j) (feat k) * phi j m * phi k m)
    - ∑ j, phi j m / l j with hP
  set R : Fin M → ℝ := fun m =>
    (∑ q, consPot t.consPrep q m * t.phisFeat q m) - consVd t.consPrep m with hR
  have hpot : ∀ r m, s.omegas r m - t.potential r m - consPot t.consPrep r m = P m - R m := by
    intro r m
    have h1 := hshift r m
    unfold consShift at h1
    rw [hf.potential_feat hen, hphi, hs.field]
    simp only [hP, hR, equilibriumField]
    linarith
  have hxi : ∀ m, t.xi m = P m - R m := by
    intro m
    rw [hf.xi, hinc, hmk, hom]
    rw [mul_one, mul_zero, zero_add, ← Finset.sum_sub_distrib,
      Finset.sum_congr rfl fun r _ => hpot r m]
    simp only [Finset.sum_const, Finset.card_univ, Fintype.card_fin, nsmul_eq_mul]
    field_simp
  have hle : ∀ m, t.localEnergy m = -c := by
    intro m
    rw [hf.localEnergy_eq hen hes (hmk m), hphi, hxi]
    simp only [hP, hR, liftChis]
    ring
  have hmean : t.localEnergyMean = -c := by
    rw [hf.localEnergyMean, hn, hJ]
    simp only [hle]
    rw [← Finset.mul_sum, hs.volumes]
    field_simp
  have hjd : ∀ m, t.JsDiff m = 0 := fun m => by rw [hf.JsDiff, hmean, hle]; simp
  have hod : ∀ r m, t.omegaDiff r m = 0 := fun r m => by
    rw [hf.omegaDiff, hxi, hom, hmk, ← hpot r m]; ring
  have hJs : t.Js = s.Js := by
    funext m
    rw [hf.Js]
    simp only [hjd, hmk, hJ, mul_zero, add_zero, mul_one, hs.volumes, hn, div_self hM, sub_self]
  have homs : t.omegas = s.omegas := by
    funext r m
    rw [hf.omegas, hod, hmk, hom]; ring
  have hres : t.maxConstraintResidue = 0 := by
    obtain ⟨h1, h2⟩ := evolveCons_spec hf.cons
    exact le_antisymm ((h2 0 le_rfl).mpr ⟨le_rfl, fun k hk => (hprep k hk).2⟩) h1
  obtain ⟨hcons, hforce'⟩ := evolveCons_holds hmk hprep hf.cons
  refine ⟨⟨hphi, hJs, hJ, homs, ?_, ?_, ?_, hres, ?_⟩, ⟨?_, ?_, ?_, hs.incompressible, ?_, ?_, ?_⟩⟩
  · rw [hf.maxAbsIncomp]
    exact npMax_zero fun m => by rw [hinc, abs_zero]
  · rw [hf.maxAbsOmegaDiff]
    rcases (rowsMax_spec t.omegaDiff).2.2 with e | ⟨r, m, e⟩
    · exact e
    · rw [e, hod]
  · rw [hf.maxAbsJsDiff]
    exact npMax_zero fun m => by rw [hjd, abs_zero]
  · rw [hf.reviveCount, hrv]
  · show ∀ m, _ < t.Js m
    rw [hJs]; exact hs.alive
  · show ∑ m, t.Js m = _
    rw [hJs]; exact hs.volumes
  · show ∀ i m, _ = A i * Real.exp (-t.omegas (feat i) m * l i)
    rw [homs]; exact hs.boltz
  · show ∀ i, f (fun i => (∑ m, Real.exp (-t.omegas (feat i) m * l i) * t.Js m) / M) i = _
    rw [hJs, homs]; exact hs.scale
  · show ∀ r m, t.omegas r m = _ + totalForce t.cons r m + c
    intro r m
    rw [homs, hforce', hforce]; exact hs.field r m
  · show ∀ k ∈ t.cons, HoldsFor (sumFeat feat phi) t.Js k
    rw [hJs]; exact hcons

variable {e : RunEnv C S M ℝ G}

theorem Spec.Passes.held (hia : e.ia = ia.toI M)
    (hen : IsIdealGas e.en l feat) (hes : Scales e.es f) {b : ℤ} {n count : ℕ}
    {s : State C S M ℝ G} {t : Trace C S M ℝ G} (h : Passes e b n count s t)
    (hs : Held ia.chis feat l f e.params.killThreshold A c phi s) :
    AtRest phi count s t ∧ Held ia.chis feat l f e.params.killThreshold A c phi t.state := by
  induction h with
  | one h =>
    rw [hia] at h
    exact held_pass hen hes h hs
  | more h1 h2 ih =>
    obtain ⟨i1, i2⟩ := ih hs
    rw [hia] at h2
    obtain ⟨j1, j2⟩ := held_pass hen hes h2 i2
    exact ⟨i1.trans j1, j2⟩

theorem Spec.Chain.held (hia : e.ia = ia.toI M)
    (hen : IsIdealGas e.en l feat) (hes : Scales e.es f) {b b' : ℤ} {inner : ℕ}
    {ts : List (Trace C S M ℝ G)} {s s' : State C S M ℝ G} (h : Chain e inner ts s b s' b')
    (hs : Held ia.chis feat l f e.params.killThreshold A c phi s) :
    b' = b ∧ ∀ t ∈ ts, AtRest phi 0 s t := by
  induction h with
  | nil => simp
  | cons h1 h2 ih =>
    obtain ⟨i1, i2⟩ := h1.held hia hen hes hs
    obtain ⟨j1, j2⟩ := ih i2
    refine ⟨by rw [j1, i1.reviveCount]; simp, fun t' ht' => ?_⟩
    rcases List.mem_cons.mp ht' with rfl | ht'
    · exact i1
    · have := j2 t' ht'
      rw [← i1.reviveCount] at this
      exact i1.trans this

theorem run_held (hthr : 0 ≤ e.params.killThreshold) (hia : e.ia = ia.toI M)
    (hen : IsIdealGas e.en l feat) (hes : Scales e.es f) {maxSteps : ℚ} {tol : ℝ} {interval b : ℤ}
    {st : State C S M ℝ G} {fin : RunState C S M ℝ G} {ph : Phases M C ℝ} {d : Diagnostics ℝ}
    (hs : Held ia.chis feat l f e.params.killThreshold A c phi st)
    (h : runImpl e maxSteps tol interval st b = (fin, .ok (ph, d))) :
    ph.volumes = st.Js ∧ (∀ m i, ph.fractions m i = phi i m) ∧ fin.st.Js = st.Js ∧
      fin.st.omegas = st.omegas ∧ d.maxAbsIncomp = 0 ∧ d.maxAbsOmegaDiff = 0 ∧ d.maxAbsJsDiff = 0 ∧
      d.maxConstraintResidue = 0 ∧ d.reviveCountLeft = b ∧
      (0 < tol → 0 < maxSteps → 0 < interval → (d.steps : ℤ) ≤ interval) := by
  obtain ⟨tr, inner, ts, t, cp, a1, a2, hf⟩ := run_facts hthr h
  obtain ⟨k1, k2⟩ := hf.chain.held hia hen hes hs
  have ht := k2 t (by simp)
  have hal : ∀ m, e.params.killThreshold < t.Js m := by rw [ht.Js]; exact hs.alive
  obtain ⟨li, n, hc⟩ := reviveByCopy_all_alive (rng := e.rng) (T := t.phisComp) (g := t.g) hthr hal
  obtain rfl := Except.ok.inj (hf.copy.symm.trans hc)
  refine ⟨?_, fun m i => ?_, ?_, ?_, ?_, ?_, ?_, ?_, ?_, fun htol h1 h2 => ?_⟩
  · rw [hf.volumes]; exact ht.Js
  · rw [hf.fractions]
    show t.phisComp i m = _
    rw [ht.phisComp]
  · rw [hf.arrays]; exact ht.Js
  · rw [hf.arrays]; exact ht.omegas
  · rw [hf.diag]; exact ht.incomp
  · rw [hf.diag]; exact ht.omegaDiff
  · rw [hf.diag]; exact ht.jsDiff
  · rw [hf.diag]; exact ht.residue
  · rw [hf.diag]; exact k1
  · have hts : ts = [] := by
      rw [List.eq_nil_iff_forall_not_mem]
      intro t' ht'
      have hr := k2 t' (by simp [ht'])
      refine hf.notMet t' ht' ⟨by rw [hr.Js, hr.JsOld], ?_, ?_, ?_, ?_⟩
      · rw [hr.incomp]; exact htol
      · rw [hr.omegaDiff]; exact htol
      · rw [hr.jsDiff]; exact htol
      · rw [hr.residue]; exact htol
    obtain ⟨k, hk, hk1, hk2⟩ := stepsTracker_pos h1 h2
    obtain ⟨inner', hi1, hi2, hi3, -, -⟩ := stepsInner_spec h1 h2 hk hk2
    obtain rfl := Except.ok.inj (a1.symm.trans hk1)
    obtain rfl := Except.ok.inj (a2.symm.trans hi1)
    rw [hf.diag, hts]
    simpa using hi3

end Flory
