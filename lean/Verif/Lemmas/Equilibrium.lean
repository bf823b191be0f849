import Verif.Spec.Equilibrium
import Verif.Lemmas.Relabel

/-! # Equilibria are fixed points of the iteration -/

set_option linter.unusedSectionVars false

namespace Flory

open Spec

variable {G : Type} {C S M : ℕ} [NeZero M]

/-- Fractions of the features. -/
def sumFeat (feat : Fin C → Fin S) (phi : Mat C M ℝ) : Mat S M ℝ :=
  fun r m => ∑ i, if feat i = r then phi i m else 0

/-- A state whose fields produce the fractions `phi`, which are in equilibrium; the ensemble scales
component `i` by `f Qs i`. -/
structure Fixed (chis : Mat S S ℝ) (feat : Fin C → Fin S) (l : Vec C ℝ) (f : Vec C ℝ → Fin C → ℝ)
    (thr : ℝ) (A : Vec C ℝ) (c : ℝ) (phi : Mat C M ℝ) (s : State C S M ℝ G) : Prop where
  alive : ∀ m, thr < s.Js m
  volumes : ∑ m, s.Js m = (M : ℝ)
  boltz : ∀ i m, phi i m = A i * Real.exp (-s.omegas (feat i) m * l i)
  incompressible : ∀ m, ∑ i, phi i m = 1
  scale : ∀ i, f (fun i => (∑ m, Real.exp (-s.omegas (feat i) m * l i) * s.Js m) / M) i = A i
  field : ∀ r m, s.omegas r m = equilibriumField chis feat l (fun j => phi j m) r + c
  cons : ∀ k ∈ s.cons, Fulfilled (sumFeat feat phi) s.Js k

theorem Spec.Fulfilled.prepare {pf : Mat S M ℝ} {J mk : Vec M ℝ} {k : Cons S M ℝ}
    (h : Fulfilled pf J k) :
    Fulfilled pf J (Cons.prepare pf J mk k) ∧ (∀ r m, (Cons.prepare pf J mk k).potential r m = 0) ∧
    (∀ m, (Cons.prepare pf J mk k).volumeDerivative m = 0) ∧
    (Cons.prepare pf J mk k).ResidueLe 0 := by
  cases k with
  | no c => exact ⟨h, h.1, h.2, trivial⟩
  | loc A c =>
    obtain ⟨h1, h2⟩ := h
    refine ⟨⟨h1, h2⟩, fun r m => ?_, fun m => ?_, fun a m => ?_⟩
    · show (c.prepare pf J mk).potential r m = 0
      rw [LocalC.prepare_potential]
      simp only [h1, h2]
      simp
    · show (c.prepare pf J mk).volumeDerivative m = 0
      rw [LocalC.prepare_volumeDerivative]
      simp only [h2]
      simp
    · show |(c.prepare pf J mk).residue a m| ≤ 0
      rw [LocalC.prepare_residue, h2]
      simp
  | glob A c =>
    obtain ⟨h1, h2⟩ := h
    refine ⟨⟨h1, h2⟩, fun r m => ?_, fun m => ?_, fun a => ?_⟩
    · show (c.prepare pf J mk).potential r m = 0
      rw [GlobalC.prepare_potential]
      simp only [h1, h2]
      simp
    · show (c.prepare pf J mk).volumeDerivative m = 0
      rw [GlobalC.prepare_volumeDerivative]
      simp only [h1, h2]
      simp
    · show |(c.prepare pf J mk).residue a| ≤ 0
      rw [GlobalC.prepare_residue, h2]
      simp

theorem Spec.Fulfilled.evolve {pf : Mat S M ℝ} {J mk : Vec M ℝ} {k k' : Cons S M ℝ} {step res : ℝ}
    (h : Fulfilled pf J k) (hr : k.ResidueLe 0) (he : k.evolve step mk = .ok (res, k')) :
    Fulfilled pf J k' := by
  cases k with
  | no c => rw [Cons.evolve_no he]; exact h
  | loc A c =>
    obtain ⟨⟨r, c'⟩, h1, h2⟩ := bind_eq_ok.mp he
    obtain ⟨rfl, rfl⟩ := Prod.mk.inj (Except.ok.inj h2)
    obtain ⟨y, h3, h4⟩ := bind_eq_ok.mp h1
    obtain ⟨rfl, rfl⟩ := Prod.mk.inj (Except.ok.inj h4)
    refine ⟨fun a m => ?_, h.2⟩
    have h0 : c.residue a m = 0 := abs_nonpos_iff.mp (hr a m)
    have h5 := h.1 a m
    simp [h0, h5]
  | glob A c =>
    obtain ⟨⟨r, c'⟩, h1, h2⟩ := bind_eq_ok.mp he
    obtain ⟨rfl, rfl⟩ := Prod.mk.inj (Except.ok.inj h2)
    obtain ⟨y, h3, h4⟩ := bind_eq_ok.mp h1
    obtain ⟨rfl, rfl⟩ := Prod.mk.inj (Except.ok.inj h4)
    refine ⟨fun a => ?_, h.2⟩
    have h0 : c.residue a = 0 := abs_nonpos_iff.mp (hr a)
    have h5 := h.1 a
    simp [h0, h5]

theorem evolveCons_fulfilled {pf : Mat S M ℝ} {J mk : Vec M ℝ} {ks ks' : List (Cons S M ℝ)}
    {step acc res : ℝ} (h : ∀ k ∈ ks, Fulfilled pf J k ∧ k.ResidueLe 0)
    (he : evolveCons step mk ks acc = .ok (res, ks')) : ∀ k ∈ ks', Fulfilled pf J k := by
  induction ks generalizing acc ks' res with
  | nil =>
    obtain ⟨-, rfl⟩ := Prod.mk.inj (Except.ok.inj he)
    simp
  | cons k ks ih =>
    obtain ⟨⟨r, k'⟩, h1, h2⟩ := bind_eq_ok.mp he
    obtain ⟨⟨r2, ks2⟩, h3, h4⟩ := bind_eq_ok.mp h2
    obtain ⟨-, rfl⟩ := Prod.mk.inj (Except.ok.inj h4)
    intro x hx
    rcases List.mem_cons.mp hx with rfl | hx
    · exact (h k (by simp)).1.evolve (h k (by simp)).2 h1
    · exact ih (fun k hk => h k (by simp [hk])) h3 x hx

variable {ia : FHCompiled S ℝ} {en : EntropyI C S M ℝ} {es : EnsembleI C M ℝ}
  {f : Vec C ℝ → Fin C → ℝ} {rng : Rng G ℝ}
  {p : Params ℝ} {tries : ℤ} {count : ℕ} {s : State C S M ℝ G} {t : Trace C S M ℝ G}
  {l : Vec C ℝ} {feat : Fin C → Fin S} {A : Vec C ℝ} {c : ℝ} {phi : Mat C M ℝ}

/-- What a pass does at a fixed point. -/
structure AtRest (phi : Mat C M ℝ) (count : ℕ) (s : State C S M ℝ G) (t : Trace C S M ℝ G) : Prop where
  phisComp : t.phisComp = phi
  Js : t.Js = s.Js
  JsOld : t.JsOld = s.Js
  omegas : t.omegas = s.omegas
  incomp : t.maxAbsIncomp = 0
  omegaDiff : t.maxAbsOmegaDiff = 0
  jsDiff : t.maxAbsJsDiff = 0
  residue : t.maxConstraintResidue = 0
  reviveCount : t.reviveCount = count

theorem npMax_zero {v : Vec M ℝ} (h : ∀ m, v m = 0) : npMax v = 0 :=
  npMax_eq_of v 0 (fun m => (h m).le) ⟨0, h 0⟩

/-- The canonical ensemble scales right if the mean composition is as prescribed. -/
theorem scale_of_mean {J : Vec M ℝ} {om : Mat S M ℝ} {phiMeans : Vec C ℝ} (hJ : ∀ m, 0 < J m)
    (hb : ∀ i m, phi i m = A i * Real.exp (-om (feat i) m * l i))
    (hm : ∀ i, ∑ m, J m * phi i m = M * phiMeans i) (i : Fin C) :
    phiMeans i / ((∑ m, Real.exp (-om (feat i) m * l i) * J m) / M) = A i := by
  have hM : (M : ℝ) ≠ 0 := by exact_mod_cast NeZero.ne M
  have hpos : 0 < ∑ m, Real.exp (-om (feat i) m * l i) * J m :=
    Finset.sum_pos (fun m _ => mul_pos (Real.exp_pos _) (hJ m)) ⟨0, Finset.mem_univ _⟩
  rw [div_eq_iff (div_ne_zero hpos.ne' hM), mul_div_assoc', eq_div_iff hM, mul_comm, ← hm i,
    Finset.mul_sum]
  exact Finset.sum_congr rfl fun m _ => by rw [hb]; ring

theorem fixed_pass (hen : IsIdealGas en l feat) (hes : Scales es f)
    (h : iterate (ia.toI M) en es rng p tries count s = .ok t)
    (hs : Fixed ia.chis feat l f p.killThreshold A c phi s) :
    AtRest phi count s t ∧ Fixed ia.chis feat l f p.killThreshold A c phi t.state := by
  have hf := iterate_facts h
  have hrv := reviveBlock_all_alive (rng := rng) (p := p) (tries := tries) (Js := s.Js)
    (om := s.omegas) (g := s.g) (count := count) hs.alive
  have hM : (M : ℝ) ≠ 0 := by exact_mod_cast NeZero.ne M
  have hmk : ∀ m, t.masks m = 1 := fun m => by rw [hf.mask_eq, hrv, if_pos (hs.alive m)]
  have hJ : t.JsOld = s.Js := funext fun m => by rw [hf.JsOld, hrv, hmk, mul_one]
  have hom : t.omegasOld = s.omegas := by rw [hf.omegasOld, hrv]
  have hn : t.nValid = (M : ℝ) := by rw [hf.nValid]; simp [hmk]
  have hQ : t.Qs = fun i => (∑ m, Real.exp (-s.omegas (feat i) m * l i) * s.Js m) / M := by
    funext i
    rw [hf.Qs_eq hen, hJ, hom, hs.volumes]
  have hphi : t.phisComp = phi := by
    funext i m
    rw [hf.phis_eq hen hes, hmk, mul_one, hs.boltz, hom, hQ, hs.scale]
  have hinc : ∀ m, t.incomp m = 0 := fun m => by
    rw [hf.incomp_eq hes, hphi, hs.incompressible]; simp
  have hpf : t.phisFeat = sumFeat feat phi := funext fun r => funext fun m => by
    rw [hf.phisFeat_eq hen, hphi]; rfl
  have hprep : ∀ k ∈ t.consPrep, Fulfilled (sumFeat feat phi) s.Js k ∧ (∀ r m, k.potential r m = 0) ∧
      (∀ m, k.volumeDerivative m = 0) ∧ k.ResidueLe 0 := by
    intro k hk
    rw [hf.consPrep, hpf, hJ] at hk
    obtain ⟨k', hk', rfl⟩ := List.mem_map.mp hk
    exact (hs.cons k' hk').prepare
  have hcp : ∀ r m, consPot t.consPrep r m = 0 := fun r m => by
    unfold consPot
    exact List.sum_eq_zero fun x hx => by
      obtain ⟨k, hk, rfl⟩ := List.mem_map.mp hx
      exact (hprep k hk).2.1 r m
  have hcv : ∀ m, consVd t.consPrep m = 0 := fun m => by
    unfold consVd
    exact List.sum_eq_zero fun x hx => by
      obtain ⟨k, hk, rfl⟩ := List.mem_map.mp hx
      exact (hprep k hk).2.2.1 m
  have hS : (S : ℝ) ≠ 0 := by
    rintro h0
    have hS0 : S = 0 := by exact_mod_cast h0
    subst hS0
    have hC : IsEmpty (Fin C) := ⟨fun i => (feat i).elim0⟩
    have := hs.incompressible 0
    simp at this
  set P : Fin M → ℝ := fun m => c - 1 / 2 * (∑ j, ∑ k, ia.chis (feat j) (feat k) * phi j m * phi k m)
    - ∑ j, phi j m / l j with hP
  have hpot : ∀ r m, t.potential r m = s.omegas r m - P m := by
    intro r m
    rw [hf.potential_feat hen, hphi, hs.field]
    simp only [hP, equilibriumField]
    ring
  have hxi : ∀ m, t.xi m = P m := by
    intro m
    rw [hf.xi, hinc, hmk, hom]
    simp only [hcp, hpot, sub_sub_cancel, Finset.sum_const, Finset.card_univ, Fintype.card_fin,
      nsmul_eq_mul]
    field_simp
    ring
  have hle : ∀ m, t.localEnergy m = -c := by
    intro m
    rw [hf.localEnergy_eq hen hes (hmk m), hphi, hxi, hcv]
    simp only [hcp, zero_mul, Finset.sum_const_zero, hP, liftChis]
    ring
  have hmean : t.localEnergyMean = -c := by
    rw [hf.localEnergyMean, hn, hJ]
    simp only [hle]
    rw [← Finset.mul_sum, hs.volumes]
    field_simp
  have hjd : ∀ m, t.JsDiff m = 0 := fun m => by rw [hf.JsDiff, hmean, hle]; simp
  have hod : ∀ r m, t.omegaDiff r m = 0 := fun r m => by
    rw [hf.omegaDiff, hcp, hxi, hpot, hom]; ring
  have hJs : t.Js = s.Js := by
    funext m
    rw [hf.Js]
    simp only [hjd, hmk, hJ, mul_zero, add_zero, mul_one, hs.volumes, hn, div_self hM, sub_self]
  have homs : t.omegas = s.omegas := by
    funext r m
    rw [hf.omegas, hod, hmk, hom]; ring
  have hres : t.maxConstraintResidue = 0 := by
    obtain ⟨h1, h2⟩ := evolveCons_spec hf.cons
    exact le_antisymm ((h2 0 le_rfl).mpr ⟨le_rfl, fun k hk => (hprep k hk).2.2.2⟩) h1
  have hcons : ∀ k ∈ t.cons, Fulfilled (sumFeat feat phi) s.Js k :=
    evolveCons_fulfilled (fun k hk => ⟨(hprep k hk).1, (hprep k hk).2.2.2⟩) hf.cons
  refine ⟨⟨hphi, hJs, hJ, homs, ?_, ?_, ?_, hres, ?_⟩, ⟨?_, ?_, ?_, hs.incompressible, ?_, ?_, ?_⟩⟩
  · rw [hf.maxAbsIncomp]
    exact npMax_zero fun m => by rw [hinc, abs_zero]
  · rw [hf.maxAbsOmegaDiff]
    rcases (rowsMax_spec t.omegaDiff).2.2 with e | ⟨r, m, e⟩
    · exact e
    · rw [e, hod]
  · rw [hf.maxAbsJsDiff]
    exact npMax_zero fun m => by rw [hjd, abs_zero]
  · rw [hf.reviveCount, hrv]
  · show ∀ m, _ < t.Js m
    rw [hJs]; exact hs.alive
  · show ∑ m, t.Js m = _
    rw [hJs]; exact hs.volumes
  · show ∀ i m, _ = A i * Real.exp (-t.omegas (feat i) m * l i)
    rw [homs]; exact hs.boltz
  · show ∀ i, f (fun i => (∑ m, Real.exp (-t.omegas (feat i) m * l i) * t.Js m) / M) i = _
    rw [hJs, homs]; exact hs.scale
  · show ∀ r m, t.omegas r m = _
    rw [homs]; exact hs.field
  · show ∀ k ∈ t.cons, Fulfilled (sumFeat feat phi) t.Js k
    rw [hJs]; exact hcons

end Flory
