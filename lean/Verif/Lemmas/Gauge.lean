import Verif.Lemmas.Peace
import Verif.Lemmas.FinderHistory

/-! # Passes that do not depend on the generator or on a constant added to the fields -/

set_option linter.unusedSectionVars false

namespace Flory

open Spec

section Generator

variable {K G : Type} [Field K] [LinearOrder K] [IsStrictOrderedRing K] {C S M : ℕ} [NeZero M]

/-- Same fields, volumes, fractions and constraints; the generators may differ. -/
structure SameArrays (s s' : State C S M K G) : Prop where
  omegas : s'.omegas = s.omegas
  Js : s'.Js = s.Js
  phisComp : s'.phisComp = s.phisComp
  phisFeat : s'.phisFeat = s.phisFeat
  cons : s'.cons = s.cons

theorem iterate_other_generator {ia : InteractionI S M K} {en : EntropyI C S M K}
    {es : EnsembleI C M K} {rng rng' : Rng G K} {p p' : Params K} {tries tries' : ℤ}
    {count count' : ℕ} {s s' : State C S M K G}
    (hp : p' = { p with reviveScaler := p'.reviveScaler }) (hs : SameArrays s s')
    (ha : ∀ m, p.killThreshold < s.Js m) :
    iterate ia en es rng' p' tries' count' s' = (iterate ia en es rng p tries count s).map
      fun t => { t with g := s'.g, reviveCount := count' } := by
  have hp1 : p'.killThreshold = p.killThreshold := by rw [hp]
  have hp2 : p'.acceptanceJs = p.acceptanceJs := by rw [hp]
  have hp3 : p'.JsStepUpperBound = p.JsStepUpperBound := by rw [hp]
  have hp4 : p'.acceptanceOmega = p.acceptanceOmega := by rw [hp]
  have hr := reviveBlock_all_alive (rng := rng) (p := p) (tries := tries) (om := s.omegas) (g := s.g)
    (count := count) ha
  have hr' := reviveBlock_all_alive (rng := rng') (p := p') (tries := tries') (Js := s'.Js)
    (om := s'.omegas) (g := s'.g) (count := count') (by rw [hs.Js, hp1]; exact ha)
  unfold iterate
  rw [hr, hr']
  simp only [hs.omegas, hs.Js, hs.phisComp, hs.phisFeat, hs.cons, hp1, hp2, hp3, hp4]
  cases en.partition s.phisComp s.omegas fun m => s.Js m * makeMasks s.Js p.killThreshold m with
  | error err => rfl
  | ok x1 =>
  simp only [bind_ok]
  cases es.normalize x1.1 x1.2 (makeMasks s.Js p.killThreshold) with
  | error err => rfl
  | ok x2 =>
  simp only [bind_ok]
  cases en.compToFeat s.phisFeat x2.1 with
  | error err => rfl
  | ok x3 =>
  simp only [bind_ok]
  generalize (pyDiv _ _ : Py K) = y
  cases y with
  | error err => rfl
  | ok x4 =>
  simp only [bind_ok]
  generalize (pyDiv _ _ : Py K) = y
  cases y with
  | error err => rfl
  | ok x5 =>
  simp only [bind_ok]
  generalize (updateJs _ _ _ _ _ _ : Py (Vec M K)) = y
  cases y with
  | error err => rfl
  | ok x6 =>
  simp only [bind_ok]
  generalize (evolveCons _ _ _ _ : Py (K × List (Cons S M K))) = y
  cases y with
  | error err => rfl
  | ok x7 => rfl

/-- Environments that differ in the generator, the revive scaler and the arrays left behind by
exceptions. -/
structure OtherGenerator (e e' : RunEnv C S M K G) : Prop where
  ia : e'.ia = e.ia
  en : e'.en = e.en
  es : e'.es = e.es
  params : e'.params = { e.params with reviveScaler := e'.params.reviveScaler }
  criterion : e'.criterion = e.criterion

theorem sim_generator {e e' : RunEnv C S M K G} (h : OtherGenerator e e') (g' : G) :
    Sim e e' fun s s' => SameArrays s s' ∧ s'.g = g' where
  thr := by rw [h.params]
  criterion := h.criterion
  pass := by
    intro tries tries' count count' s s' t ha hs hit
    have := iterate_other_generator (ia := e.ia) (en := e.en) (es := e.es) (rng := e.rng)
      (rng' := e'.rng) (tries := tries) (tries' := tries') (count := count) (count' := count')
      h.params hs.1 ha
    rw [hit] at this
    rw [h.ia, h.en, h.es]
    refine ⟨_, this, rfl, ⟨rfl, rfl, rfl, rfl, rfl, rfl, rfl⟩, ⟨⟨rfl, rfl, rfl, rfl, rfl⟩, hs.2⟩⟩

end Generator

section Gauge

variable {G : Type} {C S M : ℕ} [NeZero M]
variable {ia : InteractionI S M ℝ} {en : EntropyI C S M ℝ} {es : EnsembleI C M ℝ}
  {rng rng' : Rng G ℝ} {p : Params ℝ} {tries tries' : ℤ} {count count' : ℕ}
  {s s' : State C S M ℝ G} {t t' : Trace C S M ℝ G} {sizes : Vec C ℝ} {feat : Fin C → Fin S}
  {pm : Vec C ℝ} {c : Vec S ℝ}

theorem evolveCons_proper {step : ℝ} {mk : Vec M ℝ} {cs : List (Cons S M ℝ)} {acc : ℝ}
    {x : ℝ × List (Cons S M ℝ)} (h : evolveCons step mk cs acc = .ok x) : ∀ k ∈ cs, k.Proper := by
  induction cs generalizing acc x with
  | nil => simp
  | cons k cs ih =>
    simp only [evolveCons] at h
    obtain ⟨⟨r, k'⟩, h1, h2⟩ := bind_eq_ok.mp h
    obtain ⟨⟨r2, cs'⟩, h3, -⟩ := bind_eq_ok.mp h2
    intro k0 hk0
    rcases List.mem_cons.mp hk0 with rfl | hk0
    · cases k0 with
      | no => trivial
      | loc A d =>
        rintro rfl
        simp only [Cons.evolve, LocalC.evolve] at h1
        cases h1
      | glob A d =>
        rintro rfl
        simp only [Cons.evolve, GlobalC.evolve] at h1
        cases h1
    · exact ih h3 k0 hk0

theorem IterFacts.proper (h : IterFacts ia en es rng p tries count s t) :
    ∀ k ∈ s.cons, k.Proper := by
  intro k hk
  have := evolveCons_proper h.cons (k.prepare t.phisFeat t.JsOld t.masks)
    (by rw [h.consPrep]; exact List.mem_map_of_mem hk)
  cases k <;> exact this

/-- Two passes in the canonical ensemble whose fields differ by a constant for each feature, while no
compartment is dead. -/
theorem gauge_pass (hen : IsIdealGas en sizes feat) (hes : Scales es fun Q i => pm i / Q i)
    (ha : ∀ m, p.killThreshold < s.Js m) (hsum : ∑ m, s.Js m = M)
    (hJ : s'.Js = s.Js) (hom : ∀ r m, s'.omegas r m = s.omegas r m + c r) (hcons : s'.cons = s.cons)
    (h : iterate ia en es rng p tries count s = .ok t)
    (h' : iterate ia en es rng' p tries' count' s' = .ok t') :
    t'.Js = t.Js ∧ t'.phisComp = t.phisComp ∧ t'.phisFeat = t.phisFeat ∧ t'.cons = t.cons ∧
    t'.incomp = t.incomp ∧ t'.JsDiff = t.JsDiff ∧ t'.factor = t.factor ∧
    t'.maxConstraintResidue = t.maxConstraintResidue ∧ t'.nValid = t.nValid ∧
    (∀ r m, t'.omegaDiff r m = t.omegaDiff r m + ((∑ q, c q) / S - c r)) ∧
    (∀ r m, t'.omegas r m =
      t.omegas r m + (c r + t.factor * p.acceptanceOmega * ((∑ q, c q) / S - c r))) := by
  have hf := iterate_facts h
  have hf' := iterate_facts h'
  obtain ⟨m1, m2, m3, m4, m5⟩ := hf.masks_one ha
  obtain ⟨m1', m2', m3', m4', m5'⟩ := hf'.masks_one (by rw [hJ]; exact ha)
  have emask : t'.masks = t.masks := by funext m; rw [m1, m1']
  have eJ : t'.JsOld = t.JsOld := by rw [m2, m2', hJ]
  have eom : ∀ r m, t'.omegasOld r m = t.omegasOld r m + c r := by
    intro r m; rw [m3, m3', hom]
  have hx : ∀ i m, Real.exp (-t'.omegasOld (feat i) m * sizes i) =
      Real.exp (-c (feat i) * sizes i) * Real.exp (-t.omegasOld (feat i) m * sizes i) := by
    intro i m
    rw [eom, ← Real.exp_add]
    congr 1
    ring
  have eQ : ∀ i, t'.Qs i = Real.exp (-c (feat i) * sizes i) * t.Qs i := by
    intro i
    rw [hf.Qs_eq hen, hf'.Qs_eq hen, eJ, ← mul_div_assoc, Finset.mul_sum]
    simp only [hx, mul_assoc]
  have ephi : t'.phisComp = t.phisComp := by
    funext i m
    rw [hf.phis_eq hen hes, hf'.phis_eq hen hes, emask, hx, eQ]
    have := (Real.exp_pos (-c (feat i) * sizes i)).ne'
    field_simp
  have einc : t'.incomp = t.incomp := by
    funext m
    rw [hf.incomp_eq hes, hf'.incomp_eq hes, ephi, emask]
  have epf : t'.phisFeat = t.phisFeat := by
    funext r m
    rw [hf.phisFeat_eq hen, hf'.phisFeat_eq hen, ephi]
  have ecp : t'.consPrep = t.consPrep := by
    rw [hf.consPrep, hf'.consPrep, hcons, epf, eJ, emask]
  have epot : t'.potential = t.potential := by rw [hf.potential, hf'.potential, epf]
  have exi : ∀ m, t'.xi m = t.xi m + (∑ q, c q) / S := by
    intro m
    rw [hf.xi, hf'.xi, einc, epf, epot, ecp, m1, m1']
    simp only [eom, Finset.sum_sub_distrib, Finset.sum_add_distrib]
    ring
  have ele : ∀ m, t'.localEnergy m = t.localEnergy m - (∑ q, c q) / S := by
    intro m
    have h1 := hf.sum_phisFeat hen m
    have h2 := hf.incomp_eq hes m
    rw [m1, mul_one] at h2
    rw [hf.localEnergy, hf'.localEnergy, einc, epf, epot, ecp, ephi, exi]
    simp only [add_mul, Finset.sum_add_distrib, ← Finset.mul_sum, h1]
    rw [h2]
    ring
  have hM : (M : ℝ) ≠ 0 := by exact_mod_cast NeZero.ne M
  have emean : t'.localEnergyMean = t.localEnergyMean - (∑ q, c q) / S := by
    rw [hf.localEnergyMean, hf'.localEnergyMean, eJ, m5, m5', m2]
    simp only [ele, sub_mul, Finset.sum_sub_distrib, ← Finset.mul_sum, hsum]
    field_simp
  have ejd : t'.JsDiff = t.JsDiff := by
    funext m
    rw [hf.JsDiff, hf'.JsDiff, emean, ele, emask]
    ring
  have efac : t'.factor = t.factor := by
    rw [hf.factor, hf'.factor, hf.maxAbsJsDiff, hf'.maxAbsJsDiff, ejd]
  have eod : ∀ r m, t'.omegaDiff r m = t.omegaDiff r m + ((∑ q, c q) / S - c r) := by
    intro r m
    rw [hf.omegaDiff, hf'.omegaDiff, epot, ecp, exi, eom, m1, m1']
    ring
  have ec := hf'.cons
  rw [efac, emask, ecp, hf.cons] at ec
  have ec' := Except.ok.inj ec
  refine ⟨?_, ephi, epf, ?_, einc, ejd, efac, ?_, by rw [m5, m5'], eod, fun r m => ?_⟩
  · funext m
    rw [hf.Js, hf'.Js, eJ, efac, ejd, emask, m5, m5']
  · exact (Prod.mk.inj ec').2.symm
  · exact (Prod.mk.inj ec').1.symm
  · rw [hf.omegas, hf'.omegas, eod, eom, efac, m1, m1']
    ring

/-- The fields of the second state are those of the first plus `c`. -/
structure Shifted (c : ℝ) (s s' : State C S M ℝ G) : Prop where
  omegas : ∀ r m, s'.omegas r m = s.omegas r m + c
  Js : s'.Js = s.Js
  phisComp : s'.phisComp = s.phisComp
  phisFeat : s'.phisFeat = s.phisFeat
  cons : s'.cons = s.cons

theorem sim_gauge {e : RunEnv C S M ℝ G} (hrng : e.rng.Ok) (hen : IsIdealGas e.en sizes feat)
    (hes : Scales e.es fun Q i => pm i / Q i) (htot : e.es.Total)
    (hthr : 0 ≤ e.params.killThreshold) (hthr1 : e.params.killThreshold < 1)
    (hb : 0 < e.params.JsStepUpperBound) (c : ℝ) :
    Sim e e fun s s' => Shifted c s s' ∧ ∑ m, s.Js m = M where
  thr := rfl
  criterion := rfl
  pass := by
    rintro tries tries' count count' s s' t ha ⟨hs, hsum⟩ hit
    have hf := iterate_facts hit
    obtain ⟨t', ht', -⟩ := iterate_ok (ia := e.ia) (s := s') (tries := tries') (count := count')
      hrng hen htot hthr hthr1 hb
      (by rw [hs.cons]; exact hf.proper) (Or.inl ⟨0, by rw [hs.Js]; exact ha 0⟩)
    have hf' := iterate_facts ht'
    obtain ⟨k1, k2, k3, k4, k5, k6, k7, k8, k9, k10, k11⟩ := gauge_pass (c := fun _ => c) hen hes ha hsum
      hs.Js hs.omegas hs.cons hit ht'
    have hz : ∀ r : Fin S, (∑ _q : Fin S, c) / (S : ℝ) - c = 0 := by
      intro r
      have : (S : ℝ) ≠ 0 := by
        have := r.2
        have h0 : S ≠ 0 := by omega
        exact_mod_cast h0
      simp only [Finset.sum_const, Finset.card_univ, Fintype.card_fin, nsmul_eq_mul]
      field_simp
      ring
    refine ⟨t', ht', ?_, ⟨k1, k2, k9, ?_, ?_, ?_, k8⟩, ⟨fun r m => ?_, k1, k2, k3, k4⟩, ?_⟩
    · exact (hf'.masks_one (by rw [hs.Js]; exact ha)).2.2.2.1
    · rw [hf.maxAbsIncomp, hf'.maxAbsIncomp, k5]
    · have : t'.omegaDiff = t.omegaDiff := by
        funext r m
        rw [k10, hz r, add_zero]
      rw [hf.maxAbsOmegaDiff, hf'.maxAbsOmegaDiff, this]
    · rw [hf.maxAbsJsDiff, hf'.maxAbsJsDiff, k6]
    · have := k11 r m
      rw [hz r, mul_zero, add_zero] at this
      exact this
    · show ∑ m, t.Js m = M
      rw [hf.sum_Js, (hf.masks_one ha).2.2.2.2]

end Gauge

end Flory
