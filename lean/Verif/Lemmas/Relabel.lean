import Verif.Spec.Relabel
import Verif.Lemmas.Result

/-! # Lemmas about relabelling -/

set_option linter.unusedSectionVars false

namespace Flory

open Spec

section Basic

variable {K : Type} [Field K] [LinearOrder K] [IsStrictOrderedRing K] {S M : ℕ} [NeZero M]

theorem npMax_relabel (τ : Fin M ≃ Fin M) (v : Vec M K) : npMax (fun m => v (τ m)) = npMax v := by
  refine le_antisymm ?_ ?_
  · obtain ⟨m, hm⟩ := npMax_mem fun m => v (τ m)
    rw [hm]; exact le_npMax v _
  · obtain ⟨m, hm⟩ := npMax_mem v
    rw [hm]
    have := le_npMax (fun m => v (τ m)) (τ.symm m)
    simpa using this

theorem rowsMax_relabel {σ : Fin S ≃ Fin S} {τ : Fin M ≃ Fin M} {d d' : Mat S M K}
    (h : RelMat σ τ d d') : rowsMax d' = rowsMax d := by
  obtain ⟨a1, a2, a3⟩ := rowsMax_spec d
  obtain ⟨b1, b2, b3⟩ := rowsMax_spec d'
  refine le_antisymm ?_ ?_
  · rcases b3 with e | ⟨r, m, e⟩
    · rw [e]; exact a1
    · rw [e, h]; exact a2 _ _
  · rcases a3 with e | ⟨r, m, e⟩
    · rw [e]; exact b1
    · rw [e]
      have := b2 (σ.symm r) (τ.symm m)
      rw [h] at this
      simpa using this

variable {σ : Fin S ≃ Fin S} {τ : Fin M ≃ Fin M}

theorem RelCons.potential {c c' : Cons S M K} (h : RelCons σ τ c c') :
    RelMat σ τ c.potential c'.potential := by
  cases h <;> assumption

theorem RelCons.volumeDerivative {c c' : Cons S M K} (h : RelCons σ τ c c') (m : Fin M) :
    c'.volumeDerivative m = c.volumeDerivative (τ m) := by
  cases h with
  | no _ hv => exact hv m
  | loc _ _ _ _ _ _ _ hv => exact hv m
  | glob _ _ _ _ _ _ _ hv => exact hv m

theorem RelCons.prepare {c c' : Cons S M K} (h : RelCons σ τ c c') {pf pf' : Mat S M K}
    (hpf : RelMat σ τ pf pf') {J J' mk mk' : Vec M K} (hJ : ∀ m, J' m = J (τ m))
    (hmk : ∀ m, mk' m = mk (τ m)) :
    RelCons σ τ (Cons.prepare pf J mk c) (Cons.prepare pf' J' mk' c') := by
  cases h with
  | no hp hv => exact .no hp hv
  | @loc A c c' hC hT ha he hm hr hp hv =>
    have key : ∀ a m, (∑ r, c'.Cs a r * pf' r m) - c'.Ts a =
        (∑ r, c.Cs a r * pf r (τ m)) - c.Ts a := by
      intro a m
      rw [hT]
      congr 1
      rw [← Equiv.sum_comp σ (fun r => c.Cs a r * pf r (τ m))]
      exact Finset.sum_congr rfl fun r _ => by rw [hC, hpf]
    refine .loc hC hT ha he hm (fun a m => ?_) (fun r m => ?_) (fun m => ?_)
    · rw [LocalC.prepare_residue, LocalC.prepare_residue, key, hmk]
    · rw [LocalC.prepare_potential, LocalC.prepare_potential, hmk]
      simp only [key]
      simp only [hC, hm, he]
    · rw [LocalC.prepare_volumeDerivative, LocalC.prepare_volumeDerivative, hmk]
      simp only [key, hm, he]
  | @glob A c c' hC hT ha he hm hr hp hv =>
    have key : ∀ a m, (∑ r, c'.Cs a r * pf' r m) - c'.Ts a =
        (∑ r, c.Cs a r * pf r (τ m)) - c.Ts a := by
      intro a m
      rw [hT]
      congr 1
      rw [← Equiv.sum_comp σ (fun r => c.Cs a r * pf r (τ m))]
      exact Finset.sum_congr rfl fun r _ => by rw [hC, hpf]
    have key2 : ∀ a, ∑ m, ((∑ r, c'.Cs a r * pf' r m) - c'.Ts a) * J' m =
        ∑ m, ((∑ r, c.Cs a r * pf r m) - c.Ts a) * J m := by
      intro a
      rw [← Equiv.sum_comp τ (fun m => ((∑ r, c.Cs a r * pf r m) - c.Ts a) * J m)]
      exact Finset.sum_congr rfl fun m _ => by rw [key, hJ]
    have hJs : ∑ m, J' m = ∑ m, J m := by
      rw [← Equiv.sum_comp τ J]
      exact Finset.sum_congr rfl fun m _ => hJ m
    refine .glob hC hT ha he hm (funext fun a => ?_) (fun r m => ?_) (fun m => ?_)
    · rw [GlobalC.prepare_residue, GlobalC.prepare_residue, key2, hJs]
    · rw [GlobalC.prepare_potential, GlobalC.prepare_potential, hmk]
      simp only [key2]
      simp only [hC, hm, he]
    · rw [GlobalC.prepare_volumeDerivative, GlobalC.prepare_volumeDerivative, hmk]
      simp only [key2]
      simp only [key, hm, he]

theorem RelCons.evolve {c c' d d' : Cons S M K} (h : RelCons σ τ c c') {step r r' : K}
    {mk mk' : Vec M K} (hmk : ∀ m, mk' m = mk (τ m))
    (h1 : c.evolve step mk = .ok (r, d)) (h2 : c'.evolve step mk' = .ok (r', d')) :
    RelCons σ τ d d' ∧ r' = r := by
  cases h with
  | no hp hv =>
    simp only [Cons.evolve, NoC.evolve, bind_ok, pure_eq_ok] at h1 h2
    obtain ⟨rfl, rfl⟩ := Prod.mk.inj (Except.ok.inj h1)
    obtain ⟨rfl, rfl⟩ := Prod.mk.inj (Except.ok.inj h2)
    exact ⟨.no hp hv, rfl⟩
  | @loc A c c' hC hT ha he hm hr hp hv =>
    simp only [Cons.evolve, LocalC.evolve] at h1 h2
    obtain ⟨⟨_, _⟩, h3, h4⟩ := bind_eq_ok.mp h1
    obtain ⟨_, h5, h6⟩ := bind_eq_ok.mp h3
    obtain ⟨⟨_, _⟩, k3, k4⟩ := bind_eq_ok.mp h2
    obtain ⟨_, k5, k6⟩ := bind_eq_ok.mp k3
    obtain ⟨rfl, rfl⟩ := Prod.mk.inj (Except.ok.inj h4)
    obtain ⟨rfl, rfl⟩ := Prod.mk.inj (Except.ok.inj h6)
    obtain ⟨rfl, rfl⟩ := Prod.mk.inj (Except.ok.inj k4)
    obtain ⟨rfl, rfl⟩ := Prod.mk.inj (Except.ok.inj k6)
    refine ⟨.loc hC hT ha he (fun a m => ?_) hr hp hv, ?_⟩
    · simp only [hm, hr, ha, hmk]
    · have e : (fun a => npMax fun m => |c'.residue a m|) = fun a => npMax fun m => |c.residue a m| := by
        funext a
        rw [← npMax_relabel τ fun m => |c.residue a m|]
        simp only [hr]
      rw [e] at k5
      exact Except.ok.inj (k5.symm.trans h5)
  | @glob A c c' hC hT ha he hm hr hp hv =>
    simp only [Cons.evolve, GlobalC.evolve] at h1 h2
    obtain ⟨⟨_, _⟩, h3, h4⟩ := bind_eq_ok.mp h1
    obtain ⟨_, h5, h6⟩ := bind_eq_ok.mp h3
    obtain ⟨⟨_, _⟩, k3, k4⟩ := bind_eq_ok.mp h2
    obtain ⟨_, k5, k6⟩ := bind_eq_ok.mp k3
    obtain ⟨rfl, rfl⟩ := Prod.mk.inj (Except.ok.inj h4)
    obtain ⟨rfl, rfl⟩ := Prod.mk.inj (Except.ok.inj h6)
    obtain ⟨rfl, rfl⟩ := Prod.mk.inj (Except.ok.inj k4)
    obtain ⟨rfl, rfl⟩ := Prod.mk.inj (Except.ok.inj k6)
    refine ⟨.glob hC hT ha he (funext fun a => ?_) hr hp hv, ?_⟩
    · simp only [hm, hr, ha]
    · rw [hr] at k5
      exact Except.ok.inj (k5.symm.trans h5)

theorem evolveCons_relabel {cs cs' ds ds' : List (Cons S M K)}
    (h : List.Forall₂ (RelCons σ τ) cs cs') {step acc r r' : K} {mk mk' : Vec M K}
    (hmk : ∀ m, mk' m = mk (τ m)) (h1 : evolveCons step mk cs acc = .ok (r, ds))
    (h2 : evolveCons step mk' cs' acc = .ok (r', ds')) :
    List.Forall₂ (RelCons σ τ) ds ds' ∧ r' = r := by
  induction h generalizing acc r r' ds ds' with
  | nil =>
    obtain ⟨rfl, rfl⟩ := Prod.mk.inj (Except.ok.inj h1)
    obtain ⟨rfl, rfl⟩ := Prod.mk.inj (Except.ok.inj h2)
    exact ⟨.nil, rfl⟩
  | cons hc _ ih =>
    simp only [evolveCons] at h1 h2
    obtain ⟨⟨r1, k1⟩, a1, a2⟩ := bind_eq_ok.mp h1
    obtain ⟨⟨r2, ks2⟩, a3, a4⟩ := bind_eq_ok.mp a2
    obtain ⟨⟨r1', k1'⟩, b1, b2⟩ := bind_eq_ok.mp h2
    obtain ⟨⟨r2', ks2'⟩, b3, b4⟩ := bind_eq_ok.mp b2
    obtain ⟨rfl, rfl⟩ := Prod.mk.inj (Except.ok.inj a4)
    obtain ⟨rfl, rfl⟩ := Prod.mk.inj (Except.ok.inj b4)
    obtain ⟨e1, e2⟩ := RelCons.evolve hc hmk a1 b1
    subst e2
    obtain ⟨f1, f2⟩ := ih a3 b3
    exact ⟨.cons e1 f1, f2⟩

theorem consPot_relabel {cs cs' : List (Cons S M K)} (h : List.Forall₂ (RelCons σ τ) cs cs')
    (r : Fin S) (m : Fin M) : consPot cs' r m = consPot cs (σ r) (τ m) := by
  unfold consPot
  induction h with
  | nil => rfl
  | cons hc _ ih => simp only [List.map_cons, List.sum_cons, ih, RelCons.potential hc r m]

theorem consVd_relabel {cs cs' : List (Cons S M K)} (h : List.Forall₂ (RelCons σ τ) cs cs')
    (m : Fin M) : consVd cs' m = consVd cs (τ m) := by
  unfold consVd
  induction h with
  | nil => rfl
  | cons hc _ ih => simp only [List.map_cons, List.sum_cons, ih, RelCons.volumeDerivative hc m]

end Basic

section Pass

variable {G : Type} {C S M : ℕ} [NeZero M]
variable {ia ia' : FHCompiled S ℝ} {en en' : EntropyI C S M ℝ} {es es' : EnsembleI C M ℝ}
  {rng rng' : Rng G ℝ} {p : Params ℝ} {tries : ℤ} {count : ℕ} {s s' : State C S M ℝ G}
  {t t' : Trace C S M ℝ G} {sizes sizes' : Vec C ℝ} {feat feat' : Fin C → Fin S}
  {a a' : Vec C ℝ → Vec C ℝ} {ρ : Fin C ≃ Fin C} {σ : Fin S ≃ Fin S} {τ : Fin M ≃ Fin M}

/-- The mixtures are the same up to the labels of components and features. -/
structure RelMixture (ia ia' : FHCompiled S ℝ) (sizes sizes' : Vec C ℝ) (feat feat' : Fin C → Fin S)
    (a a' : Vec C ℝ → Vec C ℝ) (ρ : Fin C ≃ Fin C) (σ : Fin S ≃ Fin S) : Prop where
  chis : ∀ r q, ia'.chis r q = ia.chis (σ r) (σ q)
  coef : ia'.coef = ia.coef
  sizes : ∀ i, sizes' i = sizes (ρ i)
  feat : ∀ i, σ (feat' i) = feat (ρ i)
  scale : ∀ Q Q' : Vec C ℝ, (∀ i, Q' i = Q (ρ i)) → ∀ i, a' Q' i = a Q (ρ i)

theorem relabel_pass (hx : RelMixture ia ia' sizes sizes' feat feat' a a' ρ σ)
    (hen : IsIdealGas en sizes feat) (hen' : IsIdealGas en' sizes' feat')
    (hes : Scales es a) (hes' : Scales es' a')
    (hrev : tries ≤ count ∨ ∀ m, p.killThreshold < s.Js m)
    (h : iterate (ia.toI M) en es rng p tries count s = .ok t)
    (h' : iterate (ia'.toI M) en' es' rng' p tries count s' = .ok t')
    (hs : RelState σ τ s s') : SameResult ρ σ τ t t' ∧ t.reviveCount = count ∧
      t'.reviveCount = count := by
  have hf := iterate_facts h
  have hf' := iterate_facts h'
  have hrv : reviveBlock rng p tries s.Js s.omegas s.g count = ⟨s.Js, s.omegas, s.g, count⟩ := by
    rcases hrev with hr | hr
    · exact reviveBlock_exhausted hr
    · exact reviveBlock_all_alive hr
  have hrv' : reviveBlock rng' p tries s'.Js s'.omegas s'.g count =
      ⟨s'.Js, s'.omegas, s'.g, count⟩ := by
    rcases hrev with hr | hr
    · exact reviveBlock_exhausted hr
    · exact reviveBlock_all_alive fun m => by rw [hs.Js]; exact hr _
  have emask : ∀ m, t'.masks m = t.masks (τ m) := by
    intro m
    rw [hf.mask_eq, hf'.mask_eq, hrv, hrv']
    simp only [hs.Js]
  have eJ : ∀ m, t'.JsOld m = t.JsOld (τ m) := by
    intro m
    rw [hf.JsOld, hf'.JsOld, hrv, hrv', emask]
    simp only [hs.Js]
  have eom : RelMat σ τ t.omegasOld t'.omegasOld := by
    rw [hf.omegasOld, hf'.omegasOld, hrv, hrv']
    exact hs.omegas
  have esum : ∀ f f' : Fin M → ℝ, (∀ m, f' m = f (τ m)) → ∑ m, f' m = ∑ m, f m := by
    intro f f' hff
    rw [← Equiv.sum_comp τ f]
    exact Finset.sum_congr rfl fun m _ => hff m
  have esumS : ∀ f f' : Fin S → ℝ, (∀ m, f' m = f (σ m)) → ∑ m, f' m = ∑ m, f m := by
    intro f f' hff
    rw [← Equiv.sum_comp σ f]
    exact Finset.sum_congr rfl fun m _ => hff m
  have esumC : ∀ f f' : Fin C → ℝ, (∀ m, f' m = f (ρ m)) → ∑ m, f' m = ∑ m, f m := by
    intro f f' hff
    rw [← Equiv.sum_comp ρ f]
    exact Finset.sum_congr rfl fun m _ => hff m
  have enV : t'.nValid = t.nValid := by
    rw [hf.nValid, hf'.nValid]
    exact esum _ _ emask
  have eQ : ∀ i, t'.Qs i = t.Qs (ρ i) := by
    intro i
    rw [hf.Qs_eq hen, hf'.Qs_eq hen', esum _ _ eJ]
    congr 1
    refine esum _ _ fun m => ?_
    rw [eom, eJ, hx.feat, hx.sizes]
  have ephi : RelMat ρ τ t.phisComp t'.phisComp := by
    intro i m
    rw [hf.phis_eq hen hes, hf'.phis_eq hen' hes', hx.scale _ _ eQ, emask, eom, hx.feat, hx.sizes]
  have einc : ∀ m, t'.incomp m = t.incomp (τ m) := by
    intro m
    rw [hf.incomp_eq hes, hf'.incomp_eq hes', emask, esumC (fun i => t.phisComp i (τ m)) _ fun i => ephi i m]
  have epf : RelMat σ τ t.phisFeat t'.phisFeat := by
    intro r m
    rw [hf.phisFeat_eq hen, hf'.phisFeat_eq hen']
    refine esumC (fun i => if feat i = σ r then t.phisComp i (τ m) else 0) _ fun i => ?_
    rw [ephi, ← hx.feat]
    simp only [EmbeddingLike.apply_eq_iff_eq]
  have ecp : List.Forall₂ (RelCons σ τ) t.consPrep t'.consPrep := by
    rw [hf.consPrep, hf'.consPrep]
    rw [List.forall₂_map_left_iff, List.forall₂_map_right_iff]
    exact hs.cons.imp fun c c' hc => RelCons.prepare hc epf eJ emask
  have epot : RelMat σ τ t.potential t'.potential := by
    intro r m
    rw [hf.potential, hf'.potential]
    exact esumS (fun q => ia.chis (σ r) q * t.phisFeat q (τ m)) _ fun q => by rw [hx.chis, epf]
  have exi : ∀ m, t'.xi m = t.xi (τ m) := by
    intro m
    have ec1 : (ia'.toI M).incompCoef t'.phisFeat = (ia.toI M).incompCoef t.phisFeat := hx.coef
    rw [hf.xi, hf'.xi, ec1, einc, emask,
      esumS (fun r => t.omegasOld r (τ m) - t.potential r (τ m)) _ fun r => by rw [eom, epot],
      esumS (fun r => consPot t.consPrep r (τ m)) _ fun r => consPot_relabel ecp r m]
  have evd : ∀ m, (ia'.toI M).volumeDerivative t'.potential t'.phisFeat m =
      (ia.toI M).volumeDerivative t.potential t.phisFeat (τ m) := by
    intro m
    have hvd : ∀ (x : FHCompiled S ℝ) (pot pf : Mat S M ℝ) (m : Fin M),
        (x.toI M).volumeDerivative pot pf m = (∑ r, pot r m * pf r m) * (1 / 2) := by
      intro x pot pf m
      show (forRange S (fun _ => 0) fun r (ans : Vec M ℝ) m =>
        ans m + pot r m * pf r m) m * (1 / 2) = _
      rw [forRange_add_vec (fun _ => 0) (fun r m => pot r m * pf r m), zero_add]
    rw [hvd, hvd, esumS (fun r => t.potential r (τ m) * t.phisFeat r (τ m)) _ fun r => by
      rw [epot, epf]]
  have ele : ∀ m, t'.localEnergy m = t.localEnergy (τ m) := by
    intro m
    rw [hf.localEnergy, hf'.localEnergy, evd, hen.volumeDerivative, hen'.volumeDerivative, exi, einc,
      consVd_relabel ecp, esumS (fun r => (t.potential r (τ m) + consPot t.consPrep r (τ m) +
        t.xi (τ m)) * t.phisFeat r (τ m)) _ fun r => by rw [epot, consPot_relabel ecp, epf],
      esumC (fun i => t.phisComp i (τ m) / sizes i) _ fun i => by rw [ephi, hx.sizes]]
  have emean : t'.localEnergyMean = t.localEnergyMean := by
    rw [hf.localEnergyMean, hf'.localEnergyMean, enV,
      esum (fun m => t.localEnergy m * t.JsOld m) _ fun m => by rw [ele, eJ]]
  have ejd : ∀ m, t'.JsDiff m = t.JsDiff (τ m) := by
    intro m
    rw [hf.JsDiff, hf'.JsDiff, emean, ele, emask]
  have emj : t'.maxAbsJsDiff = t.maxAbsJsDiff := by
    rw [hf.maxAbsJsDiff, hf'.maxAbsJsDiff, ← npMax_relabel τ fun m => |t.JsDiff m|]
    simp only [ejd]
  have efac : t'.factor = t.factor := by rw [hf.factor, hf'.factor, emj]
  have eod : RelMat σ τ t.omegaDiff t'.omegaDiff := by
    intro r m
    rw [hf.omegaDiff, hf'.omegaDiff, epot, consPot_relabel ecp, exi, emask, eom]
  have ec := hf'.cons
  rw [efac] at ec
  obtain ⟨ec1, ec2⟩ := evolveCons_relabel ecp emask hf.cons ec
  refine ⟨⟨fun r m => ?_, fun m => ?_, eJ, ec1, ephi, epf, ?_, ?_, emj, ec2⟩, ?_, ?_⟩
  · rw [hf.omegas, hf'.omegas, efac, eod, emask, eom]
  · rw [hf.Js, hf'.Js, eJ, efac, ejd, emask, enV,
      esum (fun k => (t.JsOld k + t.factor * p.acceptanceJs * t.JsDiff k) * t.masks k) _ fun k => by
        rw [eJ, ejd, emask]]
  · rw [hf.maxAbsIncomp, hf'.maxAbsIncomp, ← npMax_relabel τ fun m => |t.incomp m|]
    simp only [einc]
  · rw [hf.maxAbsOmegaDiff, hf'.maxAbsOmegaDiff, rowsMax_relabel eod]
  · rw [hf.reviveCount, hrv]
  · rw [hf'.reviveCount, hrv']

theorem Spec.SameResult.state (h : SameResult ρ σ τ t t') : RelState σ τ t.state t'.state :=
  ⟨h.omegas, h.Js, h.cons⟩

theorem Spec.SameResult.met (h : SameResult ρ σ τ t t') {thr tol : ℝ} :
    Met thr tol t' ↔ Met thr tol t := by
  have hc : ∀ v v' : Vec M ℝ, (∀ m, v' m = v (τ m)) →
      Fintype.card {m // thr < v' m} = Fintype.card {m // thr < v m} := by
    intro v v' hv
    exact Fintype.card_congr (τ.subtypeEquiv fun m => by rw [hv])
  unfold Met
  rw [hc _ _ h.Js, hc _ _ h.JsOld, h.maxAbsIncomp, h.maxAbsOmegaDiff, h.maxAbsJsDiff,
    h.maxConstraintResidue]

/-- If the reported number of revivals did not grow in a pass then none was tried. -/
theorem no_revival (hok : rng.Ok)
    (h : IterFacts (ia.toI M) en es rng p tries count s t) :
    count ≤ t.reviveCount ∧
      (t.reviveCount = count → tries ≤ count ∨ ∀ m, p.killThreshold < s.Js m) := by
  obtain ⟨-, h2⟩ := reviveBlock_spec (S := S) (p := p) (tries := tries) (Js := s.Js)
    (om := s.omegas) (g := s.g) (count := count) hok
  rw [h.reviveCount]
  split at h2
  · rw [h2.1]
    refine ⟨by omega, fun h0 => Or.inr fun m => ?_⟩
    by_contra hm
    have : 0 < (Finset.univ.filter fun m => s.Js m ≤ p.killThreshold).card :=
      Finset.card_pos.mpr ⟨m, by simpa using hm⟩
    omega
  · rw [h2]
    exact ⟨le_rfl, fun _ => Or.inl (by omega)⟩

end Pass

section Copy

variable {K G : Type} [Field K] [LinearOrder K] [IsStrictOrderedRing K] {R M : ℕ}

/-- Without dead compartments there is nothing to copy. -/
theorem reviveByCopy_all_alive {rng : Rng G K} {Js : Vec M K} {T : Mat R M K} {thr : K} {g : G}
    (hthr : 0 ≤ thr) (h : ∀ m, thr < Js m) :
    ∃ l n, reviveByCopy rng Js T thr g = .ok ⟨Js, T, l, n, g, 0⟩ := by
  obtain ⟨dead, living, nl, ds, h1, h2, h3, h4, h5⟩ := classify_spec Js hthr
  have hds : ds = [] := by
    rw [List.eq_nil_iff_forall_not_mem]
    intro d hd
    exact absurd ((h4 d).1 hd) (by simpa using h d)
  refine ⟨living, nl, ?_⟩
  simp [reviveByCopy, h1, hds, copyDead]

end Copy

section Run

variable {G : Type} {C S M : ℕ} [NeZero M]
variable {e e' : RunEnv C S M ℝ G} {ia ia' : FHCompiled S ℝ} {sizes sizes' : Vec C ℝ}
  {feat feat' : Fin C → Fin S} {a a' : Vec C ℝ → Vec C ℝ}
  {ρ : Fin C ≃ Fin C} {σ : Fin S ≃ Fin S} {τ : Fin M ≃ Fin M}

/-- Two environments that describe the same mixture up to the labels and have the same numerical
parameters. -/
structure RelEnv (e e' : RunEnv C S M ℝ G) (ρ : Fin C ≃ Fin C) (σ : Fin S ≃ Fin S)
    (ia ia' : FHCompiled S ℝ) (sizes sizes' : Vec C ℝ)
    (feat feat' : Fin C → Fin S) (a a' : Vec C ℝ → Vec C ℝ) : Prop where
  mixture : RelMixture ia ia' sizes sizes' feat feat' a a' ρ σ
  ia : e.ia = ia.toI M
  ia' : e'.ia = ia'.toI M
  en : IsIdealGas e.en sizes feat
  en' : IsIdealGas e'.en sizes' feat'
  es : Scales e.es a
  es' : Scales e'.es a'
  params : e'.params = e.params
  rng : e.rng.Ok

theorem Spec.Passes.relabel (hr : RelEnv e e' ρ σ ia ia' sizes sizes' feat feat' a a')
    {b : ℤ} {n count : ℕ} {s s' : State C S M ℝ G} {t t' : Trace C S M ℝ G}
    (h : Passes e b n count s t) (h' : Passes e' b n count s' t')
    (hs : RelState σ τ s s') (hc : t.reviveCount = count) :
    SameResult ρ σ τ t t' ∧ t'.reviveCount = count := by
  have mono : ∀ {n : ℕ} {t : Trace C S M ℝ G}, Passes e b n count s t → count ≤ t.reviveCount := by
    intro n t h
    refine h.inv (fun t => count ≤ t.reviveCount) (fun t ht => ?_) (fun t t2 h1 h2 => ?_)
    · rw [hr.ia] at ht
      exact (no_revival hr.rng (iterate_facts ht)).1
    · rw [hr.ia] at h2
      exact h1.trans (no_revival hr.rng (iterate_facts h2)).1
  induction n generalizing t t' with
  | zero => exact absurd h.pos (by omega)
  | succ n ih =>
    cases h with
    | one h1 =>
      cases h' with
      | one h2 =>
        rw [hr.ia] at h1
        rw [hr.ia', hr.params] at h2
        have := relabel_pass hr.mixture hr.en hr.en' hr.es hr.es'
          ((no_revival hr.rng (iterate_facts h1)).2 hc) h1 h2 hs
        exact ⟨this.1, this.2.2⟩
      | more h2 _ => exact absurd h2.pos (by omega)
    | @more _ _ _ t1 _ h1 h2 =>
      cases h' with
      | one _ => exact absurd h1.pos (by omega)
      | @more _ _ _ t1' _ h1' h2' =>
        rw [hr.ia] at h2
        rw [hr.ia', hr.params] at h2'
        have hm := mono h1
        have hn := no_revival hr.rng (iterate_facts h2)
        have hc1 : t1.reviveCount = count := by omega
        obtain ⟨i1, i2⟩ := ih h1 h1' hc1
        rw [hc1] at h2 hn
        rw [i2] at h2'
        have := relabel_pass hr.mixture hr.en hr.en' hr.es hr.es' (hn.2 hc) h2 h2' i1.state
        exact ⟨this.1, this.2.2⟩

theorem Spec.Chain.mono {inner : ℕ} {ts : List (Trace C S M ℝ G)} {s s1 : State C S M ℝ G}
    {b b1 : ℤ} (h : Chain e inner ts s b s1 b1) : b1 ≤ b := by
  induction h with
  | nil => exact le_rfl
  | cons _ _ ih => omega

theorem Spec.Chain.relabel (hr : RelEnv e e' ρ σ ia ia' sizes sizes' feat feat' a a')
    {b b1 b1' : ℤ} {inner : ℕ} {ts ts' : List (Trace C S M ℝ G)} {s s' s1 s1' : State C S M ℝ G}
    (h : Chain e inner ts s b s1 b1) (h' : Chain e' inner ts' s' b s1' b1')
    (hs : RelState σ τ s s') (hb : b1 = b) :
    (∀ i (hi : i < ts.length) (hi' : i < ts'.length), SameResult ρ σ τ ts[i] ts'[i]) ∧
    (ts'.length ≤ ts.length → b1' = b) := by
  induction h generalizing ts' s' with
  | nil =>
    refine ⟨fun i hi => by simp at hi, fun hl => ?_⟩
    cases h' with
    | nil => rfl
    | cons => simp at hl
  | @cons ts s s1 b b1 t h1 h2 ih =>
    cases h' with
    | nil => exact ⟨fun i _ hi => by simp at hi, fun _ => rfl⟩
    | @cons ts' _ _ _ _ t' h1' h2' =>
      have hm := h2.mono
      have hz : t.reviveCount = 0 := by omega
      obtain ⟨j1, j2⟩ := h1.relabel hr h1' hs hz
      rw [hz] at ih
      rw [j2] at h2'
      simp only [Nat.cast_zero, sub_zero] at ih h2'
      obtain ⟨i1, i2⟩ := ih h2' j1.state hb
      refine ⟨fun i hi hi' => ?_, fun hl => i2 (by simpa using hl)⟩
      cases i with
      | zero => exact j1
      | succ i => exact i1 i (by simpa using hi) (by simpa using hi')

/-- Two runs without revival and without dead compartments at the end. -/
theorem relabel_run (hr : RelEnv e e' ρ σ ia ia' sizes sizes' feat feat' a a')
    (hthr : 0 ≤ e.params.killThreshold)
    {maxSteps : ℚ} {tol : ℝ} {interval b : ℤ} {st st' : State C S M ℝ G} {f f' : RunState C S M ℝ G}
    {ph ph' : Phases M C ℝ} {d d' : Diagnostics ℝ} (hs : RelState σ τ st st')
    (h : runImpl e maxSteps tol interval st b = (f, .ok (ph, d)))
    (h' : runImpl e' maxSteps tol interval st' b = (f', .ok (ph', d')))
    (hrev : d.reviveCountLeft = b) (halive : ∀ m, e.params.killThreshold < f.st.Js m) :
    d' = d ∧ (∀ m, ph'.volumes m = ph.volumes (τ m)) ∧
      (∀ m i, ph'.fractions m i = ph.fractions (τ m) (ρ i)) ∧ RelState σ τ f.st f'.st := by
  have hthr' : 0 ≤ e'.params.killThreshold := by rw [hr.params]; exact hthr
  obtain ⟨tr, inner, ts, t, c, a1, a2, hf⟩ := run_facts hthr h
  obtain ⟨tr', inner', ts', t', c', a1', a2', hf'⟩ := run_facts hthr' h'
  obtain rfl := Except.ok.inj (a1.symm.trans a1')
  obtain rfl := Except.ok.inj (a2.symm.trans a2')
  have hb : f.reviveLeft = b := by rw [← hrev, hf.diag]
  obtain ⟨k1, k2⟩ := hf.chain.relabel hr hf'.chain hs hb
  have hstop' := hf'.stop
  have hnm' := hf'.notMet
  rw [hr.params] at hstop' hnm'
  have hlen : ts.length = ts'.length := by
    rcases lt_trichotomy ts.length ts'.length with hl | hl | hl
    · exfalso
      rcases hf.stop with hk | hmet
      · have := hf'.count
        omega
      · have := k1 ts.length (by simp) (by simp; omega)
        rw [List.getElem_append_right (by simp)] at this
        simp only [Nat.sub_self, List.getElem_cons_zero] at this
        rw [List.getElem_append_left (by omega)] at this
        exact hnm' _ (List.getElem_mem _) (this.met.mpr hmet)
    · exact hl
    · exfalso
      rcases hstop' with hk | hmet
      · have := hf.count
        omega
      · have := k1 ts'.length (by simp; omega) (by simp)
        rw [List.getElem_append_left (by omega), List.getElem_append_right (by simp)] at this
        simp only [Nat.sub_self, List.getElem_cons_zero] at this
        exact hf.notMet _ (List.getElem_mem _) (this.met.mp hmet)
  have hlast : SameResult ρ σ τ t t' := by
    have := k1 ts.length (by simp) (by simp; omega)
    rw [List.getElem_append_right (by simp), List.getElem_append_right (by omega)] at this
    simpa [hlen] using this
  have hb' : f'.reviveLeft = b := k2 (by simp [hlen])
  have hal : ∀ m, e.params.killThreshold < t.Js m := by
    intro m
    have := halive m
    rw [hf.arrays] at this
    exact this
  obtain ⟨l, n, hc⟩ := reviveByCopy_all_alive (rng := e.rng) (T := t.phisComp) (g := t.g) hthr hal
  obtain ⟨l', n', hc'⟩ := reviveByCopy_all_alive (rng := e'.rng) (Js := t'.Js) (T := t'.phisComp)
    (g := t'.g) hthr' (fun m => by rw [hlast.Js, hr.params]; exact hal _)
  obtain rfl := Except.ok.inj (hf.copy.symm.trans hc)
  obtain rfl := Except.ok.inj (hf'.copy.symm.trans hc')
  refine ⟨?_, fun m => ?_, fun m i => ?_, ?_⟩
  · rw [hf.diag, hf'.diag, hlen, hb, hb', hlast.maxAbsIncomp, hlast.maxAbsOmegaDiff,
      hlast.maxAbsJsDiff, hlast.maxConstraintResidue]
  · rw [hf.volumes, hf'.volumes]; exact hlast.Js m
  · rw [hf.fractions, hf'.fractions]; exact hlast.phisComp i m
  · rw [hf.arrays, hf'.arrays]; exact hlast.state

end Run

end Flory
