import Verif.Lemmas.ConsObject
import Verif.Lemmas.PolyObject

/-! # Lemmas for C118 with constraints -/

set_option linter.unusedSectionVars false

namespace Flory

open Spec XReal

variable {G : Type}

/-- C29 and C88 for polydisperse instances given with their sizes. -/
theorem poly_cons_instances {C S M : ℕ} [NeZero M] {e : RunEnv C S M ℝ G} {pia : FHCompiled S ℝ}
    {pen : EntropyInst C S} {pes : EnsembleInst C} {ia : FHCompiled S ℝ} {gas : PolyC C S}
    {es : EnsembleInst C} {st : State C S M ℝ G} {s' : RunState C S M ℝ G} {ph : Phases M C ℝ}
    {d : Diagnostics ℝ} {maxSteps : ℚ} {tol : ℝ} {interval b : ℤ}
    (hok : e.rng.Ok) (hthr : 0 ≤ e.params.killThreshold)
    (e1 : e.ia = pia.toI M) (e2 : e.en = pen.toI M) (e3 : e.es = pes.toI M)
    (h1 : (⟨S, pia⟩ : AnyInteraction) = ⟨S, ia⟩) (h2 : (⟨C, S, pen⟩ : AnyEntropy) = ⟨C, S, .poly gas⟩)
    (h3 : (⟨C, pes⟩ : AnyEnsemble) = ⟨C, es⟩) (hl : ∀ i, 0 < gas.sizes i) (hpos : PositiveEnsemble es)
    (hC : C = ∑ r, gas.perFeat r) {feat : Fin C → Fin S} (hf : IsFeat gas.perFeat feat) (hn : ∀ r, 1 ≤ gas.perFeat r)
    {ns : List (ConsNew S)}
    (hcons : st.cons.map (fun c => (⟨S, consParams c⟩ : AnyConsNew)) = ns.map fun n => ⟨S, n⟩)
    (hq : ∀ c ∈ st.cons, Quiet c)
    (h : runImpl e maxSteps tol interval st b = (s', .ok (ph, d))) :
    (∀ A Cs Ts r k, ConsNew.loc A Cs Ts r k ∈ ns → ∀ p a,
      |∑ i, Cs a (feat i) * ph.fractions p i - Ts a| ≤ d.maxConstraintResidue) ∧
    ∀ w : Vec C ℝ, ∑ i, w i = 0 → (∀ A Cs Ts r k, ConsNew.loc A Cs Ts r k ∈ ns → ∀ a, ∑ i, w i * Cs a (feat i) = 0) →
      ∀ p q, |(∑ i, w i * chemPot (liftChis ia.chis feat) gas.sizes (ph.fractions p) i)
          - ∑ i, w i * chemPot (liftChis ia.chis feat) gas.sizes (ph.fractions q) i| ≤
        (∑ i, |w i|) * (S * d.maxAbsOmegaDiff + |ia.coef| * d.maxAbsIncomp) := by
  have h1' : pia = ia := by simpa using h1
  have h2' : pen = .poly gas := by simpa using h2
  have h3' : pes = es := by simpa using h3
  subst h1' h2' h3'
  have hns : st.cons.map consParams = ns := by
    have hinj : Function.Injective (fun n : ConsNew S => (⟨S, n⟩ : AnyConsNew)) := fun x y hxy => by simpa using hxy
    exact List.map_injective_iff.mpr hinj (by rw [List.map_map]; exact hcons)
  have hg : IsIdealGas e.en gas.sizes feat := by rw [e2]; exact gas.isIdealGas hC hf hn
  have hid : ∀ (v : Vec S ℝ) (row : Vec C ℝ), ∑ r, v r * featFractions feat row r = ∑ i, v (feat i) * row i := by
    intro v row
    unfold featFractions
    simp only [Finset.mul_sum, Finset.sum_filter]
    rw [Finset.sum_comm]
    refine Finset.sum_congr rfl fun i _ => ?_
    simp
  constructor
  · intro A Cs Ts r k hm p a
    rw [← hns] at hm
    obtain ⟨c, hc, hcp⟩ := List.mem_map.mp hm
    cases c with
    | no c => cases hcp
    | glob A c => cases hcp
    | loc A c =>
      cases hcp
      have := (C29_residue_of_run hok hthr hg h).1 _ c hc p a
      simpa only [hid] using this
  · intro w hw hk p q
    have hkeep : ∀ c ∈ st.cons, c.Keeps feat w := by
      intro c hc
      cases c with
      | no c => exact hq _ hc
      | glob A c => trivial
      | loc A c =>
        intro a
        have := hk A c.Cs c.Ts c.acceptanceRatio c.elasticity (by
          rw [← hns]; exact List.mem_map.mpr ⟨_, hc, rfl⟩) a
        simp only [mul_sub, Finset.sum_sub_distrib, ← Finset.sum_mul, hw, zero_mul, sub_zero]
        exact this
    have key : ∀ {a : Vec C ℝ → Vec C ℝ}, Scales e.es a → (∀ i Q, (∀ j, 0 < Q j) → 0 < a Q i) →
        |(∑ i, w i * chemPot (liftChis pia.chis feat) gas.sizes (ph.fractions p) i)
          - ∑ i, w i * chemPot (liftChis pia.chis feat) gas.sizes (ph.fractions q) i| ≤
        (∑ i, |w i|) * (S * d.maxAbsOmegaDiff + |pia.coef| * d.maxAbsIncomp) := by
      intro a hes ha
      have := C88_exchange_balance hok hthr e1 hg hes h hkeep (fun i _ => (hl i).ne') (fun i _ => ha i) p q
      rw [hw, abs_zero, zero_mul, add_zero] at this
      exact this
    cases pes with
    | canonical es =>
      have hs : Scales e.es fun Q i => es.phiMeans i / Q i := by rw [e3]; exact es.scales
      exact key hs fun i Q hQ => div_pos (hpos i) (hQ i)
    | grand es =>
      have hs : Scales e.es fun _ i => es.scaledActivity i := by rw [e3]; exact es.scales
      exact key hs fun i _ _ => hpos i

/-- The same for a run of a finder. -/
theorem poly_cons_run {env : FinderEnv G} (hrng : env.rng.Ok) {f' f'' : Finder G} {ms : Option ℚ}
    {tol : Option ℝ} {int : Option ℤ} (hthr' : 0 ≤ f'.params.killThreshold) {P C S : ℕ}
    {ph : Phases P C ℝ} {d : Diagnostics ℝ} {ia : FHCompiled S ℝ} {gas : PolyC C S} {es : EnsembleInst C}
    (hia2 : f'.interaction = ⟨_, ia⟩) (hen2 : f'.entropy = ⟨_, _, .poly gas⟩) (hes2 : f'.ensemble = ⟨_, es⟩)
    (hl : ∀ i, 0 < gas.sizes i) (hpos : PositiveEnsemble es) (hC : C = ∑ r, gas.perFeat r)
    {feat : Fin C → Fin S} (hf : IsFeat gas.perFeat feat) (hn : ∀ r, 1 ≤ gas.perFeat r)
    {ns : List (ConsNew S)} (henf : enforced f' = ns.map fun n => ⟨S, n⟩) (hq : QuietFinder f')
    (k1 : P = f'.numPart) (hr : f'.run env ms tol int = (f'', .ok ⟨P, C, ph, d⟩)) :
    (∀ A Cs Ts r k, ConsNew.loc A Cs Ts r k ∈ ns → ∀ p a,
      |∑ i, Cs a (feat i) * ph.fractions p i - Ts a| ≤ d.maxConstraintResidue) ∧
    ∀ w : Vec C ℝ, ∑ i, w i = 0 → (∀ A Cs Ts r k, ConsNew.loc A Cs Ts r k ∈ ns → ∀ a, ∑ i, w i * Cs a (feat i) = 0) →
      ∀ p q, |(∑ i, w i * chemPot (liftChis ia.chis feat) gas.sizes (ph.fractions p) i)
          - ∑ i, w i * chemPot (liftChis ia.chis feat) gas.sizes (ph.fractions q) i| ≤
        (∑ i, |w i|) * (S * d.maxAbsOmegaDiff + |ia.coef| * d.maxAbsIncomp) := by
  have hM : P ≠ 0 := by
    intro h0
    rw [k1] at h0
    cases hp : f'.parts with
    | none => rw [run_none hp] at hr; cases hr
    | some p => rw [run_zero hp h0] at hr; cases hr
  cases hp : f'.parts with
  | none => rw [run_none hp] at hr; cases hr
  | some p =>
    have : NeZero f'.numPart := ⟨k1 ▸ hM⟩
    rw [run_some hp] at hr
    obtain ⟨e1, e2, e3, e4⟩ := parts_eq.mp hp
    rcases hr' : runImpl (f'.runEnv env p) (ms.getD f'.maxSteps) (tol.getD f'.tolerance)
        (int.getD f'.interval) (f'.state p.cons) f'.reviveLeft with ⟨s, x⟩
    rw [hr'] at hr
    cases x with
    | error e => cases hr
    | ok x =>
      obtain ⟨ph', d'⟩ := x
      cases hr
      have hS2 : f'.numFeat = S := congrArg AnyEntropy.numFeat (e2.symm.trans hen2)
      subst hS2
      refine poly_cons_instances (e := f'.runEnv env p) (gas := gas) hrng hthr' rfl rfl rfl (e1.symm.trans hia2)
        (e2.symm.trans hen2) (e3.symm.trans hes2) hl hpos hC hf hn (st := f'.state p.cons) ?_ ?_ hr'
      · rw [← henf]
        unfold enforced
        rw [e4, List.map_map]
        rfl
      · intro c hc
        exact hq ⟨f'.numFeat, true, c⟩ (by rw [e4]; exact List.mem_map.mpr ⟨c, hc, rfl⟩)

/-- The workflow of the model for components that share features, with local and global constraints. -/
theorem poly_cons_workflow {env : FinderEnv G} (hrng : env.rng.Ok) (hcr : CrashKeeps env) (hcq : CrashQuiet env) {g : G}
    {S : ℕ} (hS : S ≠ 0) {o : FHBlock S ℝ} {gas : PolyEntropy S} (hCp : 1 ≤ ∑ r, gas.perFeat r)
    {ensemble : InstObj AnyEnsemble} {es : EnsembleInst (∑ r, gas.perFeat r)}
    {cs : List (LinearConstraint S)} {a : FinderArgs} {f : Finder G}
    (h : Finder.create env g o.obj gas.obj ensemble (.many (cs.map LinearConstraint.obj)) a = .ok f)
    (hes : ensemble.compiled a.kwargs = .ok ⟨_, es⟩) (hpos : PositiveEnsemble es)
    (hl : ∀ i, 0 < gas.gas.sizes i) (hn : ∀ r, 1 ≤ gas.perFeat r)
    {feat : Fin (∑ r, gas.perFeat r) → Fin S} (hf : IsFeat gas.perFeat feat) (hcs : ∀ c ∈ cs, c.numCons ≠ 0)
    (hthr : 0 ≤ a.killThreshold) (hthr1 : a.killThreshold < 1) (hb : 0 < a.JsStepUpperBound)
    (hthr2 : 2 * a.killThreshold * ((f.numPart : ℝ) - 1) < 1) (hcrit : a.criterion = "standard")
    {ops : List FinderOp} (hops : ∀ op ∈ ops, ¬ IsSet op) (ms : Option ℚ) (tol : Option ℝ)
    (int : Option ℤ) (hms : 0 < ms.getD a.maxSteps) (hint : 0 < int.getD a.interval) :
    haveI : NeZero S := ⟨hS⟩
    ∃ (P : ℕ) (ph : Phases P (∑ r, gas.perFeat r) ℝ) (d : Diagnostics ℝ),
      ((Finder.steps env ops f).1.run env ms tol int).2 = .ok ⟨P, _, ph, d⟩ ∧
      P = f.numPart ∧
      (∀ p, a.killThreshold < ph.volumes p ∧ |∑ i, ph.fractions p i - 1| ≤ d.maxAbsIncomp ∧
        ∀ i, 0 < ph.fractions p i) ∧
      (∀ c ∈ cs, c.isGlobal = false → ∀ p a, |∑ i, c.Cs a (feat i) * ph.fractions p i - c.Ts a| ≤ d.maxConstraintResidue) ∧
      ∀ w : Vec (∑ r, gas.perFeat r) ℝ, ∑ i, w i = 0 → (∀ c ∈ cs, c.isGlobal = false → ∀ a, ∑ i, w i * c.Cs a (feat i) = 0) →
        ∀ p q, |(∑ i, w i * chemPot (liftChis o.chisFeat feat) gas.gas.sizes (ph.fractions p) i)
            - ∑ i, w i * chemPot (liftChis o.chisFeat feat) gas.gas.sizes (ph.fractions q) i| ≤
          (∑ i, |w i|) * (S * d.maxAbsOmegaDiff
            + |(o.compile ((a.kwargs.get? "additional_chis_shift").getD 1)).coef| * d.maxAbsIncomp) := by
  have : NeZero S := ⟨hS⟩
  have hne : ∀ q ∈ consObjs (.many (cs.map LinearConstraint.obj)), ∀ kw x, q.impl kw = .ok x → NonEmpty x.2 := by
    intro q hq kw x hx
    obtain ⟨c, hc, rfl⟩ := List.mem_map.mp hq
    unfold LinearConstraint.obj at hx
    obtain rfl := Except.ok.inj hx
    dsimp only
    split <;> exact hcs c hc
  obtain ⟨out, hout⟩ := (C34_histories hrng h
    (fun kw x hx => by
      cases hx
      exact ⟨⟨rfl, hn⟩, hCp⟩)
    hne hthr hthr1 hb (ops := ops)
    (fun op hop => by
      have := hops op hop
      cases op <;> simp_all [WellMade, IsSet])
    (fun pre op post he hset => absurd hset (hops op (by rw [he]; simp)))).2 hcrit hthr2 ms tol int hms hint
  obtain ⟨ia, en, es', h1, h2, h3, -, h4, hc⟩ := create_ok h
  have hia : ia = ⟨S, o.compile ((a.kwargs.get? "additional_chis_shift").getD 1)⟩ := by
    rw [InstObj.compiled_eq] at h1
    simp only [FHBlock.obj, dif_neg hS, List.mem_singleton, if_true] at h1
    exact (Except.ok.inj h1).symm
  have hen : en = ⟨_, S, .poly gas.compile⟩ := by
    rw [InstObj.compiled_eq] at h2
    exact (Except.ok.inj h2).symm
  subst hen
  have hes' : es' = ⟨_, es⟩ := Except.ok.inj (h3.symm.trans hes)
  have hak := akin_steps hcr f hops
  obtain ⟨P, C', ph, d⟩ := out
  have hf1 : (Finder.steps env ops f).1.interaction = f.interaction := by
    obtain ⟨_, _, _, _, _, _, _, _, e, -⟩ := hak; rw [e]
  have hf2 : (Finder.steps env ops f).1.entropy = f.entropy := by
    obtain ⟨_, _, _, _, _, _, _, _, e, -⟩ := hak; rw [e]
  have hf3 : (Finder.steps env ops f).1.ensemble = f.ensemble := by
    obtain ⟨_, _, _, _, _, _, _, _, e, -⟩ := hak; rw [e]
  have hf4 : (Finder.steps env ops f).1.params = f.params := by
    obtain ⟨_, _, _, _, _, _, _, _, e, -⟩ := hak; rw [e]
  have hf5 : (Finder.steps env ops f).1.numComp = f.numComp := by
    obtain ⟨_, _, _, _, _, _, _, _, e, -⟩ := hak; rw [e]
  have hf6 : (Finder.steps env ops f).1.numPart = f.numPart := by
    obtain ⟨_, _, _, _, _, _, _, _, e, -⟩ := hak; rw [e]
  have hf7 := hak.enforced
  have hq := quiet_steps hcq f hops (quiet_created h)
  have henf : enforced (Finder.steps env ops f).1 = (newCons a.kwargs cs).map fun n => ⟨S, n⟩ := by
    rw [hf7, hc.enforced, initConstraints_linear, List.map_map]
    exact List.map_congr_left fun n _ => PackedCons.ofNew_enforces _
  set f' := (Finder.steps env ops f).1 with hf'
  rcases hr : f'.run env ms tol int with ⟨f'', res⟩
  rw [hr] at hout
  dsimp only at hout
  subst hout
  have hthr' : 0 ≤ f'.params.killThreshold := by rw [hf4, hc.params]; exact hthr
  obtain ⟨k1, k2, -, k4⟩ := C40_finder hrng hthr' (by rw [hf2, hc.entropy]; exact ⟨rfl, hn⟩) hr
  have hCC : C' = ∑ r, gas.perFeat r := by
    dsimp only at k2
    rw [k2, hf5, hc.numComp]
  subst hCC
  have hes2 : f'.ensemble = ⟨_, es⟩ := by rw [hf3, hc.ensemble, hes']
  dsimp only at k1 k4
  have hloc : ∀ c ∈ cs, c.isGlobal = false → ∃ r k, ConsNew.loc c.numCons c.Cs c.Ts r k ∈ newCons a.kwargs cs := by
    intro c hc hg
    exact ⟨_, _, local_mem_newCons hc hg⟩
  have hloc' : ∀ A Cs Ts r k, ConsNew.loc A Cs Ts r k ∈ newCons a.kwargs cs →
      ∃ c ∈ cs, c.isGlobal = false ∧ ∃ e : c.numCons = A, e ▸ c.Cs = Cs := fun _ _ _ _ _ => newCons_local
  have hmain : (∀ A Cs Ts r k, ConsNew.loc A Cs Ts r k ∈ newCons a.kwargs cs → ∀ p a,
      |∑ i, Cs a (feat i) * ph.fractions p i - Ts a| ≤ d.maxConstraintResidue) ∧
    ∀ w : Vec _ ℝ, ∑ i, w i = 0 → (∀ A Cs Ts r k, ConsNew.loc A Cs Ts r k ∈ newCons a.kwargs cs →
        ∀ a, ∑ i, w i * Cs a (feat i) = 0) →
      ∀ p q, |(∑ i, w i * chemPot (liftChis o.chisFeat feat) gas.gas.sizes (ph.fractions p) i)
          - ∑ i, w i * chemPot (liftChis o.chisFeat feat) gas.gas.sizes (ph.fractions q) i| ≤
        (∑ i, |w i|) * (S * d.maxAbsOmegaDiff
          + |(o.compile ((a.kwargs.get? "additional_chis_shift").getD 1)).coef| * d.maxAbsIncomp) := by
    have hia2 : f'.interaction = ⟨S, o.compile ((a.kwargs.get? "additional_chis_shift").getD 1)⟩ := by
      rw [hf1, hc.interaction, hia]
    have hen2 : f'.entropy = ⟨_, S, .poly gas.compile⟩ := by rw [hf2, hc.entropy]
    clear_value f'
    exact poly_cons_run (ia := o.compile ((a.kwargs.get? "additional_chis_shift").getD 1)) (gas := gas.compile) hrng hthr'
      hia2 hen2 hes2 hl hpos rfl hf hn henf hq k1 hr
  refine ⟨P, ph, d, rfl, k1.trans hf6, fun p => ?_, fun c hc hg p a => ?_, fun w hw hk => hmain.2 w hw ?_⟩
  · refine ⟨by have := (k4 p).1; rwa [hf4, hc.params] at this, (k4 p).2.1, fun i => ?_⟩
    cases es with
    | canonical e => exact ((k4 p).2.2.1 e hes2 i).1 (hpos i)
    | grand e => exact ((k4 p).2.2.2 e hes2 i).1 (hpos i)
  · obtain ⟨r, k, hm⟩ := hloc c hc hg
    exact hmain.1 _ _ _ _ _ hm p a
  · intro A Cs Ts r k hm
    obtain ⟨c, hc, hg, rfl, rfl⟩ := hloc' A Cs Ts r k hm
    exact hk c hc hg

end Flory
