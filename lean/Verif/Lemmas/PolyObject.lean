import Verif.Spec.PolyObject
import Verif.Lemmas.WorkflowObject

/-! # Lemmas for C118 -/

set_option linter.unusedSectionVars false

namespace Flory

open Spec XReal

variable {G : Type}

theorem pack_poly {a : Gen.IdealGasPolydispersedEntropyCompiledAttrs} {x : AnyEntropy} (h : SamePolyC a x) :
    a.pack = x := by
  obtain ⟨C, S, e, rfl, h1, h2, h3, h4⟩ := h
  obtain ⟨s, n⟩ := e
  rcases a with ⟨⟩
  dsimp only at h1 h2 h3 h4
  subst h1 h2
  unfold Gen.IdealGasPolydispersedEntropyCompiledAttrs.pack
  congr 3
  · funext i
    exact h3.get i
  · funext r
    exact h4.get r

/-- What the constructor of the entropy makes of full arrays. -/
theorem poly_new {S : ℕ} (n : Vec S ℕ) (l : Vec (∑ r, n r) ℝ) :
    PolyEntropy.new S (some (.ofVec l)) (.ofVec n) = .ok ⟨n, ⟨l⟩⟩ := by
  obtain ⟨p, hp, hp'⟩ := convertAndBroadcast_vec n
  obtain ⟨b, hb, hb'⟩ := convertAndBroadcast_vec l
  unfold PolyEntropy.new
  rw [hp]
  subst hp'
  unfold convertAndBroadcast at hb
  unfold GasEntropy.new
  simp only [hb, bind_ok, hb']
  rfl

/-- C39 for polydisperse instances given with their sizes. -/
theorem poly_balance_instances {C S M : ℕ} [NeZero M] {e : RunEnv C S M ℝ G} {pia : FHCompiled S ℝ}
    {pen : EntropyInst C S} {pes : EnsembleInst C} {ia : FHCompiled S ℝ} {gas : PolyC C S}
    {es : EnsembleInst C} {st : State C S M ℝ G} {s' : RunState C S M ℝ G} {ph : Phases M C ℝ}
    {d : Diagnostics ℝ} {maxSteps : ℚ} {tol : ℝ} {interval b : ℤ}
    (hok : e.rng.Ok) (hthr : 0 ≤ e.params.killThreshold)
    (e1 : e.ia = pia.toI M) (e2 : e.en = pen.toI M) (e3 : e.es = pes.toI M)
    (h1 : (⟨S, pia⟩ : AnyInteraction) = ⟨S, ia⟩) (h2 : (⟨C, S, pen⟩ : AnyEntropy) = ⟨C, S, .poly gas⟩)
    (h3 : (⟨C, pes⟩ : AnyEnsemble) = ⟨C, es⟩) (hl : ∀ i, 0 < gas.sizes i) (hpos : PositiveEnsemble es)
    (hC : C = ∑ r, gas.perFeat r) {feat : Fin C → Fin S} (hf : IsFeat gas.perFeat feat) (hn : ∀ r, 1 ≤ gas.perFeat r)
    (hcons : ∀ c ∈ st.cons, c.NotLocal)
    (h : runImpl e maxSteps tol interval st b = (s', .ok (ph, d))) (p q : Fin M) (i : Fin C) :
    |chemPot (liftChis ia.chis feat) gas.sizes (ph.fractions p) i
        - chemPot (liftChis ia.chis feat) gas.sizes (ph.fractions q) i| ≤ errorBound S ia.coef d := by
  have h1' : pia = ia := by simpa using h1
  have h2' : pen = .poly gas := by simpa using h2
  have h3' : pes = es := by simpa using h3
  subst h1' h2' h3'
  unfold errorBound
  have hg : IsIdealGas e.en gas.sizes feat := by rw [e2]; exact gas.isIdealGas hC hf hn
  cases pes with
  | canonical es =>
    have hs : Scales e.es fun Q i => es.phiMeans i / Q i := by rw [e3]; exact es.scales
    exact C39_chemical_balance hok hthr e1 hg hs hcons h (hl i).ne' (fun _ hQ => div_pos (hpos i) (hQ i)) p q
  | grand es =>
    have hs : Scales e.es fun _ i => es.scaledActivity i := by rw [e3]; exact es.scales
    exact C39_chemical_balance hok hthr e1 hg hs hcons h (hl i).ne' (fun _ _ => hpos i) p q

/-- A run of a finder whose instances are polydisperse. -/
theorem poly_run_balance {env : FinderEnv G} (hrng : env.rng.Ok) {f f' : Finder G} {ms : Option ℚ}
    {tol : Option ℝ} {int : Option ℤ} {out : RunOut} (hthr : 0 ≤ f.params.killThreshold) {S : ℕ}
    {ia : FHCompiled S ℝ} {gas : PolyC out.numComp S} {es : EnsembleInst out.numComp}
    (hia : f.interaction = ⟨_, ia⟩) (hen : f.entropy = ⟨_, _, .poly gas⟩) (hes : f.ensemble = ⟨_, es⟩)
    (hl : ∀ i, 0 < gas.sizes i) (hpos : PositiveEnsemble es) (hC : out.numComp = ∑ r, gas.perFeat r)
    {feat : Fin out.numComp → Fin S} (hf : IsFeat gas.perFeat feat) (hn : ∀ r, 1 ≤ gas.perFeat r)
    (hcons : ∀ c ∈ enforced f, NoLocal c.2) (hq : QuietFinder f) (h : f.run env ms tol int = (f', .ok out)) :
    out.numPart = f.numPart ∧ out.numPart ≠ 0 ∧
    (∀ p, f.params.killThreshold < out.phases.volumes p ∧
      |∑ i, out.phases.fractions p i - 1| ≤ out.diagnostics.maxAbsIncomp ∧
      ∀ i, 0 < out.phases.fractions p i) ∧
    ∀ p q i, |chemPot (liftChis ia.chis feat) gas.sizes (out.phases.fractions p) i
        - chemPot (liftChis ia.chis feat) gas.sizes (out.phases.fractions q) i| ≤
      errorBound S ia.coef out.diagnostics := by
  have hgood : GoodEntropy f.entropy := by rw [hen]; exact ⟨hC, hn⟩
  obtain ⟨k1, k2, -, k4⟩ := C40_finder hrng hthr hgood h
  have hM : out.numPart ≠ 0 := by
    intro h0
    rw [k1] at h0
    cases hp : f.parts with
    | none => rw [run_none hp] at h; cases h
    | some p => rw [run_zero hp h0] at h; cases h
  refine ⟨k1, hM, fun p => ⟨(k4 p).1, (k4 p).2.1, fun i => ?_⟩, ?_⟩
  · cases es with
    | canonical e => exact ((k4 p).2.2.1 e hes i).1 (hpos i)
    | grand e => exact ((k4 p).2.2.2 e hes i).1 (hpos i)
  cases hp : f.parts with
  | none => rw [run_none hp] at h; cases h
  | some p =>
    have : NeZero f.numPart := ⟨k1 ▸ hM⟩
    rw [run_some hp] at h
    obtain ⟨e1, e2, e3, e4⟩ := parts_eq.mp hp
    rcases hr : runImpl (f.runEnv env p) (ms.getD f.maxSteps) (tol.getD f.tolerance)
        (int.getD f.interval) (f.state p.cons) f.reviveLeft with ⟨s, x⟩
    rw [hr] at h
    have hnl : ∀ c ∈ p.cons, c.NotLocal := by
      intro c hc
      have h1 := hcons ⟨f.numFeat, consParams c⟩ (by
        unfold enforced
        rw [e4, List.map_map]
        exact List.mem_map.mpr ⟨c, hc, rfl⟩)
      have h2 := hq ⟨f.numFeat, true, c⟩ (by rw [e4]; exact List.mem_map.mpr ⟨c, hc, rfl⟩)
      cases c with
      | no c => exact h2
      | loc A c => exact h1
      | glob A c => trivial
    cases x with
    | error e => cases h
    | ok x =>
      obtain ⟨ph, d⟩ := x
      cases h
      have hS : f.numFeat = S := congrArg AnyEntropy.numFeat (e2.symm.trans hen)
      subst hS
      exact poly_balance_instances (e := f.runEnv env p) hrng hthr rfl rfl rfl (e1.symm.trans hia)
        (e2.symm.trans hen) (e3.symm.trans hes) hl hpos hC hf hn hnl hr

/-- The workflow of the model for components that share features. -/
theorem poly_workflow {env : FinderEnv G} (hrng : env.rng.Ok) (hcr : CrashKeeps env) (hcq : CrashQuiet env) {g : G}
    {S : ℕ} (hS : S ≠ 0) {o : FHBlock S ℝ} {gas : PolyEntropy S} (hCp : 1 ≤ ∑ r, gas.perFeat r)
    {ensemble : InstObj AnyEnsemble} {es : EnsembleInst (∑ r, gas.perFeat r)}
    {constraints : ConsArg} {a : FinderArgs} {f : Finder G}
    (h : Finder.create env g o.obj gas.obj ensemble constraints a = .ok f)
    (hes : ensemble.compiled a.kwargs = .ok ⟨_, es⟩) (hpos : PositiveEnsemble es)
    (hl : ∀ i, 0 < gas.gas.sizes i) (hn : ∀ r, 1 ≤ gas.perFeat r)
    {feat : Fin (∑ r, gas.perFeat r) → Fin S} (hf : IsFeat gas.perFeat feat)
    (hcs : ∀ o ∈ consObjs constraints, ∀ kw x, o.impl kw = .ok x → NonEmpty x.2 ∧ NoLocal x.2)
    (hthr : 0 ≤ a.killThreshold) (hthr1 : a.killThreshold < 1) (hb : 0 < a.JsStepUpperBound)
    (hthr2 : 2 * a.killThreshold * ((f.numPart : ℝ) - 1) < 1) (hcrit : a.criterion = "standard")
    {ops : List FinderOp} (hops : ∀ op ∈ ops, ¬ IsSet op) (ms : Option ℚ) (tol : Option ℝ)
    (int : Option ℤ) (hms : 0 < ms.getD a.maxSteps) (hint : 0 < int.getD a.interval) :
    haveI : NeZero S := ⟨hS⟩
    ∃ (P : ℕ) (ph : Phases P (∑ r, gas.perFeat r) ℝ) (d : Diagnostics ℝ),
      ((Finder.steps env ops f).1.run env ms tol int).2 = .ok ⟨P, _, ph, d⟩ ∧
      P = f.numPart ∧
      (∀ p, a.killThreshold < ph.volumes p ∧ |∑ i, ph.fractions p i - 1| ≤ d.maxAbsIncomp ∧
        ∀ i, 0 < ph.fractions p i) ∧
      ∀ p q i, |chemPot (liftChis o.chisFeat feat) gas.gas.sizes (ph.fractions p) i
        - chemPot (liftChis o.chisFeat feat) gas.gas.sizes (ph.fractions q) i| ≤
        errorBound S (o.compile ((a.kwargs.get? "additional_chis_shift").getD 1)).coef d := by
  have : NeZero S := ⟨hS⟩
  obtain ⟨out, hout⟩ := (C34_histories hrng h
    (fun kw x hx => by
      cases hx
      exact ⟨⟨rfl, hn⟩, hCp⟩)
    (fun o ho kw x hx => (hcs o ho kw x hx).1) hthr hthr1 hb (ops := ops)
    (fun op hop => by
      have := hops op hop
      cases op <;> simp_all [WellMade, IsSet])
    (fun pre op post he hset => absurd hset (hops op (by rw [he]; simp)))).2 hcrit hthr2 ms tol int hms hint
  obtain ⟨ia, en, es', h1, h2, h3, -, h4, hc⟩ := create_ok h
  have hia : ia = ⟨S, o.compile ((a.kwargs.get? "additional_chis_shift").getD 1)⟩ := by
    rw [InstObj.compiled_eq] at h1
    simp only [FHBlock.obj, dif_neg hS, List.mem_singleton, if_true] at h1
    exact (Except.ok.inj h1).symm
  have hen : en = ⟨_, S, .poly gas.compile⟩ := by
    rw [InstObj.compiled_eq] at h2
    exact (Except.ok.inj h2).symm
  have hes' : es' = ⟨_, es⟩ := Except.ok.inj (h3.symm.trans hes)
  have hak := akin_steps hcr f hops
  obtain ⟨P, C', ph, d⟩ := out
  have hf1 : (Finder.steps env ops f).1.interaction = f.interaction := by
    obtain ⟨_, _, _, _, _, _, _, _, e, -⟩ := hak; rw [e]
  have hf2 : (Finder.steps env ops f).1.entropy = f.entropy := by
    obtain ⟨_, _, _, _, _, _, _, _, e, -⟩ := hak; rw [e]
  have hf3 : (Finder.steps env ops f).1.ensemble = f.ensemble := by
    obtain ⟨_, _, _, _, _, _, _, _, e, -⟩ := hak; rw [e]
  have hf4 : (Finder.steps env ops f).1.params = f.params := by
    obtain ⟨_, _, _, _, _, _, _, _, e, -⟩ := hak; rw [e]
  have hf5 : (Finder.steps env ops f).1.numComp = f.numComp := by
    obtain ⟨_, _, _, _, _, _, _, _, e, -⟩ := hak; rw [e]
  have hf6 : (Finder.steps env ops f).1.numPart = f.numPart := by
    obtain ⟨_, _, _, _, _, _, _, _, e, -⟩ := hak; rw [e]
  have hf7 := hak.enforced
  set f' := (Finder.steps env ops f).1 with hf'
  rcases hr : f'.run env ms tol int with ⟨f'', res⟩
  rw [hr] at hout
  dsimp only at hout
  subst hout
  have hthr' : 0 ≤ f'.params.killThreshold := by rw [hf4, hc.params]; exact hthr
  have hCC : C' = ∑ r, gas.perFeat r := by
    have := (C40_finder hrng hthr' (by rw [hf2, hc.entropy, hen]; exact ⟨rfl, hn⟩) hr).2.1
    dsimp only at this
    rw [this, hf5, hc.numComp, hen]
  subst hCC
  have hnl : ∀ c ∈ enforced f', NoLocal c.2 := by
    intro c hc'
    rw [hf7, hc.enforced] at hc'
    obtain ⟨x, hx, rfl⟩ := List.mem_map.mp hc'
    rcases initConstraints_mem h4 hx with rfl | ⟨o', ho, y, hy, rfl⟩
    · rw [PackedCons.ofNew_enforces]; trivial
    · rw [PackedCons.ofNew_enforces]
      rw [InstObj.compiled_eq] at hy
      exact (hcs o' ho _ y hy).2
  obtain ⟨k1, k2, k3, k4⟩ := poly_run_balance hrng hthr' (out := ⟨P, _, ph, d⟩)
    (by rw [hf1, hc.interaction, hia]) (by rw [hf2, hc.entropy, hen]) (by rw [hf3, hc.ensemble, hes'])
    hl hpos rfl hf hn hnl (quiet_steps hcq f hops (quiet_created h)) hr
  refine ⟨P, ph, d, rfl, k1.trans hf6, fun p => ?_, k4⟩
  have := k3 p
  rwa [hf4, hc.params] at this

end Flory
