import Verif.Spec.TextScan
import Verif.Props.Scan
import Verif.Props.WorkflowObject
import Verif.Props.OpenChance

/-!
# C117: scans with the transcribed text follow coexisting phases
-/

set_option linter.unusedSectionVars false

namespace Flory

open Finset Spec MeasureTheory ProbabilityTheory

variable {G : Type} {C M : ℕ}

theorem reachedFH_same {a : Gen.FloryHugginsInteractionAttrs} (h : ReachedFH C a) :
    ∃ o : FHInteraction C ℝ, SameFH a o := by
  have got : ∀ {x : Py Gen.FloryHugginsInteractionAttrs} {y : Py (FHInteraction C ℝ)}
      {a : Gen.FloryHugginsInteractionAttrs}, Agrees SameFH x y → x = .ok a → ∃ o : FHInteraction C ℝ, SameFH a o := by
    intro x y a hr hx
    subst hx
    cases y with
    | error e => exact hr.elim
    | ok o => exact ⟨o, hr⟩
  induction h with
  | init h => exact got (fh_init_rel C _) h
  | setChis _ h ih =>
    obtain ⟨o, ho⟩ := ih
    exact got (fh_setChis_rel ho _) h
  | uniform _ h ih =>
    obtain ⟨o, ho⟩ := ih
    exact got (fh_setUniform_rel ho _ _) h
  | random _ hr h ih =>
    obtain ⟨o, ho⟩ := ih
    exact got (fh_setRandom_rel ho _ _ _ _ hr) h

theorem reachedCanonical_same {a : Gen.CanonicalEnsembleAttrs} (h : ReachedCanonical C a) :
    ∃ o : CanonicalEnsemble C, SameCanonical a o := by
  have got : ∀ {x : Py Gen.CanonicalEnsembleAttrs} {y : Py (CanonicalEnsemble C)} {a : Gen.CanonicalEnsembleAttrs},
      Agrees SameCanonical x y → x = .ok a → ∃ o : CanonicalEnsemble C, SameCanonical a o := by
    intro x y a hr hx
    subst hx
    cases y with
    | error e => exact hr.elim
    | ok o => exact ⟨o, hr⟩
  induction h with
  | init h => exact got (canonical_init_rel C _) h
  | phiMeans _ h ih =>
    obtain ⟨o, ho⟩ := ih
    exact got (canonical_setPhiMeans_rel ho _) h

/-- The setters of a scan return, and install the instances of the point. -/
theorem scan_setters [NeZero C] (env : FinderEnv G) {F : Finder G} (hC : F.numComp = C) (hS : F.numFeat = C) {add : ℝ}
    (hadd : (F.kwargs.get? "additional_chis_shift").getD 1 = add) (o : FHInteraction C ℝ) (x : Vec C ℝ) :
    (F.setInteraction o.obj true []).2 = .ok () ∧
    ((F.setInteraction o.obj true []).1.setEnsemble (CanonicalEnsemble.mk x).obj true []) =
      ((F.steps env (scanCalls o x)).1, .ok ()) ∧
    (F.steps env (scanCalls o x)).1.interaction = ⟨C, o.compile add⟩ ∧
    (F.steps env (scanCalls o x)).1.ensemble = ⟨C, .canonical ⟨x⟩⟩ ∧
    (F.steps env (scanCalls o x)).1.reviveLeft = F.maxRevive * F.numPart ∧
    SameSetup F (F.steps env (scanCalls o x)).1 := by
  have h1 : o.obj.compiled (F.kwargs.merge []) = .ok ⟨C, o.compile add⟩ := by
    rw [InstObj.compiled_eq]
    have : F.kwargs.merge [] = F.kwargs := rfl
    simp [FHInteraction.obj, this, hadd, NeZero.ne C]
  have h2 : (CanonicalEnsemble.mk x).obj.compiled (F.kwargs.merge []) = .ok ⟨C, .canonical ⟨x⟩⟩ := by
    rw [InstObj.compiled_eq]
    rfl
  have h3 : Finder.checkSizes F.numComp F.numFeat none (some C) = .ok () := by
    rw [hS]; simp [Finder.checkSizes]
  have h4 : Finder.checkSizes F.numComp F.numFeat (some C) none = .ok () := by
    rw [hC]; simp [Finder.checkSizes]
  have h5 : F.setInteraction o.obj true [] =
      (Finder.resetRevive { F with interaction := ⟨C, o.compile add⟩ }, .ok ()) := by
    unfold Finder.setInteraction
    rw [h1]
    dsimp only
    rw [h3]
    rfl
  have h6 : (Finder.resetRevive { F with interaction := ⟨C, o.compile add⟩ }).setEnsemble
      (CanonicalEnsemble.mk x).obj true [] = (Finder.resetRevive { F with
        interaction := ⟨C, o.compile add⟩
        ensemble := ⟨C, .canonical ⟨x⟩⟩ }, .ok ()) := by
    unfold Finder.setEnsemble
    have h2' : (CanonicalEnsemble.mk x).obj.compiled ((Finder.resetRevive { F with
      interaction := ⟨C, o.compile add⟩ }).kwargs.merge []) = .ok ⟨C, .canonical ⟨x⟩⟩ := h2
    rw [h2']
    dsimp only
    have h4' : Finder.checkSizes (Finder.resetRevive { F with interaction := ⟨C, o.compile add⟩ }).numComp
      (Finder.resetRevive { F with interaction := ⟨C, o.compile add⟩ }).numFeat (some C) none = .ok () := h4
    rw [h4']
    rfl
  have h7 : (F.steps env (scanCalls o x)).1 = Finder.resetRevive { F with
        interaction := ⟨C, o.compile add⟩
        ensemble := ⟨C, .canonical ⟨x⟩⟩ } := by
    show ((F.setInteraction o.obj true []).1.setEnsemble (CanonicalEnsemble.mk x).obj true []).1 = _
    rw [h5, h6]
  rw [h7, h5]
  exact ⟨rfl, h6, rfl, rfl, rfl, rfl, rfl, rfl, rfl, rfl, rfl, rfl, rfl, rfl, rfl, rfl⟩

/-- One pass of the loop, on a finder of the model. -/
theorem textPoint_same [NeZero C] {env : FinderEnv G} (hok : env.rng.Ok) {x : FinderExtra} {s : Gen.FinderObj G M}
    {F : Finder G} (h : SameFinder x s F) (hC : F.numComp = C) (hS : F.numFeat = C) {o : PointObjects}
    {oi : FHInteraction C ℝ} (ho : SameFH o.interaction oi) {oe : CanonicalEnsemble C}
    (he : SameCanonical o.ensemble oe) (ms : ℚ) (tol : ℝ) (iv : ℤ) :
    match (F.steps env (scanCalls oi oe.phiMeans)).1.run env (some ms) (some tol) (some iv) with
    | (_, .error e) => (textPoint env.rng o ms tol iv s).2 = .error e
    | (f', .ok out) => ∃ o' ph, textPoint env.rng o ms tol iv s = (o', .ok ph) ∧ SameFinder x o' f' ∧
        SamePhases ph ⟨_, _, out.phases⟩ ∧ o'._diagnostics = some (some out.diagnostics) := by
  obtain ⟨h1, h2, -, -, -, -⟩ := scan_setters env hC hS (add := _) rfl oi oe.phiMeans
  have k1 := (C107_setters h (fun _ c => c) true []).1 oi.obj
  have k2 := (C107_setters k1.1 (fun _ c => c) true []).2.2.1 oe.obj
  have h2' : (F.setInteraction oi.obj true []).1.setEnsemble oe.obj true [] =
      ((F.steps env (scanCalls oi oe.phiMeans)).1, .ok ()) := h2
  rw [h2'] at k2
  have e : textPoint env.rng o ms tol iv s = Gen.FinderObj.run env.rng (some ms) (some tol) (some iv)
      (Gen.CoexistingPhasesFinder.set_ensemble oe.obj true []
        (Gen.CoexistingPhasesFinder.set_interaction oi.obj true [] s).1).1 := by
    have e1 := k1.2.trans h1
    have e2 := k2.2
    dsimp only at e2
    unfold textPoint
    rw [map_object (f := Gen.FloryHugginsInteractionCompiledAttrs.pack) (fun _ _ => pack_fhc) (fh_object_same ho),
      map_object (f := Gen.CanonicalEnsembleCompiledAttrs.pack) (fun _ _ => pack_canonical) (canonical_object_same he)]
    have b : ∀ {α β : Type} (a : Act (Gen.FinderObj G M) α) (f : α → Act (Gen.FinderObj G M) β) (s : Gen.FinderObj G M)
        (v : α), (a s).2 = .ok v → (a >>= f) s = f v (a s).1 := fun a f s v hv => by
      rw [Act.bind_of (s' := (a s).1) (x := .ok v) (by rw [← hv])]
    rw [show Gen.CoexistingPhasesFinder.set_interaction_defaults = true from rfl,
      show Gen.CoexistingPhasesFinder.set_ensemble_defaults = true from rfl, b _ _ _ () e1, b _ _ _ () e2]
  rw [e]
  exact C110_run hok k2.1 (some ms) (some tol) (some iv)

/-- The constructor of the transcribed text makes the finder of the model. -/
theorem text_created [NeZero C] {gen : Rng G ℝ} (newGen : ℤ → G) (now : ℤ)
    (other : ℕ → PackedCons M → PackedCons M) {fe : Gen.FloryHugginsAttrs} (hfe : ReachedFree C fe) {l : Vec C ℝ}
    (hl : ∀ i : Fin C, fe.entropy._sizes.get [i.1] = l i) {ens : TextEnsemble} (hens : ens.Positive C)
    {a : FinderArgs} (hM : Finder.partNumber a.numPart C = M) (hstd : 0 ≤ a.randomStd) (rng : Option G)
    (progress : Bool) :
    ∃ (finder : Gen.FinderObj G M) (f : Finder G) (x : FinderExtra),
      textFinder gen newGen now other fe ens none (initArgs a rng progress) a.kwargs = .ok finder ∧
      SameFinder x finder f ∧ f.numComp = C ∧ f.numFeat = C ∧ f.numPart = M ∧
      f.params = ⟨a.acceptanceJs, a.JsStepUpperBound, a.acceptanceOmega, a.killThreshold, a.reviveScaler⟩ ∧
      f.criterion = a.criterion ∧ f.maxRevive = a.maxRevive ∧ f.kwargs = a.kwargs ∧
      f.entropy = ⟨C, C, .ideal ⟨l⟩⟩ ∧ enforced f = [⟨C, .no⟩] ∧ QuietFinder f ∧
      (∀ c ∈ f.constraints, c.ready = true) ∧ (∀ m, f.Js m = 1) ∧
      ∀ r m, f.omegas r m = a.randomStd * normalDraw gen (rng.getD (newGen now)) (r * f.numPart + m) := by
  set env : FinderEnv G := ⟨gen, fun _ _ _ s => s⟩ with henv
  obtain ⟨fo, hfo⟩ := reachedFree_same hfe
  have hsz : fo.entropy.sizes = l := funext fun i => (hfo.entropy.sizes.get i).symm.trans (hl i)
  obtain ⟨hC, eo, es, heo, hes, hpe⟩ := ensemble_same hens
  have hx : ∃ x, fo.interaction.obj.compiled a.kwargs = .ok ⟨C, x⟩ := by
    rw [InstObj.compiled_eq]
    unfold FHInteraction.obj
    simp only
    rw [dif_neg (by omega)]
    exact ⟨_, rfl⟩
  obtain ⟨x, hx⟩ := hx
  have he : fo.entropy.obj.compiled a.kwargs = .ok ⟨C, C, .ideal ⟨fo.entropy.sizes⟩⟩ := by
    rw [InstObj.compiled_eq]; rfl
  obtain ⟨-, -, -, h4⟩ := create_of_compiled (env := env) (g := rng.getD (newGen now))
    (constraints := textConstraints none) hx he (hes _) rfl hstd
  obtain ⟨f, hf, hcr⟩ := h4 rfl rfl (fun c hc => by
    rw [List.mem_singleton.mp hc]
    rfl)
  have hM' : M = if a.numPart.getD 0 = 0 then C * 8 else a.numPart.getD 0 := by
    rw [← hM]
    unfold Finder.partNumber
    cases a.numPart with
    | none => rfl
    | some n => by_cases hn : n = 0 <;> simp [hn]
  have hi := C107_init env newGen now other fo.interaction.obj fo.entropy.obj eo (textConstraints none) a rng progress
    (M := M) (by
      intro en h
      rw [he] at h
      obtain rfl := Except.ok.inj h
      exact hM')
  rw [hf] at hi
  obtain ⟨hi1, hi2⟩ := hi
  have hmade : textFinder gen newGen now other fe ens none (initArgs a rng progress) a.kwargs =
      .ok (Gen.CoexistingPhasesFinder.init env.rng newGen now other fo.interaction.obj fo.entropy.obj eo
        (textConstraints none) (initArgs a rng progress) a.kwargs ({} : Gen.FinderObj G M)).1 := by
    unfold textFinder
    rw [map_object (f := Gen.FloryHugginsInteractionCompiledAttrs.pack) (fun _ _ => pack_fhc)
        (fh_object_same hfo.interaction),
      map_object (f := Gen.IdealGasEntropyCompiledAttrs.pack) (fun _ _ => pack_ideal) (gas_object_same hfo.entropy),
      heo]
    unfold Gen.newObject
    revert hi2
    rcases (Gen.CoexistingPhasesFinder.init env.rng newGen now other fo.interaction.obj fo.entropy.obj eo
      (textConstraints none) (initArgs a rng progress) a.kwargs ({} : Gen.FinderObj G M)) with ⟨o, r⟩
    intro hi
    dsimp only at hi
    subst hi
    rfl
  obtain ⟨-, c2, -, c4, -, c6, -⟩ := C78_created hf
  refine ⟨_, f, _, hmade, hi1, hcr.numComp, hcr.numFeat, hcr.numPart.trans hM'.symm, hcr.params, hcr.criterion,
    hcr.maxRevive, hcr.kwargs, by rw [hcr.entropy, hsz], ?_, quiet_created hf, fun c hc => (c6 c hc).1, c4, c2⟩
  rw [hcr.enforced]
  show List.map _ [PackedCons.ofNew _] = _
  simp only [List.map_cons, List.map_nil, PackedCons.ofNew_enforces]

/-- Constraints without effect. -/
theorem trivial_constraints {f : Finder G} {S : ℕ} (h : enforced f = [⟨S, .no⟩]) (hq : QuietFinder f)
    (hr : ∀ c ∈ f.constraints, c.ready = true) :
    ∀ c ∈ f.constraints, c.numFeat = S ∧ c.ready = true ∧ c.cons.Trivial := by
  intro c hc
  have h1 : Spec.PackedCons.enforces c ∈ enforced f := List.mem_map.mpr ⟨c, hc, rfl⟩
  have h2 := hq c hc
  have h3 := hr c hc
  rw [h, List.mem_singleton] at h1
  obtain ⟨n, r, k⟩ := c
  unfold Spec.PackedCons.enforces at h1
  dsimp only at h1 h2 h3 ⊢
  obtain ⟨rfl, h1⟩ := Sigma.mk.inj_iff.mp h1
  have h1 := eq_of_heq h1
  cases k with
  | no x => exact ⟨rfl, h3, h2⟩
  | loc A x => cases h1
  | glob A x => cases h1

/-- A scan of the transcribed text, from a finder that is near the phases of the first point. -/
theorem text_follows [NeZero C] {T : Type} [PseudoMetricSpace T] {chis : T → Mat C C ℝ} {x : T → Vec C ℝ}
    {J : T → Vec M ℝ} {phi : T → Mat C M ℝ} {env : FinderEnv G} (hok : env.rng.Ok) {add tol B : ℝ} {ts : ℕ → T}
    {f : Finder G} (hC : f.numComp = C) (hS : f.numFeat = C)
    (hadd : (f.kwargs.get? "additional_chis_shift").getD 1 = add) {maxSteps : ℕ → ℚ} {interval : ℕ → ℤ}
    (H : ∀ calls : ℕ → List FinderOp, (∀ k, ∀ op ∈ calls k, IsSetter op) →
      (∀ k, (scanFinder env calls maxSteps tol interval f k).interaction =
        ⟨C, FHCompiled.new (chis (ts k)) (-matMin (chis (ts k)) + add)⟩) →
      (∀ k, (scanFinder env calls maxSteps tol interval f k).ensemble = ⟨C, .canonical ⟨x (ts k)⟩⟩) →
      ∀ k, ∃ ph d, ((scanFinder env calls maxSteps tol interval f k).run env (some (maxSteps k)) (some tol)
          (some (interval k))).2 = .ok ⟨M, C, ph, d⟩ ∧
        d.reviveCountLeft = (scanFinder env calls maxSteps tol interval f k).reviveLeft ∧
        d.maxAbsIncomp < tol ∧ d.maxAbsOmegaDiff < tol ∧ d.maxAbsJsDiff < tol ∧
        d.maxConstraintResidue = 0 ∧ (∀ m i, |ph.fractions m i - phi (ts k) i m| ≤ B * tol) ∧
        ∀ m, |ph.volumes m - J (ts k) m| ≤ B * tol)
    {e : FinderExtra} {finder : Gen.FinderObj G M} (hsame : SameFinder e finder f) {o : ℕ → PointObjects}
    (ho : ∀ k, (o k).Hold (chis (ts k)) (x (ts k))) :
    TextFollows env.rng o maxSteps tol interval finder (f.maxRevive * M) (fun k => J (ts k)) (fun k => phi (ts k))
      (B * tol) := by
  have hobj : ∀ k, ∃ (oi : FHInteraction C ℝ) (oe : CanonicalEnsemble C), SameFH (o k).interaction oi ∧
      SameCanonical (o k).ensemble oe ∧ oi.chis = chis (ts k) ∧ oe.phiMeans = x (ts k) := fun k => by
    obtain ⟨oi, h1⟩ := reachedFH_same (ho k).interaction
    obtain ⟨oe, h2⟩ := reachedCanonical_same (ho k).ensemble
    refine ⟨oi, oe, h1, h2, ?_, ?_⟩
    · funext i j
      exact (h1.chis.get i j).symm.trans ((ho k).chis i j)
    · funext i
      exact (h2.phiMeans.get i).symm.trans ((ho k).means i)
  choose oi oe s1 s2 s3 s4 using hobj
  set calls : ℕ → List FinderOp := fun k => scanCalls (oi k) (oe k).phiMeans with hcalls
  have key : ∀ k F, SameSetup f F →
      (F.steps env (calls k)).1.interaction = ⟨C, FHCompiled.new (chis (ts k)) (-matMin (chis (ts k)) + add)⟩ ∧
      (F.steps env (calls k)).1.ensemble = ⟨C, .canonical ⟨x (ts k)⟩⟩ ∧
      (F.steps env (calls k)).1.reviveLeft = f.maxRevive * M ∧
      SameSetup f (F.steps env (calls k)).1 := fun k F hF => by
    obtain ⟨-, -, q1, q2, q3, q4⟩ := scan_setters env (F := F) (hF.numComp.trans hC) (hF.numFeat.trans hS) (add := add)
      (by rw [hF.kwargs]; exact hadd) (oi k) (oe k).phiMeans
    refine ⟨?_, ?_, ?_, hF.trans q4⟩
    · rw [q1]
      unfold FHInteraction.compile
      rw [s3]
    · rw [q2, s4]
    · rw [q3, hF.maxRevive, hF.numPart, hsame.part]
  have hsetup : ∀ k, SameSetup f (scanFinder env calls maxSteps tol interval f k) := fun k => by
    induction k with
    | zero => exact (key 0 f (.refl f)).2.2.2
    | succ k ih => exact (key (k + 1) _ (ih.trans (sameSetup_run env _ _ _ _))).2.2.2
  have hinst : ∀ k, (scanFinder env calls maxSteps tol interval f k).interaction =
        ⟨C, FHCompiled.new (chis (ts k)) (-matMin (chis (ts k)) + add)⟩ ∧
      (scanFinder env calls maxSteps tol interval f k).ensemble = ⟨C, .canonical ⟨x (ts k)⟩⟩ ∧
      (scanFinder env calls maxSteps tol interval f k).reviveLeft = f.maxRevive * M := fun k => by
    cases k with
    | zero => exact ⟨(key 0 f (.refl f)).1, (key 0 f (.refl f)).2.1, (key 0 f (.refl f)).2.2.1⟩
    | succ k =>
      have := key (k + 1) _ ((hsetup k).trans (sameSetup_run env _ (some (maxSteps k)) (some tol) (some (interval k))))
      exact ⟨this.1, this.2.1, this.2.2.1⟩
  have hrun := H calls (fun k op hop => by
    simp only [hcalls, scanCalls, List.mem_cons, List.not_mem_nil, or_false] at hop
    rcases hop with rfl | rfl <;> trivial) (fun k => (hinst k).1) fun k => (hinst k).2.1
  have hfind : ∀ k, ∃ F, SameFinder e (textScan env.rng o maxSteps tol interval finder k) F ∧ SameSetup f F ∧
      scanFinder env calls maxSteps tol interval f k = (F.steps env (calls k)).1 := fun k => by
    induction k with
    | zero => exact ⟨f, hsame, .refl f, rfl⟩
    | succ k ih =>
      obtain ⟨F, h1, h2, h3⟩ := ih
      refine ⟨_, ?_, (hsetup k).trans (sameSetup_run env _ (some (maxSteps k)) (some tol) (some (interval k))), rfl⟩
      have hp := textPoint_same hok h1 (h2.numComp.trans hC) (h2.numFeat.trans hS) (s1 k) (s2 k) (maxSteps k) tol
        (interval k)
      obtain ⟨ph, d, r1, -⟩ := hrun k
      rw [h3] at r1 ⊢
      revert hp r1
      show (match (F.steps env (calls k)).1.run env (some (maxSteps k)) (some tol) (some (interval k)) with
        | (_, .error e) => (textPoint env.rng (o k) (maxSteps k) tol (interval k) _).2 = .error e
        | (f', .ok out) => _) → _
      rcases (F.steps env (calls k)).1.run env (some (maxSteps k)) (some tol) (some (interval k)) with ⟨f', e' | out⟩
      · intro _ r1
        cases r1
      · rintro ⟨o', ph', p1, p2, -⟩ -
        show SameFinder e (textPoint env.rng (o k) (maxSteps k) tol (interval k) _).1 f'
        rw [p1]
        exact p2
  intro k
  obtain ⟨F, h1, h2, h3⟩ := hfind k
  have hp := textPoint_same hok h1 (h2.numComp.trans hC) (h2.numFeat.trans hS) (s1 k) (s2 k) (maxSteps k) tol
    (interval k)
  obtain ⟨ph, d, r1, r2, r3, r4, r5, r6, r7, r8⟩ := hrun k
  rw [(hinst k).2.2] at r2
  rw [h3] at r1
  revert hp r1
  show (match (F.steps env (calls k)).1.run env (some (maxSteps k)) (some tol) (some (interval k)) with
    | (_, .error e) => (textPoint env.rng (o k) (maxSteps k) tol (interval k) _).2 = .error e
    | (f', .ok out) => _) → _
  rcases (F.steps env (calls k)).1.run env (some (maxSteps k)) (some tol) (some (interval k)) with ⟨f', e' | out⟩
  · intro _ r1
    cases r1
  · rintro ⟨o', ph', p1, -, p3, p4⟩ r1
    obtain rfl := Except.ok.inj r1
    refine ⟨o', ph', d, p1, p4, r2, r3, r4, r5, r6, p3.volumes.shape, p3.fractions.shape, fun m => ?_, fun m i => ?_⟩
    · rw [p3.volumes.get m]
      exact r8 m
    · rw [p3.fractions.get m i]
      exact r7 m i

section Main

variable [NeZero C] [NeZero M] {T : Type} [PseudoMetricSpace T] [CompactSpace T] {l : Vec C ℝ} {chis : T → Mat C C ℝ}
  {x : T → Vec C ℝ} {J : T → Vec M ℝ} {phi : T → Mat C M ℝ}

/-- The scan of C98 for the settings of a finder. -/
theorem follows_args (h : Branch id l chis x J phi) (hl : ∀ i, 0 < l i) {ρ : ℝ} (hρ : 0 < ρ)
    (hρl : ∀ t i m, ρ < 4 * (J t m * l i)) :
    ∃ s₀, ∀ shift, s₀ ≤ shift → ∃ a₀ > 0, ∀ a : FinderArgs, Careful C M shift ρ a₀ a →
      (∀ t m, a.killThreshold < J t m) → FinderFollows G id l chis x J phi (fun t => -matMin (chis t) + shift)
        ⟨a.acceptanceJs, a.JsStepUpperBound, a.acceptanceOmega, a.killThreshold, a.reviveScaler⟩ := by
  obtain ⟨s₀, H⟩ := C98_scan h hl Function.surjective_id hρl
  have hc : Continuous fun t => matMin (chis t) := continuous_npMin fun r => continuous_npMin (h.contChis r)
  obtain ⟨K, hK⟩ := (isCompact_univ (X := T)).exists_bound_of_continuousOn hc.continuousOn
  refine ⟨s₀ + K, fun shift hsh => ?_⟩
  obtain ⟨a₀, ha₀, H⟩ := H (fun t => -matMin (chis t) + shift) (hc.neg.add continuous_const) (fun t => by
    have := hK t (Set.mem_univ t)
    rw [Real.norm_eq_abs] at this
    linarith [(abs_le.mp this).2]) ρ hρ le_rfl
  exact ⟨a₀, ha₀, fun a ha hk => (H _ ⟨ha.kill, ha.kill_one, ha.kill_share, ha.step, ha.omega, ha.Js⟩ hk ha.omega_le
    G).2⟩

/-- **C117**: let stable phases with independent compositions coexist along a compact family of interactions and mean
compositions.  A script makes a finder with the transcribed constructor, gives it fields near those of the first point
by `reinitialize_from_omegas`, and then goes along the family in small steps: it hands over interaction and ensemble
by the transcribed setters and calls the transcribed `run`.  All these calls return, and each `run` returns the
phases of its point up to `B` times the tolerance, for scans of any length.  The shift has to be large enough,
`acceptance_omega` small enough, and the number of steps at least logarithmic in the tolerance. -/
theorem C117_scan (h : Branch id l chis x J phi) (hl : ∀ i, 0 < l i) {ρ : ℝ} (hρ : 0 < ρ)
    (hρl : ∀ t i m, ρ < 4 * (J t m * l i)) {gen : Rng G ℝ} (hok : gen.Ok) (newGen : ℤ → G) (now : ℤ)
    (other : ℕ → PackedCons M → PackedCons M) :
    ∃ s₀, ∀ shift, s₀ ≤ shift → ∃ a₀ > 0, ∀ a : FinderArgs, Careful C M shift ρ a₀ a →
      (∀ t m, a.killThreshold < J t m) → ∃ step > 0, ∃ η > 0, ∃ τ > 0, ∃ B > 0, ∀ offset : Vec C ℝ, ∃ K > 0,
      ∀ tol, 0 < tol → tol ≤ τ → ∃ N : ℕ, LogSteps K tol N ∧
      ∀ ts : ℕ → T, (∀ k, dist (ts k) (ts (k + 1)) ≤ step) → (∀ m, |1 - J (ts 0) m| ≤ η) →
      ∀ {fe : Gen.FloryHugginsAttrs}, ReachedFree C fe → (∀ i : Fin C, fe.entropy._sizes.get [i.1] = l i) →
      ∀ {ens : TextEnsemble}, ens.Positive C → ∀ (rng : Option G) (progress : Bool),
      ∃ finder, textFinder gen newGen now other fe ens none (initArgs a rng progress) a.kwargs = .ok finder ∧
        ∀ w : NDArr ℝ, w.shape = [C, M] → (∀ (r : Fin C) (m : Fin M), |w.get [r.1, m.1] -
            (equilibriumField (chis (ts 0)) id l (fun j => phi (ts 0) j m) r + offset r)| ≤ η) →
        ∃ finder', Gen.CoexistingPhasesFinder.reinitialize_from_omegas other w finder = (finder', .ok ()) ∧
          ∀ o : ℕ → PointObjects, (∀ k, (o k).Hold (chis (ts k)) (x (ts k))) →
          ∀ (maxSteps : ℕ → ℚ) (interval : ℕ → ℤ), (∀ k, N ≤ maxSteps k) → (∀ k, 0 < interval k) →
            TextFollows gen o maxSteps tol interval finder' (a.maxRevive * M) (fun k => J (ts k))
              (fun k => phi (ts k)) (B * tol) := by
  set env : FinderEnv G := ⟨gen, fun _ _ _ s => s⟩ with henv
  obtain ⟨s₀, H⟩ := follows_args (G := G) h hl hρ hρl
  refine ⟨s₀, fun shift hsh => ?_⟩
  obtain ⟨a₀, ha₀, H⟩ := H shift hsh
  refine ⟨a₀, ha₀, fun a ha hk => ?_⟩
  obtain ⟨step, hstep, η, hη, τ, hτ, B, hB, H⟩ := H a ha hk
  refine ⟨step, hstep, η, hη, τ, hτ, B, hB, fun offset => ?_⟩
  obtain ⟨K, hK, H⟩ := H offset
  refine ⟨K, hK, fun tol htol hle => ?_⟩
  obtain ⟨N, hN, H⟩ := H tol htol hle
  refine ⟨N, hN, fun ts hts hJ fe hfe hsz ens hens rng progress => ?_⟩
  obtain ⟨finder, f, e, h1, h2, c1, c2, c3, c4, c5, c6, c7, c8, c9, c10, c11, c12, c13⟩ :=
    text_created (gen := gen) newGen now other hfe hsz hens ha.numPart ha.std.le rng progress
  refine ⟨finder, h1, fun w hw hnear => ?_⟩
  have hre := (C107_resets h2 env other).2.2.2.1 w
  obtain ⟨g1, g2⟩ := (C78_omegas f w).1 (by rw [hw, c2, c3])
  have hqu : QuietFinder (f.reinitOmegas w).1 :=
    quiet_step (env := env) (fun _ _ _ _ h => h) f (op := .reinitOmegas w) (fun h => h) c10
  obtain ⟨⟨cs, hf'⟩, g3, g4⟩ := g2
  rcases hq : Gen.CoexistingPhasesFinder.reinitialize_from_omegas other w finder with ⟨finder', r⟩
  rw [hq] at hre
  obtain ⟨hre1, hre2⟩ := hre
  dsimp only at hre1 hre2
  rw [g1] at hre2
  subst hre2
  refine ⟨finder', rfl, fun o ho maxSteps interval hms hiv => ?_⟩
  generalize (f.reinitOmegas w).1 = f' at *
  subst hf'
  rw [← c6]
  refine text_follows (env := env) hok (f := { f with
      omegas := w.toMat f.numFeat f.numPart
      Js := fun _ => 1
      reviveLeft := f.maxRevive * f.numPart
      constraints := cs }) c1 c2 (by rw [show Finder.kwargs _ = a.kwargs from c7]; exact ha.shift)
    (fun calls hcalls hi he => H ts hts env hok _ ?_ calls hcalls maxSteps interval hms hiv hi he) hre1 ho
  refine ⟨c1, c2, c3, c4, c5.trans ha.criterion, ⟨.ideal ⟨l⟩, c8, IdealC.isIdealGas _⟩,
    trivial_constraints (g3.trans c9) hqu fun c hc => (g4 c hc).1, ?_, ?_, ?_⟩
  · simp [c3]
  · exact fun m m' _ => hJ m'
  · intro r r' m m' e1 e2
    have : w.toMat f.numFeat f.numPart r m = w.get [r'.1, m'.1] := by
      rw [← e1, ← e2]
      rfl
    dsimp only
    rw [this]
    exact hnear r' m'

/-- **C117**, from random fields: if the phases of the first point have equal volumes, a finder as the constructor
leaves it, with fields drawn from a normal distribution, follows the phases along the whole scan with a probability of
at least `p > 0`, which depends neither on the tolerance nor on the points of the scan after the first. -/
theorem C117_random (h : Branch id l chis x J phi) (hl : ∀ i, 0 < l i) {ρ : ℝ} (hρ : 0 < ρ)
    (hρl : ∀ t i m, ρ < 4 * (J t m * l i)) {t₀ : T} (ht₀ : ∀ m, J t₀ m = 1) {gen : Rng G ℝ} (hok : gen.Ok)
    (newGen : ℤ → G) (now : ℤ) (other : ℕ → PackedCons M → PackedCons M) :
    ∃ s₀, ∀ shift, s₀ ≤ shift → ∃ a₀ > 0, ∀ a : FinderArgs, Careful C M shift ρ a₀ a →
      (∀ t m, a.killThreshold < J t m) → ∃ p : ENNReal, 0 < p ∧ ∃ step > 0, ∃ τ > 0, ∃ B > 0, ∃ K > 0,
      ∀ tol, 0 < tol → tol ≤ τ → ∃ N : ℕ, LogSteps K tol N ∧
      ∀ ts : ℕ → T, ts 0 = t₀ → (∀ k, dist (ts k) (ts (k + 1)) ≤ step) →
      ∀ {fe : Gen.FloryHugginsAttrs}, ReachedFree C fe → (∀ i : Fin C, fe.entropy._sizes.get [i.1] = l i) →
      ∀ {ens : TextEnsemble}, ens.Positive C → ∀ (progress : Bool) (o : ℕ → PointObjects),
      (∀ k, (o k).Hold (chis (ts k)) (x (ts k))) →
      ∀ (maxSteps : ℕ → ℚ) (interval : ℕ → ℤ), (∀ k, N ≤ maxSteps k) → (∀ k, 0 < interval k) →
      ∀ {Ω : Type} [MeasurableSpace Ω] {Pr : Measure Ω} {g : Ω → G}, NormalDraws Pr gen g (C * M) →
        p ≤ Pr {ω | ∃ finder, textFinder gen newGen now other fe ens none (initArgs a (some (g ω)) progress) a.kwargs =
            .ok finder ∧
          TextFollows gen o maxSteps tol interval finder (a.maxRevive * M) (fun k => J (ts k)) (fun k => phi (ts k))
            (B * tol)} := by
  set env : FinderEnv G := ⟨gen, fun _ _ _ s => s⟩ with henv
  obtain ⟨s₀, H⟩ := follows_args (G := G) h hl hρ hρl
  refine ⟨s₀, fun shift hsh => ?_⟩
  obtain ⟨a₀, ha₀, H⟩ := H shift hsh
  refine ⟨a₀, ha₀, fun a ha hk => ?_⟩
  obtain ⟨step, hstep, η, hη, τ, hτ, B, hB, H⟩ := H a ha hk
  obtain ⟨K, hK, H⟩ := H fun _ => 0
  set F : Mat C M ℝ := fun r m => equilibriumField (chis t₀) id l (fun j => phi t₀ j m) r with hF
  set box : Fin (C * M) → Set ℝ := fun k =>
    {x | |a.randomStd * x - F (finProdFinEquiv.symm k).1 (finProdFinEquiv.symm k).2| ≤ η} with hbox
  have hpos : ∀ k, MeasurableSet (box k) ∧ 0 < gaussianReal 0 1 (box k) := fun k => gaussian_interval_pos ha.std hη
  refine ⟨∏ k, gaussianReal 0 1 (box k), CanonicallyOrderedAdd.prod_pos.mpr fun k _ => (hpos k).2, step, hstep,
    τ, hτ, B, hB, K, hK, fun tol htol hle => ?_⟩
  obtain ⟨N, hN, H⟩ := H tol htol hle
  refine ⟨N, hN, fun ts ht hts fe hfe hsz ens hens progress o ho maxSteps interval hms hiv Ω _ Pr g hg => ?_⟩
  rw [← draws_probability hg fun k => (hpos k).1]
  refine measure_mono fun ω hω => ?_
  obtain ⟨finder, f, e, h1, h2, c1, c2, c3, c4, c5, c6, c7, c8, c9, c10, c11, c12, c13⟩ :=
    text_created (gen := gen) newGen now other hfe hsz hens ha.numPart ha.std.le (some (g ω)) progress
  refine ⟨finder, h1, ?_⟩
  rw [← c6]
  refine text_follows (env := env) hok c1 c2 (by rw [c7]; exact ha.shift)
    (fun calls hcalls hi he => H ts hts env hok f ?_ calls hcalls maxSteps interval hms hiv hi he) h2 ho
  refine ⟨c1, c2, c3, c4, c5.trans ha.criterion, ⟨.ideal ⟨l⟩, c8, IdealC.isIdealGas _⟩,
    trivial_constraints c9 c10 c11, ?_, ?_, ?_⟩
  · simp [c12, c3]
  · intro m m' _
    rw [c12, ht, ht₀, sub_self, abs_zero]
    exact hη.le
  · intro r r' m m' e1 e2
    rw [c13, e1, e2, c3, ht, add_zero]
    have := Set.mem_iInter.mp hω (finProdFinEquiv (r', m'))
    have e : ((finProdFinEquiv (r', m') : Fin (C * M)) : ℕ) = r' * M + m' := by
      rw [finProdFinEquiv_apply_val]; ring
    simp only [hbox, Set.mem_preimage, Set.mem_ofPred_eq, Equiv.symm_apply_apply, e] at this
    exact this

end Main

/-! ## Examples -/

/-- Compartments of positive volume that are more than the distance of `get_clusters` apart stay what they are, in
any order. -/
theorem clusters_apart {scipy : Scipy} (hs : ScipyDocumented scipy) {a : Gen.PhasesAttrs} {x : Phases M C ℝ}
    (h : SamePhases a ⟨M, C, x⟩) (hv : ∀ m, 0 < x.volumes m)
    (far : ∀ m n, m ≠ n → 1 / 100 < eucl (x.fractions m) (x.fractions n)) :
    ∃ b, Gen.Phases.get_clusters scipy a (1 / 100) = .ok b ∧ b.volumes.shape = [M] ∧ b.fractions.shape = [M, C] ∧
      ∃ order : Equiv.Perm (Fin M), ∀ n, b.volumes.get [n.1] = x.volumes (order n) ∧
        ∀ i : Fin C, b.fractions.get [n.1, i.1] = x.fractions (order n) i := by
  classical
  by_cases hM : 2 ≤ M
  · obtain ⟨links, l, h1, h2, h3, h4⟩ := hs (P := M) (C := C) a.fractions h.fractions.shape hM
    rw [show (fun (p : Fin M) (i : Fin C) => a.fractions.get [p.1, i.1]) = x.fractions by
      funext p i; exact h.fractions.get p i] at h4
    have hag := get_clusters_rel h scipy (1 / 100) h1 h2 h3
    obtain ⟨r, hr, w, j1, j2, j3⟩ := C81_recovers hv (eps := 0) (fun _ => h4) (fun m => x.fractions m) id
      (fun p => (eucl_self _).le) (by norm_num) (fun m n e => by simpa using far m n e)
    rw [hr] at hag
    cases hb : Gen.Phases.get_clusters scipy a (1 / 100) with
    | error e => rw [hb] at hag; exact absurd hag (by simp [Agrees])
    | ok b =>
      rw [hb] at hag
      replace hag : SamePhases b ⟨r.1, C, r.2⟩ := hag
      have hsurj : w.Surjective := Set.range_eq_univ.mp (by rw [j2]; simp)
      have hP : r.1 = M := by simpa using Fintype.card_of_bijective (f := w) ⟨j1, hsurj⟩
      obtain ⟨P, y⟩ := r
      obtain rfl : P = M := hP
      refine ⟨b, rfl, hag.volumes.shape, hag.fractions.shape, Equiv.ofBijective w ⟨j1, hsurj⟩, fun n => ⟨?_, fun i => ?_⟩⟩
      · rw [hag.volumes.get n]
        show y.volumes n = x.volumes (w n)
        rw [(j3 n).2]
        simp
      · rw [hag.fractions.get n i]
        show y.fractions n i = x.fractions (w n) i
        have e := (j3 n).1.antisymm (eucl_nonneg _ _)
        rw [eucl_eq, norm_sub_eq_zero_iff] at e
        exact congrFun (WithLp.toLp_injective 2 e) i
  · refine ⟨a, ?_, h.volumes.shape, h.fractions.shape, Equiv.refl _, fun n => ⟨h.volumes.get n, fun i =>
      h.fractions.get n i⟩⟩
    unfold Gen.Phases.get_clusters
    rw [num_phases_eq h]
    simp only [bind, Except.bind]
    rw [if_pos (by omega)]
    rfl

/-- **C117**: with `finder.run(…).get_clusters()` in the loop, as in `examples/binary_phase_diagram.py`, a scan that
follows phases whose compositions differ by more than 0.01 returns these phases, in any order. -/
theorem C117_clusters {scipy : Scipy} (hs : ScipyDocumented scipy) {gen : Rng G ℝ} {o : ℕ → PointObjects}
    {maxSteps : ℕ → ℚ} {tol : ℝ} {interval : ℕ → ℤ} {finder : Gen.FinderObj G M} {budget : ℤ} {J : ℕ → Vec M ℝ}
    {phi : ℕ → Mat C M ℝ} {ε : ℝ} (h : TextFollows gen o maxSteps tol interval finder budget J phi ε)
    (hJ : ∀ k m, ε < J k m)
    (far : ∀ k m n, m ≠ n → 1 / 100 + 2 * (C * ε) < eucl (fun i => phi k i m) fun i => phi k i n) :
    ClustersFollow scipy gen o maxSteps tol interval finder J phi ε := by
  intro k
  obtain ⟨finder', phases, d, h1, -, -, -, -, -, -, h2, h3, h4, h5⟩ := h k
  set x : Phases M C ℝ := ⟨fun m => phases.volumes.get [m.1], fun m i => phases.fractions.get [m.1, i.1]⟩ with hx
  have hsame : SamePhases phases ⟨M, C, x⟩ := ⟨⟨h2, fun m => rfl⟩, ⟨h3, fun m i => rfl⟩⟩
  have hd : ∀ m, eucl (x.fractions m) (fun i => phi k i m) ≤ C * ε := fun m => by
    refine (eucl_le_sum _ _).trans ((sum_le_sum fun i _ => h5 m i).trans (by simp))
  obtain ⟨b, b1, b2, b3, order, b4⟩ := clusters_apart hs hsame (fun m => by
    have e1 := hJ k m
    have e2 := (abs_le.mp (h4 m)).1
    show 0 < phases.volumes.get [m.1]
    linarith) (fun m n e => by
    have e1 := eucl_triangle (fun i => phi k i m) (x.fractions m) (fun i => phi k i n)
    have e2 := eucl_triangle (x.fractions m) (x.fractions n) (fun i => phi k i n)
    have e3 := hd m
    rw [eucl_comm] at e3
    have e4 := hd n
    have e5 := far k m n e
    linarith)
  refine ⟨finder', phases, b, h1, b1, b2, b3, order, fun n => ⟨?_, fun i => ?_⟩⟩
  · rw [(b4 n).1]
    exact h4 _
  · rw [(b4 n).2 i]
    exact h5 _ i

namespace Demo

/-- The constructors make objects with any symmetric interaction and any mean composition. -/
theorem exists_point [NeZero C] {chis : Mat C C ℝ} (hs : ∀ i j, chis i j = chis j i) (x : Vec C ℝ) :
    ∃ o : PointObjects, o.Hold chis x := by
  have got : ∀ {α β : Type} {R : α → β → Prop} {x : Py α} {y : Py β} {b : β}, Agrees R x y → y = .ok b →
      ∃ a, x = .ok a ∧ R a b := by
    intro α β R x y b hr hy
    subst hy
    cases x with
    | error e => exact hr.elim
    | ok a => exact ⟨a, rfl, hr⟩
  obtain ⟨o1, -, -, o2, -⟩ := shortcut_objects NeZero.one_le chis x x
  obtain ⟨i, h1, h2⟩ := got (fh_init_rel C _) o1
  obtain ⟨e, h3, h4⟩ := got (canonical_init_rel C _) o2
  refine ⟨⟨i, e⟩, .init h1, fun i j => ?_, .init h3, fun i => h4.phiMeans.get i⟩
  rw [h2.chis.get i j]
  show 1 / 2 * (chis i j + chis j i) = _
  rw [← hs i j]
  ring

/-- The objects with which `examples/binary_phase_diagram.py` starts. -/
theorem script_objects : ∃ (fe : Gen.FloryHugginsAttrs) (ens : Gen.CanonicalEnsembleAttrs), ReachedFree 2 fe ∧
    (∀ i : Fin 2, fe.entropy._sizes.get [i.1] = 1) ∧ (TextEnsemble.canonical ens).Positive 2 := by
  have got : ∀ {α β : Type} {R : α → β → Prop} {x : Py α} {y : Py β} {b : β}, Agrees R x y → y = .ok b →
      ∃ a, x = .ok a ∧ R a b := by
    intro α β R x y b hr hy
    subst hy
    cases x with
    | error e => exact hr.elim
    | ok a => exact ⟨a, rfl, hr⟩
  obtain ⟨o1, -, o2, o3, -⟩ := shortcut_objects (by norm_num) (fun _ _ => 0 : Mat 2 2 ℝ) (fun _ => 1) ![1 / 2, 1 / 2]
  have hn : FHObject.new 2 (.ofMat (fun _ _ => 0 : Mat 2 2 ℝ)) none =
      .ok ⟨⟨fun _ _ => 1 / 2 * (0 + 0), false⟩, ⟨fun _ => 1⟩⟩ := by
    unfold FHObject.new
    rw [o1, o2]
    rfl
  obtain ⟨fe, h1, h2⟩ := got (free_init_rel 2 _ _) hn
  obtain ⟨ens, h3, h4⟩ := got (canonical_init_rel 2 _) o3
  refine ⟨fe, ens, .init h1, fun i => h2.entropy.sizes.get i, .canonical h3 fun i hi => ?_⟩
  rw [h4.phiMeans.get ⟨i, hi⟩]
  interval_cases i <;> norm_num

theorem scanFH_symm (φ : ℝ) (r q : Fin 2) : (scanFH φ).chis r q = (scanFH φ).chis q r := by
  fin_cases r <;> fin_cases q <;> rfl

/-- Settings of the finder in the examples. -/
noncomputable def scanArgs (shift a₀ : ℝ) : FinderArgs where
  numPart := some 2
  kwargs := [("additional_chis_shift", shift)]
  acceptanceOmega := a₀
  acceptanceJs := 1 / 10 * a₀

theorem scan_careful {shift a₀ : ℝ} (h : 0 < a₀) : Careful 2 2 shift (1 / 10) a₀ (scanArgs shift a₀) :=
  ⟨rfl, rfl, by norm_num [scanArgs], by norm_num [scanArgs], by norm_num [scanArgs], by norm_num [scanArgs],
    by norm_num [scanArgs], rfl, by norm_num [scanArgs], by norm_num [scanArgs], h, le_rfl, rfl⟩

end Demo

-- C117: the loop of `examples/binary_phase_diagram.py`, with two compartments and in small steps, finds the binodal
-- with positive probability.
example : ∃ (a : FinderArgs) (p : ENNReal) (step τ B K : ℝ), 0 < p ∧ 0 < step ∧ 0 < τ ∧
    ∀ tol, 0 < tol → tol ≤ τ → ∃ N : ℕ, LogSteps K tol N ∧
    ∀ ts : ℕ → Demo.ScanPoint, (ts 0 : ℝ) = 1 / 10 → (∀ k, dist (ts k) (ts (k + 1)) ≤ step) →
    ∃ (fe : Gen.FloryHugginsAttrs) (ens : Gen.CanonicalEnsembleAttrs) (o : ℕ → PointObjects),
      (∀ k, (o k).Hold (Demo.scanFH (ts k)).chis ![1 / 2, 1 / 2]) ∧
      p ≤ (Measure.pi fun _ : Fin (2 * 2) => gaussianReal 0 1) {ω | ∃ finder : Gen.FinderObj _ 2,
        textFinder Demo.gaussRng (fun _ => Demo.tapeOf (n := 0) fun _ => 0) 7 (fun _ c => c) fe (.canonical ens) none
          (initArgs a (some (Demo.tapeOf ω)) false) a.kwargs = .ok finder ∧
        TextFollows Demo.gaussRng o (fun _ => N) tol (fun _ => 10) finder (a.maxRevive * (2 : ℕ)) (fun _ _ => 1)
          (fun k => Demo.scanPhi (ts k)) (B * tol)} := by
  obtain ⟨s₀, H⟩ := C117_random (M := 2) Demo.scan_branch (fun _ => one_pos) (ρ := 1 / 10) (by norm_num)
    (fun _ _ _ => by norm_num) (t₀ := ⟨1 / 10, by norm_num, by norm_num⟩) (fun _ => rfl) Demo.gaussRng_ok
    (fun _ => Demo.tapeOf (n := 0) fun _ => 0) 7 (fun _ c => c)
  obtain ⟨a₀, ha₀, H⟩ := H s₀ le_rfl
  obtain ⟨p, hp, step, hstep, τ, hτ, B, hB, K, hK, H⟩ := H (Demo.scanArgs s₀ a₀) (Demo.scan_careful ha₀)
    (fun _ _ => by norm_num [Demo.scanArgs])
  refine ⟨Demo.scanArgs s₀ a₀, p, step, τ, B, K, hp, hstep, hτ, fun tol htol hle => ?_⟩
  obtain ⟨N, hN, H⟩ := H tol htol hle
  refine ⟨N, hN, fun ts h0 hts => ?_⟩
  obtain ⟨fe, ens, h1, h2, h3⟩ := Demo.script_objects
  choose o ho using fun k => Demo.exists_point (Demo.scanFH_symm (ts k)) (![1 / 2, 1 / 2] : Vec 2 ℝ)
  exact ⟨fe, ens, o, ho, H ts (Subtype.ext h0) hts h1 h2 h3 false o ho (fun _ => N) (fun _ => 10) (fun _ => le_rfl)
    (fun _ => by norm_num) (Demo.gauss_draws (2 * 2))⟩

-- C117: the same loop after `reinitialize_from_omegas`.
example : ∃ (a : FinderArgs) (step τ B K : ℝ), 0 < step ∧ 0 < τ ∧
    ∀ tol, 0 < tol → tol ≤ τ → ∃ N : ℕ, LogSteps K tol N ∧
    ∀ ts : ℕ → Demo.ScanPoint, (∀ k, dist (ts k) (ts (k + 1)) ≤ step) →
    ∃ (fe : Gen.FloryHugginsAttrs) (ens : Gen.CanonicalEnsembleAttrs) (o : ℕ → PointObjects)
      (finder finder' : Gen.FinderObj Unit 2),
      (∀ k, (o k).Hold (Demo.scanFH (ts k)).chis ![1 / 2, 1 / 2]) ∧
      textFinder Demo.fenv.rng (fun _ => ()) 7 (fun _ c => c) fe (.canonical ens) none (initArgs a none false)
        a.kwargs = .ok finder ∧
      Gen.CoexistingPhasesFinder.reinitialize_from_omegas (fun _ c => c) (.ofMat fun r m =>
        equilibriumField (Demo.scanFH (ts 0)).chis id (fun _ => 1) (fun j => Demo.scanPhi (ts 0) j m) r + 7) finder =
          (finder', .ok ()) ∧
      TextFollows Demo.fenv.rng o (fun _ => N) tol (fun _ => 10) finder' (a.maxRevive * (2 : ℕ)) (fun _ _ => 1)
        (fun k => Demo.scanPhi (ts k)) (B * tol) := by
  obtain ⟨s₀, H⟩ := C117_scan (M := 2) Demo.scan_branch (fun _ => one_pos) (ρ := 1 / 10) (by norm_num)
    (fun _ _ _ => by norm_num) (gen := Demo.fenv.rng) (rngZero_ok ℝ) (fun _ => ()) 7 (fun _ c => c)
  obtain ⟨a₀, ha₀, H⟩ := H s₀ le_rfl
  obtain ⟨step, hstep, η, hη, τ, hτ, B, hB, H⟩ := H (Demo.scanArgs s₀ a₀) (Demo.scan_careful ha₀)
    (fun _ _ => by norm_num [Demo.scanArgs])
  obtain ⟨K, hK, H⟩ := H fun _ => 7
  refine ⟨Demo.scanArgs s₀ a₀, step, τ, B, K, hstep, hτ, fun tol htol hle => ?_⟩
  obtain ⟨N, hN, H⟩ := H tol htol hle
  refine ⟨N, hN, fun ts hts => ?_⟩
  obtain ⟨fe, ens, h1, h2, h3⟩ := Demo.script_objects
  choose o ho using fun k => Demo.exists_point (Demo.scanFH_symm (ts k)) (![1 / 2, 1 / 2] : Vec 2 ℝ)
  obtain ⟨finder, f1, H⟩ := H ts hts (fun m => by simp [hη.le]) h1 h2 h3 none false
  obtain ⟨finder', f2, H⟩ := H (.ofMat fun r m =>
    equilibriumField (Demo.scanFH (ts 0)).chis id (fun _ => 1) (fun j => Demo.scanPhi (ts 0) j m) r + 7) rfl
    (fun r m => by rw [ofMat_get, sub_self, abs_zero]; exact hη.le)
  exact ⟨fe, ens, o, finder, finder', ho, f1, f2, H o ho (fun _ => N) (fun _ => 10) (fun _ => le_rfl)
    (fun _ => by norm_num)⟩

namespace Demo

/-- There are functions with the behaviour that scipy documents, on all arrays. -/
theorem scipy_documented : ∃ scipy : Scipy, ScipyDocumented scipy := by
  classical
  have hlab : ∀ a : NDArr ℝ, ∃ l : List ℤ, ∀ P C, a.shape = [P, C] → 2 ≤ P →
      l.length = P ∧ FCluster (C := C) (1 / 100) (fun (p : Fin P) (i : Fin C) => a.get [p.1, i.1])
        fun p => l.getD p.1 0 := by
    intro a
    by_cases h : ∃ P C, a.shape = [P, C] ∧ 2 ≤ P
    · obtain ⟨P, C, hs, hP⟩ := h
      obtain ⟨labels, hl⟩ := fcluster_exists (P := P) (C := C) (by omega) (1 / 100)
        (fun (p : Fin P) (i : Fin C) => a.get [p.1, i.1])
      refine ⟨List.ofFn labels, fun P' C' hs' _ => ?_⟩
      rw [hs] at hs'
      obtain ⟨rfl, rfl⟩ : P = P' ∧ C = C' := by simpa using hs'
      refine ⟨by simp, ?_⟩
      rwa [show (fun p : Fin P => (List.ofFn labels).getD p.1 0) = labels by funext p; simp [List.getD]]
    · exact ⟨[], fun P C hs hP => absurd ⟨P, C, hs, hP⟩ h⟩
  choose lab hl using hlab
  exact ⟨⟨id, fun a _ => .ok a, fun a _ _ => .ok (lab a)⟩, fun a hs hP =>
    ⟨_, _, rfl, rfl, (hl a _ _ hs hP).1, (hl a _ _ hs hP).2⟩⟩

/-- The two phases of the symmetric mixture are at least 1/5 apart. -/
theorem scan_apart (t : ScanPoint) {m n : Fin 2} (h : m ≠ n) :
    1 / 5 ≤ eucl (fun i => scanPhi t i m) fun i => scanPhi t i n := by
  have h2 := t.2.2
  unfold eucl
  refine Real.le_sqrt_of_sq_le ?_
  fin_cases m <;> fin_cases n <;> simp [scanPhi, Fin.sum_univ_two] at h ⊢ <;> nlinarith

end Demo

-- C117: the loop with `get_clusters` on the symmetric binodal, started at the fields of the first point.
example : ∃ (a : FinderArgs) (step τ B K : ℝ), 0 < step ∧ 0 < τ ∧
    ∀ tol, 0 < tol → tol ≤ τ → ∃ N : ℕ, LogSteps K tol N ∧
    ∀ ts : ℕ → Demo.ScanPoint, (∀ k, dist (ts k) (ts (k + 1)) ≤ step) →
    ∃ (scipy : Scipy) (fe : Gen.FloryHugginsAttrs) (ens : Gen.CanonicalEnsembleAttrs) (o : ℕ → PointObjects)
      (finder finder' : Gen.FinderObj Unit 2),
      (∀ k, (o k).Hold (Demo.scanFH (ts k)).chis ![1 / 2, 1 / 2]) ∧
      textFinder Demo.fenv.rng (fun _ => ()) 7 (fun _ c => c) fe (.canonical ens) none (initArgs a none false)
        a.kwargs = .ok finder ∧
      Gen.CoexistingPhasesFinder.reinitialize_from_omegas (fun _ c => c) (.ofMat fun r m =>
        equilibriumField (Demo.scanFH (ts 0)).chis id (fun _ => 1) (fun j => Demo.scanPhi (ts 0) j m) r + 7) finder =
          (finder', .ok ()) ∧
      ClustersFollow scipy Demo.fenv.rng o (fun _ => N) tol (fun _ => 10) finder' (fun _ _ => 1)
        (fun k => Demo.scanPhi (ts k)) (B * tol) := by
  obtain ⟨s₀, H⟩ := C117_scan (M := 2) Demo.scan_branch (fun _ => one_pos) (ρ := 1 / 10) (by norm_num)
    (fun _ _ _ => by norm_num) (gen := Demo.fenv.rng) (rngZero_ok ℝ) (fun _ => ()) 7 (fun _ c => c)
  obtain ⟨a₀, ha₀, H⟩ := H s₀ le_rfl
  obtain ⟨step, hstep, η, hη, τ, hτ, B, hB, H⟩ := H (Demo.scanArgs s₀ a₀) (Demo.scan_careful ha₀)
    (fun _ _ => by norm_num [Demo.scanArgs])
  obtain ⟨K, hK, H⟩ := H fun _ => 7
  refine ⟨Demo.scanArgs s₀ a₀, step, min τ (1 / (100 * B)), B, K, hstep, lt_min hτ (by positivity),
    fun tol htol hle => ?_⟩
  obtain ⟨N, hN, H⟩ := H tol htol (hle.trans (min_le_left _ _))
  refine ⟨N, hN, fun ts hts => ?_⟩
  obtain ⟨fe, ens, h1, h2, h3⟩ := Demo.script_objects
  obtain ⟨scipy, hs⟩ := Demo.scipy_documented
  choose o ho using fun k => Demo.exists_point (Demo.scanFH_symm (ts k)) (![1 / 2, 1 / 2] : Vec 2 ℝ)
  obtain ⟨finder, f1, H⟩ := H ts hts (fun m => by simp [hη.le]) h1 h2 h3 none false
  obtain ⟨finder', f2, H⟩ := H (.ofMat fun r m =>
    equilibriumField (Demo.scanFH (ts 0)).chis id (fun _ => 1) (fun j => Demo.scanPhi (ts 0) j m) r + 7) rfl
    (fun r m => by rw [ofMat_get, sub_self, abs_zero]; exact hη.le)
  have hB' : B * tol ≤ 1 / 100 := by
    have := hle.trans (min_le_right _ _)
    rw [le_div_iff₀ (by positivity)] at this
    linarith
  refine ⟨scipy, fe, ens, o, finder, finder', ho, f1, f2, C117_clusters hs (H o ho (fun _ => N) (fun _ => 10) (fun _ => le_rfl)
    (fun _ => by norm_num)) (fun _ _ => by linarith) fun k m n e => ?_⟩
  have := Demo.scan_apart (ts k) e
  push_cast
  linarith

end Flory
