import Verif.Lemmas.PolyObject
import Verif.Props.WorkflowObject
import Verif.Props.Interaction

/-!
# C118: the whole workflow for components that share features, for the transcribed text alone
-/

set_option linter.unusedSectionVars false

namespace Flory

open Spec XReal

variable {G : Type} {M : ℕ}

/-- The transcribed constructors accept full arrays with a symmetric matrix of the features. -/
theorem poly_objects {S : ℕ} {chis : Mat S S ℝ} (hs : ∀ r s, chis r s = chis s r) (n : Vec S ℕ)
    (l : Vec (∑ r, n r) ℝ) :
    ∃ (ia : Gen.FloryHugginsBlockInteractionAttrs) (en : Gen.IdealGasPolydispersedEntropyAttrs) (o : FHBlock S ℝ),
      Gen.FloryHugginsBlockInteraction.init S (.ofMat chis) (.ofVec n) = .ok ia ∧
      Gen.IdealGasPolydispersedEntropy.init S (some (.ofVec l)) (.ofVec n) = .ok en ∧
      SameBlock ia o ∧ o.chisFeat = chis ∧ (∀ feat : Fin (∑ r, n r) → Fin S, IsFeat n feat →
        ∀ i j, ia._chis.get [i.1, j.1] = chis (feat i) (feat j)) ∧ SamePoly en (⟨n, ⟨l⟩⟩ : PolyEntropy S) := by
  have got : ∀ {α β : Type} {R : α → β → Prop} {x : Py α} {y : Py β} {b : β}, Agrees R x y → y = .ok b →
      ∃ a, x = .ok a ∧ R a b := by
    intro α β R x y b h hy
    subst hy
    cases x with
    | error e => exact h.elim
    | ok a => exact ⟨a, rfl, h⟩
  obtain ⟨o, ho, ho1, ho2, -, ho4⟩ := C18_constructor_partial chis n (by
    intro r s; rw [hs r s, sub_self, abs_zero]; positivity)
  obtain ⟨ia, h1, h2⟩ := got (block_init_rel S (.ofMat chis) (.ofVec n)) ho
  obtain ⟨en, h3, h4⟩ := got (poly_init_rel S (some (.ofVec l)) (.ofVec n)) (poly_new n l)
  refine ⟨ia, en, o, h1, h3, h2, ?_, fun feat hf i j => ?_, h4⟩
  · funext r s
    rw [ho2, hs s r]
    ring
  · have h := h2.chis
    rw [ho1] at h
    rw [h.get i j]
    show o.chis.get [i.1, j.1] = _
    rw [ho4 feat hf, hs (feat j)]
    ring

/-- **C118**: components that share features.  `chis` is a symmetric matrix for the features, feature `r` has
`n r ≥ 1` components and component `i` has the feature `feat i` and the size `l i > 0`.  The constructors of the
interaction, the entropy and the finder return, with an ensemble with positive entries and global constraints or none.
After any calls that reinitialize or run, `run` returns one phase per compartment, with volumes above the threshold
and positive fractions that add up to one within the reported error.  `chemical_potentials` of the free energy with
the interactions of the components (attribute `chis`), called with the fractions, returns finite numbers that differ
between phases by at most a bound made of the reported errors. -/
theorem C118_workflow {gen : Rng G ℝ} (hok : gen.Ok) (newGen : ℤ → G) (now : ℤ)
    (other : ℕ → PackedCons M → PackedCons M) {S : ℕ} {chis : Mat S S ℝ} (hs : ∀ r s, chis r s = chis s r)
    {n : Vec S ℕ} (hn : ∀ r, 1 ≤ n r) {l : Vec (∑ r, n r) ℝ} (hl : ∀ i, 0 < l i)
    {feat : Fin (∑ r, n r) → Fin S} (hf : IsFeat n feat)
    {ens : TextEnsemble} (hens : ens.Positive (∑ r, n r))
    {cs : Option (List Gen.LinearGlobalConstraintAttrs)}
    (hcs : ∀ c ∈ cs.getD [], (∃ Cs Ts, Gen.LinearGlobalConstraint.init S Cs Ts = .ok c) ∧ c.num_cons ≠ 0)
    {a : FinderArgs} (rng : Option G) (progress : Bool)
    (hM : M = if a.numPart.getD 0 = 0 then (∑ r, n r) * 8 else a.numPart.getD 0)
    (hstd : 0 ≤ a.randomStd) (hthr : 0 ≤ a.killThreshold) (hthr1 : a.killThreshold < 1)
    (hthr2 : 2 * a.killThreshold * ((M : ℝ) - 1) < 1) (hb : 0 < a.JsStepUpperBound)
    (hcrit : a.criterion = "standard") :
    ∃ (ia : Gen.FloryHugginsBlockInteractionAttrs) (en : Gen.IdealGasPolydispersedEntropyAttrs)
      (finder : Gen.FinderObj G M) (inst : Gen.FloryHugginsInteractionCompiledAttrs),
      Gen.FloryHugginsBlockInteraction.init S (.ofMat chis) (.ofVec n) = .ok ia ∧
      Gen.IdealGasPolydispersedEntropy.init S (some (.ofVec l)) (.ofVec n) = .ok en ∧
      (∀ i j : Fin (∑ r, n r), ia._chis.get [i.1, j.1] = chis (feat i) (feat j)) ∧
      textPolyFinder gen newGen now other ia en ens cs (initArgs a rng progress) a.kwargs = .ok finder ∧
      (Gen.FloryHugginsBlockInteraction.object ia).compiled a.kwargs = .ok inst ∧
      ∀ ops : List FinderOp, (∀ op ∈ ops, Continues a op) → ∀ ms tol iv,
        0 < ms.getD a.maxSteps → 0 < iv.getD a.interval →
        ∃ finder' phases d mu,
          Gen.FinderObj.run gen ms tol iv (callEach (ops.map (methodCall gen other)) finder).1 =
            (finder', .ok phases) ∧
          finder'._diagnostics = some (some d) ∧
          phases.volumes.shape = [M] ∧ phases.fractions.shape = [M, ∑ r, n r] ∧
          (∀ p : Fin M, a.killThreshold < phases.volumes.get [p.1] ∧
            |∑ i : Fin (∑ r, n r), phases.fractions.get [p.1, i.1] - 1| ≤ d.maxAbsIncomp ∧
            ∀ i : Fin (∑ r, n r), 0 < phases.fractions.get [p.1, i.1]) ∧
          Gen.FreeEnergyBase.chemical_potentials (transcribed (fun i j => chis (feat i) (feat j)) l)
            phases.fractions = .ok mu ∧
          ∀ (p q : Fin M) (i : Fin (∑ r, n r)), ∃ x y, mu.row [p.1] i = fin x ∧ mu.row [q.1] i = fin y ∧
            |x - y| ≤ S * d.maxAbsOmegaDiff + |inst._incomp_coef| * d.maxAbsIncomp + 2 * d.maxAbsJsDiff := by
  set env : FinderEnv G := ⟨gen, fun _ _ _ s => s⟩ with henv
  obtain ⟨ia, en, o, hia, hen, hio, hchis, hfull, heno⟩ := poly_objects hs n l
  obtain ⟨hC, eo, es, heo, hes, hpe⟩ := ensemble_same hens
  obtain ⟨hcons, hobj⟩ := constraints_same hcs
  have hS : S ≠ 0 := by
    rintro rfl
    simp at hC
  have : NeZero S := ⟨hS⟩
  have hx : o.obj.compiled a.kwargs = .ok ⟨S, o.compile ((a.kwargs.get? "additional_chis_shift").getD 1)⟩ := by
    rw [InstObj.compiled_eq]
    simp only [FHBlock.obj, dif_neg hS, List.mem_singleton, if_true]
  have he : (⟨n, ⟨l⟩⟩ : PolyEntropy S).obj.compiled a.kwargs = .ok ⟨∑ r, n r, S, .poly ⟨l, n⟩⟩ := by
    rw [InstObj.compiled_eq]; rfl
  obtain ⟨inst, hinst, hcoef⟩ : ∃ inst, (Gen.FloryHugginsBlockInteraction.object ia).compiled a.kwargs = .ok inst ∧
      inst._incomp_coef = (o.compile ((a.kwargs.get? "additional_chis_shift").getD 1)).coef := by
    have hso := block_object_same hio
    have h1 := map_object (f := Gen.FloryHugginsInteractionCompiledAttrs.pack) (fun _ _ => pack_fhc) hso
    rw [InstObj.compiled_eq] at hx
    rw [InstObj.compiled_eq]
    have h2 := hso.2 fun k => if k ∈ o.obj.params then a.kwargs.get? k else none
    rw [hx] at h2
    rw [hso.1]
    revert h2
    cases (Gen.FloryHugginsBlockInteraction.object ia).impl
      (fun k => if k ∈ o.obj.params then a.kwargs.get? k else none) with
    | error e => exact fun h => h.elim
    | ok inst => exact fun h => ⟨inst, rfl, h.coef⟩
  obtain ⟨-, -, -, h4⟩ := create_of_compiled (env := env) (g := rng.getD (newGen now))
    (constraints := textConstraints cs) hx he (hes _) (hcons _ _).1 hstd
  obtain ⟨f, hfc, hcr⟩ := h4 rfl rfl (hcons _ _).2
  have hfM : f.numPart = M := by
    rw [hcr.numPart, hM]
  have hi := C107_init env newGen now other o.obj (⟨n, ⟨l⟩⟩ : PolyEntropy S).obj eo (textConstraints cs) a rng progress
    (M := M) (by
      intro en h
      rw [he] at h
      obtain rfl := Except.ok.inj h
      exact hM)
  rw [hfc] at hi
  obtain ⟨hi1, hi2⟩ := hi
  have hmade : textPolyFinder gen newGen now other ia en ens cs (initArgs a rng progress) a.kwargs =
      .ok (Gen.CoexistingPhasesFinder.init env.rng newGen now other o.obj (⟨n, ⟨l⟩⟩ : PolyEntropy S).obj eo
        (textConstraints cs) (initArgs a rng progress) a.kwargs ({} : Gen.FinderObj G M)).1 := by
    unfold textPolyFinder
    rw [map_object (f := Gen.FloryHugginsInteractionCompiledAttrs.pack) (fun _ _ => pack_fhc) (block_object_same hio),
      map_object (f := Gen.IdealGasPolydispersedEntropyCompiledAttrs.pack) (fun _ _ => pack_poly)
        (poly_object_same heno), heo]
    unfold Gen.newObject
    revert hi2
    rcases (Gen.CoexistingPhasesFinder.init env.rng newGen now other o.obj (⟨n, ⟨l⟩⟩ : PolyEntropy S).obj eo
      (textConstraints cs) (initArgs a rng progress) a.kwargs ({} : Gen.FinderObj G M)) with ⟨o, r⟩
    intro hi
    dsimp only at hi
    subst hi
    rfl
  have hwork := fun {ops : List FinderOp} (hops : ∀ op ∈ ops, ¬ IsSet op) =>
    poly_workflow (env := env) hok (fun _ _ _ _ => rfl) (fun _ _ _ _ h => h) hS (gas := ⟨n, ⟨l⟩⟩) hC hfc (hes _) hpe hl
      hn hf hobj hthr hthr1 hb (by rw [hfM]; exact hthr2) hcrit (ops := ops) hops
  refine ⟨ia, en, _, inst, hia, hen, hfull feat hf, hmade, hinst, fun ops hops ms tol iv hms hiv => ?_⟩
  have hset : ∀ op ∈ ops, ¬ IsSet op := fun op h hs => by
    have := hops op h
    cases op <;> first | exact this | exact hs
  have hret : ∀ (pre post : List FinderOp), (∀ op ∈ pre ++ post, Continues a op) →
      List.Forall₂ (fun op r => (∃ ms tol iv, op = FinderOp.run ms tol iv) → ∃ out, r = .ok out) post
        (Finder.steps env post (Finder.steps env pre f).1).2 := by
    intro pre post
    induction post generalizing pre with
    | nil => exact fun _ => .nil
    | cons op post ih =>
      intro h
      have h1 := ih (pre ++ [op]) (by simpa using h)
      rw [steps_append] at h1
      refine .cons ?_ h1
      rintro ⟨ms, tol, iv, rfl⟩
      obtain ⟨k1, k2⟩ := h (.run ms tol iv) (by simp)
      obtain ⟨P, ph, d, hr, -⟩ := hwork (ops := pre) (fun op hm hs => by
        have := h op (List.mem_append_left _ hm)
        cases op <;> first | exact this | exact hs) ms tol iv k1 k2
      refine ⟨some ⟨P, _, ph, d⟩, ?_⟩
      show Except.map some ((Finder.steps env pre f).1.run env ms tol iv).2 = _
      rw [hr]
      rfl
  obtain ⟨hsame, -⟩ := C110_history (env := env) hok other hi1 ops (hret [] ops hops)
  obtain ⟨P, ph, d, hr, hP, hphys, hmu⟩ := hwork hset ms tol iv hms hiv
  have hrun := run_same (env := env) hok hsame ms tol iv
  rw [show (Finder.steps env ops f).1.run env ms tol iv = (((Finder.steps env ops f).1.run env ms tol iv).1,
    ((Finder.steps env ops f).1.run env ms tol iv).2) from rfl, hr] at hrun
  dsimp only at hrun
  obtain ⟨o', ho', hso, hd⟩ := hrun
  obtain rfl : P = M := hP.trans hfM
  dsimp only at ph hphys hmu
  rw [hchis] at hmu
  have hcomp : ∀ p : Fin P, composition (∑ r, n r) (NDArr.ofMat ph.fractions) [p.1] = ph.fractions p := fun p =>
    funext fun i => ofMat_get ph.fractions p i
  obtain ⟨mu, hmu1, hmu2⟩ := chemicalPotentials_ok (fhFree (fun i j => chis (feat i) (feat j)) l)
    (NDArr.ofMat ph.fractions) (lead := [P]) rfl (by
    intro idx hi i
    cases hi with
    | cons hd ht =>
      cases ht
      next k =>
      rw [hcomp ⟨k, hd⟩]
      exact ((hphys _).2.2 i).le)
  have hrow : ∀ (p : Fin P) (i : Fin (∑ r, n r)),
      mu.row [p.1] i = fin (chemPot (fun i j => chis (feat i) (feat j)) l (ph.fractions p) i) := by
    intro p i
    have hv : ValidIndex [p.1] mu.lead := by
      rw [hmu2]
      exact List.Forall₂.cons p.2 List.Forall₂.nil
    have := (C21_chemical_potentials (fun i j => hs (feat i) (feat j)) hl hmu1 hv i).2
    rw [show composition _ (NDArr.ofMat ph.fractions) (sourceIndex (NDArr.ofMat ph.fractions) [p.1]) =
      ph.fractions p from hcomp p] at this
    exact this ((hphys p).2.2 i).ne'
  refine ⟨o', _, d, mu, ho', hso.diagnostics.trans (congrArg some hd), rfl, rfl, fun p => ⟨?_, ?_, fun i => ?_⟩, ?_,
    fun p q i => ⟨_, _, hrow p i, hrow q i, ?_⟩⟩
  · rw [ofVec_get]; exact (hphys p).1
  · simp only [ofMat_get]; exact (hphys p).2.1
  · rw [ofMat_get]; exact (hphys p).2.2 i
  · rw [C104_chemical_potentials, transcribed_eq]; exact hmu1
  · rw [hcoef]; exact hmu p q i

namespace Demo

/-- The numbers of `examples/polydispersed.py`. -/
def polyCount : Vec 2 ℕ := ![2, 2]

def polySizes : Vec (∑ r, polyCount r) ℝ := fun i => if i.1 % 2 = 0 then 1 else 2

noncomputable def polyMeans : Vec (∑ r, polyCount r) ℝ := fun i => if i.1 % 2 = 0 then 1 / 5 else 3 / 10

def polyFeat : Fin (∑ r, polyCount r) → Fin 2 := fun i => if i.1 < 2 then 0 else 1

theorem polyCount_sum : ∑ r, polyCount r = 4 := by simp [polyCount]

theorem polyFeat_ok : IsFeat polyCount polyFeat := by
  intro i
  have hi : i.1 < 4 := polyCount_sum ▸ i.2
  unfold polyFeat offset
  split <;> simp [polyCount] <;> omega

theorem polyMeans_made : ∃ ens, Gen.CanonicalEnsemble.init (∑ r, polyCount r) (some (.ofVec polyMeans)) = .ok ens ∧
    ∀ i, i < ∑ r, polyCount r → 0 < ens._phi_means.get [i] := by
  obtain ⟨-, -, -, h, -⟩ := shortcut_objects (C := ∑ r, polyCount r) (by rw [polyCount_sum]; norm_num)
    (fun _ _ => 0) (fun _ => 1) polyMeans
  have hr := canonical_init_rel (∑ r, polyCount r) (some (.ofVec polyMeans))
  rw [h] at hr
  revert hr
  cases Gen.CanonicalEnsemble.init (∑ r, polyCount r) (some (.ofVec polyMeans)) with
  | error e => exact fun h => h.elim
  | ok a =>
    refine fun hr => ⟨a, rfl, fun i hi => ?_⟩
    rw [hr.phiMeans.get ⟨i, hi⟩]
    show 0 < polyMeans ⟨i, hi⟩
    unfold polyMeans
    split <;> norm_num

end Demo

-- C118: `examples/polydispersed.py`, four components with two features and the defaults of the finder.  The finder is
-- run, started from new random fields, and run again.
example : ∃ (ia : Gen.FloryHugginsBlockInteractionAttrs) (en : Gen.IdealGasPolydispersedEntropyAttrs)
    (ens : Gen.CanonicalEnsembleAttrs) (finder finder' : Gen.FinderObj Unit 32) (phases : Gen.PhasesAttrs),
    Gen.FloryHugginsBlockInteraction.init 2 (.ofMat ![![0, 4], ![4, 0]]) (.ofVec Demo.polyCount) = .ok ia ∧
    ia._chis.get [1, 2] = 4 ∧
    Gen.IdealGasPolydispersedEntropy.init 2 (some (.ofVec Demo.polySizes)) (.ofVec Demo.polyCount) = .ok en ∧
    textPolyFinder Demo.fenv.rng (fun _ => ()) 7 (fun _ c => c) ia en (.canonical ens) none {} [] = .ok finder ∧
    Gen.FinderObj.run Demo.fenv.rng none none none (callEach ([.run none none none, .reinitRandom].map
      (methodCall Demo.fenv.rng fun _ c => c)) finder).1 = (finder', .ok phases) ∧
    phases.fractions.shape = [32, 4] ∧ 0 < phases.fractions.get [31, 3] := by
  obtain ⟨ens, h1, h2⟩ := Demo.polyMeans_made
  have hC := Demo.polyCount_sum
  obtain ⟨ia, en, finder, inst, k1, k2, k3, k4, -, k5⟩ := C118_workflow (M := 32) (gen := Demo.fenv.rng) (rngZero_ok ℝ)
    (fun _ => ()) 7 (fun _ c => c) (S := 2) (chis := ![![0, 4], ![4, 0]])
    (by intro r s; fin_cases r <;> fin_cases s <;> rfl) (n := Demo.polyCount)
    (by intro r; fin_cases r <;> simp [Demo.polyCount]) (l := Demo.polySizes)
    (by intro i; unfold Demo.polySizes; split <;> norm_num) Demo.polyFeat_ok (.canonical h1 h2) (cs := none) (by simp)
    (a := {}) none true (by rw [hC]; rfl) (by norm_num) (by norm_num) (by norm_num) (by norm_num) (by norm_num) rfl
  obtain ⟨finder', phases, d, mu, q1, -, -, q2, q3, -⟩ := k5 [.run none none none, .reinitRandom]
    (by simp [Continues]) none none none (by norm_num) (by norm_num)
  rw [C107_defaults.1] at k4
  refine ⟨ia, en, ens, finder, finder', phases, k1, ?_, k2, k4, q1, by rw [q2, hC], (q3 31).2.2 ⟨3, by rw [hC]; norm_num⟩⟩
  rw [k3 ⟨1, by rw [hC]; norm_num⟩ ⟨2, by rw [hC]; norm_num⟩]
  rfl

-- C118: the same mixture at given activities, with equal amounts of both features on average.
example : ∃ (ia : Gen.FloryHugginsBlockInteractionAttrs) (en : Gen.IdealGasPolydispersedEntropyAttrs)
    (z : Gen.GrandCanonicalEnsembleAttrs) (c : Gen.LinearGlobalConstraintAttrs) (finder finder' : Gen.FinderObj Unit 32)
    (phases : Gen.PhasesAttrs) (d : Diagnostics ℝ) (inst : Gen.FloryHugginsInteractionCompiledAttrs)
    (mu : Rows (Vec (∑ r, Demo.polyCount r) XReal)),
    Gen.LinearGlobalConstraint.init 2 (.ofMat ![![1, -1]]) (.ofVec ![0]) = .ok c ∧
    textPolyFinder Demo.fenv.rng (fun _ => ()) 7 (fun _ c => c) ia en (.grand z) (some [c]) {} [] = .ok finder ∧
    (Gen.FloryHugginsBlockInteraction.object ia).compiled [] = .ok inst ∧
    Gen.FinderObj.run Demo.fenv.rng (some 10) none none finder = (finder', .ok phases) ∧
    finder'._diagnostics = some (some d) ∧
    Gen.FreeEnergyBase.chemical_potentials (transcribed (fun i j =>
      (![![0, 4], ![4, 0]] : Mat 2 2 ℝ) (Demo.polyFeat i) (Demo.polyFeat j)) Demo.polySizes) phases.fractions = .ok mu ∧
    ∀ (p q : Fin 32) (i : Fin (∑ r, Demo.polyCount r)), ∃ x y, mu.row [p.1] i = fin x ∧ mu.row [q.1] i = fin y ∧
      |x - y| ≤ 2 * d.maxAbsOmegaDiff + |inst._incomp_coef| * d.maxAbsIncomp + 2 * d.maxAbsJsDiff := by
  obtain ⟨-, -, -, c, -, -, -, -, -, -, h5, h6⟩ := Demo.objects_made
  have hC := Demo.polyCount_sum
  have hz : ∃ z, Gen.GrandCanonicalEnsemble.init (∑ r, Demo.polyCount r) (.ofVec Demo.polyMeans) = .ok z ∧
      ∀ i, i < ∑ r, Demo.polyCount r → 0 < z._scaled_activity.get [i] := by
    have hr := grand_init_rel (∑ r, Demo.polyCount r) (.ofVec Demo.polyMeans)
    have hn : GrandCanonicalEnsemble.new (∑ r, Demo.polyCount r) (.ofVec Demo.polyMeans) = .ok ⟨Demo.polyMeans⟩ := by
      obtain ⟨b, hb, hb'⟩ := convertAndBroadcast_vec Demo.polyMeans
      unfold convertAndBroadcast at hb
      unfold GrandCanonicalEnsemble.new
      rw [if_neg (by rw [hC]; norm_num), hb, bind_ok, hb']
      rfl
    rw [hn] at hr
    revert hr
    cases Gen.GrandCanonicalEnsemble.init (∑ r, Demo.polyCount r) (.ofVec Demo.polyMeans) with
    | error e => exact fun h => h.elim
    | ok a =>
      refine fun hr => ⟨a, rfl, fun i hi => ?_⟩
      rw [hr.scaledActivity.get ⟨i, hi⟩]
      show 0 < Demo.polyMeans ⟨i, hi⟩
      unfold Demo.polyMeans
      split <;> norm_num
  obtain ⟨z, h1, h2⟩ := hz
  obtain ⟨ia, en, finder, inst, -, -, -, k4, ki, k5⟩ := C118_workflow (M := 32) (gen := Demo.fenv.rng) (rngZero_ok ℝ)
    (fun _ => ()) 7 (fun _ c => c) (S := 2) (chis := ![![0, 4], ![4, 0]])
    (by intro r s; fin_cases r <;> fin_cases s <;> rfl) (n := Demo.polyCount)
    (by intro r; fin_cases r <;> simp [Demo.polyCount]) (l := Demo.polySizes)
    (by intro i; unfold Demo.polySizes; split <;> norm_num) Demo.polyFeat_ok (.grand h1 h2) (cs := some [c])
    (fun x hx => by rw [List.mem_singleton.mp hx]; exact ⟨⟨_, _, h5⟩, h6⟩)
    (a := {}) none true (by rw [hC]; rfl) (by norm_num) (by norm_num) (by norm_num) (by norm_num) (by norm_num) rfl
  obtain ⟨finder', phases, d, mu, q1, qd, -, -, -, q2, q3⟩ := k5 [] (by simp) (some 10) none none (by norm_num)
    (by norm_num)
  rw [C107_defaults.1] at k4
  exact ⟨ia, en, z, c, finder, finder', phases, d, inst, mu, h5, k4, ki, q1, qd, q2, q3⟩

end Flory
