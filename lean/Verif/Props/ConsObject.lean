import Verif.Lemmas.ConsObject
import Verif.Props.WorkflowObject

/-!
# C119: the whole workflow with local constraints, for the transcribed text alone
-/

set_option linter.unusedSectionVars false

namespace Flory

open Spec XReal

variable {G : Type} {M : ℕ}

/-- **C119**: make a `FloryHuggins` object in any way, with positive sizes, an ensemble with positive entries, any list
of local and global constraints, and a finder.  After any calls that reinitialize or run, `run` returns one phase per
compartment, with volumes above the threshold and positive fractions that add up to one within the reported error.
In each phase every local constraint holds up to the reported residue.  An exchange `w` of volume between components
that adds up to zero and keeps the local constraints costs the same in all phases: `chemical_potentials` of the free
energy returns finite numbers whose sums weighted by `w` differ by at most a bound made of the reported errors. -/
theorem C119_workflow {gen : Rng G ℝ} (hok : gen.Ok) (newGen : ℤ → G) (now : ℤ)
    (other : ℕ → PackedCons M → PackedCons M) {C : ℕ} {fe : Gen.FloryHugginsAttrs} (hfe : ReachedFree C fe)
    (hl : ∀ i, i < C → 0 < fe.entropy._sizes.get [i]) {ens : TextEnsemble} (hens : ens.Positive C)
    {cs : List TextConstraint} (hcs : ∀ c ∈ cs, c.Made C)
    {a : FinderArgs} (rng : Option G) (progress : Bool)
    (hM : M = if a.numPart.getD 0 = 0 then C * 8 else a.numPart.getD 0)
    (hstd : 0 ≤ a.randomStd) (hthr : 0 ≤ a.killThreshold) (hthr1 : a.killThreshold < 1)
    (hthr2 : 2 * a.killThreshold * ((M : ℝ) - 1) < 1) (hb : 0 < a.JsStepUpperBound)
    (hcrit : a.criterion = "standard") :
    ∃ (finder : Gen.FinderObj G M) (inst : Gen.FloryHugginsInteractionCompiledAttrs),
      textConsFinder gen newGen now other fe ens cs (initArgs a rng progress) a.kwargs = .ok finder ∧
      (Gen.FloryHugginsInteraction.object fe.interaction).compiled a.kwargs = .ok inst ∧
      ∀ ops : List FinderOp, (∀ op ∈ ops, Continues a op) → ∀ ms tol iv,
        0 < ms.getD a.maxSteps → 0 < iv.getD a.interval →
        ∃ finder' phases d mu,
          Gen.FinderObj.run gen ms tol iv (callEach (ops.map (methodCall gen other)) finder).1 =
            (finder', .ok phases) ∧
          finder'._diagnostics = some (some d) ∧
          phases.volumes.shape = [M] ∧ phases.fractions.shape = [M, C] ∧
          (∀ p : Fin M, a.killThreshold < phases.volumes.get [p.1] ∧
            |∑ i : Fin C, phases.fractions.get [p.1, i.1] - 1| ≤ d.maxAbsIncomp ∧
            ∀ i : Fin C, 0 < phases.fractions.get [p.1, i.1]) ∧
          (∀ c, .loc c ∈ cs → ∀ (p : Fin M) (k : Fin c.num_cons),
            |∑ i : Fin C, c._Cs.get [k.1, i.1] * phases.fractions.get [p.1, i.1] - c._Ts.get [k.1]| ≤
              d.maxConstraintResidue) ∧
          Gen.FreeEnergyBase.chemical_potentials (freeEnergyOf C fe) phases.fractions = .ok mu ∧
          ∃ x : Fin M → Fin C → ℝ, (∀ p i, mu.row [p.1] i = fin (x p i)) ∧
            ∀ w : Fin C → ℝ, ∑ i, w i = 0 →
              (∀ c, .loc c ∈ cs → ∀ k : Fin c.num_cons, ∑ i, w i * c._Cs.get [k.1, i.1] = 0) →
              ∀ p q, |(∑ i, w i * x p i) - ∑ i, w i * x q i| ≤
                (∑ i, |w i|) * (C * d.maxAbsOmegaDiff + |inst._incomp_coef| * d.maxAbsIncomp) := by
  set env : FinderEnv G := ⟨gen, fun _ _ _ s => s⟩ with henv
  obtain ⟨fo, hfo⟩ := reachedFree_same hfe
  have hsym : ∀ i j, fo.interaction.chis i j = fo.interaction.chis j i := by
    intro i j
    have := (C105_symmetric (reachedFree_interaction hfe)).2.2 i j i.2 j.2
    rwa [hfo.interaction.chis.get, hfo.interaction.chis.get] at this
  have hpos : ∀ i, 0 < fo.entropy.sizes i := fun i => by
    have := hl i i.2
    rwa [hfo.entropy.sizes.get i] at this
  obtain ⟨hC, eo, es, heo, hes, hpe⟩ := ensemble_same hens
  obtain ⟨os, hos, hsame2, hone⟩ := textConstraint_same hcs
  have hC0 : C ≠ 0 := by omega
  have : NeZero C := ⟨hC0⟩
  have hx : fo.interaction.obj.compiled a.kwargs =
      .ok ⟨C, fo.interaction.compile ((a.kwargs.get? "additional_chis_shift").getD 1)⟩ := by
    rw [InstObj.compiled_eq]
    simp only [FHInteraction.obj, dif_neg hC0, List.mem_singleton, if_true]
  have he : fo.entropy.obj.compiled a.kwargs = .ok ⟨C, C, .ideal ⟨fo.entropy.sizes⟩⟩ := by
    rw [InstObj.compiled_eq]; rfl
  obtain ⟨inst, hinst, hcoef⟩ : ∃ inst, (Gen.FloryHugginsInteraction.object fe.interaction).compiled a.kwargs =
      .ok inst ∧ inst._incomp_coef =
        (fo.interaction.compile ((a.kwargs.get? "additional_chis_shift").getD 1)).coef := by
    have hso := fh_object_same hfo.interaction
    have hx' := hx
    rw [InstObj.compiled_eq] at hx'
    rw [InstObj.compiled_eq]
    have h2 := hso.2 fun k => if k ∈ fo.interaction.obj.params then a.kwargs.get? k else none
    rw [hx'] at h2
    rw [hso.1]
    revert h2
    cases (Gen.FloryHugginsInteraction.object fe.interaction).impl
      (fun k => if k ∈ fo.interaction.obj.params then a.kwargs.get? k else none) with
    | error e => exact fun h => h.elim
    | ok inst => exact fun h => ⟨inst, rfl, h.coef⟩
  have hcons : ∀ N kw, (initConstraints N C kw (.many (os.map LinearConstraint.obj))).2 = none ∧
      ∀ c ∈ (initConstraints N C kw (.many (os.map LinearConstraint.obj))).1, c.numFeat = C := by
    intro N kw
    rw [initConstraints_linear]
    refine ⟨rfl, fun c hc => ?_⟩
    obtain ⟨n, -, rfl⟩ := List.mem_map.mp hc
    rfl
  obtain ⟨-, -, -, h4⟩ := create_of_compiled (env := env) (g := rng.getD (newGen now))
    (constraints := .many (os.map LinearConstraint.obj)) hx he (hes _) (hcons _ _).1 hstd
  obtain ⟨f, hf, hcr⟩ := h4 rfl rfl (hcons _ _).2
  have hfM : f.numPart = M := by
    rw [hcr.numPart, hM]
  have hi := C107_init env newGen now other fo.interaction.obj fo.entropy.obj eo
    (.many (os.map LinearConstraint.obj)) a rng progress (M := M) (by
      intro en h
      rw [he] at h
      obtain rfl := Except.ok.inj h
      exact hM)
  rw [hf] at hi
  obtain ⟨hi1, hi2⟩ := hi
  have hmade : textConsFinder gen newGen now other fe ens cs (initArgs a rng progress) a.kwargs =
      .ok (Gen.CoexistingPhasesFinder.init env.rng newGen now other fo.interaction.obj fo.entropy.obj eo
        (.many (os.map LinearConstraint.obj)) (initArgs a rng progress) a.kwargs ({} : Gen.FinderObj G M)).1 := by
    unfold textConsFinder
    rw [map_object (f := Gen.FloryHugginsInteractionCompiledAttrs.pack) (fun _ _ => pack_fhc)
        (fh_object_same hfo.interaction),
      map_object (f := Gen.IdealGasEntropyCompiledAttrs.pack) (fun _ _ => pack_ideal) (gas_object_same hfo.entropy),
      heo, hos]
    unfold Gen.newObject
    revert hi2
    rcases (Gen.CoexistingPhasesFinder.init env.rng newGen now other fo.interaction.obj fo.entropy.obj eo
      (.many (os.map LinearConstraint.obj)) (initArgs a rng progress) a.kwargs ({} : Gen.FinderObj G M)) with ⟨o, r⟩
    intro hi
    dsimp only at hi
    subst hi
    rfl
  have hwork := fun {ops : List FinderOp} (hops : ∀ op ∈ ops, ¬ IsSet op) =>
    cons_workflow (env := env) hok (fun _ _ _ _ => rfl) (fun _ _ _ _ h => h) hC0 hf (hes _) hpe hpos hone hthr hthr1
      hb (by rw [hfM]; exact hthr2) hcrit (ops := ops) hops
  refine ⟨_, inst, hmade, hinst, fun ops hops ms tol iv hms hiv => ?_⟩
  have hset : ∀ op ∈ ops, ¬ IsSet op := fun op h hs => by
    have := hops op h
    cases op <;> first | exact this | exact hs
  have hret : ∀ (pre post : List FinderOp), (∀ op ∈ pre ++ post, Continues a op) →
      List.Forall₂ (fun op r => (∃ ms tol iv, op = FinderOp.run ms tol iv) → ∃ out, r = .ok out) post
        (Finder.steps env post (Finder.steps env pre f).1).2 := by
    intro pre post
    induction post generalizing pre with
    | nil => exact fun _ => .nil
    | cons op post ih =>
      intro h
      have h1 := ih (pre ++ [op]) (by simpa using h)
      rw [steps_append] at h1
      refine .cons ?_ h1
      rintro ⟨ms, tol, iv, rfl⟩
      obtain ⟨k1, k2⟩ := h (.run ms tol iv) (by simp)
      obtain ⟨P, ph, d, hr, -⟩ := hwork (ops := pre) (fun op hm hs => by
        have := h op (List.mem_append_left _ hm)
        cases op <;> first | exact this | exact hs) ms tol iv k1 k2
      refine ⟨some ⟨P, C, ph, d⟩, ?_⟩
      show Except.map some ((Finder.steps env pre f).1.run env ms tol iv).2 = _
      rw [hr]
      rfl
  obtain ⟨hsame, -⟩ := C110_history (env := env) hok other hi1 ops (hret [] ops hops)
  obtain ⟨P, ph, d, hr, hP, hphys, hres, hex⟩ := hwork hset ms tol iv hms hiv
  have hrun := run_same (env := env) hok hsame ms tol iv
  rw [show (Finder.steps env ops f).1.run env ms tol iv = (((Finder.steps env ops f).1.run env ms tol iv).1,
    ((Finder.steps env ops f).1.run env ms tol iv).2) from rfl, hr] at hrun
  dsimp only at hrun
  obtain ⟨o', ho', hso, hd⟩ := hrun
  obtain rfl : P = M := hP.trans hfM
  have hfree : freeEnergyOf C fe = fhFree fo.interaction.chis fo.entropy.sizes := by
    unfold freeEnergyOf
    rw [transcribed_eq]
    congr 1
    · funext i j
      exact hfo.interaction.chis.get i j
    · funext i
      exact hfo.entropy.sizes.get i
  have hcomp : ∀ p : Fin P, composition C (NDArr.ofMat ph.fractions) [p.1] = ph.fractions p := fun p =>
    funext fun i => ofMat_get ph.fractions p i
  obtain ⟨mu, hmu1, hmu2⟩ := chemicalPotentials_ok (freeEnergyOf C fe) (NDArr.ofMat ph.fractions) (lead := [P]) rfl (by
    intro idx hi i
    cases hi with
    | cons hd ht =>
      cases ht
      next k =>
      rw [hcomp ⟨k, hd⟩]
      exact ((hphys _).2.2 i).le)
  have hrow : ∀ (p : Fin P) (i : Fin C),
      mu.row [p.1] i = fin (chemPot fo.interaction.chis fo.entropy.sizes (ph.fractions p) i) := by
    intro p i
    have hv : ValidIndex [p.1] mu.lead := by
      rw [hmu2]
      exact List.Forall₂.cons p.2 List.Forall₂.nil
    have := (C21_chemical_potentials hsym hpos (by rw [← hfree]; exact hmu1) hv i).2
    rw [show composition C (NDArr.ofMat ph.fractions) (sourceIndex (NDArr.ofMat ph.fractions) [p.1]) =
      ph.fractions p from hcomp p] at this
    exact this ((hphys p).2.2 i).ne'
  have hto : ∀ c, TextConstraint.loc c ∈ cs → ∃ o ∈ os, SameLocal c o := by
    intro c hc
    obtain ⟨k, hk, hck⟩ := List.mem_iff_getElem.mp hc
    have hlen := hsame2.length_eq
    have := hsame2.get hk (by omega)
    refine ⟨os[k]'(by omega), List.getElem_mem _, ?_⟩
    rw [List.get_eq_getElem, List.get_eq_getElem, hck] at this
    exact this
  have hfrom : ∀ o ∈ os, o.isGlobal = false → ∃ c, TextConstraint.loc c ∈ cs ∧ SameLocal c o := by
    intro o ho hg
    obtain ⟨k, hk, hck⟩ := List.mem_iff_getElem.mp ho
    have hlen := hsame2.length_eq
    have := hsame2.get (i := k) (by omega) hk
    rw [List.get_eq_getElem, List.get_eq_getElem, hck] at this
    have hm : cs[k]'(by omega) ∈ cs := List.getElem_mem _
    revert this hm
    cases cs[k]'(by omega) with
    | loc c => exact fun h hm => ⟨c, hm, h⟩
    | glob c =>
      intro h
      have := h.isGlobal
      rw [hg] at this
      cases this
  refine ⟨o', _, d, mu, ho', hso.diagnostics.trans (congrArg some hd), rfl, rfl, fun p => ⟨?_, ?_, fun i => ?_⟩,
    fun c hc p k => ?_, ?_, _, hrow, fun w hw hk p q => ?_⟩
  · rw [ofVec_get]; exact (hphys p).1
  · simp only [ofMat_get]; exact (hphys p).2.1
  · rw [ofMat_get]; exact (hphys p).2.2 i
  · obtain ⟨o, ho, hco⟩ := hto c hc
    have := hres o ho hco.isLocal p (Fin.cast hco.num_cons k)
    simp only [ofMat_get]
    rw [← hco.Ts.get] at this
    simp only [← hco.Cs.get] at this
    exact this
  · rw [C104_chemical_potentials]; exact hmu1
  · rw [hcoef]
    refine hex w hw (fun o ho hg k => ?_) p q
    obtain ⟨c, hc, hco⟩ := hfrom o ho hg
    simp only [← hco.Cs.get]
    exact hk c hc (Fin.cast hco.num_cons.symm k)

namespace Demo

/-- The numbers of `examples/coexisting_with_constraints.py`. -/
def chargeChis : Mat 5 5 ℝ := ![![0, -7, 0, 0, 0], ![-7, 0, 0, 0, 0], ![0, 0, 0, 0, 0], ![0, 0, 0, 0, 0], ![0, 0, 0, 0, 0]]

def chargeSizes : Vec 5 ℝ := ![10, 10, 1, 1, 1]

noncomputable def chargeMeans : Vec 5 ℝ := ![1 / 10, 1 / 10, 9 / 100, 9 / 100, 62 / 100]

noncomputable def charges : Mat 1 5 ℝ := ![![9 / 10, -(9 / 10), -1, 1, 0]]

theorem charge_objects : ∃ fe ens c,
    Gen.FloryHuggins.init 5 (.ofMat chargeChis) (some (.ofVec chargeSizes)) = .ok fe ∧
    (∀ i, i < 5 → 0 < fe.entropy._sizes.get [i]) ∧
    Gen.CanonicalEnsemble.init 5 (some (.ofVec chargeMeans)) = .ok ens ∧ (∀ i, i < 5 → 0 < ens._phi_means.get [i]) ∧
    Gen.LinearLocalConstraint.init 5 (.ofMat charges) (.ofVec ![0]) = .ok c ∧ c.num_cons = 1 ∧
    (∀ i : Fin 5, c._Cs.get [0, i.1] = charges 0 i) ∧ c._Ts.get [0] = 0 := by
  have got : ∀ {α β : Type} {R : α → β → Prop} {x : Py α} {y : Py β} {b : β}, Agrees R x y → y = .ok b →
      ∃ a, x = .ok a ∧ R a b := by
    intro α β R x y b h hy
    subst hy
    cases x with
    | error e => exact h.elim
    | ok a => exact ⟨a, rfl, h⟩
  obtain ⟨o1, o2, -, o3, -⟩ := shortcut_objects (C := 5) (by norm_num) chargeChis chargeSizes chargeMeans
  have hn : FHObject.new 5 (.ofMat chargeChis) (some (.ofVec chargeSizes)) =
      .ok ⟨⟨fun i j => 1 / 2 * (chargeChis i j + chargeChis j i), false⟩, ⟨chargeSizes⟩⟩ := by
    unfold FHObject.new
    rw [o1, o2]
    rfl
  obtain ⟨fe, h1, h2⟩ := got (free_init_rel 5 _ _) hn
  obtain ⟨ens, h3, h4⟩ := got (canonical_init_rel 5 _) o3
  obtain ⟨c, h5, h6⟩ := got (local_init_rel 5 (.ofMat charges) (.ofVec ![0])) (b := ⟨false, 1, charges, ![0]⟩) (by
    obtain ⟨b, hb, hb'⟩ := convertAndBroadcast_vec (![0] : Vec 1 ℝ)
    obtain ⟨c, hc, hc'⟩ := convertAndBroadcast_mat charges
    unfold convertAndBroadcast at hb hc
    show LinearConstraint.new.fill 5 false 1 (NDArr.ofMat charges).atleast1d _ = _
    unfold LinearConstraint.new.fill
    rw [hc, bind_ok, hb, bind_ok, hb', hc']
    rfl)
  refine ⟨fe, ens, c, h1, fun i hi => ?_, h3, fun i hi => ?_, h5, h6.num_cons, fun i => h6.Cs.get 0 i, h6.Ts.get 0⟩
  · rw [h2.entropy.sizes.get ⟨i, hi⟩]
    interval_cases i <;> norm_num [chargeSizes]
  · rw [h4.phiMeans.get ⟨i, hi⟩]
    interval_cases i <;> norm_num [chargeMeans]

end Demo

-- C119: `examples/coexisting_with_constraints.py`, two polymers and two ions in a solvent with neutral phases.  The
-- phases are neutral up to the reported residue, and the exchange of both polymers with solvent is balanced.
example : ∃ (fe : Gen.FloryHugginsAttrs) (ens : Gen.CanonicalEnsembleAttrs) (c : Gen.LinearLocalConstraintAttrs)
    (finder finder' : Gen.FinderObj Unit 40) (phases : Gen.PhasesAttrs) (d : Diagnostics ℝ)
    (inst : Gen.FloryHugginsInteractionCompiledAttrs) (mu : Rows (Vec 5 XReal)) (x : Fin 40 → Fin 5 → ℝ),
    Gen.FloryHuggins.init 5 (.ofMat Demo.chargeChis) (some (.ofVec Demo.chargeSizes)) = .ok fe ∧
    textConsFinder Demo.fenv.rng (fun _ => ()) 7 (fun _ c => c) fe (.canonical ens) [.loc c] {} [] = .ok finder ∧
    (Gen.FloryHugginsInteraction.object fe.interaction).compiled [] = .ok inst ∧
    Gen.FinderObj.run Demo.fenv.rng none none none finder = (finder', .ok phases) ∧
    finder'._diagnostics = some (some d) ∧
    (∀ p : Fin 40, |9 / 10 * phases.fractions.get [p.1, 0] - 9 / 10 * phases.fractions.get [p.1, 1]
      - phases.fractions.get [p.1, 2] + phases.fractions.get [p.1, 3]| ≤ d.maxConstraintResidue) ∧
    Gen.FreeEnergyBase.chemical_potentials (freeEnergyOf 5 fe) phases.fractions = .ok mu ∧
    (∀ p i, mu.row [p.1] i = fin (x p i)) ∧
    ∀ p q, |(x p 0 + x p 1 - 2 * x p 4) - (x q 0 + x q 1 - 2 * x q 4)| ≤
      4 * (5 * d.maxAbsOmegaDiff + |inst._incomp_coef| * d.maxAbsIncomp) := by
  obtain ⟨fe, ens, c, h1, h2, h3, h4, h5, h6, h7, h8⟩ := Demo.charge_objects
  have hC : ∀ k : Fin c.num_cons, k.1 = 0 := fun k => by have := k.2; omega
  obtain ⟨finder, inst, k1, ki, k2⟩ := C119_workflow (M := 40) (gen := Demo.fenv.rng) (rngZero_ok ℝ) (fun _ => ()) 7
    (fun _ c => c) (C := 5) (.init h1) h2 (.canonical h3 h4) (cs := [.loc c])
    (fun x hx => by rw [List.mem_singleton.mp hx]; exact .loc h5 (by rw [h6]; norm_num)) (a := {}) none true (by rfl)
    (by norm_num) (by norm_num) (by norm_num) (by norm_num) (by norm_num) rfl
  obtain ⟨finder', phases, d, mu, q1, qd, -, -, -, q2, q3, x, q4, q5⟩ := k2 [] (by simp) none none none (by norm_num)
    (by norm_num)
  rw [C107_defaults.1] at k1
  refine ⟨fe, ens, c, finder, finder', phases, d, inst, mu, x, h1, k1, ki, q1, qd, fun p => ?_, q3, q4, fun p q => ?_⟩
  · have := q2 c List.mem_cons_self p ⟨0, by omega⟩
    dsimp only at this
    rw [h8] at this
    simp only [h7] at this
    refine le_of_eq_of_le (congrArg abs ?_) this
    rw [Fin.sum_univ_five]
    show _ = 9 / 10 * phases.fractions.get [p.1, 0] + -(9 / 10) * phases.fractions.get [p.1, 1]
      + -1 * phases.fractions.get [p.1, 2] + 1 * phases.fractions.get [p.1, 3] + 0 * phases.fractions.get [p.1, 4] - 0
    ring
  · have := q5 ![1, 1, 0, 0, -2] (by rw [Fin.sum_univ_five]; show (1 : ℝ) + 1 + 0 + 0 + -2 = 0; norm_num) (by
      intro c' hc' k
      cases List.mem_singleton.mp hc'
      rw [hC k]
      simp only [h7]
      rw [Fin.sum_univ_five]
      show (1 : ℝ) * (9 / 10) + 1 * -(9 / 10) + 0 * -1 + 0 * 1 + -2 * 0 = 0
      norm_num) p q
    rw [Fin.sum_univ_five, Fin.sum_univ_five, Fin.sum_univ_five] at this
    have e : ∀ y : Fin 5 → ℝ, (![1, 1, 0, 0, -2] : Fin 5 → ℝ) 0 * y 0 + (![1, 1, 0, 0, -2] : Fin 5 → ℝ) 1 * y 1
        + (![1, 1, 0, 0, -2] : Fin 5 → ℝ) 2 * y 2 + (![1, 1, 0, 0, -2] : Fin 5 → ℝ) 3 * y 3
        + (![1, 1, 0, 0, -2] : Fin 5 → ℝ) 4 * y 4 = y 0 + y 1 - 2 * y 4 := by
      intro y
      show (1 : ℝ) * y 0 + 1 * y 1 + 0 * y 2 + 0 * y 3 + -2 * y 4 = _
      ring
    rw [e, e] at this
    refine this.trans (le_of_eq ?_)
    congr 1
    show |(1 : ℝ)| + |1| + |0| + |0| + |-2| = 4
    norm_num

-- C119: a mixture in contact with a reservoir and a global constraint, as in
-- `examples/grandcanonical_with_constraints.py`; here every exchange at constant volume is balanced.
example : ∃ (fe : Gen.FloryHugginsAttrs) (z : Gen.GrandCanonicalEnsembleAttrs) (c : Gen.LinearGlobalConstraintAttrs)
    (finder finder' : Gen.FinderObj Unit 16) (phases : Gen.PhasesAttrs) (d : Diagnostics ℝ)
    (inst : Gen.FloryHugginsInteractionCompiledAttrs) (mu : Rows (Vec 2 XReal)) (x : Fin 16 → Fin 2 → ℝ),
    Gen.LinearGlobalConstraint.init 2 (.ofMat ![![1, -1]]) (.ofVec ![0]) = .ok c ∧
    textConsFinder Demo.fenv.rng (fun _ => ()) 7 (fun _ c => c) fe (.grand z) [.glob c] {} [] = .ok finder ∧
    (Gen.FloryHugginsInteraction.object fe.interaction).compiled [] = .ok inst ∧
    Gen.FinderObj.run Demo.fenv.rng none none none (callEach ([.run none none none, .reinitRandom].map
      (methodCall Demo.fenv.rng fun _ c => c)) finder).1 = (finder', .ok phases) ∧
    finder'._diagnostics = some (some d) ∧
    Gen.FreeEnergyBase.chemical_potentials (freeEnergyOf 2 fe) phases.fractions = .ok mu ∧
    (∀ p i, mu.row [p.1] i = fin (x p i)) ∧
    ∀ p q, |(x p 0 - x p 1) - (x q 0 - x q 1)| ≤
      2 * (2 * d.maxAbsOmegaDiff + |inst._incomp_coef| * d.maxAbsIncomp) := by
  obtain ⟨fe, ens, z, c, h1, h2, -, -, h3, h4, h5, h6⟩ := Demo.objects_made
  obtain ⟨finder, inst, k1, ki, k2⟩ := C119_workflow (M := 16) (gen := Demo.fenv.rng) (rngZero_ok ℝ) (fun _ => ()) 7
    (fun _ c => c) (C := 2) (.init h1) h2 (.grand h3 h4) (cs := [.glob c])
    (fun x hx => by rw [List.mem_singleton.mp hx]; exact .glob h5 h6) (a := {}) none true (by rfl)
    (by norm_num) (by norm_num) (by norm_num) (by norm_num) (by norm_num) rfl
  obtain ⟨finder', phases, d, mu, q1, qd, -, -, -, -, q3, x, q4, q5⟩ := k2 [.run none none none, .reinitRandom]
    (by simp [Continues]) none none none (by norm_num) (by norm_num)
  rw [C107_defaults.1] at k1
  refine ⟨fe, z, c, finder, finder', phases, d, inst, mu, x, h5, k1, ki, q1, qd, q3, q4, fun p q => ?_⟩
  have := q5 ![1, -1] (by simp) (by
    intro c' hc'
    cases List.mem_singleton.mp hc') p q
  rw [Fin.sum_univ_two, Fin.sum_univ_two, Fin.sum_univ_two] at this
  refine (le_of_eq (congrArg abs ?_)).trans (this.trans (le_of_eq ?_))
  · show _ = (1 : ℝ) * x p 0 + -1 * x p 1 - (1 * x q 0 + -1 * x q 1)
    ring
  · congr 1
    show |(1 : ℝ)| + |-1| = 2
    norm_num

end Flory
