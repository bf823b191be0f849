import Verif.Lemmas.PolyConsObject
import Verif.Spec.PolyConsObject
import Verif.Props.PolyObject
import Verif.Props.ConsObject

/-!
# C120: the whole workflow for components that share features with local constraints, for the transcribed text alone
-/

set_option linter.unusedSectionVars false

namespace Flory

open Spec XReal

variable {G : Type} {M : ℕ}

/-- **C120**: components that share features, with local constraints.  `chis` is a symmetric matrix for the features,
feature `r` has `n r ≥ 1` components and component `i` has the feature `feat i` and the size `l i > 0`.  The
constructors of the interaction, the entropy and the finder return, with an ensemble with positive entries and any list
of local and global constraints on the features.  After any calls that reinitialize or run, `run` returns one phase per
compartment, with volumes above the threshold and positive fractions that add up to one within the reported error.  In
each phase every local constraint, with the coefficient of its feature for each component, holds up to the reported
residue.  An exchange `w` of volume between components that adds up to zero and keeps the local constraints costs the
same in all phases: `chemical_potentials` of the free energy with the interactions of the components returns finite
numbers whose sums weighted by `w` differ by at most a bound made of the reported errors. -/
theorem C120_workflow {gen : Rng G ℝ} (hok : gen.Ok) (newGen : ℤ → G) (now : ℤ)
    (other : ℕ → PackedCons M → PackedCons M) {S : ℕ} {chis : Mat S S ℝ} (hs : ∀ r s, chis r s = chis s r)
    {n : Vec S ℕ} (hn : ∀ r, 1 ≤ n r) {l : Vec (∑ r, n r) ℝ} (hl : ∀ i, 0 < l i)
    {feat : Fin (∑ r, n r) → Fin S} (hf : IsFeat n feat)
    {ens : TextEnsemble} (hens : ens.Positive (∑ r, n r))
    {cs : List TextConstraint} (hcs : ∀ c ∈ cs, c.Made S)
    {a : FinderArgs} (rng : Option G) (progress : Bool)
    (hM : M = if a.numPart.getD 0 = 0 then (∑ r, n r) * 8 else a.numPart.getD 0)
    (hstd : 0 ≤ a.randomStd) (hthr : 0 ≤ a.killThreshold) (hthr1 : a.killThreshold < 1)
    (hthr2 : 2 * a.killThreshold * ((M : ℝ) - 1) < 1) (hb : 0 < a.JsStepUpperBound)
    (hcrit : a.criterion = "standard") :
    ∃ (ia : Gen.FloryHugginsBlockInteractionAttrs) (en : Gen.IdealGasPolydispersedEntropyAttrs)
      (finder : Gen.FinderObj G M) (inst : Gen.FloryHugginsInteractionCompiledAttrs),
      Gen.FloryHugginsBlockInteraction.init S (.ofMat chis) (.ofVec n) = .ok ia ∧
      Gen.IdealGasPolydispersedEntropy.init S (some (.ofVec l)) (.ofVec n) = .ok en ∧
      (∀ i j : Fin (∑ r, n r), ia._chis.get [i.1, j.1] = chis (feat i) (feat j)) ∧
      textPolyConsFinder gen newGen now other ia en ens cs (initArgs a rng progress) a.kwargs = .ok finder ∧
      (Gen.FloryHugginsBlockInteraction.object ia).compiled a.kwargs = .ok inst ∧
      ∀ ops : List FinderOp, (∀ op ∈ ops, Continues a op) → ∀ ms tol iv,
        0 < ms.getD a.maxSteps → 0 < iv.getD a.interval →
        ∃ finder' phases d mu,
          Gen.FinderObj.run gen ms tol iv (callEach (ops.map (methodCall gen other)) finder).1 =
            (finder', .ok phases) ∧
          finder'._diagnostics = some (some d) ∧
          phases.volumes.shape = [M] ∧ phases.fractions.shape = [M, ∑ r, n r] ∧
          (∀ p : Fin M, a.killThreshold < phases.volumes.get [p.1] ∧
            |∑ i : Fin (∑ r, n r), phases.fractions.get [p.1, i.1] - 1| ≤ d.maxAbsIncomp ∧
            ∀ i : Fin (∑ r, n r), 0 < phases.fractions.get [p.1, i.1]) ∧
          (∀ c, .loc c ∈ cs → ∀ (p : Fin M) (k : Fin c.num_cons),
            |∑ i : Fin (∑ r, n r), c._Cs.get [k.1, (feat i).1] * phases.fractions.get [p.1, i.1] - c._Ts.get [k.1]| ≤
              d.maxConstraintResidue) ∧
          Gen.FreeEnergyBase.chemical_potentials (transcribed (fun i j => chis (feat i) (feat j)) l)
            phases.fractions = .ok mu ∧
          ∃ x : Fin M → Fin (∑ r, n r) → ℝ, (∀ p i, mu.row [p.1] i = fin (x p i)) ∧
            ∀ w : Fin (∑ r, n r) → ℝ, ∑ i, w i = 0 →
              (∀ c, .loc c ∈ cs → ∀ k : Fin c.num_cons, ∑ i, w i * c._Cs.get [k.1, (feat i).1] = 0) →
              ∀ p q, |(∑ i, w i * x p i) - ∑ i, w i * x q i| ≤
                (∑ i, |w i|) * (S * d.maxAbsOmegaDiff + |inst._incomp_coef| * d.maxAbsIncomp) := by
  set env : FinderEnv G := ⟨gen, fun _ _ _ s => s⟩ with henv
  obtain ⟨ia, en, o, hia, hen, hio, hchis, hfull, heno⟩ := poly_objects hs n l
  obtain ⟨hC, eo, es, heo, hes, hpe⟩ := ensemble_same hens
  obtain ⟨os, hos, hsame2, hone⟩ := textConstraint_same hcs
  have hS : S ≠ 0 := by
    rintro rfl
    simp at hC
  have : NeZero S := ⟨hS⟩
  have hx : o.obj.compiled a.kwargs = .ok ⟨S, o.compile ((a.kwargs.get? "additional_chis_shift").getD 1)⟩ := by
    rw [InstObj.compiled_eq]
    simp only [FHBlock.obj, dif_neg hS, List.mem_singleton, if_true]
  have he : (⟨n, ⟨l⟩⟩ : PolyEntropy S).obj.compiled a.kwargs = .ok ⟨∑ r, n r, S, .poly ⟨l, n⟩⟩ := by
    rw [InstObj.compiled_eq]; rfl
  obtain ⟨inst, hinst, hcoef⟩ : ∃ inst, (Gen.FloryHugginsBlockInteraction.object ia).compiled a.kwargs = .ok inst ∧
      inst._incomp_coef = (o.compile ((a.kwargs.get? "additional_chis_shift").getD 1)).coef := by
    have hso := block_object_same hio
    have h1 := map_object (f := Gen.FloryHugginsInteractionCompiledAttrs.pack) (fun _ _ => pack_fhc) hso
    rw [InstObj.compiled_eq] at hx
    rw [InstObj.compiled_eq]
    have h2 := hso.2 fun k => if k ∈ o.obj.params then a.kwargs.get? k else none
    rw [hx] at h2
    rw [hso.1]
    revert h2
    cases (Gen.FloryHugginsBlockInteraction.object ia).impl
      (fun k => if k ∈ o.obj.params then a.kwargs.get? k else none) with
    | error e => exact fun h => h.elim
    | ok inst => exact fun h => ⟨inst, rfl, h.coef⟩
  have hcons : ∀ N kw, (initConstraints N S kw (.many (os.map LinearConstraint.obj))).2 = none ∧
      ∀ c ∈ (initConstraints N S kw (.many (os.map LinearConstraint.obj))).1, c.numFeat = S := by
    intro N kw
    rw [initConstraints_linear]
    refine ⟨rfl, fun c hc => ?_⟩
    obtain ⟨n, -, rfl⟩ := List.mem_map.mp hc
    rfl
  obtain ⟨-, -, -, h4⟩ := create_of_compiled (env := env) (g := rng.getD (newGen now))
    (constraints := .many (os.map LinearConstraint.obj)) hx he (hes _) (hcons _ _).1 hstd
  obtain ⟨f, hfc, hcr⟩ := h4 rfl rfl (hcons _ _).2
  have hfM : f.numPart = M := by
    rw [hcr.numPart, hM]
  have hi := C107_init env newGen now other o.obj (⟨n, ⟨l⟩⟩ : PolyEntropy S).obj eo (.many (os.map LinearConstraint.obj)) a rng progress
    (M := M) (by
      intro en h
      rw [he] at h
      obtain rfl := Except.ok.inj h
      exact hM)
  rw [hfc] at hi
  obtain ⟨hi1, hi2⟩ := hi
  have hmade : textPolyConsFinder gen newGen now other ia en ens cs (initArgs a rng progress) a.kwargs =
      .ok (Gen.CoexistingPhasesFinder.init env.rng newGen now other o.obj (⟨n, ⟨l⟩⟩ : PolyEntropy S).obj eo
        (.many (os.map LinearConstraint.obj)) (initArgs a rng progress) a.kwargs ({} : Gen.FinderObj G M)).1 := by
    unfold textPolyConsFinder
    rw [map_object (f := Gen.FloryHugginsInteractionCompiledAttrs.pack) (fun _ _ => pack_fhc) (block_object_same hio),
      map_object (f := Gen.IdealGasPolydispersedEntropyCompiledAttrs.pack) (fun _ _ => pack_poly)
        (poly_object_same heno), heo, hos]
    unfold Gen.newObject
    revert hi2
    rcases (Gen.CoexistingPhasesFinder.init env.rng newGen now other o.obj (⟨n, ⟨l⟩⟩ : PolyEntropy S).obj eo
      (.many (os.map LinearConstraint.obj)) (initArgs a rng progress) a.kwargs ({} : Gen.FinderObj G M)) with ⟨o, r⟩
    intro hi
    dsimp only at hi
    subst hi
    rfl
  have hwork := fun {ops : List FinderOp} (hops : ∀ op ∈ ops, ¬ IsSet op) =>
    poly_cons_workflow (env := env) hok (fun _ _ _ _ => rfl) (fun _ _ _ _ h => h) hS (gas := ⟨n, ⟨l⟩⟩) hC hfc (hes _) hpe hl
      hn hf hone hthr hthr1 hb (by rw [hfM]; exact hthr2) hcrit (ops := ops) hops
  refine ⟨ia, en, _, inst, hia, hen, hfull feat hf, hmade, hinst, fun ops hops ms tol iv hms hiv => ?_⟩
  have hset : ∀ op ∈ ops, ¬ IsSet op := fun op h hs => by
    have := hops op h
    cases op <;> first | exact this | exact hs
  have hret : ∀ (pre post : List FinderOp), (∀ op ∈ pre ++ post, Continues a op) →
      List.Forall₂ (fun op r => (∃ ms tol iv, op = FinderOp.run ms tol iv) → ∃ out, r = .ok out) post
        (Finder.steps env post (Finder.steps env pre f).1).2 := by
    intro pre post
    induction post generalizing pre with
    | nil => exact fun _ => .nil
    | cons op post ih =>
      intro h
      have h1 := ih (pre ++ [op]) (by simpa using h)
      rw [steps_append] at h1
      refine .cons ?_ h1
      rintro ⟨ms, tol, iv, rfl⟩
      obtain ⟨k1, k2⟩ := h (.run ms tol iv) (by simp)
      obtain ⟨P, ph, d, hr, -⟩ := hwork (ops := pre) (fun op hm hs => by
        have := h op (List.mem_append_left _ hm)
        cases op <;> first | exact this | exact hs) ms tol iv k1 k2
      refine ⟨some ⟨P, _, ph, d⟩, ?_⟩
      show Except.map some ((Finder.steps env pre f).1.run env ms tol iv).2 = _
      rw [hr]
      rfl
  obtain ⟨hsame, -⟩ := C110_history (env := env) hok other hi1 ops (hret [] ops hops)
  obtain ⟨P, ph, d, hr, hP, hphys, hres, hex⟩ := hwork hset ms tol iv hms hiv
  have hrun := run_same (env := env) hok hsame ms tol iv
  rw [show (Finder.steps env ops f).1.run env ms tol iv = (((Finder.steps env ops f).1.run env ms tol iv).1,
    ((Finder.steps env ops f).1.run env ms tol iv).2) from rfl, hr] at hrun
  dsimp only at hrun
  obtain ⟨o', ho', hso, hd⟩ := hrun
  obtain rfl : P = M := hP.trans hfM
  dsimp only at ph hphys hres hex
  rw [hchis] at hex
  have hcomp : ∀ p : Fin P, composition (∑ r, n r) (NDArr.ofMat ph.fractions) [p.1] = ph.fractions p := fun p =>
    funext fun i => ofMat_get ph.fractions p i
  obtain ⟨mu, hmu1, hmu2⟩ := chemicalPotentials_ok (fhFree (fun i j => chis (feat i) (feat j)) l)
    (NDArr.ofMat ph.fractions) (lead := [P]) rfl (by
    intro idx hi i
    cases hi with
    | cons hd ht =>
      cases ht
      next k =>
      rw [hcomp ⟨k, hd⟩]
      exact ((hphys _).2.2 i).le)
  have hrow : ∀ (p : Fin P) (i : Fin (∑ r, n r)),
      mu.row [p.1] i = fin (chemPot (fun i j => chis (feat i) (feat j)) l (ph.fractions p) i) := by
    intro p i
    have hv : ValidIndex [p.1] mu.lead := by
      rw [hmu2]
      exact List.Forall₂.cons p.2 List.Forall₂.nil
    have := (C21_chemical_potentials (fun i j => hs (feat i) (feat j)) hl hmu1 hv i).2
    rw [show composition _ (NDArr.ofMat ph.fractions) (sourceIndex (NDArr.ofMat ph.fractions) [p.1]) =
      ph.fractions p from hcomp p] at this
    exact this ((hphys p).2.2 i).ne'
  have hto : ∀ c, TextConstraint.loc c ∈ cs → ∃ o ∈ os, SameLocal c o := by
    intro c hc
    obtain ⟨k, hk, hck⟩ := List.mem_iff_getElem.mp hc
    have hlen := hsame2.length_eq
    have := hsame2.get hk (by omega)
    refine ⟨os[k]'(by omega), List.getElem_mem _, ?_⟩
    rw [List.get_eq_getElem, List.get_eq_getElem, hck] at this
    exact this
  have hfrom : ∀ o ∈ os, o.isGlobal = false → ∃ c, TextConstraint.loc c ∈ cs ∧ SameLocal c o := by
    intro o ho hg
    obtain ⟨k, hk, hck⟩ := List.mem_iff_getElem.mp ho
    have hlen := hsame2.length_eq
    have := hsame2.get (i := k) (by omega) hk
    rw [List.get_eq_getElem, List.get_eq_getElem, hck] at this
    have hm : cs[k]'(by omega) ∈ cs := List.getElem_mem _
    revert this hm
    cases cs[k]'(by omega) with
    | loc c => exact fun h hm => ⟨c, hm, h⟩
    | glob c =>
      intro h
      have := h.isGlobal
      rw [hg] at this
      cases this
  refine ⟨o', _, d, mu, ho', hso.diagnostics.trans (congrArg some hd), rfl, rfl, fun p => ⟨?_, ?_, fun i => ?_⟩,
    fun c hc p k => ?_, ?_, _, hrow, fun w hw hk p q => ?_⟩
  · rw [ofVec_get]; exact (hphys p).1
  · simp only [ofMat_get]; exact (hphys p).2.1
  · rw [ofMat_get]; exact (hphys p).2.2 i
  · obtain ⟨o, ho, hco⟩ := hto c hc
    have := hres o ho hco.isLocal p (Fin.cast hco.num_cons k)
    simp only [ofMat_get]
    rw [← hco.Ts.get] at this
    simp only [← hco.Cs.get] at this
    exact this
  · rw [C104_chemical_potentials, transcribed_eq]; exact hmu1
  · rw [hcoef]
    refine hex w hw (fun o ho hg k => ?_) p q
    obtain ⟨c, hc, hco⟩ := hfrom o ho hg
    simp only [← hco.Cs.get]
    exact hk c hc (Fin.cast hco.num_cons.symm k)

namespace Demo

theorem featLocal_made : ∃ c, Gen.LinearLocalConstraint.init 2 (.ofMat ![![1, -1]]) (.ofVec ![0]) = .ok c ∧
    c.num_cons = 1 ∧ (∀ i : Fin 2, c._Cs.get [0, i.1] = (![![1, -1]] : Mat 1 2 ℝ) 0 i) ∧ c._Ts.get [0] = 0 := by
  have hr := local_init_rel 2 (.ofMat (![![1, -1]] : Mat 1 2 ℝ)) (.ofVec ![0])
  have hn : LinearConstraint.new false 2 (.ofMat (![![1, -1]] : Mat 1 2 ℝ)) (.ofVec ![0]) =
      .ok ⟨false, 1, ![![1, -1]], ![0]⟩ := by
    obtain ⟨b, hb, hb'⟩ := convertAndBroadcast_vec (![0] : Vec 1 ℝ)
    obtain ⟨c, hc, hc'⟩ := convertAndBroadcast_mat (![![1, -1]] : Mat 1 2 ℝ)
    unfold convertAndBroadcast at hb hc
    show LinearConstraint.new.fill 2 false 1 (NDArr.ofMat ![![1, -1]]).atleast1d _ = _
    unfold LinearConstraint.new.fill
    rw [hc, bind_ok, hb, bind_ok, hb', hc']
    rfl
  rw [hn] at hr
  revert hr
  cases Gen.LinearLocalConstraint.init 2 (.ofMat (![![1, -1]] : Mat 1 2 ℝ)) (.ofVec ![0]) with
  | error e => exact fun h => h.elim
  | ok c => exact fun h => ⟨c, rfl, h.num_cons, fun i => h.Cs.get 0 i, h.Ts.get 0⟩

end Demo

-- C120: the mixture of `examples/polydispersed.py` with as much of one feature as of the other in each phase.  The
-- exchange of the two components of the first feature is balanced.
example : ∃ (ia : Gen.FloryHugginsBlockInteractionAttrs) (en : Gen.IdealGasPolydispersedEntropyAttrs)
    (ens : Gen.CanonicalEnsembleAttrs) (c : Gen.LinearLocalConstraintAttrs) (finder finder' : Gen.FinderObj Unit 32)
    (phases : Gen.PhasesAttrs) (d : Diagnostics ℝ) (inst : Gen.FloryHugginsInteractionCompiledAttrs)
    (mu : Rows (Vec (∑ r, Demo.polyCount r) XReal)) (x : Fin 32 → Fin (∑ r, Demo.polyCount r) → ℝ),
    Gen.LinearLocalConstraint.init 2 (.ofMat ![![1, -1]]) (.ofVec ![0]) = .ok c ∧
    textPolyConsFinder Demo.fenv.rng (fun _ => ()) 7 (fun _ c => c) ia en (.canonical ens) [.loc c] {} [] = .ok finder ∧
    (Gen.FloryHugginsBlockInteraction.object ia).compiled [] = .ok inst ∧
    Gen.FinderObj.run Demo.fenv.rng none none none finder = (finder', .ok phases) ∧
    finder'._diagnostics = some (some d) ∧
    (∀ p : Fin 32, |phases.fractions.get [p.1, 0] + phases.fractions.get [p.1, 1] - phases.fractions.get [p.1, 2]
      - phases.fractions.get [p.1, 3]| ≤ d.maxConstraintResidue) ∧
    Gen.FreeEnergyBase.chemical_potentials (transcribed (fun i j =>
      (![![0, 4], ![4, 0]] : Mat 2 2 ℝ) (Demo.polyFeat i) (Demo.polyFeat j)) Demo.polySizes) phases.fractions = .ok mu ∧
    (∀ p i, mu.row [p.1] i = fin (x p i)) ∧
    ∀ p q (i j : Fin (∑ r, Demo.polyCount r)), i.1 = 0 → j.1 = 1 → |(x p i - x p j) - (x q i - x q j)| ≤
      2 * (2 * d.maxAbsOmegaDiff + |inst._incomp_coef| * d.maxAbsIncomp) := by
  obtain ⟨ens, h1, h2⟩ := Demo.polyMeans_made
  obtain ⟨c, h5, h6, h7, h8⟩ := Demo.featLocal_made
  have hC := Demo.polyCount_sum
  have hk : ∀ k : Fin c.num_cons, k.1 = 0 := fun k => by have := k.2; omega
  have hsum : ∀ y : Fin (∑ r, Demo.polyCount r) → ℝ, ∑ i, y i = ∑ i : Fin 4, y (Fin.cast hC.symm i) := fun y =>
    (Equiv.sum_comp (finCongr hC.symm) y).symm
  obtain ⟨ia, en, finder, inst, -, -, -, k4, ki, k5⟩ := C120_workflow (M := 32) (gen := Demo.fenv.rng) (rngZero_ok ℝ)
    (fun _ => ()) 7 (fun _ c => c) (S := 2) (chis := ![![0, 4], ![4, 0]])
    (by intro r s; fin_cases r <;> fin_cases s <;> rfl) (n := Demo.polyCount)
    (by intro r; fin_cases r <;> simp [Demo.polyCount]) (l := Demo.polySizes)
    (by intro i; unfold Demo.polySizes; split <;> norm_num) Demo.polyFeat_ok (.canonical h1 h2) (cs := [.loc c])
    (fun x hx => by rw [List.mem_singleton.mp hx]; exact .loc h5 (by rw [h6]; norm_num))
    (a := {}) none true (by rw [hC]; rfl) (by norm_num) (by norm_num) (by norm_num) (by norm_num) (by norm_num) rfl
  obtain ⟨finder', phases, d, mu, q1, qd, -, -, -, q2, q3, x, q4, q5⟩ := k5 [] (by simp) none none none (by norm_num)
    (by norm_num)
  rw [C107_defaults.1] at k4
  refine ⟨ia, en, ens, c, finder, finder', phases, d, inst, mu, x, h5, k4, ki, q1, qd, fun p => ?_, q3, q4,
    fun p q i j hi hj => ?_⟩
  · have := q2 c List.mem_cons_self p ⟨0, by omega⟩
    dsimp only at this
    rw [h8, hsum] at this
    simp only [h7] at this
    refine le_of_eq_of_le (congrArg abs ?_) this
    rw [Fin.sum_univ_four]
    show _ = (1 : ℝ) * phases.fractions.get [p.1, 0] + 1 * phases.fractions.get [p.1, 1]
      + -1 * phases.fractions.get [p.1, 2] + -1 * phases.fractions.get [p.1, 3] - 0
    ring
  · obtain rfl : i = Fin.cast hC.symm 0 := Fin.ext hi
    obtain rfl : j = Fin.cast hC.symm 1 := Fin.ext hj
    have := q5 (fun i => (![1, -1, 0, 0] : Fin 4 → ℝ) (Fin.cast hC i)) (by
      rw [hsum, Fin.sum_univ_four]
      show (1 : ℝ) + -1 + 0 + 0 = 0
      norm_num) (by
      intro c' hc' k
      cases List.mem_singleton.mp hc'
      rw [hk k]
      simp only [h7]
      rw [hsum, Fin.sum_univ_four]
      show (1 : ℝ) * 1 + -1 * 1 + 0 * -1 + 0 * -1 = 0
      norm_num) p q
    simp only [hsum] at this
    rw [Fin.sum_univ_four, Fin.sum_univ_four, Fin.sum_univ_four] at this
    have e : ∀ y : Fin (∑ r, Demo.polyCount r) → ℝ, (1 : ℝ) * y (Fin.cast hC.symm 0) + -1 * y (Fin.cast hC.symm 1)
        + 0 * y (Fin.cast hC.symm 2) + 0 * y (Fin.cast hC.symm 3) =
        y (Fin.cast hC.symm 0) - y (Fin.cast hC.symm 1) := fun y => by ring
    refine le_trans (le_of_eq (congrArg abs (congrArg₂ (· - ·) (e (x p)).symm (e (x q)).symm))) (this.trans (le_of_eq ?_))
    congr 1
    show |(1 : ℝ)| + |-1| + |0| + |0| = 2
    norm_num

-- C120: the same mixture at given activities, with a local and a global constraint; the finder is run and started again.
example : ∃ (ia : Gen.FloryHugginsBlockInteractionAttrs) (en : Gen.IdealGasPolydispersedEntropyAttrs)
    (z : Gen.GrandCanonicalEnsembleAttrs) (c : Gen.LinearLocalConstraintAttrs) (g : Gen.LinearGlobalConstraintAttrs)
    (finder finder' : Gen.FinderObj Unit 32) (phases : Gen.PhasesAttrs) (d : Diagnostics ℝ),
    Gen.GrandCanonicalEnsemble.init (∑ r, Demo.polyCount r) (.ofVec Demo.polyMeans) = .ok z ∧
    textPolyConsFinder Demo.fenv.rng (fun _ => ()) 7 (fun _ c => c) ia en (.grand z) [.glob g, .loc c] {} [] =
      .ok finder ∧
    Gen.FinderObj.run Demo.fenv.rng (some 10) none none (callEach ([.run none none none, .reinitRandom].map
      (methodCall Demo.fenv.rng fun _ c => c)) finder).1 = (finder', .ok phases) ∧
    finder'._diagnostics = some (some d) ∧ phases.fractions.shape = [32, 4] ∧
    ∀ p : Fin 32, |phases.fractions.get [p.1, 0] + phases.fractions.get [p.1, 1] - phases.fractions.get [p.1, 2]
      - phases.fractions.get [p.1, 3]| ≤ d.maxConstraintResidue := by
  obtain ⟨-, -, -, g, -, -, -, -, -, -, g1, g2⟩ := Demo.objects_made
  obtain ⟨c, h5, h6, h7, h8⟩ := Demo.featLocal_made
  have hC := Demo.polyCount_sum
  have hsum : ∀ y : Fin (∑ r, Demo.polyCount r) → ℝ, ∑ i, y i = ∑ i : Fin 4, y (Fin.cast hC.symm i) := fun y =>
    (Equiv.sum_comp (finCongr hC.symm) y).symm
  have hz : ∃ z, Gen.GrandCanonicalEnsemble.init (∑ r, Demo.polyCount r) (.ofVec Demo.polyMeans) = .ok z ∧
      ∀ i, i < ∑ r, Demo.polyCount r → 0 < z._scaled_activity.get [i] := by
    have hr := grand_init_rel (∑ r, Demo.polyCount r) (.ofVec Demo.polyMeans)
    have hn : GrandCanonicalEnsemble.new (∑ r, Demo.polyCount r) (.ofVec Demo.polyMeans) = .ok ⟨Demo.polyMeans⟩ := by
      obtain ⟨b, hb, hb'⟩ := convertAndBroadcast_vec Demo.polyMeans
      unfold convertAndBroadcast at hb
      unfold GrandCanonicalEnsemble.new
      rw [if_neg (by rw [hC]; norm_num), hb, bind_ok, hb']
      rfl
    rw [hn] at hr
    revert hr
    cases Gen.GrandCanonicalEnsemble.init (∑ r, Demo.polyCount r) (.ofVec Demo.polyMeans) with
    | error e => exact fun h => h.elim
    | ok a =>
      refine fun hr => ⟨a, rfl, fun i hi => ?_⟩
      rw [hr.scaledActivity.get ⟨i, hi⟩]
      show 0 < Demo.polyMeans ⟨i, hi⟩
      unfold Demo.polyMeans
      split <;> norm_num
  obtain ⟨z, h1, h2⟩ := hz
  obtain ⟨ia, en, finder, inst, -, -, -, k4, -, k5⟩ := C120_workflow (M := 32) (gen := Demo.fenv.rng) (rngZero_ok ℝ)
    (fun _ => ()) 7 (fun _ c => c) (S := 2) (chis := ![![0, 4], ![4, 0]])
    (by intro r s; fin_cases r <;> fin_cases s <;> rfl) (n := Demo.polyCount)
    (by intro r; fin_cases r <;> simp [Demo.polyCount]) (l := Demo.polySizes)
    (by intro i; unfold Demo.polySizes; split <;> norm_num) Demo.polyFeat_ok (.grand h1 h2) (cs := [.glob g, .loc c])
    (fun x hx => by
      rcases List.mem_cons.mp hx with rfl | hx
      · exact .glob g1 g2
      · rw [List.mem_singleton.mp hx]; exact .loc h5 (by rw [h6]; norm_num))
    (a := {}) none true (by rw [hC]; rfl) (by norm_num) (by norm_num) (by norm_num) (by norm_num) (by norm_num) rfl
  obtain ⟨finder', phases, d, mu, q1, qd, -, q0, -, q2, -⟩ := k5 [.run none none none, .reinitRandom]
    (by simp [Continues]) (some 10) none none (by norm_num) (by norm_num)
  rw [C107_defaults.1] at k4
  refine ⟨ia, en, z, c, g, finder, finder', phases, d, h1, k4, q1, qd, by rw [q0, hC], fun p => ?_⟩
  have := q2 c (List.mem_cons_of_mem _ List.mem_cons_self) p ⟨0, by omega⟩
  dsimp only at this
  rw [h8, hsum] at this
  simp only [h7] at this
  refine le_of_eq_of_le (congrArg abs ?_) this
  rw [Fin.sum_univ_four]
  show _ = (1 : ℝ) * phases.fractions.get [p.1, 0] + 1 * phases.fractions.get [p.1, 1]
    + -1 * phases.fractions.get [p.1, 2] + -1 * phases.fractions.get [p.1, 3] - 0
  ring

end Flory
