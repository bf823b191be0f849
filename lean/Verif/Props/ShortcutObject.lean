import Verif.Lemmas.ShortcutObject
import Verif.Props.Shortcut
import Verif.Props.Clustering
import Mathlib.Tactic.NormNum
import Mathlib.Tactic.Linarith

/-!
# C110: `find_coexisting_phases` of the model is that of the program

`Gen.find_coexisting_phases` is written by `tools/transcribe_shortcut.py` from the source text; all it calls is
transcribed as well.
-/

set_option linter.unusedSectionVars false

namespace Flory

open Spec

variable {G : Type} {M : ℕ}

/-- **C110**, `run` on the object that the transcribed constructor left: the exception of the model's `run`, or the
same phases and the same attributes afterwards. -/
theorem C110_run {env : FinderEnv G} (hok : env.rng.Ok) {x : FinderExtra} {o : Gen.FinderObj G M} {f : Finder G}
    (h : SameFinder x o f) (ms : Option ℚ) (tol : Option ℝ) (iv : Option ℤ) :
    match f.run env ms tol iv with
    | (_, .error e) => (Gen.FinderObj.run env.rng ms tol iv o).2 = .error e
    | (f', .ok out) => ∃ o' ph, Gen.FinderObj.run env.rng ms tol iv o = (o', .ok ph) ∧ SameFinder x o' f' ∧
        SamePhases ph ⟨_, _, out.phases⟩ ∧ o'._diagnostics = some (some out.diagnostics) := by
  have hr := run_same hok h ms tol iv
  revert hr
  rcases f.run env ms tol iv with ⟨f', e | out⟩ <;> intro hr
  · exact hr
  · obtain ⟨o', h1, h2, h3⟩ := hr
    exact ⟨o', _, h1, h2, ⟨sameVec_ofVec _, sameMat_ofMat _⟩, h2.diagnostics.trans (congrArg some h3)⟩

/-- **C110**, histories: any sequence of calls of methods, `run` included, exceptions of the others being caught,
leaves the attributes of the model and gives the results and exceptions of the model. -/
theorem C110_history {env : FinderEnv G} (hok : env.rng.Ok) (other : ℕ → PackedCons M → PackedCons M)
    {x : FinderExtra} {o : Gen.FinderObj G M} {f : Finder G} (h : SameFinder x o f) (ops : List FinderOp)
    (hret : List.Forall₂ (fun op r => (∃ ms tol iv, op = FinderOp.run ms tol iv) → ∃ out, r = .ok out) ops
      (Finder.steps env ops f).2) :
    SameFinder x (callEach (ops.map (methodCall env.rng other)) o).1 (Finder.steps env ops f).1 ∧
    List.Forall₂ (Agrees SameOut) (callEach (ops.map (methodCall env.rng other)) o).2 (Finder.steps env ops f).2 := by
  induction ops generalizing o f with
  | nil => exact ⟨h, .nil⟩
  | cons op ops ih =>
    have hret' : List.Forall₂ _ (op :: ops) ((f.step env op).2 :: (Finder.steps env ops (f.step env op).1).2) := hret
    obtain ⟨h1, h2⟩ := List.forall₂_cons.1 hret'
    have key : SameFinder x (methodCall env.rng other op o).1 (f.step env op).1 ∧
        Agrees SameOut (methodCall env.rng other op o).2 (f.step env op).2 := by
      by_cases hrun : ∃ ms tol iv, op = FinderOp.run ms tol iv
      · obtain ⟨out, hout⟩ := h1 hrun
        obtain ⟨ms, tol, iv, rfl⟩ := hrun
        have hr := C110_run hok h ms tol iv
        have e1 : f.step env (.run ms tol iv) =
            ((f.run env ms tol iv).1, (f.run env ms tol iv).2.map some) := rfl
        rw [e1] at hout ⊢
        revert hr hout
        rcases f.run env ms tol iv with ⟨f', e | r⟩
        · intro hout hr
          cases hout
        · intro hout hr
          obtain ⟨o', ph, q1, q2, q3, -⟩ := hr
          have e2 : methodCall env.rng other (.run ms tol iv) o = (o', .ok (some ph)) := by
            unfold methodCall
            dsimp only
            rw [q1]
            rfl
          rw [e2]
          exact ⟨q2, q3⟩
      · have hc : ∃ c, codeCall env.rng other op = some c := by
          cases op <;> first | exact ⟨_, rfl⟩ | exact absurd ⟨_, _, _, rfl⟩ hrun
        obtain ⟨c, hc⟩ := hc
        have hh := C107_history env other (List.Forall₂.cons hc .nil) h
        have e2 : methodCall env.rng other op o = ((c o).1, (c o).2.map fun _ => none) := by
          unfold methodCall
          cases op <;> first | exact absurd ⟨_, _, _, rfl⟩ hrun | (dsimp only; rw [hc])
        obtain ⟨k1, k2⟩ := hh
        have k2' : (c o).2.map (fun _ => (none : Option RunOut)) = (f.step env op).2 := (List.cons.inj k2).1
        rw [e2]
        refine ⟨k1, ?_⟩
        rw [← k2']
        cases (c o).2 with
        | error e => rfl
        | ok u => trivial
    obtain ⟨i1, i2⟩ := ih key.1 h2
    exact ⟨i1, .cons key.2 i2⟩

/-- **C110**, the shortcut: for all arguments, the transcribed function raises the exception that the function of
the model raises, or returns the same phases with the same diagnostics. -/
theorem C110_shortcut {env : FinderEnv G} (hok : env.rng.Ok) {scipy : Scipy} {ext : PhasesExt}
    (hs : ScipyLabels scipy ext) (newGen : ℤ → G) (now : ℤ) (other : ℕ → PackedCons M → PackedCons M) (C : ℕ)
    (chis : NDArr ℝ) (phiMeans sizes : Option (NDArr ℝ)) (cs : ConsArg) (a : FinderArgs) (rng : Option G)
    (progress : Bool) (hM : M = if a.numPart.getD 0 = 0 then C * 8 else a.numPart.getD 0) :
    Agrees SameShortcut
      (Gen.find_coexisting_phases env.rng newGen now other scipy ext.argsort C chis phiMeans sizes cs
        (initArgs a rng progress) a.kwargs)
      (findCoexistingPhases env ext (rng.getD (newGen now)) C chis phiMeans sizes cs a) :=
  shortcut_same hok hs newGen now other C chis phiMeans sizes cs a rng progress hM

/-- Labels for the model. -/
theorem scipy_labels {scipy : Scipy} (hs : ScipyWorks scipy) (sort : ArgSort ℝ) :
    ∃ ext : PhasesExt, ScipyLabels scipy ext ∧ @ext.argsort = @sort := by
  classical
  have : ∀ {P C : ℕ} (x : Phases P C ℝ), ∃ v : Vec P ℤ, 2 ≤ P → ∃ links l,
      scipy.linkage (scipy.pdist (.ofMat x.fractions)) "centroid" = .ok links ∧
      scipy.fcluster links (1 / 100) "distance" = .ok l ∧ l.length = P ∧ ∀ p, v p = l.getD p.1 0 := by
    intro P C x
    by_cases hP : 2 ≤ P
    · obtain ⟨links, l, h1, h2, h3⟩ := hs x hP
      exact ⟨fun p => l.getD p.1 0, fun _ => ⟨links, l, h1, h2, h3, fun _ => rfl⟩⟩
    · exact ⟨0, fun h => absurd h hP⟩
  choose v hv using @this
  exact ⟨⟨sort, fun x => v x⟩, fun x hx => hv x hx, rfl⟩

/-- **C110**, for the transcribed text alone: with parameters of the finder in their natural range the function
returns at least one phase.  All volumes are positive and add up to one, the fractions of every phase add up to one
within the entry `max_abs_incomp` of `info`, and the phases are sorted by the component of which they contain
most. -/
theorem C110_returns {gen : Rng G ℝ} (hok : gen.Ok) {scipy : Scipy} (hs : ScipyWorks scipy) {sort : ArgSort ℝ}
    (hsort : ArgSort.Ok sort) (newGen : ℤ → G) (now : ℤ) (other : ℕ → PackedCons M → PackedCons M) {C : ℕ}
    (hC : 1 ≤ C) (chis : Mat C C ℝ) (l phi : Vec C ℝ) {a : FinderArgs} (rng : Option G) (progress : Bool)
    (hM : M = if a.numPart.getD 0 = 0 then C * 8 else a.numPart.getD 0)
    (hstd : 0 ≤ a.randomStd) (hthr : 0 ≤ a.killThreshold) (hthr1 : a.killThreshold < 1)
    (hthr2 : 2 * a.killThreshold * ((M : ℝ) - 1) < 1)
    (hb : 0 < a.JsStepUpperBound) (hcrit : a.criterion = "standard") (h1 : 0 < a.maxSteps) (h2 : 0 < a.interval) :
    ∃ b P, Gen.find_coexisting_phases gen newGen now other scipy sort C (.ofMat chis) (some (.ofVec phi))
        (some (.ofVec l)) .none (initArgs a rng progress) a.kwargs = .ok b ∧
      1 ≤ P ∧ P ≤ M ∧ b.volumes.shape = [P] ∧ b.fractions.shape = [P, C] ∧
      (∀ p : Fin P, 0 < b.volumes.get [p.1]) ∧ ∑ p : Fin P, b.volumes.get [p.1] = 1 ∧
      (∃ e, b._info.get? "max_abs_incomp" = some e ∧
        ∀ p : Fin P, |∑ i : Fin C, b.fractions.get [p.1, i.1] - 1| ≤ e) ∧
      ((∀ i, 0 ≤ phi i) → ∀ (p : Fin P) (i : Fin C), 0 ≤ b.fractions.get [p.1, i.1]) ∧
      ∀ p q : Fin P, p ≤ q → ∀ i j : Fin C,
        MostConcentrated (fun k : Fin C => b.fractions.get [p.1, k.1]) i →
        MostConcentrated (fun k : Fin C => b.fractions.get [q.1, k.1]) j → i ≤ j := by
  obtain ⟨ext, hext, he⟩ := scipy_labels hs sort
  have hpart : Finder.partNumber a.numPart C = M := by
    rw [hM]
    unfold Finder.partNumber
    cases a.numPart <;> simp
  obtain ⟨r, hr⟩ := C59_returns (env := ⟨gen, fun _ _ _ s => s⟩) hok ext (rng.getD (newGen now)) hC chis l phi hstd
    hthr hthr1 (by rw [hpart]; exact hthr2) hb hcrit h1 h2
  have hag := C110_shortcut (env := ⟨gen, fun _ _ _ s => s⟩) hok hext newGen now other C (.ofMat chis)
    (some (.ofVec phi)) (some (.ofVec l)) .none a rng progress hM
  obtain ⟨q1, q2, q3, q4, q5, q6, q7, i, e, c, f, f', out, -, -, -, q8, q9, -, q10, -⟩ :=
    C59_shortcut (env := ⟨gen, fun _ _ _ s => s⟩) hok (ext := ext) (by rw [he]; exact hsort) hthr hr
  rw [hr] at hag
  obtain ⟨ia, en, es, -, x2, x3, -, -, hcr⟩ := create_ok q8
  rw [InstObj.compiled_eq] at x2 x3
  obtain rfl := Except.ok.inj x2
  obtain rfl := Except.ok.inj x3
  obtain ⟨k1, -⟩ := C40_finder (env := ⟨gen, fun _ _ _ s => s⟩) hok (by rw [hcr.params]; exact hthr)
    (by rw [hcr.entropy]; exact ⟨trivial, trivial⟩) q9
  have hPM : r.numPhases ≤ M := by
    rw [← hpart]
    refine q10.trans (le_of_eq ?_)
    rw [k1, hcr.numPart]
    unfold Finder.partNumber
    cases a.numPart with
    | none => simp
    | some n => by_cases hn : n = 0 <;> simp [hn]
  rw [he] at hag
  cases hg : Gen.find_coexisting_phases gen newGen now other scipy sort C (.ofMat chis) (some (.ofVec phi))
      (some (.ofVec l)) .none (initArgs a rng progress) a.kwargs with
  | error e => rw [hg] at hag; exact hag.elim
  | ok b =>
    rw [hg] at hag
    obtain ⟨⟨hv, hf⟩, hi⟩ := hag
    obtain ⟨P, C', ph, d⟩ := r
    dsimp only at q1
    subst q1
    dsimp only at *
    have hv' := hv.get
    have hf' := hf.get
    refine ⟨b, P, rfl, q2, hPM, hv.shape, hf.shape, fun p => ?_, ?_, ⟨d.maxAbsIncomp, ?_, fun p => ?_⟩, fun h p i => ?_,
      fun p q hpq i j => ?_⟩
    · rw [hv']; exact q3 p
    · simp only [hv']; exact q4
    · rw [hi]; rfl
    · simp only [hf']; exact q5 p
    · rw [hf']
      refine q6 (fun b hb idx => ?_) p i
      obtain rfl := Option.some.inj hb
      simp only [NDArr.ofVec]
      split
      · exact h _
      · exact le_of_eq rfl
    · simp only [hf']
      exact q7 p q hpq i j

/-- **C110**, for the transcribed text alone, with the clustering that scipy documents: when the fields drawn at the
beginning are those of coexisting phases that differ by more than 0.01, the function returns exactly these phases,
each once, with the volumes of their compartments and with vanishing errors. -/
theorem C110_equilibrium {gen : Rng G ℝ} (hok : gen.Ok) {scipy : Scipy} {C : ℕ}
    (hs : ScipyWorks scipy)
    (hcl : ∀ {P : ℕ} (x : Phases P C ℝ) links l, 2 ≤ P →
      scipy.linkage (scipy.pdist (.ofMat x.fractions)) "centroid" = .ok links →
      scipy.fcluster links (1 / 100) "distance" = .ok l → FCluster (1 / 100) x.fractions fun p => l.getD p.1 0)
    (sort : ArgSort ℝ) (newGen : ℤ → G) (now : ℤ) (other : ℕ → PackedCons M → PackedCons M)
    (hC : 1 ≤ C) (chis : Mat C C ℝ) (hsym : ∀ i j, chis i j = chis j i) {l : Vec C ℝ} (hl : ∀ i, 0 < l i)
    (phi : Vec C ℝ) {a : FinderArgs} (rng : Option G) (progress : Bool)
    (hM : M = if a.numPart.getD 0 = 0 then C * 8 else a.numPart.getD 0)
    (hstd : 0 ≤ a.randomStd) (hthr : 0 ≤ a.killThreshold) (hthr1 : a.killThreshold < 1)
    (hthr2 : 2 * a.killThreshold * ((M : ℝ) - 1) < 1)
    (hb : 0 < a.JsStepUpperBound) (hcrit : a.criterion = "standard") (h1 : 0 < a.maxSteps) (h2 : 0 < a.interval)
    {psi : Mat C M ℝ} {c : ℝ} (hco : Coexistence chis id l phi (fun _ => 1) psi)
    (hom : ∀ (r : Fin C) (m : Fin M), a.randomStd * normalDraw gen (rng.getD (newGen now)) (r * M + m) =
      equilibriumField chis id l (fun j => psi j m) r + c)
    (far : ∀ m n, (∃ i, psi i m ≠ psi i n) → 1 / 100 < eucl (fun i => psi i m) (fun i => psi i n)) :
    ∃ b P, Gen.find_coexisting_phases gen newGen now other scipy sort C (.ofMat chis) (some (.ofVec phi))
        (some (.ofVec l)) .none (initArgs a rng progress) a.kwargs = .ok b ∧
      b.volumes.shape = [P] ∧ b.fractions.shape = [P, C] ∧
      (∀ p : Fin P, ∃ m, ∀ i : Fin C, b.fractions.get [p.1, i.1] = psi i m) ∧
      (∀ m, ∃! p : Fin P, ∀ i : Fin C, b.fractions.get [p.1, i.1] = psi i m) ∧
      (∀ (p : Fin P) m, (∀ i : Fin C, b.fractions.get [p.1, i.1] = psi i m) →
        b.volumes.get [p.1] = (Finset.univ.filter fun n => ∀ i, psi i n = psi i m).card / (M : ℝ)) ∧
      ∀ k ∈ ["max_abs_incomp", "max_abs_omega_diff", "max_abs_js_diff"],
        ∃ e, b._info.get? k = some e ∧ e ≤ 0 := by
  obtain ⟨ext, hext, he⟩ := scipy_labels hs sort
  have hpart : Finder.partNumber a.numPart C = M := by
    rw [hM]
    unfold Finder.partNumber
    cases a.numPart <;> simp
  have hlab : ∀ {P : ℕ} (x : Phases P C ℝ), 2 ≤ P → FCluster (1 / 100) x.fractions (ext.labels x) := by
    intro P x hP
    obtain ⟨links, l, w1, w2, w3, w4⟩ := hext x hP
    rw [show ext.labels x = fun p => l.getD p.1 0 by funext p; exact w4 p]
    exact hcl x links l hP w1 w2
  obtain ⟨P, ph, d, hr, hd, u1, u2, u3⟩ := C81_equilibrium_found (env := ⟨gen, fun _ _ _ s => s⟩) hok ext
    (rng.getD (newGen now)) hC hlab chis hsym hl phi hstd hthr hthr1 (by rw [hpart]; exact hthr2) hb hcrit h1 h2 hpart
    hco hom far
  have hag := C110_shortcut (env := ⟨gen, fun _ _ _ s => s⟩) hok hext newGen now other C (.ofMat chis)
    (some (.ofVec phi)) (some (.ofVec l)) .none a rng progress hM
  rw [hr, he] at hag
  cases hg : Gen.find_coexisting_phases gen newGen now other scipy sort C (.ofMat chis) (some (.ofVec phi))
      (some (.ofVec l)) .none (initArgs a rng progress) a.kwargs with
  | error e => rw [hg] at hag; exact hag.elim
  | ok b =>
    rw [hg] at hag
    obtain ⟨⟨hv, hf⟩, hi⟩ := hag
    have hv' : ∀ p : Fin P, b.volumes.get [p.1] = ph.volumes p := hv.get
    have hf' : ∀ (p : Fin P) (i : Fin C), b.fractions.get [p.1, i.1] = ph.fractions p i := hf.get
    refine ⟨b, P, rfl, hv.shape, hf.shape, fun p => ?_, fun m => ?_, fun p m hpm => ?_, ?_⟩
    · obtain ⟨m, hm⟩ := u1 p
      exact ⟨m, fun i => by rw [hf', hm]⟩
    · simp only [hf']
      obtain ⟨p, hp, hp'⟩ := u2 m
      exact ⟨p, fun i => congrFun hp i, fun q hq => hp' q (funext hq)⟩
    · rw [hv', u3]
      simp only [hf'] at hpm
      rw [funext hpm, Finset.sum_boole]
      congr 3
      ext n
      simp only [Finset.mem_filter, Finset.mem_univ, true_and, funext_iff]
      exact ⟨fun h i => (h i).symm, fun h i => (h i).symm⟩
    · rw [hi]
      intro k hk
      simp only [List.mem_cons, List.not_mem_nil, or_false] at hk
      obtain ⟨d1, d2, d3⟩ := hd
      rcases hk with rfl | rfl | rfl
      · exact ⟨_, rfl, d1⟩
      · exact ⟨_, rfl, d2⟩
      · exact ⟨_, rfl, d3⟩

namespace Demo

/-- There are functions with the behaviour that scipy documents. -/
theorem scipy_exists : ∃ scipy : Scipy, ScipyWorks scipy ∧
    ∀ {P C : ℕ} (x : Phases P C ℝ) links l, 2 ≤ P →
      scipy.linkage (scipy.pdist (.ofMat x.fractions)) "centroid" = .ok links →
      scipy.fcluster links (1 / 100) "distance" = .ok l → FCluster (1 / 100) x.fractions fun p => l.getD p.1 0 := by
  classical
  have hlab : ∀ a : NDArr ℝ, ∃ l : List ℤ, ∀ P C, a.shape = [P, C] → 2 ≤ P →
      l.length = P ∧ FCluster (C := C) (1 / 100) (fun (p : Fin P) (i : Fin C) => a.get [p.1, i.1]) fun p => l.getD p.1 0 := by
    intro a
    by_cases h : ∃ P C, a.shape = [P, C] ∧ 2 ≤ P
    · obtain ⟨P, C, hs, hP⟩ := h
      obtain ⟨labels, hl⟩ := fcluster_exists (P := P) (C := C) (by omega) (1 / 100)
        (fun (p : Fin P) (i : Fin C) => a.get [p.1, i.1])
      refine ⟨List.ofFn labels, fun P' C' hs' _ => ?_⟩
      rw [hs] at hs'
      obtain ⟨rfl, rfl⟩ : P = P' ∧ C = C' := by simpa using hs'
      refine ⟨by simp, ?_⟩
      rwa [show (fun p : Fin P => (List.ofFn labels).getD p.1 0) = labels by funext p; simp [List.getD]]
    · exact ⟨[], fun P C hs hP => absurd ⟨P, C, hs, hP⟩ h⟩
  choose lab hl using hlab
  refine ⟨⟨id, fun a _ => .ok a, fun a _ _ => .ok (lab a)⟩, fun x hP => ?_, fun x links l hP h1 h2 => ?_⟩
  · exact ⟨_, _, rfl, rfl, (hl _ _ _ rfl hP).1⟩
  · obtain rfl := Except.ok.inj h1
    obtain rfl := Except.ok.inj h2
    have := (hl (.ofMat x.fractions) _ _ rfl hP).2
    rwa [show (fun p i => (NDArr.ofMat x.fractions).get [(p : Fin _).1, (i : Fin _).1]) = x.fractions by
      funext p i; exact (sameMat_ofMat x.fractions).get p i] at this

end Demo

-- C110: for the mixture of C59 and the defaults of the finder, that is 16 compartments, the text returns a result.
example : ∃ (scipy : Scipy) (sort : ArgSort ℝ) (b : Gen.PhasesResultAttrs ℝ) (P : ℕ),
    Gen.find_coexisting_phases (M := 16) Demo.fenv.rng (fun _ => ()) 7 (fun _ c => c) scipy sort 2 (.ofMat Demo.chis)
      (some (.ofVec ![1 / 2, 1 / 2])) (some (.ofVec ![1, 2])) .none {} [] = .ok b ∧ 1 ≤ P ∧ b.volumes.shape = [P] ∧
    ∑ p : Fin P, b.volumes.get [p.1] = 1 := by
  obtain ⟨scipy, hs, -⟩ := Demo.scipy_exists
  obtain ⟨sort, hok⟩ := argsort_exists (K := ℝ)
  obtain ⟨b, P, h1, h2, -, h3, -, -, h4, -⟩ := C110_returns (M := 16) (gen := Demo.fenv.rng) (rngZero_ok ℝ) hs hok
    (fun _ => ()) 7 (fun _ c => c) (C := 2) (by norm_num) Demo.chis ![1, 2] ![1 / 2, 1 / 2] (a := {}) none true (by rfl)
    (by norm_num) (by norm_num) (by norm_num) (by norm_num) (by norm_num) rfl (by norm_num) (by norm_num)
  rw [C107_defaults.1] at h1
  exact ⟨scipy, sort, b, P, h1, h2, h3, h4⟩

-- C110: the fields of the phases (1/4, 3/4) and (3/4, 1/4) are drawn, and the text returns them.
example : ∃ (draws : ℕ → ℝ) (scipy : Scipy) (sort : ArgSort ℝ) (b : Gen.PhasesResultAttrs ℝ) (P : ℕ),
    Gen.find_coexisting_phases (M := 2) (Demo.listRng draws) (fun _ => 0) 7 (fun _ c => c) scipy sort 2
      (.ofMat Demo.coexFH.chis) (some (.ofVec ![1 / 2, 1 / 2])) (some (.ofVec fun _ : Fin 2 => 1)) .none
      { num_part := some 2 } [] = .ok b ∧ b.fractions.shape = [P, 2] ∧
    ∃ p q : Fin P, b.fractions.get [p.1, 0] = 1 / 4 ∧ b.fractions.get [q.1, 0] = 3 / 4 := by
  obtain ⟨scipy, hs, hcl⟩ := Demo.scipy_exists
  obtain ⟨sort, hok⟩ := argsort_exists (K := ℝ)
  set psi : Mat 2 2 ℝ := Demo.coexPhi with hpsi
  set draws : ℕ → ℝ := fun k => equilibriumField Demo.coexFH.chis id (fun _ => 1)
    (fun j => psi j ⟨k % 2, Nat.mod_lt _ (by norm_num)⟩) ⟨k / 2 % 2, Nat.mod_lt _ (by norm_num)⟩ / 5 with hdr
  have hco : Coexistence Demo.coexFH.chis id (fun _ => 1) ![1 / 2, 1 / 2] (fun _ : Fin 2 => 1) psi :=
    ⟨by simp, Demo.coexistence.pos, Demo.coexistence.incompressible, fun i => by
      fin_cases i <;> norm_num [hpsi, Demo.coexPhi, Fin.sum_univ_two], Demo.coexistence.balance⟩
  have hne : ∀ m n : Fin 2, m ≠ n → 1 / 4 < eucl (fun i => psi i m) (fun i => psi i n) := by
    intro m n hmn
    refine lt_of_lt_of_le ?_ (abs_le_eucl _ _ 0)
    fin_cases m <;> fin_cases n
    · exact absurd rfl hmn
    · norm_num [hpsi, Demo.coexPhi, abs_of_neg]
    · norm_num [hpsi, Demo.coexPhi, abs_of_pos]
    · exact absurd rfl hmn
  obtain ⟨b, P, h1, -, h2, -, h3, -⟩ := C110_equilibrium (M := 2) (Demo.listRng_ok draws) hs (fun x => hcl x) sort
    (fun _ => 0) 7 (fun _ c => c) (C := 2) (by norm_num) Demo.coexFH.chis
    (fun i j => by fin_cases i <;> fin_cases j <;> rfl) (l := fun _ => 1) (fun _ => one_pos)
    ![1 / 2, 1 / 2] (a := { numPart := some 2 }) none true (by rfl) (by norm_num) (by norm_num) (by norm_num)
    (by norm_num) (by norm_num) rfl (by norm_num) (by norm_num) (psi := psi) (c := 0) hco
    (fun r m => by
      rw [show (none : Option ℕ).getD 0 = 0 from rfl, Demo.listRng_draw]
      fin_cases r <;> fin_cases m <;> (simp [hdr]; ring))
    (fun m n h => lt_trans (by norm_num) (hne m n fun e => by
      obtain ⟨i, hi⟩ := h
      exact hi (by rw [e])))
  refine ⟨draws, scipy, sort, b, P, ?_, h2, ?_⟩
  · rw [← h1]
    congr 1
    simp only [initArgs]
    congr 1 <;> norm_num
  · obtain ⟨p, hp, -⟩ := h3 0
    obtain ⟨q, hq, -⟩ := h3 1
    exact ⟨p, q, (hp 0).trans (by norm_num [hpsi, Demo.coexPhi]), (hq 0).trans (by norm_num [hpsi, Demo.coexPhi])⟩

end Flory
