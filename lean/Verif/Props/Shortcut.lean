import Verif.Model.Shortcut
import Verif.Props.FinderHistory
import Verif.Props.Phases
import Verif.Lemmas.NDArray

/-!
# C40 for finders and C59: what users get
-/

set_option linter.unusedSectionVars false

namespace Flory

open Spec

variable {G : Type}

/-- **C40** for a finder after any history: the returned phases have the sizes of the finder, volumes
above the kill threshold, row sums within the reported `max_abs_incomp` of one, and non-negative
(positive) fractions of components with non-negative (positive) mean fraction or activity; and the
reported diagnostics are stored. -/
theorem C40_finder {env : FinderEnv G} (hrng : env.rng.Ok) {f f' : Finder G} {ms : Option ℚ}
    {tol : Option ℝ} {int : Option ℤ} {out : RunOut} (hthr : 0 ≤ f.params.killThreshold)
    (hen : GoodEntropy f.entropy) (h : f.run env ms tol int = (f', .ok out)) :
    out.numPart = f.numPart ∧ out.numComp = f.numComp ∧ f'.diagnostics = some out.diagnostics ∧
    ∀ p, f.params.killThreshold < out.phases.volumes p ∧
      |∑ i, out.phases.fractions p i - 1| ≤ out.diagnostics.maxAbsIncomp ∧
      (∀ es : CanonicalC out.numComp ℝ, f.ensemble = ⟨out.numComp, .canonical es⟩ → ∀ i,
        (0 < es.phiMeans i → 0 < out.phases.fractions p i) ∧
        (0 ≤ es.phiMeans i → 0 ≤ out.phases.fractions p i)) ∧
      (∀ es : GrandC out.numComp ℝ, f.ensemble = ⟨out.numComp, .grand es⟩ → ∀ i,
        (0 < es.scaledActivity i → 0 < out.phases.fractions p i) ∧
        (0 ≤ es.scaledActivity i → 0 ≤ out.phases.fractions p i)) := by
  cases hp : f.parts with
  | none => rw [run_none hp] at h; cases h
  | some p =>
    by_cases hM : f.numPart = 0
    · rw [run_zero hp hM] at h; cases h
    have : NeZero f.numPart := ⟨hM⟩
    rw [run_some hp] at h
    obtain ⟨e1, e2, e3, -⟩ := parts_eq.mp hp
    have hgood : GoodEntropy ⟨_, _, p.en⟩ := e2 ▸ hen
    obtain ⟨sizes, feat, hig⟩ := p.en.isIdealGas hgood.1 hgood.2 f.numPart
    rcases hr : runImpl (f.runEnv env p) (ms.getD f.maxSteps) (tol.getD f.tolerance)
        (int.getD f.interval) (f.state p.cons) f.reviveLeft with ⟨s, x⟩
    rw [hr] at h
    cases x with
    | error e => cases h
    | ok x =>
      obtain ⟨ph, d⟩ := x
      cases h
      refine ⟨rfl, rfl, rfl, fun q => ?_⟩
      have hsc : ∃ a, Scales (f.runEnv env p).es a := by
        show ∃ a, Scales (p.es.toI f.numPart) a
        cases p.es with
        | canonical e => exact ⟨_, e.scales⟩
        | grand e => exact ⟨_, e.scales⟩
      obtain ⟨a, ha⟩ := hsc
      have hph := C40_physical (e := f.runEnv env p) (ia := p.ia) hrng hthr rfl hig ha hr q
      obtain ⟨hc, hg⟩ := C40_ensembles (e := f.runEnv env p) (ia := p.ia) hrng hthr rfl hig hr q
      refine ⟨hph.1, hph.2.2.2, fun es he i => ?_, fun es he i => ?_⟩
      · rw [e3] at he
        refine hc es ?_ i
        have : p.es = .canonical es := by simpa using he
        show p.es.toI f.numPart = _
        rw [this]; rfl
      · rw [e3] at he
        refine hg es ?_ i
        have : p.es = .grand es := by simpa using he
        show p.es.toI f.numPart = _
        rw [this]; rfl

/-- Clusters of phases with positive volumes. -/
theorem clusters_bounds {P C : ℕ} {x : Phases P C ℝ} {labels : Vec P ℤ} {r : Σ P' : ℕ, Phases P' C ℝ}
    (h : x.getClusters labels = .ok r) (hv : ∀ p, 0 < x.volumes p) :
    (∀ k, 0 < r.2.volumes k) ∧ (∀ i, (∀ p, 0 ≤ x.fractions p i) → ∀ k, 0 ≤ r.2.fractions k i) ∧
    (∀ i, (∀ p, 0 < x.fractions p i) → ∀ k, 0 < r.2.fractions k i) ∧
    ∀ eps, (∀ p, |∑ i, x.fractions p i - 1| ≤ eps) → ∀ k, |∑ i, r.2.fractions k i - 1| ≤ eps := by
  by_cases hP : 2 ≤ P
  · obtain ⟨r', h', lab, -, -, c1, c2, -, c4, c5⟩ := C05_clusters_inside x labels hP hv
    obtain rfl := Except.ok.inj (h.symm.trans h')
    exact ⟨c1, fun i hi k => c2 k i 0 fun p _ => hi p, fun i hi k => c4 k i fun p _ => hi p,
      fun eps he k => c5 eps k fun p _ => he p⟩
  · unfold Phases.getClusters at h
    rw [if_pos (not_le.mp hP)] at h
    obtain rfl := Except.ok.inj h
    exact ⟨hv, fun i hi => hi, fun i hi => hi, fun eps he => he⟩

/-- A property of all phases survives sorting. -/
theorem sort_forall {P C : ℕ} {argsort : ArgSort ℝ} {x : Phases P C ℝ} {r : Σ P' : ℕ, Phases P' C ℝ}
    (h : x.sort argsort = .ok r) (Q : ℝ → Vec C ℝ → Prop) (hx : ∀ p, Q (x.volumes p) (x.fractions p))
    (k : Fin r.1) : Q (r.2.volumes k) (r.2.fractions k) := by
  obtain ⟨-, hperm, -⟩ := C02_sort_reorders h
  have hmem : (r.2.volumes k, r.2.fractions k) ∈ r.2.rows :=
    (List.mem_ofFn ..).mpr ⟨k, rfl⟩
  obtain ⟨p, hp⟩ := (List.mem_ofFn ..).mp (hperm.mem_iff.mp hmem)
  have := hx p
  rw [Prod.mk.injEq] at hp
  rwa [hp.1, hp.2] at this

/-- Components of the mean fractions are entries of the given array. -/
theorem canonical_new_nonneg {C : ℕ} {phi : Option (NDArr ℝ)} {es : CanonicalEnsemble C}
    (h : CanonicalEnsemble.new C phi = .ok es) (hphi : ∀ a, phi = some a → ∀ idx, 0 ≤ a.get idx)
    (i : Fin C) : 0 ≤ es.phiMeans i := by
  unfold CanonicalEnsemble.new at h
  split at h
  · cases h
  · cases phi with
    | none =>
      obtain rfl := Except.ok.inj h
      show (0 : ℝ) ≤ 1 / C
      positivity
    | some a =>
      obtain ⟨b, hb, h⟩ := bind_eq_ok.mp h
      obtain rfl := Except.ok.inj h
      have h0 : ∀ idx, 0 ≤ a.atleast1d.get idx := by
        intro idx
        unfold NDArr.atleast1d
        split
        · exact hphi a rfl _
        · exact hphi a rfl _
      unfold NDArr.broadcastTo at hb
      split at hb
      · obtain rfl := Except.ok.inj hb
        exact h0 _
      · cases hb

/-- **C59**. Whatever the shortcut returns: at least one phase, positive volumes that add up to one,
row sums within the reported `max_abs_incomp` of one, non-negative fractions for non-negative mean
fractions, phases sorted by the most concentrated component; the diagnostics and the mean composition
are those of the run it made. -/
theorem C59_shortcut {env : FinderEnv G} (hrng : env.rng.Ok) {ext : PhasesExt} (hext : ArgSort.Ok ext.argsort)
    {g : G} {C : ℕ} {chis : NDArr ℝ} {phiMeans sizes : Option (NDArr ℝ)} {constraints : ConsArg}
    {a : FinderArgs} {r : ShortcutResult} (hthr : 0 ≤ a.killThreshold)
    (h : findCoexistingPhases env ext g C chis phiMeans sizes constraints a = .ok r) :
    r.numComp = C ∧ 1 ≤ r.numPhases ∧ (∀ p, 0 < r.phases.volumes p) ∧ ∑ p, r.phases.volumes p = 1 ∧
    (∀ p, |∑ i, r.phases.fractions p i - 1| ≤ r.info.maxAbsIncomp) ∧
    ((∀ b, phiMeans = some b → ∀ idx, 0 ≤ b.get idx) → ∀ p i, 0 ≤ r.phases.fractions p i) ∧
    (∀ p q, p ≤ q → ∀ i j, MostConcentrated (r.phases.fractions p) i →
      MostConcentrated (r.phases.fractions q) j → i ≤ j) ∧
    ∃ (i : FHInteraction C ℝ) (e : GasEntropy C) (c : CanonicalEnsemble C) (f f' : Finder G)
      (out : RunOut),
      FHInteraction.new C chis = .ok i ∧ GasEntropy.new C sizes = .ok e ∧
      CanonicalEnsemble.new C phiMeans = .ok c ∧
      Finder.create env g i.obj e.obj c.obj constraints a = .ok f ∧
      f.run env none none none = (f', .ok out) ∧ r.info = out.diagnostics ∧
      r.numPhases ≤ out.numPart ∧
      ∀ (k : ℕ) (h1 : k < r.numComp) (h2 : k < out.numComp),
        r.phases.meanFractions ⟨k, h1⟩ = out.phases.meanFractions ⟨k, h2⟩ := by
  unfold findCoexistingPhases at h
  obtain ⟨i, hi, h⟩ := bind_eq_ok.mp h
  obtain ⟨e, he, h⟩ := bind_eq_ok.mp h
  obtain ⟨-, -, h⟩ := bind_eq_ok.mp h
  obtain ⟨c, hc, h⟩ := bind_eq_ok.mp h
  obtain ⟨f, hf, h⟩ := bind_eq_ok.mp h
  dsimp only at h
  rcases hrun : f.run env none none none with ⟨f', res⟩
  rw [hrun] at h
  obtain ⟨out, hout, h⟩ := bind_eq_ok.mp h
  dsimp only at hout
  subst hout
  obtain ⟨cl, hcl, h⟩ := bind_eq_ok.mp h
  obtain ⟨so, hso, h⟩ := bind_eq_ok.mp h
  obtain ⟨ia, en, es, x1, x2, x3, -, -, hcr⟩ := create_ok hf
  rw [InstObj.compiled_eq] at x2 x3
  obtain rfl := Except.ok.inj x2
  obtain rfl := Except.ok.inj x3
  have hthr' : 0 ≤ f.params.killThreshold := by rw [hcr.params]; exact hthr
  obtain ⟨k1, k2, k3, k4⟩ := C40_finder hrng hthr'
    (by rw [hcr.entropy]; exact ⟨trivial, trivial⟩) hrun
  rw [k3] at h
  obtain rfl := Except.ok.inj h
  obtain ⟨M, N, ph, d⟩ := out
  dsimp only at k1 k2 k4 cl hcl so hso ⊢
  have hNC : N = C := k2.trans hcr.numComp
  subst hNC
  have hCpos : 0 < N := by
    unfold CanonicalEnsemble.new at hc
    split at hc
    · cases hc
    · omega
  have hMpos : 0 < M := by
    rw [k1, hcr.numPart]
    split
    · exact Nat.mul_pos hCpos (by norm_num)
    · exact Nat.pos_of_ne_zero ‹_›
  have hvol : ∀ p, 0 < ph.volumes p := fun p => lt_of_le_of_lt hthr' (k4 p).1
  obtain ⟨b1, b2, b3, b4⟩ := clusters_bounds hcl hvol
  obtain ⟨c1, c2, c3, c4⟩ := (C04_clusters_conserve ph _).1 _ hcl
  obtain ⟨s1, s2, s3, s4⟩ := C02_sort_reorders hso
  have hsv : ∀ k, 0 < so.2.volumes k := fun k => sort_forall hso (fun v _ => 0 < v) b1 k
  have hsum : so.2.totalVolume = ∑ p, ph.volumes p := s3.trans c2
  have hpos : 0 < ∑ p, ph.volumes p :=
    Finset.sum_pos (fun p _ => hvol p) ⟨⟨0, hMpos⟩, Finset.mem_univ _⟩
  have hne : so.2.totalVolume ≠ 0 := by rw [hsum]; exact hpos.ne'
  obtain ⟨n1, n2, -, -, n5, -⟩ := C01_normalize so.2 hne
  refine ⟨rfl, ?_, fun p => ?_, n1, fun p => ?_, fun hphi p j => ?_, fun p q hpq j j' => ?_,
    i, e, c, f, f', ⟨M, N, ph, d⟩, hi, he, hc, hf, hrun, rfl, ?_, fun k h1 h2 => ?_⟩
  · show 1 ≤ so.1
    rw [s1]
    by_contra h0
    have h0 : cl.1 = 0 := by omega
    have : ∑ p, cl.2.volumes p = 0 := by
      refine Finset.sum_eq_zero fun p _ => absurd p.2 (by omega)
    rw [c2] at this
    exact hpos.ne' this
  · exact div_pos (hsv p) (by rw [hsum]; exact hpos)
  · exact sort_forall hso (fun _ row => |∑ i, row i - 1| ≤ d.maxAbsIncomp)
      (fun k => b4 _ (fun p => (k4 p).2.1) k) p
  · have hm := canonical_new_nonneg hc hphi
    refine sort_forall hso (fun _ row => 0 ≤ row j) (fun k => b2 j (fun p => ?_) k) p
    exact ((k4 p).2.2.1 ⟨c.phiMeans⟩ hcr.ensemble j).2 (hm j)
  · exact C03_most_concentrated hext hso hpq
  · show so.1 ≤ M
    rw [s1]; exact c1
  · show so.2.normalize.meanFractions _ = _
    rw [n5, s4, c4]

/-- What the constructors called by the shortcut make of full arrays. -/
theorem shortcut_objects {C : ℕ} (hC : 1 ≤ C) (chis : Mat C C ℝ) (l phi : Vec C ℝ) :
    FHInteraction.new C (NDArr.ofMat chis) = .ok ⟨fun i j => 1 / 2 * (chis i j + chis j i), false⟩ ∧
    GasEntropy.new C (some (NDArr.ofVec l)) = .ok ⟨l⟩ ∧ GasEntropy.new C none = .ok ⟨fun _ => 1⟩ ∧
    CanonicalEnsemble.new C (some (NDArr.ofVec phi)) = .ok ⟨phi⟩ ∧
    CanonicalEnsemble.new C none = .ok ⟨fun _ => 1 / (C : ℝ)⟩ := by
  obtain ⟨a, ha, ha'⟩ := convertAndBroadcast_mat chis
  obtain ⟨b, hb, hb'⟩ := convertAndBroadcast_vec l
  obtain ⟨c, hc, hc'⟩ := convertAndBroadcast_vec phi
  unfold convertAndBroadcast at ha hb hc
  have hC' : ¬ C < 1 := by omega
  refine ⟨?_, ?_, rfl, ?_, ?_⟩
  · unfold FHInteraction.new
    rw [ha, bind_ok, ha']; rfl
  · unfold GasEntropy.new
    simp only [hb, bind_ok, hb']; rfl
  · unfold CanonicalEnsemble.new
    rw [if_neg hC']
    simp only [hc, bind_ok, hc']; rfl
  · unfold CanonicalEnsemble.new
    rw [if_neg hC']

/-- **C59**, the shortcut returns a result for any matrix, sizes and mean fractions, as long as the
parameters of the finder are in their natural range. -/
theorem C59_returns {env : FinderEnv G} (hrng : env.rng.Ok) (ext : PhasesExt) (g : G) {C : ℕ}
    (hC : 1 ≤ C) (chis : Mat C C ℝ) (l phi : Vec C ℝ) {a : FinderArgs} (hstd : 0 ≤ a.randomStd)
    (hthr : 0 ≤ a.killThreshold) (hthr1 : a.killThreshold < 1)
    (hthr2 : 2 * a.killThreshold * ((Finder.partNumber a.numPart C : ℝ) - 1) < 1)
    (hb : 0 < a.JsStepUpperBound) (hcrit : a.criterion = "standard") (h1 : 0 < a.maxSteps)
    (h2 : 0 < a.interval) :
    ∃ r, findCoexistingPhases env ext g C (NDArr.ofMat chis) (some (NDArr.ofVec phi))
      (some (NDArr.ofVec l)) .none a = .ok r := by
  obtain ⟨o1, o2, -, o3, -⟩ := shortcut_objects hC chis l phi
  set i : FHInteraction C ℝ := ⟨fun i j => 1 / 2 * (chis i j + chis j i), false⟩
  have hi : ∃ x, i.obj.compiled a.kwargs = .ok ⟨C, x⟩ := by
    rw [InstObj.compiled_eq]
    unfold FHInteraction.obj
    simp only
    rw [dif_neg (by omega)]
    exact ⟨_, rfl⟩
  obtain ⟨x, hx⟩ := hi
  have he : (⟨l⟩ : GasEntropy C).obj.compiled a.kwargs = .ok ⟨C, C, .ideal ⟨l⟩⟩ := by
    rw [InstObj.compiled_eq]; rfl
  have hs : (⟨phi⟩ : CanonicalEnsemble C).obj.compiled a.kwargs = .ok ⟨C, .canonical ⟨phi⟩⟩ := by
    rw [InstObj.compiled_eq]; rfl
  obtain ⟨-, -, -, h4⟩ := create_of_compiled (env := env) (g := g) (constraints := .none) hx he hs rfl hstd
  obtain ⟨f, hf, hcr⟩ := h4 rfl rfl (by
    intro c hc
    rw [List.mem_singleton.mp hc]; rfl)
  have hM : f.numPart = Finder.partNumber a.numPart C := by
    rw [hcr.numPart]
    unfold Finder.partNumber
    cases a.numPart with
    | none => rfl
    | some n => by_cases hn : n = 0 <;> simp [hn]
  obtain ⟨-, hrun⟩ := C34_histories (ops := []) hrng hf
    (fun kw x hx => by cases hx; exact ⟨⟨trivial, trivial⟩, hC⟩) (by simp [consObjs]) hthr hthr1 hb
    (by simp) (fun pre op post hp => by simp at hp)
  obtain ⟨out, hout⟩ := hrun hcrit (by rw [hM]; exact hthr2) none none none h1 h2
  have hout : (f.run env none none none).2 = .ok out := hout
  rcases hr : f.run env none none none with ⟨f', res⟩
  rw [hr] at hout
  dsimp only at hout
  subst hout
  obtain ⟨k1, k2, k3, k4⟩ := C40_finder hrng (by rw [hcr.params]; exact hthr)
    (by rw [hcr.entropy]; exact ⟨trivial, trivial⟩) hr
  have hvol : ∀ p, 0 < out.phases.volumes p := fun p =>
    lt_of_le_of_lt (by rw [hcr.params]; exact hthr) (k4 p).1
  have hcl : ∃ c, out.phases.getClusters (ext.labels out.phases) = .ok c := by
    by_cases hP : 2 ≤ out.numPart
    · obtain ⟨c, hc, -⟩ := C05_clusters_inside out.phases (ext.labels out.phases) hP hvol
      exact ⟨c, hc⟩
    · unfold Phases.getClusters
      rw [if_pos (not_le.mp hP)]
      exact ⟨_, rfl⟩
  obtain ⟨c, hc⟩ := hcl
  have hN : out.numComp = C := k2.trans hcr.numComp
  obtain ⟨s, hs⟩ := C02_sort_succeeds ext.argsort c.2 (by omega)
  refine ⟨⟨s.1, out.numComp, s.2.normalize, out.diagnostics⟩, ?_⟩
  unfold findCoexistingPhases
  simp only [o1, o2, o3, bind_ok]
  have hfe : FreeEnergy.new ⟨C, fhPart i.chis⟩ ⟨C, gasPart (⟨l⟩ : GasEntropy C).sizes⟩ =
      .ok ⟨C, ⟨fhPart i.chis, gasPart l⟩⟩ := by
    unfold FreeEnergy.new
    rw [dif_pos rfl]
  rw [hfe, bind_ok, hf, bind_ok, hr]
  simp only [bind_ok, hc, hs, k3]

-- A mixture of two components; the clustering puts all compositions into one group, or each into its
-- own.
example : ∃ argsort : ArgSort ℝ, ArgSort.Ok argsort ∧ ∀ same : Bool, ∃ r,
    findCoexistingPhases Demo.fenv ⟨argsort, fun {_ _} _ p => if same then 1 else p.1⟩ () 2
      (NDArr.ofMat Demo.chis) (some (NDArr.ofVec ![1 / 2, 1 / 2])) (some (NDArr.ofVec ![1, 2])) .none {} =
        .ok r ∧ ∑ p, r.phases.volumes p = 1 := by
  obtain ⟨argsort, hok⟩ := argsort_exists (K := ℝ)
  refine ⟨argsort, hok, fun same => ?_⟩
  obtain ⟨r, hr⟩ := C59_returns (env := Demo.fenv) (rngZero_ok ℝ)
    ⟨argsort, fun {_ _} _ p => if same then 1 else p.1⟩ () (C := 2) (by norm_num) Demo.chis ![1, 2]
    ![1 / 2, 1 / 2] (a := {}) (by norm_num) (by norm_num) (by norm_num) (by norm_num) (by norm_num) rfl
    (by norm_num) (by norm_num)
  exact ⟨r, hr, (C59_shortcut (env := Demo.fenv) (rngZero_ok ℝ) hok (by norm_num) hr).2.2.2.1⟩

end Flory
