import Verif.Props.Stability
import Verif.Props.FinderHistory
import Verif.Props.Shortcut

/-! # From the objects of the user to the equilibration error of the result (C69) -/

set_option linter.unusedSectionVars false

namespace Flory

open Spec XReal

variable {G : Type}

/-! ### `equilibration_error` measures the imbalance -/

section Error

variable {C P : ℕ}

/-- **C56**, quantitative: for `P ≥ 1` positive compositions, whose chemical potentials differ by at
most `B`, the errors are at most `B` times the root of the number of summands; and conversely the
chemical potentials of a component in two phases differ by at most twice the error of the component,
which is at most the total error. -/
theorem C56_quantitative {chis : Mat C C ℝ} (hs : ∀ i j, chis i j = chis j i) {l : Vec C ℝ}
    (hl : ∀ i, 0 < l i) [NeZero P] {X : Mat P C ℝ} (hX : ∀ p i, 0 < X p i) :
    ∃ (e : ℝ) (ep : Vec P ℝ) (ec : Vec C ℝ),
      (fhFree chis l).equilibrationErrorAll (NDArr.ofMat X) = .ok e ∧
      (fhFree chis l).equilibrationErrorByPhase (NDArr.ofMat X) = .ok (List.ofFn ep) ∧
      (fhFree chis l).equilibrationErrorByComponent (NDArr.ofMat X) = .ok ec ∧
      (∀ B : ℝ, (∀ p q i, |chemPot chis l (X p) i - chemPot chis l (X q) i| ≤ B) → 0 ≤ B →
        e ≤ Real.sqrt (P * C) * B ∧ (∀ p, ep p ≤ Real.sqrt C * B) ∧ ∀ i, ec i ≤ Real.sqrt P * B) ∧
      (∀ p q i, |chemPot chis l (X p) i - chemPot chis l (X q) i| ≤ 2 * ec i) ∧
      (∀ i, ec i ≤ e) ∧ ∀ p, ep p ≤ e := by
  have hd := deviations_eval (fhFree chis l) fun p i => (hX p i).le
  set D : Mat P C ℝ := FreeEnergy.deviations fun p => musOf (fhFree chis l) (X p) with hD
  have hDv : ∀ p i, D p i = chemPot chis l (X p) i - (∑ q, chemPot chis l (X q) i) / P := by
    intro p i
    show (musOf (fhFree chis l) (X p) i).nanToNum -
      (∑ q, (musOf (fhFree chis l) (X q) i).nanToNum) / P = _
    simp only [musOf_eq hs hl (hX _)]
    rfl
  have hP : (0 : ℝ) < P := Nat.cast_pos.mpr (NeZero.pos P)
  have hsq : ∀ B : ℝ, (∀ p q i, |chemPot chis l (X p) i - chemPot chis l (X q) i| ≤ B) → 0 ≤ B →
      ∀ p i, D p i ^ 2 ≤ B ^ 2 := by
    intro B hB hB0 p i
    refine sq_le_sq' ?_ ?_ <;> rw [hDv]
    · have : ∑ q, chemPot chis l (X q) i ≤ ∑ _q : Fin P, (chemPot chis l (X p) i + B) :=
        Finset.sum_le_sum fun q _ => by linarith [abs_le.mp (hB p q i)]
      rw [Finset.sum_const, Finset.card_univ, Fintype.card_fin, nsmul_eq_mul] at this
      have : (∑ q, chemPot chis l (X q) i) / P ≤ chemPot chis l (X p) i + B := by
        rwa [div_le_iff₀ hP, mul_comm]
      linarith
    · have : ∑ _q : Fin P, (chemPot chis l (X p) i - B) ≤ ∑ q, chemPot chis l (X q) i :=
        Finset.sum_le_sum fun q _ => by linarith [abs_le.mp (hB p q i)]
      rw [Finset.sum_const, Finset.card_univ, Fintype.card_fin, nsmul_eq_mul] at this
      have : chemPot chis l (X p) i - B ≤ (∑ q, chemPot chis l (X q) i) / P := by
        rwa [le_div_iff₀ hP, mul_comm]
      linarith
  have root : ∀ (n : ℕ) (x B : ℝ), 0 ≤ B → x ≤ n * B ^ 2 → Real.sqrt x ≤ Real.sqrt n * B := by
    intro n x B hB h
    calc Real.sqrt x ≤ Real.sqrt (n * B ^ 2) := Real.sqrt_le_sqrt h
      _ = Real.sqrt n * B := by rw [Real.sqrt_mul (Nat.cast_nonneg n), Real.sqrt_sq hB]
  refine ⟨Real.sqrt (∑ p, ∑ i, D p i ^ 2), fun p => Real.sqrt (∑ i, D p i ^ 2),
    fun i => Real.sqrt (∑ p, D p i ^ 2), ?_, ?_, ?_, fun B hB hB0 => ⟨?_, fun p => ?_, fun i => ?_⟩,
    fun p q i => ?_, fun i => ?_, fun p => ?_⟩
  · unfold FreeEnergy.equilibrationErrorAll; rw [hd]; rfl
  · unfold FreeEnergy.equilibrationErrorByPhase; rw [hd]; rfl
  · unfold FreeEnergy.equilibrationErrorByComponent; rw [hd]; rfl
  · rw [← Nat.cast_mul]
    refine root _ _ _ hB0 ?_
    calc ∑ p, ∑ i, D p i ^ 2 ≤ ∑ _p : Fin P, ∑ _i : Fin C, B ^ 2 :=
        Finset.sum_le_sum fun p _ => Finset.sum_le_sum fun i _ => hsq B hB hB0 p i
      _ = ((P * C : ℕ) : ℝ) * B ^ 2 := by simp [mul_assoc]
  · refine root _ _ _ hB0 ?_
    calc ∑ i, D p i ^ 2 ≤ ∑ _i : Fin C, B ^ 2 := Finset.sum_le_sum fun i _ => hsq B hB hB0 p i
      _ = (C : ℝ) * B ^ 2 := by simp
  · refine root _ _ _ hB0 ?_
    calc ∑ p, D p i ^ 2 ≤ ∑ _p : Fin P, B ^ 2 := Finset.sum_le_sum fun p _ => hsq B hB hB0 p i
      _ = (P : ℝ) * B ^ 2 := by simp
  · have one : ∀ p, |D p i| ≤ Real.sqrt (∑ p, D p i ^ 2) := fun p => by
      rw [← Real.sqrt_sq_eq_abs]
      exact Real.sqrt_le_sqrt (Finset.single_le_sum (f := fun p => D p i ^ 2)
        (fun _ _ => sq_nonneg _) (Finset.mem_univ p))
    have e1 : chemPot chis l (X p) i - chemPot chis l (X q) i = D p i - D q i := by
      rw [hDv, hDv]; ring
    rw [e1]
    calc |D p i - D q i| ≤ |D p i| + |D q i| := abs_sub _ _
      _ ≤ _ := by linarith [one p, one q]
  · refine Real.sqrt_le_sqrt ?_
    exact Finset.sum_le_sum fun p _ => Finset.single_le_sum (f := fun i => D p i ^ 2)
      (fun _ _ => sq_nonneg _) (Finset.mem_univ i)
  · refine Real.sqrt_le_sqrt ?_
    exact Finset.single_le_sum (f := fun p => ∑ i, D p i ^ 2)
      (fun _ _ => Finset.sum_nonneg fun _ _ => sq_nonneg _) (Finset.mem_univ p)

end Error

/-! ### `NoConstraint` exerts no forces in any history -/

/-- A `NoConstraint` has vanishing arrays. -/
def Quiet {S M : ℕ} : Cons S M ℝ → Prop
  | .no c => (∀ r m, c.potential r m = 0) ∧ ∀ m, c.volumeDerivative m = 0
  | _ => True

/-- Compiled code that raises does not write into the arrays of `NoConstraint` instances (no method
except `initialize` does). -/
def CrashQuiet (env : FinderEnv G) : Prop :=
  ∀ C S M (st : State C S M ℝ G), (∀ c ∈ st.cons, Quiet c) → ∀ c ∈ (env.crash C S M st).cons, Quiet c

section QuietRun

variable {C S M : ℕ} [NeZero M]

theorem Quiet.prepare {c : Cons S M ℝ} (pf J mk) (h : Quiet c) : Quiet (Cons.prepare pf J mk c) := by
  cases c <;> simp_all [Quiet, Cons.prepare, NoC.prepare]

theorem Quiet.evolve {c c' : Cons S M ℝ} {step res : ℝ} {mk : Vec M ℝ} (h : Quiet c)
    (he : c.evolve step mk = .ok (res, c')) : Quiet c' := by
  cases c with
  | no c => rw [Cons.evolve_no he]; exact h
  | loc A c =>
    simp only [Cons.evolve] at he
    obtain ⟨_, -, he⟩ := bind_eq_ok.mp he
    rw [← (Prod.mk.inj (Except.ok.inj he)).2]; trivial
  | glob A c =>
    simp only [Cons.evolve] at he
    obtain ⟨_, -, he⟩ := bind_eq_ok.mp he
    rw [← (Prod.mk.inj (Except.ok.inj he)).2]; trivial

theorem metastep_quiet {ia : InteractionI S M ℝ} {en : EntropyI C S M ℝ} {es : EnsembleI C M ℝ}
    {rng : Rng G ℝ} {p : Params ℝ} {tries : ℤ} {n : ℕ} {s : State C S M ℝ G}
    {r : MetaResult C S M ℝ G} (h : metastep ia en es rng p tries n s = .ok r)
    (hs : ∀ c ∈ s.cons, Quiet c) : ∀ c ∈ r.last.cons, Quiet c :=
  metastep_inv (fun t => ∀ c ∈ t.cons, Quiet c) h
    (fun _ ht => ((iterate_facts ht).cons_inv Quiet (fun _ _ _ _ h => h.prepare _ _ _)
      (fun _ _ _ _ _ h he => h.evolve he) hs).2)
    (fun _ _ hp ht => ((iterate_facts ht).cons_inv Quiet (fun _ _ _ _ h => h.prepare _ _ _)
      (fun _ _ _ _ _ h he => h.evolve he) hp).2)

theorem runLoop_quiet {e : RunEnv C S M ℝ G}
    (hc : ∀ st, (∀ c ∈ st.cons, Quiet c) → ∀ c ∈ (e.crash st).cons, Quiet c) {tol : ℝ} {inner n : ℕ}
    (s : RunState C S M ℝ G) (hs : ∀ c ∈ s.st.cons, Quiet c) :
    ∀ c ∈ (runLoop e tol inner n s).1.st.cons, Quiet c := by
  induction n generalizing s with
  | zero => exact hs
  | succ n ih =>
    cases hm : metastep e.ia e.en e.es e.rng e.params s.reviveLeft inner s.st with
    | error err => simp only [runLoop, hm]; exact hc _ hs
    | ok r =>
      have := metastep_quiet hm hs
      simp only [runLoop, hm]
      split
      · split
        · exact this
        · exact ih _ this
      · exact this

theorem run_quiet {e : RunEnv C S M ℝ G}
    (hc : ∀ st, (∀ c ∈ st.cons, Quiet c) → ∀ c ∈ (e.crash st).cons, Quiet c) (maxSteps : ℚ) (tol : ℝ)
    (interval : ℤ) (st : State C S M ℝ G) (b : ℤ) (hs : ∀ c ∈ st.cons, Quiet c) :
    ∀ c ∈ (runImpl e maxSteps tol interval st b).1.st.cons, Quiet c := by
  unfold runImpl
  simp only
  cases stepsTracker maxSteps interval with
  | error err => exact hs
  | ok tracker =>
    simp only
    cases stepsInner maxSteps tracker with
    | error err => exact hs
    | ok inner =>
      simp only
      have := runLoop_quiet hc (tol := tol) (inner := inner) (n := tracker.toNat) ⟨st, b, 0, none⟩ hs
      rcases hl : runLoop e tol inner tracker.toNat ⟨st, b, 0, none⟩ with ⟨s2, r2⟩
      rw [hl] at this
      cases r2 with
      | error err => exact this
      | ok u =>
        simp only
        unfold runFinal
        cases reviveByCopy e.rng s2.st.Js s2.st.phisComp e.params.killThreshold s2.st.g with
        | error err => exact this
        | ok c =>
          simp only
          cases s2.last with
          | none => exact this
          | some r => exact this

end QuietRun

/-- All `NoConstraint` instances of a finder have vanishing arrays. -/
def QuietFinder (f : Finder G) : Prop := ∀ c ∈ f.constraints, Quiet c.cons

theorem quiet_reset {M : ℕ} (cs : List (PackedCons M)) :
    ∀ c ∈ cs.map PackedCons.reset, Quiet c.cons := by
  intro c hc
  obtain ⟨c', -, rfl⟩ := List.mem_map.mp hc
  obtain ⟨n, r, x⟩ := c'
  cases x with
  | no c => exact ⟨fun _ _ => rfl, fun _ => rfl⟩
  | loc A c => trivial
  | glob A c => trivial

theorem quiet_run {env : FinderEnv G} (hc : CrashQuiet env) (f : Finder G) (hf : QuietFinder f)
    (ms : Option ℚ) (tol : Option ℝ) (int : Option ℤ) : QuietFinder (f.run env ms tol int).1 := by
  unfold Finder.run
  split
  · exact hf
  · rename_i p hp
    split
    · exact hf
    · rename_i h
      have : NeZero f.numPart := ⟨h⟩
      have hq : ∀ c ∈ p.cons, Quiet c := by
        intro c hc'
        obtain ⟨-, -, -, h4⟩ := parts_eq.mp hp
        exact hf ⟨f.numFeat, true, c⟩ (by rw [h4]; exact List.mem_map.mpr ⟨c, hc', rfl⟩)
      have key : QuietFinder (f.store (runImpl (f.runEnv env p) (ms.getD f.maxSteps)
          (tol.getD f.tolerance) (int.getD f.interval) (f.state p.cons) f.reviveLeft).1) := by
        intro c hc'
        obtain ⟨c', hc'', rfl⟩ := List.mem_map.mp hc'
        exact run_quiet (e := f.runEnv env p) (fun st hst => hc _ _ _ st hst) _ _ _ (f.state p.cons) _ hq c' hc''
      dsimp only
      split
      · exact key
      · exact key

theorem quiet_step {env : FinderEnv G} (hc : CrashQuiet env) (f : Finder G) {op : FinderOp}
    (hop : ¬ IsSet op) (hf : QuietFinder f) : QuietFinder (f.step env op).1 := by
  cases op with
  | setInteraction o reset kw => exact absurd trivial hop
  | setEntropy o reset kw => exact absurd trivial hop
  | setEnsemble o reset kw => exact absurd trivial hop
  | setConstraints c reset ind kw => exact absurd trivial hop
  | resetRevive => exact hf
  | reinitConstraint => exact quiet_reset _
  | reinitRandom =>
    simp only [Finder.step, Finder.reinitRandom]
    split
    · exact hf
    · exact quiet_reset _
  | reinitOmegas w =>
    simp only [Finder.step, Finder.reinitOmegas]
    split
    · exact hf
    · exact quiet_reset _
  | reinitPhis p =>
    simp only [Finder.step, Finder.reinitPhis]
    split
    · exact hf
    · split
      · exact hf
      · exact quiet_reset _
  | run ms tol int => exact quiet_run hc f hf ms tol int

theorem quiet_steps {env : FinderEnv G} (hc : CrashQuiet env) (f : Finder G) {ops : List FinderOp}
    (hop : ∀ op ∈ ops, ¬ IsSet op) (hf : QuietFinder f) : QuietFinder (Finder.steps env ops f).1 :=
  steps_inv env QuietFinder (fun op => ¬ IsSet op) (fun f' _ h hq => quiet_step hc f' hq h) ops f hf hop

theorem quiet_created {env : FinderEnv G} {g : G} {interaction : InstObj AnyInteraction}
    {entropy : InstObj AnyEntropy} {ensemble : InstObj AnyEnsemble} {constraints : ConsArg}
    {a : FinderArgs} {f : Finder G}
    (h : Finder.create env g interaction entropy ensemble constraints a = .ok f) : QuietFinder f := by
  unfold Finder.create at h
  obtain ⟨ia, h1, h⟩ := bind_eq_ok.mp h
  obtain ⟨en, h2, h⟩ := bind_eq_ok.mp h
  obtain ⟨es, h3, h⟩ := bind_eq_ok.mp h
  dsimp only at h
  split at h
  · simp at h
  · obtain ⟨_, c1, h⟩ := bind_eq_ok.mp h
    obtain ⟨_, c2, h⟩ := bind_eq_ok.mp h
    obtain ⟨_, c3, h⟩ := bind_eq_ok.mp h
    obtain ⟨_, c4, h⟩ := bind_eq_ok.mp h
    obtain ⟨_, c5, h⟩ := bind_eq_ok.mp h
    rw [← Except.ok.inj h]
    unfold Finder.reinitRandom at c5 ⊢
    split
    · rename_i hlt
      rw [if_pos hlt] at c5
      cases c5
    · exact quiet_reset _

/-- All mean fractions or activities are positive. -/
def PositiveEnsemble {C : ℕ} : EnsembleInst C → Prop
  | .canonical e => ∀ i, 0 < e.phiMeans i
  | .grand e => ∀ i, 0 < e.scaledActivity i

/-- Not a constraint on each single compartment. -/
def NoLocal {S : ℕ} : ConsNew S → Prop
  | .loc .. => False
  | _ => True

/-- The sum of reported errors that bounds differences of chemical potentials. -/
noncomputable def errorBound (C : ℕ) (coef : ℝ) (d : Diagnostics ℝ) : ℝ :=
  C * d.maxAbsOmegaDiff + |coef| * d.maxAbsIncomp + 2 * d.maxAbsJsDiff

/-- C39 for instances given with their sizes. -/
theorem balance_instances {C S M : ℕ} [NeZero M] {e : RunEnv C S M ℝ G} {pia : FHCompiled S ℝ}
    {pen : EntropyInst C S} {pes : EnsembleInst C} {ia : FHCompiled C ℝ} {gas : IdealC C}
    {es : EnsembleInst C} {st : State C S M ℝ G} {s' : RunState C S M ℝ G} {ph : Phases M C ℝ}
    {d : Diagnostics ℝ} {maxSteps : ℚ} {tol : ℝ} {interval b : ℤ}
    (hok : e.rng.Ok) (hthr : 0 ≤ e.params.killThreshold)
    (e1 : e.ia = pia.toI M) (e2 : e.en = pen.toI M) (e3 : e.es = pes.toI M)
    (h1 : (⟨S, pia⟩ : AnyInteraction) = ⟨C, ia⟩) (h2 : (⟨C, S, pen⟩ : AnyEntropy) = ⟨C, C, .ideal gas⟩)
    (h3 : (⟨C, pes⟩ : AnyEnsemble) = ⟨C, es⟩) (hl : ∀ i, 0 < gas.sizes i) (hpos : PositiveEnsemble es)
    (hcons : ∀ c ∈ st.cons, c.NotLocal)
    (h : runImpl e maxSteps tol interval st b = (s', .ok (ph, d))) (p q : Fin M) (i : Fin C) :
    |chemPot ia.chis gas.sizes (ph.fractions p) i - chemPot ia.chis gas.sizes (ph.fractions q) i| ≤
      errorBound C ia.coef d := by
  obtain rfl : S = C := congrArg Sigma.fst h1
  have h1' : pia = ia := by simpa using h1
  have h2' : pen = .ideal gas := by simpa using h2
  have h3' : pes = es := by simpa using h3
  subst h1' h2' h3'
  unfold errorBound
  cases pes with
  | canonical es => exact C39_canonical hok hthr e1 e2 e3 hcons h (hl i) (hpos i) p q
  | grand es => exact C39_grand hok hthr e1 e2 e3 hcons h (hl i) (hpos i) p q

/-- A run of a finder whose instances are an ideal gas and a Flory-Huggins interaction. -/
theorem finder_run_balance {env : FinderEnv G} (hrng : env.rng.Ok) {f f' : Finder G} {ms : Option ℚ}
    {tol : Option ℝ} {int : Option ℤ} {out : RunOut} (hthr : 0 ≤ f.params.killThreshold)
    {ia : FHCompiled out.numComp ℝ} {gas : IdealC out.numComp} {es : EnsembleInst out.numComp}
    (hia : f.interaction = ⟨_, ia⟩) (hen : f.entropy = ⟨_, _, .ideal gas⟩) (hes : f.ensemble = ⟨_, es⟩)
    (hl : ∀ i, 0 < gas.sizes i) (hpos : PositiveEnsemble es)
    (hcons : ∀ c ∈ enforced f, NoLocal c.2) (hq : QuietFinder f) (h : f.run env ms tol int = (f', .ok out)) :
    out.numPart = f.numPart ∧ out.numPart ≠ 0 ∧
    (∀ p, f.params.killThreshold < out.phases.volumes p ∧
      |∑ i, out.phases.fractions p i - 1| ≤ out.diagnostics.maxAbsIncomp ∧
      ∀ i, 0 < out.phases.fractions p i) ∧
    ∀ p q i, |chemPot ia.chis gas.sizes (out.phases.fractions p) i
        - chemPot ia.chis gas.sizes (out.phases.fractions q) i| ≤
      errorBound out.numComp ia.coef out.diagnostics := by
  have hgood : GoodEntropy f.entropy := by rw [hen]; exact ⟨trivial, trivial⟩
  obtain ⟨k1, k2, -, k4⟩ := C40_finder hrng hthr hgood h
  have hM : out.numPart ≠ 0 := by
    intro h0
    rw [k1] at h0
    cases hp : f.parts with
    | none => rw [run_none hp] at h; cases h
    | some p => rw [run_zero hp h0] at h; cases h
  refine ⟨k1, hM, fun p => ⟨(k4 p).1, (k4 p).2.1, fun i => ?_⟩, ?_⟩
  · cases es with
    | canonical e => exact ((k4 p).2.2.1 e hes i).1 (hpos i)
    | grand e => exact ((k4 p).2.2.2 e hes i).1 (hpos i)
  cases hp : f.parts with
  | none => rw [run_none hp] at h; cases h
  | some p =>
    have : NeZero f.numPart := ⟨k1 ▸ hM⟩
    rw [run_some hp] at h
    obtain ⟨e1, e2, e3, e4⟩ := parts_eq.mp hp
    rcases hr : runImpl (f.runEnv env p) (ms.getD f.maxSteps) (tol.getD f.tolerance)
        (int.getD f.interval) (f.state p.cons) f.reviveLeft with ⟨s, x⟩
    rw [hr] at h
    have hnl : ∀ c ∈ p.cons, c.NotLocal := by
      intro c hc
      have h1 := hcons ⟨f.numFeat, consParams c⟩ (by
        unfold enforced
        rw [e4, List.map_map]
        exact List.mem_map.mpr ⟨c, hc, rfl⟩)
      have h2 := hq ⟨f.numFeat, true, c⟩ (by rw [e4]; exact List.mem_map.mpr ⟨c, hc, rfl⟩)
      cases c with
      | no c => exact h2
      | loc A c => exact h1
      | glob A c => trivial
    cases x with
    | error e => cases h
    | ok x =>
      obtain ⟨ph, d⟩ := x
      cases h
      exact balance_instances (e := f.runEnv env p) hrng hthr rfl rfl rfl (e1.symm.trans hia)
        (e2.symm.trans hen) (e3.symm.trans hes) hl hpos hnl hr

/-- **C69**. The whole workflow: a finder is made from a Flory-Huggins interaction `o` (symmetric, as
all of them are by C12), an ideal gas entropy, a canonical or grand canonical ensemble with positive
entries and global constraints or none; then any calls except `set_*` are made, raising or not.  Every
later run with positive arguments returns as many phases as compartments, all of positive volume and
fractions; the chemical potentials of every component in any two phases and the results of
`FloryHuggins(...).equilibration_error` for them are bounded by the reported errors. -/
theorem C69_workflow {env : FinderEnv G} (hrng : env.rng.Ok) (hcr : CrashKeeps env) (hcq : CrashQuiet env) {g : G} {C : ℕ}
    {o : FHInteraction C ℝ} (hs : ∀ i j, o.chis i j = o.chis j i) {gas : GasEntropy C}
    {ensemble : InstObj AnyEnsemble} {es : EnsembleInst C}
    {constraints : ConsArg} {a : FinderArgs} {f : Finder G}
    (h : Finder.create env g o.obj gas.obj ensemble constraints a = .ok f)
    (hes : ensemble.compiled a.kwargs = .ok ⟨C, es⟩) (hpos : PositiveEnsemble es)
    (hl : ∀ i, 0 < gas.sizes i)
    (hcs : ∀ o ∈ consObjs constraints, ∀ kw x, o.impl kw = .ok x → NonEmpty x.2 ∧ NoLocal x.2)
    (hthr : 0 ≤ a.killThreshold) (hthr1 : a.killThreshold < 1) (hb : 0 < a.JsStepUpperBound)
    (hthr2 : 2 * a.killThreshold * ((f.numPart : ℝ) - 1) < 1) (hcrit : a.criterion = "standard")
    {ops : List FinderOp} (hops : ∀ op ∈ ops, ¬ IsSet op) (ms : Option ℚ) (tol : Option ℝ)
    (int : Option ℤ) (hms : 0 < ms.getD a.maxSteps) (hint : 0 < int.getD a.interval) :
    ∃ (P : ℕ) (ph : Phases P C ℝ) (d : Diagnostics ℝ) (coef e : ℝ) (ep : Vec P ℝ) (ec : Vec C ℝ),
      ((Finder.steps env ops f).1.run env ms tol int).2 = .ok ⟨P, C, ph, d⟩ ∧
      P = f.numPart ∧ P ≠ 0 ∧
      coef = ∑ i, ∑ j, (o.chis i j
        + (-(⨅ q : Fin C × Fin C, o.chis q.1 q.2) + (a.kwargs.get? "additional_chis_shift").getD 1)) ∧
      (∀ p, a.killThreshold < ph.volumes p ∧ |∑ i, ph.fractions p i - 1| ≤ d.maxAbsIncomp ∧
        ∀ i, 0 < ph.fractions p i) ∧
      (∀ p q i, |chemPot o.chis gas.sizes (ph.fractions p) i
        - chemPot o.chis gas.sizes (ph.fractions q) i| ≤ errorBound C coef d) ∧
      (fhFree o.chis gas.sizes).equilibrationErrorAll (NDArr.ofMat ph.fractions) = .ok e ∧
      (fhFree o.chis gas.sizes).equilibrationErrorByPhase (NDArr.ofMat ph.fractions) =
        .ok (List.ofFn ep) ∧
      (fhFree o.chis gas.sizes).equilibrationErrorByComponent (NDArr.ofMat ph.fractions) = .ok ec ∧
      e ≤ Real.sqrt (P * C) * errorBound C coef d ∧
      (∀ p, ep p ≤ Real.sqrt C * errorBound C coef d) ∧
      ∀ i, ec i ≤ Real.sqrt P * errorBound C coef d := by
  have hC : C ≠ 0 := by
    rintro rfl
    obtain ⟨ia, en, es', h1, -⟩ := create_ok h
    rw [InstObj.compiled_eq] at h1
    simp [FHInteraction.obj] at h1
  obtain ⟨out, hout⟩ := (C34_histories hrng h
    (fun kw x hx => by
      cases hx
      exact ⟨⟨trivial, trivial⟩, Nat.one_le_iff_ne_zero.mpr hC⟩)
    (fun o ho kw x hx => (hcs o ho kw x hx).1) hthr hthr1 hb (ops := ops)
    (fun op hop => by
      have := hops op hop
      cases op <;> simp_all [WellMade, IsSet])
    (fun pre op post he hset => absurd hset (hops op (by rw [he]; simp)))).2 hcrit hthr2 ms tol int hms hint
  obtain ⟨ia, en, es', h1, h2, h3, -, h4, hc⟩ := create_ok h
  have : NeZero C := ⟨hC⟩
  have hia : ia = ⟨C, o.compile ((a.kwargs.get? "additional_chis_shift").getD 1)⟩ := by
    rw [InstObj.compiled_eq] at h1
    simp only [FHInteraction.obj, dif_neg hC, List.mem_singleton, if_true] at h1
    exact (Except.ok.inj h1).symm
  have hen : en = ⟨C, C, .ideal gas.compile⟩ := by
    rw [InstObj.compiled_eq] at h2
    exact (Except.ok.inj h2).symm
  have hes' : es' = ⟨C, es⟩ := Except.ok.inj (h3.symm.trans hes)
  have hak := akin_steps hcr f hops
  obtain ⟨P, C', ph, d⟩ := out
  have hf1 : (Finder.steps env ops f).1.interaction = f.interaction := by
    obtain ⟨_, _, _, _, _, _, _, _, e, -⟩ := hak; rw [e]
  have hf2 : (Finder.steps env ops f).1.entropy = f.entropy := by
    obtain ⟨_, _, _, _, _, _, _, _, e, -⟩ := hak; rw [e]
  have hf3 : (Finder.steps env ops f).1.ensemble = f.ensemble := by
    obtain ⟨_, _, _, _, _, _, _, _, e, -⟩ := hak; rw [e]
  have hf4 : (Finder.steps env ops f).1.params = f.params := by
    obtain ⟨_, _, _, _, _, _, _, _, e, -⟩ := hak; rw [e]
  have hf5 : (Finder.steps env ops f).1.numComp = f.numComp := by
    obtain ⟨_, _, _, _, _, _, _, _, e, -⟩ := hak; rw [e]
  have hf6 : (Finder.steps env ops f).1.numPart = f.numPart := by
    obtain ⟨_, _, _, _, _, _, _, _, e, -⟩ := hak; rw [e]
  have hf7 := hak.enforced
  set f' := (Finder.steps env ops f).1 with hf'
  rcases hr : f'.run env ms tol int with ⟨f'', res⟩
  rw [hr] at hout
  dsimp only at hout
  subst hout
  have hthr' : 0 ≤ f'.params.killThreshold := by rw [hf4, hc.params]; exact hthr
  have hCC : C' = C := by
    have := (C40_finder hrng hthr' (by rw [hf2, hc.entropy, hen]; exact ⟨trivial, trivial⟩) hr).2.1
    dsimp only at this
    rw [this, hf5, hc.numComp, hen]
  subst hCC
  have hnl : ∀ c ∈ enforced f', NoLocal c.2 := by
    intro c hc'
    rw [hf7, hc.enforced] at hc'
    obtain ⟨x, hx, rfl⟩ := List.mem_map.mp hc'
    rcases initConstraints_mem h4 hx with rfl | ⟨o', ho, y, hy, rfl⟩
    · rw [PackedCons.ofNew_enforces]; trivial
    · rw [PackedCons.ofNew_enforces]
      rw [InstObj.compiled_eq] at hy
      exact (hcs o' ho _ y hy).2
  obtain ⟨k1, k2, k3, k4⟩ := finder_run_balance hrng hthr' (out := ⟨P, C', ph, d⟩)
    (by rw [hf1, hc.interaction, hia]) (by rw [hf2, hc.entropy, hen]) (by rw [hf3, hc.ensemble, hes'])
    hl hpos hnl (quiet_steps hcq f hops (quiet_created h)) hr
  dsimp only at k1 k2 k3 k4
  have : NeZero P := ⟨k2⟩
  obtain ⟨e, ep, ec, q1, q2, q3, q4, -⟩ := C56_quantitative hs (l := gas.sizes) hl
    (X := ph.fractions) fun p i => (k3 p).2.2 i
  have hB : 0 ≤ errorBound C' (o.compile ((a.kwargs.get? "additional_chis_shift").getD 1)).coef d :=
    (abs_nonneg _).trans (k4 0 0 0)
  obtain ⟨r1, r2, r3⟩ := q4 _ k4 hB
  refine ⟨P, ph, d, _, e, ep, ec, rfl, k1.trans hf6, k2, ?_, ?_, k4, q1, q2, q3, r1, r2, r3⟩
  · have hmin : matMin o.chis = ⨅ q : Fin C' × Fin C', o.chis q.1 q.2 := by
      obtain ⟨i, j, hij⟩ := matMin_mem o.chis
      refine le_antisymm (le_ciInf fun q => matMin_le _ _ _) ?_
      rw [hij]
      exact ciInf_le (f := fun q : Fin C' × Fin C' => o.chis q.1 q.2)
        (Set.finite_range _).bddBelow (i, j)
    rw [← hmin]
    simp only [FHInteraction.compile, FHCompiled.new, Finset.sum_add_distrib, Finset.sum_const,
      Finset.card_univ, Fintype.card_fin, nsmul_eq_mul]
    ring
  · intro p
    have := k3 p
    rw [hf4, hc.params] at this
    exact this

-- Components of sizes 1 and 2 in three compartments, with a global constraint, after a run that stops
-- early, a reinitialization and a call that raises: ten more iterations give phases of this kind.
example : ∃ f, Finder.create Demo.fenv () Demo.fhPy.obj Demo.gasObj.obj Demo.canonicalObj.obj
      (.many [Demo.globObj.obj]) Demo.args = .ok f ∧
    ∃ (ph : Phases 3 2 ℝ) (d : Diagnostics ℝ) (e : ℝ),
      ((Finder.steps Demo.fenv [.run (some 5) none (some 1), .reinitRandom,
        .reinitOmegas ⟨[1], fun _ => 0⟩] f).1.run Demo.fenv (some 10) none none).2 =
          .ok ⟨3, 2, ph, d⟩ ∧
      (fhFree Demo.fhPy.chis ![1, 2]).equilibrationErrorAll (NDArr.ofMat ph.fractions) = .ok e ∧
      ∃ coef, e ≤ Real.sqrt (3 * 2) * errorBound 2 coef d := by
  obtain ⟨x, hx⟩ := Demo.fh_compiled Demo.args.kwargs
  obtain ⟨a', e', hg⟩ := Demo.glob_compiled Demo.args.kwargs
  have hcs : initConstraints (Finder.partNumber Demo.args.numPart 2) 2 Demo.args.kwargs
      (.many [Demo.globObj.obj]) = ([.ofNew ⟨2, .glob 1 ![![1, 0]] ![1 / 2] a' e'⟩], none) := by
    simp only [initConstraints, List.map_cons, List.map_nil, compileAll, hg]
  obtain ⟨-, -, -, h4⟩ := create_of_compiled (env := Demo.fenv) (g := ())
    (constraints := .many [Demo.globObj.obj]) hx
    (Demo.gas_compiled Demo.args.kwargs) (Demo.canonical_compiled Demo.args.kwargs) (by rw [hcs])
    (by norm_num [Demo.args])
  obtain ⟨f, hf, hc⟩ := h4 rfl rfl (by
    rw [hcs]
    intro c hc
    rcases List.mem_cons.mp hc with rfl | hc
    · rfl
    · simp at hc)
  have h3 : f.numPart = 3 := hc.numPart
  refine ⟨f, hf, ?_⟩
  obtain ⟨P, ph, d, coef, e, ep, ec, q1, q2, -, -, -, -, q3, -, -, q4, -⟩ :=
    C69_workflow (env := Demo.fenv) (gas := Demo.gasObj) (rngZero_ok ℝ) (fun _ _ _ _ => rfl) (fun _ _ _ _ h => h)
    (fun i j => by fin_cases i <;> fin_cases j <;> rfl) hf (Demo.canonical_compiled _)
    (fun i => by fin_cases i <;> norm_num)
    (fun i => by fin_cases i <;> norm_num [Demo.gasObj])
    (fun o ho kw x hx => by
      obtain rfl := List.mem_singleton.mp ho
      cases hx
      exact ⟨(Nat.one_ne_zero : (1 : ℕ) ≠ 0), trivial⟩)
    (by norm_num [Demo.args]) (by norm_num [Demo.args]) (by norm_num [Demo.args])
    (by rw [h3]; norm_num [Demo.args]) rfl
    (ops := [.run (some 5) none (some 1), .reinitRandom, .reinitOmegas ⟨[1], fun _ => 0⟩])
    (fun op hop => by
      simp only [List.mem_cons, List.not_mem_nil, or_false] at hop
      rcases hop with rfl | rfl | rfl <;> exact id)
    (some 10) none none (by norm_num) (by norm_num [Demo.args])
  obtain rfl : P = 3 := q2.trans h3
  exact ⟨ph, d, e, q1, q3, coef, by simpa using q4⟩

end Flory
