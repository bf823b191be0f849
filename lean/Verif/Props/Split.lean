import Verif.Lemmas.Split
import Verif.Props.Relabel

/-!
# C90: identical components can be taken together
-/

set_option linter.unusedSectionVars false

namespace Flory

open Spec

variable {G : Type} {C C' S M : ℕ} [NeZero M]

/-- The ensembles are both canonical with mean fractions `A` and `A'`, or both grand canonical with
scaled activities `A` and `A'`. -/
def SameEnsemble (es : EnsembleI C M ℝ) (es' : EnsembleI C' M ℝ) (A : Vec C ℝ) (A' : Vec C' ℝ) : Prop :=
  (es = (⟨A⟩ : CanonicalC C ℝ).toI M ∧ es' = (⟨A'⟩ : CanonicalC C' ℝ).toI M) ∨
  (es = (⟨A⟩ : GrandC C ℝ).toI M ∧ es' = (⟨A'⟩ : GrandC C' ℝ).toI M)

theorem SameEnsemble.splits {π : Fin C → Fin C'} (hπ : Function.Surjective π) {es : EnsembleI C M ℝ}
    {es' : EnsembleI C' M ℝ} {A : Vec C ℝ} {A' : Vec C' ℝ} (h : SameEnsemble es es' A A')
    (hA : ∀ j, A' j = ∑ i, if π i = j then A i else 0) : SplitsEnsemble π A A' es es' := by
  rcases h with ⟨rfl, rfl⟩ | ⟨rfl, rfl⟩
  · exact CanonicalC.splits hπ hA
  · exact GrandC.splits hA

/-- Two runs either both fail or both return, and then with the same diagnostics, volumes, fields,
constraints, feature fractions and generator; the fraction of a component in the second is the sum over
its parts in the first, and the parts share each phase in proportion to the amounts `A`. -/
def SameUpToSplit (π : Fin C → Fin C') (A : Vec C ℝ) (A' : Vec C' ℝ)
    (x : RunState C S M ℝ G × Py (Phases M C ℝ × Diagnostics ℝ))
    (x' : RunState C' S M ℝ G × Py (Phases M C' ℝ × Diagnostics ℝ)) : Prop :=
  ((∃ ph d, x.2 = .ok (ph, d)) ↔ ∃ ph d, x'.2 = .ok (ph, d)) ∧
  ∀ ph d ph' d', x.2 = .ok (ph, d) → x'.2 = .ok (ph', d') →
    d' = d ∧ ph'.volumes = ph.volumes ∧
    (∀ m j, ph'.fractions m j = ∑ i, if π i = j then ph.fractions m i else 0) ∧
    (∀ m i, ph.fractions m i * A' (π i) = A i * ph'.fractions m (π i)) ∧
    x'.1.st.omegas = x.1.st.omegas ∧ x'.1.st.Js = x.1.st.Js ∧ x'.1.st.cons = x.1.st.cons ∧
    x'.1.st.phisFeat = x.1.st.phisFeat ∧ x'.1.st.g = x.1.st.g ∧ x'.1.reviveLeft = x.1.reviveLeft

theorem sameUpToSplit {π : Fin C → Fin C'} {A : Vec C ℝ} {A' : Vec C' ℝ} {feat : Fin C → Fin S}
    {feat' : Fin C' → Fin S} {sizes : Vec C ℝ} {sizes' : Vec C' ℝ} {e : RunEnv C S M ℝ G}
    {e' : RunEnv C' S M ℝ G} (h : SplitEnv π A A' feat feat' sizes sizes' e e') (maxSteps : ℚ) (tol : ℝ)
    (interval : ℤ) {st : State C S M ℝ G} {st' : State C' S M ℝ G} (hs : SplitState st st') (b : ℤ) :
    SameUpToSplit π A A' (runImpl e maxSteps tol interval st b) (runImpl e' maxSteps tol interval st' b) := by
  have hr := runImpl_split h maxSteps tol interval hs b
  refine ⟨by simpa only [Prod.exists] using hr.ok_iff, fun ph d ph' d' h1 h2 => ?_⟩
  rw [h1] at hr
  obtain ⟨y, hy, hr⟩ := hr.of_ok
  obtain rfl : y = (ph', d') := Except.ok.inj (hy.symm.trans h2)
  exact ⟨hr.diagnostics, hr.volumes, fun m j => hr.parts.sum j m, fun m i => hr.parts.share i m,
    hr.state.omegas, hr.state.Js, hr.state.cons, hr.phisFeat, hr.state.g, hr.reviveLeft⟩

/-- **C90**. Let every component of a mixture with the polydispersed entropy be split into parts of the
same size and feature (`π i` is the component of part `i`), where the mean fractions (or the scaled
activities) of the parts of a component sum to its own.  Then a run of the mixture of parts, from the same
fields, volumes, constraints and generator, fails if and only if the run of the original one does, and
otherwise gives the same phases: the same volumes, errors, number of steps and fields, and fractions that
differ only in that each component is divided among its parts, in all phases in the same proportion.  This
includes killed, revived and copied compartments. -/
theorem C90_split {π : Fin C → Fin C'} (hπ : Function.Surjective π) {poly : PolyC C S}
    {poly' : PolyC C' S} {feat : Fin C → Fin S} {feat' : Fin C' → Fin S}
    (hC : C = ∑ r, poly.perFeat r) (hC' : C' = ∑ r, poly'.perFeat r) (hne : C ≠ 0)
    (hf : IsFeat poly.perFeat feat) (hf' : IsFeat poly'.perFeat feat')
    (h1 : ∀ r, 1 ≤ poly.perFeat r) (h1' : ∀ r, 1 ≤ poly'.perFeat r)
    (hsizes : ∀ i, poly.sizes i = poly'.sizes (π i)) (hfeat : ∀ i, feat i = feat' (π i))
    {A : Vec C ℝ} {A' : Vec C' ℝ} (hA : ∀ j, A' j = ∑ i, if π i = j then A i else 0)
    {e : RunEnv C S M ℝ G} {e' : RunEnv C' S M ℝ G} (hes : SameEnsemble e.es e'.es A A')
    (hen : e.en = poly.toI M) (hen' : e'.en = poly'.toI M) (hia : e'.ia = e.ia) (hrng : e'.rng = e.rng)
    (hp : e'.params = e.params) (hcr : e'.criterion = e.criterion) (maxSteps : ℚ) (tol : ℝ)
    (interval : ℤ) {st : State C S M ℝ G} {st' : State C' S M ℝ G} (hs : SplitState st st') (b : ℤ) :
    SameUpToSplit π A A' (runImpl e maxSteps tol interval st b) (runImpl e' maxSteps tol interval st' b) :=
  sameUpToSplit ⟨hπ, hne, hsizes, hfeat, hen ▸ poly.isIdealGas hC hf h1,
    hen' ▸ poly'.isIdealGas hC' hf' h1', hes.splits hπ hA, hia, hrng, hp, hcr⟩ maxSteps tol interval hs b

/-- **C90**, all parts of a feature are equal: the polydispersed entropy then gives the same phases as the
ideal gas with one component per feature. -/
theorem C90_ideal {poly : PolyC C S} {gas : IdealC S} {feat : Fin C → Fin S}
    (hC : C = ∑ r, poly.perFeat r) (hne : C ≠ 0) (hf : IsFeat poly.perFeat feat)
    (hsurj : Function.Surjective feat)
    (h1 : ∀ r, 1 ≤ poly.perFeat r) (hsizes : ∀ i, poly.sizes i = gas.sizes (feat i))
    {A : Vec C ℝ} {A' : Vec S ℝ} (hA : ∀ j, A' j = ∑ i, if feat i = j then A i else 0)
    {e : RunEnv C S M ℝ G} {e' : RunEnv S S M ℝ G} (hes : SameEnsemble e.es e'.es A A')
    (hen : e.en = poly.toI M) (hen' : e'.en = gas.toI M) (hia : e'.ia = e.ia) (hrng : e'.rng = e.rng)
    (hp : e'.params = e.params) (hcr : e'.criterion = e.criterion) (maxSteps : ℚ) (tol : ℝ)
    (interval : ℤ) {st : State C S M ℝ G} {st' : State S S M ℝ G} (hs : SplitState st st') (b : ℤ) :
    SameUpToSplit feat A A' (runImpl e maxSteps tol interval st b)
      (runImpl e' maxSteps tol interval st' b) :=
  sameUpToSplit ⟨hsurj, hne, hsizes, fun _ => rfl, hen ▸ poly.isIdealGas hC hf h1, hen' ▸ gas.isIdealGas,
    hes.splits hsurj hA, hia, hrng, hp, hcr⟩ maxSteps tol interval hs b

namespace Demo

/-- The demo mixture with the first component split into two parts. -/
noncomputable def splitEnv : RunEnv 3 2 3 ℝ Unit :=
  ⟨(mixture false).ia, (⟨![1, 1, 2], ![2, 1]⟩ : PolyC 3 2).toI 3,
    (⟨![1 / 12, 1 / 6, 3 / 4]⟩ : CanonicalC 3 ℝ).toI 3, rngZero ℝ, params, "standard", id⟩

end Demo

-- The split mixture also returns, and its first two components together are the first component of the
-- original mixture, in every phase one third to two thirds.
example : ∃ f ph d f' ph' d',
    runImpl Demo.splitEnv 100 (1 / 100000) 7 ⟨(Demo.evenState false).omegas, fun _ => 1, fun _ _ => 5,
      fun _ _ => 0, (Demo.evenState false).cons, ()⟩ 5 = (f, .ok (ph, d)) ∧
    runImpl (Demo.mixture false) 100 (1 / 100000) 7 (Demo.evenState false) 5 = (f', .ok (ph', d')) ∧
    ph'.volumes = ph.volumes ∧ (∀ m, ph'.fractions m 0 = ph.fractions m 0 + ph.fractions m 1) ∧
    ∀ m, ph.fractions m 1 = 2 * ph.fractions m 0 := by
  obtain ⟨f', ph', d', h'⟩ := Demo.run_even false 5
  have h := C90_ideal (poly := ⟨![1, 1, 2], ![2, 1]⟩) (gas := ⟨![1, 2]⟩) (feat := ![0, 0, 1])
    (e := Demo.splitEnv) (e' := Demo.mixture false) (A := ![1 / 12, 1 / 6, 3 / 4]) (A' := ![1 / 4, 3 / 4])
    (by simp) (by norm_num)
    (by intro i; fin_cases i <;> simp [offset])
    (by intro r; fin_cases r; exacts [⟨0, rfl⟩, ⟨2, rfl⟩])
    (by intro r; fin_cases r <;> simp) (by intro i; fin_cases i <;> simp)
    (by intro j; fin_cases j <;> (simp [Fin.sum_univ_three]; try norm_num))
    (.inl ⟨rfl, rfl⟩) rfl rfl rfl rfl rfl rfl 100 (1 / 100000) 7
    (st := ⟨(Demo.evenState false).omegas, fun _ => 1, fun _ _ => 5,
      fun _ _ => 0, (Demo.evenState false).cons, ()⟩) (st' := Demo.evenState false)
    ⟨rfl, rfl, rfl, rfl⟩ 5
  obtain ⟨ph, d, hok⟩ := h.1.mpr ⟨ph', d', congrArg Prod.snd h'⟩
  obtain ⟨h1, h2, h3, h4, -⟩ := h.2 ph d ph' d' hok (congrArg Prod.snd h')
  refine ⟨_, ph, d, f', ph', d', Prod.ext rfl hok, h', h2, fun m => ?_, fun m => ?_⟩
  · have := h3 m 0
    simpa [Fin.sum_univ_three] using this
  · have a := h4 m 0
    have b := h4 m 1
    simp at a b
    linarith

-- Splitting one of two components of a feature: the hypotheses of the general theorem.
example : ∃ (π : Fin 4 → Fin 3) (poly : PolyC 4 2) (poly' : PolyC 3 2) (feat : Fin 4 → Fin 2)
    (feat' : Fin 3 → Fin 2) (A : Vec 4 ℝ) (A' : Vec 3 ℝ), Function.Surjective π ∧
    4 = ∑ r, poly.perFeat r ∧ 3 = ∑ r, poly'.perFeat r ∧ IsFeat poly.perFeat feat ∧
    IsFeat poly'.perFeat feat' ∧ (∀ i, poly.sizes i = poly'.sizes (π i)) ∧
    (∀ i, feat i = feat' (π i)) ∧ ∀ j, A' j = ∑ i, if π i = j then A i else 0 := by
  refine ⟨![0, 1, 1, 2], ⟨![1, 5, 5, 2], ![3, 1]⟩, ⟨![1, 5, 2], ![2, 1]⟩, ![0, 0, 0, 1], ![0, 0, 1],
    ![1, 2, 3, 4], ![1, 5, 4], ?_, by simp, by simp, ?_, ?_, ?_, ?_, ?_⟩
  · intro j; fin_cases j; exacts [⟨0, rfl⟩, ⟨1, rfl⟩, ⟨3, rfl⟩]
  · intro i; fin_cases i <;> simp [offset]
  · intro i; fin_cases i <;> simp [offset]
  · intro i; fin_cases i <;> rfl
  · intro i; fin_cases i <;> rfl
  · intro j; fin_cases j <;> (simp [Fin.sum_univ_four]; try norm_num)

end Flory
