import Verif.Lemmas.Relabel
import Verif.Lemmas.Interaction
import Verif.Props.RunMean
import Mathlib.Logic.Equiv.Fin.Basic

/-! # Properties about labels of components and compartments -/

set_option linter.unusedSectionVars false

namespace Flory

open Spec

section Short

variable {G : Type} {C S M : ℕ} [NeZero M]
variable {e : RunEnv C S M ℝ G} {maxSteps : ℚ} {tol : ℝ} {interval : ℤ} {st : State C S M ℝ G} {b : ℤ}
  {f : RunState C S M ℝ G} {ph : Phases M C ℝ} {d : Diagnostics ℝ}

theorem Spec.Passes.near_count {tries : ℤ} {n : ℕ} {s : State C S M ℝ G} {t : Trace C S M ℝ G}
    (h : Passes e tries n 0 s t) (hb : 0 < e.params.JsStepUpperBound)
    (ha : 0 ≤ e.params.acceptanceJs) {x : ℝ} (hx : ∀ m, |s.Js m - 1| ≤ x)
    (hsum : ∑ m, s.Js m = (M : ℝ))
    (hlt : x + n * (2 * e.params.JsStepUpperBound) < 1 - e.params.killThreshold) :
    t.reviveCount = 0 := by
  have alive : ∀ (s : State C S M ℝ G) (y : ℝ), (∀ m, |s.Js m - 1| ≤ y) →
      y < 1 - e.params.killThreshold → ∀ m, e.params.killThreshold < s.Js m := by
    intro s y hy hl m
    have := (abs_le.mp (hy m)).1
    linarith
  generalize hz : 0 = count at h
  induction h with
  | @one count s t h =>
    simp only [Nat.cast_one, one_mul] at hlt
    rw [(iterate_facts h).reviveCount, reviveBlock_all_alive (alive _ _ hx (by linarith))]
  | @more n count s t t' h1 h2 ih =>
    push_cast at hlt
    have hl : x + n * (2 * e.params.JsStepUpperBound) < 1 - e.params.killThreshold := by linarith
    obtain ⟨n1, -⟩ := h1.near hb ha hx hsum hl
    rw [(iterate_facts h2).reviveCount, reviveBlock_all_alive (alive t.state _ n1 hl),
      ih hx hsum hl hz]

theorem Spec.Chain.near_count {inner : ℕ} {ts : List (Trace C S M ℝ G)} {s s₁ : State C S M ℝ G}
    {b b₁ : ℤ} (h : Chain e inner ts s b s₁ b₁) (hb : 0 < e.params.JsStepUpperBound)
    (ha : 0 ≤ e.params.acceptanceJs) {x : ℝ} (hx : ∀ m, |s.Js m - 1| ≤ x)
    (hsum : ∑ m, s.Js m = (M : ℝ))
    (hlt : x + (ts.length * inner : ℕ) * (2 * e.params.JsStepUpperBound)
      < 1 - e.params.killThreshold) : b₁ = b := by
  induction h generalizing x with
  | nil => rfl
  | @cons ts s s₁ b b₁ t h1 h2 ih =>
    have e1 : (((t :: ts).length * inner : ℕ) : ℝ) = inner + (ts.length * inner : ℕ) := by
      push_cast [List.length_cons]; ring
    rw [e1, add_mul] at hlt
    have hnn : (0 : ℝ) ≤ (ts.length * inner : ℕ) * (2 * e.params.JsStepUpperBound) := by positivity
    obtain ⟨n1, n2, -, -⟩ := h1.near hb ha hx hsum (by linarith)
    have hz := h1.near_count hb ha hx hsum (by linarith)
    have := ih n1 n2 (by linarith)
    rw [this, hz]
    simp

/-- Runs from equal volumes that are too short for any compartment to die: no revival takes place and
all compartments live at the end. -/
theorem short_run (hthr : 0 ≤ e.params.killThreshold)
    (hb : 0 < e.params.JsStepUpperBound) (hacc : 0 ≤ e.params.acceptanceJs)
    (h1 : 0 < maxSteps) (h2 : 0 < interval) (hst : ∀ m, st.Js m = 1)
    (hshort : (⌈maxSteps⌉ : ℝ) * (2 * e.params.JsStepUpperBound) < 1 - e.params.killThreshold)
    (h : runImpl e maxSteps tol interval st b = (f, .ok (ph, d))) :
    d.reviveCountLeft = b ∧ ∀ m, e.params.killThreshold < f.st.Js m := by
  obtain ⟨tracker, inner, ts, t, c, ht, hi, hf⟩ := run_facts hthr h
  obtain ⟨k, hk, hk1, hk2⟩ := stepsTracker_pos h1 h2
  obtain ⟨inner', hi1, hi2, hi3, hi4, hi5⟩ := stepsInner_spec h1 h2 hk hk2
  have e1 : tracker = k := Except.ok.inj (ht.symm.trans hk1)
  subst e1
  have e2 : inner = inner' := Except.ok.inj (hi.symm.trans hi1)
  subst e2
  have hcount := hf.count
  rw [Int.toNat_natCast] at hcount
  have htot : (((ts.length + 1) * inner : ℕ) : ℝ) ≤ (⌈maxSteps⌉ : ℝ) := by
    have : (((ts.length + 1) * inner : ℕ) : ℤ) ≤ ⌈maxSteps⌉ :=
      le_trans (by exact_mod_cast Nat.mul_le_mul_right inner hcount) hi4
    exact_mod_cast this
  have hlt : (0 : ℝ) + ((ts ++ [t]).length * inner : ℕ) * (2 * e.params.JsStepUpperBound)
      < 1 - e.params.killThreshold := by
    rw [zero_add, List.length_append, List.length_singleton]
    exact lt_of_le_of_lt (mul_le_mul_of_nonneg_right htot (by linarith)) hshort
  have hx0 : ∀ m, |st.Js m - 1| ≤ 0 := fun m => by rw [hst]; simp
  have hsum0 : ∑ m, st.Js m = (M : ℝ) := by simp [hst]
  refine ⟨?_, fun m => ?_⟩
  · rw [hf.diag]
    exact hf.chain.near_count hb hacc hx0 hsum0 hlt
  · obtain ⟨n1, -⟩ := hf.chain.near hb hacc hx0 hsum0 hlt
    rw [hf.arrays]
    have := (abs_le.mp (n1 m)).1
    show e.params.killThreshold < t.state.Js m
    linarith

end Short

section Relabel

variable {G : Type} {C S M : ℕ} [NeZero M]
variable {ρ : Fin C ≃ Fin C} {σ : Fin S ≃ Fin S} {τ : Fin M ≃ Fin M}

/-- Compiling a relabelled interaction gives the relabelled compiled interaction, with the same
coefficient. -/
theorem FHInteraction.compile_relabel [NeZero C] {o o' : FHInteraction C ℝ}
    (h : ∀ i j, o'.chis i j = o.chis (ρ i) (ρ j)) (x : ℝ) :
    (∀ i j, (o'.compile x).chis i j = (o.compile x).chis (ρ i) (ρ j)) ∧
      (o'.compile x).coef = (o.compile x).coef := by
  refine ⟨h, ?_⟩
  have hmin : matMin o'.chis = matMin o.chis := by
    refine le_antisymm ?_ ?_
    · obtain ⟨r, s, hrs⟩ := matMin_mem o.chis
      rw [hrs]
      have := matMin_le o'.chis (ρ.symm r) (ρ.symm s)
      rw [h] at this
      simpa using this
    · obtain ⟨r, s, hrs⟩ := matMin_mem o'.chis
      rw [hrs, h]
      exact matMin_le _ _ _
  have hsum : ∑ r, ∑ s, o'.chis r s = ∑ r, ∑ s, o.chis r s := by
    rw [← Equiv.sum_comp ρ fun r => ∑ s, o.chis r s]
    refine Finset.sum_congr rfl fun r _ => ?_
    rw [← Equiv.sum_comp ρ fun s => o.chis (ρ r) s]
    exact Finset.sum_congr rfl fun s _ => h r s
  show (∑ r, ∑ s, o'.chis r s) + (-matMin o'.chis + x) * C * C = _
  rw [hmin, hsum]
  rfl

/-- **C47**, canonical ensemble.  Two finders whose interactions, sizes, mean fractions, initial fields
and constraints differ only by the labels `ρ` of the components return, if the first run does not
revive and ends without dead compartments, the same volumes and diagnostics, and the same fractions up
to the labels.  Nothing is assumed about the generators. -/
theorem C47_component_relabelling [NeZero C] {e e' : RunEnv C C M ℝ G} {o o' : FHInteraction C ℝ}
    {shift : ℝ} {gas gas' : IdealC C} {can can' : CanonicalC C ℝ}
    (hchis : ∀ i j, o'.chis i j = o.chis (ρ i) (ρ j)) (hsizes : ∀ i, gas'.sizes i = gas.sizes (ρ i))
    (hphi : ∀ i, can'.phiMeans i = can.phiMeans (ρ i))
    (hia : e.ia = (o.compile shift).toI M) (hia' : e'.ia = (o'.compile shift).toI M)
    (hen : e.en = gas.toI M) (hen' : e'.en = gas'.toI M)
    (hes : e.es = can.toI M) (hes' : e'.es = can'.toI M) (hp : e'.params = e.params)
    (hok : e.rng.Ok) (hthr : 0 ≤ e.params.killThreshold)
    {maxSteps : ℚ} {tol : ℝ} {interval b : ℤ} {st st' : State C C M ℝ G} {f f' : RunState C C M ℝ G}
    {ph ph' : Phases M C ℝ} {d d' : Diagnostics ℝ} (hs : RelState ρ (Equiv.refl _) st st')
    (h : runImpl e maxSteps tol interval st b = (f, .ok (ph, d)))
    (h' : runImpl e' maxSteps tol interval st' b = (f', .ok (ph', d')))
    (hrev : d.reviveCountLeft = b) (halive : ∀ m, e.params.killThreshold < f.st.Js m) :
    d' = d ∧ ph'.volumes = ph.volumes ∧ (∀ m i, ph'.fractions m i = ph.fractions m (ρ i)) ∧
      RelState ρ (Equiv.refl _) f.st f'.st := by
  have hx : RelMixture (o.compile shift) (o'.compile shift) gas.sizes gas'.sizes id id
      (fun Qs i => can.phiMeans i / Qs i) (fun Qs i => can'.phiMeans i / Qs i) ρ ρ :=
    ⟨(FHInteraction.compile_relabel hchis shift).1, (FHInteraction.compile_relabel hchis shift).2,
      hsizes, fun _ => rfl, fun Q Q' hQ i => by simp only [hphi, hQ]⟩
  obtain ⟨h1, h2, h3, h4⟩ := relabel_run (e := e) (e' := e') ⟨hx, hia, hia', hen ▸ gas.isIdealGas,
    hen' ▸ gas'.isIdealGas, hes ▸ can.scales, hes' ▸ can'.scales, hp, hok⟩ hthr hs h h' hrev halive
  exact ⟨h1, funext h2, h3, h4⟩

/-- **C47**, grand canonical ensemble. -/
theorem C47_component_relabelling_grand [NeZero C] {e e' : RunEnv C C M ℝ G}
    {o o' : FHInteraction C ℝ} {shift : ℝ} {gas gas' : IdealC C} {gc gc' : GrandC C ℝ}
    (hchis : ∀ i j, o'.chis i j = o.chis (ρ i) (ρ j)) (hsizes : ∀ i, gas'.sizes i = gas.sizes (ρ i))
    (hact : ∀ i, gc'.scaledActivity i = gc.scaledActivity (ρ i))
    (hia : e.ia = (o.compile shift).toI M) (hia' : e'.ia = (o'.compile shift).toI M)
    (hen : e.en = gas.toI M) (hen' : e'.en = gas'.toI M)
    (hes : e.es = gc.toI M) (hes' : e'.es = gc'.toI M) (hp : e'.params = e.params)
    (hok : e.rng.Ok) (hthr : 0 ≤ e.params.killThreshold)
    {maxSteps : ℚ} {tol : ℝ} {interval b : ℤ} {st st' : State C C M ℝ G} {f f' : RunState C C M ℝ G}
    {ph ph' : Phases M C ℝ} {d d' : Diagnostics ℝ} (hs : RelState ρ (Equiv.refl _) st st')
    (h : runImpl e maxSteps tol interval st b = (f, .ok (ph, d)))
    (h' : runImpl e' maxSteps tol interval st' b = (f', .ok (ph', d')))
    (hrev : d.reviveCountLeft = b) (halive : ∀ m, e.params.killThreshold < f.st.Js m) :
    d' = d ∧ ph'.volumes = ph.volumes ∧ (∀ m i, ph'.fractions m i = ph.fractions m (ρ i)) ∧
      RelState ρ (Equiv.refl _) f.st f'.st := by
  have hx : RelMixture (o.compile shift) (o'.compile shift) gas.sizes gas'.sizes id id
      (fun _ i => gc.scaledActivity i) (fun _ i => gc'.scaledActivity i) ρ ρ :=
    ⟨(FHInteraction.compile_relabel hchis shift).1, (FHInteraction.compile_relabel hchis shift).2,
      hsizes, fun _ => rfl, fun Q Q' hQ i => by simp only [hact]⟩
  obtain ⟨h1, h2, h3, h4⟩ := relabel_run (e := e) (e' := e') ⟨hx, hia, hia', hen ▸ gas.isIdealGas,
    hen' ▸ gas'.isIdealGas, hes ▸ gc.scales, hes' ▸ gc'.scales, hp, hok⟩ hthr hs h h' hrev halive
  exact ⟨h1, funext h2, h3, h4⟩

/-- **C48**. Two runs of a finder whose initial states differ only by the labels `τ` of the
compartments return, if the first run does not revive and ends without dead compartments, the same
diagnostics, and the same phases up to the labels.  `e'` may use another generator. -/
theorem C48_compartment_relabelling {e e' : RunEnv C S M ℝ G} {ia : FHCompiled S ℝ}
    {sizes : Vec C ℝ} {feat : Fin C → Fin S} {a : Vec C ℝ → Vec C ℝ}
    (hia : e.ia = ia.toI M) (hen : IsIdealGas e.en sizes feat) (hes : Scales e.es a)
    (hia' : e'.ia = e.ia) (hen' : e'.en = e.en) (hes' : e'.es = e.es) (hp : e'.params = e.params)
    (hok : e.rng.Ok) (hthr : 0 ≤ e.params.killThreshold)
    {maxSteps : ℚ} {tol : ℝ} {interval b : ℤ} {st st' : State C S M ℝ G} {f f' : RunState C S M ℝ G}
    {ph ph' : Phases M C ℝ} {d d' : Diagnostics ℝ} (hs : RelState (Equiv.refl _) τ st st')
    (h : runImpl e maxSteps tol interval st b = (f, .ok (ph, d)))
    (h' : runImpl e' maxSteps tol interval st' b = (f', .ok (ph', d')))
    (hrev : d.reviveCountLeft = b) (halive : ∀ m, e.params.killThreshold < f.st.Js m) :
    d' = d ∧ (∀ m, ph'.volumes m = ph.volumes (τ m)) ∧
      (∀ m, ph'.fractions m = ph.fractions (τ m)) ∧ RelState (Equiv.refl _) τ f.st f'.st := by
  have hx : RelMixture ia ia sizes sizes feat feat a a (Equiv.refl _) (Equiv.refl _) :=
    ⟨fun _ _ => rfl, rfl, fun _ => rfl, fun _ => rfl, fun Q Q' hQ i => by
      rw [show Q' = Q from funext hQ]; rfl⟩
  obtain ⟨h1, h2, h3, h4⟩ := relabel_run (e := e) (e' := e') ⟨hx, hia, hia'.trans hia, hen,
    by rw [hen']; exact hen, hes, by rw [hes']; exact hes, hp, hok⟩ hthr hs h h' hrev halive
  exact ⟨h1, h2, fun m => funext (h3 m), h4⟩

/-- **C47** and **C48** for single passes and any sequence of passes, including dead compartments, as
long as no revival takes place; both relabellings at once. -/
theorem C47_passes {e e' : RunEnv C S M ℝ G} {ia ia' : FHCompiled S ℝ} {sizes sizes' : Vec C ℝ}
    {feat feat' : Fin C → Fin S} {a a' : Vec C ℝ → Vec C ℝ}
    (hr : RelEnv e e' ρ σ ia ia' sizes sizes' feat feat' a a')
    {b : ℤ} {n count : ℕ} {s s' : State C S M ℝ G} {t t' : Trace C S M ℝ G}
    (h : Passes e b n count s t) (h' : Passes e' b n count s' t')
    (hs : RelState σ τ s s') (hc : t.reviveCount = count) :
    SameResult ρ σ τ t t' ∧ t'.reviveCount = count := h.relabel hr h' hs hc

end Relabel

namespace Demo

/-- The demo interaction before compilation. -/
def fhObj : FHInteraction 2 ℝ := ⟨chis, false⟩

/-- A mixture of sizes 1 and 2 or, with `flip`, 2 and 1; mean fractions 1/4 and 3/4. -/
noncomputable def mixture (flip : Bool) : RunEnv 2 2 3 ℝ Unit :=
  ⟨(fhObj.compile 1).toI 3,
    (⟨if flip then ![2, 1] else ![1, 2]⟩ : IdealC 2).toI 3,
    (⟨if flip then ![3 / 4, 1 / 4] else ![1 / 4, 3 / 4]⟩ : CanonicalC 2 ℝ).toI 3,
    rngZero ℝ, params, "standard", id⟩

/-- Volumes one, different fields, a local and a global constraint. -/
noncomputable def evenState (flip : Bool) : State 2 2 3 ℝ Unit where
  omegas := if flip then ![![-1, 1, 0], ![1, -1, 5]] else ![![1, -1, 5], ![-1, 1, 0]]
  Js := fun _ => 1
  phisComp := fun _ _ => 0
  phisFeat := fun _ _ => 0
  cons := if flip then
      [.loc 1 (LocalC.new ![![-1, 1]] ![0] 1 1), .glob 1 (GlobalC.new ![![0, 1]] ![1 / 2] 1 1)]
    else [.loc 1 (LocalC.new ![![1, -1]] ![0] 1 1), .glob 1 (GlobalC.new ![![1, 0]] ![1 / 2] 1 1)]
  g := ()

theorem run_even (flip : Bool) (b : ℤ) :
    ∃ f ph d, runImpl (mixture flip) 100 (1 / 100000) 7 (evenState flip) b = (f, .ok (ph, d)) :=
  run_ok (e := mixture flip) (rngZero_ok ℝ) (IdealC.isIdealGas _) (CanonicalC.total _)
    (by simp [mixture, params]) (by simp [mixture, params]) (by simp [mixture, params])
    (by simp [mixture, params]) rfl (by norm_num) (by norm_num) _ b
    (by cases flip <;> simp [evenState, Cons.Proper])
    (Or.inl ⟨0, by simp [mixture, params, evenState]⟩)

end Demo

-- C47: exchanging the two components.  Both runs succeed (100 steps, checks every 7).
example : ∃ f ph d f' ph' d',
    runImpl (Demo.mixture false) 100 (1 / 100000) 7 (Demo.evenState false) 5 = (f, .ok (ph, d)) ∧
    runImpl (Demo.mixture true) 100 (1 / 100000) 7 (Demo.evenState true) 5 = (f', .ok (ph', d')) ∧
    d' = d ∧ ph'.volumes = ph.volumes ∧
    ∀ m i, ph'.fractions m i = ph.fractions m (Equiv.swap (0 : Fin 2) 1 i) := by
  obtain ⟨f, ph, d, h⟩ := Demo.run_even false 5
  obtain ⟨f', ph', d', h'⟩ := Demo.run_even true 5
  have hshort := short_run (e := Demo.mixture false) (by simp [Demo.mixture, Demo.params])
    (by simp [Demo.mixture, Demo.params]) (by norm_num [Demo.mixture, Demo.params])
    (by norm_num) (by norm_num) (by simp [Demo.evenState])
    (by norm_num [Demo.mixture, Demo.params]) h
  have := C47_component_relabelling (ρ := Equiv.swap (0 : Fin 2) 1)
    (e := Demo.mixture false) (e' := Demo.mixture true) (o := Demo.fhObj) (o' := Demo.fhObj)
    (shift := 1) (gas := ⟨![1, 2]⟩) (gas' := ⟨![2, 1]⟩) (can := ⟨![1 / 4, 3 / 4]⟩)
    (can' := ⟨![3 / 4, 1 / 4]⟩)
    (by intro i j; fin_cases i <;> fin_cases j <;> simp [Demo.fhObj, Demo.chis])
    (by intro i; fin_cases i <;> simp) (by intro i; fin_cases i <;> simp)
    rfl rfl rfl rfl rfl rfl rfl (rngZero_ok ℝ) (by simp [Demo.mixture, Demo.params])
    (st := Demo.evenState false) (st' := Demo.evenState true)
    ⟨by intro r m; fin_cases r <;> fin_cases m <;> simp [Demo.evenState], by simp [Demo.evenState],
      by
        simp only [Demo.evenState, if_true, Bool.false_eq_true, if_false]
        refine .cons (.loc ?_ rfl rfl rfl ?_ ?_ ?_ ?_) (.cons (.glob ?_ rfl rfl rfl rfl rfl ?_ ?_) .nil)
        · intro a r; fin_cases a; fin_cases r <;> simp [LocalC.new]
        · intro a m; rfl
        · intro a m; rfl
        · intro r m; rfl
        · intro m; rfl
        · intro a r; fin_cases a; fin_cases r <;> simp [GlobalC.new]
        · intro r m; rfl
        · intro m; rfl⟩ h h' hshort.1 hshort.2
  exact ⟨f, ph, d, f', ph', d', h, h', this.1, this.2.1, this.2.2.1⟩

-- C48: exchanging the first and the last compartment.
example : ∃ f ph d f' ph' d',
    runImpl (Demo.mixture false) 100 (1 / 100000) 7 (Demo.evenState false) 5 = (f, .ok (ph, d)) ∧
    runImpl (Demo.mixture false) 100 (1 / 100000) 7 { Demo.evenState false with
      omegas := fun r m => (Demo.evenState false).omegas r (Equiv.swap (0 : Fin 3) 2 m) } 5 =
        (f', .ok (ph', d')) ∧ d' = d ∧ ∀ m, ph'.fractions m = ph.fractions (Equiv.swap (0 : Fin 3) 2 m) := by
  obtain ⟨f, ph, d, h⟩ := Demo.run_even false 5
  obtain ⟨f', ph', d', h'⟩ := run_ok (e := Demo.mixture false) (maxSteps := 100) (interval := 7)
    (tol := 1 / 100000) (rngZero_ok ℝ) (IdealC.isIdealGas _) (CanonicalC.total _)
    (by simp [Demo.mixture, Demo.params]) (by simp [Demo.mixture, Demo.params])
    (by simp [Demo.mixture, Demo.params]) (by simp [Demo.mixture, Demo.params]) rfl (by norm_num)
    (by norm_num) { Demo.evenState false with
      omegas := fun r m => (Demo.evenState false).omegas r (Equiv.swap (0 : Fin 3) 2 m) } 5
    (by simp [Demo.evenState, Cons.Proper])
    (Or.inl ⟨0, by simp [Demo.mixture, Demo.params, Demo.evenState]⟩)
  have hshort := short_run (e := Demo.mixture false) (by simp [Demo.mixture, Demo.params])
    (by simp [Demo.mixture, Demo.params]) (by norm_num [Demo.mixture, Demo.params])
    (by norm_num) (by norm_num) (by simp [Demo.evenState])
    (by norm_num [Demo.mixture, Demo.params]) h
  have := C48_compartment_relabelling (τ := Equiv.swap (0 : Fin 3) 2)
    (e := Demo.mixture false) (e' := Demo.mixture false) (ia := Demo.fhObj.compile 1)
    (st := Demo.evenState false) rfl (IdealC.isIdealGas _) (CanonicalC.scales _) rfl rfl rfl rfl
    (rngZero_ok ℝ) (by simp [Demo.mixture, Demo.params])
    ⟨fun _ _ => rfl, fun _ => rfl, by
        simp only [Demo.evenState, Bool.false_eq_true, if_false]
        exact .cons (.loc (fun _ _ => rfl) rfl rfl rfl (fun _ _ => rfl) (fun _ _ => rfl)
          (fun _ _ => rfl) fun _ => rfl) (.cons (.glob (fun _ _ => rfl) rfl rfl rfl rfl rfl
          (fun _ _ => rfl) fun _ => rfl) .nil)⟩ h h' hshort.1 hshort.2
  exact ⟨f, ph, d, f', ph', d', h, h', this.1, this.2.2.1⟩

end Flory
