import Verif.Model.GenObjects
import Verif.Lemmas.TranscriptStep
import Verif.Lemmas.TranscriptCopy
import Verif.Lemmas.Compartments
import Verif.Lemmas.FinderHistory
import Verif.Props.Scheme

/-!
# The transcribed code (C102)

`Verif/Gen/` is written by `tools/transcribe.py` from the Python text.  The theorems of this file say
that the transcribed functions compute what the model computes, including exceptions, so that every
theorem about the model is a theorem about the transcribed text.  Some are stated for it directly.
-/

set_option linter.unusedSectionVars false

namespace Flory

open Spec

section Methods
variable {K : Type} [Field K] [LinearOrder K] [IsStrictOrderedRing K] [FloorRing K]
  {A S M C : ℕ} [NeZero M]

/-- **C102**, constraints: the transcribed methods of the three constraint classes are the methods of
the model. -/
theorem C102_constraints :
    (∀ c : LocalC A S M K, Gen.LocalC.initialize c = c.reset ∧
      (∀ p J m, Gen.LocalC.prepare c p J m = c.prepare p J m) ∧
      ∀ x m, Gen.LocalC.evolve c x m = c.evolve x m) ∧
    (∀ c : GlobalC A S M K, Gen.GlobalC.initialize c = c.reset ∧
      (∀ p J m, Gen.GlobalC.prepare c p J m = c.prepare p J m) ∧
      ∀ x m, Gen.GlobalC.evolve c x m = c.evolve x m) ∧
    (∀ c : NoC S M K, Gen.NoC.initialize c = c.reset ∧
      (∀ p J m, Gen.NoC.prepare c p J m = c.prepare p J m) ∧
      ∀ x m, .ok (Gen.NoC.evolve c x m, c) = c.evolve x m) :=
  ⟨fun _ => ⟨rfl, fun _ _ _ => rfl, fun _ _ => rfl⟩, fun _ => ⟨rfl, fun _ _ _ => rfl, fun _ _ => rfl⟩,
    fun _ => ⟨rfl, fun _ _ _ => rfl, fun _ _ => rfl⟩⟩

/-- **C102**, interaction and ensembles: the objects with transcribed methods are those of the model,
also when they are built by the transcribed constructors. -/
theorem C102_interaction_and_ensembles :
    (∀ c : FHCompiled S K, Gen.FHCompiled.obj c M = c.toI M) ∧
    (∀ (chis : Mat S S K) (x : K), Gen.FHCompiled.init chis x = FHCompiled.new chis x) ∧
    (∀ e : CanonicalC C K, Gen.CanonicalC.obj e M = e.toI M) ∧
    (∀ v : Vec C K, Gen.CanonicalC.init v = ⟨v⟩) ∧
    (∀ e : GrandC C K, Gen.GrandC.obj e M = e.toI M) ∧
    (∀ v : Vec C K, Gen.GrandC.init v = ⟨v⟩) := by
  refine ⟨fun _ => rfl, fun _ _ => rfl, fun e => ?_, fun _ => rfl, fun _ => rfl, fun _ => rfl⟩
  unfold Gen.CanonicalC.obj CanonicalC.toI
  congr 1
  funext p Q m
  exact canonical_transcript e p Q m

/-- **C102**, compartments: counting, masks and random revival. -/
theorem C102_compartments {G : Type} (J : Vec M K) (t : K) :
    Gen.count_valid_compartments J t = (Fintype.card {m // t < J m} : ℤ) ∧
    (∀ m, Gen.make_valid_compartment_masks J t m = if t < J m then 1 else 0) ∧
    ∀ (rng : Rng G K) (o : Mat S M K) (x : K) (g : G),
      Gen.revive_compartments_by_random J o t rng x g = (reviveByRandom rng J o t x g).tuple := by
  refine ⟨?_, fun m => ?_, fun rng o x g => revive_transcript rng J o t x g⟩
  · rw [count_transcript, countValid_eq, Fintype.card_subtype]
  · exact makeMasks_eq J t m

/-- **C102**, copying: for every threshold the transcribed `revive_compartments_by_copy`, whose inner loop
is `while True`, ends, and does what the model does or raises the same exception. -/
theorem C102_copy {G : Type} {rng : Rng G K} (hok : rng.Ok) (J : Vec M K) (T : Mat S M K) (thr : K)
    (g : G) : Gen.revive_compartments_by_copy J T thr rng g =
      (reviveByCopy rng J T thr g).map fun s => ((s.count : ℤ), s.Js, s.targets, s.g) :=
  copy_transcript hok J T thr g

/-- **C102**, what copying does: with a non-negative threshold the transcribed function raises
`ValueError` or leaves every compartment alive, every column a copy of the column of a compartment that
was alive, living columns untouched, and every weighted total of the columns as it was for the living. -/
theorem C102_copy_result {G : Type} {rng : Rng G K} (hok : rng.Ok) (J : Vec M K) (T : Mat S M K)
    {thr : K} (hthr : 0 ≤ thr) (g : G) :
    (Gen.revive_compartments_by_copy J T thr rng g = .error .valueError ∧ ∃ d, J d ≤ thr) ∨
    ∃ J' T' g', Gen.revive_compartments_by_copy J T thr rng g =
        .ok ((Fintype.card {m // J m ≤ thr} : ℤ), J', T', g') ∧
      (∀ m, thr < J' m) ∧ (∀ m, ∃ k, thr < J k ∧ ∀ r, T' r m = T r k) ∧
      (∀ m, thr < J m → J' m ≤ J m ∧ ∀ r, T' r m = T r m) ∧
      ∀ w : (Fin S → K) → K, ∑ m, J' m * w (fun r => T' r m) =
        ∑ m with thr < J m, J m * w (fun r => T r m) := by
  rw [C102_copy hok]
  rcases reviveByCopy_spec hok J T hthr g with ⟨h, -, -, -, -, d, hd, -⟩ | ⟨s, h, hi⟩
  · exact Or.inl ⟨by rw [h]; rfl, d, hd⟩
  · refine Or.inr ⟨s.Js, s.targets, s.g, ?_, fun m => hi.above m (Finset.mem_univ m),
      fun m => hi.src m (Finset.mem_univ m), fun m hm => ⟨hi.shrink m hm, hi.keep m hm⟩,
      fun w => hi.conserve w⟩
    rw [h]
    have hc := hi.count
    have hsum := Finset.card_filter_add_card_filter_not (s := (Finset.univ : Finset (Fin M)))
      (fun m => thr < J m)
    simp only [not_lt] at hsum
    have : s.count = Fintype.card {m // J m ≤ thr} := by
      rw [Fintype.card_subtype]; omega
    rw [← this]
    rfl

/-- Three compartments, the second dead: one is revived, and the total volume stays. -/
example : ∃ J' T', Gen.revive_compartments_by_copy (![2, 0, 1] : Vec 3 ℚ) (![![1, 2, 3]] : Mat 1 3 ℚ) 0
    (rngZero ℚ) () = .ok (1, J', T', ()) ∧ ∑ m, J' m = 3 ∧ T' 0 2 = 3 := by
  rcases C102_copy_result (rngZero_ok ℚ) (![2, 0, 1] : Vec 3 ℚ) (![![1, 2, 3]] : Mat 1 3 ℚ) le_rfl ()
    with ⟨h, -⟩ | ⟨J', T', g', h, -, -, h3, h4⟩
  · obtain ⟨s, hs⟩ := C33_copy_revival_default (rngZero_ok ℚ) (![2, 0, 1] : Vec 3 ℚ)
      (![![1, 2, 3]] : Mat 1 3 ℚ) () ⟨0, by norm_num⟩
    rw [C102_copy (rngZero_ok ℚ), hs] at h
    cases h
  · have hcard : Fintype.card {m : Fin 3 // (![2, 0, 1] : Vec 3 ℚ) m ≤ 0} = 1 := by
      rw [Fintype.card_subtype]
      decide
    rw [hcard] at h
    have e2 : (![2, 0, 1] : Vec 3 ℚ) 2 = 1 := rfl
    refine ⟨J', T', h, ?_, (h3 2 (by rw [e2]; exact one_pos)).2 0⟩
    have := h4 fun _ => 1
    simp only [mul_one] at this
    rw [this, Finset.sum_filter, Fin.sum_univ_three, e2]
    norm_num

/-- One compartment alive and one dead, but the threshold is too high to halve: `ValueError`. -/
example : Gen.revive_compartments_by_copy (![3 / 2, 0] : Vec 2 ℚ) (![![1, 2]] : Mat 1 2 ℚ) 1
    (rngZero ℚ) () = .error .valueError := by
  rcases C102_copy_result (rngZero_ok ℚ) (![3 / 2, 0] : Vec 2 ℚ) (![![1, 2]] : Mat 1 2 ℚ) zero_le_one ()
    with ⟨h, -⟩ | ⟨J', T', g', h, h1, -, -, h4⟩
  · exact h
  · have := h4 fun _ => 1
    simp only [mul_one, Finset.sum_filter, Fin.sum_univ_two] at this
    have a := h1 0
    have b := h1 1
    norm_num at this
    linarith

end Methods

section Entropy
variable {C S M : ℕ} [NeZero M]

/-- **C102**, entropies: the objects with transcribed methods are those of the model. -/
theorem C102_entropies :
    (∀ e : IdealC C, Gen.IdealC.obj e M = e.toI M) ∧ (∀ v : Vec C ℝ, Gen.IdealC.init v = ⟨v⟩) ∧
    (∀ e : PolyC C S, Gen.PolyC.obj e M = e.toI M) ∧
    (∀ (v : Vec C ℝ) (n : Vec S ℕ), Gen.PolyC.init v n = ⟨v, n⟩) ∧
    (∀ e : EntropyInst C S, Gen.entropyObj M e = e.toI M) ∧
    (∀ e : EnsembleInst C, Gen.ensembleObj M e = e.toI M) := by
  have h1 : ∀ e : IdealC C, Gen.IdealC.obj e M = e.toI M := fun e => by
    unfold Gen.IdealC.obj IdealC.toI
    congr 1
    funext p o J
    exact ideal_partition_transcript e p o J
  have h2 : ∀ e : PolyC C S, Gen.PolyC.obj e M = e.toI M := fun e => by
    unfold Gen.PolyC.obj PolyC.toI
    congr 1
    · funext p o J
      exact poly_partition_transcript e p o J
    · funext f p
      exact poly_compToFeat_transcript e f p
  refine ⟨h1, fun _ => rfl, h2, fun _ _ => rfl, fun e => ?_, fun e => ?_⟩
  · cases e with
    | ideal e => exact h1 e
    | poly e => exact h2 e
  · cases e with
    | canonical e =>
      exact C102_interaction_and_ensembles (S := 0) |>.2.2.1 e
    | grand e => rfl

end Entropy

section Loop
variable {K G : Type} [Field K] [LinearOrder K] [IsStrictOrderedRing K] [FloorRing K]
  {C S M : ℕ} [NeZero M]

/-- **C102**, the loop: for all objects, parameters, states and generators, and every number of steps,
the transcribed loop returns the numbers and leaves the arrays, constraints and generator that the
model's passes give, or raises the same exception. -/
theorem C102_metastep (ia : InteractionI S M K) (en : EntropyI C S M K) (es : EnsembleI C M K)
    (rng : Rng G K) (p : Params K) (tries steps : ℤ) (s : State C S M K G) :
    Gen.callMetastep ia en es rng p tries steps s =
      (metastep ia en es rng p tries steps.toNat s).map fun r =>
        ((r.last.maxAbsIncomp, r.last.maxAbsOmegaDiff, r.last.maxAbsJsDiff,
          r.last.maxConstraintResidue, (r.last.reviveCount : ℤ), r.isLastStepSafe),
          r.last.omegas, r.last.Js, r.last.phisComp, r.last.phisFeat, r.last.cons, r.last.g) :=
  metastep_transcript ia en es rng p tries steps s

/-- **C102**, no steps: a call with no steps reads a variable that was never assigned. -/
theorem C102_no_steps (ia : InteractionI S M K) (en : EntropyI C S M K) (es : EnsembleI C M K)
    (rng : Rng G K) (p : Params K) (tries : ℤ) {steps : ℤ} (h : steps ≤ 0) (s : State C S M K G) :
    Gen.callMetastep ia en es rng p tries steps s = .error .unboundLocalError := by
  rw [C102_metastep, Int.toNat_of_nonpos h]
  rfl

/-- **C102**, volumes: whatever the objects do, when the transcribed loop returns, the volumes add up to
a number of compartments, some volume is at least one, and if the last step is reported safe the number
is that of the compartments above the threshold. -/
theorem C102_volumes {ia : InteractionI S M K} {en : EntropyI C S M K} {es : EnsembleI C M K}
    {rng : Rng G K} {p : Params K} {tries steps : ℤ} {s : State C S M K G}
    {a b c d : K} {n : ℤ} {safe : Bool} {o : Mat S M K} {J : Vec M K} {pc : Mat C M K}
    {pf : Mat S M K} {cs : List (Cons S M K)} {g : G}
    (h : Gen.callMetastep ia en es rng p tries steps s =
      .ok ((a, b, c, d, n, safe), o, J, pc, pf, cs, g)) :
    (∃ k : ℕ, 1 ≤ k ∧ k ≤ M ∧ ∑ m, J m = (k : K)) ∧ (∃ m, 1 ≤ J m) ∧ 0 ≤ n ∧
    (safe = true → ∑ m, J m = (Fintype.card {m // p.killThreshold < J m} : K)) := by
  rw [C102_metastep] at h
  cases hr : metastep ia en es rng p tries steps.toNat s with
  | error e => rw [hr] at h; cases h
  | ok r =>
    rw [hr] at h
    have he := Except.ok.inj h
    simp only [Prod.mk.injEq] at he
    obtain ⟨⟨-, -, -, -, hn, hsafe⟩, -, hJ, -, -, -, -⟩ := he
    obtain ⟨count, s', f⟩ := metastep_facts hr
    subst hJ
    refine ⟨⟨_, ?_, ?_, by rw [f.sum_Js, f.nValid_card]⟩, ?_, by omega, fun hs => ?_⟩
    · refine Finset.card_pos.mpr (Finset.nonempty_iff_ne_empty.mpr fun h0 => f.nValid_ne ?_)
      rw [f.nValid_card, h0, Finset.card_empty, Nat.cast_zero]
    · exact (Finset.card_le_univ _).trans_eq (Fintype.card_fin M)
    · obtain ⟨m, -, hm⟩ := f.exists_Js_ge_one
      exact ⟨m, hm⟩
    · have h1 := metastep_safe hr
      rw [← hsafe] at hs
      rw [hs] at h1
      rw [f.sum_Js, of_decide_eq_true h1.symm, countValid_eq, Fintype.card_subtype]

end Loop

section Mixture
variable {G : Type} {C S M : ℕ} [NeZero M]

/-- **C102**, no failure: a call of the transcribed loop, with transcribed objects, for at least one step
returns, when the threshold is in `[0, 1)`, every feature has a component, the constraints are
non-empty and some compartment lives or may be revived. -/
theorem C102_never_fails (chis : Mat S S ℝ) (shift : ℝ) (en : EntropyInst C S) (es : EnsembleInst C)
    {sizes : Vec C ℝ} {feat : Fin C → Fin S} (hen : IsIdealGas (Gen.entropyObj M en) sizes feat)
    {rng : Rng G ℝ} (hok : rng.Ok) {p : Params ℝ} (hthr : 0 ≤ p.killThreshold)
    (hthr1 : p.killThreshold < 1) (hb : 0 < p.JsStepUpperBound) {tries steps : ℤ} (hn : 0 < steps)
    {s : State C S M ℝ G} (hcons : ∀ c ∈ s.cons, c.Proper)
    (halive : (∃ m, p.killThreshold < s.Js m) ∨ 0 < tries) :
    ∃ a b c d n safe o J pc pf cs g,
      Gen.callMetastep (Gen.FHCompiled.obj (Gen.FHCompiled.init chis shift) M) (Gen.entropyObj M en)
        (Gen.ensembleObj M es) rng p tries steps s =
          .ok ((a, b, c, d, n, safe), o, J, pc, pf, cs, g) ∧ ∃ m, p.killThreshold < J m := by
  have hes : (Gen.ensembleObj M es).Total := by
    rw [C102_entropies (S := S) |>.2.2.2.2.2 es]; exact es.total M
  obtain ⟨r, hr, -, hm⟩ := metastep_ok (ia := Gen.FHCompiled.obj (Gen.FHCompiled.init chis shift) M)
    (tries := tries) (n := steps.toNat) (s := s) hok hen hes hthr hthr1 hb (by omega) hcons halive
  have h := C102_metastep (Gen.FHCompiled.obj (Gen.FHCompiled.init chis shift) M)
    (Gen.entropyObj M en) (Gen.ensembleObj M es) rng p tries steps s
  rw [hr] at h
  exact ⟨_, _, _, _, _, _, _, _, _, _, _, _, h, hm⟩

/-- **C102**, documented scheme: one step of the transcribed loop with the transcribed Flory-Huggins
interaction, a transcribed entropy and the transcribed canonical ensemble performs one step of the
documented scheme (see C65), when no constraint acts and nothing can be revived. -/
theorem C102_documented_scheme (chis : Mat S S ℝ) (shift : ℝ) (en : EntropyInst C S)
    (phiMeans : Vec C ℝ) {l : Vec C ℝ} {feat : Fin C → Fin S}
    (hen : IsIdealGas (Gen.entropyObj M en) l feat) {rng : Rng G ℝ} {p : Params ℝ}
    (hb : 0 < p.JsStepUpperBound) {tries : ℤ} {s : State C S M ℝ G}
    (hrev : (∀ m, p.killThreshold < s.Js m) ∨ tries ≤ 0) (hcons : ∀ c ∈ s.cons, c.Trivial)
    {d : ℝ × ℝ × ℝ × ℝ × ℤ × Bool} {o : Mat S M ℝ} {J : Vec M ℝ} {pc : Mat C M ℝ}
    {pf : Mat S M ℝ} {cs : List (Cons S M ℝ)} {g : G}
    (h : Gen.callMetastep (Gen.FHCompiled.obj (Gen.FHCompiled.init chis shift) M)
      (Gen.entropyObj M en) (Gen.CanonicalC.obj (Gen.CanonicalC.init phiMeans) M) rng p tries 1 s =
        .ok (d, o, J, pc, pf, cs, g)) :
    let coef := (∑ r, ∑ q, chis r q) + shift * (S : ℝ) * (S : ℝ)
    let alive : Finset (Fin M) := Finset.univ.filter fun m => p.killThreshold < s.Js m
    let phi := schemePhi feat l phiMeans (livingVolume p.killThreshold s.Js) s.omegas
    let eta := schemeEta chis coef feat l s.omegas phi
    let etaMean := ∑ m, eta m * (if m ∈ alive then s.Js m else 0) / alive.card
    ∃ θ : ℝ, 0 < θ ∧ θ ≤ 1 ∧
      ((∀ m ∈ alive, |eta m - etaMean| * p.acceptanceJs ≤ p.JsStepUpperBound) → θ = 1) ∧
      ∀ m ∈ alive,
        (∀ i, pc i m = phi i m) ∧
        (∀ r, o r m = s.omegas r m + θ * p.acceptanceOmega *
          (schemeField chis coef feat s.omegas phi r m - s.omegas r m)) ∧
        J m = s.Js m + (1 - (∑ k ∈ alive, s.Js k) / alive.card) + θ * p.acceptanceJs *
          (eta m - (∑ k ∈ alive, eta k) / alive.card) := by
  rw [C102_metastep, C102_interaction_and_ensembles (S := 0) |>.2.2.1] at h
  cases hr : metastep (Gen.FHCompiled.obj (Gen.FHCompiled.init chis shift) M) (Gen.entropyObj M en)
      ((Gen.CanonicalC.init phiMeans).toI M) rng p tries 1 s with
  | error e => rw [show (1 : ℤ).toNat = 1 from rfl, hr] at h; cases h
  | ok r =>
    rw [show (1 : ℤ).toNat = 1 from rfl, hr] at h
    have he := Except.ok.inj h
    simp only [Prod.mk.injEq] at he
    obtain ⟨-, rfl, rfl, rfl, -, -, -⟩ := he
    simp only [metastep, iterateMore] at hr
    obtain ⟨t, h1, h2⟩ := bind_eq_ok.mp hr
    cases h2
    exact C65_documented_scheme (ia := FHCompiled.new chis shift) (es := ⟨phiMeans⟩) hb hen h1
      (hrev.imp_right fun h => by simpa using h) hcons

/-- The demo mixture: the transcribed loop runs seven steps with all kinds of constraints, its volumes
add up to a number of compartments, and its first step is the documented one. -/
example : ∃ a b c d n safe o J pc pf cs g,
    Gen.callMetastep (Gen.FHCompiled.obj (Gen.FHCompiled.init Demo.chis 1) 3)
      (Gen.entropyObj 3 (.ideal Demo.gas)) (Gen.ensembleObj 3 (.canonical Demo.canonical)) (rngZero ℝ)
      Demo.params 5 7 (Demo.state Demo.allCons) =
        .ok ((a, b, c, d, n, safe), o, J, pc, pf, cs, g) ∧ (∃ m, 0 < J m) ∧
    ∃ k : ℕ, 1 ≤ k ∧ k ≤ 3 ∧ ∑ m, J m = (k : ℝ) := by
  obtain ⟨a, b, c, d, n, safe, o, J, pc, pf, cs, g, h, hm⟩ := C102_never_fails Demo.chis 1
    (.ideal Demo.gas) (.canonical Demo.canonical) (M := 3) (sizes := Demo.gas.sizes) (feat := id)
    (by rw [C102_entropies.2.2.2.2.1]; exact Demo.gas.isIdealGas) (rngZero_ok ℝ) (p := Demo.params)
    (by simp [Demo.params]) (by simp [Demo.params]) (by simp [Demo.params]) (tries := 5) (steps := 7)
    (by norm_num) (s := Demo.state Demo.allCons) Demo.allCons_proper (Or.inr (by norm_num))
  exact ⟨a, b, c, d, n, safe, o, J, pc, pf, cs, g, h, by simpa [Demo.params] using hm,
    (C102_volumes h).1⟩

example : ∃ d o J pc pf cs g,
    Gen.callMetastep (Gen.FHCompiled.obj (Gen.FHCompiled.init Demo.chis 1) 3)
      (Gen.entropyObj 3 (.ideal Demo.gas))
      (Gen.CanonicalC.obj (Gen.CanonicalC.init ![1 / 2, 1 / 2]) 3) (rngZero ℝ)
      Demo.params 0 1 (Demo.state []) = .ok (d, o, J, pc, pf, cs, g) ∧
    ∀ i, pc i 1 = schemePhi id Demo.gas.sizes ![1 / 2, 1 / 2]
      (livingVolume 0 (Demo.state []).Js) (Demo.state []).omegas i 1 := by
  have hen : IsIdealGas (Gen.entropyObj 3 (.ideal Demo.gas)) Demo.gas.sizes id := by
    rw [C102_entropies.2.2.2.2.1]; exact Demo.gas.isIdealGas
  obtain ⟨a, b, c, d, n, safe, o, J, pc, pf, cs, g, h, hm⟩ := C102_never_fails Demo.chis 1
    (.ideal Demo.gas) (.canonical ⟨![1 / 2, 1 / 2]⟩) (M := 3) hen (rngZero_ok ℝ) (p := Demo.params)
    (by simp [Demo.params]) (by simp [Demo.params]) (by simp [Demo.params]) (tries := 0) (steps := 1)
    (by norm_num) (s := Demo.state []) (by simp [Demo.state])
    (Or.inl ⟨0, by simp [Demo.params, Demo.state]⟩)
  obtain ⟨θ, -, -, -, h2⟩ := C102_documented_scheme Demo.chis 1 (.ideal Demo.gas) ![1 / 2, 1 / 2] hen
    (by simp [Demo.params]) (Or.inr le_rfl) (by simp [Demo.state]) h
  exact ⟨_, _, _, _, _, _, _, h, (h2 1 (by simp [Demo.params, Demo.state])).1⟩

end Mixture

end Flory
