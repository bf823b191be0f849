import Verif.Lemmas.TranscriptObjects
import Mathlib.Tactic.Ring

/-!
# C105: the constructors and setters of the model are those of the program

`Gen.…` are written by `tools/transcribe_objects.py` from the source text, including the constructors of the
base classes.  Each theorem takes arrays of any shape and says that the transcribed code and the model raise
the same exception, or return objects with the same numbers, the same shapes and the same entries.
-/

set_option linter.unusedSectionVars false

namespace Flory

open Spec

/-- `convert_and_broadcast` for arrays of floats and of integers. -/
theorem C105_convert_and_broadcast (a : NDArr ℝ) (b : NDArr ℕ) (shape : List ℕ) :
    Gen.convert_and_broadcast a shape = convertAndBroadcast a shape ∧
      Gen.convert_and_broadcast_nat b shape = convertAndBroadcast b shape := by
  unfold Gen.convert_and_broadcast Gen.convert_and_broadcast_nat convertAndBroadcast
  dsimp only
  constructor
  · cases a.atleast1d.broadcastTo shape <;> rfl
  · cases b.atleast1d.broadcastTo shape <;> rfl

/-- `make_square_blocks` for any array and any one-dimensional array of block sizes. -/
theorem C105_make_square_blocks (arr : NDArr ℝ) {n : ℕ} (sizes : Vec n ℕ) :
    Gen.make_square_blocks arr (NDArr.ofVec sizes) = makeSquareBlocks arr (List.ofFn sizes) := by
  rw [make_square_blocks_eq arr (NDArr.ofVec sizes) (n := n) rfl, items_vec _ (n := n) rfl]
  congr 2
  funext i
  exact ofVec_get sizes i

/-- `FloryHugginsInteraction`: constructor, setter, `set_uniform_chis` and `set_random_chis`. -/
theorem C105_flory_huggins (C : ℕ) :
    (∀ chis, Agrees SameFH (Gen.FloryHugginsInteraction.init C chis) (FHInteraction.new C chis)) ∧
    ∀ (a : Gen.FloryHugginsInteractionAttrs) (o : FHInteraction C ℝ), SameFH a o →
      (∀ chis, Agrees SameFH (Gen.FloryHugginsInteraction.set_chis a chis) (o.setChis chis)) ∧
      (∀ chi vd, Agrees SameFH (Gen.FloryHugginsInteraction.set_uniform_chis a chi vd)
        (.ok (o.setUniform chi false vd))) ∧
      ∀ mean std vd rng, (∀ n, (rng mean std n).length = n) →
        Agrees SameFH (Gen.FloryHugginsInteraction.set_random_chis a mean std vd rng)
          (.ok (o.setRandom (rng mean std) vd)) :=
  ⟨fh_init_rel C, fun _ _ ho => ⟨fh_setChis_rel ho, fh_setUniform_rel ho, fh_setRandom_rel ho⟩⟩

/-- For the transcribed text alone: whatever sequence of modifications, the matrix has one row and one column
for each component and is symmetric. -/
theorem C105_symmetric {C : ℕ} {a : Gen.FloryHugginsInteractionAttrs} (h : ReachedFH C a) :
    a.num_comp = C ∧ a._chis.shape = [C, C] ∧
      ∀ i j, i < C → j < C → a._chis.get [i, j] = a._chis.get [j, i] := by
  have key : ∃ o : FHInteraction C ℝ, SameFH a o ∧ ∀ i j, o.chis i j = o.chis j i := by
    have sym : ∀ (m : Mat C C ℝ) i j, symmetrize m i j = symmetrize m j i := by
      intro m i j
      simp only [symmetrize]
      ring
    have got : ∀ {x : Py Gen.FloryHugginsInteractionAttrs} {y : Py (FHInteraction C ℝ)}
        {a : Gen.FloryHugginsInteractionAttrs}, Agrees SameFH x y → x = .ok a →
        ∃ o, y = .ok o ∧ SameFH a o := by
      intro x y a hr hx
      subst hx
      cases y with
      | error e => exact hr.elim
      | ok o => exact ⟨o, rfl, hr⟩
    have made : ∀ {chis : NDArr ℝ} {o : FHInteraction C ℝ}, FHInteraction.new C chis = .ok o →
        ∀ i j, o.chis i j = o.chis j i := by
      intro chis o ho
      unfold FHInteraction.new at ho
      cases hb : chis.atleast1d.broadcastTo [C, C] with
      | error e => rw [hb] at ho; cases ho
      | ok b => rw [hb] at ho; cases ho; exact sym _
    induction h with
    | init h =>
      obtain ⟨o, h1, h2⟩ := got (fh_init_rel C _) h
      exact ⟨o, h2, made h1⟩
    | setChis _ h ih =>
      obtain ⟨o, ho, -⟩ := ih
      obtain ⟨o', h1, h2⟩ := got (fh_setChis_rel ho _) h
      exact ⟨o', h2, made (show FHInteraction.new C _ = .ok o' from h1)⟩
    | uniform _ h ih =>
      obtain ⟨o, ho, -⟩ := ih
      obtain ⟨o', h1, h2⟩ := got (fh_setUniform_rel ho _ _) h
      cases h1
      exact ⟨_, h2, fun i j => by simp only [FHInteraction.setUniform, eq_comm]⟩
    | random _ hr h ih =>
      obtain ⟨o, ho, -⟩ := ih
      obtain ⟨o', h1, h2⟩ := got (fh_setRandom_rel ho _ _ _ _ hr) h
      cases h1
      exact ⟨_, h2, setRandom_symm o _ _⟩
  obtain ⟨o, ho, hs⟩ := key
  refine ⟨ho.num_comp, ho.chis.shape, fun i j hi hj => ?_⟩
  rw [ho.chis.get ⟨i, hi⟩ ⟨j, hj⟩, ho.chis.get ⟨j, hj⟩ ⟨i, hi⟩]
  exact hs _ _

/-- `from_uniform` and `from_random_normal`. -/
theorem C105_flory_huggins_from (C : ℕ) :
    (∀ chi vd, Agrees SameFH (Gen.FloryHugginsInteraction.from_uniform C chi vd)
      (FHInteraction.fromUniform C chi false vd)) ∧
    ∀ mean std vd rng, (∀ n, (rng mean std n).length = n) →
      Agrees SameFH (Gen.FloryHugginsInteraction.from_random_normal C mean std vd rng)
        (FHInteraction.fromRandomNormal C (rng mean std) vd) :=
  ⟨fh_fromUniform_rel C, fh_fromRandom_rel C⟩

/-- `FloryHugginsBlockInteraction`: constructor and `chis_feat` setter, including the two attributes that are
read before they are assigned. -/
theorem C105_block (S : ℕ) :
    (∀ chis per, Agrees SameBlock (Gen.FloryHugginsBlockInteraction.init S chis per)
      (FHBlock.new S chis per)) ∧
    ∀ (a : Gen.FloryHugginsBlockInteractionAttrs) (o : FHBlock S ℝ), SameBlock a o →
      ∀ chis, Agrees SameBlock (Gen.FloryHugginsBlockInteraction.set_chis_feat a chis)
        (o.setChisFeat chis) :=
  ⟨block_init_rel S, fun _ _ ho => block_setChisFeat_rel ho⟩

/-- `IdealGasEntropy` and `IdealGasPolydispersedEntropy`: constructors and `sizes` setters. -/
theorem C105_entropy (n : ℕ) :
    (∀ sizes, Agrees SameGas (Gen.IdealGasEntropy.init n sizes) (GasEntropy.new n sizes)) ∧
    (∀ (a : Gen.IdealGasEntropyAttrs) (o : GasEntropy n), SameGas a o →
      ∀ sizes, Agrees SameGas (Gen.IdealGasEntropy.set_sizes a sizes) (o.setSizes sizes)) ∧
    (∀ sizes per, Agrees SamePoly (Gen.IdealGasPolydispersedEntropy.init n sizes per)
      (PolyEntropy.new n sizes per)) ∧
    ∀ (a : Gen.IdealGasPolydispersedEntropyAttrs) (o : PolyEntropy n), SamePoly a o →
      ∀ sizes, Agrees SamePoly (Gen.IdealGasPolydispersedEntropy.set_sizes a sizes) (o.setSizes sizes) :=
  ⟨gas_init_rel n, fun _ _ ho => gas_setSizes_rel ho, poly_init_rel n, fun _ _ ho => poly_setSizes_rel ho⟩

/-- `CanonicalEnsemble` and `GrandCanonicalEnsemble`: constructors and setters. -/
theorem C105_ensemble (C : ℕ) :
    (∀ phi, Agrees SameCanonical (Gen.CanonicalEnsemble.init C phi) (CanonicalEnsemble.new C phi)) ∧
    (∀ (a : Gen.CanonicalEnsembleAttrs) (o : CanonicalEnsemble C), SameCanonical a o →
      ∀ phi, Agrees SameCanonical (Gen.CanonicalEnsemble.set_phi_means a phi) (o.setPhiMeans phi)) ∧
    (∀ z, Agrees SameGrand (Gen.GrandCanonicalEnsemble.init C z) (GrandCanonicalEnsemble.new C z)) ∧
    ∀ (a : Gen.GrandCanonicalEnsembleAttrs) (o : GrandCanonicalEnsemble C), SameGrand a o →
      ∀ z, Agrees SameGrand (Gen.GrandCanonicalEnsemble.set_scaled_activity a z) (o.setScaledActivity z) :=
  ⟨canonical_init_rel C, fun _ _ ho => canonical_setPhiMeans_rel ho, grand_init_rel C,
    fun _ _ ho => grand_setScaledActivity_rel ho⟩

/-- `from_chemical_potential`: chemical potentials and sizes are broadcast to one entry for each component,
sizes that are not given are one, and the activity is `l * exp (l * mu)`.  Arguments that cannot be broadcast,
and zero components, raise `ValueError`. -/
theorem C105_from_chemical_potential (C : ℕ) (mus : NDArr ℝ) (sizes : Option (NDArr ℝ)) :
    match mus.atleast1d.broadcastTo [C], GasEntropy.new C sizes with
    | .ok m, .ok s =>
      if C < 1 then Gen.GrandCanonicalEnsemble.from_chemical_potential C mus sizes = .error .valueError
      else ∃ r, Gen.GrandCanonicalEnsemble.from_chemical_potential C mus sizes = .ok r ∧
        SameGrand (C := C) r ⟨(GrandC.fromChemicalPotential (m.toVec C) s.sizes).scaledActivity⟩
    | _, _ => Gen.GrandCanonicalEnsemble.from_chemical_potential C mus sizes = .error .valueError := by
  unfold Gen.GrandCanonicalEnsemble.from_chemical_potential GasEntropy.new
  dsimp only
  cases hm : mus.atleast1d.broadcastTo [C] with
  | error e => cases broadcastTo_error hm; rfl
  | ok m =>
    have hms := broadcastTo_shape hm
    have fin : ∀ (s : NDArr ℝ) (w : Vec C ℝ), SameVec s w →
        if C < 1 then (do
            let t7 : NDArr ℝ ← NDArr.zip2 (fun x y => x * y) s m
            let t9 : NDArr ℝ ← NDArr.zip2 (fun x y => x * y) s (NDArr.map Real.exp t7)
            Gen.GrandCanonicalEnsemble.init C t9) = .error .valueError
        else ∃ r, (do
            let t7 : NDArr ℝ ← NDArr.zip2 (fun x y => x * y) s m
            let t9 : NDArr ℝ ← NDArr.zip2 (fun x y => x * y) s (NDArr.map Real.exp t7)
            Gen.GrandCanonicalEnsemble.init C t9) = .ok r ∧
          SameGrand (C := C) r ⟨(GrandC.fromChemicalPotential (m.toVec C) w).scaledActivity⟩ := by
      intro s w hs
      split
      · next hC =>
        obtain ⟨t, h1, h2⟩ := zip2_vec (fun x y => x * y) hs (sameVec_toVec hms)
        obtain ⟨c, h3, -⟩ := zip2_vec (fun x y => x * y) hs
          (b := t.map Real.exp) (w := fun i => Real.exp (w i * m.toVec C i))
          ⟨h2.shape, fun i => congrArg Real.exp (h2.get i)⟩
        simp only [h1, h3, bind, Except.bind]
        unfold Gen.GrandCanonicalEnsemble.init
        dsimp only
        rw [if_pos hC]
        rfl
      · next hC =>
        obtain ⟨t, c, r, h1, h2, h3, h4⟩ :=
          grand_fromChemPot_end (not_lt.mp hC) (sameVec_toVec hms) hs
        exact ⟨r, by simp only [h1, h2, h3, bind, Except.bind], h4⟩
    cases sizes with
    | none =>
      have := fin (NDArr.full m.shape 1) (fun _ => 1) (by rw [hms]; exact sameVec_full C 1)
      simpa [bind, Except.bind, pure, Except.pure] using this
    | some s =>
      dsimp only
      cases hs : s.atleast1d.broadcastTo [C] with
      | error e => cases broadcastTo_error hs; simp [bind, Except.bind]
      | ok b =>
        have := fin b (b.toVec C) (sameVec_toVec (broadcastTo_shape hs))
        simpa [bind, Except.bind, pure, Except.pure, hs] using this

/-- `LinearLocalConstraint` and `LinearGlobalConstraint`: constructors and the setters of `Cs` and `Ts`. -/
theorem C105_constraint (S : ℕ) :
    (∀ Cs Ts, Agrees SameLocal (Gen.LinearLocalConstraint.init S Cs Ts)
      (LinearConstraint.new false S Cs Ts)) ∧
    (∀ (a : Gen.LinearLocalConstraintAttrs) (o : LinearConstraint S), SameLocal a o → ∀ x,
      Agrees SameLocal (Gen.LinearLocalConstraint.set_Cs a x) (o.setCs x) ∧
      Agrees SameLocal (Gen.LinearLocalConstraint.set_Ts a x) (o.setTs x)) ∧
    (∀ Cs Ts, Agrees SameGlobal (Gen.LinearGlobalConstraint.init S Cs Ts)
      (LinearConstraint.new true S Cs Ts)) ∧
    ∀ (a : Gen.LinearGlobalConstraintAttrs) (o : LinearConstraint S), SameGlobal a o → ∀ x,
      Agrees SameGlobal (Gen.LinearGlobalConstraint.set_Cs a x) (o.setCs x) ∧
      Agrees SameGlobal (Gen.LinearGlobalConstraint.set_Ts a x) (o.setTs x) :=
  ⟨local_init_rel S, fun _ _ ho x => ⟨local_setCs_rel ho x, local_setTs_rel ho x⟩,
    global_init_rel S, fun _ _ ho x => ⟨global_setCs_rel ho x, global_setTs_rel ho x⟩⟩

/-- `Phases.__init__`. -/
theorem C105_phases (volumes fractions : NDArr ℝ) :
    Agrees SamePhases (Gen.Phases.init volumes fractions) (Phases.new volumes fractions) :=
  phases_init_rel volumes fractions

/-! ### Cases -/

/-- Two components with a scalar: the constructor returns, and the entries are the scalar. -/
example : ∃ a, Gen.FloryHugginsInteraction.init 2 (NDArr.scalar 3) = .ok a ∧ a.num_comp = 2 ∧
    a._chis.shape = [2, 2] ∧ a._chis.get [0, 1] = 3 := by
  obtain ⟨b, hb, -, hx⟩ := broadcastTo_scalar (3 : ℝ) (s := [2, 2]) (by simp)
  have h := (C105_flory_huggins 2).1 (NDArr.scalar 3)
  have hn : FHInteraction.new 2 (NDArr.scalar (3 : ℝ)) =
      .ok ⟨symmetrize (b.toMat 2 2), false⟩ := by
    unfold FHInteraction.new
    rw [hb]
    rfl
  rw [hn] at h
  revert h
  cases Gen.FloryHugginsInteraction.init 2 (NDArr.scalar 3) with
  | error e => exact fun h => h.elim
  | ok a =>
    intro h
    have e := h.chis.get 0 1
    refine ⟨a, rfl, h.num_comp, h.chis.shape, e.trans ?_⟩
    simp only [symmetrize, NDArr.toMat, hx]
    norm_num

/-- A reached object exists for every number of components. -/
example (C : ℕ) : ∃ a, ReachedFH C a := by
  obtain ⟨b, hb, -, -⟩ := broadcastTo_scalar (0 : ℝ) (s := [C, C]) (by simp)
  have hn := (C105_flory_huggins C).1 (NDArr.scalar 0)
  unfold FHInteraction.new at hn
  rw [hb] at hn
  revert hn
  cases hi : Gen.FloryHugginsInteraction.init C (NDArr.scalar 0) with
  | error e => exact fun h => h.elim
  | ok a => exact fun _ => ⟨a, .init hi⟩

/-- The first array of constraints has three axes: both raise `ValueError`. -/
example : Gen.LinearLocalConstraint.init 2 (NDArr.full [1, 2, 2] 0) (NDArr.scalar 0) =
    .error .valueError := by
  have h := (C105_constraint 2).1 (NDArr.full [1, 2, 2] 0) (NDArr.scalar 0)
  have hn : LinearConstraint.new false 2 (NDArr.full [1, 2, 2] 0) (NDArr.scalar 0) =
      .error .valueError := rfl
  rw [hn] at h
  revert h
  cases Gen.LinearLocalConstraint.init 2 (NDArr.full [1, 2, 2] 0) (NDArr.scalar 0) with
  | error e => exact fun h => congrArg _ h
  | ok a => exact fun h => h.elim

/-- Numbers drawn for the interactions: a generator that returns as many numbers as asked for. -/
example : ∀ n, ((fun (m s : ℝ) (n : ℕ) => List.replicate n (m + s)) 0 1 n).length = n := by
  intro n
  simp

/-- A pair of related objects exists, so that the setters are covered. -/
example : SameFH (C := 1) ⟨1, NDArr.full [1, 1] 2⟩ ⟨fun _ _ => 2, false⟩ :=
  ⟨rfl, ⟨rfl, fun _ _ => rfl⟩, rfl⟩

end Flory
