import Verif.Spec.Compile
import Verif.Lemmas.TranscriptObjects
import Verif.Lemmas.TranscriptPhases
import Verif.Lemmas.FinderObject
import Verif.Lemmas.Interaction

/-! # Lemmas for C109 -/

set_option linter.unusedSectionVars false

namespace Flory

open Spec

theorem foldl_min_spec (l : List ℝ) (x : ℝ) :
    (∀ y ∈ x :: l, l.foldl Min.min x ≤ y) ∧ l.foldl Min.min x ∈ x :: l := by
  induction l generalizing x with
  | nil => simp
  | cons z l ih =>
    obtain ⟨h1, h2⟩ := ih (min x z)
    rw [List.foldl_cons]
    constructor
    · intro y hy
      have h0 := h1 (min x z) (List.mem_cons_self ..)
      rcases List.mem_cons.1 hy with rfl | hy
      · exact h0.trans (min_le_left _ _)
      · rcases List.mem_cons.1 hy with rfl | hy
        · exact h0.trans (min_le_right _ _)
        · exact h1 y (List.mem_cons_of_mem _ hy)
    · rcases List.mem_cons.1 h2 with h | h
      · rw [h]
        rcases min_choice x z with h | h <;> rw [h] <;> simp
      · exact List.mem_cons_of_mem _ (List.mem_cons_of_mem _ h)

theorem mem_flat_mat {a : NDArr ℝ} {r c : ℕ} {m : Mat r c ℝ} (h : SameMat a m) (y : ℝ) :
    y ∈ NDArr.flat a.shape a.get ↔ ∃ i j, y = m i j := by
  rw [h.shape]
  simp only [NDArr.flat, List.mem_flatMap, List.mem_range, List.mem_singleton]
  constructor
  · rintro ⟨i, hi, j, hj, rfl⟩
    exact ⟨⟨i, hi⟩, ⟨j, hj⟩, h.get ⟨i, hi⟩ ⟨j, hj⟩⟩
  · rintro ⟨i, j, rfl⟩
    exact ⟨i.1, i.2, j.1, j.2, (h.get i j).symm⟩

theorem min_mat_empty {a : NDArr ℝ} {m : Mat 0 0 ℝ} (h : SameMat a m) : a.min = .error .valueError := by
  unfold NDArr.min
  rw [h.shape]
  rfl

theorem min_mat {S : ℕ} [NeZero S] {a : NDArr ℝ} {m : Mat S S ℝ} (h : SameMat a m) : a.min = .ok (matMin m) := by
  have key := mem_flat_mat h
  unfold NDArr.min
  cases hf : NDArr.flat a.shape a.get with
  | nil =>
    rw [hf] at key
    exact absurd ((key (m 0 0)).2 ⟨0, 0, rfl⟩) (List.not_mem_nil)
  | cons x l =>
    rw [hf] at key
    obtain ⟨h1, h2⟩ := foldl_min_spec l x
    obtain ⟨r, s, hm⟩ := matMin_mem m
    obtain ⟨i, j, hi⟩ := (key _).1 h2
    refine congrArg Except.ok (le_antisymm ?_ ?_)
    · rw [hm]
      exact h1 _ ((key _).2 ⟨r, s, rfl⟩)
    · rw [hi]
      exact matMin_le m i j

theorem sum_mat {a : NDArr ℝ} {r c : ℕ} {m : Mat r c ℝ} (h : SameMat a m) : a.sum = ∑ i, ∑ j, m i j := by
  unfold NDArr.sum
  rw [h.shape]
  exact Finset.sum_congr rfl fun i _ => Finset.sum_congr rfl fun j _ => h.get i j

theorem shapeAt_one (n m : ℕ) (s : List ℕ) : shapeAt (n :: m :: s) 1 = .ok m := by
  unfold shapeAt normIndex
  simp [bind, Except.bind, pure, Except.pure]

theorem upper_mat {C : ℕ} {a : NDArr ℝ} {m : Mat C C ℝ} (h : SameMat a m) :
    a.upper 0 = .ok ((FHInteraction.triuIndices C false).map fun p => m p.1 p.2) := by
  unfold NDArr.upper
  rw [h.shape]
  dsimp only
  refine congrArg Except.ok ?_
  unfold FHInteraction.triuIndices
  rw [List.map_flatMap, ← List.map_coe_finRange_eq_range, List.flatMap_map]
  congr 1
  funext i
  rw [List.filter_map, List.map_map, List.map_map]
  have hf : ((List.finRange C).filter ((fun j => decide (i.1 + 0 ≤ j)) ∘ Fin.val)) =
      (List.finRange C).filter fun j => if false = true then decide (i < j) else decide (i ≤ j) := by
    refine List.filter_congr fun j _ => ?_
    simp
  rw [hf]
  refine List.map_congr_left fun j _ => h.get i j

/-! ## Constructors of compiled classes -/

theorem fhc_init {S : ℕ} {a : NDArr ℝ} {m : Mat S S ℝ} (h : SameMat a m) (shift : ℝ) :
    Gen.FloryHugginsInteractionCompiled.init a shift =
      .ok ⟨S, a, (∑ i, ∑ j, m i j) + shift * S * S⟩ := by
  unfold Gen.FloryHugginsInteractionCompiled.init
  simp only [h.shape, shapeAt_zero, sum_mat h, bind, Except.bind, pure, Except.pure]

theorem fhc_compile {S : ℕ} {a : NDArr ℝ} {m : Mat S S ℝ} (h : SameMat a m) (shift : ℝ) :
    Agrees SameFHC (do
        let t ← a.min
        Gen.FloryHugginsInteractionCompiled.init a (-t + shift))
      (if hS : S = 0 then .error .valueError else
        haveI : NeZero S := ⟨hS⟩
        .ok ⟨S, FHCompiled.new m (-matMin m + shift)⟩) := by
  by_cases hS : S = 0
  · subst hS
    rw [min_mat_empty h, dif_pos rfl]
    rfl
  · have : NeZero S := ⟨hS⟩
    rw [dif_neg hS, min_mat h]
    show Agrees SameFHC (Gen.FloryHugginsInteractionCompiled.init a (-matMin m + shift)) _
    rw [fhc_init h]
    exact ⟨rfl, h, rfl⟩

theorem fh_object_same {C : ℕ} {a : Gen.FloryHugginsInteractionAttrs} {o : FHInteraction C ℝ} (h : SameFH a o) :
    SameObject SameFHC (Gen.FloryHugginsInteraction.object a) o.obj :=
  ⟨rfl, fun kw => fhc_compile h.chis ((kw "additional_chis_shift").getD 1)⟩

theorem block_object_same {S : ℕ} {a : Gen.FloryHugginsBlockInteractionAttrs} {o : FHBlock S ℝ}
    (h : SameBlock a o) : SameObject SameFHC (Gen.FloryHugginsBlockInteraction.object a) o.obj :=
  ⟨rfl, fun kw => fhc_compile h.chisFeat ((kw "additional_chis_shift").getD 1)⟩

theorem gas_object_same {C : ℕ} {a : Gen.IdealGasEntropyAttrs} {o : GasEntropy C} (h : SameGas a o) :
    SameObject SameIdealC (Gen.IdealGasEntropy.object a) o.obj := by
  refine ⟨rfl, fun kw => ?_⟩
  show Agrees SameIdealC (Gen.IdealGasEntropy.compiled_impl a) _
  unfold Gen.IdealGasEntropy.compiled_impl Gen.IdealGasEntropyCompiled.init
  simp only [h.sizes.shape, shapeAt_zero, bind, Except.bind, pure, Except.pure]
  exact ⟨C, _, rfl, rfl, rfl, h.sizes⟩

theorem poly_object_same {S : ℕ} {a : Gen.IdealGasPolydispersedEntropyAttrs} {o : PolyEntropy S}
    (h : SamePoly a o) : SameObject SamePolyC (Gen.IdealGasPolydispersedEntropy.object a) o.obj := by
  refine ⟨rfl, fun kw => ?_⟩
  show Agrees SamePolyC (Gen.IdealGasPolydispersedEntropy.compiled_impl a) _
  unfold Gen.IdealGasPolydispersedEntropy.compiled_impl Gen.IdealGasPolydispersedEntropyCompiled.init
  simp only [h.sizes.shape, h.perFeat.shape, shapeAt_zero, bind, Except.bind, pure, Except.pure]
  exact ⟨_, S, _, rfl, rfl, rfl, h.sizes, h.perFeat⟩

theorem canonical_object_same {C : ℕ} {a : Gen.CanonicalEnsembleAttrs} {o : CanonicalEnsemble C}
    (h : SameCanonical a o) : SameObject SameCanonicalC (Gen.CanonicalEnsemble.object a) o.obj := by
  refine ⟨rfl, fun kw => ?_⟩
  show Agrees SameCanonicalC (Gen.CanonicalEnsemble.compiled_impl a) _
  unfold Gen.CanonicalEnsemble.compiled_impl Gen.CanonicalEnsembleCompiled.init
  simp only [h.phiMeans.shape, shapeAt_zero, bind, Except.bind, pure, Except.pure]
  exact ⟨C, _, rfl, rfl, h.phiMeans⟩

theorem grand_object_same {C : ℕ} {a : Gen.GrandCanonicalEnsembleAttrs} {o : GrandCanonicalEnsemble C}
    (h : SameGrand a o) : SameObject SameGrandC (Gen.GrandCanonicalEnsemble.object a) o.obj := by
  refine ⟨rfl, fun kw => ?_⟩
  show Agrees SameGrandC (Gen.GrandCanonicalEnsemble.compiled_impl a) _
  unfold Gen.GrandCanonicalEnsemble.compiled_impl Gen.GrandCanonicalEnsembleCompiled.init
  simp only [h.scaledActivity.shape, shapeAt_zero, bind, Except.bind, pure, Except.pure]
  exact ⟨C, _, rfl, rfl, h.scaledActivity⟩

theorem sameMat_full (r c : ℕ) (x : ℝ) : SameMat (NDArr.full [r, c] x) (fun (_ : Fin r) (_ : Fin c) => x) :=
  ⟨rfl, fun _ _ => rfl⟩

theorem no_object_same (S : ℕ) :
    ∃ a, Gen.NoConstraint.init S = .ok a ∧ SameObject SameNoC (Gen.NoConstraint.object a) (noConstraintObj S) :=
  ⟨⟨S⟩, rfl, rfl, fun _ => ⟨S, rfl, rfl, sameMat_full S 1 0, sameVec_full 1 0⟩⟩

theorem local_object_same {S : ℕ} {a : Gen.LinearLocalConstraintAttrs} {o : LinearConstraint S}
    (h : SameLocal a o) : SameObject SameLocalC (Gen.LinearLocalConstraint.object a) o.obj := by
  refine ⟨rfl, fun kw => ?_⟩
  show Agrees SameLocalC (Gen.LinearLocalConstraint.compiled_impl a _ _) _
  unfold Gen.LinearLocalConstraint.compiled_impl Gen.LinearLocalConstraintCompiled.init
  simp only [h.Cs.shape, shapeAt_zero, shapeAt_one, bind, Except.bind, pure, Except.pure]
  refine ⟨S, o.numCons, o.Cs, o.Ts, _, _, ?_, rfl, rfl, h.Cs, h.Ts, rfl, rfl, sameMat_full _ 1 0,
    sameMat_full _ 1 0, sameMat_full _ 1 0, sameVec_full 1 0⟩
  rw [h.isLocal]
  rfl

theorem global_object_same {S : ℕ} {a : Gen.LinearGlobalConstraintAttrs} {o : LinearConstraint S}
    (h : SameGlobal a o) : SameObject SameGlobalC (Gen.LinearGlobalConstraint.object a) o.obj := by
  refine ⟨rfl, fun kw => ?_⟩
  show Agrees SameGlobalC (Gen.LinearGlobalConstraint.compiled_impl a _ _) _
  unfold Gen.LinearGlobalConstraint.compiled_impl Gen.LinearGlobalConstraintCompiled.init
  simp only [h.Cs.shape, shapeAt_zero, shapeAt_one, bind, Except.bind, pure, Except.pure]
  refine ⟨S, o.numCons, o.Cs, o.Ts, _, _, ?_, rfl, rfl, h.Cs, h.Ts, rfl, rfl, sameVec_full _ 0,
    sameMat_full _ 1 0, sameVec_full _ 0, sameVec_full 1 0⟩
  rw [h.isGlobal]
  rfl

/-- Filtering of keyword arguments sees only the names of the parameters. -/
theorem sameObject_compiled {α β : Type} {R : α → β → Prop} {a : InstObj α} {o : InstObj β}
    (h : SameObject R a o) (kw : Dict ℝ) : Agrees R (a.compiled kw) (o.compiled kw) := by
  unfold InstObj.compiled callCompiled callKwargs
  rw [h.params]
  split
  · exact h.impl _
  · rfl

/-! ## `FloryHuggins` -/

theorem free_init_rel (C : ℕ) (chis : NDArr ℝ) (sizes : Option (NDArr ℝ)) :
    Agrees SameFree (Gen.FloryHuggins.init C chis sizes) (FHObject.new C chis sizes) := by
  unfold Gen.FloryHuggins.init FHObject.new
  refine Agrees.bind (fh_init_rel C chis) fun i i' hi => ?_
  refine Agrees.bind (gas_init_rel C sizes) fun e e' he => ?_
  dsimp only
  rw [if_neg (by rw [hi.num_comp, he.num_comp]; simp)]
  exact ⟨hi.num_comp, hi, he⟩

theorem free_setChis_rel {C : ℕ} {a : Gen.FloryHugginsAttrs} {o : FHObject C} (h : SameFree a o) (chis : NDArr ℝ) :
    Agrees SameFree (Gen.FloryHuggins.set_chis a chis)
      ((o.interaction.setChis chis).map fun i => { o with interaction := i }) := by
  unfold Gen.FloryHuggins.set_chis
  have := fh_setChis_rel h.interaction chis
  show Agrees SameFree (Gen.FloryHugginsInteraction.set_chis a.interaction chis >>= _) _
  generalize Gen.FloryHugginsInteraction.set_chis a.interaction chis = x at this ⊢
  generalize o.interaction.setChis chis = y at this ⊢
  cases x <;> cases y <;> first | exact this | exact this.elim | exact ⟨h.num_comp, this, h.entropy⟩

theorem free_setSizes_rel {C : ℕ} {a : Gen.FloryHugginsAttrs} {o : FHObject C} (h : SameFree a o)
    (sizes : NDArr ℝ) :
    Agrees SameFree (Gen.FloryHuggins.set_sizes a sizes)
      ((o.entropy.setSizes sizes).map fun e => { o with entropy := e }) := by
  unfold Gen.FloryHuggins.set_sizes
  have := gas_setSizes_rel h.entropy sizes
  show Agrees SameFree (Gen.IdealGasEntropy.set_sizes a.entropy sizes >>= _) _
  generalize Gen.IdealGasEntropy.set_sizes a.entropy sizes = x at this ⊢
  generalize o.entropy.setSizes sizes = y at this ⊢
  cases x <;> cases y <;> first | exact this | exact this.elim | exact ⟨h.num_comp, h.interaction, this⟩

theorem free_fromUniform_rel (C : ℕ) (chi : ℝ) (sizes : Option (NDArr ℝ)) (vd : Bool) :
    Agrees SameFree (Gen.FloryHuggins.from_uniform C chi sizes vd) (FHObject.fromUniform C chi false sizes vd) := by
  unfold Gen.FloryHuggins.from_uniform FHObject.fromUniform
  refine Agrees.bind (free_init_rel C (NDArr.scalar 0) sizes) fun a o ho => ?_
  have := fh_setUniform_rel ho.interaction chi vd
  show Agrees SameFree (Gen.FloryHugginsInteraction.set_uniform_chis a.interaction chi vd >>= _) _
  generalize Gen.FloryHugginsInteraction.set_uniform_chis a.interaction chi vd = x at this ⊢
  cases x with
  | error e => exact this.elim
  | ok i => exact ⟨ho.num_comp, this, ho.entropy⟩

theorem free_fromRandom_rel (C : ℕ) (mean std : ℝ) (sizes : Option (NDArr ℝ)) (vd : Bool)
    (rng : ℝ → ℝ → ℕ → List ℝ) (hr : ∀ n, (rng mean std n).length = n) :
    Agrees SameFree (Gen.FloryHuggins.from_random_normal C mean std sizes vd rng)
      (FHObject.fromRandomNormal C (rng mean std) sizes vd) := by
  unfold Gen.FloryHuggins.from_random_normal FHObject.fromRandomNormal
  refine Agrees.bind (free_init_rel C (NDArr.scalar 0) sizes) fun a o ho => ?_
  have := fh_setRandom_rel ho.interaction mean std vd rng hr
  show Agrees SameFree (Gen.FloryHugginsInteraction.set_random_chis a.interaction mean std vd rng >>= _) _
  generalize Gen.FloryHugginsInteraction.set_random_chis a.interaction mean std vd rng = x at this ⊢
  cases x with
  | error e => exact this.elim
  | ok i => exact ⟨ho.num_comp, this, ho.entropy⟩

end Flory
