import Verif.Lemmas.Compile
import Verif.Lemmas.FinderSet
import Mathlib.Tactic.Ring
import Mathlib.Tactic.Linarith
import Mathlib.Tactic.NormNum

/-!
# C109: compilation, reading of attributes and `FloryHuggins` of the model are those of the program

`Gen.…` are written by `tools/transcribe_compile.py` from the source text.
-/

set_option linter.unusedSectionVars false

namespace Flory

open Spec

/-- **C109**, `_compiled_impl` with its parameters, their defaults and the constructors of the compiled classes:
the objects of the transcription accept the keyword arguments of those of the model and give the same instances
or exceptions. -/
theorem C109_objects :
    (∀ {C : ℕ} {a : Gen.FloryHugginsInteractionAttrs} {o : FHInteraction C ℝ}, SameFH a o →
      SameObject SameFHC (Gen.FloryHugginsInteraction.object a) o.obj) ∧
    (∀ {S : ℕ} {a : Gen.FloryHugginsBlockInteractionAttrs} {o : FHBlock S ℝ}, SameBlock a o →
      SameObject SameFHC (Gen.FloryHugginsBlockInteraction.object a) o.obj) ∧
    (∀ {C : ℕ} {a : Gen.IdealGasEntropyAttrs} {o : GasEntropy C}, SameGas a o →
      SameObject SameIdealC (Gen.IdealGasEntropy.object a) o.obj) ∧
    (∀ {S : ℕ} {a : Gen.IdealGasPolydispersedEntropyAttrs} {o : PolyEntropy S}, SamePoly a o →
      SameObject SamePolyC (Gen.IdealGasPolydispersedEntropy.object a) o.obj) ∧
    (∀ {C : ℕ} {a : Gen.CanonicalEnsembleAttrs} {o : CanonicalEnsemble C}, SameCanonical a o →
      SameObject SameCanonicalC (Gen.CanonicalEnsemble.object a) o.obj) ∧
    (∀ {C : ℕ} {a : Gen.GrandCanonicalEnsembleAttrs} {o : GrandCanonicalEnsemble C}, SameGrand a o →
      SameObject SameGrandC (Gen.GrandCanonicalEnsemble.object a) o.obj) ∧
    (∀ S : ℕ, ∃ a, Gen.NoConstraint.init S = .ok a ∧
      SameObject SameNoC (Gen.NoConstraint.object a) (noConstraintObj S)) ∧
    (∀ {S : ℕ} {a : Gen.LinearLocalConstraintAttrs} {o : LinearConstraint S}, SameLocal a o →
      SameObject SameLocalC (Gen.LinearLocalConstraint.object a) o.obj) ∧
    (∀ {S : ℕ} {a : Gen.LinearGlobalConstraintAttrs} {o : LinearConstraint S}, SameGlobal a o →
      SameObject SameGlobalC (Gen.LinearGlobalConstraint.object a) o.obj) :=
  ⟨fh_object_same, block_object_same, gas_object_same, poly_object_same, canonical_object_same, grand_object_same,
    no_object_same, local_object_same, global_object_same⟩

/-- **C109**, `compiled(**kwargs_full)` of the four base classes on such objects. -/
theorem C109_compiled {α β : Type} {R : α → β → Prop} {a : InstObj α} {o : InstObj β} (h : SameObject R a o)
    (kw : Dict ℝ) :
    Agrees R (Gen.InteractionBase.compiled a kw) (o.compiled kw) ∧
    Agrees R (Gen.EntropyBase.compiled a kw) (o.compiled kw) ∧
    Agrees R (Gen.EnsembleBase.compiled a kw) (o.compiled kw) ∧
    Agrees R (Gen.ConstraintBase.compiled a kw) (o.compiled kw) := by
  rw [interaction_compiled, entropy_compiled, ensemble_compiled, constraint_compiled]
  exact ⟨sameObject_compiled h kw, sameObject_compiled h kw, sameObject_compiled h kw, sameObject_compiled h kw⟩

/-- **C109**, the method of the base class that `FloryHugginsInteraction` overrides does the same. -/
theorem C109_override (a : Gen.FloryHugginsInteractionAttrs) (shift : ℝ) :
    Gen.FloryHugginsInteractionBase.compiled_impl a shift = Gen.FloryHugginsInteraction.compiled_impl a shift := rfl

/-- **C109**, properties: what is read is what was stored. -/
theorem C109_getters :
    (∀ {C : ℕ} {a : Gen.FloryHugginsInteractionAttrs} {o : FHInteraction C ℝ}, SameFH a o →
      Agrees SameMat (Gen.FloryHugginsInteraction.get_chis a) (.ok o.chis) ∧
      Gen.FloryHugginsInteraction.get_independent_entries a = .ok o.independentEntries) ∧
    (∀ {S : ℕ} {a : Gen.FloryHugginsBlockInteractionAttrs} {o : FHBlock S ℝ}, SameBlock a o →
      Agrees SameMat (Gen.FloryHugginsBlockInteraction.get_chis a)
        (.ok (o.chis.toMat (∑ r, o.perFeat r) (∑ r, o.perFeat r))) ∧
      Agrees SameMat (Gen.FloryHugginsBlockInteraction.get_chis_feat a) (.ok o.chisFeat) ∧
      Agrees SameVec (Gen.FloryHugginsBlockInteraction.get_num_comp_per_feat a) (.ok o.perFeat)) ∧
    (∀ {C : ℕ} {a : Gen.IdealGasEntropyAttrs} {o : GasEntropy C}, SameGas a o →
      Agrees SameVec (Gen.IdealGasEntropy.get_sizes a) (.ok o.sizes)) ∧
    (∀ {S : ℕ} {a : Gen.IdealGasPolydispersedEntropyAttrs} {o : PolyEntropy S}, SamePoly a o →
      Agrees SameVec (Gen.IdealGasPolydispersedEntropy.get_sizes a) (.ok o.gas.sizes)) ∧
    (∀ {C : ℕ} {a : Gen.CanonicalEnsembleAttrs} {o : CanonicalEnsemble C}, SameCanonical a o →
      Gen.CanonicalEnsemble.get_num_comp a = .ok C ∧
      Agrees SameVec (Gen.CanonicalEnsemble.get_phi_means a) (.ok o.phiMeans)) ∧
    (∀ {C : ℕ} {a : Gen.GrandCanonicalEnsembleAttrs} {o : GrandCanonicalEnsemble C}, SameGrand a o →
      Gen.GrandCanonicalEnsemble.get_num_comp a = .ok C ∧
      Agrees SameVec (Gen.GrandCanonicalEnsemble.get_scaled_activity a) (.ok o.scaledActivity)) ∧
    (∀ {S : ℕ} {a : Gen.LinearLocalConstraintAttrs} {o : LinearConstraint S}, SameLocal a o →
      Agrees SameMat (Gen.LinearLocalConstraint.get_Cs a) (.ok o.Cs) ∧
      Agrees SameVec (Gen.LinearLocalConstraint.get_Ts a) (.ok o.Ts)) ∧
    (∀ {S : ℕ} {a : Gen.LinearGlobalConstraintAttrs} {o : LinearConstraint S}, SameGlobal a o →
      Agrees SameMat (Gen.LinearGlobalConstraint.get_Cs a) (.ok o.Cs) ∧
      Agrees SameVec (Gen.LinearGlobalConstraint.get_Ts a) (.ok o.Ts)) := by
  refine ⟨fun h => ⟨h.chis, ?_⟩, fun h => ⟨h.chis, h.chisFeat, h.perFeat⟩, fun h => h.sizes, fun h => h.sizes,
    fun h => ⟨congrArg Except.ok h.num_comp, h.phiMeans⟩,
    fun h => ⟨congrArg Except.ok h.num_comp, h.scaledActivity⟩, fun h => ⟨h.Cs, h.Ts⟩, fun h => ⟨h.Cs, h.Ts⟩⟩
  exact upper_mat h.chis

/-- **C109**, `FloryHuggins`: constructors, assignments, properties and compilation of its parts. -/
theorem C109_flory_huggins (C : ℕ) :
    (∀ chis sizes, Agrees SameFree (Gen.FloryHuggins.init C chis sizes) (FHObject.new C chis sizes)) ∧
    (∀ chi sizes vd, Agrees SameFree (Gen.FloryHuggins.from_uniform C chi sizes vd)
      (FHObject.fromUniform C chi false sizes vd)) ∧
    (∀ mean std sizes vd rng, (∀ n, (rng mean std n).length = n) →
      Agrees SameFree (Gen.FloryHuggins.from_random_normal C mean std sizes vd rng)
        (FHObject.fromRandomNormal C (rng mean std) sizes vd)) ∧
    ∀ {a : Gen.FloryHugginsAttrs} {o : FHObject C}, SameFree a o →
      (∀ chis, Agrees SameFree (Gen.FloryHuggins.set_chis a chis)
        ((o.interaction.setChis chis).map fun i => { o with interaction := i })) ∧
      (∀ sizes, Agrees SameFree (Gen.FloryHuggins.set_sizes a sizes)
        ((o.entropy.setSizes sizes).map fun e => { o with entropy := e })) ∧
      Agrees SameMat (Gen.FloryHuggins.get_chis a) (.ok o.interaction.chis) ∧
      Agrees SameVec (Gen.FloryHuggins.get_sizes a) (.ok o.entropy.sizes) ∧
      (∀ kw, Agrees SameFHC (Gen.FloryHuggins.interaction_compiled a kw) (o.interaction.obj.compiled kw)) ∧
      ∀ kw, Agrees SameIdealC (Gen.FloryHuggins.entropy_compiled a kw) (o.entropy.obj.compiled kw) := by
  refine ⟨free_init_rel C, free_fromUniform_rel C, free_fromRandom_rel C, fun h => ⟨free_setChis_rel h,
    free_setSizes_rel h, h.interaction.chis, h.entropy.sizes, fun kw => ?_, fun kw => ?_⟩⟩
  · exact (C109_compiled (fh_object_same h.interaction) kw).1
  · exact (C109_compiled (gas_object_same h.entropy) kw).2.1

/-- **C109**, defaults: molecules are of size one, the diagonal of a uniform or random matrix vanishes, a random
matrix has mean 0 and standard deviation 1, and the shift is 1, as in the model. -/
theorem C109_defaults :
    Gen.FloryHuggins.init_defaults = none ∧
    Gen.FloryHuggins.from_uniform_defaults = (none, true) ∧
    Gen.FloryHuggins.from_random_normal_defaults = (0, 1, none, true) ∧
    Gen.FloryHugginsInteractionBase.compiled_impl_default = 1 ∧
    ∀ {C : ℕ} {chis : NDArr ℝ} {a : Gen.FloryHugginsAttrs},
      Gen.FloryHuggins.init C chis Gen.FloryHuggins.init_defaults = .ok a →
        ∃ sizes, Gen.FloryHuggins.get_sizes a = .ok sizes ∧ sizes.shape = [C] ∧ ∀ i, i < C → sizes.get [i] = 1 := by
  refine ⟨rfl, rfl, rfl, rfl, fun {C chis a} h => ?_⟩
  have hr := (C109_flory_huggins C).1 chis Gen.FloryHuggins.init_defaults
  rw [h] at hr
  cases hn : FHObject.new C chis Gen.FloryHuggins.init_defaults with
  | error e => rw [hn] at hr; exact hr.elim
  | ok o =>
    rw [hn] at hr
    have hs := hr.entropy.sizes
    refine ⟨_, rfl, hs.1, fun i hi => (hs.2 ⟨i, hi⟩).trans ?_⟩
    simp only [FHObject.new, GasEntropy.new, Gen.FloryHuggins.init_defaults] at hn
    cases hi : FHInteraction.new C chis with
    | error e => rw [hi] at hn; cases hn
    | ok x => rw [hi] at hn; cases hn; rfl

/-- Whatever a user assigns, there is an object of the model with the same numbers and a symmetric matrix. -/
theorem reachedFree_same {C : ℕ} {a : Gen.FloryHugginsAttrs} (h : ReachedFree C a) :
    ∃ o : FHObject C, SameFree a o := by
  have got : ∀ {x : Py Gen.FloryHugginsAttrs} {y : Py (FHObject C)} {a : Gen.FloryHugginsAttrs},
      Agrees SameFree x y → x = .ok a → ∃ o : FHObject C, SameFree a o := by
    intro x y a hr hx
    subst hx
    cases y with
    | error e => exact hr.elim
    | ok o => exact ⟨o, hr⟩
  induction h with
  | init h => exact got (free_init_rel C _ _) h
  | uniform h => exact got (free_fromUniform_rel C _ _ _) h
  | random hr h => exact got (free_fromRandom_rel C _ _ _ _ _ hr) h
  | chis _ h ih =>
    obtain ⟨o, ho⟩ := ih
    exact got (free_setChis_rel ho _) h
  | sizes _ h ih =>
    obtain ⟨o, ho⟩ := ih
    exact got (free_setSizes_rel ho _) h

/-- **C109**, for the transcribed text alone: for every `FloryHuggins` object with at least one component that a
user can get, reading `chis` and compiling never raise; the compiled matrix is the one that is read, with one row
and column for each component; and the coefficient that multiplies deviations from incompressibility is at least
the shift times the squared number of components, with the default shift at least that square. -/
theorem C109_coefficient {C : ℕ} (hC : 0 < C) {a : Gen.FloryHugginsAttrs} (h : ReachedFree C a) (kw : Dict ℝ) :
    ∃ chis c, Gen.FloryHuggins.get_chis a = .ok chis ∧ Gen.FloryHuggins.interaction_compiled a kw = .ok c ∧
      c._num_feat = C ∧ chis.shape = [C, C] ∧ c._chis = chis ∧
      (∃ i j, i < C ∧ j < C ∧ (∀ k l, k < C → l < C → chis.get [i, j] ≤ chis.get [k, l]) ∧
        c._incomp_coef = (∑ k : Fin C, ∑ l : Fin C, (chis.get [k.1, l.1] - chis.get [i, j]))
          + (kw.get? "additional_chis_shift").getD 1 * C ^ 2) ∧
      (kw.get? "additional_chis_shift").getD 1 * C ^ 2 ≤ c._incomp_coef := by
  obtain ⟨o, ho⟩ := reachedFree_same h
  have hn : NeZero C := ⟨by omega⟩
  have hm := ho.interaction.chis
  have hk : Gen.FloryHuggins.interaction_compiled a kw = Gen.FloryHugginsInteraction.compiled_impl a.interaction
      ((kw.get? "additional_chis_shift").getD 1) := by
    rw [show Gen.FloryHuggins.interaction_compiled a kw =
      Gen.InteractionBase.compiled (Gen.FloryHugginsInteraction.object a.interaction) kw from rfl,
      interaction_compiled, InstObj.compiled_eq]
    simp [Gen.FloryHugginsInteraction.object]
  set shift := (kw.get? "additional_chis_shift").getD 1 with hs
  obtain ⟨i, j, hij⟩ := matMin_mem o.interaction.chis
  have hc : Gen.FloryHugginsInteraction.compiled_impl a.interaction shift =
      .ok ⟨C, a.interaction._chis, (∑ i, ∑ j, o.interaction.chis i j) +
        (-matMin o.interaction.chis + shift) * C * C⟩ := by
    rw [← fhc_init hm]
    show (a.interaction._chis.min >>= fun t =>
      Gen.FloryHugginsInteractionCompiled.init a.interaction._chis (-t + shift)) = _
    rw [min_mat hm]
    rfl
  have hle : ∀ k l, o.interaction.chis i j ≤ o.interaction.chis k l := fun k l => hij ▸ matMin_le _ k l
  have hsum : (∑ k : Fin C, ∑ l : Fin C,
      (a.interaction._chis.get [k.1, l.1] - a.interaction._chis.get [i.1, j.1])) =
      (∑ k, ∑ l, o.interaction.chis k l) - o.interaction.chis i j * C * C := by
    simp only [hm.get, Finset.sum_sub_distrib, Finset.sum_const, Finset.card_univ, Fintype.card_fin, nsmul_eq_mul]
    ring
  refine ⟨a.interaction._chis, _, rfl, hk.trans hc, rfl, hm.shape, rfl, ⟨i.1, j.1, i.2, j.2, ?_, ?_⟩, ?_⟩
  · intro k l hk hl
    rw [hm.get i j, hm.get ⟨k, hk⟩ ⟨l, hl⟩]
    exact hle _ _
  · rw [hsum, hij]
    ring
  · have : 0 ≤ ∑ k : Fin C, ∑ l : Fin C, (o.interaction.chis k l - o.interaction.chis i j) :=
      Finset.sum_nonneg fun k _ => Finset.sum_nonneg fun l _ => sub_nonneg.2 (hle k l)
    simp only [Finset.sum_sub_distrib, Finset.sum_const, Finset.card_univ, Fintype.card_fin, nsmul_eq_mul] at this
    rw [hij]
    nlinarith

/-! ## Examples -/

/-- Two components with different interactions with themselves. -/
noncomputable def exampleChis : NDArr ℝ :=
  NDArr.ofMat fun i j : Fin 2 => if i = 0 then (if j = 0 then -1 else 2) else (if j = 0 then 4 else 1)

/-- The hypotheses of `C109_objects` and `C109_coefficient` are met: the constructor returns. -/
example : ∃ a, ReachedFree 2 a ∧ ∃ o : FHObject 2, SameFree a o ∧
    o.interaction.chis 0 1 = 3 ∧ o.interaction.chis 0 0 = -1 ∧ o.interaction.chis 1 1 = 1 := by
  have h := free_init_rel 2 exampleChis none
  have hn : FHObject.new 2 exampleChis none =
      .ok ⟨⟨symmetrize (exampleChis.toMat 2 2), false⟩, ⟨fun _ => 1⟩⟩ := by
    rfl
  rw [hn] at h
  cases ha : Gen.FloryHuggins.init 2 exampleChis none with
  | error e => rw [ha] at h; exact h.elim
  | ok a =>
    rw [ha] at h
    refine ⟨a, .init ha, _, h, ?_, ?_, ?_⟩ <;>
      norm_num [symmetrize, exampleChis, NDArr.toMat, NDArr.ofMat]

/-- Compiling without components raises `ValueError`, in the transcription as in the model. -/
example : Gen.FloryHugginsInteraction.compiled_impl ⟨0, NDArr.full [0, 0] 0⟩ 1 = .error .valueError := rfl

/-- A shift given by keyword is used; without it the default is. -/
example (a : Gen.FloryHugginsInteractionAttrs) :
    Gen.InteractionBase.compiled (Gen.FloryHugginsInteraction.object a) [("additional_chis_shift", 3)] =
      Gen.FloryHugginsInteraction.compiled_impl a 3 ∧
    Gen.InteractionBase.compiled (Gen.FloryHugginsInteraction.object a) [("other", 3)] =
      Gen.FloryHugginsInteraction.compiled_impl a 1 := by
  rw [interaction_compiled, interaction_compiled, InstObj.compiled_eq, InstObj.compiled_eq]
  constructor
  · simp [Gen.FloryHugginsInteraction.object, Dict.get?]
  · simp [Gen.FloryHugginsInteraction.object, Dict.get?, List.lookup]

end Flory
