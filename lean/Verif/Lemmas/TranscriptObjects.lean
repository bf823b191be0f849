import Verif.Spec.TranscriptObjects
import Verif.Lemmas.NDArray
import Verif.Lemmas.Blocks
import Verif.Lemmas.Interaction
import Mathlib.Tactic.Linarith
import Mathlib.Tactic.NormNum

/-! # The transcribed constructors and setters step by step -/

set_option linter.unusedSectionVars false

namespace Flory

open Spec

theorem broadcastTo_shape {K : Type} {a b : NDArr K} {s : List ℕ} (h : a.broadcastTo s = .ok b) :
    b.shape = s := by
  unfold NDArr.broadcastTo at h
  split at h
  · cases h; rfl
  · cases h

theorem broadcastTo_error {K : Type} {a : NDArr K} {s : List ℕ} {e : PyErr}
    (h : a.broadcastTo s = .error e) : e = .valueError := by
  unfold NDArr.broadcastTo at h
  split at h
  · cases h
  · cases h; rfl

theorem sameVec_toVec {K : Type} {a : NDArr K} {n : ℕ} (h : a.shape = [n]) : SameVec a (a.toVec n) :=
  ⟨h, fun _ => rfl⟩

theorem sameMat_toMat {K : Type} {a : NDArr K} {r c : ℕ} (h : a.shape = [r, c]) :
    SameMat a (a.toMat r c) :=
  ⟨h, fun _ _ => rfl⟩

theorem sameVec_full {K : Type} (n : ℕ) (x : K) : SameVec (NDArr.full [n] x) (fun _ : Fin n => x) :=
  ⟨rfl, fun _ => rfl⟩

/-- `0.5 * (a + a.T)` of a square matrix. -/
theorem symmetrize_steps {n : ℕ} (a : NDArr ℝ) (h : a.shape = [n, n]) :
    ∃ s, NDArr.zip2 (fun x y => x + y) a a.transpose = .ok s ∧
      SameMat (s.map fun x => (1 / 2 : ℝ) * x) (symmetrize (a.toMat n n)) := by
  refine ⟨⟨a.shape, fun idx => a.get idx + a.transpose.get idx⟩, ?_, ⟨h, fun i j => ?_⟩⟩
  · unfold NDArr.zip2
    rw [if_pos (by simp [NDArr.transpose, h])]
  · simp [NDArr.map, NDArr.transpose, symmetrize, NDArr.toMat]

theorem total_vec {n : ℕ} (a : NDArr ℕ) (h : a.shape = [n]) : a.total = ∑ r, a.toVec n r := by
  unfold NDArr.total
  rw [h]
  rfl

theorem items_vec {K : Type} {n : ℕ} (a : NDArr K) (h : a.shape = [n]) :
    a.items = List.ofFn (a.toVec n) := by
  unfold NDArr.items
  rw [h]
  rfl

theorem shapeAt_zero (n : ℕ) (s : List ℕ) : shapeAt (n :: s) 0 = .ok n := by
  simp [shapeAt, normIndex, bind, Except.bind, pure, Except.pure]

theorem forListM_snoc {α σ : Type} (l : List α) (x : α) (s : σ) (body : α → σ → Py σ) :
    forListM (l ++ [x]) s body = forListM l s body >>= body x := by
  induction l generalizing s with
  | nil =>
    simp only [List.nil_append, forListM, bind, Except.bind]
    cases body x s <;> rfl
  | cons y l ih =>
    simp only [List.cons_append, forListM, bind, Except.bind]
    cases body y s with
    | error e => rfl
    | ok s' => exact ih s'

theorem repeatAxes_loop {K : Type} (counts : NDArr ℕ) (n : ℕ) (a : NDArr K) :
    forListM (List.range n) a (fun i a => a.repeatBy counts i) = repeatAxes counts.items n a := by
  induction n with
  | zero => rfl
  | succ n ih =>
    rw [List.range_succ, forListM_snoc, ih]
    rfl

theorem make_square_blocks_eq (arr : NDArr ℝ) (counts : NDArr ℕ) {n : ℕ} (h : counts.shape = [n]) :
    Gen.make_square_blocks arr counts = makeSquareBlocks arr counts.items := by
  have hl : counts.items.length = n := by rw [items_vec counts h, List.length_ofFn]
  have hb : (fun (i : ℕ) (ans : NDArr ℝ) => (NDArr.repeatBy ans counts i).bind Except.ok) =
      fun i a => a.repeatBy counts i := by
    funext i a
    cases a.repeatBy counts i <;> rfl
  unfold Gen.make_square_blocks makeSquareBlocks
  rw [h, shapeAt_zero]
  cases hs : arr.shape with
  | nil => rfl
  | cons m s =>
    dsimp only
    rw [shapeAt_zero]
    dsimp only [bind, Except.bind]
    by_cases h1 : (m :: s).dedup.length ≠ 1
    · rw [if_pos h1, if_pos (Or.inl h1)]
    · rw [if_neg h1]
      dsimp only [pure, Except.pure]
      by_cases h2 : n ≠ m
      · rw [if_pos h2, if_pos (Or.inr (by simpa [hl] using h2))]
      · rw [if_neg h2, if_neg (by simpa [hl] using ⟨not_not.mp h1, not_not.mp h2⟩)]
        have := repeatAxes_loop counts (m :: s).length arr
        rw [← this]
        show (forListM (List.range (m :: s).length) arr
          (fun (i : ℕ) (ans : NDArr ℝ) => (NDArr.repeatBy ans counts i).bind Except.ok)).bind Except.ok = _
        rw [hb]
        cases forListM (List.range (m :: s).length) arr fun i a => a.repeatBy counts i <;> rfl

/-- The expansion only reads entries inside the shape. -/
theorem makeSquareBlocks_congr {S : ℕ} {a b : NDArr ℝ} (per : Fin S → ℕ) {m : Mat S S ℝ}
    (ha : SameMat a m) (hb : SameMat b m) :
    ∃ x y, makeSquareBlocks a (List.ofFn per) = .ok x ∧ makeSquareBlocks b (List.ofFn per) = .ok y ∧
      x.shape = [∑ r, per r, ∑ r, per r] ∧ y.shape = [∑ r, per r, ∑ r, per r] ∧
      x.toMat (∑ r, per r) (∑ r, per r) = y.toMat (∑ r, per r) (∑ r, per r) := by
  obtain ⟨x, h1, h2, h3⟩ := makeSquareBlocks_ok a per (d := 1) ha.shape
  obtain ⟨y, h4, h5, h6⟩ := makeSquareBlocks_ok b per (d := 1) hb.shape
  refine ⟨x, y, h1, h4, h2, h5, ?_⟩
  funext i j
  have key : ∀ i : Fin (∑ r, per r), (NDArr.repeatIndex (List.ofFn per)).getD i 0 < S := by
    intro i
    have hlen : (NDArr.repeatIndex (List.ofFn per)).length = ∑ r, per r := by
      rw [NDArr.repeatIndex, (repeatIndex_spec (List.ofFn per) 0).1, List.sum_ofFn]
    have hi : i.1 < (NDArr.repeatIndex (List.ofFn per)).length := by rw [hlen]; exact i.2
    rw [List.getD_eq_getElem _ _ hi]
    have hm := List.getElem_mem hi
    unfold NDArr.repeatIndex at hm
    obtain ⟨p, hp, hx⟩ := List.mem_flatMap.mp hm
    have := List.snd_lt_of_mem_zipIdx hp
    rw [List.length_ofFn] at this
    have e := (List.mem_replicate.mp hx).2
    unfold NDArr.repeatIndex
    rw [e]
    simpa using this
  show x.get [i.1, j.1] = y.get [i.1, j.1]
  rw [h3 _ rfl, h6 _ rfl]
  exact (ha.get ⟨_, key i⟩ ⟨_, key j⟩).trans (hb.get ⟨_, key i⟩ ⟨_, key j⟩).symm

/-! ### Interactions -/

theorem fh_init_rel (C : ℕ) (chis : NDArr ℝ) :
    Agrees SameFH (Gen.FloryHugginsInteraction.init C chis) (FHInteraction.new C chis) := by
  unfold Gen.FloryHugginsInteraction.init FHInteraction.new
  dsimp only
  cases h : chis.atleast1d.broadcastTo [C, C] with
  | error e => exact rfl
  | ok a =>
    obtain ⟨s, h1, h2⟩ := symmetrize_steps a (broadcastTo_shape h)
    simp only [bind, Except.bind, h1]
    exact ⟨rfl, h2, rfl⟩

theorem fh_setChis_rel {C : ℕ} {a : Gen.FloryHugginsInteractionAttrs} {o : FHInteraction C ℝ}
    (ho : SameFH a o) (chis : NDArr ℝ) :
    Agrees SameFH (Gen.FloryHugginsInteraction.set_chis a chis) (o.setChis chis) := by
  unfold Gen.FloryHugginsInteraction.set_chis FHInteraction.setChis
  dsimp only
  rw [ho.num_comp]
  cases h : chis.atleast1d.broadcastTo [C, C] with
  | error e => exact rfl
  | ok a =>
    obtain ⟨s, h1, h2⟩ := symmetrize_steps a (broadcastTo_shape h)
    simp only [bind, Except.bind, h1]
    exact ⟨rfl, h2, rfl⟩

theorem fh_setUniform_rel {C : ℕ} {a : Gen.FloryHugginsInteractionAttrs} {o : FHInteraction C ℝ}
    (ho : SameFH a o) (chi : ℝ) (vd : Bool) :
    Agrees SameFH (Gen.FloryHugginsInteraction.set_uniform_chis a chi vd)
      (.ok (o.setUniform chi false vd)) := by
  unfold Gen.FloryHugginsInteraction.set_uniform_chis FHInteraction.setUniform
  dsimp only
  rw [ho.num_comp]
  cases vd with
  | false => exact ⟨rfl, ⟨rfl, fun i j => by simp [NDArr.full]⟩, rfl⟩
  | true =>
    refine ⟨rfl, ⟨rfl, fun i j => ?_⟩, rfl⟩
    simp [NDArr.full, NDArr.setDiag, Fin.ext_iff]

theorem block_init_rel (S : ℕ) (chisFeat : NDArr ℝ) (perFeat : NDArr ℕ) :
    Agrees SameBlock (Gen.FloryHugginsBlockInteraction.init S chisFeat perFeat)
      (FHBlock.new S chisFeat perFeat) := by
  have e1 : Gen.convert_and_broadcast_nat perFeat [S] = convertAndBroadcast perFeat [S] := by
    unfold Gen.convert_and_broadcast_nat convertAndBroadcast
    dsimp only
    cases perFeat.atleast1d.broadcastTo [S] <;> rfl
  have e2 : Gen.convert_and_broadcast chisFeat [S, S] = convertAndBroadcast chisFeat [S, S] := by
    unfold Gen.convert_and_broadcast convertAndBroadcast
    dsimp only
    cases chisFeat.atleast1d.broadcastTo [S, S] <;> rfl
  unfold Gen.FloryHugginsBlockInteraction.init FHBlock.new
  dsimp only
  rw [e1, e2]
  cases hp : convertAndBroadcast perFeat [S] with
  | error e => exact rfl
  | ok per =>
    cases hc : convertAndBroadcast chisFeat [S, S] with
    | error e => exact rfl
    | ok cf =>
      have hps : per.shape = [S] := broadcastTo_shape hp
      have hcs : cf.shape = [S, S] := broadcastTo_shape hc
      obtain ⟨s, h1, h2⟩ := symmetrize_steps cf hcs
      have hclose : cf.allclose cf.transpose = !FHBlock.notSymmetric (cf.toMat S S) := by
        unfold NDArr.allclose FHBlock.notSymmetric
        rw [← decide_not]
        refine decide_eq_decide.mpr ?_
        simp only [not_exists, not_not, hcs]
        constructor
        · intro h r t
          exact h [r.1, t.1] (.cons r.2 (.cons t.2 .nil))
        · intro h idx hi
          obtain ⟨r, u, hr, hu, rfl⟩ := List.forall₂_cons_right_iff.mp hi
          obtain ⟨t, v, ht, hv, rfl⟩ := List.forall₂_cons_right_iff.mp hu
          obtain rfl := List.forall₂_nil_right_iff.mp hv
          exact h ⟨r, hr⟩ ⟨t, ht⟩
      simp only [bind, Except.bind, hclose]
      cases hn : FHBlock.notSymmetric (cf.toMat S S) with
      | true => exact rfl
      | false =>
        obtain ⟨x, y, hx, hy, sx, sy, hxy⟩ := makeSquareBlocks_congr (per.toVec S) h2
          (b := NDArr.ofMat (symmetrize (cf.toMat S S))) ⟨rfl, fun i j => ofMat_get _ i j⟩
        simp only [h1, make_square_blocks_eq _ per hps, items_vec per hps, hx, hy, total_vec per hps]
        obtain ⟨x', hx1, hx2, hx3⟩ := broadcastTo_same x sx
        obtain ⟨y', hy1, hy2, hy3⟩ := broadcastTo_same y sy
        rw [atleast1d_of_ne (by rw [sx]; simp), atleast1d_of_ne (by rw [sy]; simp), hx1, hy1]
        obtain ⟨s', h1', h2'⟩ := symmetrize_steps x' hx2
        have hm : x'.toMat (∑ r, per.toVec S r) (∑ r, per.toVec S r) =
            y'.toMat (∑ r, per.toVec S r) (∑ r, per.toVec S r) := by
          funext i j
          have hi : List.Forall₂ (· < ·) [i.1, j.1] [∑ r, per.toVec S r, ∑ r, per.toVec S r] :=
            .cons i.2 (.cons j.2 .nil)
          exact (hx3 _ hi).trans ((congrFun (congrFun hxy i) j).trans (hy3 _ hi).symm)
        rw [hm] at h2'
        simp only [h1']
        refine ⟨rfl, sameVec_toVec hps, h2, rfl, ⟨h2'.shape, fun i j => ?_⟩, rfl, fun x => by simp⟩
        exact (h2'.get i j).trans (ofMat_get _ i j).symm

theorem block_setChisFeat_rel {S : ℕ} {a : Gen.FloryHugginsBlockInteractionAttrs} {o : FHBlock S ℝ}
    (ho : SameBlock a o) (chis : NDArr ℝ) :
    Agrees SameBlock (Gen.FloryHugginsBlockInteraction.set_chis_feat a chis) (o.setChisFeat chis) := by
  have h : ¬"_num_feat" ∈ o.attrs := by rw [ho.attrs]; decide
  unfold Gen.FloryHugginsBlockInteraction.set_chis_feat FHBlock.setChisFeat needAttr
  rw [if_neg h]
  exact rfl

/-! ### Entropies -/

theorem gas_init_rel (C : ℕ) (sizes : Option (NDArr ℝ)) :
    Agrees SameGas (Gen.IdealGasEntropy.init C sizes) (GasEntropy.new C sizes) := by
  unfold Gen.IdealGasEntropy.init GasEntropy.new
  cases sizes with
  | none => exact ⟨rfl, sameVec_full C 1⟩
  | some s =>
    dsimp only
    cases h : s.atleast1d.broadcastTo [C] with
    | error e => exact rfl
    | ok b => exact ⟨rfl, sameVec_toVec (broadcastTo_shape h)⟩

theorem gas_setSizes_rel {C : ℕ} {a : Gen.IdealGasEntropyAttrs} {o : GasEntropy C} (ho : SameGas a o)
    (sizes : NDArr ℝ) :
    Agrees SameGas (Gen.IdealGasEntropy.set_sizes a sizes) (o.setSizes sizes) := by
  unfold Gen.IdealGasEntropy.set_sizes GasEntropy.setSizes
  dsimp only
  rw [ho.num_comp]
  cases h : sizes.atleast1d.broadcastTo [C] with
  | error e => exact rfl
  | ok b => exact ⟨rfl, sameVec_toVec (broadcastTo_shape h)⟩

theorem poly_init_rel (S : ℕ) (sizes : Option (NDArr ℝ)) (perFeat : NDArr ℕ) :
    Agrees SamePoly (Gen.IdealGasPolydispersedEntropy.init S sizes perFeat)
      (PolyEntropy.new S sizes perFeat) := by
  have e1 : Gen.convert_and_broadcast_nat perFeat [S] = convertAndBroadcast perFeat [S] := by
    unfold Gen.convert_and_broadcast_nat convertAndBroadcast
    dsimp only
    cases perFeat.atleast1d.broadcastTo [S] <;> rfl
  unfold Gen.IdealGasPolydispersedEntropy.init PolyEntropy.new
  dsimp only
  rw [e1]
  cases hp : convertAndBroadcast perFeat [S] with
  | error e => exact rfl
  | ok per =>
    have hps : per.shape = [S] := broadcastTo_shape hp
    simp only [bind, Except.bind, total_vec per hps]
    unfold GasEntropy.new
    cases sizes with
    | none => exact ⟨rfl, sameVec_toVec hps, rfl, sameVec_full _ 1⟩
    | some s =>
      dsimp only
      cases h : s.atleast1d.broadcastTo [∑ r, per.toVec S r] with
      | error e => exact rfl
      | ok b => exact ⟨rfl, sameVec_toVec hps, rfl, sameVec_toVec (broadcastTo_shape h)⟩

theorem poly_setSizes_rel {S : ℕ} {a : Gen.IdealGasPolydispersedEntropyAttrs} {o : PolyEntropy S}
    (ho : SamePoly a o) (sizes : NDArr ℝ) :
    Agrees SamePoly (Gen.IdealGasPolydispersedEntropy.set_sizes a sizes) (o.setSizes sizes) := by
  unfold Gen.IdealGasPolydispersedEntropy.set_sizes PolyEntropy.setSizes GasEntropy.setSizes
  dsimp only
  rw [ho.num_comp]
  cases h : sizes.atleast1d.broadcastTo [∑ r, o.perFeat r] with
  | error e => exact rfl
  | ok b => exact ⟨ho.num_feat, ho.perFeat, rfl, sameVec_toVec (broadcastTo_shape h)⟩

/-! ### Ensembles -/

theorem canonical_init_rel (C : ℕ) (phi : Option (NDArr ℝ)) :
    Agrees SameCanonical (Gen.CanonicalEnsemble.init C phi) (CanonicalEnsemble.new C phi) := by
  unfold Gen.CanonicalEnsemble.init CanonicalEnsemble.new
  dsimp only
  by_cases hC : C < 1
  · rw [if_pos hC, if_pos hC]
    exact rfl
  · rw [if_neg hC, if_neg hC]
    cases phi with
    | none =>
      have h0 : (C : ℝ) ≠ 0 := by
        have : C ≠ 0 := by omega
        exact_mod_cast this
      obtain ⟨b, hb1, hb2, hb3⟩ := broadcastTo_same (NDArr.full [C] (1 / (C : ℝ))) (s := [C]) rfl
      simp only [bind, Except.bind, pyDiv, if_neg h0]
      rw [hb1]
      exact ⟨rfl, ⟨hb2, fun i => hb3 [i.1] (.cons i.2 .nil)⟩⟩
    | some s =>
      dsimp only
      cases h : s.atleast1d.broadcastTo [C] with
      | error e => exact rfl
      | ok b => exact ⟨rfl, sameVec_toVec (broadcastTo_shape h)⟩

theorem canonical_setPhiMeans_rel {C : ℕ} {a : Gen.CanonicalEnsembleAttrs} {o : CanonicalEnsemble C}
    (ho : SameCanonical a o) (phi : NDArr ℝ) :
    Agrees SameCanonical (Gen.CanonicalEnsemble.set_phi_means a phi) (o.setPhiMeans phi) := by
  unfold Gen.CanonicalEnsemble.set_phi_means CanonicalEnsemble.setPhiMeans
  dsimp only
  rw [ho.num_comp]
  cases h : phi.broadcastTo [C] with
  | error e => exact rfl
  | ok b => exact ⟨rfl, sameVec_toVec (broadcastTo_shape h)⟩

theorem grand_init_rel (C : ℕ) (z : NDArr ℝ) :
    Agrees SameGrand (Gen.GrandCanonicalEnsemble.init C z) (GrandCanonicalEnsemble.new C z) := by
  unfold Gen.GrandCanonicalEnsemble.init GrandCanonicalEnsemble.new
  dsimp only
  by_cases hC : C < 1
  · rw [if_pos hC, if_pos hC]
    exact rfl
  · rw [if_neg hC, if_neg hC]
    cases h : z.atleast1d.broadcastTo [C] with
    | error e => exact rfl
    | ok b => exact ⟨rfl, sameVec_toVec (broadcastTo_shape h)⟩

theorem grand_setScaledActivity_rel {C : ℕ} {a : Gen.GrandCanonicalEnsembleAttrs}
    {o : GrandCanonicalEnsemble C} (ho : SameGrand a o) (z : NDArr ℝ) :
    Agrees SameGrand (Gen.GrandCanonicalEnsemble.set_scaled_activity a z) (o.setScaledActivity z) := by
  unfold Gen.GrandCanonicalEnsemble.set_scaled_activity GrandCanonicalEnsemble.setScaledActivity
  dsimp only
  rw [ho.num_comp]
  cases h : z.atleast1d.broadcastTo [C] with
  | error e => exact rfl
  | ok b => exact ⟨rfl, sameVec_toVec (broadcastTo_shape h)⟩

/-! ### Constraints -/

theorem local_init_rel (S : ℕ) (Cs Ts : NDArr ℝ) :
    Agrees SameLocal (Gen.LinearLocalConstraint.init S Cs Ts) (LinearConstraint.new false S Cs Ts) := by
  unfold Gen.LinearLocalConstraint.init LinearConstraint.new
  generalize Cs.atleast1d = Cs
  dsimp only
  have fin : ∀ A : ℕ, Agrees SameLocal (do
      let t5 : NDArr ℝ ← NDArr.broadcastTo Cs [A, S]
      let t7 : NDArr ℝ ← NDArr.broadcastTo Ts.atleast1d [A]
      pure { num_feat := S, num_cons := A, _Cs := t5, _Ts := t7 })
      (LinearConstraint.new.fill (S := S) false A Cs Ts) := by
    intro A
    unfold LinearConstraint.new.fill
    cases h : Cs.broadcastTo [A, S] with
    | error e => exact rfl
    | ok c =>
      cases h' : Ts.atleast1d.broadcastTo [A] with
      | error e => exact rfl
      | ok t =>
        exact ⟨rfl, rfl, sameMat_toMat (broadcastTo_shape h), sameVec_toVec (broadcastTo_shape h'), rfl⟩
  unfold NDArr.ndim
  match hs : Cs.shape with
  | [] => exact rfl
  | [n] => exact fin 1
  | [A, n] =>
    have := fin A
    simpa [shapeAt_zero, bind, Except.bind, pure, Except.pure] using this
  | _ :: _ :: _ :: _ =>
    simp [bind, Except.bind, Agrees]

theorem local_setCs_rel {S : ℕ} {a : Gen.LinearLocalConstraintAttrs} {o : LinearConstraint S}
    (ho : SameLocal a o) (x : NDArr ℝ) :
    Agrees SameLocal (Gen.LinearLocalConstraint.set_Cs a x) (o.setCs x) := by
  unfold Gen.LinearLocalConstraint.set_Cs LinearConstraint.setCs
  dsimp only
  rw [ho.num_feat, ho.num_cons]
  cases h : x.atleast1d.broadcastTo [o.numCons, S] with
  | error e => exact rfl
  | ok b => exact ⟨rfl, rfl, sameMat_toMat (broadcastTo_shape h), ho.Ts, ho.isLocal⟩

theorem local_setTs_rel {S : ℕ} {a : Gen.LinearLocalConstraintAttrs} {o : LinearConstraint S}
    (ho : SameLocal a o) (x : NDArr ℝ) :
    Agrees SameLocal (Gen.LinearLocalConstraint.set_Ts a x) (o.setTs x) := by
  unfold Gen.LinearLocalConstraint.set_Ts LinearConstraint.setTs
  dsimp only
  rw [ho.num_feat, ho.num_cons]
  cases h : x.atleast1d.broadcastTo [o.numCons] with
  | error e => exact rfl
  | ok b => exact ⟨rfl, rfl, ho.Cs, sameVec_toVec (broadcastTo_shape h), ho.isLocal⟩

theorem global_init_rel (S : ℕ) (Cs Ts : NDArr ℝ) :
    Agrees SameGlobal (Gen.LinearGlobalConstraint.init S Cs Ts) (LinearConstraint.new true S Cs Ts) := by
  unfold Gen.LinearGlobalConstraint.init LinearConstraint.new
  generalize Cs.atleast1d = Cs
  dsimp only
  have fin : ∀ A : ℕ, Agrees SameGlobal (do
      let t5 : NDArr ℝ ← NDArr.broadcastTo Cs [A, S]
      let t7 : NDArr ℝ ← NDArr.broadcastTo Ts.atleast1d [A]
      pure { num_feat := S, num_cons := A, _Cs := t5, _Ts := t7 })
      (LinearConstraint.new.fill (S := S) true A Cs Ts) := by
    intro A
    unfold LinearConstraint.new.fill
    cases h : Cs.broadcastTo [A, S] with
    | error e => exact rfl
    | ok c =>
      cases h' : Ts.atleast1d.broadcastTo [A] with
      | error e => exact rfl
      | ok t =>
        exact ⟨rfl, rfl, sameMat_toMat (broadcastTo_shape h), sameVec_toVec (broadcastTo_shape h'), rfl⟩
  unfold NDArr.ndim
  match hs : Cs.shape with
  | [] => exact rfl
  | [n] => exact fin 1
  | [A, n] =>
    have := fin A
    simpa [shapeAt_zero, bind, Except.bind, pure, Except.pure] using this
  | _ :: _ :: _ :: _ =>
    simp [bind, Except.bind, Agrees]

theorem global_setCs_rel {S : ℕ} {a : Gen.LinearGlobalConstraintAttrs} {o : LinearConstraint S}
    (ho : SameGlobal a o) (x : NDArr ℝ) :
    Agrees SameGlobal (Gen.LinearGlobalConstraint.set_Cs a x) (o.setCs x) := by
  unfold Gen.LinearGlobalConstraint.set_Cs LinearConstraint.setCs
  dsimp only
  rw [ho.num_feat, ho.num_cons]
  cases h : x.atleast1d.broadcastTo [o.numCons, S] with
  | error e => exact rfl
  | ok b => exact ⟨rfl, rfl, sameMat_toMat (broadcastTo_shape h), ho.Ts, ho.isGlobal⟩

theorem global_setTs_rel {S : ℕ} {a : Gen.LinearGlobalConstraintAttrs} {o : LinearConstraint S}
    (ho : SameGlobal a o) (x : NDArr ℝ) :
    Agrees SameGlobal (Gen.LinearGlobalConstraint.set_Ts a x) (o.setTs x) := by
  unfold Gen.LinearGlobalConstraint.set_Ts LinearConstraint.setTs
  dsimp only
  rw [ho.num_feat, ho.num_cons]
  cases h : x.atleast1d.broadcastTo [o.numCons] with
  | error e => exact rfl
  | ok b => exact ⟨rfl, rfl, ho.Cs, sameVec_toVec (broadcastTo_shape h), ho.isGlobal⟩

/-! ### Phases -/

theorem phases_init_rel (volumes fractions : NDArr ℝ) :
    Agrees SamePhases (Gen.Phases.init volumes fractions) (Phases.new volumes fractions) := by
  obtain ⟨sv, gv⟩ := volumes
  obtain ⟨sf, gf⟩ := fractions
  unfold Gen.Phases.init Phases.new NDArr.ndim
  dsimp only
  match sv with
  | [] => exact rfl
  | _ :: _ :: _ => simp [bind, Except.bind, Agrees]
  | [n] =>
    match sf with
    | [] => exact rfl
    | [_] => exact rfl
    | _ :: _ :: _ :: _ => simp [bind, Except.bind, Agrees]
    | [m, c] =>
      by_cases h : n = m
      · subst h
        simp only [shapeAt_zero, bind, Except.bind, pure, Except.pure, Agrees]
        simp
        exact ⟨⟨rfl, fun _ => rfl⟩, ⟨rfl, fun _ _ => rfl⟩⟩
      · simp [shapeAt_zero, bind, Except.bind, Agrees, h]

/-! ### Chemical potentials -/

theorem zip2_vec {n : ℕ} (f : ℝ → ℝ → ℝ) {a b : NDArr ℝ} {v w : Vec n ℝ} (ha : SameVec a v)
    (hb : SameVec b w) : ∃ c, NDArr.zip2 f a b = .ok c ∧ SameVec c (fun i => f (v i) (w i)) := by
  refine ⟨⟨a.shape, fun idx => f (a.get idx) (b.get idx)⟩, ?_, ha.shape, fun i => ?_⟩
  · unfold NDArr.zip2
    rw [if_pos (by rw [ha.shape, hb.shape])]
  · show f (a.get [i.1]) (b.get [i.1]) = _
    rw [ha.get, hb.get]

/-- The last part of `from_chemical_potential`. -/
theorem grand_fromChemPot_end {C : ℕ} (hC : 1 ≤ C) {mus sizes : NDArr ℝ} {v w : Vec C ℝ}
    (hm : SameVec mus v) (hs : SameVec sizes w) :
    ∃ t c r, NDArr.zip2 (fun x y => x * y) sizes mus = .ok t ∧
      NDArr.zip2 (fun x y => x * y) sizes (t.map Real.exp) = .ok c ∧
      Gen.GrandCanonicalEnsemble.init C c = .ok r ∧
      SameGrand r ⟨(GrandC.fromChemicalPotential v w).scaledActivity⟩ := by
  obtain ⟨t, h1, h2⟩ := zip2_vec (fun x y => x * y) hs hm
  have h3 : SameVec (t.map Real.exp) fun i => Real.exp (w i * v i) :=
    ⟨h2.shape, fun i => congrArg Real.exp (h2.get i)⟩
  obtain ⟨c, h4, h5⟩ := zip2_vec (fun x y => x * y) hs h3
  obtain ⟨b, hb1, hb2, hb3⟩ := broadcastTo_same c h5.shape
  refine ⟨t, c, ⟨C, b⟩, h1, h4, ?_, rfl, hb2, fun i => ?_⟩
  · unfold Gen.GrandCanonicalEnsemble.init
    dsimp only
    rw [if_neg (by omega), atleast1d_of_ne (by rw [h5.shape]; simp), hb1]
    rfl
  · exact (hb3 [i.1] (.cons i.2 .nil)).trans (h5.get i)

/-! ### Random interactions -/

theorem Agrees.bind {α β γ δ : Type} {R : α → β → Prop} {R' : γ → δ → Prop} {x : Py α} {y : Py β}
    {f : α → Py γ} {g : β → Py δ} (h : Agrees R x y) (hf : ∀ a b, R a b → Agrees R' (f a) (g b)) :
    Agrees R' (x >>= f) (y >>= g) := by
  cases x with
  | error e =>
    cases y with
    | error e' => exact h
    | ok b => exact h.elim
  | ok a =>
    cases y with
    | error e' => exact h.elim
    | ok b => exact hf a b h

theorem assign_steps {C : ℕ} (l : List ((Fin C × Fin C) × ℝ)) (g : List ℕ → ℝ) (m : Mat C C ℝ)
    (h : ∀ i j : Fin C, g [i.1, j.1] = m i j) (i j : Fin C) :
    (l.map fun p => ((p.1.1.1, p.1.2.1), p.2)).foldl
      (fun g p idx => if idx = [p.1.1, p.1.2] then p.2 else g idx) g [i.1, j.1] =
    l.foldl (fun a p => setAt2 a p.1.1 p.1.2 (FHInteraction.store false p.2)) m i j := by
  induction l generalizing g m with
  | nil => exact h i j
  | cons p l ih =>
    simp only [List.map_cons, List.foldl_cons]
    refine ih _ _ fun i j => ?_
    simp [setAt2, FHInteraction.store, h, Fin.ext_iff]

theorem assignAt_rel {C : ℕ} {a : NDArr ℝ} {m : Mat C C ℝ} (ha : SameMat a m)
    (idx : List (Fin C × Fin C)) {vals : List ℝ} (hv : vals.length = idx.length) :
    ∃ b, a.assignAt (idx.map fun p => p.1.1) (idx.map fun p => p.2.1) vals = .ok b ∧
      SameMat b (FHInteraction.assign false idx vals m) := by
  have hvals : NDArr.spread (idx.map fun p => p.1.1).length vals = vals := by
    match vals, hv with
    | [], _ => rfl
    | [x], hv => simp [NDArr.spread, ← hv]
    | _ :: _ :: _, _ => rfl
  have hin : (∀ i ∈ idx.map (fun p => p.1.1), i < a.shape.getD 0 0) ∧
      ∀ j ∈ idx.map (fun p => p.2.1), j < a.shape.getD 1 0 := by
    rw [ha.shape]
    constructor
    · intro i hi
      obtain ⟨p, -, rfl⟩ := List.mem_map.mp hi
      exact p.1.2
    · intro j hj
      obtain ⟨p, -, rfl⟩ := List.mem_map.mp hj
      exact p.2.2
  unfold NDArr.assignAt
  rw [if_neg (by simp), if_neg (not_not.mpr hin)]
  dsimp only
  rw [hvals, if_neg (by simpa using hv)]
  refine ⟨_, rfl, ha.shape, fun i j => ?_⟩
  have e : ((idx.map fun p => p.1.1).zip (idx.map fun p => p.2.1)).zip vals =
      (idx.zip vals).map fun p => ((p.1.1.1, p.1.2.1), p.2) := by
    rw [List.zip_map', List.zip_map_left]
    rfl
  show (((idx.map fun p => p.1.1).zip (idx.map fun p => p.2.1)).zip vals).foldl _ a.get _ = _
  rw [e]
  exact assign_steps _ a.get m ha.get i j

theorem triu_eq (C : ℕ) (vd : Bool) :
    triu C (if vd = true then 1 else 0) =
      ((FHInteraction.triuIndices C vd).map (fun p => p.1.1),
        (FHInteraction.triuIndices C vd).map fun p => p.2.1) := by
  have e : ((List.range C).flatMap fun i => ((List.range C).filter fun j =>
      decide (i + (if vd = true then 1 else 0) ≤ j)).map fun j => (i, j)) =
      (FHInteraction.triuIndices C vd).map fun p => (p.1.1, p.2.1) := by
    unfold FHInteraction.triuIndices
    rw [List.map_flatMap, ← List.map_coe_finRange_eq_range, List.flatMap_map]
    congr 1
    funext i
    rw [List.filter_map, List.map_map, List.map_map]
    congr 1
    refine List.filter_congr fun j _ => ?_
    cases vd <;> simp
  unfold triu
  rw [e, List.unzip_eq_map]
  simp

theorem fh_setRandom_rel {C : ℕ} {a : Gen.FloryHugginsInteractionAttrs} {o : FHInteraction C ℝ}
    (ho : SameFH a o) (mean std : ℝ) (vd : Bool) (rng : ℝ → ℝ → ℕ → List ℝ)
    (hr : ∀ n, (rng mean std n).length = n) :
    Agrees SameFH (Gen.FloryHugginsInteraction.set_random_chis a mean std vd rng)
      (.ok (o.setRandom (rng mean std) vd)) := by
  unfold FHInteraction.setRandom
  have hn : (rng mean std (if vd = true then C * (C - 1) / 2 else C * (C + 1) / 2)).length =
      (FHInteraction.triuIndices C vd).length := by rw [hr, length_triu]
  have h0 : SameMat (NDArr.full a._chis.shape (0 : ℝ)) (fun _ _ : Fin C => (0 : ℝ)) :=
    ⟨ho.chis.shape, fun _ _ => rfl⟩
  obtain ⟨b, h1, h2⟩ := assignAt_rel h0 (FHInteraction.triuIndices C vd) hn
  obtain ⟨c, h3, h4⟩ := assignAt_rel h2 ((FHInteraction.triuIndices C vd).map Prod.swap)
    (by rw [hn, List.length_map])
  rw [List.map_map, List.map_map] at h3
  unfold Gen.FloryHugginsInteraction.set_random_chis
  dsimp only
  rw [ho.num_comp, triu_eq, ho.float]
  cases vd
  all_goals
    simp only [if_true, Bool.false_eq_true, if_false] at h1 h2 h3 h4 ⊢
    simp only [bind, Except.bind, pure, Except.pure, h1]
    erw [h3]
    exact ⟨rfl, h4, rfl⟩

theorem fh_fromUniform_rel (C : ℕ) (chi : ℝ) (vd : Bool) :
    Agrees SameFH (Gen.FloryHugginsInteraction.from_uniform C chi vd)
      (FHInteraction.fromUniform C chi false vd) := by
  refine Agrees.bind (fh_init_rel C (NDArr.scalar 0)) fun a o ho => ?_
  have := fh_setUniform_rel ho chi vd
  dsimp only
  revert this
  cases Gen.FloryHugginsInteraction.set_uniform_chis a chi vd <;> exact id

theorem fh_fromRandom_rel (C : ℕ) (mean std : ℝ) (vd : Bool) (rng : ℝ → ℝ → ℕ → List ℝ)
    (hr : ∀ n, (rng mean std n).length = n) :
    Agrees SameFH (Gen.FloryHugginsInteraction.from_random_normal C mean std vd rng)
      (FHInteraction.fromRandomNormal C (rng mean std) vd) := by
  refine Agrees.bind (fh_init_rel C (NDArr.scalar 0)) fun a o ho => ?_
  have := fh_setRandom_rel ho mean std vd rng hr
  dsimp only
  revert this
  cases Gen.FloryHugginsInteraction.set_random_chis a mean std vd rng <;> exact id

end Flory
