import Verif.Model.Interaction
import Verif.Lemmas.Instances
import Verif.Spec.Calculus
import Mathlib.Analysis.Calculus.FDeriv.Mul
import Mathlib.Analysis.Calculus.FDeriv.Add
import Mathlib.Analysis.Calculus.FDeriv.Pi

/-! # Lemmas on Flory-Huggins interactions -/

set_option linter.unusedSectionVars false

namespace Flory

variable {K : Type} [Field K] [LinearOrder K] [IsStrictOrderedRing K]
variable {C S : ℕ}

theorem symmetrize_symm (a : Mat C C K) (i j : Fin C) : symmetrize a i j = symmetrize a j i := by
  simp only [symmetrize]; ring

theorem symmetrize_of_symm {a : Mat C C K} (h : ∀ i j, a i j = a j i) : symmetrize a = a := by
  funext i j
  simp only [symmetrize, h j i]; ring

theorem fhEnergy_symmetrize (a : Mat C C K) (phi : Vec C K) :
    fhEnergy (symmetrize a) phi = fhEnergy a phi := by
  unfold fhEnergy symmetrize
  congr 1
  have : ∑ i, ∑ j, phi i * phi j * a j i = ∑ i, ∑ j, phi i * phi j * a i j := by
    rw [Finset.sum_comm]
    exact Finset.sum_congr rfl fun i _ => Finset.sum_congr rfl fun j _ => by ring
  have e : ∀ i j, phi i * phi j * (1 / 2 * (a i j + a j i)) =
      1 / 2 * (phi i * phi j * a i j) + 1 / 2 * (phi i * phi j * a j i) := fun i j => by ring
  simp only [e, Finset.sum_add_distrib, ← Finset.mul_sum, this]
  ring

/-- Last value assigned to a key in a list of assignments. -/
def lastVal (l : List ((Fin C × Fin C) × K)) (q : Fin C × Fin C) : Option K :=
  l.foldl (fun acc p => if p.1 = q then some p.2 else acc) none

theorem lastVal_foldl (l : List ((Fin C × Fin C) × K)) (q : Fin C × Fin C) (o : Option K) :
    l.foldl (fun acc p => if p.1 = q then some p.2 else acc) o = (lastVal l q).or o := by
  induction l using List.reverseRecOn with
  | nil => simp [lastVal]
  | append_singleton l p ih =>
    simp only [lastVal, List.foldl_append, List.foldl_cons, List.foldl_nil]
    by_cases h : p.1 = q
    · simp [h]
    · simp only [h, if_false]; exact ih

theorem assign_eq [FloorRing K] (isInt : Bool) (idx : List (Fin C × Fin C)) (vals : List K)
    (chis : Mat C C K) (i j : Fin C) :
    FHInteraction.assign isInt idx vals chis i j =
      (lastVal (idx.zip vals) (i, j)).elim (chis i j) (FHInteraction.store isInt) := by
  unfold FHInteraction.assign
  induction idx.zip vals using List.reverseRecOn with
  | nil => simp [lastVal]
  | append_singleton l p ih =>
    simp only [lastVal, List.foldl_append, List.foldl_cons, List.foldl_nil, setAt2]
    by_cases h : p.1 = (i, j)
    · have h1 : i = p.1.1 ∧ j = p.1.2 := by rw [h]; simp
      simp [h]
    · have h1 : ¬ (i = p.1.1 ∧ j = p.1.2) := fun e => h (Prod.ext e.1.symm e.2.symm)
      simp only [h, h1, if_false]
      exact ih

theorem lastVal_swap (idx : List (Fin C × Fin C)) (vals : List K) (i j : Fin C) :
    lastVal ((idx.map Prod.swap).zip vals) (i, j) = lastVal (idx.zip vals) (j, i) := by
  have e : (idx.map Prod.swap).zip vals = (idx.zip vals).map fun p => (p.1.swap, p.2) := by
    rw [List.zip_map_left]; rfl
  rw [e]
  unfold lastVal
  rw [List.foldl_map]
  congr 1
  funext acc p
  have : (p.1.swap = (i, j)) ↔ p.1 = (j, i) := by
    constructor
    · intro h; rw [← Prod.swap_swap p.1, h]; rfl
    · intro h; rw [h]; rfl
  simp [this]

theorem lastVal_none {l : List ((Fin C × Fin C) × K)} {q : Fin C × Fin C}
    (h : ∀ p ∈ l, p.1 ≠ q) : lastVal l q = none := by
  induction l using List.reverseRecOn with
  | nil => rfl
  | append_singleton l p ih =>
    simp only [lastVal, List.foldl_append, List.foldl_cons, List.foldl_nil]
    rw [if_neg (h p (by simp))]
    exact ih fun p hp => h p (by simp [hp])

theorem mem_triu {b : Bool} {q : Fin C × Fin C} :
    q ∈ FHInteraction.triuIndices C b ↔ if b then q.1 < q.2 else q.1 ≤ q.2 := by
  unfold FHInteraction.triuIndices
  rw [List.mem_flatMap]
  constructor
  · rintro ⟨i, -, h⟩
    rw [List.mem_map] at h
    obtain ⟨j, hj, rfl⟩ := h
    rw [List.mem_filter] at hj
    cases b <;> simpa using hj.2
  · intro h
    refine ⟨q.1, by simp, ?_⟩
    rw [List.mem_map]
    refine ⟨q.2, ?_, rfl⟩
    rw [List.mem_filter]
    cases b <;> simpa using h

theorem zip_fst_mem {α β : Type} {l : List α} {l' : List β} {p : α × β} (h : p ∈ l.zip l') :
    p.1 ∈ l := (List.of_mem_zip h).1

theorem setRandom_entry [FloorRing K] (o : FHInteraction C K) (draws : ℕ → List K) (vd : Bool)
    (i j : Fin C) :
    let v := draws (if vd then C * (C - 1) / 2 else C * (C + 1) / 2)
    (o.setRandom draws vd).chis i j =
      (lastVal ((FHInteraction.triuIndices C vd).zip v) (j, i)).elim
        ((lastVal ((FHInteraction.triuIndices C vd).zip v) (i, j)).elim 0
          (FHInteraction.store o.isInt)) (FHInteraction.store o.isInt) := by
  intro v
  simp only [FHInteraction.setRandom]
  rw [assign_eq, lastVal_swap, assign_eq]

theorem lastVal_triu_none {vd : Bool} {v : List K} {i j : Fin C} (h : j < i) :
    lastVal ((FHInteraction.triuIndices C vd).zip v) (i, j) = none := by
  refine lastVal_none fun p hp e => ?_
  have := mem_triu.mp (zip_fst_mem hp)
  rw [e] at this
  cases vd
  · simp only [Bool.false_eq_true, if_false] at this; exact absurd h (not_lt.mpr this)
  · simp only [if_true] at this; exact absurd (h.trans this) (lt_irrefl _)

theorem setRandom_symm [FloorRing K] (o : FHInteraction C K) (draws : ℕ → List K) (vd : Bool)
    (i j : Fin C) : (o.setRandom draws vd).chis i j = (o.setRandom draws vd).chis j i := by
  rw [setRandom_entry, setRandom_entry]
  rcases lt_trichotomy i j with h | h | h
  · rw [lastVal_triu_none h]; cases lastVal _ (i, j) <;> simp
  · rw [h]
  · rw [lastVal_triu_none h]; cases lastVal _ (j, i) <;> simp

theorem nodup_triu (b : Bool) : (FHInteraction.triuIndices C b).Nodup := by
  unfold FHInteraction.triuIndices
  rw [List.nodup_flatMap]
  refine ⟨fun i _ => ?_, ?_⟩
  · refine List.Nodup.map (fun a b h => (Prod.mk.inj h).2) ((List.nodup_finRange C).filter _)
  · refine (List.nodup_finRange C).imp fun {a b} hab => ?_
    intro q h1 h2
    rw [List.mem_map] at h1 h2
    obtain ⟨_, -, rfl⟩ := h1
    obtain ⟨_, -, h⟩ := h2
    exact hab (Prod.mk.inj h).1.symm

theorem lastVal_zip {idx : List (Fin C × Fin C)} (hn : idx.Nodup) {v : List K}
    (hl : idx.length = v.length) : idx.map (lastVal (idx.zip v)) = v.map some := by
  induction idx using List.reverseRecOn generalizing v with
  | nil =>
    have : v = [] := List.length_eq_zero_iff.mp (by simpa using hl.symm)
    simp [this]
  | append_singleton l q ih =>
    induction v using List.reverseRecOn with
    | nil => simp at hl
    | append_singleton v x =>
      rw [List.length_append, List.length_append] at hl
      have hl' : l.length = v.length := by simpa using hl
      rw [List.zip_append hl']
      have hq : q ∉ l := by
        rw [List.nodup_append] at hn
        exact fun h => hn.2.2 q h q (by simp) rfl
      have hl0 : l.Nodup := (List.nodup_append.mp hn).1
      have key : ∀ q', lastVal (l.zip v ++ [q].zip [x]) q' =
          if q = q' then some x else lastVal (l.zip v) q' := by
        intro q'
        simp [lastVal, List.foldl_append]
      rw [List.map_append, List.map_append, ← ih hl0 hl']
      congr 1
      · refine List.map_congr_left fun q' h => ?_
        rw [key, if_neg (by rintro rfl; exact hq h)]
      · rw [List.map_singleton, key, if_pos rfl]; rfl

theorem length_filter_lt (i : Fin C) (b : Bool) :
    ((List.finRange C).filter fun j => if b then decide (i < j) else decide (i ≤ j)).length =
      if b then C - 1 - i else C - i := by
  have : ((List.finRange C).filter fun j => if b then decide (i < j) else decide (i ≤ j)).length =
      (Finset.univ.filter fun j : Fin C => if b then i < j else i ≤ j).card := by
    rw [← List.toFinset_card_of_nodup ((List.nodup_finRange C).filter _)]
    congr 1
    ext j
    cases b <;> simp
  rw [this]
  cases b
  · simp only [Bool.false_eq_true, if_false]
    have : (Finset.univ.filter fun j : Fin C => i ≤ j) = Finset.Ici i := by ext; simp
    rw [this, Fin.card_Ici]
  · simp only [if_true]
    have : (Finset.univ.filter fun j : Fin C => i < j) = Finset.Ioi i := by ext; simp
    rw [this, Fin.card_Ioi]

theorem length_triu (b : Bool) : (FHInteraction.triuIndices C b).length =
    if b then C * (C - 1) / 2 else C * (C + 1) / 2 := by
  unfold FHInteraction.triuIndices
  rw [List.length_flatMap]
  have e : (List.finRange C).map (fun i => (((List.finRange C).filter fun j =>
      if b then decide (i < j) else decide (i ≤ j)).map fun j => (i, j)).length) =
      (List.finRange C).map fun i : Fin C => if b then C - 1 - (i : ℕ) else C - i := by
    refine List.map_congr_left fun i _ => ?_
    rw [List.length_map, length_filter_lt]
  have e' : ((List.finRange C).map fun i : Fin C => if b then C - 1 - (i : ℕ) else C - i).sum =
      ∑ i : Fin C, if b then C - 1 - (i : ℕ) else C - i := by
    rw [← List.ofFn_eq_map, List.sum_ofFn]
  have hrange : ∀ f : ℕ → ℕ, ∑ i : Fin C, f i = ∑ i ∈ Finset.range C, f i := fun f =>
    (Finset.sum_range f).symm
  have hg : ∀ n, (∑ i ∈ Finset.range n, (n - 1 - i)) = n * (n - 1) / 2 := by
    intro n
    rw [Finset.sum_range_reflect (fun i => i) n, Finset.sum_range_id]
  have hg2 : ∀ n, (∑ i ∈ Finset.range n, (n - i)) = n * (n + 1) / 2 := by
    intro n
    have := hg (n + 1)
    rw [Finset.sum_range_succ] at this
    simp only [Nat.add_sub_cancel, Nat.sub_self, add_zero] at this
    rw [this, Nat.mul_comm]
  calc _ = ((List.finRange C).map fun i : Fin C => if b then C - 1 - (i : ℕ) else C - i).sum := by
        rw [← e]
    _ = _ := by
        rw [e']
        cases b
        · simp only [Bool.false_eq_true, if_false]; rw [hrange fun i => C - i, hg2]
        · simp only [if_true]; rw [hrange fun i => C - 1 - i, hg]

theorem matMin_le {S : ℕ} [NeZero S] (a : Mat S S K) (r s : Fin S) : matMin a ≤ a r s :=
  (npMin_le _ r).trans (npMin_le _ s)

theorem matMin_mem {S : ℕ} [NeZero S] (a : Mat S S K) : ∃ r s, matMin a = a r s := by
  obtain ⟨r, h⟩ := npMin_mem fun r => npMin (a r)
  obtain ⟨s, h'⟩ := npMin_mem (a r)
  exact ⟨r, s, h.trans h'⟩

theorem matMin_add {S : ℕ} [NeZero S] (a : Mat S S K) (c : K) :
    matMin (fun r s => a r s + c) = matMin a + c := by
  obtain ⟨r, s, h⟩ := matMin_mem fun r s => a r s + c
  obtain ⟨r', s', h'⟩ := matMin_mem a
  refine le_antisymm ?_ ?_
  · rw [h']; exact matMin_le (fun r s => a r s + c) r' s'
  · rw [h]; exact add_le_add_left (matMin_le a r s) c

open Spec

theorem hasFDerivAt_coord (x : Vec C ℝ) (i : Fin C) :
    HasFDerivAt (fun x : Vec C ℝ => x i)
      (ContinuousLinearMap.proj (R := ℝ) (φ := fun _ : Fin C => ℝ) i) x :=
  (ContinuousLinearMap.proj (R := ℝ) (φ := fun _ : Fin C => ℝ) i).hasFDerivAt

theorem fhEnergy_gradient {chis : Mat C C ℝ} (h : ∀ i j, chis i j = chis j i) (x : Vec C ℝ) :
    IsGradientAt (fhEnergy chis) (fhJacobian chis x) x := by
  unfold IsGradientAt fhEnergy
  have h1 := (HasFDerivAt.fun_sum (u := Finset.univ) fun i _ =>
    HasFDerivAt.fun_sum (u := Finset.univ) fun j _ =>
      ((hasFDerivAt_coord x i).mul (hasFDerivAt_coord x j)).mul_const (chis i j)).const_mul
      ((1 : ℝ) / 2)
  refine h1.congr_fderiv ?_
  ext v
  simp only [dot_apply, fhJacobian]
  simp only [smul_apply, sum_apply, add_apply,
    ContinuousLinearMap.proj_apply, smul_eq_mul]
  have e1 : ∑ i, ∑ j, chis i j * (x j * v i) = ∑ i, ∑ j, chis i j * (x i * v j) := by
    rw [Finset.sum_comm]
    exact Finset.sum_congr rfl fun i _ => Finset.sum_congr rfl fun j _ => by rw [h]
  have e2 : ∑ j, (∑ i, x i * chis i j) * v j = ∑ i, ∑ j, chis i j * (x i * v j) := by
    rw [Finset.sum_comm]
    refine Finset.sum_congr rfl fun j _ => ?_
    rw [Finset.sum_mul]
    exact Finset.sum_congr rfl fun i _ => by ring
  rw [e2]
  simp only [mul_add, Finset.sum_add_distrib, e1]
  ring

theorem fhJacobian_gradient {chis : Mat C C ℝ} (h : ∀ i j, chis i j = chis j i) (x : Vec C ℝ)
    (i : Fin C) : IsGradientAt (fun x => fhJacobian chis x i) (fhHessian chis x i) x := by
  unfold IsGradientAt fhJacobian
  have h1 := HasFDerivAt.fun_sum (u := Finset.univ) fun j _ =>
    (hasFDerivAt_coord x j).mul_const (chis j i)
  refine h1.congr_fderiv ?_
  ext v
  simp only [dot_apply, fhHessian, smul_apply, sum_apply,
    ContinuousLinearMap.proj_apply, smul_eq_mul, zero_add]
  exact Finset.sum_congr rfl fun j _ => by rw [h]

end Flory
