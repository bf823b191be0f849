import Verif.Lemmas.Interaction
import Verif.Lemmas.Blocks
import Verif.Lemmas.NDArray
import Verif.Props.Demo

/-!
# C11 – C18: interactions
-/

set_option linter.unusedSectionVars false

namespace Flory

open Spec

section Blocks

variable {K : Type}

/-- **C11**, expansion, for arrays of any rank at least one: every dimension becomes the number of
components and the entry for components `idx` is the one of their features `idxF`. -/
theorem C11_block_expansion (a : NDArr K) {S : ℕ} (per : Fin S → ℕ) {d : ℕ}
    (hs : a.shape = List.replicate (d + 1) S) :
    ∃ b, makeSquareBlocks a (List.ofFn per) = .ok b ∧
      b.shape = List.replicate (d + 1) (∑ r, per r) ∧
      ∀ idx idxF : List ℕ, idx.length = d + 1 →
        List.Forall₂ (fun (i r : ℕ) => ∃ r' : Fin S, r = r' ∧
          offset per r' ≤ i ∧ i < offset per r' + per r') idx idxF →
        b.get idx = a.get idxF := by
  obtain ⟨b, h1, h2, h3⟩ := makeSquareBlocks_ok a per hs
  refine ⟨b, h1, h2, fun idx idxF hl hf => ?_⟩
  rw [h3 idx hl]
  congr 1
  clear hl h3
  induction hf with
  | nil => rfl
  | cons hr _ ih =>
    obtain ⟨r, rfl, h⟩ := hr
    rw [List.map_cons, ih, repeatIndex_ofFn per r h]

example : ∃ b : NDArr ℕ, makeSquareBlocks ⟨[2, 2], fun idx => 10 * idx.getD 0 0 + idx.getD 1 0⟩
    (List.ofFn ![2, 1]) = .ok b ∧ b.shape = [3, 3] ∧ b.get [1, 2] = 1 := by
  obtain ⟨b, h1, h2, h3⟩ := C11_block_expansion (K := ℕ)
    ⟨[2, 2], fun idx => 10 * idx.getD 0 0 + idx.getD 1 0⟩ ![2, 1] (d := 1) rfl
  refine ⟨b, h1, h2, ?_⟩
  rw [h3 [1, 2] [0, 1] rfl]
  · rfl
  · refine .cons ⟨0, rfl, ?_⟩ (.cons ⟨1, rfl, ?_⟩ .nil) <;> simp [offset]

/-- **C11**, errors: `ValueError` is raised exactly if the array is not square (all dimensions equal,
at least one dimension) or its size is not the number of blocks; nothing else is raised. -/
theorem C11_block_errors (a : NDArr K) {S : ℕ} (per : Fin S → ℕ) :
    (makeSquareBlocks a (List.ofFn per) = .error .valueError ↔
      ¬ ∃ d, a.shape = List.replicate (d + 1) S) ∧
    (∀ e, makeSquareBlocks a (List.ofFn per) = .error e → e = .valueError) := by
  by_cases h : ∃ d, a.shape = List.replicate (d + 1) S
  · obtain ⟨d, hs⟩ := h
    obtain ⟨b, h1, -⟩ := makeSquareBlocks_ok a per hs
    rw [h1]
    refine ⟨⟨fun e => (by cases e), fun e => absurd ⟨d, hs⟩ e⟩, fun e he => by cases he⟩
  · have : makeSquareBlocks a (List.ofFn per) = .error .valueError := by
      unfold makeSquareBlocks
      rw [if_pos]
      by_contra hc
      push Not at hc
      obtain ⟨h1, h2⟩ := hc
      obtain ⟨x, hx⟩ := List.length_eq_one_iff.mp h1
      have hall : ∀ y ∈ a.shape, y = x := by
        intro y hy
        have := List.mem_dedup.mpr hy
        rw [hx] at this
        simpa using this
      have hrep := List.eq_replicate_of_mem hall
      cases hlen : a.shape.length with
      | zero =>
        have := List.length_eq_zero_iff.mp hlen
        rw [this] at hx; simp at hx
      | succ d =>
        refine h ⟨d, ?_⟩
        rw [hlen] at hrep
        rw [hrep] at h2 ⊢
        rw [List.length_ofFn] at h2
        rw [h2]; simp [List.replicate_succ]
    rw [this]
    exact ⟨⟨fun _ => h, fun _ => rfl⟩, fun e he => (Except.error.inj he).symm⟩

example : makeSquareBlocks (⟨[2, 3], fun _ => 0⟩ : NDArr ℤ) (List.ofFn ![2, 1]) =
    .error .valueError := by
  rw [(C11_block_errors _ _).1]
  rintro ⟨d, h⟩
  have hl := congrArg List.length h
  simp only [List.length_cons, List.length_nil, List.length_replicate] at hl
  obtain rfl : d = 1 := by omega
  simp [List.replicate_succ] at h

end Blocks

section Chis

variable {K : Type} [Field K] [LinearOrder K] [IsStrictOrderedRing K] [FloorRing K] {C : ℕ}

/-- **C12**, symmetry: after creating an interaction and any sequence of assignments, uniform or
random settings, the matrix is symmetric. -/
theorem C12_symmetric {a : NDArr K} {o : FHInteraction C K} (h : FHInteraction.new C a = .ok o)
    (ops : List (ChiOp K)) (i j : Fin C) :
    (ops.foldl FHInteraction.step o).chis i j = (ops.foldl FHInteraction.step o).chis j i := by
  have key : ∀ (ops : List (ChiOp K)) (o : FHInteraction C K), (∀ i j, o.chis i j = o.chis j i) →
      ∀ i j, (ops.foldl FHInteraction.step o).chis i j =
        (ops.foldl FHInteraction.step o).chis j i := by
    intro ops
    induction ops with
    | nil => intro o h; exact h
    | cons op ops ih =>
      intro o h
      rw [List.foldl_cons]
      refine ih _ fun i j => ?_
      cases op with
      | chis a =>
        simp only [FHInteraction.step]
        cases hs : o.setChis a with
        | error e => exact h i j
        | ok o' =>
          obtain ⟨b, -, h2⟩ := bind_eq_ok.mp hs
          rw [← (Except.ok.inj h2 : _ = o')]
          exact symmetrize_symm _ i j
      | uniform chi b vd =>
        simp only [FHInteraction.step, FHInteraction.setUniform, eq_comm (a := i) (b := j)]
      | random d vd => exact setRandom_symm o d vd i j
  refine key ops o ?_ i j
  obtain ⟨b, -, h2⟩ := bind_eq_ok.mp h
  rw [← (Except.ok.inj h2 : _ = o)]
  exact symmetrize_symm _

/-- Creating an interaction from a full matrix or a number always works. -/
theorem new_mat [Inhabited K] (chis : Mat C C K) :
    FHInteraction.new C (NDArr.ofMat chis) = .ok ⟨symmetrize chis, false⟩ := by
  obtain ⟨b, h1, h2⟩ := convertAndBroadcast_mat chis
  unfold convertAndBroadcast at h1
  unfold FHInteraction.new
  rw [h1, bind_ok, h2]
  rfl

theorem new_scalar (chi : K) :
    FHInteraction.new C (NDArr.scalar chi) = .ok ⟨fun _ _ => chi, false⟩ := by
  obtain ⟨b, h1, -, h2⟩ := broadcastTo_scalar chi (s := [C, C]) (by simp)
  unfold FHInteraction.new
  rw [h1, bind_ok]
  have : b.toMat C C = fun _ _ => chi := by funext i j; exact h2 _
  rw [this, symmetrize_of_symm fun _ _ => rfl]
  rfl

/-- **C12**, content: from a matrix the symmetrized matrix is stored (so a symmetric one unchanged),
by creation and by assignment alike; symmetrization changes no energy density; with
`vanishing_diagonal` the diagonal is zero and the rest of a uniform matrix is the given value. -/
theorem C12_content [Inhabited K] (chis : Mat C C K) (o : FHInteraction C K) :
    (∃ o', FHInteraction.new C (NDArr.ofMat chis) = .ok o' ∧
      o.setChis (NDArr.ofMat chis) = .ok o' ∧
      (∀ i j, o'.chis i j = (chis i j + chis j i) / 2) ∧
      ((∀ i j, chis i j = chis j i) → o'.chis = chis) ∧
      ∀ phi, fhEnergy o'.chis phi = fhEnergy chis phi) ∧
    (∀ (x : K) b i j, (o.setUniform x b true).chis i j = if i = j then 0 else x) ∧
    (∀ (x : K) b i j, (o.setUniform x b false).chis i j = x) ∧
    (∀ draws i, (o.setRandom draws true).chis i i = 0) := by
  refine ⟨⟨_, new_mat chis, new_mat chis, fun i j => ?_, symmetrize_of_symm,
    fun phi => fhEnergy_symmetrize chis phi⟩, ?_, ?_, ?_⟩
  · simp only [symmetrize]; ring
  · intro x b i j; simp [FHInteraction.setUniform]
  · intro x b i j; simp [FHInteraction.setUniform]
  · intro draws i
    rw [setRandom_entry]
    rw [lastVal_none]
    · rfl
    · intro p hp e
      have := mem_triu.mp (zip_fst_mem hp)
      rw [e] at this
      simp at this

example : ∃ o : FHInteraction 2 ℚ, FHInteraction.new 2 (NDArr.ofMat ![![0, 3], ![1, 0]]) = .ok o ∧
    ([ChiOp.uniform (2 : ℚ) true true, .random (fun n => List.replicate n (1 / 2)) false,
      .chis (NDArr.scalar 1)].foldl FHInteraction.step o).chis 0 1 = 1 := by
  refine ⟨_, new_mat _, ?_⟩
  simp only [List.foldl_cons, List.foldl_nil, FHInteraction.step]
  have := new_scalar (C := 2) (1 : ℚ)
  unfold FHInteraction.setChis
  unfold FHInteraction.new at this
  rw [this]

/-- The off-diagonal entries above the diagonal (with the diagonal if `diag`), row by row. -/
def upperEntries (diag : Bool) (chis : Mat C C K) : List K :=
  (List.finRange C).flatMap fun i =>
    ((List.finRange C).filter fun j => if diag then i ≤ j else i < j).map fun j => chis i j

/-- **C12**, `independent_entries`: the entries on and above the diagonal, row by row; they determine the
matrix of every interaction that can be reached by creation and later modifications. -/
theorem C12_independent_entries {a a' : NDArr K} {o o' : FHInteraction C K}
    (h : FHInteraction.new C a = .ok o) (h' : FHInteraction.new C a' = .ok o')
    (ops ops' : List (ChiOp K)) :
    let x := ops.foldl FHInteraction.step o
    let x' := ops'.foldl FHInteraction.step o'
    x.independentEntries = upperEntries true x.chis ∧
      x.independentEntries.length = C * (C + 1) / 2 ∧
      (x.independentEntries = x'.independentEntries → x.chis = x'.chis) := by
  intro x x'
  have hs : ∀ i j, x.chis i j = x.chis j i := C12_symmetric h ops
  have hs' : ∀ i j, x'.chis i j = x'.chis j i := C12_symmetric h' ops'
  refine ⟨?_, ?_, fun he => ?_⟩
  · unfold FHInteraction.independentEntries upperEntries FHInteraction.triuIndices
    rw [List.map_flatMap]
    congr 1
    funext i
    rw [List.map_map]
    rfl
  · unfold FHInteraction.independentEntries
    rw [List.length_map, length_triu]
    simp
  · unfold FHInteraction.independentEntries at he
    have key : ∀ i j : Fin C, i ≤ j → x.chis i j = x'.chis i j := fun i j hij =>
      List.map_inj_left.mp he (i, j) (mem_triu.mpr (by simpa using hij))
    funext i j
    rcases le_total i j with hij | hij
    · exact key i j hij
    · rw [hs, hs', key j i hij]

-- Three independent entries of a binary mixture.
example : ∃ o : FHInteraction 2 ℚ, FHInteraction.new 2 (NDArr.ofMat ![![1, 2], ![4, 5]]) = .ok o ∧
    o.independentEntries = [1, 3, 5] := by
  obtain ⟨⟨o, h1, -, h2, -⟩, -⟩ := C12_content (![![1, 2], ![4, 5]] : Mat 2 2 ℚ) ⟨fun _ _ => 0, false⟩
  refine ⟨o, h1, ?_⟩
  have := (C12_independent_entries h1 h1 [] []).1
  simp only [List.foldl_nil] at this
  rw [this]
  have e : o.chis = ![![1, 3], ![3, 5]] := by
    funext i j
    rw [h2]
    fin_cases i <;> fin_cases j <;> norm_num
  rw [e]
  decide

theorem setRandom_upper (o : FHInteraction C K) (draws : ℕ → List K) (vd : Bool)
    (hlen : ∀ n, (draws n).length = n) :
    upperEntries (!vd) (o.setRandom draws vd).chis =
      (draws (if vd then C * (C - 1) / 2 else C * (C + 1) / 2)).map
        (FHInteraction.store o.isInt) := by
  have e : upperEntries (!vd) (o.setRandom draws vd).chis =
      (FHInteraction.triuIndices C vd).map fun p => (o.setRandom draws vd).chis p.1 p.2 := by
    unfold upperEntries FHInteraction.triuIndices
    rw [List.map_flatMap]
    congr 1
    funext i
    rw [List.map_map]
    cases vd <;> rfl
  rw [e]
  set v := draws (if vd then C * (C - 1) / 2 else C * (C + 1) / 2) with hv
  have hl : (FHInteraction.triuIndices C vd).length = v.length := by
    rw [length_triu, hv, hlen]
  have key := lastVal_zip (nodup_triu vd) hl
  have e2 : (FHInteraction.triuIndices C vd).map (fun p => (o.setRandom draws vd).chis p.1 p.2) =
      (FHInteraction.triuIndices C vd).map fun p =>
        (lastVal ((FHInteraction.triuIndices C vd).zip v) p).elim 0
          (FHInteraction.store o.isInt) := by
    refine List.map_congr_left fun p hp => ?_
    have hp' := mem_triu.mp hp
    rw [setRandom_entry]
    rcases lt_trichotomy p.1 p.2 with h | h | h
    · rw [lastVal_triu_none h]; rfl
    · have : (p.2, p.1) = p := Prod.ext h.symm h
      have h2 : (p.1, p.2) = p := rfl
      rw [this, h2, ← hv]
      cases lastVal ((FHInteraction.triuIndices C vd).zip v) p <;> rfl
    · cases vd
      · simp only [Bool.false_eq_true, if_false] at hp'; exact absurd h (not_lt.mpr hp')
      · simp only [if_true] at hp'; exact absurd (h.trans hp') (lt_irrefl _)
  rw [e2]
  have : (FHInteraction.triuIndices C vd).map (fun p =>
        (lastVal ((FHInteraction.triuIndices C vd).zip v) p).elim 0
          (FHInteraction.store o.isInt)) =
      ((FHInteraction.triuIndices C vd).map (lastVal ((FHInteraction.triuIndices C vd).zip v))).map
        fun x => x.elim 0 (FHInteraction.store o.isInt) := by
    rw [List.map_map]; rfl
  rw [this, key, List.map_map]
  rfl

/-- **C13**, the part that holds: on an interaction with a float matrix (`isInt = false`; every creation
from a matrix or number and every assignment of `chis` gives one) the entries above the diagonal are,
row by row, exactly the drawn numbers.  In particular `from_random_normal` always gives the drawn
numbers.  Missing: interactions last set by `set_uniform_chis` with an integer
(`C13_integer_matrix_truncates`). -/
theorem C13_random_chis_partial (draws : ℕ → List K) (hlen : ∀ n, (draws n).length = n)
    (vd : Bool) :
    (∀ o : FHInteraction C K, o.isInt = false →
      upperEntries (!vd) (o.setRandom draws vd).chis =
        draws (if vd then C * (C - 1) / 2 else C * (C + 1) / 2)) ∧
    (∃ o : FHInteraction C K, FHInteraction.fromRandomNormal C draws vd = .ok o ∧
      upperEntries (!vd) o.chis = draws (if vd then C * (C - 1) / 2 else C * (C + 1) / 2)) ∧
    (∀ a (o o' : FHInteraction C K), FHInteraction.new C a = .ok o ∨ o'.setChis a = .ok o →
      o.isInt = false) := by
  have h1 : ∀ o : FHInteraction C K, o.isInt = false →
      upperEntries (!vd) (o.setRandom draws vd).chis =
        draws (if vd then C * (C - 1) / 2 else C * (C + 1) / 2) := by
    intro o ho
    rw [setRandom_upper o draws vd hlen, ho]
    have : FHInteraction.store (K := K) false = id := by funext x; simp [FHInteraction.store]
    rw [this, List.map_id]
  refine ⟨h1, ⟨(⟨fun _ _ => 0, false⟩ : FHInteraction C K).setRandom draws vd, ?_, h1 _ rfl⟩, ?_⟩
  · unfold FHInteraction.fromRandomNormal
    rw [new_scalar]; rfl
  · rintro a o o' (h | h)
    all_goals
      obtain ⟨b, -, h2⟩ := bind_eq_ok.mp h
      rw [← (Except.ok.inj h2 : _ = o)]

/-- After the operations `ops` the matrix has integer entries type: the last successful assignment of
the whole matrix was `set_uniform_chis` with an integer. -/
def IntegerMatrix (C : ℕ) (ops : List (ChiOp K)) : Prop :=
  ∃ pre chi vd post, ops = pre ++ ChiOp.uniform chi true vd :: post ∧
    ∀ x ∈ post, (∃ draws vd', x = .random draws vd') ∨
      ∃ a e, x = .chis a ∧ a.atleast1d.broadcastTo [C, C] = .error e

/-- Rounding towards zero. -/
def towardsZero (x : K) : K := if 0 ≤ x then ((⌊x⌋ : ℤ) : K) else ((⌈x⌉ : ℤ) : K)

theorem isInt_iff_integerMatrix {o : FHInteraction C K} (ho : o.isInt = false) (ops : List (ChiOp K)) :
    (ops.foldl FHInteraction.step o).isInt = true ↔ IntegerMatrix C ops := by
  induction ops using List.reverseRecOn with
  | nil => simp [IntegerMatrix, ho]
  | append_singleton ops x ih =>
    rw [List.foldl_append, List.foldl_cons, List.foldl_nil]
    -- the last operation keeps the matrix
    have keep : ((∃ draws vd', x = .random draws vd') ∨
        ∃ a e, x = .chis a ∧ a.atleast1d.broadcastTo [C, C] = .error e) →
        (IntegerMatrix C (ops ++ [x]) ↔ IntegerMatrix C ops) := by
      intro hx
      constructor
      · rintro ⟨pre, chi, vd, post, h1, h2⟩
        rcases post.eq_nil_or_concat with rfl | ⟨post', y, rfl⟩
        · have h1 : ops ++ [x] = pre ++ [ChiOp.uniform chi true vd] := h1
          obtain ⟨-, h3⟩ := List.append_inj' h1 rfl
          simp only [List.cons.injEq, and_true] at h3
          subst h3
          rcases hx with ⟨_, _, h⟩ | ⟨_, _, h, -⟩ <;> exact absurd h (by simp)
        · have h1 : ops ++ [x] = (pre ++ ChiOp.uniform chi true vd :: post') ++ [y] := by
            rw [h1]; simp
          obtain ⟨h3, -⟩ := List.append_inj' h1 rfl
          exact ⟨pre, chi, vd, post', h3, fun z hz => h2 z (by simp [hz])⟩
      · rintro ⟨pre, chi, vd, post, rfl, h2⟩
        refine ⟨pre, chi, vd, post ++ [x], by simp, fun z hz => ?_⟩
        rcases List.mem_append.mp hz with hz | hz
        · exact h2 z hz
        · rw [List.mem_singleton.mp hz]; exact hx
    -- the last operation replaces it by a float matrix
    have replace : ¬ ((∃ draws vd', x = .random draws vd') ∨
        ∃ a e, x = .chis a ∧ a.atleast1d.broadcastTo [C, C] = .error e) →
        (∀ chi vd, x ≠ .uniform chi true vd) → ¬ IntegerMatrix C (ops ++ [x]) := by
      rintro hx hx' ⟨pre, chi, vd, post, h1, h2⟩
      rcases post.eq_nil_or_concat with rfl | ⟨post', y, rfl⟩
      · have h1 : ops ++ [x] = pre ++ [ChiOp.uniform chi true vd] := h1
        obtain ⟨-, h3⟩ := List.append_inj' h1 rfl
        simp only [List.cons.injEq, and_true] at h3
        exact hx' chi vd h3
      · have h1 : ops ++ [x] = (pre ++ ChiOp.uniform chi true vd :: post') ++ [y] := by
          rw [h1]; simp
        obtain ⟨-, h3⟩ := List.append_inj' h1 rfl
        simp only [List.cons.injEq, and_true] at h3
        exact hx (h3 ▸ h2 y (by simp))
    cases x with
    | chis a =>
      rcases hb : a.atleast1d.broadcastTo [C, C] with e | b
      · rw [keep (Or.inr ⟨a, e, rfl, hb⟩), ← ih]
        simp only [FHInteraction.step, FHInteraction.setChis, hb]
        rfl
      · have := replace (by rintro (⟨_, _, h⟩ | ⟨a', e, h, h'⟩)
                            · simp at h
                            · cases h; rw [hb] at h'; cases h') (by simp)
        simp only [FHInteraction.step, FHInteraction.setChis, hb, this, iff_false]
        simp [bind, Except.bind, pure, Except.pure]
    | uniform chi i vd =>
      cases i with
      | true => exact iff_of_true rfl ⟨ops, chi, vd, [], rfl, by simp⟩
      | false =>
        have := replace (by simp) (by simp)
        exact iff_of_false (by simp [FHInteraction.step, FHInteraction.setUniform]) this
    | random draws vd =>
      rw [keep (Or.inl ⟨draws, vd, rfl⟩), ← ih]
      rfl

/-- **C13**, all histories: after any operations on an interaction, `set_random_chis` stores row by row
the drawn numbers, except when the matrix last assigned was an integer one (`set_uniform_chis` with an
integer): then it stores the numbers rounded towards zero. -/
theorem C13_histories_partial {a : NDArr K} {o : FHInteraction C K} (h : FHInteraction.new C a = .ok o)
    (ops : List (ChiOp K)) (draws : ℕ → List K) (hlen : ∀ n, (draws n).length = n) (vd : Bool) :
    (¬ IntegerMatrix C ops →
      upperEntries (!vd) ((ops ++ [ChiOp.random draws vd]).foldl FHInteraction.step o).chis =
        draws (if vd then C * (C - 1) / 2 else C * (C + 1) / 2)) ∧
    (IntegerMatrix C ops →
      upperEntries (!vd) ((ops ++ [ChiOp.random draws vd]).foldl FHInteraction.step o).chis =
        (draws (if vd then C * (C - 1) / 2 else C * (C + 1) / 2)).map towardsZero) := by
  have ho : o.isInt = false := (C13_random_chis_partial draws hlen vd).2.2 a o o (Or.inl h)
  have hi := isInt_iff_integerMatrix ho ops
  rw [List.foldl_append]
  simp only [List.foldl_cons, List.foldl_nil, FHInteraction.step]
  refine ⟨fun hn => ?_, fun hn => ?_⟩
  · exact (C13_random_chis_partial draws hlen vd).1 _ (by simpa using (not_congr hi).mpr hn)
  · rw [setRandom_upper _ draws vd hlen, hi.mpr hn]
    rfl

end Chis

-- C13: random numbers after an integer matrix and other random numbers.
example : IntegerMatrix 2 ([.chis (NDArr.scalar (1 / 2)), .uniform 1 true true,
    .random (fun n => List.replicate n (1 / 2)) true] : List (ChiOp ℚ)) :=
  ⟨[.chis (NDArr.scalar (1 / 2))], 1, true, [.random (fun n => List.replicate n (1 / 2)) true], rfl,
    fun _ hx => Or.inl ⟨_, _, List.mem_singleton.mp hx⟩⟩

/-- **C13 fails** in general: `set_uniform_chis(1)` makes an integer matrix, into which
`set_random_chis` then stores the drawn 1/2 as 0. -/
theorem C13_integer_matrix_truncates :
    ∃ o : FHInteraction 2 ℚ, FHInteraction.fromUniform 2 1 true true = .ok o ∧
      upperEntries false (o.setRandom (fun n => List.replicate n (1 / 2)) true).chis = [0] := by
  refine ⟨(⟨fun _ _ => 0, false⟩ : FHInteraction 2 ℚ).setUniform 1 true true, ?_, ?_⟩
  · unfold FHInteraction.fromUniform; rw [new_scalar]; rfl
  · have := setRandom_upper ((⟨fun _ _ => 0, false⟩ : FHInteraction 2 ℚ).setUniform 1 true true)
      (fun n => List.replicate n (1 / 2)) true (by simp)
    simp only [Bool.not_true] at this
    rw [this]
    simp only [FHInteraction.setUniform]
    norm_num [FHInteraction.store]

section Derivatives

variable {C S M : ℕ}

/-- **C14**. For an interaction in any state reachable by creation and later modifications, the Jacobian
is the gradient of the energy density and each row of the Hessian the gradient of the Jacobian
component, at every composition. -/
theorem C14_derivatives {a : NDArr ℝ} {o : FHInteraction C ℝ} (h : FHInteraction.new C a = .ok o)
    (ops : List (ChiOp ℝ)) (phi : Vec C ℝ) :
    let chis := (ops.foldl FHInteraction.step o).chis
    IsGradientAt (fhEnergy chis) (fhJacobian chis phi) phi ∧
    ∀ i, IsGradientAt (fun phi => fhJacobian chis phi i) (fhHessian chis phi i) phi :=
  ⟨fhEnergy_gradient (C12_symmetric h ops) phi, fhJacobian_gradient (C12_symmetric h ops) phi⟩

/-- **C15**. The compiled interaction of such an object gives, in every compartment, the Jacobian as
potential and the energy density as volume derivative. -/
theorem C15_compiled [NeZero C] {a : NDArr ℝ} {o : FHInteraction C ℝ}
    (h : FHInteraction.new C a = .ok o) (ops : List (ChiOp ℝ)) (shift : ℝ) (phi : Mat C M ℝ) :
    let o' := ops.foldl FHInteraction.step o
    let ia := (o'.compile shift).toI M
    (∀ r m, ia.potential phi r m = fhJacobian o'.chis (fun r => phi r m) r) ∧
    ∀ m, ia.volumeDerivative (ia.potential phi) phi m = fhEnergy o'.chis fun r => phi r m := by
  intro o' ia
  have hs : ∀ i j, o'.chis i j = o'.chis j i := C12_symmetric h ops
  constructor
  · intro r m
    simp only [ia, FHCompiled.toI, FHCompiled.potential, FHInteraction.compile, FHCompiled.new,
      fhJacobian]
    exact Finset.sum_congr rfl fun i _ => by rw [hs, mul_comm]
  · intro m
    simp only [ia, FHCompiled.toI, FHCompiled.volumeDerivative_eq]
    simp only [FHCompiled.potential, FHInteraction.compile, FHCompiled.new, fhEnergy]
    congr 1
    refine Finset.sum_congr rfl fun i _ => ?_
    rw [Finset.sum_mul]
    exact Finset.sum_congr rfl fun j _ => by ring

example : ∃ o : FHInteraction 2 ℝ, FHInteraction.new 2 (NDArr.ofMat ![![0, 3], ![1, 0]]) = .ok o :=
  ⟨_, new_mat _⟩

end Derivatives

section Coefficient

variable {K : Type} [Field K] [LinearOrder K] [IsStrictOrderedRing K] {S M : ℕ} [NeZero S]

/-- **C16**. For plain and block interactions the coefficient is at least `shift · S²` (so positive
for a positive shift), with equality exactly for a constant matrix, and adding a constant to all
entries does not change it. -/
theorem C16_incomp_coef (chis : Mat S S K) (per : Vec S ℕ) (cc : NDArr K) (attrs : List String)
    (b : Bool) (shift : K) (phi : Mat S M K) :
    (∀ c : FHCompiled S K, c = (FHInteraction.mk chis b).compile shift ∨
        c = (FHBlock.mk per chis cc attrs).compile shift →
      shift * (S : K) ^ 2 ≤ (c.toI M).incompCoef phi ∧
      (0 < shift → 0 < (c.toI M).incompCoef phi) ∧
      ((c.toI M).incompCoef phi = shift * (S : K) ^ 2 ↔ ∀ r s, chis r s = chis 0 0)) ∧
    (∀ x : K, (((FHInteraction.mk (fun r s => chis r s + x) b).compile shift).toI M).incompCoef phi =
      (((FHInteraction.mk chis b).compile shift).toI M).incompCoef phi ∧
      (((FHBlock.mk per (fun r s => chis r s + x) cc attrs).compile shift).toI M).incompCoef phi =
      (((FHBlock.mk per chis cc attrs).compile shift).toI M).incompCoef phi) := by
  have e0 : ∀ chis : Mat S S K, (FHCompiled.new chis (-matMin chis + shift)).coef =
      (∑ r, ∑ s, (chis r s - matMin chis)) + shift * (S : K) ^ 2 := by
    intro chis
    simp only [FHCompiled.new, Finset.sum_sub_distrib, Finset.sum_const, Finset.card_univ,
      Fintype.card_fin, nsmul_eq_mul]
    ring
  have hS : (0 : K) < S := by exact_mod_cast NeZero.pos S
  have hnn : ∀ r s, 0 ≤ chis r s - matMin chis := fun r s => sub_nonneg.mpr (matMin_le chis r s)
  have hsum : 0 ≤ ∑ r, ∑ s, (chis r s - matMin chis) :=
    Finset.sum_nonneg fun r _ => Finset.sum_nonneg fun s _ => hnn r s
  refine ⟨fun c hc => ?_, fun x => ?_⟩
  · have hc' : (c.toI M).incompCoef phi =
        (∑ r, ∑ s, (chis r s - matMin chis)) + shift * (S : K) ^ 2 := by
      rcases hc with rfl | rfl <;> exact e0 chis
    rw [hc']
    refine ⟨by linarith, fun hpos => by positivity, ?_⟩
    constructor
    · intro h
      have h0 : ∑ r, ∑ s, (chis r s - matMin chis) = 0 := by linarith
      have h1 := (Finset.sum_eq_zero_iff_of_nonneg
        (fun r _ => Finset.sum_nonneg fun s _ => hnn r s)).mp h0
      have h2 : ∀ r s, chis r s = matMin chis := fun r s =>
        sub_eq_zero.mp ((Finset.sum_eq_zero_iff_of_nonneg (fun s _ => hnn r s)).mp
          (h1 r (Finset.mem_univ r)) s (Finset.mem_univ s))
      intro r s
      rw [h2 r s, h2 0 0]
    · intro h
      obtain ⟨r0, s0, h0⟩ := matMin_mem chis
      have : ∀ r s, chis r s - matMin chis = 0 := by
        intro r s; rw [h0, h r s, h r0 s0, sub_self]
      simp [this]
  · have : (FHCompiled.new (fun r s => chis r s + x) (-matMin (fun r s => chis r s + x) + shift)).coef
        = (FHCompiled.new chis (-matMin chis + shift)).coef := by
      rw [e0, e0, matMin_add]
      congr 1
      exact Finset.sum_congr rfl fun r _ => Finset.sum_congr rfl fun s _ => by ring
    exact ⟨this, this⟩

-- C16: two features that repel each other; the coefficient is above its lower bound 10 · 2².
example : 10 * ((2 : ℕ) : ℚ) ^ 2 <
    (((FHInteraction.mk (![![0, 3], ![3, 0]] : Mat 2 2 ℚ) false).compile 10).toI 4).incompCoef fun _ _ => 1 / 2 := by
  obtain ⟨h, -⟩ := C16_incomp_coef (M := 4) (![![0, 3], ![3, 0]] : Mat 2 2 ℚ) ![1, 1] (NDArr.scalar 0) [] false 10
    fun _ _ => 1 / 2
  obtain ⟨h1, -, h2⟩ := h _ (Or.inl rfl)
  refine lt_of_le_of_ne h1 fun e => ?_
  have := h2.mp e.symm 0 1
  norm_num at this

end Coefficient

section Block

variable {K : Type} [Field K] [LinearOrder K] [IsStrictOrderedRing K] [Inhabited K] {S : ℕ}

/-- What a block interaction object made from a feature matrix must look like. -/
def IsBlockOf (o : FHBlock S K) (chisFeat : Mat S S K) (per : Vec S ℕ) : Prop :=
  o.perFeat = per ∧ (∀ r s, o.chisFeat r s = (chisFeat r s + chisFeat s r) / 2) ∧
  o.chis.shape = [∑ r, per r, ∑ r, per r] ∧
  ∀ feat : Fin (∑ r, per r) → Fin S, IsFeat per feat → ∀ i j : Fin (∑ r, per r),
    o.chis.get [i, j] = (chisFeat (feat i) (feat j) + chisFeat (feat j) (feat i)) / 2

theorem block_new (chisFeat : Mat S S K) (per : Vec S ℕ)
    (hsym : ∀ r s, |chisFeat r s - chisFeat s r| ≤ 1 / 10 ^ 8 + 1 / 10 ^ 5 * |chisFeat s r|) :
    ∃ o, FHBlock.new S (NDArr.ofMat chisFeat) (NDArr.ofVec per) = .ok o ∧
      IsBlockOf o chisFeat per ∧
      o.attrs = ["num_feat", "_num_comp_per_feat", "_chis_feat", "num_comp", "_logger", "_chis"] := by
  obtain ⟨p, hp, hp'⟩ := convertAndBroadcast_vec per
  obtain ⟨c, hc, hc'⟩ := convertAndBroadcast_mat chisFeat
  subst hp' hc'
  set per := p.toVec S with hper
  set chisFeat := c.toMat S S with hcf
  obtain ⟨b, hb, hb1, hb2⟩ := makeSquareBlocks_ok (NDArr.ofMat (symmetrize chisFeat)) per (d := 1)
    (by simp [NDArr.ofMat, List.replicate_succ])
  have hns : FHBlock.notSymmetric chisFeat = false := by
    unfold FHBlock.notSymmetric
    rw [decide_eq_false_iff_not]
    push Not
    exact hsym
  have hb1' : b.shape = [∑ r, per r, ∑ r, per r] := by simpa [List.replicate_succ] using hb1
  have hbc : ∃ a, b.atleast1d.broadcastTo [∑ r, per r, ∑ r, per r] = .ok a ∧
      ∀ i j : Fin (∑ r, per r), a.get [i, j] = b.get [i, j] := by
    rw [atleast1d_of_ne (by rw [hb1']; simp)]
    obtain ⟨a, h1, -, h3⟩ := broadcastTo_same b hb1'
    exact ⟨a, h1, fun i j => h3 [i, j] (.cons i.2 (.cons j.2 .nil))⟩
  obtain ⟨a, ha, ha'⟩ := hbc
  have hentry : ∀ feat : Fin (∑ r, per r) → Fin S, IsFeat per feat → ∀ i j : Fin (∑ r, per r),
      a.get [i, j] = (chisFeat (feat i) (feat j) + chisFeat (feat j) (feat i)) / 2 := by
    intro feat hf i j
    rw [ha', hb2 [i, j] rfl]
    simp only [List.map_cons, List.map_nil]
    rw [repeatIndex_ofFn per (feat i) (hf i), repeatIndex_ofFn per (feat j) (hf j)]
    rw [ofMat_get]
    simp only [symmetrize]
    ring
  refine ⟨⟨per, symmetrize chisFeat, NDArr.ofMat (symmetrize (a.toMat _ _)), _⟩, ?_, ⟨rfl, ?_, rfl,
    ?_⟩, rfl⟩
  · unfold FHBlock.new
    rw [hp, bind_ok, hc, bind_ok]
    simp only [← hper, ← hcf, hns, hb, Bool.false_eq_true, if_false, bind_ok, ha, pure_eq_ok]
    rfl
  · intro r s; simp only [symmetrize]; ring
  · intro feat hf i j
    rw [ofMat_get]
    simp only [symmetrize, NDArr.toMat]
    rw [hentry feat hf, hentry feat hf]
    ring

/-- **C18**, the part that holds: a feature matrix that is symmetric within numpy's `allclose`
tolerance is accepted, stored symmetrized, and expanded into the component matrix.
Missing: other matrices (`C18_constructor_raises`) and the setter (`C18_setter_raises`). -/
theorem C18_constructor_partial (chisFeat : Mat S S K) (per : Vec S ℕ)
    (hsym : ∀ r s, |chisFeat r s - chisFeat s r| ≤ 1 / 10 ^ 8 + 1 / 10 ^ 5 * |chisFeat s r|) :
    ∃ o, FHBlock.new S (NDArr.ofMat chisFeat) (NDArr.ofVec per) = .ok o ∧
      IsBlockOf o chisFeat per := by
  obtain ⟨o, h1, h2, -⟩ := block_new chisFeat per hsym
  exact ⟨o, h1, h2⟩

/-- **C18 fails**: any other feature matrix raises `AttributeError` (the logger is used before it
exists) instead of being symmetrized. -/
theorem C18_constructor_raises (chisFeat : Mat S S K) (per : Vec S ℕ)
    (hsym : ¬ ∀ r s, |chisFeat r s - chisFeat s r| ≤ 1 / 10 ^ 8 + 1 / 10 ^ 5 * |chisFeat s r|) :
    FHBlock.new S (NDArr.ofMat chisFeat) (NDArr.ofVec per) = .error .attributeError := by
  obtain ⟨p, hp, hp'⟩ := convertAndBroadcast_vec per
  obtain ⟨c, hc, hc'⟩ := convertAndBroadcast_mat chisFeat
  have hns : FHBlock.notSymmetric chisFeat = true := by
    unfold FHBlock.notSymmetric
    rw [decide_eq_true_eq]
    push Not at hsym ⊢
    exact hsym
  unfold FHBlock.new
  rw [hp, bind_ok, hc, bind_ok]
  simp only [hp', hc', hns]
  rfl

/-- **C18 fails**: assigning `chis_feat` of any object the constructor returns raises `AttributeError`,
whatever is assigned. -/
theorem C18_setter_raises (chisFeat : Mat S S K) (per : Vec S ℕ) (o : FHBlock S K)
    (h : FHBlock.new S (NDArr.ofMat chisFeat) (NDArr.ofVec per) = .ok o) (x : NDArr K) :
    o.setChisFeat x = .error .attributeError := by
  have ho : o.attrs =
      ["num_feat", "_num_comp_per_feat", "_chis_feat", "num_comp", "_logger", "_chis"] := by
    by_cases hsym : ∀ r s, |chisFeat r s - chisFeat s r| ≤ 1 / 10 ^ 8 + 1 / 10 ^ 5 * |chisFeat s r|
    · obtain ⟨o', h1, -, h2⟩ := block_new chisFeat per hsym
      rw [h] at h1
      rw [Except.ok.inj h1]; exact h2
    · rw [C18_constructor_raises chisFeat per hsym] at h; cases h
  unfold FHBlock.setChisFeat needAttr
  rw [ho, if_neg (by decide)]
  rfl

end Block

/-- **C17**. The energy density of a block interaction is the feature-level energy of the lumped
fractions, and the Jacobian of a component the feature-level Jacobian of its feature. -/
theorem C17_lumping {S : ℕ} (chisFeat : Mat S S ℝ) (hs : ∀ r s, chisFeat r s = chisFeat s r)
    (per : Vec S ℕ) {o : FHBlock S ℝ}
    (h : FHBlock.new S (NDArr.ofMat chisFeat) (NDArr.ofVec per) = .ok o)
    {feat : Fin (∑ r, per r) → Fin S} (hf : IsFeat per feat) (phi : Vec (∑ r, per r) ℝ) :
    let chis := o.chis.toMat (∑ r, per r) (∑ r, per r)
    let lump : Vec S ℝ := fun r => ∑ i, if feat i = r then phi i else 0
    fhEnergy chis phi = fhEnergy chisFeat lump ∧
    ∀ i, fhJacobian chis phi i = fhJacobian chisFeat lump (feat i) := by
  intro chis lump
  obtain ⟨o', h1, -, -, -, h2⟩ := C18_constructor_partial chisFeat per (by
    intro r s; rw [hs r s, sub_self, abs_zero]; positivity)
  rw [h] at h1
  obtain rfl := Except.ok.inj h1
  have hc : ∀ i j, chis i j = chisFeat (feat i) (feat j) := by
    intro i j
    show o.chis.get [i, j] = _
    rw [h2 feat hf, hs (feat j)]; ring
  have hl : ∀ g : Vec S ℝ, ∑ r, lump r * g r = ∑ i, phi i * g (feat i) := by
    intro g
    simp only [lump, Finset.sum_mul]
    rw [Finset.sum_comm]
    refine Finset.sum_congr rfl fun i _ => ?_
    simp [ite_mul]
  have hj : ∀ i, fhJacobian chis phi i = fhJacobian chisFeat lump (feat i) := by
    intro i
    unfold fhJacobian
    rw [hl fun r => chisFeat r (feat i)]
    exact Finset.sum_congr rfl fun j _ => by rw [hc]
  refine ⟨?_, hj⟩
  have he : ∀ {n : ℕ} (c : Mat n n ℝ) (p : Vec n ℝ), fhEnergy c p =
      1 / 2 * ∑ i, p i * fhJacobian (fun i j => c j i) p i := by
    intro n c p
    unfold fhEnergy fhJacobian
    congr 1
    refine Finset.sum_congr rfl fun i _ => ?_
    rw [Finset.mul_sum]
    exact Finset.sum_congr rfl fun j _ => by ring
  have hcs : (fun i j => chis j i) = chis := by funext i j; rw [hc, hc, hs]
  have hfs : (fun r s => chisFeat s r) = chisFeat := by funext r s; rw [hs]
  rw [he, he, hcs, hfs, hl fun r => fhJacobian chisFeat lump r]
  congr 1
  exact Finset.sum_congr rfl fun i _ => by rw [hj]

example : ∃ o, FHBlock.new 2 (NDArr.ofMat Demo.chis) (NDArr.ofVec ![2, 1]) = .ok o ∧
    ∃ feat : Fin (∑ r, (![2, 1] : Vec 2 ℕ) r) → Fin 2, IsFeat ![2, 1] feat := by
  obtain ⟨o, h, -⟩ := C18_constructor_partial Demo.chis ![2, 1] (by
    intro r s
    fin_cases r <;> fin_cases s <;> simp [Demo.chis] <;> norm_num)
  exact ⟨o, h, exists_isFeat _ rfl⟩

example : ¬ ∀ r s, |(![![0, 1], ![2, 0]] : Mat 2 2 ℝ) r s - (![![0, 1], ![2, 0]] : Mat 2 2 ℝ) s r| ≤
    1 / 10 ^ 8 + 1 / 10 ^ 5 * |(![![0, 1], ![2, 0]] : Mat 2 2 ℝ) s r| := by
  intro h
  have := h 0 1
  simp only [Matrix.cons_val_zero, Matrix.cons_val_one] at this
  norm_num at this

end Flory
