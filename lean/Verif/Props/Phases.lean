import Verif.Lemmas.Phases
import Verif.Lemmas.NDArray
import Mathlib.Data.Fin.Tuple.Sort
import Mathlib.Tactic.FinCases
import Mathlib.Tactic.NormNum

/-! # C01 – C09: collections of phases -/

set_option linter.unusedSectionVars false

namespace Flory

open Spec

variable {K : Type} {P C : ℕ}

/-- **C01**. -/
theorem C01_normalize [Field K] (x : Phases P C K) (h : ∑ p, x.volumes p ≠ 0) :
    ∑ p, x.normalize.volumes p = 1 ∧ x.normalize.fractions = x.fractions ∧
    (∀ p q, x.normalize.volumes p * x.volumes q = x.normalize.volumes q * x.volumes p) ∧
    (∀ p, x.normalize.volumes p = 0 ↔ x.volumes p = 0) ∧
    x.normalize.meanFractions = x.meanFractions ∧ x.normalize.normalize = x.normalize := by
  have hv : ∀ p, x.normalize.volumes p = x.volumes p / ∑ q, x.volumes q := fun _ => rfl
  have h1 : ∑ p, x.normalize.volumes p = 1 := by
    simp only [hv, ← Finset.sum_div]
    exact div_self h
  have ht : x.normalize.totalVolume = 1 := h1
  refine ⟨h1, rfl, fun p q => by rw [hv, hv]; ring, fun p => by rw [hv]; simp [h], ?_, ?_⟩
  · funext i
    unfold Phases.meanFractions
    rw [ht, div_one]
    show ∑ p, x.volumes p / (∑ q, x.volumes q) * x.fractions p i = _ / ∑ q, x.volumes q
    rw [Finset.sum_div]
    exact Finset.sum_congr rfl fun p _ => by ring
  · show Phases.mk (fun p => x.normalize.volumes p / x.normalize.totalVolume)
      x.normalize.fractions = x.normalize
    rw [ht]
    simp

/-- **C01**, non-negative volumes: `mean_fractions` is a proper average, so the hypothesis of C01 holds as
soon as one volume is positive. -/
example : ∑ p, (⟨![1, 2], ![![1 / 2, 1 / 2], ![1 / 3, 2 / 3]]⟩ : Phases 2 2 ℚ).volumes p ≠ 0 := by
  simp; norm_num

/-- **C02**. -/
theorem C02_sort_reorders [Field K] [LinearOrder K] {argsort : ArgSort K} {x : Phases P C K}
    {r : Σ P' : ℕ, Phases P' C K} (h : x.sort argsort = .ok r) :
    r.1 = P ∧ r.2.rows.Perm x.rows ∧ r.2.totalVolume = x.totalVolume ∧
      r.2.meanFractions = x.meanFractions := by
  have hp : r.2.rows.Perm x.rows := by rw [sort_rows h]; exact List.mergeSort_perm _ _
  have ht : r.2.totalVolume = x.totalVolume := by
    rw [Phases.totalVolume_rows, Phases.totalVolume_rows]
    exact (hp.map _).sum_eq
  refine ⟨?_, hp, ht, ?_⟩
  · have := hp.length_eq
    unfold Phases.rows at this
    rwa [List.length_ofFn, List.length_ofFn] at this
  · funext i
    unfold Phases.meanFractions
    rw [ht, Phases.amount_rows, Phases.amount_rows, (hp.map _).sum_eq]

/-- Sorting succeeds for every collection with at least one component. -/
theorem C02_sort_succeeds [Field K] [LinearOrder K] (argsort : ArgSort K) (x : Phases P C K)
    (hC : C ≠ 0) : ∃ r, x.sort argsort = .ok r := sort_ok x hC

section Total

variable {α : Type}

theorem rank_le_trans [LinearOrder K] (argsort : ArgSort K) (a b c : K × Vec C K)
    (h1 : decide (rankOf argsort a.2 ≤ rankOf argsort b.2) = true)
    (h2 : decide (rankOf argsort b.2 ≤ rankOf argsort c.2) = true) :
    decide (rankOf argsort a.2 ≤ rankOf argsort c.2) = true := by
  rw [decide_eq_true_eq] at *
  exact le_trans h1 h2

theorem rank_le_total [LinearOrder K] (argsort : ArgSort K) (a b : K × Vec C K) :
    (decide (rankOf argsort a.2 ≤ rankOf argsort b.2) ||
      decide (rankOf argsort b.2 ≤ rankOf argsort a.2)) = true := by
  rw [Bool.or_eq_true, decide_eq_true_eq, decide_eq_true_eq]
  exact le_total _ _

end Total

/-- **C03**. There is a way to rank the components of each composition from most to least concentrated
such that, after sorting, the rankings are lexicographically non-decreasing along the phases;
sorting a sorted collection changes nothing; and collections with the same phases in different
order have the same sequence of rankings after sorting. -/
theorem C03_sort_canonical [Field K] [LinearOrder K] {argsort : ArgSort K} (ha : argsort.Ok) :
    ∃ rank : Vec C K → List (Fin C), (∀ row, IsRanking row (rank row)) ∧
      ∀ {P : ℕ} (x : Phases P C K) (r : Σ P' : ℕ, Phases P' C K), x.sort argsort = .ok r →
        r.2.rows.Pairwise (fun a b => rank a.2 ≤ rank b.2) ∧
        (∀ r', r.2.sort argsort = .ok r' → r' = r) ∧
        ∀ {Q : ℕ} (y : Phases Q C K) (r' : Σ P' : ℕ, Phases P' C K), y.rows.Perm x.rows →
          y.sort argsort = .ok r' →
          r'.2.rows.map (fun a => rank a.2) = r.2.rows.map fun a => rank a.2 := by
  refine ⟨rankOf argsort, rankOf_isRanking ha, fun {P} x r h => ?_⟩
  have key : ∀ {P : ℕ} (x : Phases P C K) (r : Σ P' : ℕ, Phases P' C K), x.sort argsort = .ok r →
      r.2.rows.Pairwise (fun a b => rankOf argsort a.2 ≤ rankOf argsort b.2) := by
    intro P x r h
    rw [sort_rows h]
    refine (List.pairwise_mergeSort (rank_le_trans argsort) (rank_le_total argsort) _).imp ?_
    intro a b hab
    exact decide_eq_true_eq.mp hab
  refine ⟨key x r h, fun r' h' => ?_, fun {Q} y r' hp h' => ?_⟩
  · have e : r'.2.rows = r.2.rows := by
      rw [sort_rows h']
      refine List.mergeSort_of_pairwise ((key x r h).imp ?_)
      intro a b hab
      exact decide_eq_true_eq.mpr hab
    obtain ⟨P', ⟨v', f'⟩⟩ := r'
    obtain ⟨P₁, ⟨v, f⟩⟩ := r
    have hP : P' = P₁ := by
      have := congrArg List.length e
      unfold Phases.rows at this
      rwa [List.length_ofFn, List.length_ofFn] at this
    subst hP
    have e' := List.ofFn_injective e
    have hv : v' = v := funext fun p => congrArg Prod.fst (congrFun e' p)
    have hf : f' = f := funext fun p => congrArg Prod.snd (congrFun e' p)
    rw [hv, hf]
  · have hperm : (r'.2.rows.map fun a => rankOf argsort a.2).Perm
        (r.2.rows.map fun a => rankOf argsort a.2) := by
      refine List.Perm.map _ ?_
      exact (C02_sort_reorders h').2.1.trans (hp.trans (C02_sort_reorders h).2.1.symm)
    refine hperm.eq_of_pairwise (le := fun a b => a ≤ b) (fun a b _ _ => le_antisymm) ?_ ?_
    · rw [List.pairwise_map]; exact key y r' h'
    · rw [List.pairwise_map]; exact key x r h

/-- **C03**, first entry: after sorting, the indices of the most concentrated components do not
decrease. -/
theorem C03_most_concentrated [Field K] [LinearOrder K] {argsort : ArgSort K} (ha : argsort.Ok)
    {x : Phases P C K} {r : Σ P' : ℕ, Phases P' C K} (h : x.sort argsort = .ok r)
    {p q : Fin r.1} (hpq : p ≤ q) {i j : Fin C} (hi : MostConcentrated (r.2.fractions p) i)
    (hj : MostConcentrated (r.2.fractions q) j) : i ≤ j := by
  have head : ∀ (row : Vec C K) (i : Fin C), MostConcentrated row i →
      ∃ l, rankOf argsort row = i :: l := by
    intro row i hi
    obtain ⟨-, h2, h3⟩ := rankOf_isRanking ha row
    cases hl : rankOf argsort row with
    | nil => have := h2 i; rw [hl] at this; simp at this
    | cons a l =>
      rw [hl] at h2 h3
      by_cases hai : a = i
      · exact ⟨l, by rw [hai]⟩
      · have hil : i ∈ l := by
          have := h2 i
          rw [List.mem_cons] at this
          exact this.resolve_left (Ne.symm hai)
        have := (List.pairwise_cons.mp h3).1 i hil
        exact absurd (hi a hai) (not_lt.mpr this)
  rcases eq_or_lt_of_le hpq with rfl | hlt
  · by_contra hne
    have hne' : i ≠ j := fun e => hne e.le
    exact absurd (hi j (Ne.symm hne')) (not_lt.mpr (hj i hne').le)
  have hs : r.2.rows.Pairwise (fun a b => rankOf argsort a.2 ≤ rankOf argsort b.2) := by
    rw [sort_rows h]
    refine (List.pairwise_mergeSort (rank_le_trans argsort) (rank_le_total argsort) _).imp ?_
    intro a b hab
    exact decide_eq_true_eq.mp hab
  unfold Phases.rows at hs
  rw [List.pairwise_ofFn] at hs
  have := hs hlt
  obtain ⟨l, hl⟩ := head _ i hi
  obtain ⟨l', hl'⟩ := head _ j hj
  simp only at this
  rw [hl, hl'] at this
  by_contra hji
  exact absurd (List.Lex.rel (not_le.mp hji) : (j :: l') < i :: l) (not_lt.mpr this)

/-- An insertion-sort `argsort` meets the assumptions, so C03 is not vacuous. -/
theorem argsort_exists [LinearOrder K] : ∃ argsort : ArgSort K, argsort.Ok :=
  ⟨fun {_} v => Tuple.sort v, fun v => (Tuple.sort v).bijective,
    fun v _ _ hij => Tuple.monotone_sort v hij⟩

-- C02, C03: three phases with two components, of which only the first is rich in the last component: sorting puts
-- it behind the others.
example : ∃ (argsort : ArgSort ℚ) (r : Σ P' : ℕ, Phases P' 2 ℚ), argsort.Ok ∧
    (⟨![1, 2, 3], ![![1 / 10, 9 / 10], ![8 / 10, 2 / 10], ![7 / 10, 3 / 10]]⟩ : Phases 3 2 ℚ).sort argsort = .ok r ∧
    r.1 = 3 ∧ ∃ p : Fin r.1, p.1 = 2 ∧ r.2.volumes p = 1 ∧ r.2.fractions p = ![1 / 10, 9 / 10] := by
  obtain ⟨argsort, ha⟩ := argsort_exists (K := ℚ)
  obtain ⟨r, hr⟩ := C02_sort_succeeds argsort
    (⟨![1, 2, 3], ![![1 / 10, 9 / 10], ![8 / 10, 2 / 10], ![7 / 10, 3 / 10]]⟩ : Phases 3 2 ℚ) (by norm_num)
  obtain ⟨h1, h2, -, -⟩ := C02_sort_reorders hr
  refine ⟨argsort, r, ha, hr, h1, ?_⟩
  obtain ⟨P, y⟩ := r
  obtain rfl : P = 3 := h1
  have hmem : ∀ z ∈ y.rows, z = (1, ![1 / 10, 9 / 10]) ∨ MostConcentrated z.2 0 := by
    intro z hz
    have := h2.mem_iff.mp hz
    simp only [Phases.rows, List.mem_ofFn] at this
    obtain ⟨p, rfl⟩ := this
    fin_cases p
    · exact Or.inl rfl
    · refine Or.inr fun j hj => ?_
      obtain rfl : j = 1 := by omega
      show (2 / 10 : ℚ) < 8 / 10
      norm_num
    · refine Or.inr fun j hj => ?_
      obtain rfl : j = 1 := by omega
      show (3 / 10 : ℚ) < 7 / 10
      norm_num
  obtain ⟨q, hq1, hq⟩ : ∃ q : Fin 3, y.volumes q = 1 ∧ y.fractions q = ![1 / 10, 9 / 10] := by
    have : ((1 : ℚ), (![1 / 10, 9 / 10] : Vec 2 ℚ)) ∈ y.rows := h2.mem_iff.mpr (by
      simp only [Phases.rows, List.mem_ofFn]
      exact ⟨0, rfl⟩)
    simp only [Phases.rows, List.mem_ofFn] at this
    obtain ⟨q, hq⟩ := this
    exact ⟨q, (Prod.ext_iff.mp hq).1, (Prod.ext_iff.mp hq).2⟩
  have hq2 : MostConcentrated (y.fractions q) 1 := by
    rw [hq]
    intro j hj
    obtain rfl : j = 0 := by omega
    show (1 / 10 : ℚ) < 9 / 10
    norm_num
  by_cases h : q = 2
  · subst h
    exact ⟨2, rfl, hq1, hq⟩
  · rcases hmem (y.volumes 2, y.fractions 2) (by simp only [Phases.rows, List.mem_ofFn]; exact ⟨2, rfl⟩) with e | e
    · exact ⟨2, rfl, (Prod.ext_iff.mp e).1, (Prod.ext_iff.mp e).2⟩
    · have := C03_most_concentrated ha hr (p := q) (q := (2 : Fin 3)) (Fin.le_last (n := 2) q) hq2 e
      exact absurd this (by decide)

/-- **C04**. Whatever the grouping: the total volume and the amount of every component are conserved,
hence the mean fractions; the number of phases does not grow; and clustering raises
`ZeroDivisionError` exactly if there are at least two phases and a group of zero total volume. -/
theorem C04_clusters_conserve [Field K] [DecidableEq K] (x : Phases P C K) (labels : Vec P ℤ) :
    (∀ r, x.getClusters labels = .ok r →
      r.1 ≤ P ∧ ∑ p, r.2.volumes p = ∑ p, x.volumes p ∧
      (∀ i, ∑ p, r.2.volumes p * r.2.fractions p i = ∑ p, x.volumes p * x.fractions p i) ∧
      r.2.meanFractions = x.meanFractions) ∧
    (x.getClusters labels = .error .zeroDivisionError ↔ 2 ≤ P ∧
      ∃ p, ∑ q, (if labels q = labels p then x.volumes q else 0) = 0) ∧
    ∀ e, x.getClusters labels = .error e → e = .zeroDivisionError := by
  by_cases hP : 2 ≤ P
  · refine ⟨fun r h => ?_, ⟨fun h => ⟨hP, ?_⟩, fun h => ?_⟩, fun e h => ?_⟩
    · obtain ⟨h0, hr⟩ := clusters_inv hP h
      have hv : ∑ p, r.2.volumes p = ∑ p, x.volumes p := by
        have := r.2.sum_rows Prod.fst
        rw [hr, List.map_map] at this
        rw [← this]
        show ((labelList labels).map fun n => groupVolume x labels n).sum = _
        rw [sum_labelList]
        exact sum_groups labels x.volumes
      have ha : ∀ i, ∑ p, r.2.volumes p * r.2.fractions p i = ∑ p, x.volumes p * x.fractions p i := by
        intro i
        have := r.2.sum_rows fun a => a.1 * a.2 i
        rw [hr, List.map_map] at this
        rw [← this]
        show ((labelList labels).map fun n => groupVolume x labels n *
          (groupAmount x labels n i / groupVolume x labels n)).sum = _
        rw [sum_labelList]
        rw [← sum_groups labels fun p => x.volumes p * x.fractions p i]
        refine Finset.sum_congr rfl fun n hn => ?_
        obtain ⟨p, -, rfl⟩ := Finset.mem_image.mp hn
        exact mul_div_cancel₀ _ (h0 p)
      refine ⟨?_, hv, ha, ?_⟩
      · have := congrArg List.length hr
        unfold Phases.rows labelList at this
        rw [List.length_ofFn, List.length_map, Finset.length_sort] at this
        rw [this]
        exact Finset.card_image_le.trans (by simp)
      · funext i
        unfold Phases.meanFractions
        rw [ha]
        congr 1
    · by_contra hc
      push Not at hc
      obtain ⟨r, hr, -⟩ := clusters_ok (x := x) (labels := labels) hP hc
      rw [hr] at h; cases h
    · obtain ⟨-, p, hp⟩ := h
      exact clusters_error hP hp
    · by_cases h0 : ∀ p, groupVolume x labels (labels p) ≠ 0
      · obtain ⟨r, hr, -⟩ := clusters_ok (x := x) (labels := labels) hP h0
        rw [hr] at h; cases h
      · push Not at h0
        obtain ⟨p, hp⟩ := h0
        rw [clusters_error hP hp] at h
        exact (Except.error.inj h).symm
  · have hs : x.getClusters labels = .ok ⟨P, x⟩ := by
      unfold Phases.getClusters; rw [if_pos (not_le.mp hP)]
    refine ⟨fun r h => ?_, ⟨fun h => ?_, fun h => absurd h.1 hP⟩, fun e h => ?_⟩
    · obtain rfl := Except.ok.inj (hs.symm.trans h)
      exact ⟨le_rfl, rfl, fun _ => rfl, rfl⟩
    · rw [hs] at h; cases h
    · rw [hs] at h; cases h

/-- **C05**. For positive volumes clustering succeeds; the clusters are the groups in the order of their
labels; every fraction of a cluster lies between any bounds valid for its group; and if all rows
sum to within `eps` of one, so do the rows of the clusters. -/
theorem C05_clusters_inside [Field K] [LinearOrder K] [IsStrictOrderedRing K] (x : Phases P C K)
    (labels : Vec P ℤ) (hP : 2 ≤ P) (hv : ∀ p, 0 < x.volumes p) :
    ∃ r, x.getClusters labels = .ok r ∧ ∃ lab : Fin r.1 → ℤ, StrictMono lab ∧
      (∀ n, (∃ k, lab k = n) ↔ ∃ p, labels p = n) ∧ (∀ k, 0 < r.2.volumes k) ∧
      (∀ k i a, (∀ p, labels p = lab k → a ≤ x.fractions p i) → a ≤ r.2.fractions k i) ∧
      (∀ k i b, (∀ p, labels p = lab k → x.fractions p i ≤ b) → r.2.fractions k i ≤ b) ∧
      (∀ k i, (∀ p, labels p = lab k → 0 < x.fractions p i) → 0 < r.2.fractions k i) ∧
      ∀ eps k, (∀ p, labels p = lab k → |∑ i, x.fractions p i - 1| ≤ eps) →
        |∑ i, r.2.fractions k i - 1| ≤ eps := by
  have hg : ∀ p, 0 < groupVolume x labels (labels p) := by
    intro p
    unfold groupVolume
    refine Finset.sum_pos' (fun q _ => ?_) ⟨p, Finset.mem_univ _, ?_⟩
    · split
      · exact (hv q).le
      · exact le_rfl
    · rw [if_pos rfl]; exact hv p
  obtain ⟨⟨Q, y⟩, hr, hrows⟩ := clusters_ok (x := x) (labels := labels) hP fun p => (hg p).ne'
  have hlen : Q = (labelList labels).length := by
    have := congrArg List.length hrows
    unfold Phases.rows at this
    rwa [List.length_ofFn, List.length_map] at this
  subst hlen
  have hy : ∀ k, (y.volumes k, y.fractions k) = (groupVolume x labels ((labelList labels).get k),
      fun i => groupAmount x labels ((labelList labels).get k) i /
        groupVolume x labels ((labelList labels).get k)) := by
    have e : y.rows = List.ofFn fun k => (groupVolume x labels ((labelList labels).get k),
        fun i => groupAmount x labels ((labelList labels).get k) i /
          groupVolume x labels ((labelList labels).get k)) := by
      rw [hrows]
      refine List.ext_get (by simp) fun n h1 h2 => by simp
    exact congrFun (List.ofFn_injective e)
  have hmem : ∀ k, ∃ p, labels p = (labelList labels).get k := fun k =>
    mem_labelList.mp (List.get_mem _ _)
  have hpos : ∀ k, 0 < groupVolume x labels ((labelList labels).get k) := by
    intro k
    obtain ⟨p, hp⟩ := hmem k
    rw [← hp]
    exact hg p
  have hyv : ∀ k, y.volumes k = groupVolume x labels ((labelList labels).get k) := fun k =>
    congrArg Prod.fst (hy k)
  have hyf : ∀ k i, y.fractions k i = groupAmount x labels ((labelList labels).get k) i /
      groupVolume x labels ((labelList labels).get k) := fun k i =>
    congrFun (congrArg Prod.snd (hy k)) i
  have lower : ∀ k i a, (∀ p, labels p = (labelList labels).get k → a ≤ x.fractions p i) →
      a ≤ y.fractions k i := by
    intro k i a ha
    rw [hyf, le_div_iff₀ (hpos k)]
    unfold groupVolume groupAmount
    rw [Finset.mul_sum]
    refine Finset.sum_le_sum fun p _ => ?_
    split
    · next e => rw [mul_comm]; exact mul_le_mul_of_nonneg_left (ha p e) (hv p).le
    · simp
  have upper : ∀ k i b, (∀ p, labels p = (labelList labels).get k → x.fractions p i ≤ b) →
      y.fractions k i ≤ b := by
    intro k i b hb
    rw [hyf, div_le_iff₀ (hpos k)]
    unfold groupVolume groupAmount
    rw [Finset.mul_sum]
    refine Finset.sum_le_sum fun p _ => ?_
    split
    · next e => rw [mul_comm b]; exact mul_le_mul_of_nonneg_left (hb p e) (hv p).le
    · simp
  refine ⟨⟨_, y⟩, hr, fun k => (labelList labels).get k, ?_, ?_, ?_, lower, upper, ?_, ?_⟩
  · exact (Finset.sortedLT_sort _).strictMono_get
  · intro n
    rw [← mem_labelList (labels := labels), List.mem_iff_get]
  · intro k
    rw [show y.volumes k = _ from hyv k]
    exact hpos k
  · intro k i hpf
    show 0 < y.fractions k i
    rw [hyf]
    refine div_pos ?_ (hpos k)
    unfold groupAmount
    obtain ⟨p, hp⟩ := hmem k
    refine Finset.sum_pos' (fun q _ => ?_) ⟨p, Finset.mem_univ _, ?_⟩
    · split
      · next e => exact (mul_pos (hv q) (hpf q e)).le
      · exact le_rfl
    · rw [if_pos hp]; exact mul_pos (hv p) (hpf p hp)
  · intro eps k heps
    show |∑ i, y.fractions k i - 1| ≤ eps
    have e : ∑ i, y.fractions k i - 1 = (∑ p, if labels p = (labelList labels).get k then
        x.volumes p * (∑ i, x.fractions p i - 1) else 0) /
          groupVolume x labels ((labelList labels).get k) := by
      rw [eq_div_iff (hpos k).ne', sub_mul, one_mul]
      simp only [hyf, ← Finset.sum_div]
      rw [div_mul_cancel₀ _ (hpos k).ne']
      unfold groupAmount groupVolume
      rw [Finset.sum_comm, ← Finset.sum_sub_distrib]
      refine Finset.sum_congr rfl fun p _ => ?_
      split
      · rw [← Finset.mul_sum]; ring
      · simp
    rw [e, abs_div, abs_of_pos (hpos k), div_le_iff₀ (hpos k)]
    refine (Finset.abs_sum_le_sum_abs _ _).trans ?_
    unfold groupVolume
    rw [Finset.mul_sum]
    refine Finset.sum_le_sum fun p _ => ?_
    split
    · next e =>
      rw [abs_mul, abs_of_pos (hv p), mul_comm eps]
      exact mul_le_mul_of_nonneg_left (heps p e) (hv p).le
    · simp

/-- Clustering four phases into two groups with interleaved labels. -/
example : ∃ r, (⟨![1, 2, 3, 4], ![![1 / 2, 1 / 2], ![1 / 3, 2 / 3], ![1 / 4, 3 / 4], ![0, 1]]⟩ :
    Phases 4 2 ℚ).getClusters ![2, 1, 2, 1] = .ok r :=
  (C05_clusters_inside _ _ (by norm_num) (by intro p; fin_cases p <;> norm_num)).imp fun _ h => h.1

/-- **C06 fails**: `get_clusters` does not sort, although its documentation says so.  Two phases in two
groups: the first one returned is richest in component 1, the second in component 0. -/
theorem C06_not_sorted : ∃ r : Σ P' : ℕ, Phases P' 2 ℚ,
    (⟨![1, 1], ![![1 / 10, 9 / 10], ![9 / 10, 1 / 10]]⟩ : Phases 2 2 ℚ).getClusters ![1, 2] = .ok r ∧
    ∃ p q : Fin r.1, p < q ∧ MostConcentrated (r.2.fractions p) 1 ∧
      MostConcentrated (r.2.fractions q) 0 := by
  set x : Phases 2 2 ℚ := ⟨![1, 1], ![![1 / 10, 9 / 10], ![9 / 10, 1 / 10]]⟩ with hx
  obtain ⟨⟨Q, y⟩, hr, lab, hlab, hrange, -, hlo, hhi, -⟩ := C05_clusters_inside x ![1, 2] (by norm_num)
    (by intro p; fin_cases p <;> simp [hx])
  have hex : ∀ n : ℤ, (∃ k, lab k = n) ↔ n = 1 ∨ n = 2 := by
    intro n
    rw [hrange]
    constructor
    · rintro ⟨p, hp⟩
      fin_cases p
      · left; simpa using hp.symm
      · right; simpa using hp.symm
    · rintro (rfl | rfl)
      · exact ⟨0, rfl⟩
      · exact ⟨1, rfl⟩
  obtain ⟨k1, hk1⟩ := (hex 1).mpr (Or.inl rfl)
  obtain ⟨k2, hk2⟩ := (hex 2).mpr (Or.inr rfl)
  have hf1 : ∀ i, y.fractions k1 i = x.fractions 0 i := by
    intro i
    refine le_antisymm (hhi k1 i _ fun p hp => ?_) (hlo k1 i _ fun p hp => ?_) <;>
    · rw [hk1] at hp
      fin_cases p
      · exact le_rfl
      · norm_num at hp
  have hf2 : ∀ i, y.fractions k2 i = x.fractions 1 i := by
    intro i
    refine le_antisymm (hhi k2 i _ fun p hp => ?_) (hlo k2 i _ fun p hp => ?_) <;>
    · rw [hk2] at hp
      fin_cases p
      · norm_num at hp
      · exact le_rfl
  refine ⟨⟨Q, y⟩, hr, k1, k2, hlab.lt_iff_lt.mp (by rw [hk1, hk2]; norm_num), fun j hj => ?_,
    fun j hj => ?_⟩
  · rw [hf1, hf1]
    fin_cases j
    · norm_num [hx]
    · exact absurd rfl hj
  · rw [hf2, hf2]
    fin_cases j
    · exact absurd rfl hj
    · norm_num [hx]

/-- **C06**, the part that holds: a single phase is trivially in order, and sorting the clusters — what
`find_coexisting_phases` does — gives the documented order.  Missing: the order of `get_clusters`
itself (`C06_not_sorted`). -/
theorem C06_sorted_partial [Field K] [LinearOrder K] [IsStrictOrderedRing K] {argsort : ArgSort K}
    (ha : argsort.Ok) (x : Phases P C K) (labels : Vec P ℤ) {r r' : Σ P' : ℕ, Phases P' C K}
    (h : x.getClusters labels = .ok r) (h' : r.2.sort argsort = .ok r') :
    (P < 2 → ∀ p q : Fin r.1, p = q) ∧
    ∀ (p q : Fin r'.1), p ≤ q → ∀ i j, MostConcentrated (r'.2.fractions p) i →
      MostConcentrated (r'.2.fractions q) j → i ≤ j := by
  refine ⟨fun hP p q => ?_, fun p q hpq i j => C03_most_concentrated ha h' hpq⟩
  unfold Phases.getClusters at h
  rw [if_pos hP] at h
  obtain rfl := Except.ok.inj h
  refine Fin.ext ?_
  have := p.2
  have := q.2
  simp only at *
  omega

-- C06, the part that holds: the phases of the witness above, clustered and then sorted.
example : ∃ (argsort : ArgSort ℚ) (r r' : Σ P' : ℕ, Phases P' 2 ℚ), argsort.Ok ∧
    (⟨![1, 1], ![![1 / 10, 9 / 10], ![9 / 10, 1 / 10]]⟩ : Phases 2 2 ℚ).getClusters ![1, 2] = .ok r ∧
    r.2.sort argsort = .ok r' ∧ ∀ p q : Fin r'.1, p ≤ q → ∀ i j, MostConcentrated (r'.2.fractions p) i →
      MostConcentrated (r'.2.fractions q) j → i ≤ j := by
  obtain ⟨argsort, ha⟩ := argsort_exists (K := ℚ)
  obtain ⟨r, hr, -⟩ := C06_not_sorted
  obtain ⟨r', hr'⟩ := C02_sort_succeeds argsort r.2 (by norm_num)
  exact ⟨argsort, r, r', ha, hr, hr', (C06_sorted_partial ha _ _ hr hr').2⟩

/-- **C07**. `Phases` is created, with the given content, exactly from a 1-d and a 2-d array with equal
first dimension; otherwise `ValueError`.  In particular the arrays of every collection — those
returned by `normalize`, `sort` and `get_clusters` included — are accepted again. -/
theorem C07_shapes (volumes fractions : NDArr K) :
    ((∃ P C, volumes.shape = [P] ∧ fractions.shape = [P, C]) ↔
      ∃ r, Phases.new volumes fractions = .ok r) ∧
    (∀ r, Phases.new volumes fractions = .ok r → volumes.shape = [r.1] ∧
      fractions.shape = [r.1, r.2.1] ∧ (∀ p, r.2.2.volumes p = volumes.get [p.1]) ∧
      ∀ p i, r.2.2.fractions p i = fractions.get [p.1, i.1]) ∧
    (∀ e, Phases.new volumes fractions = .error e → e = .valueError) := by
  have key : (∃ P C, volumes.shape = [P] ∧ fractions.shape = [P, C] ∧
      Phases.new volumes fractions = .ok ⟨P, C, fun p => volumes.get [p.1],
        fun p i => fractions.get [p.1, i.1]⟩) ∨
      ((¬ ∃ P C, volumes.shape = [P] ∧ fractions.shape = [P, C]) ∧
        Phases.new volumes fractions = .error .valueError) := by
    obtain ⟨sv, gv⟩ := volumes
    obtain ⟨sf, gf⟩ := fractions
    match sv with
    | [] => right; exact ⟨by simp, rfl⟩
    | _ :: _ :: _ =>
      right
      exact ⟨by simp, by unfold Phases.new; simp⟩
    | [P] =>
      match sf with
      | [] => right; exact ⟨by simp, rfl⟩
      | [_] => right; exact ⟨by simp, rfl⟩
      | _ :: _ :: _ :: _ =>
        right
        exact ⟨by simp, by unfold Phases.new; simp⟩
      | [P', C] =>
        by_cases h : P = P'
        · subst h
          left
          refine ⟨P, C, rfl, rfl, ?_⟩
          unfold Phases.new
          simp
        · right
          refine ⟨by simp [Ne.symm h], ?_⟩
          unfold Phases.new
          simp [h]
  rcases key with ⟨P, C, h1, h2, h3⟩ | ⟨h1, h2⟩
  · refine ⟨⟨fun _ => ⟨_, h3⟩, fun _ => ⟨P, C, h1, h2⟩⟩, fun r hr => ?_, fun e he => ?_⟩
    · obtain rfl := Except.ok.inj (h3.symm.trans hr)
      exact ⟨h1, h2, fun _ => rfl, fun _ _ => rfl⟩
    · rw [h3] at he; cases he
  · refine ⟨⟨fun h => absurd h h1, fun ⟨r, hr⟩ => ?_⟩, fun r hr => ?_, fun e he => ?_⟩
    · rw [h2] at hr; cases hr
    · rw [h2] at hr; cases hr
    · rw [h2] at he; exact (Except.error.inj he).symm

-- C07: two volumes and two compositions of three components are accepted; three compositions are not.
example : (∃ r, Phases.new (⟨[2], fun _ => 1⟩ : NDArr ℚ) ⟨[2, 3], fun _ => 1 / 3⟩ = .ok r) ∧
    Phases.new (⟨[2], fun _ => 1⟩ : NDArr ℚ) ⟨[3, 2], fun _ => 1 / 3⟩ = .error .valueError := by
  refine ⟨(C07_shapes _ _).1.mp ⟨2, 3, rfl, rfl⟩, ?_⟩
  cases h : Phases.new (⟨[2], fun _ => 1⟩ : NDArr ℚ) ⟨[3, 2], fun _ => 1 / 3⟩ with
  | error e => rw [(C07_shapes _ _).2.2 e h]
  | ok r =>
    obtain ⟨P, C, h1, h2⟩ := (C07_shapes _ _).1.mpr ⟨r, h⟩
    obtain rfl : 2 = P := List.head_eq_of_cons_eq h1
    exact absurd (List.head_eq_of_cons_eq h2) (by norm_num)

theorem C07_again [Inhabited K] (x : Phases P C K) :
    Phases.new (NDArr.ofVec x.volumes) (NDArr.ofMat x.fractions) = .ok ⟨P, C, x⟩ := by
  obtain ⟨v, f⟩ := x
  unfold Phases.new NDArr.ofVec NDArr.ofMat
  simp

section Info

variable {V : Type} [Field K] [LinearOrder K]

theorem copy_spec {h h' : InfoHeap V} {o o' : PhasesObj C K} {x : Phases P C K}
    (hc : PhasesObj.copy h o x = (h', o')) :
    (o.info = none → o'.info = none ∧ h' = h) ∧
    ∀ a, o.info = some a → o'.info = some h.next ∧ h'.cell h.next = h.cell a ∧
      h'.next = h.next + 1 ∧ ∀ b, b ≠ h.next → h'.cell b = h.cell b := by
  unfold PhasesObj.copy at hc
  refine ⟨fun hn => ?_, fun a ha => ?_⟩
  · rw [hn] at hc
    obtain ⟨rfl, rfl⟩ := Prod.mk.inj hc
    exact ⟨rfl, rfl⟩
  · rw [ha] at hc
    obtain ⟨rfl, rfl⟩ := Prod.mk.inj hc
    refine ⟨rfl, ?_, rfl, fun b hb => ?_⟩
    · simp
    · simp [hb]

/-- One transformation: unless it is `get_clusters` of fewer than two phases, which returns the same
object, the result has an `info` of its own with the same entries. -/
theorem step_info {argsort : ArgSort K} {h h' : InfoHeap V} {o o' : PhasesObj C K}
    {op : PhasesObj.Op} (hs : o.step argsort h op = .ok (h', o')) :
    ((∃ labels, op = .getClusters labels) ∧ o.P < 2 ∧ h' = h ∧ o' = o) ∨
    ((o.info = none → o'.info = none ∧ h' = h) ∧
    ∀ a, o.info = some a → o'.info = some h.next ∧ h'.cell h.next = h.cell a ∧
      h'.next = h.next + 1 ∧ ∀ b, b ≠ h.next → h'.cell b = h.cell b) := by
  cases op with
  | normalize => right; exact copy_spec (Except.ok.inj hs)
  | sort =>
    right
    obtain ⟨r, -, hs⟩ := bind_eq_ok.mp hs
    exact copy_spec (Except.ok.inj hs)
  | getClusters labels =>
    by_cases hP : o.P < 2
    · left
      simp only [PhasesObj.step, if_pos hP] at hs
      obtain ⟨rfl, rfl⟩ := Prod.mk.inj (Except.ok.inj hs)
      exact ⟨⟨labels, rfl⟩, hP, rfl, rfl⟩
    · right
      simp only [PhasesObj.step, if_neg hP] at hs
      obtain ⟨r, -, hs⟩ := bind_eq_ok.mp hs
      exact copy_spec (Except.ok.inj hs)

/-- **C08**, entries: after any sequence of transformations the result has the same entries as the
original, and all dictionaries that existed before, the original's included, are unchanged. -/
theorem C08_info_kept {argsort : ArgSort K} {ops : List PhasesObj.Op}
    {h h' : InfoHeap V} {o o' : PhasesObj C K} {a : ℕ} (ha : o.info = some a) (hlt : a < h.next)
    (hs : PhasesObj.steps argsort h o ops = .ok (h', o')) :
    ∃ b, o'.info = some b ∧ b < h'.next ∧ h'.cell b = h.cell a ∧
      ∀ c, c < h.next → h'.cell c = h.cell c := by
  induction ops generalizing h o a with
  | nil =>
    obtain ⟨rfl, rfl⟩ := Prod.mk.inj (Except.ok.inj hs)
    exact ⟨a, ha, hlt, rfl, fun _ _ => rfl⟩
  | cons op ops ih =>
    obtain ⟨⟨h1, o1⟩, hs1, hs2⟩ := bind_eq_ok.mp hs
    rcases step_info hs1 with ⟨-, -, rfl, rfl⟩ | ⟨-, hc⟩
    · exact ih ha hlt hs2
    · obtain ⟨c1, c2, c3, c4⟩ := hc a ha
      obtain ⟨b, hb1, hb2, hb3, hb4⟩ := ih c1 (by rw [c3]; omega) hs2
      refine ⟨b, hb1, hb2, by rw [hb3, c2], fun c hc => ?_⟩
      rw [hb4 c (by rw [c3]; omega), c4 c (by omega)]

/-- **C08**, independence: if at least one of the transformations made a copy (all do, except
`get_clusters` of fewer than two phases), then later changes of the result's `info` do not change
the original's, nor the other way round. -/
theorem C08_info_independent {argsort : ArgSort K} {op : PhasesObj.Op}
    {ops : List PhasesObj.Op} {h h' : InfoHeap V} {o o' : PhasesObj C K} {a b : ℕ}
    (ha : o.info = some a) (hlt : a < h.next) (hop : (∃ labels, op = .getClusters labels) → 2 ≤ o.P)
    (hs : PhasesObj.steps argsort h o (op :: ops) = .ok (h', o')) (hb : o'.info = some b)
    (k : String) (v : V) :
    (h'.set b k v).cell a = h.cell a ∧ (h'.set a k v).cell b = h.cell a := by
  obtain ⟨⟨h1, o1⟩, hs1, hs2⟩ := bind_eq_ok.mp hs
  rcases step_info hs1 with ⟨hc, hP, -, -⟩ | ⟨-, hc⟩
  · exact absurd (hop hc) (by omega)
  obtain ⟨c1, c2, c3, c4⟩ := hc a ha
  have fresh : ∀ (ops : List PhasesObj.Op) (h1 : InfoHeap V) (o1 : PhasesObj C K) (a1 : ℕ),
      o1.info = some a1 → a < a1 → a1 < h1.next → a < h1.next →
      PhasesObj.steps argsort h1 o1 ops = .ok (h', o') → a < b := by
    intro ops
    induction ops with
    | nil =>
      intro h1 o1 a1 h2 h3 _ _ hs
      obtain ⟨-, rfl⟩ := Prod.mk.inj (Except.ok.inj hs)
      obtain rfl := Option.some.inj (h2.symm.trans hb)
      exact h3
    | cons op ops ih =>
      intro h1 o1 a1 h2 h3 h4 h5 hs
      obtain ⟨⟨h6, o6⟩, hs1, hs2⟩ := bind_eq_ok.mp hs
      rcases step_info hs1 with ⟨-, -, rfl, rfl⟩ | ⟨-, hc⟩
      · exact ih _ _ _ h2 h3 h4 h5 hs2
      · obtain ⟨d1, -, d3, -⟩ := hc a1 h2
        exact ih h6 o6 h1.next d1 h5 (by rw [d3]; omega) (by rw [d3]; omega) hs2
  have hab : a < b := fresh ops h1 o1 h.next c1 hlt (by rw [c3]; omega) (by rw [c3]; omega) hs2
  obtain ⟨b', hb1, -, hb3, hb4⟩ := C08_info_kept ha hlt hs
  obtain rfl := Option.some.inj (hb.symm.trans hb1)
  constructor
  · show (if a = b then _ else h'.cell a) = _
    rw [if_neg hab.ne]
    exact hb4 a hlt
  · show (if b = a then _ else h'.cell b) = _
    rw [if_neg hab.ne', hb3]

/-- The exception: `get_clusters` of a single phase returns the object itself, so a change of the
"result's" `info` is a change of the original's. -/
theorem C08_single_phase_shared {argsort : ArgSort K} (labels : (P : ℕ) → Vec P ℤ)
    (h : InfoHeap V) (o : PhasesObj C K) (hP : o.P < 2) :
    o.step argsort h (.getClusters labels) = .ok (h, o) := by
  simp only [PhasesObj.step, if_pos hP]

/-- A result with one entry, normalized, sorted and clustered. -/
example : ∃ argsort : ArgSort ℚ, ∃ h' : InfoHeap String, ∃ o' : PhasesObj 2 ℚ,
    PhasesObj.steps argsort ⟨fun _ => [("steps", "100")], 1⟩
      (⟨2, ⟨![1, 2], ![![1 / 2, 1 / 2], ![1 / 3, 2 / 3]]⟩, some 0⟩ : PhasesObj 2 ℚ)
      [.normalize, .sort] = .ok (h', o') := by
  obtain ⟨argsort, -⟩ := argsort_exists (K := ℚ)
  have h1 : ∀ (h : InfoHeap String) (o : PhasesObj 2 ℚ), ∃ r, o.step argsort h .sort = .ok r := by
    intro h o
    obtain ⟨r, hr⟩ := sort_ok (argsort := argsort) o.phases (by norm_num)
    exact ⟨_, by unfold PhasesObj.step; rw [hr]; rfl⟩
  have h3 : ∀ (h : InfoHeap String) (o : PhasesObj 2 ℚ),
      ∃ r, PhasesObj.steps argsort h o [.sort] = .ok r := by
    intro h o
    obtain ⟨r, hr⟩ := h1 h o
    exact ⟨r, by unfold PhasesObj.steps; rw [hr]; rfl⟩
  have h4 : ∀ (h : InfoHeap String) (o : PhasesObj 2 ℚ),
      ∃ r, PhasesObj.steps argsort h o [.normalize, .sort] = .ok r := by
    intro h o
    obtain ⟨r, hr⟩ := h3 (PhasesObj.copy h o o.phases.normalize).1
      (PhasesObj.copy h o o.phases.normalize).2
    exact ⟨r, by unfold PhasesObj.steps; simp only [PhasesObj.step, bind_ok]; exact hr⟩
  obtain ⟨⟨h2, o2⟩, hr⟩ := h4 ⟨fun _ => [("steps", "100")], 1⟩
    ⟨2, ⟨![1, 2], ![![1 / 2, 1 / 2], ![1 / 3, 2 / 3]]⟩, some 0⟩
  exact ⟨argsort, h2, o2, hr⟩

end Info

/-- **C09**. For every `n ≥ 1` and all draws between 0 and 1: the fractions lie between 0 and 1 and sum to
exactly one; `n = 0` raises `IndexError`. -/
theorem C09_random_composition {G : Type} [Field K] [LinearOrder K] [IsStrictOrderedRing K]
    {beta : Beta G K} (hb : ∀ g a b, 0 ≤ (beta g a b).1 ∧ (beta g a b).1 ≤ 1) (g : G) :
    (∀ n (junk : Vec (n + 1) K), ∃ v g', uniformRandomComposition beta g (n + 1) junk = .ok (v, g') ∧
      (∀ i, 0 ≤ v i ∧ v i ≤ 1) ∧ ∑ i, v i = 1) ∧
    ∀ junk : Vec 0 K, uniformRandomComposition beta g 0 junk = .error .indexError := by
  refine ⟨fun n junk => ?_, fun _ => rfl⟩
  refine ⟨_, _, rfl, ?_⟩
  have inv := forRange_inv (n := n) (s := (junk, (1 : K), g))
    (body := fun d s => let (b, g) := beta s.2.2 1 (n + 1 - d.1 - 1)
      let x := b * s.2.1
      (setAt s.1 d.castSucc x, s.2.1 - x, g))
    (P := fun k s => 0 ≤ s.2.1 ∧ (∀ d : Fin n, d.1 < k → 0 ≤ s.1 d.castSucc) ∧
      (∑ d : Fin n, if d.1 < k then s.1 d.castSucc else 0) = 1 - s.2.1)
    (by simp) (by
      intro d s ⟨h1, h2, h3⟩
      obtain ⟨b0, b1⟩ := hb s.2.2 1 (n + 1 - d.1 - 1)
      set x := (beta s.2.2 1 (n + 1 - d.1 - 1)).1 * s.2.1 with hx
      have hx0 : 0 ≤ x := mul_nonneg b0 h1
      have hx1 : x ≤ s.2.1 := by
        have := mul_le_mul_of_nonneg_right b1 h1
        rwa [one_mul] at this
      have hother : ∀ e : Fin n, e ≠ d → setAt s.1 d.castSucc x e.castSucc = s.1 e.castSucc := by
        intro e he
        exact setAt_ne _ _ fun hc => he (Fin.castSucc_injective _ hc)
      refine ⟨sub_nonneg.mpr hx1, fun e he => ?_, ?_⟩
      · show 0 ≤ setAt s.1 d.castSucc x e.castSucc
        by_cases hed : e = d
        · subst hed; rw [setAt_same]; exact hx0
        · rw [hother e hed]
          refine h2 e ?_
          have : e.1 ≠ d.1 := fun hc => hed (Fin.ext hc)
          omega
      · show (∑ e : Fin n, if e.1 < d.1 + 1 then setAt s.1 d.castSucc x e.castSucc else 0) =
          1 - (s.2.1 - x)
        have e1 : ∀ e : Fin n, (if e.1 < d.1 + 1 then setAt s.1 d.castSucc x e.castSucc else 0) =
            (if e.1 < d.1 then s.1 e.castSucc else 0) + if e = d then x else 0 := by
          intro e
          by_cases hed : e = d
          · subst hed; simp [setAt_same]
          · have hne : e.1 ≠ d.1 := fun hc => hed (Fin.ext hc)
            rw [hother e hed, if_neg hed, add_zero]
            by_cases hlt : e.1 < d.1
            · rw [if_pos hlt, if_pos (by omega)]
            · rw [if_neg hlt, if_neg (by omega)]
        rw [Finset.sum_congr rfl fun e _ => e1 e, Finset.sum_add_distrib, h3]
        simp
        ring)
  obtain ⟨h1, h2, h3⟩ := inv
  set s := forRange n (junk, (1 : K), g) fun d s =>
    let (b, g) := beta s.2.2 1 (n + 1 - d.1 - 1)
    let x := b * s.2.1
    (setAt s.1 d.castSucc x, s.2.1 - x, g) with hs
  simp only [Fin.is_lt, if_true] at h3
  have hlast : (1 : K) - ∑ d : Fin n, s.1 d.castSucc = s.2.1 := by rw [h3]; ring
  have hval : ∀ d : Fin n, setAt s.1 (Fin.last n) (1 - ∑ d : Fin n, s.1 d.castSucc) d.castSucc =
      s.1 d.castSucc := fun d => setAt_ne _ _ (Fin.castSucc_lt_last d).ne
  have hsum : ∑ i, setAt s.1 (Fin.last n) (1 - ∑ d : Fin n, s.1 d.castSucc) i = 1 := by
    rw [Fin.sum_univ_castSucc]
    simp only [hval, setAt_same]
    ring
  have hnn : ∀ i, 0 ≤ setAt s.1 (Fin.last n) (1 - ∑ d : Fin n, s.1 d.castSucc) i := by
    intro i
    refine Fin.lastCases ?_ (fun d => ?_) i
    · rw [setAt_same, hlast]; exact h1
    · rw [hval]; exact h2 d d.2
  refine ⟨fun i => ⟨hnn i, ?_⟩, hsum⟩
  exact (Finset.single_le_sum (f := setAt s.1 (Fin.last n) (1 - ∑ d : Fin n, s.1 d.castSucc))
    (fun j _ => hnn j) (Finset.mem_univ i)).trans hsum.le

-- C09: draws of 1/3 give a composition of four components.
example : ∃ v g, uniformRandomComposition (fun (_ : Unit) (_ _ : ℕ) => ((1 / 3 : ℚ), ())) () 4 (fun _ => 7) =
    .ok (v, g) ∧ (∀ i, 0 ≤ v i ∧ v i ≤ 1) ∧ ∑ i, v i = 1 :=
  (C09_random_composition (beta := fun (_ : Unit) (_ _ : ℕ) => ((1 / 3 : ℚ), ()))
    (fun _ _ _ => by norm_num) ()).1 3 fun _ => 7

end Flory
