import Verif.Model.Phases
import Verif.Spec.Phases
import Verif.Lemmas.Loops
import Mathlib.Algebra.Order.BigOperators.Ring.Finset
import Mathlib.Tactic.FieldSimp
import Mathlib.Tactic.Linarith

/-! # Lemmas about collections of phases -/

set_option linter.unusedSectionVars false

namespace Flory

open Spec

variable {K : Type} {P C : ℕ}

/-- The (volume, composition) pairs of a collection. -/
def Phases.rows (x : Phases P C K) : List (K × Vec C K) :=
  List.ofFn fun p => (x.volumes p, x.fractions p)

section Sums

variable [Field K]

theorem Phases.sum_rows (x : Phases P C K) (f : K × Vec C K → K) :
    (x.rows.map f).sum = ∑ p, f (x.volumes p, x.fractions p) := by
  unfold rows
  rw [List.map_ofFn, List.sum_ofFn]
  rfl

theorem Phases.totalVolume_rows (x : Phases P C K) : x.totalVolume = (x.rows.map Prod.fst).sum := by
  rw [sum_rows]; rfl

theorem Phases.amount_rows (x : Phases P C K) (i : Fin C) :
    ∑ p, x.volumes p * x.fractions p i = (x.rows.map fun a => a.1 * a.2 i).sum := by
  rw [sum_rows]

end Sums

section Sorting

variable [LinearOrder K]

/-- The ranking used by `sort`. -/
def rankOf (argsort : ArgSort K) (row : Vec C K) : List (Fin C) := (List.ofFn (argsort row)).reverse

theorem rankOf_isRanking {argsort : ArgSort K} (h : argsort.Ok) (row : Vec C K) :
    IsRanking row (rankOf argsort row) := by
  refine ⟨?_, fun i => ?_, ?_⟩
  · rw [rankOf, List.nodup_reverse, List.nodup_ofFn]
    exact (h.bijective row).1
  · rw [rankOf, List.mem_reverse, List.mem_ofFn]
    exact (h.bijective row).2 i
  · rw [rankOf, List.pairwise_reverse, List.pairwise_ofFn]
    intro i j hij
    exact h.sorted row i j hij.le

variable [Field K]

theorem sort_rows {argsort : ArgSort K} {x : Phases P C K} {r : Σ P' : ℕ, Phases P' C K}
    (h : x.sort argsort = .ok r) : r.2.rows = x.rows.mergeSort fun a b =>
      decide (rankOf argsort a.2 ≤ rankOf argsort b.2) := by
  obtain ⟨l, hl, h⟩ := bind_eq_ok.mp h
  obtain rfl := Except.ok.inj h
  unfold npLexsort at hl
  split at hl
  · cases hl
  have hl := Except.ok.inj hl
  have h1 : (⟨Phases.take x.volumes l, Phases.take x.fractions l⟩ : Phases l.length C K).rows =
      l.map fun p => (x.volumes p, x.fractions p) := by
    unfold Phases.rows Phases.take
    refine List.ext_get (by simp) fun n h1 h2 => ?_
    simp
  have h2 : x.rows = (List.finRange P).map fun p => (x.volumes p, x.fractions p) := by
    unfold Phases.rows
    rw [List.ofFn_eq_map]
  show (⟨Phases.take x.volumes l, Phases.take x.fractions l⟩ : Phases l.length C K).rows = _
  rw [h1, h2, ← hl]
  exact List.map_mergeSort fun _ _ _ _ => rfl

theorem sort_ok {argsort : ArgSort K} (x : Phases P C K) (hC : C ≠ 0) :
    ∃ r, x.sort argsort = .ok r := by
  have : ∀ keys : Mat C P (Fin C), ∃ l, npLexsort keys = .ok l := fun keys => by
    unfold npLexsort
    rw [if_neg hC]
    exact ⟨_, rfl⟩
  obtain ⟨l, hl⟩ := this fun i p => argsort (x.fractions p) i
  unfold Phases.sort
  simp only [hl, bind_ok]
  exact ⟨_, rfl⟩

end Sorting

section Clusters

variable [Field K] [DecidableEq K]

/-- Total volume of the phases with a label. -/
def groupVolume (x : Phases P C K) (labels : Vec P ℤ) (n : ℤ) : K :=
  ∑ p, if labels p = n then x.volumes p else 0

/-- Total amount of a component in the phases with a label. -/
def groupAmount (x : Phases P C K) (labels : Vec P ℤ) (n : ℤ) (i : Fin C) : K :=
  ∑ p, if labels p = n then x.volumes p * x.fractions p i else 0

theorem collect_ok {x : Phases P C K} {labels : Vec P ℤ} {ns : List ℤ}
    (h : ∀ n ∈ ns, groupVolume x labels n ≠ 0) : x.collect labels ns =
      .ok (ns.map fun n => (groupVolume x labels n,
        fun i => groupAmount x labels n i / groupVolume x labels n)) := by
  induction ns with
  | nil => rfl
  | cons n ns ih =>
    unfold Phases.collect Phases.average
    have h0 : (∑ p, if labels p = n then x.volumes p else 0) ≠ 0 := h n (by simp)
    rw [if_neg h0, ih fun m hm => h m (by simp [hm])]
    rfl

theorem collect_error {x : Phases P C K} {labels : Vec P ℤ} {ns : List ℤ} {n : ℤ} (hn : n ∈ ns)
    (h : groupVolume x labels n = 0) : x.collect labels ns = .error .zeroDivisionError := by
  induction ns with
  | nil => simp at hn
  | cons m ns ih =>
    unfold Phases.collect Phases.average
    by_cases h0 : (∑ p, if labels p = m then x.volumes p else 0) = 0
    · rw [if_pos h0]; rfl
    · rw [if_neg h0]
      have hne : n ≠ m := by
        rintro rfl
        exact h0 h
      rw [ih (by simpa [hne] using hn)]
      rfl

/-- The labels in increasing order. -/
def labelList (labels : Vec P ℤ) : List ℤ := (Finset.univ.image labels).sort (· ≤ ·)

theorem mem_labelList {labels : Vec P ℤ} {n : ℤ} : n ∈ labelList labels ↔ ∃ p, labels p = n := by
  simp [labelList]

theorem clusters_ok {x : Phases P C K} {labels : Vec P ℤ} (hP : 2 ≤ P)
    (h : ∀ p, groupVolume x labels (labels p) ≠ 0) :
    ∃ r, x.getClusters labels = .ok r ∧ r.2.rows = (labelList labels).map fun n =>
      (groupVolume x labels n, fun i => groupAmount x labels n i / groupVolume x labels n) := by
  unfold Phases.getClusters
  rw [if_neg (not_lt.mpr hP), collect_ok]
  · refine ⟨_, rfl, ?_⟩
    unfold Phases.rows
    exact List.ofFn_get _
  · intro n hn
    obtain ⟨p, rfl⟩ := mem_labelList.mp hn
    exact h p

theorem clusters_error {x : Phases P C K} {labels : Vec P ℤ} (hP : 2 ≤ P) {p : Fin P}
    (h : groupVolume x labels (labels p) = 0) :
    x.getClusters labels = .error .zeroDivisionError := by
  unfold Phases.getClusters
  have := collect_error (mem_labelList.mpr ⟨p, rfl⟩) h
  unfold labelList at this
  rw [if_neg (not_lt.mpr hP), this]
  rfl

theorem clusters_inv {x : Phases P C K} {labels : Vec P ℤ} {r : Σ P' : ℕ, Phases P' C K}
    (hP : 2 ≤ P) (h : x.getClusters labels = .ok r) :
    (∀ p, groupVolume x labels (labels p) ≠ 0) ∧ r.2.rows = (labelList labels).map fun n =>
      (groupVolume x labels n, fun i => groupAmount x labels n i / groupVolume x labels n) := by
  have h0 : ∀ p, groupVolume x labels (labels p) ≠ 0 := by
    intro p hp
    rw [clusters_error hP hp] at h
    cases h
  obtain ⟨r', hr', h'⟩ := clusters_ok hP h0
  obtain rfl := Except.ok.inj (hr'.symm.trans h)
  exact ⟨h0, h'⟩

theorem sum_labelList (labels : Vec P ℤ) (f : ℤ → K) :
    ((labelList labels).map f).sum = ∑ n ∈ Finset.univ.image labels, f n := by
  have h1 : (labelList labels).Nodup := Finset.sort_nodup _ _
  rw [← List.sum_toFinset f h1]
  congr 1
  exact Finset.sort_toFinset _ _

theorem sum_groups (labels : Vec P ℤ) (v : Vec P K) :
    (∑ n ∈ Finset.univ.image labels, ∑ p, if labels p = n then v p else 0) = ∑ p, v p := by
  rw [Finset.sum_comm]
  refine Finset.sum_congr rfl fun p _ => ?_
  rw [Finset.sum_ite_eq, if_pos (Finset.mem_image_of_mem _ (Finset.mem_univ p))]

end Clusters

end Flory
