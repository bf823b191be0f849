import Verif.Spec.TranscriptPhases
import Verif.Lemmas.TranscriptObjects
import Mathlib.Algebra.BigOperators.Fin

/-!
# The transcription of `flory/common/phases.py` agrees with the model
-/

set_option linter.unusedSectionVars false

namespace Flory

open Spec

variable {P C : ℕ}

/-! ### Small facts -/

theorem phases_init_ok {v f : NDArr ℝ} {n c : ℕ} (hv : v.shape = [n]) (hf : f.shape = [n, c]) :
    Gen.Phases.init v f = .ok ⟨v, f⟩ := by
  obtain ⟨sv, gv⟩ := v
  obtain ⟨sf, gf⟩ := f
  dsimp only at hv hf
  subst hv hf
  unfold Gen.Phases.init NDArr.ndim
  simp only [shapeAt_zero, bind, Except.bind, pure, Except.pure]
  simp

theorem sum_vec {a : NDArr ℝ} {n : ℕ} {v : Vec n ℝ} (h : SameVec a v) : a.sum = ∑ i, v i := by
  unfold NDArr.sum
  rw [h.shape]
  exact Finset.sum_congr rfl fun i _ => h.get i

theorem total_volume_eq {a : Gen.PhasesAttrs} {x : Phases P C ℝ} (h : SamePhases a ⟨P, C, x⟩) :
    Gen.Phases.total_volume a = .ok x.totalVolume := by
  unfold Gen.Phases.total_volume
  rw [sum_vec h.volumes]
  rfl

theorem num_phases_eq {a : Gen.PhasesAttrs} {x : Phases P C ℝ} (h : SamePhases a ⟨P, C, x⟩) :
    Gen.Phases.num_phases a = .ok P := by
  unfold Gen.Phases.num_phases NDArr.len
  rw [h.volumes.shape]

theorem num_components_eq {a : Gen.PhasesAttrs} {x : Phases P C ℝ} (h : SamePhases a ⟨P, C, x⟩) :
    Gen.Phases.num_components a = .ok C := by
  unfold Gen.Phases.num_components
  rw [h.fractions.shape]
  rfl

theorem mean_fractions_rel {a : Gen.PhasesAttrs} {x : Phases P C ℝ} (h : SamePhases a ⟨P, C, x⟩) :
    ∃ m, Gen.Phases.mean_fractions a = .ok m ∧ SameVec m x.meanFractions := by
  have hv : NDArr.vecMat a.volumes a.fractions =
      .ok ⟨[C], fun idx => ∑ p : Fin P, a.volumes.get [p.1] * a.fractions.get (p.1 :: idx)⟩ := by
    have h1 := h.volumes.shape
    have h2 := h.fractions.shape
    obtain ⟨⟨sv, gv⟩, ⟨sf, gf⟩⟩ := a
    dsimp only at h1 h2
    subst h1 h2
    unfold NDArr.vecMat
    simp
  refine ⟨⟨[C], fun idx => (∑ p : Fin P, a.volumes.get [p.1] * a.fractions.get (p.1 :: idx)) /
    x.totalVolume⟩, ?_, rfl, fun i => ?_⟩
  · unfold Gen.Phases.mean_fractions
    rw [hv, total_volume_eq h]
    rfl
  · show (∑ p : Fin P, a.volumes.get [p.1] * a.fractions.get [p.1, i.1]) / _ = _
    unfold Phases.meanFractions
    congr 1
    exact Finset.sum_congr rfl fun p _ => by rw [h.volumes.get, h.fractions.get]

theorem normalize_rel {a : Gen.PhasesAttrs} {x : Phases P C ℝ} (h : SamePhases a ⟨P, C, x⟩) :
    ∃ b, Gen.Phases.normalize a = .ok b ∧ SamePhases b ⟨P, C, x.normalize⟩ := by
  refine ⟨⟨a.volumes.map fun t => t / x.totalVolume, a.fractions⟩, ?_, ⟨h.volumes.shape, fun p => ?_⟩,
    h.fractions.shape, fun p i => h.fractions.get p i⟩
  · unfold Gen.Phases.normalize Gen.Phases._copy
    rw [total_volume_eq h]
    simp only [bind, Except.bind]
    rw [phases_init_ok (v := a.volumes.map fun t => t / x.totalVolume) h.volumes.shape h.fractions.shape]
  · show a.volumes.get [p.1] / _ = _
    rw [h.volumes.get]
    rfl

/-! ### Sorting -/

theorem list_map_val_lt {n : ℕ} (l l' : List (Fin n)) :
    l.map Fin.val < l'.map Fin.val ↔ l < l' := by
  induction l generalizing l' with
  | nil => cases l' <;> simp
  | cons a l ih =>
    cases l' with
    | nil => simp
    | cons b l' =>
      rw [List.map_cons, List.map_cons, List.cons_lt_cons_iff, List.cons_lt_cons_iff, ih, Fin.lt_def,
        Fin.ext_iff]

theorem list_map_val_le {n : ℕ} (l l' : List (Fin n)) :
    l.map Fin.val ≤ l'.map Fin.val ↔ l ≤ l' := by
  rw [← not_lt, ← not_lt, list_map_val_lt]

theorem lexsort_eq (sort : ArgSort ℝ) {f : NDArr ℝ} {m : Mat P C ℝ} (h : SameMat f m) :
    NDArr.lexsort (NDArr.transpose (NDArr.argsort sort f)) =
      (npLexsort (C := C) fun i p => sort (m p) i).map (List.map Fin.val) := by
  obtain ⟨sf, gf⟩ := f
  have h1 := h.shape
  have h2 := h.get
  dsimp only at h1 h2
  subst h1
  have e : ∀ (i : Fin C) (p : Fin P),
      (NDArr.transpose (NDArr.argsort sort (⟨[P, C], gf⟩ : NDArr ℝ))).get [i.1, p.1] = (sort (m p) i).1 := by
    intro i p
    show (NDArr.argsort sort (⟨[P, C], gf⟩ : NDArr ℝ)).get [p.1, i.1] = _
    unfold NDArr.argsort
    dsimp only
    rw [dif_pos (show [p.1, i.1].getLastD 0 < [P, C].getLastD 0 from i.2)]
    have : (fun j : Fin ([P, C].getLastD 0) => gf ([p.1, i.1].dropLast ++ [j.1])) = m p := by
      funext j
      exact h2 p j
    exact congrArg (fun v : Vec C ℝ => (sort v i).1) this
  have h3 : npLexsort ((NDArr.transpose (NDArr.argsort sort (⟨[P, C], gf⟩ : NDArr ℝ))).toMat C P) =
      npLexsort (C := C) fun i p => sort (m p) i := by
    unfold npLexsort
    split
    · rfl
    · congr 2
      funext p q
      congr 1
      have key : ∀ p : Fin P, (List.ofFn fun i : Fin C =>
          (NDArr.transpose (NDArr.argsort sort (⟨[P, C], gf⟩ : NDArr ℝ))).toMat C P i p).reverse =
          ((List.ofFn fun i : Fin C => sort (m p) i).reverse).map Fin.val := by
        intro p
        rw [List.map_reverse, List.map_ofFn]
        congr 2
        funext i
        exact e i p
      rw [key, key]
      exact propext (list_map_val_le _ _)
  unfold NDArr.lexsort
  show (do
    let l ← npLexsort ((NDArr.transpose (NDArr.argsort sort (⟨[P, C], gf⟩ : NDArr ℝ))).toMat C P)
    return l.map Fin.val) = _
  rw [h3]
  cases npLexsort (C := C) fun i p => sort (m p) i <;> rfl

theorem takeRows_ok {K : Type} {a : NDArr K} {s : List ℕ} (h : a.shape = P :: s) (l : List (Fin P)) :
    a.takeRows (l.map Fin.val) = .ok ⟨(l.map Fin.val).length :: s,
      fun idx => a.get ((l.map Fin.val).getD (idx.headD 0) 0 :: idx.tail)⟩ := by
  unfold NDArr.takeRows
  rw [h, if_pos]
  · rfl
  · intro k hk
    obtain ⟨p, -, rfl⟩ := List.mem_map.1 hk
    exact p.2

theorem getD_map_val (l : List (Fin P)) (k : Fin l.length) :
    (l.map Fin.val).getD k.1 0 = (l.get k).1 := by
  simp [List.getD]

theorem sort_rel (sort : ArgSort ℝ) {a : Gen.PhasesAttrs} {x : Phases P C ℝ} (h : SamePhases a ⟨P, C, x⟩) :
    Agrees (fun b r => SamePhases b ⟨r.1, C, r.2⟩) (Gen.Phases.sort sort a) (x.sort sort) := by
  unfold Gen.Phases.sort Phases.sort
  simp only [lexsort_eq sort h.fractions]
  cases hn : npLexsort (C := C) fun i p => sort (x.fractions p) i with
  | error e =>
    simp only [Except.map, bind, Except.bind]
    exact rfl
  | ok l =>
    simp only [Except.map, bind, Except.bind, pure, Except.pure]
    rw [takeRows_ok h.volumes.shape, takeRows_ok h.fractions.shape]
    dsimp only
    unfold Gen.Phases._copy
    rw [phases_init_ok (n := (l.map Fin.val).length) (c := C) rfl rfl]
    refine ⟨⟨by simp, fun k => ?_⟩, by simp, fun k i => ?_⟩
    · show a.volumes.get [(l.map Fin.val).getD k.1 0] = _
      rw [getD_map_val l k, h.volumes.get]
      rfl
    · show a.fractions.get [(l.map Fin.val).getD k.1 0, i.1] = _
      rw [getD_map_val l k, h.fractions.get]
      rfl

/-! ### Clusters -/

/-- The places a mask selects. -/
def selected (l : List ℤ) (n : ℤ) : List ℕ :=
  (List.range l.length).filter fun k => (l.map fun x => decide (x = n)).getD k false

theorem mem_selected {l : List ℤ} {n : ℤ} {k : ℕ} : k ∈ selected l n ↔ ∃ h : k < l.length, l[k] = n := by
  unfold selected
  simp only [List.mem_filter, List.mem_range]
  constructor
  · rintro ⟨h, h2⟩
    refine ⟨h, ?_⟩
    simpa [List.getD, h] using h2
  · rintro ⟨h, h2⟩
    refine ⟨h, ?_⟩
    simpa [List.getD, h] using h2

theorem sum_getD (l : List ℕ) (f : ℕ → ℝ) : ∑ k : Fin l.length, f (l.getD k.1 0) = (l.map f).sum := by
  rw [← List.sum_ofFn]
  congr 1
  apply List.ext_getElem
  · simp
  · intro i h1 h2
    have hi : i < l.length := by simpa using h1
    simp [List.getD]

theorem sum_filter_range (q : ℕ → Bool) (f : ℕ → ℝ) (n : ℕ) :
    (((List.range n).filter q).map f).sum = ∑ p : Fin n, if q p.1 then f p.1 else 0 := by
  induction n with
  | zero => simp
  | succ n ih =>
    rw [List.range_succ, List.filter_append, List.map_append, List.sum_append, ih, Fin.sum_univ_castSucc]
    congr 1
    by_cases h : q n <;> simp [h]

theorem sum_selected {l : List ℤ} (hl : l.length = P) (n : ℤ) (f : ℕ → ℝ) :
    ∑ k : Fin (selected l n).length, f ((selected l n).getD k.1 0) =
      ∑ p : Fin P, if l.getD p.1 0 = n then f p.1 else 0 := by
  subst hl
  rw [sum_getD]
  unfold selected
  rw [sum_filter_range]
  refine Finset.sum_congr rfl fun p _ => ?_
  simp [List.getD]

theorem maskRows_ok {K : Type} {a : NDArr K} {s : List ℕ} (h : a.shape = P :: s) {l : List ℤ}
    (hl : l.length = P) (n : ℤ) :
    a.maskRows (l.map fun x => decide (x = n)) = .ok ⟨(selected l n).length :: s,
      fun idx => a.get ((selected l n).getD (idx.headD 0) 0 :: idx.tail)⟩ := by
  unfold NDArr.maskRows
  rw [if_neg (by rw [h, List.length_map, hl]; simp)]
  rw [List.length_map]
  show a.takeRows (selected l n) = _
  unfold NDArr.takeRows
  rw [h, if_pos]
  · rfl
  · intro k hk
    obtain ⟨hk, -⟩ := mem_selected.1 hk
    exact hl ▸ hk

/-- One round of the loop over the clusters. -/
noncomputable def clusterRound (a : Gen.PhasesAttrs) (l : List ℤ) (n : ℤ)
    (state : List (NDArr ℝ) × List ℝ) : Py (List (NDArr ℝ) × List ℝ) := do
  let f ← NDArr.maskRows a.fractions (l.map fun x => decide (x = n))
  let v ← NDArr.maskRows a.volumes (l.map fun x => decide (x = n))
  let m ← NDArr.average f v
  pure (state.1 ++ [m], state.2 ++ [NDArr.sum v])

theorem clusterRound_rel {a : Gen.PhasesAttrs} {x : Phases P C ℝ} (h : SamePhases a ⟨P, C, x⟩)
    {l : List ℤ} (hl : l.length = P) (n : ℤ) (state : List (NDArr ℝ) × List ℝ) :
    Agrees (fun r m => ∃ g, r = (state.1 ++ [g], state.2 ++
        [∑ p, if l.getD p.1 0 = n then x.volumes p else 0]) ∧ SameVec g m)
      (clusterRound a l n state) (x.average (fun p => l.getD p.1 0) n) := by
  have hs : NDArr.sum ⟨[(selected l n).length],
      fun idx => a.volumes.get ((selected l n).getD (idx.headD 0) 0 :: idx.tail)⟩ =
      ∑ p : Fin P, if l.getD p.1 0 = n then x.volumes p else 0 := by
    show ∑ k : Fin (selected l n).length, a.volumes.get [(selected l n).getD k.1 0] = _
    rw [sum_selected hl n fun k => a.volumes.get [k]]
    exact Finset.sum_congr rfl fun p _ => by rw [h.volumes.get]
  unfold clusterRound Phases.average
  rw [maskRows_ok h.volumes.shape hl, maskRows_ok h.fractions.shape hl]
  simp only [bind, Except.bind]
  unfold NDArr.average
  dsimp only
  rw [hs, if_neg (by simp)]
  by_cases hz : (∑ p : Fin P, if l.getD p.1 0 = n then x.volumes p else 0) = 0
  · rw [if_pos hz, if_pos hz]
    exact rfl
  · rw [if_neg hz, if_neg hz]
    refine ⟨_, rfl, rfl, fun i => ?_⟩
    show (∑ k : Fin (selected l n).length, a.fractions.get [(selected l n).getD k.1 0, i.1] *
      a.volumes.get [(selected l n).getD k.1 0]) / _ = _
    rw [sum_selected hl n fun k => a.fractions.get [k, i.1] * a.volumes.get [k]]
    congr 1
    exact Finset.sum_congr rfl fun p _ => by rw [h.volumes.get, h.fractions.get, mul_comm]

theorem clusters_loop {a : Gen.PhasesAttrs} {x : Phases P C ℝ} (h : SamePhases a ⟨P, C, x⟩)
    {l : List ℤ} (hl : l.length = P) (ns : List ℤ) (state : List (NDArr ℝ) × List ℝ) :
    Agrees (fun r groups => ∃ gs, r = (state.1 ++ gs, state.2 ++ groups.map Prod.fst) ∧
        List.Forall₂ (fun g (m : ℝ × Vec C ℝ) => SameVec g m.2) gs groups)
      (forListM ns state (clusterRound a l)) (x.collect (fun p => l.getD p.1 0) ns) := by
  induction ns generalizing state with
  | nil => exact ⟨[], by simp, .nil⟩
  | cons n ns ih =>
    have h1 := clusterRound_rel h hl n state
    unfold forListM Phases.collect
    simp only [bind, Except.bind]
    cases e1 : clusterRound a l n state with
    | error e =>
      cases e2 : x.average (fun p => l.getD p.1 0) n with
      | error e' => rw [e1, e2] at h1; exact h1
      | ok m => rw [e1, e2] at h1; exact h1.elim
    | ok r =>
      cases e2 : x.average (fun p => l.getD p.1 0) n with
      | error e' => rw [e1, e2] at h1; exact h1.elim
      | ok m =>
        rw [e1, e2] at h1
        obtain ⟨g, rfl, hg⟩ := h1
        dsimp only
        have h2 := ih (state.1 ++ [g], state.2 ++ [∑ p, if l.getD p.1 0 = n then x.volumes p else 0])
        cases e3 : forListM ns (state.1 ++ [g], state.2 ++
            [∑ p, if l.getD p.1 0 = n then x.volumes p else 0]) (clusterRound a l) with
        | error e =>
          cases e4 : x.collect (fun p => l.getD p.1 0) ns with
          | error e' => rw [e3, e4] at h2; exact h2
          | ok m => rw [e3, e4] at h2; exact h2.elim
        | ok r =>
          cases e4 : x.collect (fun p => l.getD p.1 0) ns with
          | error e' => rw [e3, e4] at h2; exact h2.elim
          | ok gr =>
            rw [e3, e4] at h2
            obtain ⟨gs, rfl, hgs⟩ := h2
            exact ⟨g :: gs, by simp, .cons hg hgs⟩

theorem collect_length {x : Phases P C ℝ} {labels : Vec P ℤ} {ns : List ℤ} {gr : List (ℝ × Vec C ℝ)}
    (h : x.collect labels ns = .ok gr) : gr.length = ns.length := by
  induction ns generalizing gr with
  | nil =>
    cases h
    rfl
  | cons n ns ih =>
    unfold Phases.collect at h
    simp only [bind, Except.bind] at h
    split at h
    · cases h
    · split at h
      · cases h
      · rename_i r hr
        cases h
        simp [ih hr]

theorem stack_ok {gs : List (NDArr ℝ)} {gr : List (ℝ × Vec C ℝ)} (h0 : gr ≠ [])
    (h : List.Forall₂ (fun g (m : ℝ × Vec C ℝ) => SameVec g m.2) gs gr) :
    ∃ b, NDArr.stack gs = .ok b ∧ b.shape = [gr.length, C] ∧
      ∀ (k : Fin gr.length) (i : Fin C), b.get [k.1, i.1] = (gr.get k).2 i := by
  have hlen := h.length_eq
  cases h with
  | nil => exact absurd rfl h0
  | @cons g m gs gr hg hgs =>
    refine ⟨⟨(g :: gs).length :: g.shape, fun idx => ((g :: gs).getD (idx.headD 0) g).get idx.tail⟩, ?_, ?_, ?_⟩
    · unfold NDArr.stack
      dsimp only
      rw [if_pos]
      intro b hb
      obtain ⟨e, H⟩ := List.forall₂_iff_get.1 hgs
      obtain ⟨k, hk, rfl⟩ := List.getElem_of_mem hb
      rw [hg.shape]
      exact (H k hk (by omega)).shape
    · show (g :: gs).length :: g.shape = _
      rw [hg.shape, hlen]
    · intro k i
      have hk : k.1 < (g :: gs).length := lt_of_lt_of_eq k.2 hlen.symm
      show ((g :: gs).getD k.1 g).get [i.1] = _
      have e : (g :: gs).getD k.1 g = (g :: gs)[k.1] := List.getD_eq_getElem _ _ hk
      rw [e]
      have hall : List.Forall₂ (fun g (m : ℝ × Vec C ℝ) => SameVec g m.2) (g :: gs) (m :: gr) := .cons hg hgs
      exact ((List.forall₂_iff_get.1 hall).2 k.1 hk k.2).get i

theorem get_clusters_rel {a : Gen.PhasesAttrs} {x : Phases P C ℝ} (h : SamePhases a ⟨P, C, x⟩)
    (scipy : Scipy) (dist : ℝ) {links : NDArr ℝ} {l : List ℤ}
    (h1 : scipy.linkage (scipy.pdist a.fractions) "centroid" = .ok links)
    (h2 : scipy.fcluster links dist "distance" = .ok l) (hl : l.length = P) :
    Agrees (fun b r => SamePhases b ⟨r.1, C, r.2⟩) (Gen.Phases.get_clusters scipy a dist)
      (x.getClusters fun p => l.getD p.1 0) := by
  unfold Gen.Phases.get_clusters Phases.getClusters
  rw [num_phases_eq h]
  simp only [bind, Except.bind]
  by_cases hP : P < 2
  · rw [if_pos hP, if_pos hP]
    exact h
  rw [if_neg hP, if_neg hP]
  simp only [h1, h2]
  have hu : uniqueLabels l = (Finset.univ.image fun p : Fin P => l.getD p.1 0).sort (· ≤ ·) := by
    unfold uniqueLabels
    congr 1
    ext n
    simp only [List.mem_toFinset, Finset.mem_image, Finset.mem_univ, true_and]
    constructor
    · intro hn
      obtain ⟨k, hk, rfl⟩ := List.getElem_of_mem hn
      exact ⟨⟨k, hl ▸ hk⟩, by simp [List.getD, hk]⟩
    · rintro ⟨p, rfl⟩
      have hp : p.1 < l.length := hl ▸ p.2
      simp [List.getD, hp]
  rw [← hu]
  have hne : uniqueLabels l ≠ [] := by
    unfold uniqueLabels
    intro h0
    have : l.toFinset = ∅ := by simpa using congrArg List.length h0
    rw [List.toFinset_eq_empty_iff] at this
    rw [this] at hl
    simp at hl
    omega
  have hloop := clusters_loop h hl (uniqueLabels l) ([], [])
  show Agrees _ (Except.bind (forListM (uniqueLabels l) ([], []) (clusterRound a l)) fun state => _) _
  cases e3 : forListM (uniqueLabels l) ([], []) (clusterRound a l) with
  | error e =>
    cases e4 : x.collect (fun p => l.getD p.1 0) (uniqueLabels l) with
    | error e' => rw [e3, e4] at hloop; exact hloop
    | ok m => rw [e3, e4] at hloop; exact hloop.elim
  | ok r =>
    cases e4 : x.collect (fun p => l.getD p.1 0) (uniqueLabels l) with
    | error e' => rw [e3, e4] at hloop; exact hloop.elim
    | ok gr =>
      rw [e3, e4] at hloop
      obtain ⟨gs, rfl, hgs⟩ := hloop
      have hgr : gr ≠ [] := by
        intro h0
        have := collect_length e4
        rw [h0] at this
        exact hne (List.length_eq_zero_iff.1 this.symm)
      obtain ⟨b, hb, hbs, hbg⟩ := stack_ok hgr hgs
      simp only [Except.bind, List.nil_append]
      rw [hb]
      dsimp only
      unfold Gen.Phases._copy
      rw [phases_init_ok (n := gr.length) (c := C) (by simp [NDArr.ofReals]) hbs]
      refine ⟨⟨by simp [NDArr.ofReals], fun k => ?_⟩, hbs, hbg⟩
      show (gr.map Prod.fst).getD k.1 0 = _
      simp [List.getD]

/-! ### Random composition -/

theorem setItem_nat {a : NDArr ℝ} {n : ℕ} {v : Vec n ℝ} (h : SameVec a v) (k : Fin n) (y : ℝ) :
    ∃ b, NDArr.setItem a (k.1 : ℤ) y = .ok b ∧ SameVec b (setAt v k y) := by
  refine ⟨⟨a.shape, fun idx => if idx = [k.1] then y else a.get idx⟩, ?_, h.shape, fun i => ?_⟩
  · obtain ⟨sa, ga⟩ := a
    have h1 := h.shape
    dsimp only at h1
    subst h1
    unfold NDArr.setItem normIndex
    simp [bind, Except.bind, pure, Except.pure]
  · show (if [i.1] = [k.1] then y else a.get [i.1]) = _
    unfold setAt
    by_cases e : i = k
    · subst e; simp
    · have : i.1 ≠ k.1 := fun h => e (Fin.ext h)
      simp [e, this, h.get]

theorem setItem_last {a : NDArr ℝ} {n : ℕ} {v : Vec (n + 1) ℝ} (h : SameVec a v) (y : ℝ) :
    ∃ b, NDArr.setItem a (-1) y = .ok b ∧ SameVec b (setAt v (Fin.last n) y) := by
  obtain ⟨b, hb, hs⟩ := setItem_nat h (Fin.last n) y
  refine ⟨b, ?_, hs⟩
  rw [← hb]
  obtain ⟨sa, ga⟩ := a
  have h1 := h.shape
  dsimp only at h1
  subst h1
  unfold NDArr.setItem normIndex
  have e : ((-1 : ℤ) + ((n + 1 : ℕ) : ℤ)).toNat = n := by omega
  simp [bind, Except.bind, pure, Except.pure]

theorem forListM_append {α σ : Type} (l l' : List α) (s : σ) (body : α → σ → Py σ) :
    forListM (l ++ l') s body = (forListM l s body).bind fun s => forListM l' s body := by
  induction l generalizing s with
  | nil => rfl
  | cons x l ih =>
    rw [List.cons_append]
    show (body x s).bind (fun s => forListM (l ++ l') s body) =
      ((body x s).bind fun s => forListM l s body).bind _
    cases body x s with
    | error e => rfl
    | ok r => exact ih r

theorem forListM_range_rel {σ τ : Type} (R : σ → τ → Prop) (n : ℕ) (body : ℕ → σ → Py σ)
    (body' : Fin n → τ → τ)
    (hstep : ∀ (i : Fin n) s t, R s t → ∃ s', body i.1 s = .ok s' ∧ R s' (body' i t)) {s : σ} {t : τ}
    (h : R s t) : ∃ s', forListM (List.range n) s body = .ok s' ∧ R s' (forRange n t body') := by
  induction n with
  | zero => exact ⟨s, rfl, h⟩
  | succ n ih =>
    obtain ⟨r, hr, hR⟩ := ih (fun i => body' i.castSucc) fun i s t h => hstep i.castSucc s t h
    obtain ⟨r', hr', hR'⟩ := hstep (Fin.last n) r _ hR
    refine ⟨r', ?_, ?_⟩
    · rw [List.range_succ, forListM_append, hr]
      show (body n r).bind (fun s => .ok s) = _
      rw [show body n r = .ok r' from hr']
      rfl
    · unfold forRange at hR' ⊢
      rw [Fin.foldl_succ_last]
      exact hR'

/-- The loop body of the random composition in the model. -/
noncomputable def betaRound {G : Type} (beta : Beta G ℝ) (n : ℕ) (d : Fin n)
    (s : Vec (n + 1) ℝ × ℝ × G) : Vec (n + 1) ℝ × ℝ × G :=
  (setAt s.1 d.castSucc ((beta s.2.2 1 (n + 1 - d.1 - 1)).1 * s.2.1),
    s.2.1 - (beta s.2.2 1 (n + 1 - d.1 - 1)).1 * s.2.1, (beta s.2.2 1 (n + 1 - d.1 - 1)).2)

theorem uniformRandomComposition_rel {G : Type} (beta : Beta G ℝ) (n : ℕ) (junk : List ℕ → ℝ) (g : G) :
    Agrees (fun a r => SameVec a.1 r.1 ∧ a.2 = r.2)
      (Gen.get_uniform_random_composition beta n junk g)
      (uniformRandomComposition beta g n fun i => junk [i.1]) := by
  cases n with
  | zero => exact rfl
  | succ n =>
    unfold Gen.get_uniform_random_composition uniformRandomComposition
    obtain ⟨s', hs', hv, hm, hg⟩ := forListM_range_rel
      (fun (s : G × ℝ × NDArr ℝ) (t : Vec (n + 1) ℝ × ℝ × G) =>
        SameVec s.2.2 t.1 ∧ s.2.1 = t.2.1 ∧ s.1 = t.2.2) n
      (fun d state => do
        let phis ← NDArr.setItem state.2.2 (d : ℤ) ((beta state.1 1 (n + 1 - d - 1)).1 * state.2.1)
        pure ((beta state.1 1 (n + 1 - d - 1)).2, state.2.1 -
          (beta state.1 1 (n + 1 - d - 1)).1 * state.2.1, phis))
      (betaRound beta n)
      (by
        rintro i ⟨g, m, a⟩ ⟨v, m', g'⟩ ⟨h1, h2, h3⟩
        dsimp only at h1 h2 h3
        subst h2 h3
        obtain ⟨b, hb, hs⟩ := setItem_nat h1 i.castSucc ((beta g 1 (n + 1 - i.1 - 1)).1 * m)
        refine ⟨((beta g 1 (n + 1 - i.1 - 1)).2, m - (beta g 1 (n + 1 - i.1 - 1)).1 * m, b), ?_, hs, rfl, rfl⟩
        dsimp only
        rw [show ((i.1 : ℕ) : ℤ) = ((i.castSucc.1 : ℕ) : ℤ) from rfl, hb]
        rfl)
      (s := (g, 1, ⟨[n + 1], junk⟩)) (t := (fun i => junk [i.1], 1, g)) ⟨⟨rfl, fun _ => rfl⟩, rfl, rfl⟩
    have hs'' := hs'
    simp only [bind, Except.bind, pure, Except.pure, Nat.add_sub_cancel] at hs'' ⊢
    rw [hs'']
    dsimp only
    change Agrees _ _ (.ok (setAt (forRange n ((fun i => junk [i.1] : Vec (n + 1) ℝ), (1 : ℝ), g)
      (betaRound beta n)).1 (Fin.last n) (1 - ∑ d : Fin n, (forRange n
        ((fun i => junk [i.1] : Vec (n + 1) ℝ), (1 : ℝ), g) (betaRound beta n)).1 d.castSucc),
      (forRange n ((fun i => junk [i.1] : Vec (n + 1) ℝ), (1 : ℝ), g) (betaRound beta n)).2.2))
    generalize forRange n ((fun i => junk [i.1] : Vec (n + 1) ℝ), (1 : ℝ), g) (betaRound beta n) = R at *
    have hsum : NDArr.sum (NDArr.init s'.2.2) = ∑ d : Fin n, R.1 d.castSucc := by
      have hi : (NDArr.init s'.2.2).shape = [n] := by
        unfold NDArr.init
        rw [hv.shape]
        rfl
      exact sum_vec ⟨hi, fun i => hv.get i.castSucc⟩
    rw [hsum]
    obtain ⟨b, hb, hs⟩ := setItem_last hv (1 - ∑ d : Fin n, R.1 d.castSucc)
    rw [hb]
    exact ⟨hs, hg⟩

/-! ### Results with a dictionary -/

theorem result_init {V : Type} (v f : NDArr ℝ) (info : Option (Dict V)) :
    Gen.PhasesResult.init v f info =
      (Gen.Phases.init v f).map fun p => ⟨p.volumes, p.fractions, info.getD []⟩ := by
  unfold Gen.PhasesResult.init
  cases Gen.Phases.init v f with
  | error e => rfl
  | ok p => cases info <;> rfl

theorem result_copy {V : Type} (a : Gen.PhasesResultAttrs V) (b : Gen.PhasesAttrs) (v f : NDArr ℝ) :
    Gen.PhasesResult._copy a v f =
      (Gen.Phases._copy b v f).map fun p => ⟨p.volumes, p.fractions, a._info⟩ := by
  unfold Gen.PhasesResult._copy Gen.Phases._copy Gen.PhasesResult.info
  simp only [bind, Except.bind, pure, Except.pure, result_init]
  cases Gen.Phases.init v f <;> rfl

theorem result_normalize {V : Type} (a : Gen.PhasesResultAttrs V) :
    Gen.PhasesResult.normalize a = (Gen.Phases.normalize ⟨a.volumes, a.fractions⟩).map
      fun p => ⟨p.volumes, p.fractions, a._info⟩ := by
  unfold Gen.PhasesResult.normalize Gen.Phases.normalize Gen.PhasesResult.total_volume
    Gen.Phases.total_volume
  simp only [bind, Except.bind, pure, Except.pure, result_copy a ⟨a.volumes, a.fractions⟩]

theorem result_sort {V : Type} (sort : ArgSort ℝ) (a : Gen.PhasesResultAttrs V) :
    Gen.PhasesResult.sort sort a = (Gen.Phases.sort sort ⟨a.volumes, a.fractions⟩).map
      fun p => ⟨p.volumes, p.fractions, a._info⟩ := by
  unfold Gen.PhasesResult.sort Gen.Phases.sort
  simp only [bind, Except.bind, result_copy a ⟨a.volumes, a.fractions⟩]
  cases NDArr.lexsort (NDArr.transpose (NDArr.argsort sort a.fractions)) with
  | error e => rfl
  | ok l =>
    dsimp only
    cases NDArr.takeRows a.volumes l with
    | error e => rfl
    | ok v =>
      dsimp only
      cases NDArr.takeRows a.fractions l with
      | error e => rfl
      | ok f =>
        dsimp only

theorem result_get_clusters {V : Type} (scipy : Scipy) (dist : ℝ) (a : Gen.PhasesResultAttrs V) :
    Gen.PhasesResult.get_clusters scipy a dist =
      (Gen.Phases.get_clusters scipy ⟨a.volumes, a.fractions⟩ dist).map
        fun p => ⟨p.volumes, p.fractions, a._info⟩ := by
  unfold Gen.PhasesResult.get_clusters Gen.Phases.get_clusters Gen.PhasesResult.num_phases
    Gen.Phases.num_phases
  simp only [bind, Except.bind, pure, Except.pure, result_copy a ⟨a.volumes, a.fractions⟩]
  cases NDArr.len a.volumes with
  | error e => rfl
  | ok n =>
    dsimp only
    split
    · rfl
    cases scipy.linkage (scipy.pdist a.fractions) "centroid" with
    | error e => rfl
    | ok links =>
      dsimp only
      cases scipy.fcluster links dist "distance" with
      | error e => rfl
      | ok l =>
        dsimp only
        generalize forListM (uniqueLabels l) (([] : List (NDArr ℝ)), ([] : List ℝ)) _ = r
        cases r with
        | error e => rfl
        | ok r =>
          dsimp only
          cases NDArr.stack r.1 with
          | error e => rfl
          | ok f =>
            dsimp only

theorem copy_same {V : Type} {h : InfoHeap V} {o : PhasesObj C ℝ} {a : Gen.PhasesResultAttrs V}
    (ho : SamePhasesResult a (h, o)) {P' : ℕ} {x : Phases P' C ℝ} {b : Gen.PhasesAttrs}
    (hb : SamePhases b ⟨P', C, x⟩) :
    SamePhasesResult ⟨b.volumes, b.fractions, a._info⟩ (PhasesObj.copy h o x) := by
  obtain ⟨addr, h1, h2⟩ := ho.info
  dsimp only at h1 h2
  unfold PhasesObj.copy
  rw [h1]
  refine ⟨hb, h.next, rfl, ?_⟩
  simp [InfoHeap.alloc, h2]

theorem agrees_result {V : Type} {h : InfoHeap V} {o : PhasesObj C ℝ} {a : Gen.PhasesResultAttrs V}
    (ho : SamePhasesResult a (h, o)) {r : Py Gen.PhasesAttrs} {m : Py (Σ P' : ℕ, Phases P' C ℝ)}
    (hr : Agrees (fun b r => SamePhases b ⟨r.1, C, r.2⟩) r m) :
    Agrees SamePhasesResult (r.map fun p => (⟨p.volumes, p.fractions, a._info⟩ : Gen.PhasesResultAttrs V))
      (do let q ← m; return PhasesObj.copy h o q.2) := by
  cases r with
  | error e =>
    cases m with
    | error e' => exact hr
    | ok q => exact hr.elim
  | ok b =>
    cases m with
    | error e' => exact hr.elim
    | ok q => exact copy_same ho hr

end Flory
