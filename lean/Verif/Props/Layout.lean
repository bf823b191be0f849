import Verif.Lemmas.Layout

/-!
# C108: data types and layout of the arrays handed to compiled classes

`Spec.Declared dt axes a` says that `a` has the data type, the number of axes and the row-major layout that the field of
the compiled class is declared with.
-/

set_option linter.unusedSectionVars false

namespace Flory

open Spec Lay

theorem fhLay_form {n : ℕ} {a : Lay} (h : FHLay n a) : ∃ dt, a = ⟨[n, n], [(n : ℤ), 1], dt⟩ := by
  induction h with
  | set h =>
    obtain ⟨b, hb, rfl⟩ := return_ok h
    obtain ⟨s, t, rfl⟩ := broadcast2 hb
    obtain ⟨s', t', e, _⟩ := copy2 n n s t (Lay.dtype (atleast1d _))
    exact ⟨_, by rw [e, symmetrized_eq]⟩
  | uniform dt => exact ⟨dt, by simp [fresh, cStrides]⟩
  | random _ ih => exact ih

/-- The matrix that `FloryHugginsInteraction` hands to the compiled class is always as declared, whatever is given as
`chis` and whatever was called before. -/
theorem C108_interaction {n : ℕ} {a : Lay} (h : FHLay n a) :
    Declared .float64 2 (fhHanded a) ∧ (fhHanded a).shape = [n, n] := by
  obtain ⟨dt, rfl⟩ := fhLay_form h
  obtain ⟨s', t', e, _, hr⟩ := copy2 n n n 1 dt
  unfold fhHanded astype
  rw [e]
  refine ⟨⟨rfl, rfl, ?_⟩, rfl⟩
  have := hr.mpr (by simp; omega)
  rw [rowMajor2] at this
  exact rowMajor2.mpr this

/-- The matrix that `FloryHugginsBlockInteraction` hands to the compiled class is always row-major.  It is as declared
unless it was given in single precision. -/
theorem C108_block {n : ℕ} {chis a : Lay} (h : blockHanded n chis = .ok a) :
    RowMajor a ∧ a.shape = [n, n] ∧ (Declared .float64 2 a ↔ chis.dtype ≠ .float32) := by
  obtain ⟨b, hb, rfl⟩ := return_ok h
  obtain ⟨c, hc, rfl⟩ := return_ok hb
  obtain ⟨s, t, rfl⟩ := broadcast2 hc
  obtain ⟨s', t', e, _⟩ := copy2 n n s t chis.atleast1d.dtype
  rw [e, symmetrized_eq, atleast1d_dtype]
  have hr : RowMajor ⟨[n, n], [(n : ℤ), 1], halfType chis.dtype⟩ :=
    rowMajor2.mpr (.inr (.inr ⟨.inr rfl, .inr rfl⟩))
  refine ⟨hr, rfl, fun h => ?_, fun h => ⟨?_, rfl, hr⟩⟩
  · have := h.dtype
    intro hf
    simp [hf, halfType] at this
  · revert h
    show chis.dtype ≠ .float32 → halfType chis.dtype = .float64
    cases chis.dtype <;> simp [halfType]

/-- The sizes and the number of components per feature are always handed over as declared. -/
theorem C108_entropies {n : ℕ} {a : Lay} :
    (∀ {sizes}, sizesHanded n sizes = .ok a → Declared .float64 1 a ∧ a.shape = [n]) ∧
      ∀ {perFeat}, perFeatHanded n perFeat = .ok a → Declared .int32 1 a ∧ a.shape = [n] := by
  have key : ∀ (s : List ℤ) (dt dt' : DType), Declared dt' 1 (astype dt' ⟨[n], s, dt⟩) := fun s dt dt' => by
    unfold astype
    rw [copy1]
    exact ⟨rfl, rfl, rowMajor1.mpr (.inr rfl)⟩
  refine ⟨fun {sizes} h => ?_, fun {perFeat} h => ?_⟩
  · obtain ⟨b, hb, rfl⟩ := return_ok h
    cases sizes with
    | none =>
      cases hb
      exact ⟨key _ _ _, rfl⟩
    | some sizes =>
      obtain ⟨c, hc, rfl⟩ := return_ok hb
      obtain ⟨s, rfl⟩ := broadcast1 hc
      exact ⟨key _ _ _, rfl⟩
  · obtain ⟨b, hb, rfl⟩ := return_ok h
    obtain ⟨c, hc, rfl⟩ := return_ok hb
    obtain ⟨s, rfl⟩ := broadcast1 hc
    exact ⟨key _ _ _, rfl⟩

/-- The mean fractions made by default are handed over as declared; given ones are exactly if they are in double
precision and, with more than one component, given one by one. -/
theorem C108_canonical {n : ℕ} {a : Lay} :
    (phiMeansHanded n none = .ok a → Declared .float64 1 a) ∧
      ∀ {phi}, phiMeansHanded n (some phi) = .ok a →
        (Declared .float64 1 a ↔ phi.dtype = .float64 ∧ (n ≤ 1 ∨ phi.shape = [n])) := by
  constructor
  · intro h
    simp only [phiMeansHanded, fresh, copy1] at h
    by_cases hn : n = 1
    · subst hn
      simp [broadcastTo, stretch, bind, Except.bind, pure, Except.pure] at h
      subst h
      exact ⟨rfl, rfl, rowMajor1.mpr (.inl le_rfl)⟩
    · simp [broadcastTo, stretch, hn, bind, Except.bind, pure, Except.pure] at h
      subst h
      exact ⟨rfl, rfl, rowMajor1.mpr (.inr rfl)⟩
  · intro phi h
    obtain ⟨sh, st, dt⟩ := phi
    simp only [phiMeansHanded] at h
    have hd : a.dtype = dt := by
      have := (broadcast_ok h).2.1
      rw [this]
      exact atleast1d_dtype _
    obtain ⟨s, rfl⟩ := broadcast1 h
    simp only at hd
    have hD : ∀ d, Declared .float64 1 ⟨[n], [s], d⟩ ↔ d = .float64 ∧ (n ≤ 1 ∨ s = 1) := fun d =>
      ⟨fun h => ⟨h.dtype, rowMajor1.mp h.rowMajor⟩, fun h => ⟨h.1, rfl, rowMajor1.mpr h.2⟩⟩
    rw [hD, hd]
    refine and_congr_right fun _ => ?_
    by_cases hn : n ≤ 1
    · simp [hn]
    simp only [hn, false_or]
    match sh with
    | [] =>
      simp [atleast1d, copy1, broadcastTo, stretch, bind, Except.bind, pure, Except.pure] at h
      simp [← h]
    | [m] =>
      simp only [atleast1d, List.cons_ne_nil, if_false, copy1] at h
      by_cases hm : m = 1
      · simp [broadcastTo, stretch, hm, bind, Except.bind, pure, Except.pure] at h
        simp [← h, hm]
        omega
      · by_cases hmn : m = n
        · simp [broadcastTo, stretch, hmn, bind, Except.bind, pure, Except.pure] at h
          by_cases hn1 : n = 1
          · omega
          · simp [hn1] at h
            simp [← h, hmn]
        · simp [broadcastTo, stretch, hm, hmn, bind, Except.bind] at h
    | m :: m' :: sh =>
      have := broadcast_axes h (copy_axes _)
      simp [atleast1d, Lay.copy] at this

/-- The activities are handed over as declared exactly if they are given in double precision. -/
theorem C108_grandCanonical {n : ℕ} {activity a : Lay} (h : activityHanded n activity = .ok a) :
    RowMajor a ∧ a.shape = [n] ∧ (Declared .float64 1 a ↔ activity.dtype = .float64) := by
  obtain ⟨b, hb, rfl⟩ := return_ok h
  obtain ⟨s, rfl⟩ := broadcast1 hb
  rw [copy1, atleast1d_dtype]
  have hr : RowMajor ⟨[n], [1], activity.dtype⟩ := rowMajor1.mpr (.inr rfl)
  exact ⟨hr, rfl, fun h => h.dtype, fun h => ⟨h, rfl, hr⟩⟩

theorem csLay_iff {m S : ℕ} {Cs b : Lay} {s t : ℤ} (hb : Cs.atleast1d.broadcastTo [m, S] = .ok b)
    (hst : b.strides = [s, t]) :
    ∃ a, CsLay m S Cs = .ok a ∧ a.shape = [m, S] ∧ (Declared .float64 2 a ↔ m ≤ 1 ∨ S ≤ 1 ∨ |t| ≤ |s|) := by
  obtain ⟨s', t', rfl⟩ := broadcast2 hb
  simp only [List.cons.injEq, and_true] at hst
  obtain ⟨rfl, rfl⟩ := hst
  obtain ⟨u, v, e, _, hr⟩ := copy2 m S s' t' Cs.atleast1d.dtype
  refine ⟨_, by unfold CsLay; rw [hb]; rfl, ?_, ?_⟩
  · simp [astype, e]
  · rw [← hr]
    have h2 : astype .float64 ⟨[m, S], [s', t'], Cs.atleast1d.dtype⟩ = ⟨[m, S], [u, v], .float64⟩ := by
      unfold astype
      rw [e]
    rw [h2]
    exact ⟨fun h => by have := h.rowMajor; rw [rowMajor2] at this ⊢; exact this,
      fun h => ⟨rfl, rfl, by rw [rowMajor2] at h ⊢; exact h⟩⟩

/-- The targets of linear constraints are always handed over as declared. -/
theorem C108_targets {n : ℕ} {Ts a : Lay} (h : TsHanded n Ts = .ok a) :
    Declared .float64 1 a ∧ a.shape = [n] := by
  obtain ⟨b, hb, rfl⟩ := return_ok h
  obtain ⟨s, rfl⟩ := broadcast1 hb
  unfold astype
  rw [copy1]
  exact ⟨⟨rfl, rfl, rowMajor1.mpr (.inr rfl)⟩, rfl⟩

/-- A matrix of `m` rows that is given to a linear constraint, in the constructor or in the setter, is handed over as
declared exactly if the steps between rows are not smaller than those between columns. -/
theorem C108_matrix (m S : ℕ) (s t : ℤ) (dt : DType) (hm : 2 ≤ m) (hS : 2 ≤ S) :
    ∃ a, CsHanded S ⟨[m, S], [s, t], dt⟩ = .ok a ∧ CsLay m S ⟨[m, S], [s, t], dt⟩ = .ok a ∧ a.shape = [m, S] ∧
      (Declared .float64 2 a ↔ |t| ≤ |s|) := by
  have hb : (Lay.mk [m, S] [s, t] dt).atleast1d.broadcastTo [m, S] = .ok ⟨[m, S], [s, t], dt⟩ := by
    have h1 : m ≠ 1 := by omega
    have h2 : S ≠ 1 := by omega
    simp [atleast1d, broadcastTo, stretch, h1, h2, bind, Except.bind, pure, Except.pure]
  obtain ⟨a, ha, hs, hd⟩ := csLay_iff hb rfl
  have h1 : ¬m ≤ 1 := by omega
  have h2 : ¬S ≤ 1 := by omega
  exact ⟨a, by rw [← ha]; rfl, ha, hs, by rw [hd]; simp [h1, h2]⟩

/-- Everything else given to the constructor of a linear constraint (a single row, a single column, a single number) is
handed over as declared. -/
theorem C108_few {S : ℕ} {Cs a : Lay} (h : CsHanded S Cs = .ok a)
    (hC : ∀ m, Cs.shape = [m, S] → m ≤ 1 ∨ S ≤ 1) (hl : Cs.strides.length = Cs.shape.length) :
    Declared .float64 2 a := by
  obtain ⟨sh, st, dt⟩ := Cs
  have few : ∀ {m : ℕ} {C : Lay}, CsLay m S C = .ok a → m ≤ 1 → Declared .float64 2 a := by
    intro m C h hm
    obtain ⟨b, hb, rfl⟩ := return_ok h
    obtain ⟨s, t, e⟩ := broadcast2 hb
    obtain ⟨a, ha, _, hd⟩ := csLay_iff hb (s := s) (t := t) (by rw [e])
    cases ha.symm.trans h
    exact hd.mpr (.inl hm)
  match sh, st with
  | [], st => exact few (m := 1) (C := ⟨[], st, dt⟩) h le_rfl
  | [k], st => exact few (m := 1) (C := ⟨[k], st, dt⟩) h le_rfl
  | [m, k], [s, t] =>
    by_cases hm : m ≤ 1
    · exact few h hm
    have h1 : m ≠ 1 := by omega
    obtain ⟨b, hb, rfl⟩ := return_ok (show (do
      return (← (Lay.mk [m, k] [s, t] dt).atleast1d.broadcastTo [m, S]).astype .float64 : Py Lay) = .ok a from h)
    by_cases hk : k = 1
    · have hb' : (Lay.mk [m, k] [s, t] dt).atleast1d.broadcastTo [m, S] = .ok ⟨[m, S], [s, 0], dt⟩ := by
        simp [atleast1d, broadcastTo, stretch, h1, hk, bind, Except.bind, pure, Except.pure]
      obtain ⟨a, ha, _, hd⟩ := csLay_iff hb' rfl
      cases ha.symm.trans h
      exact hd.mpr (.inr (.inr (by simp)))
    · by_cases hkS : k = S
      · subst hkS
        have hb' : (Lay.mk [m, k] [s, t] dt).atleast1d.broadcastTo [m, k] = .ok ⟨[m, k], [s, t], dt⟩ := by
          simp [atleast1d, broadcastTo, stretch, h1, hk, bind, Except.bind, pure, Except.pure]
        obtain ⟨a, ha, _, hd⟩ := csLay_iff hb' rfl
        cases ha.symm.trans h
        exact hd.mpr (by have := hC m rfl; omega)
      · simp [atleast1d, broadcastTo, stretch, hk, hkS, bind, Except.bind] at hb
  | [_, _], [] => simp at hl
  | [_, _], [_] => simp at hl
  | [_, _], _ :: _ :: _ :: _ => simp at hl
  | _ :: _ :: _ :: _, _ => cases h

/-- A single row assigned to a linear constraint with at least two rows and two features is not handed over as declared:
the copy of the repeated row is in Fortran order. -/
theorem C108_row (m S : ℕ) (t : ℤ) (dt : DType) (hm : 2 ≤ m) (hS : 2 ≤ S) (ht : t ≠ 0) :
    ∃ a, CsLay m S ⟨[S], [t], dt⟩ = .ok a ∧ a.shape = [m, S] ∧ ¬Declared .float64 2 a := by
  have hb : (Lay.mk [S] [t] dt).atleast1d.broadcastTo [m, S] = .ok ⟨[m, S], [0, t], dt⟩ := by
    have h2 : S ≠ 1 := by omega
    simp [atleast1d, broadcastTo, stretch, h2, bind, Except.bind, pure, Except.pure]
  obtain ⟨a, ha, hs, hd⟩ := csLay_iff hb rfl
  refine ⟨a, ha, hs, fun h => ?_⟩
  have h1 := hd.mp h
  simp at h1
  omega

/-! ## Examples -/

/-- `chis` in Fortran order and of integers. -/
example : ∃ a, FHLay 3 a ∧ Declared .float64 2 (fhHanded a) := by
  have h : fhLay 3 ⟨[3, 3], [1, 3], .int64⟩ = .ok ((Lay.mk [3, 3] [1, 3] .int64).copy.symmetrized 3) := by
    simp [fhLay, atleast1d, broadcastTo, stretch, bind, Except.bind, pure, Except.pure]
  exact ⟨_, .set h, (C108_interaction (.set h)).1⟩

/-- `chis` of integers is converted in the block interaction; `chis` in single precision is not. -/
example : (∃ a, blockHanded 2 ⟨[2, 2], [1, 2], .int64⟩ = .ok a ∧ Declared .float64 2 a) ∧
    ∃ a, blockHanded 2 ⟨[2, 2], [2, 1], .float32⟩ = .ok a ∧ ¬Declared .float64 2 a := by
  have h : ∀ s t dt, ∃ a, blockHanded 2 ⟨[2, 2], [s, t], dt⟩ = .ok a := fun s t dt => by
    simp [blockHanded, convertAndBroadcast, atleast1d, broadcastTo, stretch, bind, Except.bind, pure, Except.pure]
  obtain ⟨a, ha⟩ := h 1 2 .int64
  obtain ⟨b, hb⟩ := h 2 1 .float32
  exact ⟨⟨a, ha, (C108_block ha).2.2.mpr (by simp)⟩, b, hb, fun h => (C108_block hb).2.2.mp h rfl⟩

/-- Sizes that are given as one integer, and every second entry of an array as number of components per feature. -/
example : (∃ a, sizesHanded 2 (some ⟨[], [], .int64⟩) = .ok a ∧ Declared .float64 1 a) ∧
    ∃ a, perFeatHanded 2 ⟨[2], [2], .int64⟩ = .ok a ∧ Declared .int32 1 a := by
  have h1 : ∃ a, sizesHanded 2 (some ⟨[], [], .int64⟩) = .ok a := by
    simp [sizesHanded, sizesLay, atleast1d, broadcastTo, stretch, bind, Except.bind, pure, Except.pure]
  have h2 : ∃ a, perFeatHanded 2 ⟨[2], [2], .int64⟩ = .ok a := by
    simp [perFeatHanded, convertAndBroadcast, atleast1d, broadcastTo, stretch, bind, Except.bind, pure, Except.pure]
  obtain ⟨a, ha⟩ := h1
  obtain ⟨b, hb⟩ := h2
  exact ⟨⟨a, ha, (C108_entropies.1 ha).1⟩, b, hb, (C108_entropies.2 hb).1⟩

/-- `CanonicalEnsemble(2, [0.3, 0.7])` is fine, `CanonicalEnsemble(2, 0.5)` and `CanonicalEnsemble(2, [0, 1])` are not. -/
example : (∃ a, phiMeansHanded 2 (some ⟨[2], [1], .float64⟩) = .ok a ∧ Declared .float64 1 a) ∧
    (∃ a, phiMeansHanded 2 (some ⟨[], [], .float64⟩) = .ok a ∧ ¬Declared .float64 1 a) ∧
    ∃ a, phiMeansHanded 2 (some ⟨[2], [1], .int64⟩) = .ok a ∧ ¬Declared .float64 1 a := by
  have h1 : ∀ dt, ∃ a, phiMeansHanded 2 (some ⟨[2], [1], dt⟩) = .ok a := fun dt => by
    simp [phiMeansHanded, atleast1d, copy1, broadcastTo, stretch, bind, Except.bind, pure, Except.pure]
  have h2 : ∃ a, phiMeansHanded 2 (some ⟨[], [], .float64⟩) = .ok a := by
    simp [phiMeansHanded, atleast1d, copy1, broadcastTo, stretch, bind, Except.bind, pure, Except.pure]
  obtain ⟨a, ha⟩ := h1 .float64
  obtain ⟨b, hb⟩ := h2
  obtain ⟨c, hc⟩ := h1 .int64
  exact ⟨⟨a, ha, (C108_canonical.2 ha).mpr (by simp)⟩, ⟨b, hb, fun h => by simpa using (C108_canonical.2 hb).mp h⟩,
    c, hc, fun h => by simpa using (C108_canonical.2 hc).mp h⟩

/-- The default of the canonical ensemble, with two components. -/
example : ∃ a, phiMeansHanded 2 none = .ok a ∧ Declared .float64 1 a := by
  have h : ∃ a, phiMeansHanded 2 none = .ok a := by
    simp [phiMeansHanded, fresh, copy1, broadcastTo, stretch, bind, Except.bind, pure, Except.pure]
  obtain ⟨a, ha⟩ := h
  exact ⟨a, ha, C108_canonical.1 ha⟩

/-- Activities `[1.5, 2.5]` and `[1, 2]`. -/
example : (∃ a, activityHanded 2 ⟨[2], [1], .float64⟩ = .ok a ∧ Declared .float64 1 a) ∧
    ∃ a, activityHanded 2 ⟨[2], [1], .int64⟩ = .ok a ∧ ¬Declared .float64 1 a := by
  have h : ∀ dt, ∃ a, activityHanded 2 ⟨[2], [1], dt⟩ = .ok a := fun dt => by
    simp [activityHanded, atleast1d, broadcastTo, stretch, bind, Except.bind, pure, Except.pure]
  obtain ⟨a, ha⟩ := h .float64
  obtain ⟨b, hb⟩ := h .int64
  exact ⟨⟨a, ha, (C108_grandCanonical ha).2.2.mpr rfl⟩, b, hb, fun h => by simpa using (C108_grandCanonical hb).2.2.mp h⟩

/-- One target for three rows. -/
example : ∃ a, TsHanded 3 ⟨[], [], .int64⟩ = .ok a ∧ Declared .float64 1 a := by
  have h : ∃ a, TsHanded 3 ⟨[], [], .int64⟩ = .ok a := by
    simp [TsHanded, atleast1d, broadcastTo, stretch, bind, Except.bind, pure, Except.pure]
  obtain ⟨a, ha⟩ := h
  exact ⟨a, ha, (C108_targets ha).1⟩

/-- A matrix with two rows and three columns is fine, the transpose of one with three rows and two columns is not. -/
example : (∃ a, CsHanded 3 ⟨[2, 3], [3, 1], .float64⟩ = .ok a ∧ Declared .float64 2 a) ∧
    ∃ a, CsHanded 3 (Lay.mk [3, 2] [2, 1] .float64).transpose = .ok a ∧ ¬Declared .float64 2 a := by
  obtain ⟨a, ha, _, _, h⟩ := C108_matrix 2 3 3 1 .float64 (by omega) (by omega)
  obtain ⟨b, hb, _, _, h'⟩ := C108_matrix 2 3 1 2 .float64 (by omega) (by omega)
  exact ⟨⟨a, ha, h.mpr (by simp)⟩, b, hb, fun hd => absurd (h'.mp hd) (by simp)⟩

/-- One row `[1, -1, 2]`, and a column of two numbers for three features. -/
example : (∃ a, CsHanded 3 ⟨[3], [1], .int64⟩ = .ok a ∧ Declared .float64 2 a) ∧
    ∃ a, CsHanded 3 ⟨[2, 1], [1, 1], .float64⟩ = .ok a ∧ Declared .float64 2 a := by
  have h1 : ∃ a, CsHanded 3 ⟨[3], [1], .int64⟩ = .ok a := by
    simp [CsHanded, CsLay, numConsLay, atleast1d, broadcastTo, stretch, bind, Except.bind, pure, Except.pure]
  have h2 : ∃ a, CsHanded 3 ⟨[2, 1], [1, 1], .float64⟩ = .ok a := by
    simp [CsHanded, CsLay, numConsLay, atleast1d, broadcastTo, stretch, bind, Except.bind, pure, Except.pure]
  obtain ⟨a, ha⟩ := h1
  obtain ⟨b, hb⟩ := h2
  exact ⟨⟨a, ha, C108_few ha (by simp) rfl⟩, b, hb, C108_few hb (by simp) rfl⟩

/-- `constraint.Cs = [1.0, -1.0, 2.0]` for a constraint with two rows. -/
example : ∃ a, CsLay 2 3 ⟨[3], [1], .float64⟩ = .ok a ∧ a.shape = [2, 3] ∧ ¬Declared .float64 2 a :=
  C108_row 2 3 1 .float64 (by omega) (by omega) (by omega)

end Flory
