import Verif.Lemmas.Norm
import Verif.Props.Workflow

/-! # `equilibration_error` for every order and axis (C82) -/

set_option linter.unusedSectionVars false

namespace Flory

open Spec XReal

variable {C P : ℕ}

theorem mapM_ok {α : Type} {n : ℕ} {f : Fin n → Py α} {g : Fin n → α} (h : ∀ i, f i = .ok (g i)) :
    (List.ofFn f).mapM id = .ok (List.ofFn g) := by
  induction n with
  | zero => rfl
  | succ n ih =>
    rw [List.ofFn_succ, List.ofFn_succ, List.mapM_cons, id, h 0, ih fun i => h i.succ]
    rfl

theorem mapM_error {α : Type} {n : ℕ} [NeZero n] {f : Fin n → Py α} {e : PyErr} (h : ∀ i, f i = .error e) :
    (List.ofFn f).mapM id = .error e := by
  obtain ⟨m, rfl⟩ : ∃ m, n = m + 1 := ⟨n - 1, by have := NeZero.pos n; omega⟩
  rw [List.ofFn_succ, List.mapM_cons, id, h 0]
  rfl

/-- **C82**, default order: with `order=None` the results are those of `C56` and `C69`. -/
theorem C82_default (fe : FreeEnergy C) (phis : NDArr ℝ) :
    fe.equilibrationError phis .none none = (do return .scalar (← fe.equilibrationErrorAll phis)) ∧
    fe.equilibrationError phis .none (some 1) = (do return .array (← fe.equilibrationErrorByPhase phis)) ∧
    fe.equilibrationError phis .none (some 0) =
      (do return .array (List.ofFn (← fe.equilibrationErrorByComponent phis))) := by
  unfold FreeEnergy.equilibrationError FreeEnergy.equilibrationErrorAll
    FreeEnergy.equilibrationErrorByPhase FreeEnergy.equilibrationErrorByComponent
  cases fe.equilibrationDeviations phis with
  | error e => exact ⟨rfl, rfl, rfl⟩
  | ok d =>
    refine ⟨rfl, ?_, ?_⟩
    · simp only [bind_ok, norm2d]
      rw [if_neg (by norm_num), if_pos (by norm_num),
        mapM_ok (f := fun p => vectorNorm (d.2 p) .none) fun _ => rfl]
      rfl
    · simp only [bind_ok, norm2d]
      rw [if_pos (by norm_num), mapM_ok (f := fun i => vectorNorm (fun p => d.2 p i) .none) fun _ => rfl]
      rfl

/-- **C82**, negative axes: `-1` stands for the components and `-2` for the phases. -/
theorem C82_negative_axes (fe : FreeEnergy C) (phis : NDArr ℝ) (order : NormOrder) :
    fe.equilibrationError phis order (some (-1)) = fe.equilibrationError phis order (some 1) ∧
    fe.equilibrationError phis order (some (-2)) = fe.equilibrationError phis order (some 0) := by
  simp [FreeEnergy.equilibrationError, norm2d]

/-- The deviation of a chemical potential from its mean over the phases. -/
noncomputable def deviation (chis : Mat C C ℝ) (l : Vec C ℝ) (X : Mat P C ℝ) (p : Fin P) (i : Fin C) : ℝ :=
  chemPot chis l (X p) i - (∑ q, chemPot chis l (X q) i) / P

section Positive

variable {chis : Mat C C ℝ} {l : Vec C ℝ} {X : Mat P C ℝ}

theorem equilibrationError_eq (hs : ∀ i j, chis i j = chis j i) (hl : ∀ i, 0 < l i) (hX : ∀ p i, 0 < X p i)
    (order : NormOrder) (axis : Option ℤ) :
    (fhFree chis l).equilibrationError (NDArr.ofMat X) order axis =
      norm2d (deviation chis l X) order axis := by
  unfold FreeEnergy.equilibrationError
  rw [deviations_eval (fhFree chis l) fun p i => (hX p i).le, bind_ok]
  congr 1
  funext p i
  show (musOf (fhFree chis l) (X p) i).nanToNum -
      (∑ q, (musOf (fhFree chis l) (X q) i).nanToNum) / P = _
  simp only [musOf_eq hs hl (hX _)]
  rfl

theorem deviation_column [NeZero P] (i : Fin C) :
    (∀ p, deviation chis l X p i = 0) ↔ ∀ p q, chemPot chis l (X p) i = chemPot chis l (X q) i := by
  have hP : (P : ℝ) ≠ 0 := Nat.cast_ne_zero.mpr (NeZero.ne P)
  constructor
  · intro h p q
    have h1 := h p
    have h2 := h q
    unfold deviation at h1 h2
    linarith
  · intro h p
    unfold deviation
    have : ∑ q, chemPot chis l (X q) i = P * chemPot chis l (X p) i := by
      rw [Finset.sum_congr rfl fun q _ => h q p, Finset.sum_const, Finset.card_univ,
        Fintype.card_fin, nsmul_eq_mul]
    rw [this]
    field_simp
    ring

theorem deviation_all [NeZero P] :
    (∀ p i, deviation chis l X p i = 0) ↔ ∀ p q i, chemPot chis l (X p) i = chemPot chis l (X q) i :=
  ⟨fun h p q i => (deviation_column i).mp (fun p => h p i) p q,
    fun h p i => (deviation_column i).mpr (fun p q => h p q i) p⟩

theorem deviation_sum [NeZero P] (i : Fin C) : ∑ p, deviation chis l X p i = 0 := by
  have hP : (P : ℝ) ≠ 0 := Nat.cast_ne_zero.mpr (NeZero.ne P)
  unfold deviation
  rw [Finset.sum_sub_distrib, Finset.sum_const, Finset.card_univ, Fintype.card_fin, nsmul_eq_mul]
  field_simp
  ring

/-- The results along both axes, for an order for which the norm of every line is known. -/
theorem by_line (hs : ∀ i j, chis i j = chis j i) (hl : ∀ i, 0 < l i) (hX : ∀ p i, 0 < X p i)
    {order : NormOrder} {R : {n : ℕ} → Vec n ℝ → ℝ → Prop}
    (hP : ∀ v : Vec P ℝ, ∃ e, vectorNorm v order = .ok e ∧ R v e)
    (hC : ∀ v : Vec C ℝ, ∃ e, vectorNorm v order = .ok e ∧ R v e) :
    ∃ (ep : Vec P ℝ) (ec : Vec C ℝ),
      (fhFree chis l).equilibrationError (NDArr.ofMat X) order (some 1) = .ok (.array (List.ofFn ep)) ∧
      (fhFree chis l).equilibrationError (NDArr.ofMat X) order (some 0) = .ok (.array (List.ofFn ec)) ∧
      (∀ p, R (deviation chis l X p) (ep p)) ∧ ∀ i, R (fun p => deviation chis l X p i) (ec i) := by
  choose fP hP1 hP2 using hP
  choose fC hC1 hC2 using hC
  refine ⟨fun p => fC (deviation chis l X p), fun i => fP fun p => deviation chis l X p i, ?_, ?_,
    fun p => hC2 _, fun i => hP2 _⟩
  · rw [equilibrationError_eq hs hl hX]
    unfold norm2d
    simp only
    rw [if_neg (by norm_num), if_pos (by norm_num), mapM_ok (fun p => hC1 _)]
    rfl
  · rw [equilibrationError_eq hs hl hX]
    unfold norm2d
    simp only
    rw [if_pos (by norm_num), mapM_ok (fun i => hP1 _)]
    rfl

/-- **C82**, along an axis. For `order` `None`, `inf` or a number that is not negative, the error of a
component vanishes exactly if its chemical potential is the same in all phases, and the error of a phase
exactly if all its chemical potentials are the mean ones. -/
theorem C82_axis [NeZero P] [NeZero C] (hs : ∀ i j, chis i j = chis j i) (hl : ∀ i, 0 < l i)
    (hX : ∀ p i, 0 < X p i) {order : NormOrder} (ho : order.Definite) :
    ∃ (ep : Vec P ℝ) (ec : Vec C ℝ),
      (fhFree chis l).equilibrationError (NDArr.ofMat X) order (some 1) = .ok (.array (List.ofFn ep)) ∧
      (fhFree chis l).equilibrationError (NDArr.ofMat X) order (some 0) = .ok (.array (List.ofFn ec)) ∧
      (∀ p, 0 ≤ ep p ∧ (ep p = 0 ↔ ∀ i, chemPot chis l (X p) i = (∑ q, chemPot chis l (X q) i) / P)) ∧
      ∀ i, 0 ≤ ec i ∧ (ec i = 0 ↔ ∀ p q, chemPot chis l (X p) i = chemPot chis l (X q) i) := by
  obtain ⟨ep, ec, h1, h2, h3, h4⟩ := by_line hs hl hX (order := order)
    (R := fun v e => 0 ≤ e ∧ (e = 0 ↔ ∀ i, v i = 0)) (fun v => vectorNorm_definite v ho)
    (fun v => vectorNorm_definite v ho)
  exact ⟨ep, ec, h1, h2, fun p => ⟨(h3 p).1, (h3 p).2.trans (forall_congr' fun i => sub_eq_zero)⟩,
    fun i => ⟨(h4 i).1, (h4 i).2.trans (deviation_column i)⟩⟩

/-- **C82**, orders that overlook imbalances. For `order` `-inf` or a negative number, the error of a phase
vanishes as soon as one of its chemical potentials is the mean one, and the error of a component as soon
as its chemical potential is the mean one in some phase. -/
theorem C82_axis_blind [NeZero P] [NeZero C] (hs : ∀ i j, chis i j = chis j i) (hl : ∀ i, 0 < l i)
    (hX : ∀ p i, 0 < X p i) {order : NormOrder} (ho : order.Blind) :
    ∃ (ep : Vec P ℝ) (ec : Vec C ℝ),
      (fhFree chis l).equilibrationError (NDArr.ofMat X) order (some 1) = .ok (.array (List.ofFn ep)) ∧
      (fhFree chis l).equilibrationError (NDArr.ofMat X) order (some 0) = .ok (.array (List.ofFn ec)) ∧
      (∀ p, 0 ≤ ep p ∧ (ep p = 0 ↔ ∃ i, chemPot chis l (X p) i = (∑ q, chemPot chis l (X q) i) / P)) ∧
      ∀ i, 0 ≤ ec i ∧ (ec i = 0 ↔ ∃ p, chemPot chis l (X p) i = (∑ q, chemPot chis l (X q) i) / P) := by
  obtain ⟨ep, ec, h1, h2, h3, h4⟩ := by_line hs hl hX (order := order)
    (R := fun v e => 0 ≤ e ∧ (e = 0 ↔ ∃ i, v i = 0)) (fun v => vectorNorm_blind v ho)
    (fun v => vectorNorm_blind v ho)
  exact ⟨ep, ec, h1, h2, fun p => ⟨(h3 p).1, (h3 p).2.trans (exists_congr fun i => sub_eq_zero)⟩,
    fun i => ⟨(h4 i).1, (h4 i).2.trans (exists_congr fun i => sub_eq_zero)⟩⟩

theorem total_eq (hs : ∀ i j, chis i j = chis j i) (hl : ∀ i, 0 < l i) (hX : ∀ p i, 0 < X p i)
    {order : NormOrder} {e : ℝ} (h : matrixNorm (deviation chis l X) order = .ok e) :
    (fhFree chis l).equilibrationError (NDArr.ofMat X) order none = .ok (.scalar e) := by
  rw [equilibrationError_eq hs hl hX]
  unfold norm2d
  simp only
  rw [h]
  rfl

/-- **C82**, over both axes. For `order` `None`, `"fro"`, `"nuc"`, `inf`, 1 or 2 the total error vanishes
exactly if all phases have the same chemical potentials. -/
theorem C82_total [NeZero P] [NeZero C] (hs : ∀ i j, chis i j = chis j i) (hl : ∀ i, 0 < l i)
    (hX : ∀ p i, 0 < X p i) {order : NormOrder} (ho : order.MatrixDefinite) :
    ∃ e, (fhFree chis l).equilibrationError (NDArr.ofMat X) order none = .ok (.scalar e) ∧ 0 ≤ e ∧
      (e = 0 ↔ ∀ p q i, chemPot chis l (X p) i = chemPot chis l (X q) i) := by
  obtain ⟨e, h1, h2, h3⟩ := matrixNorm_definite (deviation chis l X) ho
  exact ⟨e, total_eq hs hl hX h1, h2, h3.trans deviation_all⟩

/-- **C82**, the other orders over both axes: `-inf` overlooks imbalances if one phase has the mean
chemical potentials, -1 if one component is in balance, and -2 always if there are not more phases than
components. -/
theorem C82_total_blind [NeZero P] [NeZero C] (hs : ∀ i j, chis i j = chis j i) (hl : ∀ i, 0 < l i)
    (hX : ∀ p i, 0 < X p i) :
    (∃ e, (fhFree chis l).equilibrationError (NDArr.ofMat X) .ninf none = .ok (.scalar e) ∧ 0 ≤ e ∧
      (e = 0 ↔ ∃ p, ∀ i, chemPot chis l (X p) i = (∑ q, chemPot chis l (X q) i) / P)) ∧
    (∃ e, (fhFree chis l).equilibrationError (NDArr.ofMat X) (.num (-1)) none = .ok (.scalar e) ∧ 0 ≤ e ∧
      (e = 0 ↔ ∃ i, ∀ p q, chemPot chis l (X p) i = chemPot chis l (X q) i)) ∧
    (P ≤ C → (fhFree chis l).equilibrationError (NDArr.ofMat X) (.num (-2)) none = .ok (.scalar 0)) ∧
    (C < P → ∃ e, (fhFree chis l).equilibrationError (NDArr.ofMat X) (.num (-2)) none = .ok (.scalar e) ∧
      0 ≤ e ∧ (e = 0 ↔ ∃ y : Vec C ℝ, y ≠ 0 ∧
        ∀ p q, ∑ i, y i * chemPot chis l (X p) i = ∑ i, y i * chemPot chis l (X q) i)) := by
  obtain ⟨e1, h1, h2, h3⟩ := matrixNorm_ninf (deviation chis l X)
  obtain ⟨e2, k1, k2, k3⟩ := matrixNorm_minus_one (deviation chis l X)
  obtain ⟨e3, j1, j2, j3⟩ := matrixNorm_minus_two (deviation chis l X)
  refine ⟨⟨e1, total_eq hs hl hX h1, h2, h3.trans (exists_congr fun p => forall_congr' fun i => sub_eq_zero)⟩,
    ⟨e2, total_eq hs hl hX k1, k2, k3.trans (exists_congr fun i => deviation_column i)⟩, fun hPC => ?_,
    fun hCP => ⟨e3, total_eq hs hl hX j1, j2, ?_⟩⟩
  · rw [if_pos hPC] at j3
    have : e3 = 0 := j3.mpr ⟨fun _ => 1, fun h => by simpa using congrFun h 0, fun i => by
      simpa using deviation_sum i⟩
    rw [← this]
    exact total_eq hs hl hX j1
  · rw [j3, if_neg (not_le.mpr hCP)]
    refine exists_congr fun y => and_congr_right fun _ => ?_
    have hP : (P : ℝ) ≠ 0 := Nat.cast_ne_zero.mpr (NeZero.ne P)
    have hexp : ∀ p, ∑ i, deviation chis l X p i * y i =
        ∑ i, y i * chemPot chis l (X p) i - (∑ q, ∑ i, y i * chemPot chis l (X q) i) / P := by
      intro p
      rw [Finset.sum_comm, Finset.sum_div, ← Finset.sum_sub_distrib]
      refine Finset.sum_congr rfl fun i _ => ?_
      unfold deviation
      rw [← Finset.mul_sum]
      ring
    simp only [hexp]
    constructor
    · intro h p q
      linarith [h p, h q]
    · intro h p
      rw [Finset.sum_congr rfl fun q _ => h q p, Finset.sum_const, Finset.card_univ, Fintype.card_fin,
        nsmul_eq_mul]
      field_simp
      ring

/-- **C82**, arguments that are rejected: names of matrix norms along an axis, other numbers than -2, -1,
1 and 2 over both axes, unknown names and axes that do not exist raise `ValueError`. -/
theorem C82_rejects [NeZero P] [NeZero C] (fe : FreeEnergy C) (hX : ∀ p i, 0 ≤ X p i) :
    (∀ order axis, (order = .fro ∨ order = .nuc ∨ order = .other) → axis ≠ none →
      fe.equilibrationError (NDArr.ofMat X) order axis = .error .valueError) ∧
    (∀ p : ℝ, p ≠ -2 → p ≠ -1 → p ≠ 1 → p ≠ 2 →
      fe.equilibrationError (NDArr.ofMat X) (.num p) none = .error .valueError) ∧
    fe.equilibrationError (NDArr.ofMat X) .other none = .error .valueError ∧
    ∀ order k, k ≠ 0 → k ≠ 1 → k ≠ -1 → k ≠ -2 →
      fe.equilibrationError (NDArr.ofMat X) order (some k) = .error .valueError := by
  unfold FreeEnergy.equilibrationError
  rw [deviations_eval fe hX]
  simp only [bind_ok]
  refine ⟨fun order axis ho ha => ?_, fun p h1 h2 h3 h4 => ?_, rfl, fun order k h0 h1 h2 h3 => ?_⟩
  · obtain ⟨k, rfl⟩ := Option.ne_none_iff_exists'.mp ha
    have hv : ∀ {n : ℕ} (v : Vec n ℝ), vectorNorm v order = .error .valueError := by
      intro n v
      rcases ho with rfl | rfl | rfl <;> rfl
    unfold norm2d
    simp only [hv]
    split_ifs
    · rw [mapM_error fun _ => rfl]; rfl
    · rw [mapM_error fun _ => rfl]; rfl
    · rfl
  · unfold norm2d matrixNorm
    simp only
    rw [if_neg h4, if_neg h1, if_neg h3, if_neg h2]
    rfl
  · unfold norm2d
    simp only
    rw [if_neg (by tauto), if_neg (by tauto)]

theorem deviation_le [NeZero P] {B : ℝ}
    (hB : ∀ p q i, |chemPot chis l (X p) i - chemPot chis l (X q) i| ≤ B) (p : Fin P) (i : Fin C) :
    |deviation chis l X p i| ≤ B := by
  have hP : (0 : ℝ) < P := Nat.cast_pos.mpr (NeZero.pos P)
  have : deviation chis l X p i = (∑ q, (chemPot chis l (X p) i - chemPot chis l (X q) i)) / P := by
    unfold deviation
    rw [Finset.sum_sub_distrib, Finset.sum_const, Finset.card_univ, Fintype.card_fin, nsmul_eq_mul]
    field_simp
  rw [this, abs_div, abs_of_pos hP, div_le_iff₀ hP]
  refine (Finset.abs_sum_le_sum_abs _ _).trans ((Finset.sum_le_sum fun q _ => hB p q i).trans ?_)
  simp [mul_comm]

/-- **C82**, comparison of orders. Along an axis the error for `inf` is at most that for `q`, which is at
most that for `p`, if `0 < p ≤ q`. Twice the error of a component for `inf` bounds the differences of its
chemical potentials, and if all such differences are at most `B`, the errors for `inf` are at most `B`
and those for `p` at most `B` times the `p`-th root of the number of entries. Over both axes the error for
2 is at most that for `"fro"`, and that at most the one for `"nuc"`. -/
theorem C82_compare [NeZero P] [NeZero C] (hs : ∀ i j, chis i j = chis j i) (hl : ∀ i, 0 < l i)
    (hX : ∀ p i, 0 < X p i) {p q : ℝ} (hp : 0 < p) (hpq : p ≤ q) :
    ∃ (ap aq ai : Vec P ℝ) (bp bq bi : Vec C ℝ) (a b c : ℝ),
      (fhFree chis l).equilibrationError (NDArr.ofMat X) (.num p) (some 1) = .ok (.array (List.ofFn ap)) ∧
      (fhFree chis l).equilibrationError (NDArr.ofMat X) (.num q) (some 1) = .ok (.array (List.ofFn aq)) ∧
      (fhFree chis l).equilibrationError (NDArr.ofMat X) .inf (some 1) = .ok (.array (List.ofFn ai)) ∧
      (fhFree chis l).equilibrationError (NDArr.ofMat X) (.num p) (some 0) = .ok (.array (List.ofFn bp)) ∧
      (fhFree chis l).equilibrationError (NDArr.ofMat X) (.num q) (some 0) = .ok (.array (List.ofFn bq)) ∧
      (fhFree chis l).equilibrationError (NDArr.ofMat X) .inf (some 0) = .ok (.array (List.ofFn bi)) ∧
      (fhFree chis l).equilibrationError (NDArr.ofMat X) (.num 2) none = .ok (.scalar a) ∧
      (fhFree chis l).equilibrationError (NDArr.ofMat X) .fro none = .ok (.scalar b) ∧
      (fhFree chis l).equilibrationError (NDArr.ofMat X) .nuc none = .ok (.scalar c) ∧
      (∀ k, ai k ≤ aq k ∧ aq k ≤ ap k) ∧ (∀ i, bi i ≤ bq i ∧ bq i ≤ bp i) ∧ a ≤ b ∧ b ≤ c ∧
      (∀ k m i, |chemPot chis l (X k) i - chemPot chis l (X m) i| ≤ 2 * bi i) ∧
      ∀ B, 0 ≤ B → (∀ k m i, |chemPot chis l (X k) i - chemPot chis l (X m) i| ≤ B) →
        (∀ k, ai k ≤ B ∧ ap k ≤ (C : ℝ) ^ (1 / p) * B) ∧ ∀ i, bi i ≤ B ∧ bp i ≤ (P : ℝ) ^ (1 / p) * B := by
  have hq : 0 < q := hp.trans_le hpq
  have hn : ∀ {p : ℝ}, 0 < p → ∀ {n : ℕ} (v : Vec n ℝ), ∃ e, vectorNorm v (.num p) = .ok e ∧
      e = (∑ i, |v i| ^ p) ^ (1 / p) := fun hp _ v => ⟨_, vectorNorm_num hp, rfl⟩
  have hi : ∀ {n : ℕ} (v : Vec n ℝ), ∃ e, vectorNorm v .inf = .ok e ∧ e = ⨆ i, |v i| :=
    fun v => ⟨_, rfl, rfl⟩
  obtain ⟨ap, bp, h1, h2, h3, h4⟩ := by_line hs hl hX (R := fun v e => e = (∑ i, |v i| ^ p) ^ (1 / p))
    (hn hp) (hn hp)
  obtain ⟨aq, bq, j1, j2, j3, j4⟩ := by_line hs hl hX (R := fun v e => e = (∑ i, |v i| ^ q) ^ (1 / q))
    (hn hq) (hn hq)
  obtain ⟨ai, bi, k1, k2, k3, k4⟩ := by_line hs hl hX (R := fun v e => e = ⨆ i, |v i|) hi hi
  obtain ⟨a, b, c, m1, m2, m3, m4, m5⟩ := matrixNorm_order (deviation chis l X)
  have hsup : ∀ {n : ℕ} [NeZero n] (v : Vec n ℝ) {B : ℝ}, (∀ i, |v i| ≤ B) → ⨆ i, |v i| ≤ B := by
    intro n _ v B h
    obtain ⟨k, hk⟩ := sup_fin_attained fun i => |v i|
    rw [hk]
    exact h k
  refine ⟨ap, aq, ai, bp, bq, bi, a, b, c, h1, j1, k1, h2, j2, k2, total_eq hs hl hX m1,
    total_eq hs hl hX m2, total_eq hs hl hX m3, fun k => ⟨?_, ?_⟩, fun i => ⟨?_, ?_⟩, m4, m5,
    fun k m i => ?_, fun B hB0 hB => ⟨fun k => ⟨?_, ?_⟩, fun i => ⟨?_, ?_⟩⟩⟩
  · rw [k3, j3]
    exact hsup _ (abs_le_pnorm _ hq)
  · rw [h3, j3]
    exact pnorm_antitone _ hp hpq
  · rw [k4, j4]
    exact hsup _ (abs_le_pnorm (fun p => deviation chis l X p i) hq)
  · rw [h4, j4]
    exact pnorm_antitone (fun p => deviation chis l X p i) hp hpq
  · have e1 := le_sup_fin (fun p => |deviation chis l X p i|) k
    have e2 := le_sup_fin (fun p => |deviation chis l X p i|) m
    rw [← k4] at e1 e2
    have : chemPot chis l (X k) i - chemPot chis l (X m) i =
        deviation chis l X k i - deviation chis l X m i := by
      unfold deviation; ring
    rw [this]
    exact (abs_sub _ _).trans (by linarith)
  · rw [k3]
    exact hsup _ fun i => deviation_le hB k i
  · rw [h3]
    exact pnorm_le _ hp hB0 fun i => deviation_le hB k i
  · rw [k4]
    exact hsup _ fun p => deviation_le hB p i
  · rw [h4]
    exact pnorm_le (fun p => deviation chis l X p i) hp hB0 fun p => deviation_le hB p i

end Positive

/-! ## Phases that look balanced -/

/-- **C82**, witness: two mixtures that are not in balance, although the order `-inf` (or any negative one)
finds no error in any phase, and the order -2 none at all. -/
theorem C82_overlooked : ∃ (chis : Mat 3 3 ℝ) (l : Vec 3 ℝ) (X : Mat 2 3 ℝ),
    (∀ i j, chis i j = chis j i) ∧ (∀ i, 0 < l i) ∧ (∀ p i, 0 < X p i) ∧ (∀ p, ∑ i, X p i = 1) ∧
    chemPot chis l (X 0) 1 ≠ chemPot chis l (X 1) 1 ∧
    (∀ order : NormOrder, order.Blind →
      (fhFree chis l).equilibrationError (NDArr.ofMat X) order (some 1) = .ok (.array [0, 0])) ∧
    (fhFree chis l).equilibrationError (NDArr.ofMat X) (.num (-2)) none = .ok (.scalar 0) ∧
    (fhFree chis l).equilibrationError (NDArr.ofMat X) (.num (-1)) none = .ok (.scalar 0) := by
  have hs : ∀ i j : Fin 3, (fun _ _ => 0 : Mat 3 3 ℝ) i j = (fun _ _ => 0 : Mat 3 3 ℝ) j i := fun _ _ => rfl
  have hl : ∀ i : Fin 3, (0 : ℝ) < (fun _ => 1 : Vec 3 ℝ) i := fun _ => one_pos
  set X : Mat 2 3 ℝ := ![![1 / 2, 1 / 4, 1 / 4], ![1 / 2, 1 / 3, 1 / 6]] with hXd
  have hX : ∀ p i, 0 < X p i := by
    intro p i
    fin_cases p <;> fin_cases i <;> norm_num [hXd]
  have hsum : ∀ p, ∑ i, X p i = 1 := by
    intro p
    rw [Fin.sum_univ_three]
    fin_cases p
    · show (1 / 2 : ℝ) + 1 / 4 + 1 / 4 = 1
      norm_num
    · show (1 / 2 : ℝ) + 1 / 3 + 1 / 6 = 1
      norm_num
  have hmu : ∀ p i, chemPot (fun _ _ => 0) (fun _ => 1) (X p) i = Real.log (X p i) := by
    intro p i
    have := hsum p
    simp only [chemPot, zero_mul, Finset.sum_const_zero, div_one]
    rw [this]
    ring
  have h0 : ∀ p q, chemPot (fun _ _ => 0) (fun _ => 1) (X p) 0 =
      chemPot (fun _ _ => 0) (fun _ => 1) (X q) 0 := by
    intro p q
    rw [hmu, hmu]
    fin_cases p <;> fin_cases q <;> rfl
  refine ⟨_, _, X, hs, hl, hX, hsum, ?_, fun order ho => ?_, ?_, ?_⟩
  · rw [hmu, hmu]
    intro h
    have := Real.log_injOn_pos (Set.mem_Ioi.mpr (hX 0 1)) (Set.mem_Ioi.mpr (hX 1 1)) h
    norm_num [hXd] at this
  · obtain ⟨ep, -, h1, -, h3, -⟩ := C82_axis_blind hs hl hX ho
    have hz : ∀ p, ep p = 0 := fun p => (h3 p).2.mpr ⟨0, by
      rw [Finset.sum_congr rfl fun q _ => h0 q p]
      simp⟩
    rw [h1]
    simp [List.ofFn_succ, hz]
  · exact (C82_total_blind hs hl hX).2.2.1 (by norm_num)
  · obtain ⟨e, h1, -, h3⟩ := (C82_total_blind hs hl hX).2.1
    rw [h1, h3.mpr ⟨0, h0⟩]

theorem musOf_present {chis : Mat C C ℝ} (hs : ∀ i j, chis i j = chis j i) {l : Vec C ℝ}
    (hl : ∀ i, 0 < l i) {x : Vec C ℝ} (hx : ∀ i, 0 ≤ x i) {i : Fin C} (hi : 0 < x i) :
    musOf (fhFree chis l) x i = fin (chemPot chis l x i) := by
  have hl0 : ∀ i, l i ≠ 0 := fun i => (hl i).ne'
  unfold musOf
  have e1 : XReal.sum ((fhFree chis l).jacobianFractionsImpl x) =
      fin (∑ j, x j * fhGrad chis l x j) := by
    rw [← xsum_fin]
    congr 1
    funext j
    exact fhFree_fractions (hl0 j) (hx j)
  rw [fhFree_energy hl0 hx, e1, fin_sub_fin, fhFree_jacobian (hl0 i) hi, fin_add_fin, chemPot_eq hs]

theorem musOf_absent {chis : Mat C C ℝ} {l : Vec C ℝ}
    (hl : ∀ i, 0 < l i) {x : Vec C ℝ} (hx : ∀ i, 0 ≤ x i) {i : Fin C} (hi : x i = 0) :
    musOf (fhFree chis l) x i = ninf := by
  have hl0 : ∀ i, l i ≠ 0 := fun i => (hl i).ne'
  unfold musOf
  have e1 : XReal.sum ((fhFree chis l).jacobianFractionsImpl x) =
      fin (∑ j, x j * fhGrad chis l x j) := by
    rw [← xsum_fin]
    congr 1
    funext j
    exact fhFree_fractions (hl0 j) (hx j)
  rw [fhFree_energy hl0 hx, e1, fin_sub_fin, fhFree_jacobian_zero (hl i) hi]
  rfl

/-- **C82**, witness: a phase that lacks a component looks balanced with one that contains it, for all
orders. Its infinite chemical potential is replaced by zero. -/
theorem C82_absent : ∃ (chis : Mat 2 2 ℝ) (X : Mat 2 2 ℝ), (∀ i j, chis i j = chis j i) ∧
    (∀ p i, 0 ≤ X p i) ∧ (∀ p, ∑ i, X p i = 1) ∧
    musOf (fhFree chis fun _ => 1) (X 0) 1 = .ninf ∧ musOf (fhFree chis fun _ => 1) (X 1) 1 = .fin 0 ∧
    (∀ order : NormOrder, order.Definite →
      (fhFree chis fun _ => 1).equilibrationError (NDArr.ofMat X) order (some 1) = .ok (.array [0, 0]) ∧
      (fhFree chis fun _ => 1).equilibrationError (NDArr.ofMat X) order (some 0) = .ok (.array [0, 0])) ∧
    ∀ order : NormOrder, order.MatrixDefinite →
      (fhFree chis fun _ => 1).equilibrationError (NDArr.ofMat X) order none = .ok (.scalar 0) := by
  set chis : Mat 2 2 ℝ := ![![0, 4 * Real.log 2], ![4 * Real.log 2, 0]] with hchis
  set X : Mat 2 2 ℝ := ![![1, 0], ![1 / 2, 1 / 2]] with hXd
  have hs : ∀ i j, chis i j = chis j i := by
    intro i j
    fin_cases i <;> fin_cases j <;> rfl
  have hl : ∀ i : Fin 2, (0 : ℝ) < (fun _ => 1 : Vec 2 ℝ) i := fun _ => one_pos
  have hX : ∀ p i, 0 ≤ X p i := by
    intro p i
    fin_cases p <;> fin_cases i <;> norm_num [hXd]
  have hlog : Real.log (1 / 2) = - Real.log 2 := by rw [one_div, Real.log_inv]
  have m00 : musOf (fhFree chis fun _ => 1) (X 0) 0 = .fin 0 := by
    rw [musOf_present hs hl (hX 0) (by norm_num [hXd])]
    congr 1
    simp [chemPot, hXd, hchis, Fin.sum_univ_two]
  have m01 : musOf (fhFree chis fun _ => 1) (X 0) 1 = .ninf := musOf_absent hl (hX 0) (by norm_num [hXd])
  have m1 : ∀ i, musOf (fhFree chis fun _ => 1) (X 1) i = .fin 0 := by
    intro i
    rw [musOf_present hs hl (hX 1) (by fin_cases i <;> norm_num [hXd])]
    congr 1
    fin_cases i <;> simp [chemPot, hXd, hchis, Fin.sum_univ_two] <;> ring
  have hz : ∀ p i, (musOf (fhFree chis fun _ => 1) (X p) i).nanToNum = 0 := by
    intro p i
    fin_cases p
    · fin_cases i
      · show (musOf (fhFree chis fun _ => 1) (X 0) 0).nanToNum = 0
        rw [m00]; rfl
      · show (musOf (fhFree chis fun _ => 1) (X 0) 1).nanToNum = 0
        rw [m01]; rfl
    · show (musOf (fhFree chis fun _ => 1) (X 1) i).nanToNum = 0
      rw [m1]; rfl
  have hd : FreeEnergy.deviations (fun p => musOf (fhFree chis fun _ => 1) (X p)) = fun _ _ => (0 : ℝ) := by
    funext p i
    unfold FreeEnergy.deviations
    simp only [hz]
    simp
  have he : ∀ order axis, (fhFree chis fun _ => 1).equilibrationError (NDArr.ofMat X) order axis =
      norm2d (fun _ _ => 0 : Mat 2 2 ℝ) order axis := by
    intro order axis
    unfold FreeEnergy.equilibrationError
    rw [deviations_eval _ hX, bind_ok, hd]
  refine ⟨chis, X, hs, hX, fun p => ?_, m01, m1 1, fun order ho => ?_, fun order ho => ?_⟩
  · fin_cases p <;> norm_num [hXd, Fin.sum_univ_two]
  · obtain ⟨e, h1, -, h2⟩ := vectorNorm_definite (fun _ => 0 : Vec 2 ℝ) ho
    rw [h2.mpr fun _ => rfl] at h1
    rw [he, he]
    unfold norm2d
    simp only [h1]
    norm_num
  · obtain ⟨e, h1, -, h2⟩ := matrixNorm_definite (fun _ _ => 0 : Mat 2 2 ℝ) ho
    rw [h2.mpr fun _ _ => rfl] at h1
    rw [he]
    unfold norm2d
    simp only [h1]
    rfl

/-! ## Non-vacuity -/

-- C82: a mixture with two distinct phases in balance and two that are not; every definite order tells them apart.
example : ∃ (chis : Mat 2 2 ℝ) (X Y : Mat 2 2 ℝ), (∀ i j, chis i j = chis j i) ∧
    (∀ p i, 0 < X p i) ∧ (∀ p i, 0 < Y p i) ∧ X 0 ≠ X 1 ∧
    ∀ order : NormOrder, order.MatrixDefinite →
      (fhFree chis fun _ => 1).equilibrationError (NDArr.ofMat X) order none = .ok (.scalar 0) ∧
      ∃ e, (fhFree chis fun _ => 1).equilibrationError (NDArr.ofMat Y) order none =
        .ok (.scalar e) ∧ 0 < e := by
  set chis : Mat 2 2 ℝ := ![![0, 2 * Real.log 3], ![2 * Real.log 3, 0]] with hchis
  set X : Mat 2 2 ℝ := ![![1 / 4, 3 / 4], ![3 / 4, 1 / 4]] with hXd
  set Y : Mat 2 2 ℝ := ![![1 / 2, 1 / 2], ![1 / 4, 3 / 4]] with hYd
  have hs : ∀ i j, chis i j = chis j i := by
    intro i j
    fin_cases i <;> fin_cases j <;> rfl
  have hl : ∀ i : Fin 2, (0 : ℝ) < (fun _ => 1 : Vec 2 ℝ) i := fun _ => one_pos
  have hX : ∀ p i, 0 < X p i := by
    intro p i
    fin_cases p <;> fin_cases i <;> norm_num [hXd]
  have hY : ∀ p i, 0 < Y p i := by
    intro p i
    fin_cases p <;> fin_cases i <;> norm_num [hYd]
  have h2 : Real.log (1 / 2) = - Real.log 2 := by rw [one_div, Real.log_inv]
  have h4 : Real.log 4 = 2 * Real.log 2 := by
    rw [show (4 : ℝ) = 2 ^ 2 by norm_num, Real.log_pow]; norm_num
  have h14 : Real.log (1 / 4) = - (2 * Real.log 2) := by rw [one_div, Real.log_inv, h4]
  have h34 : Real.log (3 / 4) = Real.log 3 - 2 * Real.log 2 := by
    rw [Real.log_div (by norm_num) (by norm_num), h4]
  have h53 : 5 * Real.log 3 < 8 * Real.log 2 := by
    have := Real.log_lt_log (by norm_num) (show ((3 : ℝ) ^ 5) < 2 ^ 8 by norm_num)
    rw [Real.log_pow, Real.log_pow] at this
    exact_mod_cast this
  have hbal : ∀ p q i, chemPot chis (fun _ => 1) (X p) i = chemPot chis (fun _ => 1) (X q) i := by
    have : ∀ i, chemPot chis (fun _ => 1) (X 0) i = chemPot chis (fun _ => 1) (X 1) i := by
      intro i
      fin_cases i <;>
        simp only [chemPot, hXd, hchis, Fin.sum_univ_two, Fin.zero_eta, Fin.mk_one, Matrix.cons_val_zero,
          Matrix.cons_val_one, h14, h34] <;> ring
    intro p q i
    fin_cases p <;> fin_cases q <;> first | rfl | exact this i | exact (this i).symm
  have hne : chemPot chis (fun _ => 1) (Y 0) 0 ≠ chemPot chis (fun _ => 1) (Y 1) 0 := by
    simp only [chemPot, hYd, hchis, Fin.sum_univ_two, Matrix.cons_val_zero,
          Matrix.cons_val_one, h14, h2]
    intro h
    linarith
  refine ⟨chis, X, Y, hs, hX, hY, fun h => ?_, fun order ho => ⟨?_, ?_⟩⟩
  · have := congrFun h 0
    norm_num [hXd] at this
  · obtain ⟨e, h1, -, h3⟩ := C82_total hs hl hX ho
    rw [h1, h3.mpr hbal]
  · obtain ⟨e, h1, h2, h3⟩ := C82_total hs hl hY ho
    exact ⟨e, h1, lt_of_le_of_ne h2 fun h0 => hne (h3.mp h0.symm 0 1 0)⟩

-- C82: the orders and axes the theorems speak of exist on both sides.
example : (NormOrder.none).MatrixDefinite ∧ (NormOrder.num 2).Definite ∧ (NormOrder.ninf).Blind ∧
    (NormOrder.num (-2)).Blind :=
  ⟨trivial, show (0 : ℝ) ≤ 2 by norm_num, trivial, show (-2 : ℝ) < 0 by norm_num⟩

end Flory
