import Verif.Model.Interaction
import Verif.Model.Entropy
import Verif.Model.Ensemble
import Verif.Spec.Blocks
import Verif.Spec.Instances
import Verif.Lemmas.Loops
import Mathlib.Tactic.Ring
import Mathlib.Tactic.Linarith

/-! # Closed forms of the compiled instances -/

set_option linter.unusedSectionVars false

namespace Flory

open Spec

section General

variable {K : Type} [Field K] [LinearOrder K] {C S M : ℕ}

theorem FHCompiled.volumeDerivative_eq (c : FHCompiled S K) (pot ph : Mat S M K) (m : Fin M) :
    c.volumeDerivative pot ph m = 1 / 2 * ∑ r, pot r m * ph r m := by
  unfold FHCompiled.volumeDerivative
  rw [forRange_add_vec (fun _ => 0) (fun r m => pot r m * ph r m)]
  ring

theorem sum_lt_succ {A : Type} [AddCommMonoid A] (f : Fin C → A) (i : Fin C) :
    (∑ j : Fin C, if (j : ℕ) < i + 1 then f j else 0) =
      (∑ j : Fin C, if (j : ℕ) < i then f j else 0) + f i := by
  have : ∀ r : Fin C, (if (r : ℕ) < i + 1 then f r else 0) =
      (if (r : ℕ) < i then f r else 0) + (if r = i then f r else 0) := by
    intro r
    by_cases hr : r = i
    · subst hr; simp
    · have : (r : ℕ) ≠ i := fun e => hr (Fin.ext e)
      by_cases hl : (r : ℕ) < i
      · simp [hl, hr, Nat.lt_succ_of_lt hl]
      · have : ¬ (r : ℕ) < i + 1 := by omega
        simp [hl, hr, this]
  rw [Finset.sum_congr rfl fun r _ => this r, Finset.sum_add_distrib]
  simp

private theorem norm_step {a : Vec C K} {ph : Mat C M K} {masks : Vec M K} {i : Fin C}
    {s : Mat C M K × Vec M K}
    (h1 : ∀ (j : Fin C) m, s.1 j m = if (j : ℕ) < i then a j * ph j m * masks m else ph j m)
    (h2 : ∀ m, s.2 m = -1 * 1 + ∑ j : Fin C, if (j : ℕ) < i then a j * ph j m * masks m else 0) :
    let phis := setAt s.1 i fun m => a i * s.1 i m * masks m
    (∀ (j : Fin C) m, phis j m = if (j : ℕ) < i + 1 then a j * ph j m * masks m else ph j m) ∧
    (∀ m, s.2 m + phis i m =
      -1 * 1 + ∑ j : Fin C, if (j : ℕ) < i + 1 then a j * ph j m * masks m else 0) := by
  intro phis
  refine ⟨fun j m => ?_, fun m => ?_⟩
  · by_cases hj : j = i
    · subst hj; simp [phis, h1]
    · have : (j : ℕ) ≠ i := fun e => hj (Fin.ext e)
      show setAt s.1 i _ j m = _
      rw [setAt_ne _ _ hj, h1]
      by_cases hl : (j : ℕ) < i
      · simp [hl, Nat.lt_succ_of_lt hl]
      · have : ¬ (j : ℕ) < i + 1 := by omega
        simp [hl, this]
  · rw [sum_lt_succ (fun j => a j * ph j m * masks m), h2]
    simp [phis, h1]
    ring

theorem CanonicalC.normalize_inv {e : CanonicalC C K} {ph : Mat C M K} {Qs : Vec C K}
    {masks : Vec M K} {x} (h : e.normalize ph Qs masks = .ok x) :
    (∀ i, Qs i ≠ 0) ∧
    x = (fun i m => e.phiMeans i / Qs i * ph i m * masks m,
      fun m => ((∑ i, e.phiMeans i / Qs i * ph i m * masks m) - 1) * masks m) := by
  unfold CanonicalC.normalize at h
  obtain ⟨s, h1, h2⟩ := bind_eq_ok.mp h
  have := forRangeM_inv (fun k s => (∀ i : Fin C, (i : ℕ) < k → Qs i ≠ 0) ∧
    (∀ (j : Fin C) m, s.1 j m =
      if (j : ℕ) < k then e.phiMeans j / Qs j * ph j m * masks m else ph j m) ∧
    (∀ m, s.2 m = -1 * 1 + ∑ j : Fin C,
      if (j : ℕ) < k then e.phiMeans j / Qs j * ph j m * masks m else 0)) (by simp) (by
      rintro i s s' ⟨h1, h2, h3⟩ h
      obtain ⟨f, hf, h⟩ := bind_eq_ok.mp h
      obtain ⟨hq, rfl⟩ := pyDiv_eq_ok.mp hf
      cases h
      refine ⟨fun j hj => ?_, norm_step (a := fun i => e.phiMeans i / Qs i) h2 h3⟩
      rcases Nat.lt_succ_iff_lt_or_eq.mp hj with h | h
      · exact h1 j h
      · rw [Fin.ext h]; exact hq) h1
  cases h2
  refine ⟨fun i => this.1 i i.2, ?_⟩
  refine Prod.ext (funext fun i => funext fun m => ?_) (funext fun m => ?_)
  · simpa using this.2.1 i m
  · show s.2 m * masks m = _
    rw [this.2.2 m]; simp only [Fin.is_lt, if_true]; ring

theorem CanonicalC.normalize_ok (e : CanonicalC C K) (ph : Mat C M K) {Qs : Vec C K}
    (masks : Vec M K) (hQ : ∀ i, Qs i ≠ 0) : ∃ x, e.normalize ph Qs masks = .ok x := by
  unfold CanonicalC.normalize
  obtain ⟨s, hs, -⟩ := forRangeM_ok (n := C) (s := (ph, fun _ => -1 * 1))
    (body := fun i (s : Mat C M K × Vec M K) => do
    let factor ← pyDiv (e.phiMeans i) (Qs i)
    let phis := setAt s.1 i fun m => factor * s.1 i m * masks m
    return (phis, fun m => s.2 m + phis i m)) (fun _ _ => True) trivial
    (fun i s _ => by rw [pyDiv_ok (hQ i)]; exact ⟨_, rfl, trivial⟩)
  rw [hs]
  exact ⟨_, rfl⟩

theorem CanonicalC.scales (e : CanonicalC C K) :
    Scales (e.toI M) fun Qs i => e.phiMeans i / Qs i :=
  ⟨fun h => (CanonicalC.normalize_inv h).2⟩

theorem GrandC.normalize_eq (e : GrandC C K) (ph : Mat C M K) (Qs : Vec C K) (masks : Vec M K) :
    e.normalize ph Qs masks = .ok (fun i m => e.scaledActivity i * ph i m * masks m,
      fun m => ((∑ i, e.scaledActivity i * ph i m * masks m) - 1) * masks m) := by
  unfold GrandC.normalize
  simp only
  have := forRange_inv (n := C) (s := (ph, fun _ => -1 * 1))
    (body := fun i (s : Mat C M K × Vec M K) =>
    let phis := setAt s.1 i fun m => e.scaledActivity i * s.1 i m * masks m
    (phis, fun m => s.2 m + phis i m)) (fun k s =>
    (∀ (j : Fin C) m, s.1 j m =
      if (j : ℕ) < k then e.scaledActivity j * ph j m * masks m else ph j m) ∧
    (∀ m, s.2 m = -1 * 1 + ∑ j : Fin C,
      if (j : ℕ) < k then e.scaledActivity j * ph j m * masks m else 0)) (by simp)
    (fun i s ⟨h2, h3⟩ => norm_step (a := fun i => e.scaledActivity i) h2 h3)
  congr 1
  refine Prod.ext (funext fun i => funext fun m => ?_) (funext fun m => ?_)
  · simpa using this.1 i m
  · have := this.2 m
    simp only at this ⊢
    rw [this]; simp only [Fin.is_lt, if_true]; ring

theorem GrandC.scales (e : GrandC C K) : Scales (e.toI M) fun _ i => e.scaledActivity i :=
  ⟨fun {ph Qs masks x} h => by
    have := GrandC.normalize_eq e ph Qs masks
    exact Except.ok.inj (h.symm.trans this)⟩

end General

section IdealGas

variable {C S M : ℕ}

theorem IdealC.isIdealGas (e : IdealC C) : IsIdealGas (e.toI M) e.sizes id where
  partition_inv := by
    intro ph om J x h
    have h' : e.partition ph om J = .ok x := h
    unfold IdealC.partition at h'
    have := forRangeM_inv (fun k s => (0 < k → ∑ m, J m ≠ 0) ∧ ∀ (j : Fin C), (j : ℕ) < k →
      s.1 j = (fun m => Real.exp (-om j m * e.sizes j)) ∧
      s.2 j = (∑ m, Real.exp (-om j m * e.sizes j) * J m) / ∑ m, J m) (by simp) (by
        rintro i s s' ⟨h1, h2⟩ h
        obtain ⟨q, hq, h⟩ := bind_eq_ok.mp h
        obtain ⟨hne, rfl⟩ := pyDiv_eq_ok.mp hq
        cases h
        refine ⟨fun _ => hne, fun j hj => ?_⟩
        by_cases hji : j = i
        · subst hji; simp
        · have : (j : ℕ) < i := by
            have : (j : ℕ) ≠ i := fun e => hji (Fin.ext e)
            omega
          show setAt s.1 i _ j = _ ∧ setAt s.2 i _ j = _
          rw [setAt_ne _ _ hji, setAt_ne _ _ hji]
          exact h2 j this) h'
    refine ⟨fun hC => this.1 (Nat.pos_of_ne_zero hC), Prod.ext (funext fun i => ?_) (funext fun i => ?_)⟩
    · exact (this.2 i i.2).1
    · exact (this.2 i i.2).2
  partition_ok := by
    intro ph om J hJ
    obtain ⟨s, hs, -⟩ := forRangeM_ok (n := C) (s := (ph, fun _ => 0))
      (body := fun i (s : Mat C M ℝ × Vec C ℝ) => do
        let row : Vec M ℝ := fun m => Real.exp (-om i m * e.sizes i)
        let phis := setAt s.1 i row
        let q ← pyDiv (∑ m, row m * J m) (∑ m, J m)
        return (phis, setAt s.2 i q)) (fun _ _ => True) trivial
      (fun i s _ => by simp only; rw [pyDiv_ok hJ]; exact ⟨_, rfl, trivial⟩)
    exact ⟨s, hs⟩
  compToFeat := by
    intro pf ph
    have : e.compToFeat pf ph = .ok ph := by
      unfold IdealC.compToFeat
      rw [forRange_setAt pf (fun i _ => ph i)]
    refine this.trans ?_
    congr 1
    funext r m
    simp
  volumeDerivative := by
    intro ph m
    show e.volumeDerivative ph m = _
    unfold IdealC.volumeDerivative
    rw [forRange_sub_vec (fun _ => 0) (fun i m => ph i m / e.sizes i)]
    simp

theorem PolyC.volumeDerivative_eq (e : PolyC C S) (ph : Mat C M ℝ) (m : Fin M) :
    e.volumeDerivative ph m = -∑ i, ph i m / e.sizes i := by
  unfold PolyC.volumeDerivative
  rw [forRange_sub_vec (fun _ => 0) (fun i m => ph i m / e.sizes i)]
  simp

/-- Body of the inner loop of `PolyC.partition`. -/
private noncomputable def polyBody (e : PolyC C S) (om : Mat S M ℝ) (J : Vec M ℝ) (r : Fin S)
    (s : Mat C M ℝ × Vec C ℝ × ℕ) : Py (Mat C M ℝ × Vec C ℝ × ℕ) := do
  let (phis, Qs, itr) := s
  let size ← readAt e.sizes itr
  let row : Vec M ℝ := fun m => Real.exp (-om r m * size)
  let phis ← writeAt phis itr row
  let q ← pyDiv (∑ m, row m * J m) (∑ m, J m)
  let Qs ← writeAt Qs itr q
  return (phis, Qs, itr + 1)

private theorem polyBody_step (e : PolyC C S) (om : Mat S M ℝ) (J : Vec M ℝ) (r : Fin S)
    {feat : Fin C → Fin S} (hf : IsFeat e.perFeat feat) (hC : C = ∑ r, e.perFeat r)
    (hJ : ∑ m, J m ≠ 0) (j : Fin (e.perFeat r)) (s : Mat C M ℝ × Vec C ℝ × ℕ)
    (h : s.2.2 = offset e.perFeat r + j ∧ ∀ i : Fin C, (i : ℕ) < offset e.perFeat r + j →
      s.1 i = (fun m => Real.exp (-om (feat i) m * e.sizes i)) ∧
      s.2.1 i = (∑ m, Real.exp (-om (feat i) m * e.sizes i) * J m) / ∑ m, J m) :
    ∃ s', polyBody e om J r s = .ok s' ∧
      s'.2.2 = offset e.perFeat r + (j + 1) ∧
      ∀ i : Fin C, (i : ℕ) < offset e.perFeat r + (j + 1) →
      s'.1 i = (fun m => Real.exp (-om (feat i) m * e.sizes i)) ∧
      s'.2.1 i = (∑ m, Real.exp (-om (feat i) m * e.sizes i) * J m) / ∑ m, J m := by
  obtain ⟨phis, Qs, itr⟩ := s
  obtain ⟨h1, h2⟩ := h
  simp only at h1 h2
  have hlt : itr < C := by
    have := offset_add_le e.perFeat r
    have := j.2
    omega
  have hfe : feat ⟨itr, hlt⟩ = r := (hf.eq_iff _ _).2 ⟨by simp [h1], by simp [h1]⟩
  unfold polyBody
  simp only [readAt_ok _ hlt, writeAt_ok _ _ hlt, pyDiv_ok hJ, bind_ok, pure_eq_ok]
  refine ⟨_, rfl, by simp only; omega, fun i hi => ?_⟩
  by_cases hii : i = ⟨itr, hlt⟩
  · subst hii
    simp [hfe]
  · have : (i : ℕ) ≠ itr := fun e => hii (Fin.ext e)
    show setAt phis _ _ i = _ ∧ setAt Qs _ _ i = _
    rw [setAt_ne _ _ hii, setAt_ne _ _ hii]
    exact h2 i (by omega)

theorem PolyC.partition_eq (e : PolyC C S) (hC : C = ∑ r, e.perFeat r) {feat : Fin C → Fin S}
    (hf : IsFeat e.perFeat feat) (ph : Mat C M ℝ) (om : Mat S M ℝ) {J : Vec M ℝ}
    (hJ : ∑ m, J m ≠ 0) : e.partition ph om J =
      .ok (fun i m => Real.exp (-om (feat i) m * e.sizes i),
      fun i => (∑ m, Real.exp (-om (feat i) m * e.sizes i) * J m) / ∑ m, J m) := by
  obtain ⟨s, hs, h1, h2⟩ := forRangeM_ok (n := S) (s := (ph, ((fun _ => 0 : Vec C ℝ), 0)))
    (body := fun r s => forRangeM (e.perFeat r) s fun _ s => polyBody e om J r s)
    (fun k s => s.2.2 = offset e.perFeat k ∧ ∀ i : Fin C, (i : ℕ) < offset e.perFeat k →
      s.1 i = (fun m => Real.exp (-om (feat i) m * e.sizes i)) ∧
      s.2.1 i = (∑ m, Real.exp (-om (feat i) m * e.sizes i) * J m) / ∑ m, J m)
    (by simp [offset_zero]) (by
      intro r s h
      rw [offset_succ]
      exact forRangeM_ok (fun j s => s.2.2 = offset e.perFeat r + j ∧
        ∀ i : Fin C, (i : ℕ) < offset e.perFeat r + j →
        s.1 i = (fun m => Real.exp (-om (feat i) m * e.sizes i)) ∧
        s.2.1 i = (∑ m, Real.exp (-om (feat i) m * e.sizes i) * J m) / ∑ m, J m) (by simpa using h)
        (fun j s => polyBody_step e om J r hf hC hJ j s))
  have : e.partition ph om J = forRangeM S (ph, ((fun _ => 0 : Vec C ℝ), 0))
    (fun r s => forRangeM (e.perFeat r) s fun _ s => polyBody e om J r s) >>= fun s =>
      .ok (s.1, s.2.1) := rfl
  rw [this, hs]
  simp only [bind_ok]
  congr 1
  refine Prod.ext (funext fun i => ?_) (funext fun i => ?_)
  · exact (h2 i (by rw [offset_all, ← hC]; exact i.2)).1
  · exact (h2 i (by rw [offset_all, ← hC]; exact i.2)).2

theorem PolyC.partition_error (e : PolyC C S) (hC : C = ∑ r, e.perFeat r)
    (ph : Mat C M ℝ) (om : Mat S M ℝ) {J : Vec M ℝ}
    (hJ : ∑ m, J m = 0) {x} (h : e.partition ph om J = .ok x) : C = 0 := by
  by_contra hne
  obtain ⟨r, hr⟩ : ∃ r, e.perFeat r ≠ 0 := by
    by_contra hh
    push Not at hh
    simp [hh] at hC
    exact hne hC
  have h' : (forRangeM S (ph, ((fun _ => 0 : Vec C ℝ), 0))
    (fun r s => forRangeM (e.perFeat r) s fun _ s => polyBody e om J r s) >>= fun s =>
      .ok (s.1, s.2.1)) = .ok x := h
  obtain ⟨s, hs, -⟩ := bind_eq_ok.mp h'
  have := forRangeM_inv (fun k _ => ∀ r : Fin S, (r : ℕ) < k → e.perFeat r = 0) (by simp) (by
    intro i s s' h1 h2 r hr
    rcases Nat.lt_succ_iff_lt_or_eq.mp hr with h | h
    · exact h1 r h
    · have : r = i := Fin.ext h
      subst this
      have := forRangeM_inv (fun k _ => k = 0) rfl (by
        intro j t t' hj ht
        unfold polyBody at ht
        simp only [bind_eq_ok, pyDiv_eq_ok, hJ] at ht
        obtain ⟨_, _, _, _, _, h, _⟩ := ht
        exact absurd rfl h.1) h2
      exact this) hs
  exact hr (this r r.2)

private theorem polyFeat_inner (e : PolyC C S) (ph : Mat C M ℝ)
    {feat : Fin C → Fin S} (hf : IsFeat e.perFeat feat) (hC : C = ∑ r, e.perFeat r) (r : Fin S)
    (pf : Mat S M ℝ) (h1 : ∀ (r' : Fin S) m, (r' : ℕ) < r →
      pf r' m = ∑ i, if feat i = r' then ph i m else 0)
    (hr : 1 ≤ e.perFeat r) : ∃ s', (do
      let row ← readAt ph (offset e.perFeat r)
      let feat := setAt pf r row
      forRangeM (e.perFeat r - 1) (feat, offset e.perFeat r + 1) fun _ s => do
        let (feat, itr) := s
        let row ← readAt ph itr
        return (setAt feat r fun m => feat r m + row m, itr + 1)) = Except.ok (ε := PyErr) s' ∧
      s'.2 = offset e.perFeat (r + 1) ∧ ∀ (r' : Fin S) m, (r' : ℕ) < r + 1 →
        s'.1 r' m = ∑ i, if feat i = r' then ph i m else 0 := by
  have hle := offset_add_le e.perFeat r
  have hlt : offset e.perFeat r < C := by omega
  rw [readAt_ok _ hlt]
  simp only [bind_ok]
  obtain ⟨s, hs, h2, h3, h4⟩ := forRangeM_ok (n := e.perFeat r - 1)
    (s := (setAt pf r (ph ⟨offset e.perFeat r, hlt⟩), offset e.perFeat r + 1))
    (body := fun _ s => do
        let (feat, itr) := s
        let row ← readAt ph itr
        return (setAt feat r fun m => feat r m + row m, itr + 1))
    (fun j s => s.2 = offset e.perFeat r + 1 + j ∧ (∀ r', r' ≠ r → s.1 r' = pf r') ∧
      ∀ m, s.1 r m = ∑ i : Fin C, if offset e.perFeat r ≤ i ∧ (i : ℕ) < offset e.perFeat r + 1 + j
        then ph i m else 0) (by
      refine ⟨rfl, fun r' hr' => setAt_ne _ _ hr', fun m => ?_⟩
      simp only [setAt_same]
      rw [Finset.sum_eq_single ⟨offset e.perFeat r, hlt⟩]
      · simp
      · intro i _ hi
        have : (i : ℕ) ≠ offset e.perFeat r := fun e => hi (Fin.ext e)
        rw [if_neg]; omega
      · simp) (by
      rintro j ⟨feat', itr⟩ ⟨h1, h2, h3⟩
      simp only at h1 h2 h3 ⊢
      have hlt' : itr < C := by have := j.2; omega
      rw [readAt_ok _ hlt']
      refine ⟨_, rfl, by simp only; omega, fun r' hr' => ?_, fun m => ?_⟩
      · show setAt feat' r _ r' = _
        rw [setAt_ne _ _ hr', h2 r' hr']
      · simp only [setAt_same, h3]
        have : ∀ i : Fin C, (if offset e.perFeat r ≤ i ∧
              (i : ℕ) < offset e.perFeat r + 1 + (j + 1) then ph i m else 0) =
            (if offset e.perFeat r ≤ i ∧ (i : ℕ) < offset e.perFeat r + 1 + j
              then ph i m else 0) + if i = ⟨itr, hlt'⟩ then ph i m else 0 := by
          intro i
          by_cases hi : i = ⟨itr, hlt'⟩
          · subst hi
            simp only [if_true]
            rw [if_pos (by omega), if_neg (by omega)]; simp
          · have : (i : ℕ) ≠ itr := fun e => hi (Fin.ext e)
            simp only [hi, if_false, add_zero]
            congr 1
            apply propext
            omega
        simp [this, Finset.sum_add_distrib])
  refine ⟨s, hs, ?_, fun r' m hr' => ?_⟩
  · rw [offset_succ, h2]; omega
  · by_cases he : r' = r
    · subst he
      rw [h4]
      refine Finset.sum_congr rfl fun i _ => ?_
      congr 1
      rw [hf.eq_iff]
      apply propext
      omega
    · have : (r' : ℕ) ≠ r := fun e => he (Fin.ext e)
      rw [h3 r' he]
      exact h1 r' m (by omega)

theorem PolyC.compToFeat_eq (e : PolyC C S) (hC : C = ∑ r, e.perFeat r) {feat : Fin C → Fin S}
    (hf : IsFeat e.perFeat feat) (hpos : ∀ r, 1 ≤ e.perFeat r) (pf : Mat S M ℝ) (ph : Mat C M ℝ) :
    e.compToFeat pf ph = .ok fun r m => ∑ i, if feat i = r then ph i m else 0 := by
  unfold PolyC.compToFeat
  obtain ⟨s, hs, h1, h2⟩ := forRangeM_ok (n := S) (s := (pf, 0))
    (body := fun r s => do
    let (feat, itr) := s
    let row ← readAt ph itr
    let feat := setAt feat r row
    forRangeM (e.perFeat r - 1) (feat, itr + 1) fun _ s => do
      let (feat, itr) := s
      let row ← readAt ph itr
      return (setAt feat r fun m => feat r m + row m, itr + 1))
    (fun k s => s.2 = offset e.perFeat k ∧ ∀ (r' : Fin S) m, (r' : ℕ) < k →
        s.1 r' m = ∑ i, if feat i = r' then ph i m else 0)
    (by simp [offset_zero]) (by
      rintro r ⟨pf', itr⟩ ⟨h1, h2⟩
      simp only at h1 h2
      subst h1
      exact polyFeat_inner e ph hf hC r pf' h2 (hpos r))
  rw [hs]
  simp only [bind_ok, pure_eq_ok]
  congr 1
  funext r m
  exact h2 r m r.2

/-- Loop rule for raised errors. -/
theorem forRangeM_error {σ : Type} {n : ℕ} {s : σ} {body : Fin n → σ → Py σ} {E : PyErr → Prop} {e : PyErr}
    (hs : ∀ i s e, body i s = .error e → E e) (h : forRangeM n s body = .error e) : E e := by
  induction n generalizing e with
  | zero => rw [forRangeM_zero] at h; cases h
  | succ n ih =>
    rw [forRangeM_succ] at h
    cases h1 : forRangeM n s (fun i => body i.castSucc) with
    | error e' =>
      rw [h1] at h
      cases h
      exact ih (fun i => hs i.castSucc) h1
    | ok s1 =>
      rw [h1] at h
      exact hs _ _ _ h

theorem PolyC.compToFeat_error (e : PolyC C S) (pf : Mat S M ℝ) (ph : Mat C M ℝ) {x : PyErr}
    (h : e.compToFeat pf ph = .error x) : x = .outOfBounds := by
  unfold PolyC.compToFeat at h
  have hread : ∀ (i : ℕ) (y : PyErr), readAt ph i = .error y → y = .outOfBounds := by
    intro i y hy
    unfold readAt at hy
    split at hy <;> cases hy
    rfl
  generalize hb : forRangeM S (pf, 0) _ = z at h
  cases z with
  | ok z => cases h
  | error y =>
    cases h
    refine forRangeM_error (E := (· = .outOfBounds)) (fun r s y hy => ?_) hb
    cases hr : readAt ph s.2 with
    | error w =>
      simp only [hr] at hy
      cases hy
      exact hread _ _ hr
    | ok row =>
      simp only [hr] at hy
      refine forRangeM_error (E := (· = .outOfBounds)) (fun j s' y' hy' => ?_) hy
      cases hr' : readAt ph s'.2 with
      | error w =>
        simp only [hr'] at hy'
        cases hy'
        exact hread _ _ hr'
      | ok row => simp only [hr'] at hy'; cases hy'

theorem PolyC.compToFeat_used (e : PolyC C S) (pf : Mat S M ℝ) (ph : Mat C M ℝ) {x : Mat S M ℝ}
    (h : e.compToFeat pf ph = .ok x) : ∑ r, max 1 (e.perFeat r) ≤ C := by
  unfold PolyC.compToFeat at h
  obtain ⟨s, hs, -⟩ := bind_eq_ok.mp h
  have := forRangeM_inv (fun k s => s.2 = offset (fun r => max 1 (e.perFeat r)) k ∧ s.2 ≤ C) (by simp [offset]) ?_ hs
  · obtain ⟨h1, h2⟩ := this
    rw [h1] at h2
    simpa [offset] using h2
  · rintro r ⟨a, it⟩ s' ⟨h1, h2⟩ hb
    simp only at h1 h2
    obtain ⟨row, hr, hb⟩ := bind_eq_ok.mp hb
    have hlt : it < C := by
      unfold readAt at hr
      split at hr
      · assumption
      · cases hr
    have := forRangeM_inv (fun j s => s.2 = it + 1 + j ∧ s.2 ≤ C) (by simp; omega) ?_ hb
    · rw [offset_succ, ← h1]
      omega
    · rintro j ⟨a', it'⟩ s'' ⟨h1', h2'⟩ hb'
      simp only at h1' h2'
      obtain ⟨row', hr', hb'⟩ := bind_eq_ok.mp hb'
      have hlt : it' < C := by
        unfold readAt at hr'
        split at hr'
        · assumption
        · cases hr'
      cases hb'
      simp only
      omega

theorem PolyC.isIdealGas (e : PolyC C S) (hC : C = ∑ r, e.perFeat r) {feat : Fin C → Fin S}
    (hf : IsFeat e.perFeat feat) (hpos : ∀ r, 1 ≤ e.perFeat r) :
    IsIdealGas (e.toI M) e.sizes feat where
  partition_inv := by
    intro ph om J x h
    by_cases hJ : ∑ m, J m = 0
    · have h0 := PolyC.partition_error e hC ph om hJ h
      subst h0
      exact ⟨fun h => absurd rfl h, Prod.ext (funext fun i => i.elim0) (funext fun i => i.elim0)⟩
    · refine ⟨fun _ => hJ, ?_⟩
      exact Except.ok.inj (h.symm.trans (PolyC.partition_eq e hC hf ph om hJ))
  partition_ok := fun ph om {J} hJ => ⟨_, PolyC.partition_eq e hC hf ph om hJ⟩
  compToFeat := fun pf ph => PolyC.compToFeat_eq e hC hf hpos pf ph
  volumeDerivative := fun ph m => PolyC.volumeDerivative_eq e ph m

end IdealGas

end Flory
