import Verif.Model.FloatParts
import Verif.Spec.FloatRounding
import Verif.Spec.Blocks
import Verif.Lemmas.Floats
import Verif.Lemmas.Instances

/-! # The entropies and ensembles in arbitrary arithmetic -/

set_option linter.unusedSectionVars false

namespace Flory

open Spec

variable {F : Type} {o : Floats F} {C S M : ℕ}

theorem pyDivF_returns {a b : F} (h : ¬o.eq b (o.ofNat 0)) : o.pyDiv a b = .ok (o.div a b) := if_neg h

theorem pyDivF_eq_ok {a b c : F} : o.pyDiv a b = .ok c ↔ ¬o.eq b (o.ofNat 0) ∧ c = o.div a b := by
  unfold Floats.pyDiv
  split_ifs with h
  · exact ⟨fun h => (by cases h), fun h' => absurd h h'.1⟩
  · exact ⟨fun h' => ⟨h, (Except.ok.inj h').symm⟩, fun h' => by rw [h'.2]⟩

theorem idealF_gas (sizes : Vec C F) : FloatGas o (idealF o sizes M) sizes id where
  weights := by
    intro phis p omegas Js Q h i
    have inv := forRangeM_inv (P := fun k (s : Mat C M F × Vec C F) => ∀ i : Fin C, i.1 < k →
        (∀ m, s.1 i m = o.exp (o.mul (o.neg (omegas i m)) (sizes i))) ∧
        o.pyDiv (o.sum fun m => o.mul (s.1 i m) (Js m)) (o.sum Js) = .ok (s.2 i))
      (fun i hi => absurd hi (Nat.not_lt_zero _)) (by
        intro j s s' ih hb i hi
        rw [bind_eq_ok] at hb
        obtain ⟨q, hq, hb⟩ := hb
        cases hb
        by_cases hij : i = j
        · subst hij
          simp only [setAt_same]
          exact ⟨fun _ => trivial, hq⟩
        · simp only [setAt_ne _ _ hij]
          have : i.1 ≠ j.1 := fun hc => hij (Fin.ext hc)
          exact ih i (by omega)) h
    exact inv i i.2
  returns phis omegas Js h := by
    obtain ⟨s, hs, -⟩ := forRangeM_ok (n := C) (s := (phis, fun _ => o.ofNat 0))
      (body := fun i s => do
        let row : Vec M F := fun m => o.exp (o.mul (o.neg (omegas i m)) (sizes i))
        let phis := setAt s.1 i row
        let q ← o.pyDiv (o.sum fun m => o.mul (row m) (Js m)) (o.sum Js)
        return (phis, setAt s.2 i q)) (fun _ _ => True) trivial (by
        intro i s _
        dsimp only
        rw [pyDivF_returns h]
        exact ⟨_, rfl, trivial⟩)
    exact ⟨s, hs⟩
  features phisFeat phis := ⟨_, rfl⟩

/-- Body of the inner loop of `polyPartitionF`. -/
def polyBodyF (o : Floats F) (sizes : Vec C F) (om : Mat S M F) (J : Vec M F) (r : Fin S)
    (s : Mat C M F × Vec C F × ℕ) : Py (Mat C M F × Vec C F × ℕ) := do
  let (phis, Qs, itr) := s
  let size ← readAt sizes itr
  let row : Vec M F := fun m => o.exp (o.mul (o.neg (om r m)) size)
  let phis ← writeAt phis itr row
  let q ← o.pyDiv (o.sum fun m => o.mul (row m) (J m)) (o.sum J)
  let Qs ← writeAt Qs itr q
  return (phis, Qs, itr + 1)

theorem polyBodyF_step (sizes : Vec C F) {per : Vec S ℕ} (om : Mat S M F) (J : Vec M F) (r : Fin S)
    {feat : Fin C → Fin S} (hf : IsFeat per feat) (hC : C = ∑ r, per r)
    (hJ : ¬o.eq (o.sum J) (o.ofNat 0)) (j : Fin (per r)) (s : Mat C M F × Vec C F × ℕ)
    (h : s.2.2 = offset per r + j ∧ ∀ i : Fin C, (i : ℕ) < offset per r + j →
      s.1 i = (fun m => o.exp (o.mul (o.neg (om (feat i) m)) (sizes i))) ∧
      s.2.1 i = o.div (o.sum fun m => o.mul (o.exp (o.mul (o.neg (om (feat i) m)) (sizes i))) (J m)) (o.sum J)) :
    ∃ s', polyBodyF o sizes om J r s = .ok s' ∧
      s'.2.2 = offset per r + (j + 1) ∧
      ∀ i : Fin C, (i : ℕ) < offset per r + (j + 1) →
      s'.1 i = (fun m => o.exp (o.mul (o.neg (om (feat i) m)) (sizes i))) ∧
      s'.2.1 i = o.div (o.sum fun m => o.mul (o.exp (o.mul (o.neg (om (feat i) m)) (sizes i))) (J m))
        (o.sum J) := by
  obtain ⟨phis, Qs, itr⟩ := s
  obtain ⟨h1, h2⟩ := h
  simp only at h1 h2
  have hlt : itr < C := by
    have := offset_add_le per r
    have := j.2
    omega
  have hfe : feat ⟨itr, hlt⟩ = r := (hf.eq_iff _ _).2 ⟨by simp [h1], by simp [h1]⟩
  unfold polyBodyF
  simp only [readAt_ok _ hlt, writeAt_ok _ _ hlt, pyDivF_returns hJ, bind_ok, pure_eq_ok]
  refine ⟨_, rfl, by simp only; omega, fun i hi => ?_⟩
  by_cases hii : i = ⟨itr, hlt⟩
  · subst hii
    simp [hfe]
  · have : (i : ℕ) ≠ itr := fun e => hii (Fin.ext e)
    show setAt phis _ _ i = _ ∧ setAt Qs _ _ i = _
    rw [setAt_ne _ _ hii, setAt_ne _ _ hii]
    exact h2 i (by omega)

theorem polyPartitionF_eq (sizes : Vec C F) {per : Vec S ℕ} (hC : C = ∑ r, per r) {feat : Fin C → Fin S}
    (hf : IsFeat per feat) (ph : Mat C M F) (om : Mat S M F) {J : Vec M F}
    (hJ : ¬o.eq (o.sum J) (o.ofNat 0)) : polyPartitionF o sizes per ph om J =
      .ok (fun i m => o.exp (o.mul (o.neg (om (feat i) m)) (sizes i)),
      fun i => o.div (o.sum fun m => o.mul (o.exp (o.mul (o.neg (om (feat i) m)) (sizes i))) (J m))
        (o.sum J)) := by
  obtain ⟨s, hs, h1, h2⟩ := forRangeM_ok (n := S) (s := (ph, ((fun _ => o.ofNat 0 : Vec C F), 0)))
    (body := fun r s => forRangeM (per r) s fun _ s => polyBodyF o sizes om J r s)
    (fun k s => s.2.2 = offset per k ∧ ∀ i : Fin C, (i : ℕ) < offset per k →
      s.1 i = (fun m => o.exp (o.mul (o.neg (om (feat i) m)) (sizes i))) ∧
      s.2.1 i = o.div (o.sum fun m => o.mul (o.exp (o.mul (o.neg (om (feat i) m)) (sizes i))) (J m))
        (o.sum J))
    (by simp [offset_zero]) (by
      intro r s h
      rw [offset_succ]
      exact forRangeM_ok (fun j s => s.2.2 = offset per r + j ∧
        ∀ i : Fin C, (i : ℕ) < offset per r + j →
        s.1 i = (fun m => o.exp (o.mul (o.neg (om (feat i) m)) (sizes i))) ∧
        s.2.1 i = o.div (o.sum fun m => o.mul (o.exp (o.mul (o.neg (om (feat i) m)) (sizes i))) (J m))
        (o.sum J)) (by simpa using h)
        (fun j s => polyBodyF_step sizes om J r hf hC hJ j s))
  have : polyPartitionF o sizes per ph om J = forRangeM S (ph, ((fun _ => o.ofNat 0 : Vec C F), 0))
    (fun r s => forRangeM (per r) s fun _ s => polyBodyF o sizes om J r s) >>= fun s =>
      .ok (s.1, s.2.1) := rfl
  rw [this, hs]
  simp only [bind_ok]
  congr 1
  refine Prod.ext (funext fun i => ?_) (funext fun i => ?_)
  · exact (h2 i (by rw [offset_all, ← hC]; exact i.2)).1
  · exact (h2 i (by rw [offset_all, ← hC]; exact i.2)).2

theorem polyPartitionF_error (sizes : Vec C F) {per : Vec S ℕ} (hC : C = ∑ r, per r)
    (ph : Mat C M F) (om : Mat S M F) {J : Vec M F}
    (hJ : o.eq (o.sum J) (o.ofNat 0)) {x} (h : polyPartitionF o sizes per ph om J = .ok x) : C = 0 := by
  by_contra hne
  obtain ⟨r, hr⟩ : ∃ r, per r ≠ 0 := by
    by_contra hh
    push Not at hh
    simp [hh] at hC
    exact hne hC
  have h' : (forRangeM S (ph, ((fun _ => o.ofNat 0 : Vec C F), 0))
    (fun r s => forRangeM (per r) s fun _ s => polyBodyF o sizes om J r s) >>= fun s =>
      .ok (s.1, s.2.1)) = .ok x := h
  obtain ⟨s, hs, -⟩ := bind_eq_ok.mp h'
  have := forRangeM_inv (fun k _ => ∀ r : Fin S, (r : ℕ) < k → per r = 0) (by simp) (by
    intro i s s' h1 h2 r hr
    rcases Nat.lt_succ_iff_lt_or_eq.mp hr with h | h
    · exact h1 r h
    · have : r = i := Fin.ext h
      subst this
      have := forRangeM_inv (fun k _ => k = 0) rfl (by
        intro j t t' hj ht
        unfold polyBodyF at ht
        simp only [bind_eq_ok, pyDivF_eq_ok] at ht
        obtain ⟨_, _, _, _, _, h, _⟩ := ht
        exact absurd hJ h.1) h2
      exact this) hs
  exact hr (this r r.2)

theorem polyF_features {per : Vec S ℕ} (hC : C = ∑ r, per r) (hp : ∀ r, 1 ≤ per r) (phisFeat : Mat S M F)
    (phis : Mat C M F) : ∃ x, polyCompToFeatF o per phisFeat phis = .ok x := by
  obtain ⟨s, hs, -⟩ := forRangeM_ok (n := S) (s := (phisFeat, 0)) (body := fun r s => do
      let (feat, itr) := s
      let row ← readAt phis itr
      let feat := setAt feat r row
      forRangeM (per r - 1) (feat, itr + 1) fun _ s => do
        let (feat, itr) := s
        let row ← readAt phis itr
        return (setAt feat r fun m => o.add (feat r m) (row m), itr + 1))
    (fun k s => s.2 = offset per k) (by simp [offset_zero]) (by
      intro r s h
      obtain ⟨feat, itr⟩ := s
      have hle := offset_add_le per r
      have hr := hp r
      dsimp only at h ⊢
      rw [readAt_ok phis (show itr < C by omega), bind_ok]
      obtain ⟨s', h1, h2⟩ := forRangeM_ok (n := per r - 1) (s := (setAt feat r (phis ⟨itr, by omega⟩), itr + 1))
        (body := fun _ s => do
          let (feat, itr) := s
          let row ← readAt phis itr
          return (setAt feat r fun m => o.add (feat r m) (row m), itr + 1))
        (fun j s => s.2 = offset per r + 1 + j) (by simp [h]) (by
          intro j s hj
          obtain ⟨feat, itr⟩ := s
          dsimp only at hj ⊢
          have := j.2
          rw [readAt_ok phis (show itr < C by omega), bind_ok]
          exact ⟨_, rfl, by dsimp only; omega⟩)
      exact ⟨s', h1, by rw [h2, offset_succ]; omega⟩)
  refine ⟨s.1, ?_⟩
  unfold polyCompToFeatF
  rw [bind_eq_ok]
  exact ⟨s, hs, rfl⟩

theorem polyF_gas (sizes : Vec C F) {per : Vec S ℕ} (hC : C = ∑ r, per r) (hp : ∀ r, 1 ≤ per r)
    {feat : Fin C → Fin S} (hf : IsFeat per feat) : FloatGas o (polyF o sizes per M) sizes feat where
  weights := by
    intro phis p omegas Js Q h i
    by_cases hJ : o.eq (o.sum Js) (o.ofNat 0)
    · have := polyPartitionF_error sizes hC phis omegas hJ h
      exact absurd i.2 (by omega)
    · have e := Except.ok.inj (h.symm.trans (polyPartitionF_eq sizes hC hf phis omegas hJ))
      cases e
      exact ⟨fun _ => rfl, pyDivF_returns hJ⟩
  returns phis omegas Js h := ⟨_, polyPartitionF_eq sizes hC hf phis omegas h⟩
  features phisFeat phis := polyF_features hC hp phisFeat phis

/-- The sum of the first numbers of a loop. -/
def loopSum (o : Floats F) (init : F) (g : Fin C → F) (k : ℕ) : F :=
  Nat.rec init (fun k a => if h : k < C then o.add a (g ⟨k, h⟩) else a) k

theorem loopSum_eq (init : F) (g : Fin C → F) :
    forRange C init (fun i a => o.add a (g i)) = loopSum o init g C :=
  forRange_inv (n := C) (s := init) (body := fun i a => o.add a (g i)) (P := fun k a => a = loopSum o init g k)
    rfl (fun i a ha => by
      rw [ha]
      show _ = if h : i.1 < C then o.add (loopSum o init g i.1) (g ⟨i.1, h⟩) else _
      rw [dif_pos i.2])

theorem loopSum_succ (init : F) (g : Fin C → F) (i : Fin C) :
    loopSum o init g (i.1 + 1) = o.add (loopSum o init g i.1) (g i) := by
  show (if h : i.1 < C then o.add (loopSum o init g i.1) (g ⟨i.1, h⟩) else _) = _
  rw [dif_pos i.2]

/-- Entries of the fractions after normalization. -/
theorem canonicalF_entries {e : CanonicalC C F} {phi0 phis : Mat C M F} {Qs : Vec C F}
    {masks incomp : Vec M F} (h : e.normalizeF o phi0 Qs masks = .ok (phis, incomp)) :
    (∀ i, ¬o.eq (Qs i) (o.ofNat 0) ∧ ∀ m, phis i m =
      o.mul (o.mul (o.div (e.phiMeans i) (Qs i)) (phi0 i m)) (masks m)) ∧
    ∀ m, incomp m = o.mul (forRange C (o.mul (o.neg (o.ofNat 1)) (o.ofNat 1))
      fun i a => o.add a (phis i m)) (masks m) := by
  set g : Mat C M F := fun i m => o.mul (o.mul (o.div (e.phiMeans i) (Qs i)) (phi0 i m)) (masks m) with hg
  unfold CanonicalC.normalizeF at h
  rw [bind_eq_ok] at h
  obtain ⟨s, hs, he⟩ := h
  have inv := forRangeM_inv (P := fun k (s : Mat C M F × Vec M F) =>
      (∀ i : Fin C, i.1 < k → ¬o.eq (Qs i) (o.ofNat 0) ∧ s.1 i = g i) ∧
      (∀ i : Fin C, k ≤ i.1 → s.1 i = phi0 i) ∧
      ∀ m, s.2 m = loopSum o (o.mul (o.neg (o.ofNat 1)) (o.ofNat 1)) (fun i => g i m) k)
    ⟨fun i hi => absurd hi (Nat.not_lt_zero _), fun _ _ => rfl, fun _ => rfl⟩ (by
      intro j s s' ⟨h1, h2, h3⟩ hb
      rw [bind_eq_ok] at hb
      obtain ⟨q, hq, hb⟩ := hb
      obtain ⟨hq0, rfl⟩ := pyDivF_eq_ok.mp hq
      cases hb
      have hj := h2 j le_rfl
      refine ⟨fun i hi => ?_, fun i hi => ?_, fun m => ?_⟩
      · by_cases hij : i = j
        · subst hij
          refine ⟨hq0, ?_⟩
          dsimp only
          rw [setAt_same, hj]
        · have : i.1 ≠ j.1 := fun hc => hij (Fin.ext hc)
          dsimp only
          rw [setAt_ne _ _ hij]
          exact h1 i (by omega)
      · have hij : i ≠ j := fun hc => by rw [hc] at hi; omega
        dsimp only
        rw [setAt_ne _ _ hij]
        exact h2 i (by omega)
      · dsimp only
        rw [setAt_same, hj, h3, loopSum_succ]) hs
  cases he
  have e1 : ∀ i m, s.1 i m = g i m := fun i m => congrFun (inv.1 i i.2).2 m
  refine ⟨fun i => ⟨(inv.1 i i.2).1, fun m => e1 i m⟩, fun m => ?_⟩
  simp only [e1]
  rw [loopSum_eq, inv.2.2]

theorem canonicalF_returns {e : CanonicalC C F} {Qs : Vec C F} (hQ : ∀ i, ¬o.eq (Qs i) (o.ofNat 0))
    (phi0 : Mat C M F) (masks : Vec M F) : ∃ x, e.normalizeF o phi0 Qs masks = .ok x := by
  unfold CanonicalC.normalizeF
  obtain ⟨x, hx, -⟩ := forRangeM_ok (n := C) (s := (phi0, fun _ : Fin M => o.mul (o.neg (o.ofNat 1)) (o.ofNat 1)))
    (body := fun i s => do
      let factor ← o.pyDiv (e.phiMeans i) (Qs i)
      let phis := setAt s.1 i fun m => o.mul (o.mul factor (s.1 i m)) (masks m)
      return (phis, fun m => o.add (s.2 m) (phis i m))) (P := fun _ _ => True) trivial (fun i s _ => by
    rw [pyDivF_returns (hQ i)]
    exact ⟨_, rfl, trivial⟩)
  rw [hx]
  exact ⟨_, rfl⟩

theorem grandF_entries {e : GrandC C F} {phi0 phis : Mat C M F} {Qs : Vec C F}
    {masks incomp : Vec M F} (h : e.normalizeF o phi0 Qs masks = .ok (phis, incomp)) :
    (∀ i m, phis i m = o.mul (o.mul (e.scaledActivity i) (phi0 i m)) (masks m)) ∧
    ∀ m, incomp m = o.mul (forRange C (o.mul (o.neg (o.ofNat 1)) (o.ofNat 1))
      fun i a => o.add a (phis i m)) (masks m) := by
  set g : Mat C M F := fun i m => o.mul (o.mul (e.scaledActivity i) (phi0 i m)) (masks m) with hg
  unfold GrandC.normalizeF at h
  cases h
  have inv := forRange_inv (n := C) (s := (phi0, fun _ => o.mul (o.neg (o.ofNat 1)) (o.ofNat 1)))
    (body := fun i s => (setAt s.1 i fun m => o.mul (o.mul (e.scaledActivity i) (s.1 i m)) (masks m),
      fun m => o.add (s.2 m) (setAt s.1 i (fun m => o.mul (o.mul (e.scaledActivity i) (s.1 i m))
        (masks m)) i m)))
    (P := fun k (s : Mat C M F × Vec M F) => (∀ i : Fin C, i.1 < k → s.1 i = g i) ∧
      (∀ i : Fin C, k ≤ i.1 → s.1 i = phi0 i) ∧
      ∀ m, s.2 m = loopSum o (o.mul (o.neg (o.ofNat 1)) (o.ofNat 1)) (fun i => g i m) k)
    ⟨fun i hi => absurd hi (Nat.not_lt_zero _), fun _ _ => rfl, fun _ => rfl⟩ (by
      intro j s ⟨h1, h2, h3⟩
      have hj := h2 j le_rfl
      refine ⟨fun i hi => ?_, fun i hi => ?_, fun m => ?_⟩
      · by_cases hij : i = j
        · subst hij
          dsimp only
          rw [setAt_same, hj]
        · have : i.1 ≠ j.1 := fun hc => hij (Fin.ext hc)
          dsimp only
          rw [setAt_ne _ _ hij]
          exact h1 i (by omega)
      · have hij : i ≠ j := fun hc => by rw [hc] at hi; omega
        dsimp only
        rw [setAt_ne _ _ hij]
        exact h2 i (by omega)
      · dsimp only
        rw [setAt_same, hj, h3, loopSum_succ])
  refine ⟨fun i m => congrFun (inv.1 i i.2) m, fun m => ?_⟩
  have e1 := fun i => congrFun (inv.1 i i.2) m
  simp only [e1]
  rw [loopSum_eq, inv.2.2]

end Flory
