import Verif.Model.FinderImpl
import Verif.Lemmas.Loops
import Mathlib.Algebra.Order.Field.Basic
import Mathlib.Algebra.Order.BigOperators.Ring.Finset
import Mathlib.Data.Fintype.Card
import Mathlib.Tactic.FieldSimp
import Mathlib.Tactic.Positivity

/-! # Helper lemmas about masks and revival of compartments -/

set_option linter.unusedSectionVars false

namespace Flory

variable {K G : Type} [Field K] [LinearOrder K] [IsStrictOrderedRing K]

section Masks

variable {M : ℕ}

theorem makeMasks_eq (Js : Vec M K) (thr : K) (m : Fin M) :
    makeMasks Js thr m = if thr < Js m then 1 else 0 := by
  unfold makeMasks npClipMin npSign
  by_cases h : thr < Js m
  · simp [h, sub_pos.mpr h]
  · simp only [h, if_false, sub_pos]
    split <;> simp

theorem countValid_eq (Js : Vec M K) (thr : K) :
    countValid Js thr = (Finset.univ.filter fun m => thr < Js m).card := by
  rw [Finset.card_filter]; rfl

theorem sum_masks (Js : Vec M K) (thr : K) :
    ∑ m, makeMasks Js thr m = ((countValid Js thr : ℕ) : K) := by
  simp [countValid, makeMasks_eq]

end Masks

section Random

variable {R M : ℕ} [NeZero M]

theorem reviveInner {rng : Rng G K} (hok : rng.Ok) (centers widths : Vec R K) (scaler : K)
    (m : Fin M) (s : ReviveState R M K G) :
    let s' := forRange R s fun r s =>
        { s with
          targets := setAt2 s.targets r m (centers r + widths r * scaler * (rng.uniform s.g).1)
          g := (rng.uniform s.g).2 }
    s'.Js = s.Js ∧ s'.count = s.count ∧
    (∀ r, ∃ u, -1 ≤ u ∧ u ≤ 1 ∧ s'.targets r m = centers r + widths r * scaler * u) ∧
    (∀ r m', m' ≠ m → s'.targets r m' = s.targets r m') := by
  intro s'
  have := forRange_inv (n := R) (s := s) (body := fun r s =>
        { s with
          targets := setAt2 s.targets r m (centers r + widths r * scaler * (rng.uniform s.g).1)
          g := (rng.uniform s.g).2 })
    (fun k t => t.Js = s.Js ∧ t.count = s.count ∧
      (∀ r : Fin R, (r : ℕ) < k →
        ∃ u, -1 ≤ u ∧ u ≤ 1 ∧ t.targets r m = centers r + widths r * scaler * u) ∧
      (∀ r m', m' ≠ m → t.targets r m' = s.targets r m'))
    (by simp) (by
      rintro i t ⟨h1, h2, h3, h4⟩
      refine ⟨h1, h2, ?_, ?_⟩
      · intro r hr
        by_cases hri : r = i
        · subst hri
          exact ⟨_, (hok.uniform_mem t.g).1, (hok.uniform_mem t.g).2, by simp [setAt2]⟩
        · have : (r : ℕ) < i := by
            have : (r : ℕ) ≠ i := fun e => hri (Fin.ext e)
            omega
          obtain ⟨u, hu⟩ := h3 r this
          exact ⟨u, by simpa [setAt2, hri] using hu⟩
      · intro r m' hm
        simp [setAt2, hm, h4 r m' hm])
  obtain ⟨h1, h2, h3, h4⟩ := this
  exact ⟨h1, h2, fun r => h3 r r.2, h4⟩

theorem reviveByRandom_spec {rng : Rng G K} (hok : rng.Ok) (Js : Vec M K) (T : Mat R M K)
    (thr scaler : K) (g : G) :
    let s := reviveByRandom rng Js T thr scaler g
    s.count = (Finset.univ.filter fun m => Js m ≤ thr).card ∧
    (∀ m, Js m ≤ thr → s.Js m = 1 ∧ ∀ r, ∃ u, -1 ≤ u ∧ u ≤ 1 ∧ s.targets r m =
      (npMax (T r) + npMin (T r)) * (1 / 2) + (npMax (T r) - npMin (T r)) * (1 / 2) * scaler * u) ∧
    (∀ m, thr < Js m → s.Js m = Js m ∧ ∀ r, s.targets r m = T r m) := by
  intro s
  set centers : Vec R K := fun r => (npMax (T r) + npMin (T r)) * (1 / 2) with hc
  set widths : Vec R K := fun r => (npMax (T r) - npMin (T r)) * (1 / 2) with hw
  have := forRange_inv (n := M) (s := (⟨Js, T, g, 0⟩ : ReviveState R M K G))
    (body := fun m s =>
      if s.Js m ≤ thr then
        let s := { s with Js := setAt s.Js m 1, count := s.count + 1 }
        forRange R s fun r s =>
          let d := rng.uniform s.g
          { s with
            targets := setAt2 s.targets r m (centers r + widths r * scaler * d.1)
            g := d.2 }
      else s)
    (fun k t => t.count = (Finset.univ.filter fun m : Fin M => (m : ℕ) < k ∧ Js m ≤ thr).card ∧
      (∀ m : Fin M, (m : ℕ) < k → Js m ≤ thr → t.Js m = 1 ∧ ∀ r, ∃ u, -1 ≤ u ∧ u ≤ 1 ∧
        t.targets r m = centers r + widths r * scaler * u) ∧
      (∀ m : Fin M, ¬ ((m : ℕ) < k ∧ Js m ≤ thr) → t.Js m = Js m ∧ ∀ r, t.targets r m = T r m))
    (by simp) (by
      rintro i t ⟨h1, h2, h3⟩
      have hi := h3 i (by simp)
      by_cases hd : Js i ≤ thr
      · have hd' : t.Js i ≤ thr := hi.1 ▸ hd
        simp only [hd', if_true]
        obtain ⟨e1, e2, e3, e4⟩ := reviveInner hok centers widths scaler i
          ({ t with Js := setAt t.Js i 1, count := t.count + 1 })
        refine ⟨?_, ?_, ?_⟩
        · rw [e2]
          show t.count + 1 = _
          rw [h1]
          have : (Finset.univ.filter fun m : Fin M => (m : ℕ) < i + 1 ∧ Js m ≤ thr) =
              insert i (Finset.univ.filter fun m : Fin M => (m : ℕ) < i ∧ Js m ≤ thr) := by
            ext m
            simp only [Finset.mem_filter, Finset.mem_univ, true_and, Finset.mem_insert]
            constructor
            · rintro ⟨a, b⟩
              rcases Nat.lt_succ_iff_lt_or_eq.mp a with h | h
              · exact Or.inr ⟨h, b⟩
              · exact Or.inl (Fin.ext h)
            · rintro (rfl | ⟨a, b⟩)
              · exact ⟨Nat.lt_succ_self _, hd⟩
              · exact ⟨by omega, b⟩
          rw [this, Finset.card_insert_of_notMem (by simp)]
        · intro m hm hdm
          by_cases hmi : m = i
          · subst hmi
            refine ⟨by rw [e1]; simp, e3⟩
          · have hlt : (m : ℕ) < i := by
              have : (m : ℕ) ≠ i := fun e => hmi (Fin.ext e)
              omega
            obtain ⟨a, b⟩ := h2 m hlt hdm
            refine ⟨by rw [e1]; exact (setAt_ne _ _ hmi).trans a, fun r => ?_⟩
            rw [e4 r m hmi]; exact b r
        · intro m hm
          have hmi : m ≠ i := by
            rintro rfl; exact hm ⟨Nat.lt_succ_self _, hd⟩
          obtain ⟨a, b⟩ := h3 m (fun h => hm ⟨by omega, h.2⟩)
          refine ⟨by rw [e1]; exact (setAt_ne _ _ hmi).trans a, fun r => ?_⟩
          rw [e4 r m hmi]; exact b r
      · have hd' : ¬ t.Js i ≤ thr := hi.1 ▸ hd
        simp only [hd', if_false]
        have hiff : ∀ m : Fin M, ((m : ℕ) < i + 1 ∧ Js m ≤ thr) ↔ ((m : ℕ) < i ∧ Js m ≤ thr) := by
          intro m
          constructor
          · rintro ⟨a, b⟩
            refine ⟨?_, b⟩
            have : (m : ℕ) ≠ i := fun e => hd (Fin.ext e ▸ b)
            omega
          · rintro ⟨a, b⟩; exact ⟨by omega, b⟩
        refine ⟨by simp only [hiff]; exact h1, fun m hm hdm => h2 m ((hiff m).1 ⟨hm, hdm⟩).1 hdm,
          fun m hm => h3 m (fun h => hm ((hiff m).2 h))⟩)
  obtain ⟨h1, h2, h3⟩ := this
  refine ⟨?_, fun m hm => h2 m m.2 hm, fun m hm => h3 m (fun h => absurd h.2 (not_le.mpr hm))⟩
  refine h1.trans ?_
  congr 1
  ext m
  simp

end Random

section Copy

variable {R M : ℕ}

/-- The index list of `revive_compartments_by_copy`: its first `n` entries are distinct
elements of `A` and contain every element of `A` with more than twice the threshold. -/
structure ListOk (thr : K) (A : Finset (Fin M)) (Js : Vec M K) (living : Vec M (Option (Fin M)))
    (n : ℕ) : Prop where
  le : n ≤ M
  mem : ∀ i : Fin M, (i : ℕ) < n → ∃ m ∈ A, living i = some m
  inj : ∀ i j : Fin M, (i : ℕ) < n → (j : ℕ) < n → living i = living j → i = j
  complete : ∀ m ∈ A, 2 * thr < Js m → ∃ i : Fin M, (i : ℕ) < n ∧ living i = some m

theorem ListOk.le_card {thr : K} {A : Finset (Fin M)} {Js : Vec M K}
    {living : Vec M (Option (Fin M))} {n : ℕ} (h : ListOk thr A Js living n) : n ≤ A.card := by
  classical
  have : (Finset.univ : Finset (Fin n)).card ≤ (A.image some).card := by
    apply Finset.card_le_card_of_injOn (fun i : Fin n => living ⟨i, i.2.trans_le h.le⟩)
    · intro i _
      obtain ⟨m, hm, e⟩ := h.mem ⟨i, i.2.trans_le h.le⟩ i.2
      simp only [e, Finset.coe_image, Set.mem_image, Finset.mem_coe]
      exact ⟨m, hm, rfl⟩
    · intro i _ j _ e
      have := h.inj ⟨i, i.2.trans_le h.le⟩ ⟨j, j.2.trans_le h.le⟩ i.2 j.2 e
      exact Fin.ext (by simpa using congrArg Fin.val this)
  rw [Finset.card_image_of_injective _ (Option.some_injective _)] at this
  simpa using this

/-- One run of the `while True` loop. -/
theorem copyLoop_spec {rng : Rng G K} (hok : rng.Ok) {thr : K} {dead : Fin M}
    {A : Finset (Fin M)} (hd : dead ∉ A) (n : ℕ) (Js : Vec M K) (T : Mat R M K)
    (living : Vec M (Option (Fin M))) (g : G) (count : ℕ) (hl : ListOk thr A Js living n) :
    (copyLoop rng thr dead n Js T living g count = .error .valueError ∧
        ∀ m ∈ A, Js m ≤ 2 * thr) ∨
    ∃ s ref, copyLoop rng thr dead n Js T living g count = .ok s ∧ ref ∈ A ∧ 2 * thr < Js ref ∧
      s.Js = setAt (setAt Js dead (1 / 2 * Js ref)) ref (1 / 2 * Js ref) ∧
      s.targets = (fun r m => if m = dead then T r ref else T r m) ∧
      s.count = count + 1 ∧ ListOk thr (insert dead A) s.Js s.living s.livingCount := by
  induction n generalizing living g with
  | zero =>
    refine Or.inl ⟨by simp [copyLoop, Rng.integersPy], fun m hm => ?_⟩
    by_contra hc
    obtain ⟨i, hi, _⟩ := hl.complete m hm (not_le.mp hc)
    exact absurd hi (Nat.not_lt_zero _)
  | succ c ih =>
    have hcM : c < M := by have := hl.le; omega
    have hpos : (rng.integers g (c + 1)).1 < c + 1 := hok.integers_lt g (c + 1) (Nat.succ_pos c)
    obtain ⟨pos, hposE⟩ : ∃ pos, pos = (rng.integers g (c + 1)).1 := ⟨_, rfl⟩
    rw [← hposE] at hpos
    have hposM : pos < M := by omega
    obtain ⟨ref, hrefA, href⟩ := hl.mem ⟨pos, hposM⟩ hpos
    have hunf : copyLoop rng thr dead (c + 1) Js T living g count =
        if Js ref > 2 * thr then
          (do
            let living ← writeAt living (c + 1) (some dead)
            return ⟨setAt (setAt Js dead (1 / 2 * Js ref)) ref (1 / 2 * Js ref),
              (fun r m => if m = dead then T r ref else T r m), living, c + 2,
              (rng.integers g (c + 1)).2, count + 1⟩)
        else
          (do
            let last ← readAt living c
            let living ← writeAt living pos last
            let living ← writeAt living c none
            copyLoop rng thr dead c Js T living (rng.integers g (c + 1)).2 count) := by
      have h0 : rng.integersPy g (c + 1) = .ok (rng.integers g (c + 1)) := by
        simp [Rng.integersPy]
      have h1 : readAt living (rng.integers g (c + 1)).1 = .ok (some ref) := by
        rw [← hposE, readAt_ok _ hposM, href]
      conv_lhs => unfold copyLoop
      simp only [h0, bind_ok, h1]
      rw [← hposE]
    rw [hunf]
    by_cases hbig : Js ref > 2 * thr
    · right
      have hlt : c + 1 < M := by
        have h1 := hl.le_card
        have h2 := Finset.card_lt_univ_of_notMem hd
        simp only [Fintype.card_fin] at h2
        omega
      rw [if_pos hbig, writeAt_ok _ _ hlt]
      refine ⟨_, ref, rfl, hrefA, hbig, rfl, rfl, rfl, ?_⟩
      have hrd : ref ≠ dead := fun e => hd (e ▸ hrefA)
      have hne : ∀ i : Fin M, (i : ℕ) < c + 1 → i ≠ ⟨c + 1, hlt⟩ := by
        intro i hi e; rw [e] at hi; simp at hi
      refine ⟨by show c + 2 ≤ M; omega, ?_, ?_, ?_⟩
      · intro i hi
        rcases Nat.lt_succ_iff_lt_or_eq.mp (show (i : ℕ) < c + 1 + 1 from hi) with h | h
        · obtain ⟨m, hm, e⟩ := hl.mem i h
          exact ⟨m, Finset.mem_insert_of_mem hm, by simp only [setAt_ne _ _ (hne i h)]; exact e⟩
        · refine ⟨dead, Finset.mem_insert_self _ _, ?_⟩
          have : i = ⟨c + 1, hlt⟩ := Fin.ext h
          simp [this]
      · have hnd : ∀ i : Fin M, (i : ℕ) < c + 1 → living i ≠ some dead := by
          intro i hi e
          obtain ⟨m, hm, e'⟩ := hl.mem i hi
          rw [e] at e'
          exact hd (by rw [Option.some.inj e']; exact hm)
        intro i j hi hj e
        simp only at e
        rcases Nat.lt_succ_iff_lt_or_eq.mp (show (i : ℕ) < c + 1 + 1 from hi) with h | h <;>
        rcases Nat.lt_succ_iff_lt_or_eq.mp (show (j : ℕ) < c + 1 + 1 from hj) with h' | h'
        · rw [setAt_ne _ _ (hne i h), setAt_ne _ _ (hne j h')] at e
          exact hl.inj i j h h' e
        · have : j = ⟨c + 1, hlt⟩ := Fin.ext h'
          rw [setAt_ne _ _ (hne i h), this, setAt_same] at e
          exact absurd e (hnd i h)
        · have : i = ⟨c + 1, hlt⟩ := Fin.ext h
          rw [setAt_ne _ _ (hne j h'), this, setAt_same] at e
          exact absurd e.symm (hnd j h')
        · exact Fin.ext (h.trans h'.symm)
      · intro m hm hbm
        by_cases hmd : m = dead
        · subst hmd
          exact ⟨⟨c + 1, hlt⟩, by show c + 1 < c + 2; omega, by simp⟩
        · have hmA : m ∈ A := Finset.mem_of_mem_insert_of_ne hm hmd
          have hJ : 2 * thr < Js m := by
            by_cases hmr : m = ref
            · rw [hmr]; exact hbig
            · simpa [setAt_ne _ _ hmr, setAt_ne _ _ hmd] using hbm
          obtain ⟨i, hi, e⟩ := hl.complete m hmA hJ
          exact ⟨i, by show (i : ℕ) < c + 2; omega, by simp only [setAt_ne _ _ (hne i hi)]; exact e⟩
    · rw [if_neg hbig, readAt_ok _ hcM, bind_ok, writeAt_ok _ _ hposM, bind_ok, writeAt_ok _ _ hcM,
        bind_ok]
      apply ih
      set living' := setAt (setAt living ⟨pos, hposM⟩ (living ⟨c, hcM⟩)) ⟨c, hcM⟩ none with hL
      have hval : ∀ i : Fin M, (i : ℕ) < c → living' i =
          if i = ⟨pos, hposM⟩ then living ⟨c, hcM⟩ else living i := by
        intro i hi
        have : i ≠ ⟨c, hcM⟩ := by intro e; rw [e] at hi; simp at hi
        simp [hL, setAt, this]
      refine ⟨by omega, ?_, ?_, ?_⟩
      · intro i hi
        rw [hval i hi]
        split
        · exact hl.mem ⟨c, hcM⟩ (Nat.lt_succ_self c)
        · exact hl.mem i (by omega)
      · intro i j hi hj e
        rw [hval i hi, hval j hj] at e
        split at e <;> split at e
        · simp_all
        · have := hl.inj ⟨c, hcM⟩ j (Nat.lt_succ_self c) (by omega) e
          rw [← this] at hj; simp at hj
        · have := hl.inj i ⟨c, hcM⟩ (by omega) (Nat.lt_succ_self c) e
          rw [this] at hi; simp at hi
        · exact hl.inj i j (by omega) (by omega) e
      · intro m hm hbm
        obtain ⟨i, hi, e⟩ := hl.complete m hm hbm
        have hmr : m ≠ ref := by rintro rfl; exact hbig hbm
        have hip : i ≠ ⟨pos, hposM⟩ := by
          rintro rfl; rw [href] at e; exact hmr (Option.some.inj e).symm
        rcases Nat.lt_succ_iff_lt_or_eq.mp hi with h | h
        · exact ⟨i, h, by rw [hval i h, if_neg hip]; exact e⟩
        · have hic : i = ⟨c, hcM⟩ := Fin.ext h
          have hpc : pos < c := by
            have : pos ≠ c := by
              rintro rfl; exact hip hic
            omega
          exact ⟨⟨pos, hposM⟩, hpc, by rw [hval _ hpc, if_pos rfl, ← hic]; exact e⟩

/-- Invariant of the loop over dead compartments: `A` are the compartments that were living
or have been revived. -/
structure CopyInv (thr : K) (Js0 : Vec M K) (T0 : Mat R M K) (A : Finset (Fin M))
    (s : CopyState R M K G) : Prop where
  alive_sub : ∀ m, thr < Js0 m → m ∈ A
  list : ListOk thr A s.Js s.living s.livingCount
  above : ∀ m ∈ A, thr < s.Js m
  src : ∀ m ∈ A, ∃ k, thr < Js0 k ∧ ∀ r, s.targets r m = T0 r k
  keep : ∀ m, thr < Js0 m → ∀ r, s.targets r m = T0 r m
  shrink : ∀ m, thr < Js0 m → s.Js m ≤ Js0 m
  rest : ∀ m, m ∉ A → s.Js m = Js0 m ∧ ∀ r, s.targets r m = T0 r m
  conserve : ∀ w : (Fin R → K) → K,
    ∑ m ∈ A, s.Js m * w (fun r => s.targets r m) =
      ∑ m ∈ Finset.univ.filter (fun m => thr < Js0 m), Js0 m * w (fun r => T0 r m)
  count : s.count + (Finset.univ.filter fun m => thr < Js0 m).card = A.card

theorem copyInv_step {thr : K} (hthr : 0 ≤ thr) {Js0 : Vec M K} {T0 : Mat R M K}
    {A : Finset (Fin M)} {s s' : CopyState R M K G} {dead ref : Fin M} (hd : dead ∉ A)
    (hi : CopyInv thr Js0 T0 A s) (hrA : ref ∈ A) (hrb : 2 * thr < s.Js ref)
    (hJ : s'.Js = setAt (setAt s.Js dead (1 / 2 * s.Js ref)) ref (1 / 2 * s.Js ref))
    (hT : s'.targets = (fun r m => if m = dead then s.targets r ref else s.targets r m))
    (hc : s'.count = s.count + 1)
    (hl : ListOk thr (insert dead A) s'.Js s'.living s'.livingCount) :
    CopyInv thr Js0 T0 (insert dead A) s' := by
  have hrd : ref ≠ dead := fun e => hd (e ▸ hrA)
  have hhalf : thr < 1 / 2 * s.Js ref := by linarith
  have hhalf' : 1 / 2 * s.Js ref ≤ s.Js ref := by linarith
  have hnotlive : ∀ m, thr < Js0 m → m ≠ dead := fun m hm e => hd (e ▸ hi.alive_sub m hm)
  have hJd : s'.Js dead = 1 / 2 * s.Js ref := by
    rw [hJ, setAt_ne _ _ hrd.symm, setAt_same]
  have hJr : s'.Js ref = 1 / 2 * s.Js ref := by rw [hJ, setAt_same]
  have hJo : ∀ m, m ≠ dead → m ≠ ref → s'.Js m = s.Js m := fun m h1 h2 => by
    rw [hJ, setAt_ne _ _ h2, setAt_ne _ _ h1]
  have hTd : ∀ r, s'.targets r dead = s.targets r ref := fun r => by rw [hT]; simp
  have hTo : ∀ m, m ≠ dead → ∀ r, s'.targets r m = s.targets r m := fun m h r => by
    rw [hT]; simp [h]
  constructor
  · exact fun m hm => Finset.mem_insert_of_mem (hi.alive_sub m hm)
  · exact hl
  · intro m hm
    by_cases h1 : m = dead
    · rw [h1, hJd]; exact hhalf
    · by_cases h2 : m = ref
      · rw [h2, hJr]; exact hhalf
      · rw [hJo m h1 h2]; exact hi.above m (Finset.mem_of_mem_insert_of_ne hm h1)
  · intro m hm
    by_cases h1 : m = dead
    · obtain ⟨k, hk, e⟩ := hi.src ref hrA
      exact ⟨k, hk, fun r => by rw [h1, hTd]; exact e r⟩
    · obtain ⟨k, hk, e⟩ := hi.src m (Finset.mem_of_mem_insert_of_ne hm h1)
      exact ⟨k, hk, fun r => by rw [hTo m h1]; exact e r⟩
  · intro m hm r
    rw [hTo m (hnotlive m hm)]; exact hi.keep m hm r
  · intro m hm
    by_cases h2 : m = ref
    · rw [h2, hJr]; exact hhalf'.trans (hi.shrink ref (h2 ▸ hm))
    · rw [hJo m (hnotlive m hm) h2]; exact hi.shrink m hm
  · intro m hm
    have h1 : m ≠ dead := fun e => hm (e ▸ Finset.mem_insert_self _ _)
    have hmA : m ∉ A := fun h => hm (Finset.mem_insert_of_mem h)
    have h2 : m ≠ ref := fun e => hmA (e ▸ hrA)
    refine ⟨by rw [hJo m h1 h2]; exact (hi.rest m hmA).1, fun r => ?_⟩
    rw [hTo m h1]; exact (hi.rest m hmA).2 r
  · intro w
    rw [← hi.conserve w, Finset.sum_insert hd, hJd]
    have e1 : (fun r => s'.targets r dead) = fun r => s.targets r ref := funext hTd
    rw [e1, ← Finset.add_sum_erase _ _ hrA, ← Finset.add_sum_erase A _ hrA, hJr]
    have e2 : (fun r => s'.targets r ref) = fun r => s.targets r ref := funext (hTo ref hrd)
    rw [e2]
    have e3 : ∑ x ∈ A.erase ref, s'.Js x * w (fun r => s'.targets r x) =
        ∑ x ∈ A.erase ref, s.Js x * w (fun r => s.targets r x) := by
      apply Finset.sum_congr rfl
      intro x hx
      have hxA := Finset.mem_of_mem_erase hx
      have hxd : x ≠ dead := fun e => hd (e ▸ hxA)
      rw [hJo x hxd (Finset.ne_of_mem_erase hx)]
      rw [show (fun r => s'.targets r x) = fun r => s.targets r x from funext (hTo x hxd)]
    rw [e3]
    ring
  · rw [hc, Finset.card_insert_of_notMem hd, ← hi.count]
    ring

/-- The loop over all dead compartments, for any list of distinct dead compartments. -/
theorem copyDead_spec {rng : Rng G K} (hok : rng.Ok) {thr : K} (hthr : 0 ≤ thr) {Js0 : Vec M K}
    {T0 : Mat R M K} (ds : List (Fin M)) (A : Finset (Fin M)) (s : CopyState R M K G)
    (hnd : ds.Nodup) (hdA : ∀ d ∈ ds, d ∉ A) (hi : CopyInv thr Js0 T0 A s) :
    (copyDead rng thr (ds.map some) s = .error .valueError ∧
      ∃ B s', CopyInv (G := G) thr Js0 T0 B s' ∧ (∀ m ∈ B, s'.Js m ≤ 2 * thr) ∧
        ∃ d ∈ ds, d ∉ B) ∨
    ∃ s', copyDead rng thr (ds.map some) s = .ok s' ∧
      CopyInv thr Js0 T0 (A ∪ ds.toFinset) s' := by
  induction ds generalizing A s with
  | nil => exact Or.inr ⟨s, rfl, by simpa using hi⟩
  | cons d ds ih =>
    have hd : d ∉ A := hdA d (by simp)
    rcases copyLoop_spec hok hd s.livingCount s.Js s.targets s.living s.g s.count hi.list with
      ⟨h1, h2⟩ | ⟨s1, ref, h1, hr, hb, hJ, hT, hc, hl⟩
    · refine Or.inl ⟨?_, A, s, hi, h2, d, by simp, hd⟩
      simp [copyDead, h1]
    · have hi1 := copyInv_step hthr hd hi hr hb hJ hT hc hl
      have hunf : copyDead rng thr ((d :: ds).map some) s = copyDead rng thr (ds.map some) s1 := by
        simp only [List.map_cons, copyDead, h1, bind_ok]
      rw [hunf]
      have hnd' := List.nodup_cons.mp hnd
      rcases ih (insert d A) s1 hnd'.2 (by
        intro x hx hxA
        rcases Finset.mem_insert.mp hxA with e | e
        · exact hnd'.1 (e ▸ hx)
        · exact hdA x (by simp [hx]) e) hi1 with ⟨a, B, s', b, c, d', e, f⟩ | ⟨s', a, b⟩
      · exact Or.inl ⟨a, B, s', b, c, d', by simp [e], f⟩
      · refine Or.inr ⟨s', a, ?_⟩
        have : A ∪ (d :: ds).toFinset = insert d A ∪ ds.toFinset := by
          ext x; simp only [List.toFinset_cons, Finset.mem_union, Finset.mem_insert]; tauto
        rw [this]; exact b

/-- Result of the classification loop. -/
theorem classify_spec (Js : Vec M K) {thr : K} (hthr : 0 ≤ thr) :
    ∃ dead living nl, ∃ ds : List (Fin M),
      classify Js thr = .ok (dead, ds.length, living, nl) ∧
      (List.ofFn dead).take ds.length = ds.map some ∧ ds.Nodup ∧
      (∀ m, m ∈ ds ↔ Js m ≤ thr) ∧
      ListOk thr (Finset.univ.filter fun m => thr < Js m) Js living nl := by
  have hgap : ∀ x : K, x > 2 * thr → ¬ x ≤ thr := fun x h h' => by linarith
  obtain ⟨⟨dead, nd, living, nl⟩, hrun, hinv⟩ := forRangeM_ok (n := M)
    (s := ((fun _ => none), 0, (fun _ => none), 0))
    (body := fun m (s : Vec M (Option (Fin M)) × ℕ × Vec M (Option (Fin M)) × ℕ) => do
      let (dead, deadCount, living, livingCount) := s
      if Js m > 2 * thr then
        let living ← writeAt living livingCount (some m)
        return (dead, deadCount, living, livingCount + 1)
      else if Js m ≤ thr then
        let dead ← writeAt dead deadCount (some m)
        return (dead, deadCount + 1, living, livingCount)
      else
        return s)
    (fun k s => ∃ ds : List (Fin M), s.2.1 = ds.length ∧ ds.length ≤ k ∧ ds.Nodup ∧
      (∀ i : Fin M, ∀ h : (i : ℕ) < ds.length, s.1 i = some ds[i]) ∧
      (∀ m, m ∈ ds ↔ (m : ℕ) < k ∧ Js m ≤ thr) ∧ s.2.2.2 ≤ k ∧
      (∀ i : Fin M, (i : ℕ) < s.2.2.2 → ∃ m : Fin M, (m : ℕ) < k ∧ 2 * thr < Js m ∧
        s.2.2.1 i = some m) ∧
      (∀ i j : Fin M, (i : ℕ) < s.2.2.2 → (j : ℕ) < s.2.2.2 → s.2.2.1 i = s.2.2.1 j → i = j) ∧
      (∀ m : Fin M, (m : ℕ) < k → 2 * thr < Js m → ∃ i : Fin M, (i : ℕ) < s.2.2.2 ∧
        s.2.2.1 i = some m))
    ⟨[], by simp⟩ (by
      rintro i ⟨dead, nd, living, nl⟩ ⟨ds, h1, h2, h3, h4, h5, h6, h7, h8, h9⟩
      simp only at h1 h4 h6 h7 h8 h9
      by_cases hb : Js i > 2 * thr
      · have hnlM : nl < M := by omega
        refine ⟨(dead, nd, setAt living ⟨nl, hnlM⟩ (some i), nl + 1), ?_, ds, h1, by omega, h3, h4,
          ?_, by simp only; omega, ?_, ?_, ?_⟩
        · simp [hb, writeAt_ok _ _ hnlM]
        · intro m
          rw [h5]
          refine ⟨fun h => ⟨by omega, h.2⟩, fun h => ⟨?_, h.2⟩⟩
          have : m ≠ i := by rintro rfl; exact hgap _ hb h.2
          have : (m : ℕ) ≠ i := fun e => this (Fin.ext e)
          omega
        · intro j hj
          simp only at hj ⊢
          by_cases hjn : j = ⟨nl, hnlM⟩
          · exact ⟨i, by omega, hb, by simp [hjn]⟩
          · have : (j : ℕ) ≠ nl := fun e => hjn (Fin.ext e)
            obtain ⟨m, a, b, c⟩ := h7 j (by omega)
            exact ⟨m, by omega, b, by rw [setAt_ne _ _ hjn]; exact c⟩
        · have hni : ∀ j : Fin M, (j : ℕ) < nl → living j ≠ some i := by
            intro j hj e
            obtain ⟨m, a, b, c⟩ := h7 j hj
            rw [e] at c
            have := Option.some.inj c
            rw [this] at a
            exact lt_irrefl _ a
          intro j k hj hk e
          simp only at hj hk e
          by_cases hjn : j = ⟨nl, hnlM⟩ <;> by_cases hkn : k = ⟨nl, hnlM⟩
          · rw [hjn, hkn]
          · have : (k : ℕ) ≠ nl := fun e => hkn (Fin.ext e)
            rw [hjn, setAt_same, setAt_ne _ _ hkn] at e
            exact absurd e.symm (hni k (by omega))
          · have : (j : ℕ) ≠ nl := fun e => hjn (Fin.ext e)
            rw [hkn, setAt_same, setAt_ne _ _ hjn] at e
            exact absurd e (hni j (by omega))
          · have a : (k : ℕ) ≠ nl := fun e => hkn (Fin.ext e)
            have b : (j : ℕ) ≠ nl := fun e => hjn (Fin.ext e)
            rw [setAt_ne _ _ hjn, setAt_ne _ _ hkn] at e
            exact h8 j k (by omega) (by omega) e
        · intro m hm hbm
          simp only
          by_cases hmi : m = i
          · exact ⟨⟨nl, hnlM⟩, by simp, by simp [hmi]⟩
          · have : (m : ℕ) ≠ i := fun e => hmi (Fin.ext e)
            obtain ⟨j, a, b⟩ := h9 m (by omega) hbm
            have : j ≠ ⟨nl, hnlM⟩ := by intro e; rw [e] at a; simp at a
            exact ⟨j, by omega, by rw [setAt_ne _ _ this]; exact b⟩
      · have h9' : ∀ m : Fin M, (m : ℕ) < i + 1 → 2 * thr < Js m → ∃ j : Fin M, (j : ℕ) < nl ∧
            living j = some m := by
          intro m hm hbm
          have : m ≠ i := by rintro rfl; exact hb hbm
          have : (m : ℕ) ≠ i := fun e => this (Fin.ext e)
          exact h9 m (by omega) hbm
        have h7' : ∀ j : Fin M, (j : ℕ) < nl → ∃ m : Fin M, (m : ℕ) < i + 1 ∧ 2 * thr < Js m ∧
            living j = some m := fun j hj => by
          obtain ⟨m, a, b, c⟩ := h7 j hj
          exact ⟨m, by omega, b, c⟩
        by_cases hdead : Js i ≤ thr
        · have hndM : nd < M := by omega
          have hids : i ∉ ds := fun h => absurd ((h5 i).1 h).1 (lt_irrefl _)
          refine ⟨(setAt dead ⟨nd, hndM⟩ (some i), nd + 1, living, nl), ?_, ds ++ [i], ?_, ?_, ?_,
            ?_, ?_, by simp only; omega, h7', h8, h9'⟩
          · simp [hb, hdead, writeAt_ok _ _ hndM]
          · simp [h1]
          · simp; omega
          · rw [List.nodup_append]
            exact ⟨h3, by simp, by
              intro a ha b hb' e
              simp only [List.mem_singleton] at hb'
              exact hids (hb' ▸ e ▸ ha)⟩
          · intro j hj
            simp only
            by_cases hjn : j = ⟨nd, hndM⟩
            · subst hjn
              rw [setAt_same]
              simp [h1]
            · have hne : (j : ℕ) ≠ nd := fun e => hjn (Fin.ext e)
              have hlt : (j : ℕ) < ds.length := by
                simp at hj; omega
              rw [setAt_ne _ _ hjn, h4 j hlt]
              simp [List.getElem_append_left hlt]
          · intro m
            simp only [List.mem_append, List.mem_singleton, h5]
            constructor
            · rintro (⟨a, b⟩ | rfl)
              · exact ⟨by omega, b⟩
              · exact ⟨by omega, hdead⟩
            · rintro ⟨a, b⟩
              by_cases hmi : m = i
              · exact Or.inr hmi
              · have : (m : ℕ) ≠ i := fun e => hmi (Fin.ext e)
                exact Or.inl ⟨by omega, b⟩
        · refine ⟨(dead, nd, living, nl), by simp [hb, hdead], ds, h1, by omega, h3, h4, ?_,
            by simp only; omega, h7', h8, h9'⟩
          intro m
          rw [h5]
          refine ⟨fun h => ⟨by omega, h.2⟩, fun h => ⟨?_, h.2⟩⟩
          have : m ≠ i := by rintro rfl; exact hdead h.2
          have : (m : ℕ) ≠ i := fun e => this (Fin.ext e)
          omega)
  obtain ⟨ds, h1, h2, h3, h4, h5, h6, h7, h8, h9⟩ := hinv
  simp only at h1 h4 h6 h7 h8 h9
  refine ⟨dead, living, nl, ds, ?_, ?_, h3, ?_, ?_⟩
  · rw [← h1]; exact hrun
  · apply List.ext_getElem
    · simp [h2]
    · intro k hk1 hk2
      simp only [List.getElem_take, List.getElem_ofFn, List.getElem_map]
      have : k < ds.length := by simpa using hk2
      exact h4 ⟨k, by omega⟩ this
  · intro m; rw [h5]; simp
  · refine ⟨h6, ?_, h8, ?_⟩
    · intro i hi
      obtain ⟨m, _, b, c⟩ := h7 i hi
      exact ⟨m, by simp; linarith, c⟩
    · intro m _ hb
      exact h9 m m.2 hb

theorem copyInv_init {thr : K} {Js : Vec M K} (T : Mat R M K) (g : G)
    {living : Vec M (Option (Fin M))} {nl : ℕ}
    (hl : ListOk thr (Finset.univ.filter fun m => thr < Js m) Js living nl) :
    CopyInv thr Js T (Finset.univ.filter fun m => thr < Js m)
      (⟨Js, T, living, nl, g, 0⟩ : CopyState R M K G) := by
  refine ⟨by simp, hl, by simp, ?_, by simp, by simp, by simp, by simp, by simp⟩
  intro m hm
  exact ⟨m, by simpa using hm, fun _ => rfl⟩

/-- Full specification of `revive_compartments_by_copy`. -/
theorem reviveByCopy_spec {rng : Rng G K} (hok : rng.Ok) (Js : Vec M K) (T : Mat R M K) {thr : K}
    (hthr : 0 ≤ thr) (g : G) :
    (reviveByCopy rng Js T thr g = .error .valueError ∧
      ∃ B s', CopyInv (G := G) thr Js T B s' ∧ (∀ m ∈ B, s'.Js m ≤ 2 * thr) ∧
        ∃ d, Js d ≤ thr ∧ d ∉ B) ∨
    ∃ s', reviveByCopy rng Js T thr g = .ok s' ∧ CopyInv thr Js T Finset.univ s' := by
  obtain ⟨dead, living, nl, ds, h1, h2, h3, h4, h5⟩ := classify_spec Js hthr
  have hunf : reviveByCopy rng Js T thr g =
      copyDead rng thr (ds.map some) ⟨Js, T, living, nl, g, 0⟩ := by
    simp [reviveByCopy, h1, h2]
  rw [hunf]
  rcases copyDead_spec hok hthr ds _ _ h3 (by
    intro d hd; simpa using (h4 d).1 hd) (copyInv_init (G := G) T g h5) with
    ⟨a, B, s', b, c, d, e, f⟩ | ⟨s', a, b⟩
  · exact Or.inl ⟨a, B, s', b, c, d, (h4 d).1 e, f⟩
  · refine Or.inr ⟨s', a, ?_⟩
    have : (Finset.univ.filter fun m => thr < Js m) ∪ ds.toFinset = Finset.univ := by
      ext m
      simp only [Finset.mem_union, Finset.mem_filter, Finset.mem_univ, true_and, List.mem_toFinset,
        h4, iff_true]
      exact lt_or_ge _ _
    rwa [this] at b

end Copy

end Flory
