import Verif.Lemmas.TranscriptStep

/-! # The transcribed copy revival is that of the model -/

set_option linter.unusedSectionVars false

namespace Flory

section While
variable {σ : Type} {body : σ → Py (σ × Bool)}

theorem whileRounds_mono {n : ℕ} {s : σ} {r : Py σ} (h : whileRounds body n s = some r) :
    whileRounds body (n + 1) s = some r := by
  induction n generalizing s with
  | zero => cases h
  | succ n ih =>
    unfold whileRounds at h ⊢
    split at h
    · exact h
    · exact h
    · exact ih h

theorem whileRounds_mono' {n k : ℕ} {s : σ} {r : Py σ} (h : whileRounds body n s = some r) :
    whileRounds body (n + k) s = some r := by
  induction k with
  | zero => exact h
  | succ k ih => exact whileRounds_mono ih

theorem whileRounds_unique {n m : ℕ} {s : σ} {r q : Py σ} (h : whileRounds body n s = some r)
    (h' : whileRounds body m s = some q) : r = q := by
  have h1 := whileRounds_mono' (k := m) h
  have h2 := whileRounds_mono' (k := n) h'
  rw [Nat.add_comm] at h2
  exact Option.some.inj (h1.symm.trans h2)

theorem whileTrue_of_rounds {n : ℕ} {s : σ} {r : Py σ} (h : whileRounds body n s = some r) :
    whileTrue s body = r := by
  have hex : ∃ n r, whileRounds body n s = some r := ⟨n, r, h⟩
  unfold whileTrue
  rw [dif_pos hex]
  exact whileRounds_unique hex.choose_spec.choose_spec h

/-- Unfolding one round of `while True`. -/
theorem whileTrue_eq (s : σ) : whileTrue s body =
    body s >>= fun r => if r.2 = true then .ok r.1 else whileTrue r.1 body := by
  cases hb : body s with
  | error e => exact whileTrue_of_rounds (n := 1) (by simp [whileRounds, hb])
  | ok r =>
    obtain ⟨t, b⟩ := r
    cases b with
    | true => exact whileTrue_of_rounds (n := 1) (by simp [whileRounds, hb])
    | false =>
      change _ = whileTrue t body
      by_cases hex : ∃ n r, whileRounds body n t = some r
      · obtain ⟨n, r, h⟩ := hex
        rw [whileTrue_of_rounds h]
        exact whileTrue_of_rounds (n := n + 1) (by simp [whileRounds, hb, h])
      · have hex' : ¬ ∃ n r, whileRounds body n s = some r := by
          rintro ⟨n, r, h⟩
          cases n with
          | zero => cases h
          | succ n =>
            simp only [whileRounds, hb] at h
            exact hex ⟨n, r, h⟩
        unfold whileTrue
        rw [dif_neg hex, dif_neg hex']

end While

variable {K G : Type} [Field K] [LinearOrder K] [IsStrictOrderedRing K] [FloorRing K]
  {S M : ℕ} [NeZero M]

/-- An entry of the index lists of the code: the filler is `-1`. -/
def entry (x : Option (Fin M)) : ℤ :=
  match x with
  | none => -1
  | some i => ((i : ℕ) : ℤ)

theorem entry_some (i : Fin M) : entry (some i) = ((i : ℕ) : ℤ) := rfl
theorem entry_none : entry (none : Option (Fin M)) = -1 := rfl

/-- The variables of the model's loop in the order of the transcription. -/
def CopyState.tuple (s : CopyState S M K G) :
    G × Mat S M K × Vec M K × Vec M ℤ × ℤ × ℤ :=
  (s.g, s.targets, s.Js, fun k => entry (s.living k), (s.livingCount : ℤ), (s.count : ℤ))

theorem setAt_entry (l : Vec M (Option (Fin M))) (k : Fin M) (x : Option (Fin M)) :
    setAt (fun j => entry (l j)) k (entry x) = fun j => entry (setAt l k x j) := by
  funext j
  unfold setAt
  split <;> rfl

theorem writeInt_entry (l : Vec M (Option (Fin M))) (k : ℕ) (x : Option (Fin M)) :
    writeInt (fun j => entry (l j)) (k : ℤ) (entry x) =
      (writeAt l k x).map fun l j => entry (l j) := by
  rw [writeInt_natCast]
  unfold writeAt
  split
  · exact congrArg _ (setAt_entry l _ x)
  · rfl

theorem readInt_entry (l : Vec M (Option (Fin M))) (k : ℕ) :
    readInt (fun j => entry (l j)) (k : ℤ) = (readAt l k).map entry := by
  rw [readInt_natCast]
  unfold readAt
  split <;> rfl

theorem readInt_fin {n : ℕ} {α : Type} (a : Fin n → α) (k : Fin n) :
    readInt a ((k : ℕ) : ℤ) = .ok (a k) := by
  rw [readInt_natCast, readAt_ok a k.2]

theorem writeInt_fin {n : ℕ} {α : Type} (a : Fin n → α) (k : Fin n) (x : α) :
    writeInt a ((k : ℕ) : ℤ) x = .ok (setAt a k x) := by
  rw [writeInt_natCast, writeAt_ok a x k.2]

theorem writeCol_fin {r c : ℕ} {α : Type} (a : Mat r c α) (k : Fin c) (x : Fin r → α) :
    writeCol a ((k : ℕ) : ℤ) x = .ok fun p q => if q = k then x p else a p q := by
  unfold writeCol
  rw [intIndex_natCast, dif_pos k.2]
  rfl

theorem integersInt_natCast (rng : Rng G K) (g : G) (n : ℕ) :
    integersInt rng g (n : ℤ) = (rng.integersPy g n).map fun r => ((r.1 : ℤ), r.2) := by
  unfold integersInt Rng.integersPy
  by_cases h : n = 0
  · subst h; rfl
  · rw [if_neg (by omega), if_neg h]; rfl

/-- The body of the transcribed `while True`. -/
def copyBody (rng : Rng G K) (threshold : K) (itr_dead : ℤ)
    (s : G × Mat S M K × Vec M K × Vec M ℤ × ℤ × ℤ) :
    Py ((G × Mat S M K × Vec M K × Vec M ℤ × ℤ × ℤ) × Bool) := do
  let d ← integersInt rng s.1 s.2.2.2.2.1
  let ref ← readInt s.2.2.2.1 d.1
  let x ← readInt s.2.2.1 ref
  if x > 2 * threshold then do
    let col ← readInt (fun i j => s.2.1 j i) ref
    let targets ← writeCol s.2.1 itr_dead (fun i => col i)
    let x ← readInt s.2.2.1 ref
    let Js ← writeInt s.2.2.1 itr_dead (1 / 2 * x)
    let Js ← writeInt Js ref (1 / 2 * x)
    let l ← writeInt s.2.2.2.1 s.2.2.2.2.1 itr_dead
    pure ((d.2, targets, Js, l, s.2.2.2.2.1 + 1, s.2.2.2.2.2 + 1), true)
  else do
    let y ← readInt s.2.2.2.1 (s.2.2.2.2.1 - 1)
    let l ← writeInt s.2.2.2.1 d.1 y
    let l ← writeInt l (s.2.2.2.2.1 - 1) (-1)
    pure ((d.2, s.2.1, s.2.2.1, l, s.2.2.2.2.1 - 1, s.2.2.2.2.2), false)

/-- Filled up to `n`. -/
def Filled (l : Vec M (Option (Fin M))) (n : ℕ) : Prop := ∀ k : Fin M, (k : ℕ) < n → l k ≠ none

theorem copyLoop_transcript {rng : Rng G K} (hok : rng.Ok) (thr : K) (dead : Fin M) (n : ℕ)
    (J : Vec M K) (T : Mat S M K) (l : Vec M (Option (Fin M))) (g : G) (count : ℕ)
    (hl : Filled l n) :
    whileTrue (g, T, J, (fun k => entry (l k)), (n : ℤ), (count : ℤ))
        (copyBody rng thr ((dead : ℕ) : ℤ)) =
      (copyLoop rng thr dead n J T l g count).map CopyState.tuple ∧
    ∀ s, copyLoop rng thr dead n J T l g count = .ok s → Filled s.living s.livingCount := by
  induction n generalizing l g with
  | zero =>
    refine ⟨?_, fun s h => ?_⟩
    · rw [whileTrue_eq]; rfl
    · unfold copyLoop at h; cases h
  | succ n ih =>
    have hlt : (rng.integers g (n + 1)).1 < n + 1 := hok.integers_lt g (n + 1) (by omega)
    rw [whileTrue_eq]
    generalize hk : (fun r : (G × Mat S M K × Vec M K × Vec M ℤ × ℤ × ℤ) × Bool =>
      if r.2 = true then Except.ok r.1 else whileTrue r.1 (copyBody rng thr ((dead : ℕ) : ℤ))) = k
    unfold copyLoop copyBody
    dsimp only
    rw [integersInt_natCast]
    unfold Rng.integersPy
    rw [if_neg (by omega)]
    simp only [Except.map, bind_ok]
    generalize rng.integers g (n + 1) = d at hlt
    obtain ⟨pos, g'⟩ := d
    dsimp only at hlt ⊢
    rw [readInt_entry]
    by_cases hM : pos < M
    · rw [readAt_ok l hM]
      cases href : l ⟨pos, hM⟩ with
      | none => exact absurd href (hl _ hlt)
      | some ref =>
        simp only [Except.map, bind_ok]
        rw [entry_some, readInt_fin]
        simp only [bind_ok]
        by_cases hx : J ref > 2 * thr
        · simp only [if_pos hx]
          rw [readInt_fin]
          simp only [bind_ok]
          rw [writeCol_fin]
          simp only [bind_ok]
          rw [writeInt_fin]
          simp only [bind_ok]
          rw [writeInt_fin]
          simp only [bind_ok]
          have hw := writeInt_entry l (n + 1) (some dead)
          rw [entry_some] at hw
          rw [hw]
          by_cases hn : n + 1 < M
          · rw [writeAt_ok _ _ hn]
            refine ⟨?_, ?_⟩
            · simp only [Except.map, bind_ok, pure_eq_ok]
              rw [← hk]
              simp only [CopyState.tuple, if_true]
              push_cast
              rfl
            · rintro s h
              simp only [bind_ok, pure_eq_ok] at h
              cases h
              intro k hk
              by_cases hkn : k = ⟨n + 1, hn⟩
              · subst hkn; simp
              · dsimp only at hk ⊢
                rw [setAt_ne _ _ hkn]
                refine hl k ?_
                have : (k : ℕ) ≠ n + 1 := fun h => hkn (Fin.ext h)
                omega
          · have he : writeAt l (n + 1) (some dead) = .error .outOfBounds := by
              unfold writeAt; rw [dif_neg hn]
            rw [he]
            refine ⟨rfl, ?_⟩
            rintro s h
            cases h
        · simp only [if_neg hx]
          have hc : (((n + 1 : ℕ) : ℤ) - 1) = (n : ℤ) := by push_cast; ring
          rw [hc, readInt_entry]
          by_cases hn : n < M
          · rw [readAt_ok l hn]
            simp only [Except.map, bind_ok]
            have hw := writeInt_entry l pos (l ⟨n, hn⟩)
            rw [hw, writeAt_ok _ _ hM]
            simp only [Except.map, bind_ok]
            have hw := writeInt_entry (setAt l ⟨pos, hM⟩ (l ⟨n, hn⟩)) n none
            rw [entry_none] at hw
            rw [hw, writeAt_ok _ _ hn]
            simp only [Except.map, bind_ok, pure_eq_ok]
            rw [← hk]
            refine ih (setAt (setAt l ⟨pos, hM⟩ (l ⟨n, hn⟩)) ⟨n, hn⟩ none) g' ?_
            intro k hk
            have hkn : k ≠ ⟨n, hn⟩ := fun h => by rw [h] at hk; exact lt_irrefl _ hk
            rw [setAt_ne _ _ hkn]
            by_cases hkp : k = ⟨pos, hM⟩
            · subst hkp
              rw [setAt_same]
              exact hl _ (Nat.lt_succ_self n)
            · rw [setAt_ne _ _ hkp]
              exact hl k (by omega)
          · have he : readAt l n = .error .outOfBounds := by
              unfold readAt; rw [dif_neg hn]
            rw [he]
            refine ⟨rfl, ?_⟩
            rintro s h
            cases h
    · have he : readAt l pos = .error .outOfBounds := by
        unfold readAt; rw [dif_neg hM]
      rw [he]
      refine ⟨rfl, ?_⟩
      rintro s h
      cases h

/-- The transcribed loop over the dead compartments. -/
theorem copyDead_transcript {rng : Rng G K} (hok : rng.Ok) (thr : K)
    (ds : List (Option (Fin M))) (hds : ∀ d ∈ ds, d ≠ none) (s : CopyState S M K G)
    (hs : Filled s.living s.livingCount) :
    forListM (ds.map entry) s.tuple (fun d s => whileTrue s (copyBody rng thr d)) =
      (copyDead rng thr ds s).map CopyState.tuple := by
  induction ds generalizing s with
  | nil => rfl
  | cons d ds ih =>
    cases d with
    | none => exact absurd rfl (hds none (by simp))
    | some d =>
      obtain ⟨h1, h2⟩ := copyLoop_transcript hok thr d s.livingCount s.Js s.targets s.living s.g
        s.count hs
      simp only [List.map_cons, forListM, copyDead, entry_some]
      unfold CopyState.tuple at h1 ⊢
      rw [h1]
      cases hc : copyLoop rng thr d s.livingCount s.Js s.targets s.living s.g s.count with
      | error e => rfl
      | ok t =>
        exact ih (fun d hd => hds d (by simp [hd])) t (h2 t hc)

/-- The four variables of the classification in the order of the transcription. -/
def sorted (s : Vec M (Option (Fin M)) × ℕ × Vec M (Option (Fin M)) × ℕ) :
    Vec M ℤ × ℤ × Vec M ℤ × ℤ :=
  ((fun k => entry (s.2.2.1 k)), (s.2.2.2 : ℤ), (fun k => entry (s.1 k)), (s.2.1 : ℤ))

theorem filled_write {l l' : Vec M (Option (Fin M))} {n : ℕ} {m : Fin M} (h : Filled l n)
    (hw : writeAt l n (some m) = .ok l') : Filled l' (n + 1) := by
  unfold writeAt at hw
  split at hw
  · rename_i hn
    cases hw
    intro k hk
    by_cases hkn : k = ⟨n, hn⟩
    · subst hkn; simp
    · rw [setAt_ne _ _ hkn]
      refine h k ?_
      have : (k : ℕ) ≠ n := fun h => hkn (Fin.ext h)
      omega
  · cases hw

theorem classify_filled {J : Vec M K} {thr : K}
    {s : Vec M (Option (Fin M)) × ℕ × Vec M (Option (Fin M)) × ℕ} (h : classify J thr = .ok s) :
    Filled s.1 s.2.1 ∧ Filled s.2.2.1 s.2.2.2 := by
  unfold classify at h
  refine forRangeM_inv (fun _ s => Filled s.1 s.2.1 ∧ Filled s.2.2.1 s.2.2.2) ?_ ?_ h
  · exact ⟨fun k hk => absurd hk (Nat.not_lt_zero _), fun k hk => absurd hk (Nat.not_lt_zero _)⟩
  · rintro m ⟨a, b, c, d⟩ t ⟨h1, h2⟩ ht
    dsimp only at ht h1 h2
    split at ht
    · obtain ⟨l, hl, ht⟩ := bind_eq_ok.1 ht
      cases ht
      exact ⟨h1, filled_write h2 hl⟩
    · split at ht
      · obtain ⟨l, hl, ht⟩ := bind_eq_ok.1 ht
        cases ht
        exact ⟨filled_write h1 hl, h2⟩
      · cases ht
        exact ⟨h1, h2⟩

theorem takeInt_entry (l : Vec M (Option (Fin M))) (n : ℕ) :
    takeInt (fun k => entry (l k)) (n : ℤ) = ((List.ofFn l).take n).map entry := by
  unfold takeInt
  rw [if_pos (by omega), Int.toNat_natCast, List.map_take, List.map_ofFn]
  rfl

theorem filled_take {l : Vec M (Option (Fin M))} {n : ℕ} (h : Filled l n) :
    ∀ d ∈ (List.ofFn l).take n, d ≠ none := by
  intro d hd
  obtain ⟨i, hi, rfl⟩ := List.mem_take_iff_getElem.1 hd
  rw [List.getElem_ofFn]
  exact h _ (by simp at hi ⊢; omega)

/-- **The transcribed copy revival is the model's.** -/
theorem copy_transcript {rng : Rng G K} (hok : rng.Ok) (J : Vec M K) (T : Mat S M K) (thr : K)
    (g : G) : Gen.revive_compartments_by_copy J T thr rng g =
      (reviveByCopy rng J T thr g).map fun s => ((s.count : ℤ), s.Js, s.targets, s.g) := by
  unfold Gen.revive_compartments_by_copy
  refine (Py.bind_congr (y := (classify J thr).map sorted)
    (g := fun s => forListM (takeInt s.2.2.1 s.2.2.2) (g, T, J, s.1, s.2.1, 0)
        (fun d s => whileTrue s (copyBody rng thr d)) >>= fun s =>
      pure (s.2.2.2.2.2, s.2.2.1, s.2.1, s.1)) ?_ ?_).trans ?_
  · unfold classify
    refine forRangeM_hom sorted (s := ((fun _ => none), 0, (fun _ => none), 0)) ?_
    rintro m ⟨a, b, c, d⟩
    dsimp only [sorted]
    by_cases h1 : J m > 2 * thr
    · simp only [if_pos h1]
      have hw := writeInt_entry c d (some m)
      rw [entry_some] at hw
      rw [hw]
      cases hw : writeAt c d (some m) with
      | error e => rfl
      | ok l => simp [Except.map, bind, Except.bind, pure, Except.pure, sorted]
    · simp only [if_neg h1]
      by_cases h2 : J m ≤ thr
      · simp only [if_pos h2]
        have hw := writeInt_entry a b (some m)
        rw [entry_some] at hw
        rw [hw]
        cases hw : writeAt a b (some m) with
        | error e => rfl
        | ok l => simp [Except.map, bind, Except.bind, pure, Except.pure, sorted]
      · simp only [if_neg h2]
        rfl
  · intro s
    refine Py.bind_congr ?_ fun _ => rfl
    congr 1
    funext d s
    cases hw : whileTrue s (copyBody rng thr d) with
    | error e => exact congrArg (· >>= _) hw
    | ok l => exact congrArg (· >>= _) hw
  · unfold reviveByCopy
    cases hc : classify J thr with
    | error e => rfl
    | ok s =>
      obtain ⟨dead, dc, living, lc⟩ := s
      obtain ⟨h1, h2⟩ := classify_filled hc
      have hd := copyDead_transcript hok thr ((List.ofFn dead).take dc) (filled_take h1)
        ⟨J, T, living, lc, g, 0⟩ h2
      simp only [Except.map, bind_ok, sorted]
      rw [takeInt_entry]
      unfold CopyState.tuple at hd
      dsimp only [Nat.cast_zero] at hd
      rw [Nat.cast_zero] at hd
      rw [hd]
      cases copyDead rng thr ((List.ofFn dead).take dc) ⟨J, T, living, lc, g, 0⟩ <;> rfl

end Flory
