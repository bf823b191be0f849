import Verif.Model.Transcript
import Verif.Lemmas.Loops
import Verif.Lemmas.Units
import Verif.Lemmas.Compartments
import Verif.Gen.LinearLocal
import Verif.Gen.LinearGlobal
import Verif.Gen.NoConstraint
import Verif.Gen.FloryHuggins
import Verif.Gen.IdealGas
import Verif.Gen.Polydispersed
import Verif.Gen.Canonical
import Verif.Gen.GrandCanonical
import Verif.Gen.FinderImpl

/-! # Lemmas about the transcribed code -/

set_option linter.unusedSectionVars false

namespace Flory

theorem Py.map_bind {α β γ : Type} (x : Py α) (f : α → Py β) (g : β → γ) :
    (x >>= f).map g = x >>= fun a => (f a).map g := by
  cases x <;> rfl

theorem Py.bind_map {α β γ : Type} (x : Py α) (f : α → β) (g : β → Py γ) :
    x.map f >>= g = x >>= fun a => g (f a) := by
  cases x <;> rfl

theorem Py.bind_congr {α β : Type} {x y : Py α} {f g : α → Py β} (h : x = y)
    (hf : ∀ a, f a = g a) : x >>= f = y >>= g := by
  subst h; cases x
  · rfl
  · exact hf _

theorem Py.ok_bind {α β : Type} (x : α) (f : α → Py β) : (Except.ok x : Py α) >>= f = f x := rfl

theorem Py.bind_eta2 {α β : Type} (x : Py (α × β)) : (x >>= fun s => pure (s.1, s.2)) = x := by
  cases x <;> rfl

theorem Py.bind_eta3 {α β γ : Type} (x : Py (α × β × γ)) :
    (x >>= fun s => pure (s.1, s.2.1, s.2.2)) = x := by
  cases x <;> rfl

/-- Two loops whose states are related by a function. -/
theorem forRangeM_hom {σ τ : Type} {n : ℕ} (φ : σ → τ) {s : σ} {f : Fin n → σ → Py σ}
    {f' : Fin n → τ → Py τ} (h : ∀ i s, f' i (φ s) = (f i s).map φ) :
    forRangeM n (φ s) f' = (forRangeM n s f).map φ := by
  induction n with
  | zero => rw [forRangeM_zero, forRangeM_zero]; rfl
  | succ n ih =>
    rw [forRangeM_succ, forRangeM_succ, Py.map_bind, ih fun i s => h _ s, Py.bind_map]
    exact Py.bind_congr rfl fun a => h _ a

theorem forRangeM_hom_bind {σ τ α : Type} {n : ℕ} (φ : σ → τ) {s : σ} {f : Fin n → σ → Py σ}
    {f' : Fin n → τ → Py τ} {k : σ → Py α} {k' : τ → Py α}
    (h : ∀ i s, f' i (φ s) = (f i s).map φ) (hk : ∀ s, k' (φ s) = k s) :
    forRangeM n (φ s) f' >>= k' = forRangeM n s f >>= k := by
  rw [forRangeM_hom φ h, Py.bind_map]
  exact Py.bind_congr rfl hk

/-- A loop whose body ignores the index, peeled from the front. -/
theorem forRangeM_const_succ {σ : Type} (n : ℕ) (s : σ) (b : σ → Py σ) :
    forRangeM (n + 1) s (fun _ => b) = b s >>= fun s => forRangeM n s fun _ => b := by
  simp [forRangeM, Fin.foldlM_succ]

variable {K G : Type} [Field K] [LinearOrder K] {A C S M : ℕ} [NeZero M]

omit [Field K] [LinearOrder K] [NeZero M] in
theorem forRangeM_congr {σ : Type} {n : ℕ} {s : σ} {f f' : Fin n → σ → Py σ}
    (h : ∀ i s, f i s = f' i s) : forRangeM n s f = forRangeM n s f' := by
  rw [show f = f' from funext fun i => funext fun s => h i s]

theorem setAt_setAt {n : ℕ} {α : Type} (a : Fin n → α) (i : Fin n) (x y : α) :
    setAt (setAt a i x) i y = setAt a i y := by
  funext j; by_cases h : j = i <;> simp [setAt, h]

theorem intIndex_natCast (n k : ℕ) :
    intIndex n (k : ℤ) = if h : k < n then .ok ⟨k, h⟩ else .error .outOfBounds := by
  unfold intIndex
  by_cases h : k < n
  · rw [dif_pos ⟨by omega, by omega⟩, dif_pos h]; rfl
  · rw [dif_neg (by omega), dif_neg (by omega), dif_neg h]

theorem readInt_natCast {n : ℕ} {α : Type} (a : Fin n → α) (k : ℕ) :
    readInt a (k : ℤ) = readAt a k := by
  unfold readInt readAt
  rw [intIndex_natCast]
  by_cases h : k < n <;> simp [h, bind, Except.bind, pure, Except.pure]

theorem writeInt_natCast {n : ℕ} {α : Type} (a : Fin n → α) (k : ℕ) (x : α) :
    writeInt a (k : ℤ) x = writeAt a k x := by
  unfold writeInt writeAt
  rw [intIndex_natCast]
  by_cases h : k < n <;> simp [h, bind, Except.bind, pure, Except.pure]

theorem canonical_transcript (e : CanonicalC C K) (p : Mat C M K) (Q : Vec C K) (m : Vec M K) :
    (Gen.CanonicalC.normalize e p Q m).map Prod.swap = e.normalize p Q m := by
  unfold Gen.CanonicalC.normalize CanonicalC.normalize
  rw [Py.map_bind]
  rfl

theorem ideal_partition_transcript (e : IdealC C) (p o : Mat C M ℝ) (J : Vec M ℝ) :
    (Gen.IdealC.partition e p o J).map Prod.swap = e.partition p o J := by
  unfold Gen.IdealC.partition IdealC.partition
  dsimp only
  rw [Py.map_bind]
  have h : ∀ x : Py (Mat C M ℝ × Vec C ℝ),
      (x >>= fun s => Except.map Prod.swap (pure (s.2, s.1))) = x := by
    intro x; cases x <;> rfl
  rw [h]
  refine forRangeM_congr fun i s => ?_
  simp only [setAt_same, setAt_setAt]

theorem poly_partition_transcript (e : PolyC C S) (p : Mat C M ℝ) (o : Mat S M ℝ) (J : Vec M ℝ) :
    (Gen.PolyC.partition e p o J).map Prod.swap = e.partition p o J := by
  unfold Gen.PolyC.partition PolyC.partition
  dsimp only
  rw [Py.map_bind]
  refine forRangeM_hom_bind (fun s : Mat C M ℝ × Vec C ℝ × ℕ => (s.1, s.2.1, (s.2.2 : ℤ)))
    (s := (p, (fun _ => 0), 0)) (fun r s => ?_) fun _ => rfl
  · dsimp only
    rw [Py.bind_eta3, Int.toNat_natCast]
    refine forRangeM_hom (fun s : Mat C M ℝ × Vec C ℝ × ℕ => (s.1, s.2.1, (s.2.2 : ℤ)))
      fun _ s => ?_
    obtain ⟨phis, Qs, k⟩ := s
    dsimp only
    simp only [readInt_natCast, writeInt_natCast]
    unfold readAt writeAt
    by_cases h : k < C
    · simp only [h, dif_pos, Py.ok_bind, setAt_same, setAt_setAt, Py.map_bind]
      exact Py.bind_congr rfl fun _ => rfl
    · simp only [h, dif_neg, not_false_eq_true]; rfl

theorem poly_compToFeat_transcript (e : PolyC C S) (f : Mat S M ℝ) (p : Mat C M ℝ) :
    Gen.PolyC.comp_to_feat e f p = e.compToFeat f p := by
  unfold Gen.PolyC.comp_to_feat PolyC.compToFeat
  dsimp only
  refine forRangeM_hom_bind (fun s : Mat S M ℝ × ℕ => (s.1, (s.2 : ℤ)))
    (s := (f, 0)) (fun r s => ?_) fun _ => rfl
  · obtain ⟨feat, k⟩ := s
    dsimp only
    simp only [readInt_natCast, Py.map_bind]
    refine Py.bind_congr rfl fun row => ?_
    rw [Py.bind_eta2, show (((e.perFeat r : ℕ) : ℤ) - 1).toNat = e.perFeat r - 1 by omega]
    refine forRangeM_hom (fun s : Mat S M ℝ × ℕ => (s.1, (s.2 : ℤ)))
      (s := (setAt feat r fun m => row m, k + 1)) fun _ s => ?_
    obtain ⟨feat, k⟩ := s
    dsimp only
    simp only [readInt_natCast, Py.map_bind]
    exact Py.bind_congr rfl fun _ => rfl
theorem forRange_prod {σ τ : Type} {n : ℕ} (a : σ) (b : τ) (f : Fin n → σ → σ) (g : Fin n → τ → τ) :
    forRange n (a, b) (fun i s => (f i s.1, g i s.2)) = (forRange n a f, forRange n b g) := by
  induction n with
  | zero => rfl
  | succ n ih => rw [forRange_succ, forRange_succ, forRange_succ, ih]

/-- The tuple in which the transcription returns the variables of the model. -/
def ReviveState.tuple (s : ReviveState S M K G) : ℤ × Vec M K × Mat S M K × G :=
  (s.count, s.Js, s.targets, s.g)

/-- The second loop of the transcribed `revive_compartments_by_random`. -/
def genReviveLoop (rng : Rng G K) (J : Vec M K) (o : Mat S M K) (centers widths : Vec S K) (t x : K)
    (g : G) : Vec M K × ℤ × G × Mat S M K :=
  forRange M (J, 0, g, o) fun m s =>
    if s.1 m ≤ t then
      let p := forRange S (s.2.2.1, s.2.2.2) fun r q =>
        ((rng.uniform q.1).2, setAt2 q.2 r m (centers r + widths r * x * (rng.uniform q.1).1))
      (setAt s.1 m 1, s.2.1 + 1, p.1, p.2)
    else s

theorem genReviveLoop_eq (rng : Rng G K) (J : Vec M K) (o : Mat S M K) (t x : K) (g : G) :
    genReviveLoop rng J o (fun r => (npMax (o r) + npMin (o r)) * (1 / 2))
      (fun r => (npMax (o r) - npMin (o r)) * (1 / 2)) t x g =
    (fun s : ReviveState S M K G => (s.Js, (s.count : ℤ), s.g, s.targets))
      (reviveByRandom rng J o t x g) := by
  unfold genReviveLoop reviveByRandom
  refine forRange_hom (fun s : ReviveState S M K G => (s.Js, (s.count : ℤ), s.g, s.targets))
    (s := ⟨J, o, g, 0⟩) fun m s => ?_
  by_cases h : s.Js m ≤ t
  · dsimp only
    rw [if_pos h, if_pos h]
    have hp := forRange_hom (n := S)
      (fun s : ReviveState S M K G => (s.Js, (s.count : ℤ), s.g, s.targets))
      (s := { s with Js := setAt s.Js m 1, count := s.count + 1 })
      (f := fun r s =>
        { s with
          targets := setAt2 s.targets r m ((npMax (o r) + npMin (o r)) * (1 / 2) +
            (npMax (o r) - npMin (o r)) * (1 / 2) * x * (rng.uniform s.g).1)
          g := (rng.uniform s.g).2 })
      (f' := fun r q => (q.1, q.2.1, (rng.uniform q.2.2.1).2,
        setAt2 q.2.2.2 r m ((npMax (o r) + npMin (o r)) * (1 / 2) +
            (npMax (o r) - npMin (o r)) * (1 / 2) * x * (rng.uniform q.2.2.1).1))) fun _ _ => rfl
    dsimp only at hp ⊢
    rw [← hp]
    have h2 := forRange_hom (n := S) (fun q : G × Mat S M K =>
        (setAt s.Js m 1, ((s.count + 1 : ℕ) : ℤ), q.1, q.2)) (s := (s.g, s.targets))
      (f := fun r q => ((rng.uniform q.1).2,
        setAt2 q.2 r m ((npMax (o r) + npMin (o r)) * (1 / 2) +
            (npMax (o r) - npMin (o r)) * (1 / 2) * x * (rng.uniform q.1).1)))
      (f' := fun r q => (q.1, q.2.1, (rng.uniform q.2.2.1).2,
        setAt2 q.2.2.2 r m ((npMax (o r) + npMin (o r)) * (1 / 2) +
            (npMax (o r) - npMin (o r)) * (1 / 2) * x * (rng.uniform q.2.2.1).1))) fun _ _ => rfl
    dsimp only at h2
    rw [h2]
    push_cast
    rfl
  · dsimp only
    rw [if_neg h, if_neg h]

theorem revive_transcript [FloorRing K] (rng : Rng G K) (J : Vec M K) (o : Mat S M K) (t x : K)
    (g : G) :
    Gen.revive_compartments_by_random J o t rng x g = (reviveByRandom rng J o t x g).tuple := by
  have h := genReviveLoop_eq rng J o t x g
  have h1 := forRange_prod (n := S) (fun _ => (0 : K)) (fun _ => (0 : K))
    (fun i c => setAt c i ((npMax (o i) + npMin (o i)) * (1 / 2)))
    (fun i c => setAt c i ((npMax (o i) - npMin (o i)) * (1 / 2)))
  rw [forRange_setAt _ fun i _ => (npMax (o i) + npMin (o i)) * (1 / 2),
    forRange_setAt _ fun i _ => (npMax (o i) - npMin (o i)) * (1 / 2)] at h1
  let ψ : Vec M K × ℤ × G × Mat S M K → ℤ × Vec M K × Mat S M K × G :=
    fun s => (s.2.1, s.1, s.2.2.2, s.2.2.1)
  have h2 : Gen.revive_compartments_by_random J o t rng x g =
      (fun p : Vec S K × Vec S K => ψ (genReviveLoop rng J o p.1 p.2 t x g))
        (forRange S ((fun _ => (0 : K)), fun _ => (0 : K)) fun i s =>
          (setAt s.1 i ((npMax (o i) + npMin (o i)) * (1 / 2)),
            setAt s.2 i ((npMax (o i) - npMin (o i)) * (1 / 2)))) := rfl
  rw [h2, h1]
  dsimp only
  rw [h]
  rfl

end Flory
