import Verif.Model.FHObject
import Verif.Spec.Broadcast
import Verif.Props.FreeEnergy
import Verif.Props.Interaction
import Verif.Lemmas.FinderSet

/-! # Objects hold what was last accepted (C70) -/

set_option linter.unusedSectionVars false

namespace Flory

open Spec

section Broadcast

variable {K : Type}

theorem fill1_unique {n : ℕ} {a : NDArr K} {v w : Vec n K} (h : Fill1 n a v) (h' : Fill1 n a w) :
    v = w := by
  funext i
  rcases h with ⟨e, h⟩ | ⟨e, h⟩ | ⟨e, h⟩ <;> rcases h' with ⟨e', h'⟩ | ⟨e', h'⟩ | ⟨e', h'⟩ <;>
    rw [e] at e' <;> simp at e' <;> rw [h, h'] <;> (subst e'; congr 2; omega)

theorem broadcastTo_one {n : ℕ} (a : NDArr K) :
    (∃ b, a.broadcastTo [n] = .ok b ∧ Fill1 n a (b.toVec n)) ∨
      (a.broadcastTo [n] = .error .valueError ∧ Unfit1 n a) := by
  obtain ⟨s, g⟩ := a
  unfold NDArr.broadcastTo
  match s with
  | [] => left; exact ⟨_, if_pos ⟨by simp, by simp⟩, Or.inl ⟨rfl, fun i => rfl⟩⟩
  | [d] =>
    by_cases hd : d = n ∨ d = 1
    · left
      refine ⟨_, if_pos ⟨le_rfl, by simpa using hd⟩, ?_⟩
      by_cases h1 : d = 1
      · subst h1; exact Or.inr (Or.inl ⟨rfl, fun i => rfl⟩)
      · have hdn : d = n := hd.resolve_right h1
        subst hdn
        refine Or.inr (Or.inr ⟨rfl, fun i => ?_⟩)
        simp [NDArr.toVec, h1]
    · right
      refine ⟨if_neg fun h => hd (by simpa using h.2), fun v h => ?_⟩
      rcases h with ⟨e, -⟩ | ⟨e, -⟩ | ⟨e, -⟩ <;> simp at e <;> simp [e] at hd
  | d :: e :: s =>
    right
    refine ⟨if_neg fun h => by simpa using h.1, fun v h => ?_⟩
    rcases h with ⟨e, -⟩ | ⟨e, -⟩ | ⟨e, -⟩ <;> simp at e

theorem atleast1d_fill {n : ℕ} (a : NDArr K) (v : Vec n K) : Fill1 n a.atleast1d v ↔ Fill1 n a v := by
  obtain ⟨s, g⟩ := a
  cases s with
  | nil =>
    constructor
    · rintro (⟨e, h⟩ | ⟨e, h⟩ | ⟨e, h⟩)
      · exact absurd e (by simp [NDArr.atleast1d])
      · exact Or.inl ⟨rfl, h⟩
      · exact Or.inl ⟨rfl, h⟩
    · rintro (⟨e, h⟩ | ⟨e, h⟩ | ⟨e, h⟩)
      · exact Or.inr (Or.inl ⟨rfl, h⟩)
      · simp at e
      · simp at e
  | cons d s => rfl

/-- `np.broadcast_to(np.atleast_1d(a), (n,))`. -/
theorem broadcast_vec {n : ℕ} (a : NDArr K) :
    (∀ v, Fill1 n a v → ∃ b, a.atleast1d.broadcastTo [n] = .ok b ∧ b.toVec n = v) ∧
      (Unfit1 n a → a.atleast1d.broadcastTo [n] = .error .valueError) := by
  rcases broadcastTo_one (n := n) a.atleast1d with ⟨b, h1, h2⟩ | ⟨h1, h2⟩
  · rw [atleast1d_fill] at h2
    exact ⟨fun v hv => ⟨b, h1, fill1_unique h2 hv⟩, fun h => absurd h2 (h _)⟩
  · exact ⟨fun v hv => absurd ((atleast1d_fill a v).mpr hv) (h2 v), fun _ => h1⟩

theorem fill2_unique {r c : ℕ} {a : NDArr K} {v w : Mat r c K} (h : Fill2 r c a v)
    (h' : Fill2 r c a w) : v = w := by
  have get : ∀ x y x' y' : ℕ, x = x' → y = y' → a.get [x, y] = a.get [x', y'] := by
    rintro x y _ _ rfl rfl; rfl
  have len : ∀ {row : Vec c K}, Fill1 c a row → a.shape.length ≤ 1 := by
    rintro row (⟨e, -⟩ | ⟨e, -⟩ | ⟨e, -⟩) <;> simp [e]
  funext i j
  rcases h with ⟨row, f, h⟩ | ⟨e, h⟩ | ⟨e, h⟩ | ⟨e, h⟩ | ⟨e, h⟩ <;>
    rcases h' with ⟨row', f', h'⟩ | ⟨e', h'⟩ | ⟨e', h'⟩ | ⟨e', h'⟩ | ⟨e', h'⟩
  · rw [h, h', fill1_unique f f']
  all_goals
    first
    | (exfalso; have := len f; simp [e'] at this)
    | (exfalso; have := len f'; simp [e] at this)
    | (rw [e] at e'
       have e₁ := congrArg (fun s => s.headD 0) e'
       have e₂ := congrArg (fun s => s.tail.headD 0) e'
       simp only [List.headD_cons, List.tail_cons] at e₁ e₂
       have hi := i.2
       have hj := j.2
       exact (h i j).trans ((get _ _ _ _ (by omega) (by omega)).trans (h' i j).symm))

theorem broadcastTo_two {r c : ℕ} (a : NDArr K) :
    (∃ b, a.broadcastTo [r, c] = .ok b ∧ Fill2 r c a (b.toMat r c)) ∨
      (a.broadcastTo [r, c] = .error .valueError ∧ Unfit2 r c a) := by
  obtain ⟨s, g⟩ := a
  unfold NDArr.broadcastTo
  match s with
  | [] =>
    left
    exact ⟨_, if_pos ⟨by simp, by simp⟩,
      Or.inl ⟨fun _ => g [], Or.inl ⟨rfl, fun i => rfl⟩, fun i j => rfl⟩⟩
  | [d] =>
    by_cases hd : d = c ∨ d = 1
    · left
      refine ⟨_, if_pos ⟨by simp, by simpa using hd⟩, Or.inl ?_⟩
      by_cases h1 : d = 1
      · subst h1; exact ⟨fun _ => g [0], Or.inr (Or.inl ⟨rfl, fun i => rfl⟩), fun i j => rfl⟩
      · have hdn : d = c := hd.resolve_right h1
        subst hdn
        refine ⟨fun j => g [j], Or.inr (Or.inr ⟨rfl, fun i => rfl⟩), fun i j => ?_⟩
        simp [NDArr.toMat, h1]
    · right
      refine ⟨if_neg fun h => hd (by simpa using h.2), fun v h => ?_⟩
      rcases h with ⟨row, f, -⟩ | ⟨e, -⟩ | ⟨e, -⟩ | ⟨e, -⟩ | ⟨e, -⟩
      · rcases f with ⟨e, -⟩ | ⟨e, -⟩ | ⟨e, -⟩ <;> simp at e <;> simp [e] at hd
      all_goals simp at e
  | [d, e] =>
    by_cases hd : (d = r ∨ d = 1) ∧ (e = c ∨ e = 1)
    · left
      refine ⟨_, if_pos ⟨le_rfl, by simpa using hd⟩, Or.inr ?_⟩
      by_cases h1 : d = 1 <;> by_cases h2 : e = 1
      · subst h1 h2; exact Or.inl ⟨rfl, fun i j => rfl⟩
      · have := hd.2.resolve_right h2
        subst h1 this
        refine Or.inr (Or.inl ⟨rfl, fun i j => ?_⟩)
        simp [NDArr.toMat, h2]
      · have := hd.1.resolve_right h1
        subst h2 this
        refine Or.inr (Or.inr (Or.inl ⟨rfl, fun i j => ?_⟩))
        simp [NDArr.toMat, h1]
      · have k1 := hd.1.resolve_right h1
        have k2 := hd.2.resolve_right h2
        subst k1 k2
        refine Or.inr (Or.inr (Or.inr ⟨rfl, fun i j => ?_⟩))
        simp [NDArr.toMat, h1, h2]
    · right
      refine ⟨if_neg fun h => hd (by simpa using h.2), fun v h => ?_⟩
      rcases h with ⟨row, f, -⟩ | ⟨e, -⟩ | ⟨e, -⟩ | ⟨e, -⟩ | ⟨e, -⟩
      · rcases f with ⟨e, -⟩ | ⟨e, -⟩ | ⟨e, -⟩ <;> simp at e
      all_goals
        simp only [List.cons.injEq, and_true] at e
        exact hd ⟨by simp [e.1], by simp [e.2]⟩
  | d :: e :: x :: s =>
    right
    refine ⟨if_neg fun h => by simpa using h.1, fun v h => ?_⟩
    rcases h with ⟨row, f, -⟩ | ⟨e, -⟩ | ⟨e, -⟩ | ⟨e, -⟩ | ⟨e, -⟩
    · rcases f with ⟨e, -⟩ | ⟨e, -⟩ | ⟨e, -⟩ <;> simp at e
    all_goals simp at e

theorem atleast1d_fill2 {r c : ℕ} (a : NDArr K) (v : Mat r c K) :
    Fill2 r c a.atleast1d v ↔ Fill2 r c a v := by
  obtain ⟨s, g⟩ := a
  cases s with
  | nil =>
    constructor
    · rintro (⟨row, f, h⟩ | ⟨e, h⟩ | ⟨e, h⟩ | ⟨e, h⟩ | ⟨e, h⟩)
      · exact Or.inl ⟨row, (atleast1d_fill _ row).mp f, h⟩
      all_goals exact absurd e (by simp [NDArr.atleast1d])
    · rintro (⟨row, f, h⟩ | ⟨e, h⟩ | ⟨e, h⟩ | ⟨e, h⟩ | ⟨e, h⟩)
      · exact Or.inl ⟨row, (atleast1d_fill _ row).mpr f, h⟩
      all_goals exact absurd e (by simp)
  | cons d s => rfl

/-- `np.broadcast_to(np.atleast_1d(a), (r, c))`. -/
theorem broadcast_mat {r c : ℕ} (a : NDArr K) :
    (∀ v, Fill2 r c a v → ∃ b, a.atleast1d.broadcastTo [r, c] = .ok b ∧ b.toMat r c = v) ∧
      (Unfit2 r c a → a.atleast1d.broadcastTo [r, c] = .error .valueError) := by
  rcases broadcastTo_two (r := r) (c := c) a.atleast1d with ⟨b, h1, h2⟩ | ⟨h1, h2⟩
  · rw [atleast1d_fill2] at h2
    exact ⟨fun v hv => ⟨b, h1, fill2_unique h2 hv⟩, fun h => absurd h2 (h _)⟩
  · exact ⟨fun v hv => absurd ((atleast1d_fill2 a v).mpr hv) (h2 v), fun _ => h1⟩

end Broadcast

/-! ## C70 -/

/-- The object after an assignment that may raise: a raising setter leaves it unchanged. -/
def attempt {α β : Type} (set : β → α → Py β) (o : β) (a : α) : β :=
  match set o a with
  | .ok o' => o'
  | .error _ => o

theorem attempts {α β : Type} {set : β → α → Py β} {value : β → β} {a : α} (o : β) (pre : List α)
    {post : List α} (ha : ∀ o, set o a = .ok (value o))
    (hpost : ∀ b ∈ post, ∀ o, ∃ e, set o b = .error e) :
    (pre ++ a :: post).foldl (attempt set) o = value (pre.foldl (attempt set) o) := by
  rw [List.foldl_append, List.foldl_cons]
  have h1 : ∀ o, attempt set o a = value o := fun o => by unfold attempt; rw [ha]
  rw [h1]
  generalize value (pre.foldl (attempt set) o) = x
  induction post with
  | nil => rfl
  | cons b post ih =>
    obtain ⟨e, he⟩ := hpost b (by simp) x
    have h2 : attempt set x b = x := by unfold attempt; rw [he]
    rw [List.foldl_cons, h2]
    exact ih fun c hc => hpost c (by simp [hc])

section Vectors

variable {C S : ℕ} {a : NDArr ℝ} {v : Vec C ℝ}

/-- **C70**, `sizes` of an ideal gas: an array that cannot be broadcast raises `ValueError`; after any
sequence of assignments, raising or not, the object, its energies and what it compiles to have the
sizes of the last accepted one, as if the object had been created with them. -/
theorem C70_sizes (o : GasEntropy C) (a : NDArr ℝ) :
    (Unfit1 C a → o.setSizes a = .error .valueError ∧ GasEntropy.new C (some a) = .error .valueError) ∧
    ∀ v, Fill1 C a v → ∀ (pre post : List (NDArr ℝ)), (∀ b ∈ post, Unfit1 C b) →
      ((pre ++ a :: post).foldl (attempt GasEntropy.setSizes) o).sizes = v ∧
      ((pre ++ a :: post).foldl (attempt GasEntropy.setSizes) o).compile.sizes = v ∧
      GasEntropy.new C (some a) = .ok ((pre ++ a :: post).foldl (attempt GasEntropy.setSizes) o) := by
  have bad : ∀ b, Unfit1 C b → ∀ o : GasEntropy C, o.setSizes b = .error .valueError := by
    intro b hb o
    unfold GasEntropy.setSizes
    rw [(broadcast_vec b).2 hb]; rfl
  refine ⟨fun h => ⟨bad a h o, ?_⟩, fun v hv pre post hp => ?_⟩
  · simp only [GasEntropy.new]
    rw [(broadcast_vec a).2 h]; rfl
  · obtain ⟨b, h1, rfl⟩ := (broadcast_vec a).1 v hv
    rw [attempts (value := fun _ => ⟨b.toVec C⟩) o pre
      (fun o => by unfold GasEntropy.setSizes; rw [h1]; rfl) (fun c hc o => ⟨_, bad c (hp c hc) o⟩)]
    refine ⟨rfl, rfl, ?_⟩
    simp only [GasEntropy.new]
    rw [h1]; rfl

-- Sizes (1, 2) are accepted and replace sizes 3; a vector of length three is rejected.
example : ([NDArr.scalar 3, NDArr.ofVec ![1, 2], NDArr.ofVec ![1, 2, 3]].foldl
    (attempt GasEntropy.setSizes) (⟨fun _ => 1⟩ : GasEntropy 2)).sizes = ![1, 2] := by
  refine ((C70_sizes _ (NDArr.ofVec ![1, 2])).2 ![1, 2] ?_ [NDArr.scalar 3] [NDArr.ofVec ![1, 2, 3]] ?_).1
  · exact Or.inr (Or.inr ⟨rfl, fun i => (ofVec_get ![1, 2] i).symm⟩)
  · intro b hb v h
    obtain rfl := List.mem_singleton.mp hb
    rcases h with ⟨e, -⟩ | ⟨e, -⟩ | ⟨e, -⟩ <;> simp [NDArr.ofVec] at e

/-- **C70**, `sizes` of a polydisperse ideal gas; the assignment of components to features stays. -/
theorem C70_poly_sizes (o : PolyEntropy S) (a : NDArr ℝ) :
    (Unfit1 (∑ r, o.perFeat r) a → o.setSizes a = .error .valueError) ∧
    ∀ v, Fill1 (∑ r, o.perFeat r) a v → o.setSizes a = .ok ⟨o.perFeat, ⟨v⟩⟩ ∧
      (PolyEntropy.mk o.perFeat ⟨v⟩).compile.sizes = v := by
  constructor
  · intro h
    unfold PolyEntropy.setSizes
    rw [((C70_sizes o.gas a).1 h).1]; rfl
  · intro v hv
    obtain ⟨b, h1, rfl⟩ := (broadcast_vec a).1 v hv
    unfold PolyEntropy.setSizes GasEntropy.setSizes
    rw [h1]
    exact ⟨rfl, rfl⟩

example : (⟨![1, 1], ⟨fun _ => 1⟩⟩ : PolyEntropy 2).setSizes (NDArr.scalar 2) =
    .ok ⟨![1, 1], ⟨fun _ => 2⟩⟩ :=
  ((C70_poly_sizes _ _).2 (fun _ => 2) (Or.inl ⟨rfl, fun _ => rfl⟩)).1

/-- **C70**, `phi_means` of a canonical ensemble with at least one component. -/
theorem C70_phi_means (o : CanonicalEnsemble C) (hC : 1 ≤ C) (a : NDArr ℝ) :
    (Unfit1 C a → o.setPhiMeans a = .error .valueError ∧
      CanonicalEnsemble.new C (some a) = .error .valueError) ∧
    ∀ v, Fill1 C a v → ∀ (pre post : List (NDArr ℝ)), (∀ b ∈ post, Unfit1 C b) →
      ((pre ++ a :: post).foldl (attempt CanonicalEnsemble.setPhiMeans) o).phiMeans = v ∧
      (∀ kw, ((pre ++ a :: post).foldl (attempt CanonicalEnsemble.setPhiMeans) o).obj.compiled kw =
        .ok ⟨C, .canonical ⟨v⟩⟩) ∧
      CanonicalEnsemble.new C (some a) =
        .ok ((pre ++ a :: post).foldl (attempt CanonicalEnsemble.setPhiMeans) o) := by
  have bad : ∀ b, Unfit1 C b → ∀ o : CanonicalEnsemble C, o.setPhiMeans b = .error .valueError := by
    intro b hb o
    unfold CanonicalEnsemble.setPhiMeans
    rcases broadcastTo_one (n := C) b with ⟨x, -, h2⟩ | ⟨h1, -⟩
    · exact absurd h2 (hb _)
    · rw [h1]; rfl
  refine ⟨fun h => ⟨bad a h o, ?_⟩, fun v hv pre post hp => ?_⟩
  · simp only [CanonicalEnsemble.new, if_neg (Nat.not_lt.mpr hC)]
    rw [(broadcast_vec a).2 h]; rfl
  · obtain ⟨b, h1, rfl⟩ := (broadcast_vec a).1 v hv
    have h3 : ∃ x, a.broadcastTo [C] = .ok x ∧ x.toVec C = b.toVec C := by
      rcases broadcastTo_one (n := C) a with ⟨x, h1, h2⟩ | ⟨-, h2⟩
      · exact ⟨x, h1, fill1_unique h2 hv⟩
      · exact absurd hv (h2 _)
    obtain ⟨x, h3, h4⟩ := h3
    rw [attempts (value := fun _ => ⟨b.toVec C⟩) o pre
      (fun o => by unfold CanonicalEnsemble.setPhiMeans; rw [h3, ← h4]; rfl)
      (fun c hc o => ⟨_, bad c (hp c hc) o⟩)]
    refine ⟨rfl, fun kw => by rw [InstObj.compiled_eq]; rfl, ?_⟩
    simp only [CanonicalEnsemble.new, if_neg (Nat.not_lt.mpr hC)]
    rw [h1]; rfl

/-- **C70**, `scaled_activity` of a grand canonical ensemble with at least one component. -/
theorem C70_scaled_activity (o : GrandCanonicalEnsemble C) (hC : 1 ≤ C) (a : NDArr ℝ) :
    (Unfit1 C a → o.setScaledActivity a = .error .valueError ∧
      GrandCanonicalEnsemble.new C a = .error .valueError) ∧
    ∀ v, Fill1 C a v → ∀ (pre post : List (NDArr ℝ)), (∀ b ∈ post, Unfit1 C b) →
      ((pre ++ a :: post).foldl (attempt GrandCanonicalEnsemble.setScaledActivity) o).scaledActivity =
        v ∧
      (∀ kw, ((pre ++ a :: post).foldl (attempt GrandCanonicalEnsemble.setScaledActivity) o).obj.compiled
        kw = .ok ⟨C, .grand ⟨v⟩⟩) ∧
      GrandCanonicalEnsemble.new C a =
        .ok ((pre ++ a :: post).foldl (attempt GrandCanonicalEnsemble.setScaledActivity) o) := by
  have bad : ∀ b, Unfit1 C b → ∀ o : GrandCanonicalEnsemble C,
      o.setScaledActivity b = .error .valueError := by
    intro b hb o
    unfold GrandCanonicalEnsemble.setScaledActivity
    rw [(broadcast_vec b).2 hb]; rfl
  refine ⟨fun h => ⟨bad a h o, ?_⟩, fun v hv pre post hp => ?_⟩
  · simp only [GrandCanonicalEnsemble.new, if_neg (Nat.not_lt.mpr hC)]
    rw [(broadcast_vec a).2 h]; rfl
  · obtain ⟨b, h1, rfl⟩ := (broadcast_vec a).1 v hv
    rw [attempts (value := fun _ => ⟨b.toVec C⟩) o pre
      (fun o => by unfold GrandCanonicalEnsemble.setScaledActivity; rw [h1]; rfl)
      (fun c hc o => ⟨_, bad c (hp c hc) o⟩)]
    refine ⟨rfl, fun kw => by rw [InstObj.compiled_eq]; rfl, ?_⟩
    simp only [GrandCanonicalEnsemble.new, if_neg (Nat.not_lt.mpr hC)]
    rw [h1]; rfl

-- Equal activities from a number, after a rejected matrix.
example : ([NDArr.ofMat ![![1, 2], ![3, 4]], NDArr.scalar 3].foldl
      (attempt GrandCanonicalEnsemble.setScaledActivity) (⟨![1, 2]⟩ : GrandCanonicalEnsemble 2)).scaledActivity
        = (fun _ => 3) ∧
    ([NDArr.scalar 3, NDArr.scalar (1 / 2)].foldl
      (attempt CanonicalEnsemble.setPhiMeans) (⟨![1, 0]⟩ : CanonicalEnsemble 2)).phiMeans = fun _ => 1 / 2 :=
  ⟨((C70_scaled_activity _ (by norm_num) (NDArr.scalar 3)).2 _ (Or.inl ⟨rfl, fun _ => rfl⟩) [_] [] (by simp)).1,
   ((C70_phi_means _ (by norm_num) (NDArr.scalar (1 / 2))).2 _ (Or.inl ⟨rfl, fun _ => rfl⟩) [_] []
    (by simp)).1⟩

end Vectors

/-! ### Linear constraints -/

/-- Assigning `Cs` (`true`) or `Ts` (`false`). -/
def setEither {S : ℕ} (o : LinearConstraint S) : Bool × NDArr ℝ → Py (LinearConstraint S)
  | (true, a) => o.setCs a
  | (false, a) => o.setTs a

/-- An assignment of `Cs` or `Ts` of `A` constraints of `S` features that numpy cannot broadcast. -/
def UnfitEither (A S : ℕ) : Bool × NDArr ℝ → Prop
  | (true, a) => Unfit2 A S a
  | (false, a) => Unfit1 A a

/-- **C70**, linear constraints: the number of constraints and their kind never change; `Cs` and `Ts`
are those last accepted, independently of each other. -/
theorem C70_linear {S : ℕ} (o : LinearConstraint S) (hist : List (Bool × NDArr ℝ)) :
    ∃ (Cs : Mat o.numCons S ℝ) (Ts : Vec o.numCons ℝ),
      hist.foldl (attempt setEither) o = ⟨o.isGlobal, o.numCons, Cs, Ts⟩ ∧
      (∀ a v pre post, hist = pre ++ (true, a) :: post → Fill2 o.numCons S a v →
        (∀ x ∈ post, x.1 = true → UnfitEither o.numCons S x) → Cs = v) ∧
      (∀ a v pre post, hist = pre ++ (false, a) :: post → Fill1 o.numCons a v →
        (∀ x ∈ post, x.1 = false → UnfitEither o.numCons S x) → Ts = v) ∧
      ((∀ x ∈ hist, x.1 = true → UnfitEither o.numCons S x) → Cs = o.Cs) ∧
      ((∀ x ∈ hist, x.1 = false → UnfitEither o.numCons S x) → Ts = o.Ts) := by
  induction hist using List.reverseRecOn with
  | nil => exact ⟨o.Cs, o.Ts, rfl, by simp, by simp, fun _ => rfl, fun _ => rfl⟩
  | append_singleton hist x ih =>
    obtain ⟨Cs, Ts, h, h1, h2, h3, h4⟩ := ih
    rw [List.foldl_append, List.foldl_cons, List.foldl_nil, h]
    -- a history split at an entry that is not the last one
    have cut : ∀ {b : Bool} {a : NDArr ℝ} {pre post : List (Bool × NDArr ℝ)},
        hist ++ [x] = pre ++ (b, a) :: post →
        (post = [] ∧ x = (b, a) ∧ pre = hist) ∨
          ∃ post', post = post' ++ [x] ∧ hist = pre ++ (b, a) :: post' := by
      intro b a pre post e
      rcases post.eq_nil_or_concat with rfl | ⟨post', y, rfl⟩
      · obtain ⟨e1, e2⟩ := List.append_inj' e rfl
        exact Or.inl ⟨rfl, by simpa using e2, e1.symm⟩
      · have e : hist ++ [x] = (pre ++ (b, a) :: post') ++ [y] := by rw [e]; simp
        obtain ⟨e1, e2⟩ := List.append_inj' e rfl
        simp only [List.cons.injEq, and_true] at e2
        exact Or.inr ⟨post', by rw [e2]; simp, e1⟩
    obtain ⟨b, y⟩ := x
    cases b with
    | true =>
      rcases broadcastTo_two (r := o.numCons) (c := S) y.atleast1d with ⟨z, e1, e2⟩ | ⟨e1, e2⟩
      · refine ⟨z.toMat _ _, Ts, ?_, ?_, ?_, ?_, ?_⟩
        · unfold attempt
          simp only [setEither, LinearConstraint.setCs, e1]
          rfl
        · intro a v pre post he hv hp
          rcases cut he with ⟨-, hx, -⟩ | ⟨post', rfl, -⟩
          · cases hx
            exact fill2_unique ((atleast1d_fill2 _ _).mp e2) hv
          · exact absurd ((atleast1d_fill2 _ _).mp e2) (hp (true, y) (by simp) rfl _)
        · intro a v pre post he hv hp
          rcases cut he with ⟨-, hx, -⟩ | ⟨post', rfl, hh⟩
          · cases hx
          · exact h2 a v pre post' hh hv fun x hx => hp x (by simp [hx])
        · intro hp
          exact absurd ((atleast1d_fill2 _ _).mp e2) (hp (true, y) (by simp) rfl _)
        · exact fun hp => h4 fun x hx => hp x (by simp [hx])
      · have e3 : Unfit2 o.numCons S y := fun v hv => e2 v ((atleast1d_fill2 _ _).mpr hv)
        refine ⟨Cs, Ts, ?_, ?_, ?_, ?_, ?_⟩
        · unfold attempt
          simp only [setEither, LinearConstraint.setCs, e1]
          rfl
        · intro a v pre post he hv hp
          rcases cut he with ⟨-, hx, -⟩ | ⟨post', rfl, hh⟩
          · cases hx; exact absurd hv (e3 v)
          · exact h1 a v pre post' hh hv fun x hx => hp x (by simp [hx])
        · intro a v pre post he hv hp
          rcases cut he with ⟨-, hx, -⟩ | ⟨post', rfl, hh⟩
          · cases hx
          · exact h2 a v pre post' hh hv fun x hx => hp x (by simp [hx])
        · exact fun hp => h3 fun x hx => hp x (by simp [hx])
        · exact fun hp => h4 fun x hx => hp x (by simp [hx])
    | false =>
      rcases broadcastTo_one (n := o.numCons) y.atleast1d with ⟨z, e1, e2⟩ | ⟨e1, e2⟩
      · refine ⟨Cs, z.toVec _, ?_, ?_, ?_, ?_, ?_⟩
        · unfold attempt
          simp only [setEither, LinearConstraint.setTs, e1]
          rfl
        · intro a v pre post he hv hp
          rcases cut he with ⟨-, hx, -⟩ | ⟨post', rfl, hh⟩
          · cases hx
          · exact h1 a v pre post' hh hv fun x hx => hp x (by simp [hx])
        · intro a v pre post he hv hp
          rcases cut he with ⟨-, hx, -⟩ | ⟨post', rfl, -⟩
          · cases hx
            exact fill1_unique ((atleast1d_fill _ _).mp e2) hv
          · exact absurd ((atleast1d_fill _ _).mp e2) (hp (false, y) (by simp) rfl _)
        · exact fun hp => h3 fun x hx => hp x (by simp [hx])
        · intro hp
          exact absurd ((atleast1d_fill _ _).mp e2) (hp (false, y) (by simp) rfl _)
      · have e3 : Unfit1 o.numCons y := fun v hv => e2 v ((atleast1d_fill _ _).mpr hv)
        refine ⟨Cs, Ts, ?_, ?_, ?_, ?_, ?_⟩
        · unfold attempt
          simp only [setEither, LinearConstraint.setTs, e1]
          rfl
        · intro a v pre post he hv hp
          rcases cut he with ⟨-, hx, -⟩ | ⟨post', rfl, hh⟩
          · cases hx
          · exact h1 a v pre post' hh hv fun x hx => hp x (by simp [hx])
        · intro a v pre post he hv hp
          rcases cut he with ⟨-, hx, -⟩ | ⟨post', rfl, hh⟩
          · cases hx; exact absurd hv (e3 v)
          · exact h2 a v pre post' hh hv fun x hx => hp x (by simp [hx])
        · exact fun hp => h3 fun x hx => hp x (by simp [hx])
        · exact fun hp => h4 fun x hx => hp x (by simp [hx])

-- One global constraint: new coefficients, then two targets, of which the second is rejected.
example : ([(true, NDArr.ofVec ![1, 2]), (false, NDArr.scalar 3), (false, NDArr.ofVec ![1, 2])].foldl
    (attempt setEither) (⟨true, 1, ![![1, 0]], ![0]⟩ : LinearConstraint 2)) =
      ⟨true, 1, ![![1, 2]], ![3]⟩ := by
  obtain ⟨Cs, Ts, h, h1, h2, -⟩ := C70_linear (⟨true, 1, ![![1, 0]], ![0]⟩ : LinearConstraint 2)
    [(true, NDArr.ofVec ![1, 2]), (false, NDArr.scalar 3), (false, NDArr.ofVec ![1, 2])]
  rw [h, h1 (NDArr.ofVec ![1, 2]) ![![1, 2]] [] _ rfl
      (Or.inl ⟨![1, 2], Or.inr (Or.inr ⟨rfl, fun i => (ofVec_get ![1, 2] i).symm⟩), fun i j => by
        fin_cases i; rfl⟩) (by simp),
    h2 (NDArr.scalar 3) ![3] [_] _ rfl (Or.inl ⟨rfl, fun i => by fin_cases i; rfl⟩) ?_]
  intro x hx _
  obtain rfl := List.mem_singleton.mp hx
  intro v hv
  rcases hv with ⟨e, -⟩ | ⟨e, -⟩ | ⟨e, -⟩ <;> simp [NDArr.ofVec] at e

/-- **C70**, creation of linear constraints: their number is the number of rows of `Cs`, or one if
`Cs` is a number or a vector; more dimensions, or entries that cannot be broadcast, raise
`ValueError`. -/
theorem C70_linear_new {S : ℕ} (isGlobal : Bool) (Cs Ts : NDArr ℝ) (A : ℕ)
    (hA : (Cs.shape.length ≤ 1 ∧ A = 1) ∨ ∃ d, Cs.shape = [A, d]) :
    (∀ v w, Fill2 A S Cs v → Fill1 A Ts w →
      LinearConstraint.new isGlobal S Cs Ts = .ok ⟨isGlobal, A, v, w⟩) ∧
    (Unfit2 A S Cs ∨ Unfit1 A Ts → LinearConstraint.new isGlobal S Cs Ts = .error .valueError) := by
  have hnew : LinearConstraint.new isGlobal S Cs Ts =
      LinearConstraint.new.fill (S := S) isGlobal A Cs.atleast1d Ts := by
    obtain ⟨s, g⟩ := Cs
    rcases hA with ⟨h, rfl⟩ | ⟨d, h⟩
    · match s with
      | [] => rfl
      | [_] => rfl
      | _ :: _ :: _ => simp at h
    · dsimp only at h; subst h; rfl
  rw [hnew]
  unfold LinearConstraint.new.fill
  constructor
  · intro v w hv hw
    obtain ⟨b, h1, rfl⟩ := (broadcast_mat Cs).1 v hv
    obtain ⟨c, h2, rfl⟩ := (broadcast_vec Ts).1 w hw
    rw [h1, bind_ok, h2]; rfl
  · intro h
    rcases broadcastTo_two (r := A) (c := S) Cs.atleast1d with ⟨z, e1, e2⟩ | ⟨e1, e2⟩
    · rcases h with h | h
      · exact absurd ((atleast1d_fill2 _ _).mp e2) (h _)
      · rw [e1, bind_ok, (broadcast_vec Ts).2 h]; rfl
    · rw [e1]; rfl

example : LinearConstraint.new false 2 (NDArr.ofMat ![![1, 2], ![3, 4], ![5, 6]]) (NDArr.scalar 1) =
    .ok ⟨false, 3, ![![1, 2], ![3, 4], ![5, 6]], fun _ => 1⟩ :=
  (C70_linear_new false _ _ 3 (Or.inr ⟨2, rfl⟩)).1 _ _
    (Or.inr (Or.inr (Or.inr (Or.inr ⟨rfl, fun i j => (ofMat_get _ i j).symm⟩)))) (Or.inl ⟨rfl, fun _ => rfl⟩)

/-! ### `FloryHuggins` objects -/

/-- An operation that does not touch the interaction matrix: it concerns sizes, or it is an assignment
that cannot be broadcast. -/
def KeepsChis (C : ℕ) : FHObject.Op → Prop
  | .sizes _ => True
  | .chi (.chis a) => Unfit2 C C a
  | .chi _ => False

/-- An operation that does not touch the sizes. -/
def KeepsSizes (C : ℕ) : FHObject.Op → Prop
  | .sizes a => Unfit1 C a
  | .chi _ => True

theorem FHObject.keeps_chis {C : ℕ} {ops : List FHObject.Op} (h : ∀ x ∈ ops, KeepsChis C x)
    (o : FHObject C) : (ops.foldl FHObject.step o).interaction = o.interaction := by
  induction ops generalizing o with
  | nil => rfl
  | cons x ops ih =>
    rw [List.foldl_cons, ih fun y hy => h y (by simp [hy])]
    have hx := h x (by simp)
    match x with
    | .sizes a =>
      simp only [FHObject.step]
      split <;> rfl
    | .chi (.chis a) =>
      simp only [FHObject.step, FHInteraction.step, FHInteraction.setChis, (broadcast_mat a).2 hx]
      rfl
    | .chi (.uniform ..) => exact absurd hx id
    | .chi (.random ..) => exact absurd hx id

theorem FHObject.keeps_sizes {C : ℕ} {ops : List FHObject.Op} (h : ∀ x ∈ ops, KeepsSizes C x)
    (o : FHObject C) : (ops.foldl FHObject.step o).entropy = o.entropy := by
  induction ops generalizing o with
  | nil => rfl
  | cons x ops ih =>
    rw [List.foldl_cons, ih fun y hy => h y (by simp [hy])]
    have hx := h x (by simp)
    match x with
    | .sizes a =>
      simp only [FHObject.step, GasEntropy.setSizes, (broadcast_vec a).2 hx]
      rfl
    | .chi op => rfl

/-- The operations on the interaction. -/
def chiOps (ops : List FHObject.Op) : List (ChiOp ℝ) :=
  ops.filterMap fun
    | .chi op => some op
    | .sizes _ => none

/-- **C70**, `FloryHuggins` objects: after any assignments of `chis` and `sizes` and calls of
`set_uniform_chis` and `set_random_chis`, raising or not, every method of the free energy sees the
symmetric part of the matrix, and the sizes, that were last accepted, exactly as an object newly
created from them; the matrix does not depend on what happened to the sizes and vice versa. -/
theorem C70_flory_huggins {C : ℕ} (o : FHObject C) (ops : List FHObject.Op) :
    (∀ a v b l pre₁ post₁ pre₂ post₂,
      ops = pre₁ ++ .chi (.chis a) :: post₁ → Fill2 C C a v → (∀ x ∈ post₁, KeepsChis C x) →
      ops = pre₂ ++ .sizes b :: post₂ → Fill1 C b l → (∀ x ∈ post₂, KeepsSizes C x) →
      (ops.foldl FHObject.step o).free = fhFree (fun i j => (v i j + v j i) / 2) l ∧
      FreeEnergy.floryHuggins C a (some b) = .ok ⟨C, (ops.foldl FHObject.step o).free⟩ ∧
      FHObject.new C a (some b) = .ok (ops.foldl FHObject.step o)) ∧
    (∀ chi isInt (vd : Bool) pre post, ops = pre ++ .chi (.uniform chi isInt vd) :: post →
      (∀ x ∈ post, KeepsChis C x) →
      ∀ i j, (ops.foldl FHObject.step o).interaction.chis i j = if vd ∧ i = j then 0 else chi) ∧
    (ops.foldl FHObject.step o).interaction = (chiOps ops).foldl FHInteraction.step o.interaction ∧
    ((∀ x ∈ ops, KeepsChis C x) → (ops.foldl FHObject.step o).interaction = o.interaction) ∧
    ((∀ x ∈ ops, KeepsSizes C x) → (ops.foldl FHObject.step o).entropy = o.entropy) := by
  refine ⟨?_, ?_, ?_, fun h => FHObject.keeps_chis h o, fun h => FHObject.keeps_sizes h o⟩
  · intro a v b l pre₁ post₁ pre₂ post₂ h1 hv hp1 h2 hl hp2
    obtain ⟨x, hx, rfl⟩ := (broadcast_mat a).1 v hv
    obtain ⟨y, hy, rfl⟩ := (broadcast_vec b).1 l hl
    have e1 : (ops.foldl FHObject.step o).interaction = ⟨symmetrize (x.toMat C C), false⟩ := by
      rw [h1, List.foldl_append, List.foldl_cons, FHObject.keeps_chis hp1]
      simp only [FHObject.step, FHInteraction.step, FHInteraction.setChis, hx]
      rfl
    have e2 : (ops.foldl FHObject.step o).entropy = ⟨y.toVec C⟩ := by
      rw [h2, List.foldl_append, List.foldl_cons, FHObject.keeps_sizes hp2]
      simp only [FHObject.step, GasEntropy.setSizes, hy]
      rfl
    have e3 : symmetrize (x.toMat C C) = fun i j => (x.toMat C C i j + x.toMat C C j i) / 2 := by
      funext i j; simp only [symmetrize]; ring
    have e4 : FHInteraction.new C a = .ok ⟨symmetrize (x.toMat C C), false⟩ := by
      unfold FHInteraction.new; rw [hx]; rfl
    have e5 : GasEntropy.new C (some b) = .ok ⟨y.toVec C⟩ := by
      simp only [GasEntropy.new]; rw [hy]; rfl
    refine ⟨?_, ?_, ?_⟩
    · unfold FHObject.free; rw [e1, e2, e3]; rfl
    · unfold FHObject.free FreeEnergy.floryHuggins
      rw [e4, e5, e1, e2]
      simp [FreeEnergy.new, bind, Except.bind]
    · unfold FHObject.new
      rw [e4, e5, ← e1, ← e2]; rfl
  · intro chi isInt vd pre post h hp i j
    rw [h, List.foldl_append, List.foldl_cons, FHObject.keeps_chis hp]
    simp [FHObject.step, FHInteraction.step, FHInteraction.setUniform]
  · induction ops using List.reverseRecOn with
    | nil => rfl
    | append_singleton ops x ih =>
      rw [List.foldl_append, List.foldl_cons, List.foldl_nil]
      unfold chiOps at ih ⊢
      rw [List.filterMap_append, List.foldl_append, ← ih]
      cases x with
      | chi op => rfl
      | sizes a =>
        simp only [FHObject.step, List.filterMap_cons_none, List.filterMap_nil, List.foldl_nil]
        split <;> rfl

-- The matrix is set before the sizes and after a random one; a vector of length three is rejected.
example (o : FHObject 2) (draws : ℕ → List ℝ) :
    ([.chi (.random draws true), .chi (.chis (NDArr.ofMat ![![0, 4], ![2, 0]])), .sizes (NDArr.ofVec ![1, 3]),
      .sizes (NDArr.ofVec ![1, 2, 3])].foldl FHObject.step o).free =
      fhFree (fun i j => (![![0, 4], ![2, 0]] i j + ![![0, 4], ![2, 0]] j i) / 2) ![1, 3] := by
  refine ((C70_flory_huggins o _).1 (NDArr.ofMat ![![0, 4], ![2, 0]]) ![![0, 4], ![2, 0]]
    (NDArr.ofVec ![1, 3]) ![1, 3] [.chi (.random draws true)] _
    [.chi (.random draws true), .chi (.chis (NDArr.ofMat ![![0, 4], ![2, 0]]))] _ rfl ?_ ?_ rfl ?_ ?_).1
  · exact Or.inr (Or.inr (Or.inr (Or.inr ⟨rfl, fun i j => (ofMat_get _ i j).symm⟩)))
  · intro x hx
    rcases List.mem_cons.mp hx with rfl | hx
    · trivial
    · obtain rfl := List.mem_singleton.mp hx
      trivial
  · exact Or.inr (Or.inr ⟨rfl, fun i => (ofVec_get ![1, 3] i).symm⟩)
  · intro x hx
    obtain rfl := List.mem_singleton.mp hx
    intro v hv
    rcases hv with ⟨e, -⟩ | ⟨e, -⟩ | ⟨e, -⟩ <;> simp [NDArr.ofVec] at e

/-- **C70**, the class methods: `from_uniform` and `from_random_normal` give the stated matrix (see
C13 for the drawn numbers) and the given sizes, all ones without sizes. -/
theorem C70_constructors {C : ℕ} (sizes : Option (NDArr ℝ)) (l : Vec C ℝ)
    (hl : (sizes = none ∧ ∀ i, l i = 1) ∨ ∃ b, sizes = some b ∧ Fill1 C b l) (vd : Bool) :
    (∀ chi isInt, ∃ o, FHObject.fromUniform C chi isInt sizes vd = .ok o ∧
      o.free = fhFree (fun i j => if vd ∧ i = j then 0 else chi) l) ∧
    (∀ draws, (∀ n, (draws n).length = n) → ∃ o chis, FHObject.fromRandomNormal C draws sizes vd = .ok o ∧
      o.free = fhFree chis l ∧ (∀ i j, chis i j = chis j i) ∧ (vd → ∀ i, chis i i = 0) ∧
      upperEntries (!vd) chis = draws (if vd then C * (C - 1) / 2 else C * (C + 1) / 2)) := by
  have hg : GasEntropy.new C sizes = .ok ⟨l⟩ := by
    rcases hl with ⟨rfl, h⟩ | ⟨b, rfl, h⟩
    · simp only [GasEntropy.new]; congr 2; funext i; exact (h i).symm
    · obtain ⟨y, hy, rfl⟩ := (broadcast_vec b).1 l h
      simp only [GasEntropy.new]; rw [hy]; rfl
  constructor
  · intro chi isInt
    refine ⟨⟨(⟨fun _ _ => 0, false⟩ : FHInteraction C ℝ).setUniform chi isInt vd, ⟨l⟩⟩, ?_, ?_⟩
    · unfold FHObject.fromUniform FHObject.new
      rw [new_scalar, hg]; rfl
    · unfold FHObject.free fhFree
      simp only [FHInteraction.setUniform, Bool.and_eq_true, decide_eq_true_eq]
  · intro draws hlen
    refine ⟨⟨(⟨fun _ _ => 0, false⟩ : FHInteraction C ℝ).setRandom draws vd, ⟨l⟩⟩, _, ?_, rfl, ?_, ?_, ?_⟩
    · unfold FHObject.fromRandomNormal FHObject.new
      rw [new_scalar, hg]; rfl
    · exact setRandom_symm _ draws vd
    · rintro rfl i
      exact (C12_content (fun _ _ => 0) _).2.2.2 draws i
    · exact (C13_random_chis_partial draws hlen vd).1 _ rfl

example : ∃ o : FHObject 2, FHObject.fromUniform 2 3 true (some (NDArr.scalar 2)) true = .ok o ∧
    o.free = fhFree (fun i j => if true ∧ i = j then 0 else 3) fun _ => 2 :=
  (C70_constructors (some (NDArr.scalar 2)) (fun _ => 2)
    (Or.inr ⟨_, rfl, Or.inl ⟨rfl, fun _ => rfl⟩⟩) true).1 3 true

end Flory
