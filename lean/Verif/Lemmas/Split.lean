import Verif.Lemmas.Instances
import Verif.Lemmas.IterationFacts
import Verif.Model.Run

/-! # Runs of mixtures that differ only by splitting components into identical parts -/

set_option linter.unusedSectionVars false

namespace Flory

/-- Both fail, or both succeed with related results. -/
def PyRel {α β : Type} (R : α → β → Prop) (x : Py α) (y : Py β) : Prop :=
  ((∃ e, x = .error e) ∧ ∃ e, y = .error e) ∨ ∃ a b, x = .ok a ∧ y = .ok b ∧ R a b

namespace PyRel

variable {α β γ δ : Type} {R : α → β → Prop} {Q : γ → δ → Prop}

theorem ok {a : α} {b : β} (h : R a b) : PyRel R (.ok a) (.ok b) := .inr ⟨a, b, rfl, rfl, h⟩

theorem error (e e' : PyErr) : PyRel R (.error e) (.error e') := .inl ⟨⟨e, rfl⟩, e', rfl⟩

theorem refl (x : Py α) : PyRel Eq x x := by
  cases x
  · exact error _ _
  · exact ok rfl

theorem bind {x : Py α} {y : Py β} {f : α → Py γ} {g : β → Py δ} (h : PyRel R x y)
    (hf : ∀ a b, R a b → PyRel Q (f a) (g b)) : PyRel Q (x >>= f) (y >>= g) := by
  rcases h with ⟨⟨e, rfl⟩, e', rfl⟩ | ⟨a, b, rfl, rfl, hr⟩
  · exact error _ _
  · exact hf a b hr

theorem bind_eq {x : Py α} {f : α → Py γ} {g : α → Py δ} (hf : ∀ a, PyRel Q (f a) (g a)) :
    PyRel Q (x >>= f) (x >>= g) := bind (refl x) fun a _ h => h ▸ hf a

theorem mono {R' : α → β → Prop} {x : Py α} {y : Py β} (h : PyRel R x y) (hr : ∀ a b, R a b → R' a b) :
    PyRel R' x y := by
  rcases h with h | ⟨a, b, h1, h2, h3⟩
  · exact .inl h
  · exact .inr ⟨a, b, h1, h2, hr a b h3⟩

theorem ok_iff {x : Py α} {y : Py β} (h : PyRel R x y) :
    (∃ a, x = .ok a) ↔ ∃ b, y = .ok b := by
  rcases h with ⟨⟨e, rfl⟩, e', rfl⟩ | ⟨a, b, rfl, rfl, -⟩
  · simp
  · simp

theorem of_ok {a : α} {y : Py β} (h : PyRel R (.ok a) y) : ∃ b, y = .ok b ∧ R a b := by
  rcases h with ⟨⟨e, he⟩, -⟩ | ⟨a', b, h1, h2, h3⟩
  · cases he
  · cases h1; exact ⟨b, h2, h3⟩

end PyRel

variable {G : Type} {C C' S M : ℕ} [NeZero M]

/-- The fractions `x'` are those of `x` with the parts of each component taken together, and the parts of
a component share every compartment in proportion to the amounts `A`. -/
structure SharedParts (π : Fin C → Fin C') (A : Vec C ℝ) (A' : Vec C' ℝ) (x : Mat C M ℝ) (x' : Mat C' M ℝ) :
    Prop where
  sum : ∀ j m, x' j m = ∑ i, if π i = j then x i m else 0
  share : ∀ i m, x i m * A' (π i) = A i * x' (π i) m

/-- Two ensembles whose results are related by `SharedParts`. -/
def SplitsEnsemble (π : Fin C → Fin C') (A : Vec C ℝ) (A' : Vec C' ℝ) (es : EnsembleI C M ℝ)
    (es' : EnsembleI C' M ℝ) : Prop :=
  ∀ (ph : Mat C M ℝ) (ph' : Mat C' M ℝ) (Qs : Vec C ℝ) (Qs' : Vec C' ℝ) masks,
    (∀ i m, ph i m = ph' (π i) m) → (∀ i, Qs i = Qs' (π i)) →
    PyRel (fun x x' => SharedParts π A A' x.1 x'.1 ∧ x'.2 = x.2) (es.normalize ph Qs masks)
      (es'.normalize ph' Qs' masks)

theorem sum_parts (π : Fin C → Fin C') (x : Vec C ℝ) : ∑ j, (∑ i, if π i = j then x i else 0) = ∑ i, x i := by
  rw [Finset.sum_comm]
  exact Finset.sum_congr rfl fun i _ => by simp

theorem parts_scale {π : Fin C → Fin C'} {A : Vec C ℝ} {A' : Vec C' ℝ}
    (hA : ∀ j, A' j = ∑ i, if π i = j then A i else 0) (w : Mat C' M ℝ) :
    SharedParts π A A' (fun i m => A i * w (π i) m) fun j m => A' j * w j m where
  sum j m := by
    rw [hA, Finset.sum_mul]
    refine Finset.sum_congr rfl fun i _ => ?_
    split_ifs with h
    · rw [h]
    · rw [zero_mul]
  share i m := by ring

theorem CanonicalC.splits {π : Fin C → Fin C'} (hπ : Function.Surjective π) {e : CanonicalC C ℝ}
    {e' : CanonicalC C' ℝ} (hA : ∀ j, e'.phiMeans j = ∑ i, if π i = j then e.phiMeans i else 0) :
    SplitsEnsemble π e.phiMeans e'.phiMeans (e.toI M) (e'.toI M) := by
  intro ph ph' Qs Qs' masks hph hQ
  by_cases h0 : ∀ i, Qs i ≠ 0
  · have h0' : ∀ j, Qs' j ≠ 0 := fun j => by
      obtain ⟨i, rfl⟩ := hπ j
      rw [← hQ]; exact h0 i
    obtain ⟨x, hx⟩ := CanonicalC.normalize_ok e ph masks h0
    obtain ⟨x', hx'⟩ := CanonicalC.normalize_ok e' ph' masks h0'
    have hp : SharedParts π e.phiMeans e'.phiMeans x.1 x'.1 := by
      rw [(CanonicalC.normalize_inv hx).2, (CanonicalC.normalize_inv hx').2]
      have e1 : (fun i m => e.phiMeans i / Qs i * ph i m * masks m) =
          fun i m => e.phiMeans i * (fun j m => ph' j m * masks m / Qs' j) (π i) m := by
        funext i m
        rw [hph, hQ]
        ring
      have e2 : (fun j m => e'.phiMeans j / Qs' j * ph' j m * masks m) =
          fun j m => e'.phiMeans j * (fun j m => ph' j m * masks m / Qs' j) j m := by
        funext i m
        ring
      dsimp only
      rw [e1, e2]
      exact parts_scale hA fun j m => ph' j m * masks m / Qs' j
    refine .inr ⟨x, x', hx, hx', hp, ?_⟩
    have i1 := (CanonicalC.normalize_inv hx).2
    have i2 := (CanonicalC.normalize_inv hx').2
    have j1 : x.2 = fun m => ((∑ i, x.1 i m) - 1) * masks m := by rw [i1]
    have j2 : x'.2 = fun m => ((∑ i, x'.1 i m) - 1) * masks m := by rw [i2]
    rw [j1, j2]
    funext m
    simp only [hp.sum, sum_parts π fun i => x.1 i m]
  · have hne : ∀ x, e.normalize ph Qs masks ≠ .ok x := fun x h => h0 (CanonicalC.normalize_inv h).1
    have hne' : ∀ x, e'.normalize ph' Qs' masks ≠ .ok x := fun x h => h0 fun i => by
      rw [hQ]; exact (CanonicalC.normalize_inv h).1 _
    refine .inl ⟨?_, ?_⟩
    · show ∃ err, e.normalize ph Qs masks = _
      cases hx : e.normalize ph Qs masks with
      | error err => exact ⟨err, rfl⟩
      | ok x => exact absurd hx (hne x)
    · show ∃ err, e'.normalize ph' Qs' masks = _
      cases hx : e'.normalize ph' Qs' masks with
      | error err => exact ⟨err, rfl⟩
      | ok x => exact absurd hx (hne' x)

theorem GrandC.splits {π : Fin C → Fin C'} {e : GrandC C ℝ} {e' : GrandC C' ℝ}
    (hA : ∀ j, e'.scaledActivity j = ∑ i, if π i = j then e.scaledActivity i else 0) :
    SplitsEnsemble π e.scaledActivity e'.scaledActivity (e.toI M) (e'.toI M) := by
  intro ph ph' Qs Qs' masks hph hQ
  have hp : SharedParts π e.scaledActivity e'.scaledActivity
      (fun i m => e.scaledActivity i * ph i m * masks m)
      fun j m => e'.scaledActivity j * ph' j m * masks m := by
    have e1 : (fun i m => e.scaledActivity i * ph i m * masks m) =
        fun i m => e.scaledActivity i * (fun j m => ph' j m * masks m) (π i) m := by
      funext i m
      rw [hph]
      ring
    have e2 : (fun j m => e'.scaledActivity j * ph' j m * masks m) =
        fun j m => e'.scaledActivity j * (fun j m => ph' j m * masks m) j m := by
      funext i m
      ring
    rw [e1, e2]
    exact parts_scale hA fun j m => ph' j m * masks m
  refine .inr ⟨_, _, GrandC.normalize_eq e ph Qs masks, GrandC.normalize_eq e' ph' Qs' masks, hp, ?_⟩
  funext m
  have h := sum_parts π fun i => e.scaledActivity i * ph i m * masks m
  simp only
  rw [← h]
  congr 2
  exact Finset.sum_congr rfl fun j _ => hp.sum j m

/-- What two mixtures that differ by splitting components have in common during a run. -/
structure SplitEnv (π : Fin C → Fin C') (A : Vec C ℝ) (A' : Vec C' ℝ) (feat : Fin C → Fin S)
    (feat' : Fin C' → Fin S) (sizes : Vec C ℝ) (sizes' : Vec C' ℝ) (e : RunEnv C S M ℝ G)
    (e' : RunEnv C' S M ℝ G) : Prop where
  surj : Function.Surjective π
  nonempty : C ≠ 0
  hsizes : ∀ i, sizes i = sizes' (π i)
  hfeat : ∀ i, feat i = feat' (π i)
  gas : IsIdealGas e.en sizes feat
  gas' : IsIdealGas e'.en sizes' feat'
  ensemble : SplitsEnsemble π A A' e.es e'.es
  ia : e'.ia = e.ia
  rng : e'.rng = e.rng
  params : e'.params = e.params
  criterion : e'.criterion = e.criterion

/-- Everything in a state but the fractions of components. -/
structure SplitState (s : State C S M ℝ G) (s' : State C' S M ℝ G) : Prop where
  omegas : s'.omegas = s.omegas
  Js : s'.Js = s.Js
  cons : s'.cons = s.cons
  g : s'.g = s.g

/-- Relation between the variables after a pass. -/
structure SplitTrace (π : Fin C → Fin C') (A : Vec C ℝ) (A' : Vec C' ℝ) (t : Trace C S M ℝ G)
    (t' : Trace C' S M ℝ G) : Prop where
  state : SplitState t.state t'.state
  parts : SharedParts π A A' t.phisComp t'.phisComp
  phisFeat : t'.phisFeat = t.phisFeat
  nValid : t'.nValid = t.nValid
  reviveCount : t'.reviveCount = t.reviveCount
  incomp : t'.maxAbsIncomp = t.maxAbsIncomp
  omegaDiff : t'.maxAbsOmegaDiff = t.maxAbsOmegaDiff
  JsDiff : t'.maxAbsJsDiff = t.maxAbsJsDiff
  residue : t'.maxConstraintResidue = t.maxConstraintResidue

variable {π : Fin C → Fin C'} {A : Vec C ℝ} {A' : Vec C' ℝ} {feat : Fin C → Fin S}
  {feat' : Fin C' → Fin S} {sizes : Vec C ℝ} {sizes' : Vec C' ℝ} {e : RunEnv C S M ℝ G}
  {e' : RunEnv C' S M ℝ G}

theorem iterate_split (h : SplitEnv π A A' feat feat' sizes sizes' e e') {s : State C S M ℝ G}
    {s' : State C' S M ℝ G} (hs : SplitState s s') (tries : ℤ) (count : ℕ) :
    PyRel (SplitTrace π A A') (iterate e.ia e.en e.es e.rng e.params tries count s)
      (iterate e'.ia e'.en e'.es e'.rng e'.params tries count s') := by
  rw [h.ia, h.rng, h.params]
  have hC' : C' ≠ 0 := by
    rintro rfl
    exact (π ⟨0, Nat.pos_of_ne_zero h.nonempty⟩).elim0
  unfold iterate
  simp only [hs.omegas, hs.Js, hs.cons, hs.g]
  generalize reviveBlock e.rng e.params tries s.Js s.omegas s.g count = rv
  generalize makeMasks rv.Js e.params.killThreshold = masks
  -- partition
  refine PyRel.bind (R := fun x x' => (∀ i m, x.1 i m = x'.1 (π i) m) ∧ ∀ i, x.2 i = x'.2 (π i)) ?_ ?_
  · by_cases hJ : ∑ m, rv.Js m * masks m = 0
    · refine .inl ⟨?_, ?_⟩
      · cases hx : e.en.partition s.phisComp rv.targets fun m => rv.Js m * masks m with
        | error err => exact ⟨err, rfl⟩
        | ok x => exact absurd hJ ((h.gas.partition_inv hx).1 h.nonempty)
      · cases hx : e'.en.partition s'.phisComp rv.targets fun m => rv.Js m * masks m with
        | error err => exact ⟨err, rfl⟩
        | ok x => exact absurd hJ ((h.gas'.partition_inv hx).1 hC')
    · obtain ⟨x, hx⟩ := h.gas.partition_ok s.phisComp rv.targets hJ
      obtain ⟨x', hx'⟩ := h.gas'.partition_ok s'.phisComp rv.targets hJ
      refine .inr ⟨x, x', hx, hx', ?_, ?_⟩
      · rw [(h.gas.partition_inv hx).2, (h.gas'.partition_inv hx').2]
        intro i m
        simp only [h.hsizes i, h.hfeat i]
      · rw [(h.gas.partition_inv hx).2, (h.gas'.partition_inv hx').2]
        intro i
        simp only [h.hsizes i, h.hfeat i]
  rintro ⟨ph, Qs⟩ ⟨ph', Qs'⟩ ⟨hph, hQ⟩
  dsimp only at hph hQ ⊢
  refine PyRel.bind (h.ensemble ph ph' Qs Qs' masks hph hQ) ?_
  rintro ⟨x, inc⟩ ⟨x', inc'⟩ ⟨hx, hinc⟩
  dsimp only at hx hinc ⊢
  subst hinc
  have hfeat : (fun r m => ∑ j, if feat' j = r then x' j m else 0) =
      fun r m => ∑ i, if feat i = r then x i m else 0 := by
    funext r m
    have := sum_parts π fun i => if feat i = r then x i m else 0
    rw [← this]
    refine Finset.sum_congr rfl fun j _ => ?_
    split_ifs with hj
    · rw [hx.sum]
      refine Finset.sum_congr rfl fun i _ => ?_
      by_cases hi : π i = j
      · rw [if_pos hi, if_pos hi, h.hfeat, hi, if_pos hj]
      · rw [if_neg hi, if_neg hi]
    · refine (Finset.sum_eq_zero fun i _ => ?_).symm
      by_cases hi : π i = j
      · rw [if_pos hi, h.hfeat, hi, if_neg hj]
      · rw [if_neg hi]
  have hvd : e'.en.volumeDerivative x' = e.en.volumeDerivative x := by
    funext m
    rw [h.gas.volumeDerivative, h.gas'.volumeDerivative, ← sum_parts π fun i => x i m / sizes i]
    congr 1
    refine Finset.sum_congr rfl fun j _ => ?_
    rw [hx.sum, Finset.sum_div]
    refine Finset.sum_congr rfl fun i _ => ?_
    by_cases hi : π i = j
    · rw [if_pos hi, if_pos hi, h.hsizes, hi]
    · rw [if_neg hi, if_neg hi, zero_div]
  rw [h.gas.compToFeat, h.gas'.compToFeat, hfeat, hvd]
  simp only [bind_ok]
  refine PyRel.bind_eq fun mean => PyRel.bind_eq fun factor => PyRel.bind_eq fun Jn =>
    PyRel.bind_eq fun rc => PyRel.ok ⟨⟨rfl, rfl, rfl, rfl⟩, hx, rfl, rfl, rfl, rfl, rfl, rfl, rfl⟩

theorem iterateMore_split (h : SplitEnv π A A' feat feat' sizes sizes' e e') (tries : ℤ) (n : ℕ)
    {t : Trace C S M ℝ G} {t' : Trace C' S M ℝ G} (ht : SplitTrace π A A' t t') :
    PyRel (SplitTrace π A A') (iterateMore e.ia e.en e.es e.rng e.params tries n t)
      (iterateMore e'.ia e'.en e'.es e'.rng e'.params tries n t') := by
  induction n generalizing t t' with
  | zero => exact PyRel.ok ht
  | succ n ih =>
    unfold iterateMore
    rw [ht.reviveCount]
    exact PyRel.bind (iterate_split h ht.state tries _) fun a b hab => ih hab

theorem metastep_split (h : SplitEnv π A A' feat feat' sizes sizes' e e') (tries : ℤ) (n : ℕ)
    {s : State C S M ℝ G} {s' : State C' S M ℝ G} (hs : SplitState s s') :
    PyRel (fun r r' => SplitTrace π A A' r.last r'.last ∧ r'.isLastStepSafe = r.isLastStepSafe)
      (metastep e.ia e.en e.es e.rng e.params tries n s)
      (metastep e'.ia e'.en e'.es e'.rng e'.params tries n s') := by
  cases n with
  | zero => exact PyRel.error _ _
  | succ n =>
    unfold metastep
    refine PyRel.bind (iterate_split h hs tries 0) fun a b hab =>
      PyRel.bind (iterateMore_split h tries n hab) fun t t' ht => PyRel.ok ⟨ht, ?_⟩
    have hJ : t'.Js = t.Js := ht.state.Js
    simp only [ht.nValid, hJ, h.params]

theorem copyLoop_parts {rng : Rng G ℝ} {thr : ℝ} {d : Fin M} (n : ℕ) (Js : Vec M ℝ) {T : Mat C M ℝ}
    {T' : Mat C' M ℝ} (living : Vec M (Option (Fin M))) (g : G) (count : ℕ) (hT : SharedParts π A A' T T') :
    PyRel (fun s s' => s'.Js = s.Js ∧ SharedParts π A A' s.targets s'.targets ∧ s'.living = s.living ∧
        s'.livingCount = s.livingCount ∧ s'.g = s.g ∧ s'.count = s.count)
      (copyLoop rng thr d n Js T living g count) (copyLoop rng thr d n Js T' living g count) := by
  induction n generalizing Js T T' living g count with
  | zero =>
    unfold copyLoop
    exact PyRel.bind_eq fun _ => PyRel.error _ _
  | succ n ih =>
    unfold copyLoop
    refine PyRel.bind_eq fun pg => PyRel.bind_eq fun ref => ?_
    cases ref with
    | none => exact PyRel.error _ _
    | some ref =>
      dsimp only
      split_ifs
      · refine PyRel.bind_eq fun living => PyRel.ok ⟨rfl, ⟨fun j m => ?_, fun i m => ?_⟩, rfl, rfl, rfl, rfl⟩
        · dsimp only
          split_ifs
          · exact hT.sum j ref
          · exact hT.sum j m
        · dsimp only
          split_ifs
          · exact hT.share i ref
          · exact hT.share i m
      · exact PyRel.bind_eq fun _ => PyRel.bind_eq fun _ => PyRel.bind_eq fun _ => ih _ _ _ _ hT

theorem copyDead_parts {rng : Rng G ℝ} {thr : ℝ} (ds : List (Option (Fin M))) {s : CopyState C M ℝ G}
    {s' : CopyState C' M ℝ G} (hs : s'.Js = s.Js ∧ SharedParts π A A' s.targets s'.targets ∧
      s'.living = s.living ∧ s'.livingCount = s.livingCount ∧ s'.g = s.g ∧ s'.count = s.count) :
    PyRel (fun s s' => s'.Js = s.Js ∧ SharedParts π A A' s.targets s'.targets ∧ s'.living = s.living ∧
        s'.livingCount = s.livingCount ∧ s'.g = s.g ∧ s'.count = s.count)
      (copyDead rng thr ds s) (copyDead rng thr ds s') := by
  induction ds generalizing s s' with
  | nil => exact PyRel.ok hs
  | cons d ds ih =>
    cases d with
    | none => exact PyRel.error _ _
    | some d =>
      obtain ⟨h1, h2, h3, h4, h5, h6⟩ := hs
      unfold copyDead
      rw [h1, h3, h4, h5, h6]
      exact PyRel.bind (copyLoop_parts _ _ _ _ _ h2) fun a b hab => ih hab

theorem reviveByCopy_parts {rng : Rng G ℝ} {thr : ℝ} (Js : Vec M ℝ) {T : Mat C M ℝ}
    {T' : Mat C' M ℝ} (g : G) (hT : SharedParts π A A' T T') :
    PyRel (fun s s' => s'.Js = s.Js ∧ SharedParts π A A' s.targets s'.targets ∧ s'.living = s.living ∧
        s'.livingCount = s.livingCount ∧ s'.g = s.g ∧ s'.count = s.count)
      (reviveByCopy rng Js T thr g) (reviveByCopy rng Js T' thr g) := by
  unfold reviveByCopy
  exact PyRel.bind_eq fun _ => copyDead_parts _ ⟨rfl, hT, rfl, rfl, rfl, rfl⟩

/-- Relation between the variables of `run`. -/
structure SplitRun (π : Fin C → Fin C') (A : Vec C ℝ) (A' : Vec C' ℝ) (s : RunState C S M ℝ G)
    (s' : RunState C' S M ℝ G) : Prop where
  state : SplitState s.st s'.st
  reviveLeft : s'.reviveLeft = s.reviveLeft
  steps : s'.steps = s.steps
  last : (s.last = none ∧ s'.last = none) ∨ ∃ r r', s.last = some r ∧ s'.last = some r' ∧
    SplitTrace π A A' r.last r'.last ∧ s.st.phisComp = r.last.phisComp ∧
    s'.st.phisComp = r'.last.phisComp ∧ s.st.phisFeat = r.last.phisFeat ∧
    s'.st.phisFeat = r'.last.phisFeat

theorem runLoop_split (h : SplitEnv π A A' feat feat' sizes sizes' e e') (tol : ℝ) (inner n : ℕ)
    {s : RunState C S M ℝ G} {s' : RunState C' S M ℝ G} (hs : SplitRun π A A' s s') :
    PyRel (fun _ _ => SplitRun π A A' (runLoop e tol inner n s).1 (runLoop e' tol inner n s').1)
      (runLoop e tol inner n s).2 (runLoop e' tol inner n s').2 := by
  induction n generalizing s s' with
  | zero => exact PyRel.ok hs
  | succ n ih =>
    unfold runLoop
    rw [hs.reviveLeft]
    rcases metastep_split h s.reviveLeft inner hs.state with
      ⟨⟨e1, h1⟩, e2, h2⟩ | ⟨r, r', h1, h2, ht, hsafe⟩
    · rw [h1, h2]; exact PyRel.error _ _
    · rw [h1, h2]
      have hc : converged tol r' = converged tol r := by
        simp only [converged, hsafe, ht.incomp, ht.omegaDiff, ht.JsDiff, ht.residue]
      have hnew : SplitRun π A A' ⟨r.last.state, s.reviveLeft - r.last.reviveCount, s.steps + inner, some r⟩
          ⟨r'.last.state, s.reviveLeft - r'.last.reviveCount, s'.steps + inner, some r'⟩ :=
        ⟨ht.state, by simp only [ht.reviveCount], by simp only [hs.steps],
          .inr ⟨r, r', rfl, rfl, ht, rfl, rfl, rfl, rfl⟩⟩
      simp only [hc, h.criterion]
      split_ifs
      · exact PyRel.ok hnew
      · exact ih hnew
      · exact PyRel.error _ _

/-- Relation between the results of `run`. -/
structure SplitResult (π : Fin C → Fin C') (A : Vec C ℝ) (A' : Vec C' ℝ)
    (x : RunState C S M ℝ G × Phases M C ℝ × Diagnostics ℝ)
    (x' : RunState C' S M ℝ G × Phases M C' ℝ × Diagnostics ℝ) : Prop where
  diagnostics : x'.2.2 = x.2.2
  volumes : x'.2.1.volumes = x.2.1.volumes
  parts : SharedParts π A A' (fun i m => x.2.1.fractions m i) fun j m => x'.2.1.fractions m j
  state : SplitState x.1.st x'.1.st
  phisFeat : x'.1.st.phisFeat = x.1.st.phisFeat
  reviveLeft : x'.1.reviveLeft = x.1.reviveLeft

theorem runFinal_none (e : RunEnv C S M ℝ G) {s : RunState C S M ℝ G} (h : s.last = none) :
    ∃ err, (runFinal e s).2 = .error err := by
  unfold runFinal
  cases reviveByCopy e.rng s.st.Js s.st.phisComp e.params.killThreshold s.st.g with
  | error err => exact ⟨err, rfl⟩
  | ok c => simp only [h]; exact ⟨_, rfl⟩

theorem runImpl_split (h : SplitEnv π A A' feat feat' sizes sizes' e e') (maxSteps : ℚ) (tol : ℝ)
    (interval : ℤ) {st : State C S M ℝ G} {st' : State C' S M ℝ G} (hs : SplitState st st') (b : ℤ) :
    PyRel (fun x x' => SplitResult π A A' ((runImpl e maxSteps tol interval st b).1, x)
        ((runImpl e' maxSteps tol interval st' b).1, x'))
      (runImpl e maxSteps tol interval st b).2 (runImpl e' maxSteps tol interval st' b).2 := by
  unfold runImpl
  dsimp only
  cases stepsTracker maxSteps interval with
  | error err => exact PyRel.error _ _
  | ok tracker =>
    dsimp only
    cases stepsInner maxSteps tracker with
    | error err => exact PyRel.error _ _
    | ok inner =>
      dsimp only
      have hl := runLoop_split h tol inner tracker.toNat
        (s := ⟨st, b, 0, none⟩) (s' := ⟨st', b, 0, none⟩) ⟨hs, rfl, rfl, .inl ⟨rfl, rfl⟩⟩
      generalize runLoop e tol inner tracker.toNat ⟨st, b, 0, none⟩ = y at hl
      generalize runLoop e' tol inner tracker.toNat ⟨st', b, 0, none⟩ = y' at hl
      obtain ⟨s, y⟩ := y
      obtain ⟨s', y'⟩ := y'
      dsimp only at hl
      rcases hl with ⟨⟨e1, rfl⟩, e2, rfl⟩ | ⟨a, a', rfl, rfl, hr⟩
      · exact PyRel.error _ _
      · dsimp only
        rcases hr.last with ⟨k1, k2⟩ | ⟨r, r', k1, k2, k3, k4, k5, k6, k7⟩
        · exact .inl ⟨runFinal_none e k1, runFinal_none e' k2⟩
        · have hp : SharedParts π A A' s.st.phisComp s'.st.phisComp := by rw [k4, k5]; exact k3.parts
          unfold runFinal
          rw [hr.state.Js, hr.state.g, h.rng, h.params]
          rcases reviveByCopy_parts (rng := e.rng) (thr := e.params.killThreshold) s.st.Js s.st.g hp with
            ⟨⟨e1, h1⟩, e2, h2⟩ | ⟨c, c', h1, h2, q1, q2, q3, q4, q5, q6⟩
          · rw [h1, h2]; exact PyRel.error _ _
          · rw [h1, h2]
            simp only [k1, k2]
            refine PyRel.ok ⟨?_, q1, q2, ⟨hr.state.omegas, hr.state.Js, hr.state.cons, q5⟩, ?_, hr.reviveLeft⟩
            · simp only [hr.steps, k3.incomp, k3.omegaDiff, k3.JsDiff, k3.residue, hr.reviveLeft]
            · show s'.st.phisFeat = s.st.phisFeat
              rw [k6, k7]; exact k3.phisFeat

end Flory
