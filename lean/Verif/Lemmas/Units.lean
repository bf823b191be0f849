import Verif.Spec.Units
import Verif.Lemmas.Loops

/-! # Passes and runs in another unit of molecular size -/

set_option linter.unusedSectionVars false

namespace Flory

theorem forRange_hom {σ τ : Type} {n : ℕ} (φ : σ → τ) {s : σ} {f : Fin n → σ → σ}
    {f' : Fin n → τ → τ} (h : ∀ i s, f' i (φ s) = φ (f i s)) :
    forRange n (φ s) f' = φ (forRange n s f) := by
  induction n with
  | zero => simp [forRange]
  | succ n ih => rw [forRange_succ, forRange_succ, ← h, ih fun i s => h _ s]

theorem foldl_hom' {α σ τ β : Type} (φ : σ → τ) (ψ : α → β) {f : σ → α → σ} {f' : τ → β → τ}
    (h : ∀ s a, f' (φ s) (ψ a) = φ (f s a)) (l : List α) (s : σ) :
    (l.map ψ).foldl f' (φ s) = φ (l.foldl f s) := by
  induction l generalizing s with
  | nil => rfl
  | cons a l ih => simp [h, ih]

namespace SizeUnit

variable {K G : Type} [Field K] [LinearOrder K] [IsStrictOrderedRing K] {C S M : ℕ} [NeZero M]
  {k : K}

theorem npMax_mul {n : ℕ} [NeZero n] (hk : 0 < k) (v : Vec n K) :
    npMax (fun i => k * v i) = k * npMax v := by
  obtain ⟨i, hi⟩ := npMax_mem v
  exact npMax_eq_of _ _ (fun j => mul_le_mul_of_nonneg_left (le_npMax v j) hk.le)
    ⟨i, by rw [hi]⟩

theorem npMin_mul {n : ℕ} [NeZero n] (hk : 0 < k) (v : Vec n K) :
    npMin (fun i => k * v i) = k * npMin v := by
  obtain ⟨i, hi⟩ := npMin_mem v
  obtain ⟨j, hj⟩ := npMin_mem fun i => k * v i
  refine le_antisymm (hi ▸ npMin_le (fun i => k * v i) i) ?_
  rw [hj]
  exact mul_le_mul_of_nonneg_left (npMin_le v j) hk.le

theorem pyDiv_mul (k a b : K) : pyDiv (k * a) b = (pyDiv a b).map (k * ·) := by
  unfold pyDiv
  split <;> simp [Except.map, mul_div_assoc]

theorem setAt_mul {n : ℕ} (a : Vec n K) (i : Fin n) (x : K) :
    setAt (fun j => k * a j) i (k * x) = fun j => k * setAt a i x j := by
  funext j
  unfold setAt
  split <;> rfl

theorem setAt_row {n : ℕ} (a : Mat n M K) (i : Fin n) (x : Vec M K) :
    setAt (fun j m => k * a j m) i (fun m => k * x m) = fun j m => k * setAt a i x j m := by
  funext j m
  unfold setAt
  split <;> rfl

/-- Reviving compartments commutes with the change of unit. -/
theorem reviveByRandom_mul (hk : 0 < k) {R : ℕ} (rng : Rng G K) (Js : Vec M K) (t : Mat R M K)
    (thr scaler : K) (g : G) :
    reviveByRandom rng Js (fun r m => k * t r m) thr scaler g =
      { reviveByRandom rng Js t thr scaler g with
        targets := fun r m => k * (reviveByRandom rng Js t thr scaler g).targets r m } := by
  unfold reviveByRandom
  refine forRange_hom (φ := fun s : ReviveState R M K G =>
    { s with targets := fun r m => k * s.targets r m }) (s := ⟨Js, t, g, 0⟩) fun m s => ?_
  dsimp only
  split
  · refine forRange_hom (φ := fun s : ReviveState R M K G =>
      { s with targets := fun r m => k * s.targets r m })
      (s := { s with Js := setAt s.Js m 1, count := s.count + 1 }) fun r s => ?_
    dsimp only
    congr 1
    funext r' m'
    unfold setAt2
    split
    · rw [npMax_mul hk, npMin_mul hk]; ring
    · rfl
  · rfl

theorem reviveBlock_mul (hk : 0 < k) (rng : Rng G K) {p p' : Params K}
    (h1 : p'.killThreshold = p.killThreshold) (h2 : p'.reviveScaler = p.reviveScaler)
    (tries : ℤ) (Js : Vec M K) (om : Mat S M K) (g : G) (count : ℕ) :
    reviveBlock rng p' tries Js (fun r m => k * om r m) g count =
      { reviveBlock rng p tries Js om g count with
        targets := fun r m => k * (reviveBlock rng p tries Js om g count).targets r m } := by
  unfold reviveBlock
  rw [h1, h2, reviveByRandom_mul hk]
  split
  · split <;> rfl
  · rfl

theorem sum_mul_scale {n : ℕ} {f g : Fin n → K} (h : ∀ a, f a = k * g a) (x : K) :
    (∑ a, f a) * x = k * ((∑ a, g a) * x) := by
  rw [← mul_assoc, Finset.mul_sum]
  simp only [h]

theorem prepare_inUnit (k : K) (ph : Mat S M K) (Js masks : Vec M K) (c : Cons S M K) :
    (c.inUnit k).prepare ph Js masks = (c.prepare ph Js masks).inUnit k := by
  cases c with
  | no c => rfl
  | loc A c =>
    simp only [Cons.inUnit, Cons.prepare, LocalC.prepare]
    congr 2
    · funext r m
      exact sum_mul_scale (fun a => by ring) _
    · funext m
      simp only [forRange_add_vec, zero_add]
      exact sum_mul_scale (fun a => by ring) _
  | glob A c =>
    simp only [Cons.inUnit, Cons.prepare, GlobalC.prepare]
    congr 2
    · funext r m
      rw [mul_one, mul_one]
      exact sum_mul_scale (fun a => by ring) _
    · funext m
      simp only [forRange_add_vec, zero_add]
      exact sum_mul_scale (fun a => by ring) _

theorem potential_inUnit (k : K) (c : Cons S M K) :
    (c.inUnit k).potential = fun r m => k * c.potential r m := by cases c <;> rfl

theorem volumeDerivative_inUnit (k : K) (c : Cons S M K) :
    (c.inUnit k).volumeDerivative = fun m => k * c.volumeDerivative m := by cases c <;> rfl

theorem evolve_inUnit (k step : K) (masks : Vec M K) (c : Cons S M K) :
    (c.inUnit k).evolve step masks =
      (c.evolve step masks).map fun r => (r.1, r.2.inUnit k) := by
  cases c with
  | no c => rfl
  | loc A c =>
    simp only [Cons.inUnit, Cons.evolve, LocalC.evolve]
    cases npMaxPy fun a => npMax fun m => |c.residue a m| with
    | error e => rfl
    | ok x =>
      simp only [bind_ok, pure, Except.pure, Except.map]
      congr 4
      funext a m
      ring
  | glob A c =>
    simp only [Cons.inUnit, Cons.evolve, GlobalC.evolve]
    cases npMaxPy fun a => |c.residue a| with
    | error e => rfl
    | ok x =>
      simp only [bind_ok, pure, Except.pure, Except.map]
      congr 4
      funext a
      ring

theorem evolveCons_inUnit (k step : K) (masks : Vec M K) (cs : List (Cons S M K)) (acc : K) :
    evolveCons step masks (cs.map (Cons.inUnit k)) acc =
      (evolveCons step masks cs acc).map fun r => (r.1, r.2.map (Cons.inUnit k)) := by
  induction cs generalizing acc with
  | nil => rfl
  | cons c cs ih =>
    simp only [List.map_cons, evolveCons, evolve_inUnit]
    cases c.evolve step masks with
    | error e => rfl
    | ok r =>
      simp only [Except.map, bind_ok, ih]
      cases evolveCons step masks cs (max acc r.1) with
      | error e => rfl
      | ok r => rfl

theorem computeXi_mul (k coef : K) (incomp : Vec M K) (om pot : Mat S M K)
    (cons : List (Cons S M K)) (masks : Vec M K) :
    computeXi (k * coef) incomp (fun r m => k * om r m) (fun r m => k * pot r m)
        (cons.map (Cons.inUnit k)) masks =
      fun m => k * computeXi coef incomp om pot cons masks m := by
  have h1 : (forRange S (fun m => k * coef * incomp m) fun r (xi : Vec M K) m =>
      xi m + (k * om r m - k * pot r m)) = fun m => k * (forRange S (fun m => coef * incomp m)
        fun r (xi : Vec M K) m => xi m + (om r m - pot r m)) m := by
    rw [show (fun m => k * coef * incomp m) = fun m => k * (coef * incomp m) from
      funext fun m => by ring]
    exact forRange_hom (φ := fun x : Vec M K => fun m => k * x m) fun r x => by
      funext m; ring
  unfold computeXi
  dsimp only
  rw [h1]
  have h2 := foldl_hom' (φ := fun x : Vec M K => fun m => k * x m) (Cons.inUnit k)
    (f := fun xi (c : Cons S M K) => forRange S xi fun r xi m => xi m - c.potential r m)
    (f' := fun xi (c : Cons S M K) => forRange S xi fun r xi m => xi m - c.potential r m)
    (fun s a => by
      rw [potential_inUnit]
      exact forRange_hom (φ := fun x : Vec M K => fun m => k * x m) fun r x => by
        funext m; ring) cons
    (forRange S (fun m => coef * incomp m) fun r (xi : Vec M K) m => xi m + (om r m - pot r m))
  rw [h2]
  funext m
  ring

theorem computeLocal_mul (k : K) (v1 v2 xi incomp : Vec M K) (pot ph : Mat S M K)
    (cons : List (Cons S M K)) :
    computeLocal (fun m => k * v1 m) (fun m => k * v2 m) (fun m => k * xi m) incomp
        (fun r m => k * pot r m) ph (cons.map (Cons.inUnit k)) =
      (fun m => k * (computeLocal v1 v2 xi incomp pot ph cons).1 m,
        fun r m => k * (computeLocal v1 v2 xi incomp pot ph cons).2 r m) := by
  unfold computeLocal
  dsimp only
  let φ : Vec M K × Mat S M K → Vec M K × Mat S M K :=
    fun s => (fun m => k * s.1 m, fun r m => k * s.2 r m)
  have h0 : ((fun m => k * v1 m + k * v2 m + k * xi m * incomp m, fun r m => k * pot r m) :
      Vec M K × Mat S M K) = φ (fun m => v1 m + v2 m + xi m * incomp m, pot) := by
    refine Prod.ext (funext fun m => ?_) rfl
    show _ = k * _
    ring
  rw [h0, foldl_hom' φ (Cons.inUnit k)
    (f := fun (s : Vec M K × Mat S M K) (c : Cons S M K) =>
      ((fun m => s.1 m + c.volumeDerivative m, fun r m => s.2 r m + c.potential r m) :
        Vec M K × Mat S M K))
    (fun s a => by
      rw [potential_inUnit, volumeDerivative_inUnit]
      refine Prod.ext (funext fun m => ?_) (funext fun r => funext fun m => ?_) <;>
      · simp only [φ]; ring)]
  refine forRange_hom (φ := φ) fun r s => ?_
  have h2 : (setAt (φ s).2 r fun m => (φ s).2 r m + k * xi m) =
      fun j m => k * setAt s.2 r (fun m => s.2 r m + xi m) j m := by
    rw [← setAt_row]
    congr 1
    funext m
    simp only [φ]; ring
  rw [h2]
  refine Prod.ext (funext fun m => ?_) rfl
  simp only [φ]
  ring

theorem updateOmegas_mul (hk : 0 < k) (step : K) (masks : Vec M K) (t om : Mat S M K) :
    updateOmegas step masks (fun r m => k * t r m) (fun r m => k * om r m) =
      (k * (updateOmegas step masks t om).1, fun r m => k * (updateOmegas step masks t om).2.1 r m,
        fun r m => k * (updateOmegas step masks t om).2.2 r m) := by
  unfold updateOmegas
  let φ : K × Mat S M K × Mat S M K → K × Mat S M K × Mat S M K :=
    fun s => (k * s.1, fun r m => k * s.2.1 r m, fun r m => k * s.2.2 r m)
  have h0 : ((0, fun r m => k * t r m, fun r m => k * om r m) : K × Mat S M K × Mat S M K) =
      φ (0, t, om) := by simp [φ]
  rw [h0]
  refine forRange_hom (φ := φ) fun r s => ?_
  dsimp only
  have h1 : (setAt (φ s).2.1 r fun m => (φ s).2.1 r m - (φ s).2.2 r m) =
      fun j m => k * setAt s.2.1 r (fun m => s.2.1 r m - s.2.2 r m) j m := by
    rw [← setAt_row]
    congr 1
    funext m
    simp only [φ]; ring
  rw [h1]
  generalize setAt s.2.1 r (fun m => s.2.1 r m - s.2.2 r m) = u
  have h2 : (setAt (fun j m => k * u j m) r fun m => k * u r m * masks m) =
      fun j m => k * setAt u r (fun m => u r m * masks m) j m := by
    rw [← setAt_row]
    congr 1
    funext m
    ring
  rw [h2]
  generalize setAt u r (fun m => u r m * masks m) = w
  have h3 : (setAt (φ s).2.2 r fun m => (φ s).2.2 r m + step * (k * w r m)) =
      fun j m => k * setAt s.2.2 r (fun m => s.2.2 r m + step * w r m) j m := by
    rw [← setAt_row]
    congr 1
    funext m
    simp only [φ]; ring
  rw [h3]
  generalize setAt s.2.2 r (fun m => s.2.2 r m + step * w r m) = y
  have h4 : (setAt (fun j m => k * y j m) r fun m => k * y r m * masks m) =
      fun j m => k * setAt y r (fun m => y r m * masks m) j m := by
    rw [← setAt_row]
    congr 1
    funext m
    ring
  rw [h4, npMax_mul hk]
  refine Prod.ext ?_ rfl
  show max (k * s.1) (k * npMax (w r)) = k * max s.1 (npMax (w r))
  rw [mul_max_of_nonneg _ _ hk.le]

theorem updateJs_mul (hk : 0 < k) (factor a : K) (d masks : Vec M K) (n : K) (Js : Vec M K) :
    updateJs factor (a / k) (fun m => k * d m) masks n Js = updateJs factor a d masks n Js := by
  unfold updateJs
  have : (fun m => Js m + factor * (a / k) * (k * d m)) = fun m => Js m + factor * a * d m := by
    funext m
    field_simp
  rw [this]

/-- One pass of the loop in another unit. -/
theorem iterate_inUnit (hk : 0 < k) {e e' : RunEnv C S M K G} (h : InUnit k e e') (tries : ℤ)
    (count : ℕ) (s : State C S M K G) :
    iterate e'.ia e'.en e'.es e'.rng e'.params tries count (s.inUnit k) =
      (iterate e.ia e.en e.es e.rng e.params tries count s).map (Trace.inUnit k) := by
  unfold iterate
  dsimp only [State.inUnit]
  rw [h.rng, reviveBlock_mul hk e.rng h.kill h.scaler, h.kill, h.es, h.compToFeat, h.bound,
    h.acceptanceJs, h.acceptanceOmega]
  set rv := reviveBlock e.rng e.params tries s.Js s.omegas s.g count
  dsimp only
  rw [h.partition]
  cases e.en.partition s.phisComp rv.targets
    (fun m => rv.Js m * makeMasks rv.Js e.params.killThreshold m) with
  | error x => rfl
  | ok x =>
  simp only [bind_ok]
  cases e.es.normalize x.1 x.2 (makeMasks rv.Js e.params.killThreshold) with
  | error x => rfl
  | ok y =>
  simp only [bind_ok]
  cases e.en.compToFeat s.phisFeat y.1 with
  | error x => rfl
  | ok z =>
  simp only [bind_ok]
  set masks := makeMasks rv.Js e.params.killThreshold
  set Js : Vec M K := fun m => rv.Js m * masks m
  have hc : List.map (Cons.prepare z Js masks) (List.map (Cons.inUnit k) s.cons) =
      List.map (Cons.inUnit k) (List.map (Cons.prepare z Js masks) s.cons) := by
    simp only [List.map_map]
    exact List.map_congr_left fun c _ => prepare_inUnit k z Js masks c
  have hp : e'.ia.potential z = fun r m => k * e.ia.potential z r m :=
    funext fun r => funext fun m => h.potential z r m
  have hv : e'.en.volumeDerivative y.1 = fun m => k * e.en.volumeDerivative y.1 m :=
    funext fun m => h.entropyVd y.1 m
  have hi : e'.ia.volumeDerivative (fun r m => k * e.ia.potential z r m) z =
      fun m => k * e.ia.volumeDerivative (e.ia.potential z) z m :=
    funext fun m => h.interactionVd _ z m
  rw [hc, hp, hv, hi, h.coef, computeXi_mul, computeLocal_mul]
  set cp := List.map (Cons.prepare z Js masks) s.cons
  set xi := computeXi (e.ia.incompCoef z) y.2 rv.targets (e.ia.potential z) cp masks
  set L := computeLocal (e.ia.volumeDerivative (e.ia.potential z) z) (e.en.volumeDerivative y.1) xi
    y.2 (e.ia.potential z) z cp
  dsimp only
  rw [show (∑ m, k * L.1 m * Js m) = k * ∑ m, L.1 m * Js m by
    rw [Finset.mul_sum]; exact Finset.sum_congr rfl fun m _ => by ring, pyDiv_mul]
  cases pyDiv (∑ m, L.1 m * Js m) (∑ m, masks m) with
  | error x => rfl
  | ok lm =>
  simp only [Except.map, bind_ok]
  have hd : (fun m => (k * lm - k * L.1 m) * masks m) = fun m => k * ((lm - L.1 m) * masks m) :=
    funext fun m => by ring
  rw [hd]
  have hmax : (npMax fun m => |(k * lm - k * L.1 m) * masks m|) =
      k * npMax fun m => |(lm - L.1 m) * masks m| := by
    rw [← npMax_mul hk]
    congr 1
    funext m
    rw [← mul_sub, mul_assoc, abs_mul, abs_of_pos hk]
  rw [hmax, show k * (npMax fun m => |(lm - L.1 m) * masks m|) * (e.params.acceptanceJs / k) =
    (npMax fun m => |(lm - L.1 m) * masks m|) * e.params.acceptanceJs by field_simp]
  cases pyDiv e.params.JsStepUpperBound
      (max ((npMax fun m => |(lm - L.1 m) * masks m|) * e.params.acceptanceJs) e.params.JsStepUpperBound) with
  | error x => rfl
  | ok f =>
  simp only [bind_ok]
  rw [updateJs_mul hk]
  cases updateJs f e.params.acceptanceJs (fun m => (lm - L.1 m) * masks m) masks (∑ m, masks m) Js with
  | error x => rfl
  | ok J =>
  simp only [bind_ok]
  rw [updateOmegas_mul hk, evolveCons_inUnit]
  cases evolveCons (f * e.params.acceptanceOmega) masks cp 0 with
  | error x => rfl
  | ok q => rfl

theorem iterateMore_inUnit (hk : 0 < k) {e e' : RunEnv C S M K G} (h : InUnit k e e') (tries : ℤ)
    (n : ℕ) (t : Trace C S M K G) :
    iterateMore e'.ia e'.en e'.es e'.rng e'.params tries n (t.inUnit k) =
      (iterateMore e.ia e.en e.es e.rng e.params tries n t).map (Trace.inUnit k) := by
  induction n generalizing t with
  | zero => rfl
  | succ n ih =>
    have h1 := iterate_inUnit hk h tries t.reviveCount t.state
    have h2 : iterate e'.ia e'.en e'.es e'.rng e'.params tries (t.inUnit k).reviveCount
        (t.inUnit k).state = (iterate e.ia e.en e.es e.rng e.params tries t.reviveCount
          t.state).map (Trace.inUnit k) := h1
    simp only [iterateMore]
    rw [h2]
    cases iterate e.ia e.en e.es e.rng e.params tries t.reviveCount t.state with
    | error x => rfl
    | ok u => simp only [Except.map, bind_ok]; exact ih u

/-- A metastep in another unit. -/
theorem metastep_inUnit (hk : 0 < k) {e e' : RunEnv C S M K G} (h : InUnit k e e') (tries : ℤ)
    (n : ℕ) (s : State C S M K G) :
    metastep e'.ia e'.en e'.es e'.rng e'.params tries n (s.inUnit k) =
      (metastep e.ia e.en e.es e.rng e.params tries n s).map (MetaResult.inUnit k) := by
  cases n with
  | zero => rfl
  | succ n =>
    simp only [metastep]
    rw [iterate_inUnit hk h]
    cases iterate e.ia e.en e.es e.rng e.params tries 0 s with
    | error x => rfl
    | ok u =>
      simp only [Except.map, bind_ok]
      rw [iterateMore_inUnit hk h]
      cases iterateMore e.ia e.en e.es e.rng e.params tries n u with
      | error x => rfl
      | ok v => simp only [Except.map, bind_ok]; rw [h.kill]; rfl

end SizeUnit

end Flory
