import Verif.Lemmas.Compartments
import Mathlib.Tactic.Ring
import Mathlib.Tactic.Abel
import Mathlib.Tactic.LinearCombination

/-! # Closed forms of the variables of one pass of the core iteration -/

set_option linter.unusedSectionVars false

namespace Flory

variable {K G : Type} [Field K] [LinearOrder K] [IsStrictOrderedRing K]
variable {C S M : ℕ} [NeZero M]

theorem foldl_sub_vec {α ι : Type} (cs : List α) (f : α → ι → K) (x : ι → K) (m : ι) :
    (cs.foldl (fun x c m => x m - f c m) x) m = x m - (cs.map fun c => f c m).sum := by
  induction cs generalizing x with
  | nil => simp
  | cons c cs ih => rw [List.foldl_cons, ih]; simp; abel

theorem foldl_add_vec {α ι : Type} (cs : List α) (f : α → ι → K) (x : ι → K) (m : ι) :
    (cs.foldl (fun x c m => x m + f c m) x) m = x m + (cs.map fun c => f c m).sum := by
  induction cs generalizing x with
  | nil => simp
  | cons c cs ih => rw [List.foldl_cons, ih]; simp; abel

/-- Sum of the potentials of a list of constraints. -/
def consPot (cons : List (Cons S M K)) (r : Fin S) (m : Fin M) : K :=
  (cons.map fun c => c.potential r m).sum

/-- Sum of the volume derivatives of a list of constraints. -/
def consVd (cons : List (Cons S M K)) (m : Fin M) : K :=
  (cons.map fun c => c.volumeDerivative m).sum

theorem list_sum_sum (cons : List (Cons S M K)) (m : Fin M) :
    (cons.map fun c => ∑ r, c.potential r m).sum = ∑ r, consPot cons r m := by
  unfold consPot
  induction cons with
  | nil => simp
  | cons c cs ih => simp [ih, Finset.sum_add_distrib]

theorem computeXi_eq (coef : K) (incomp : Vec M K) (omegas potential : Mat S M K)
    (cons : List (Cons S M K)) (masks : Vec M K) (m : Fin M) :
    computeXi coef incomp omegas potential cons masks m =
      (coef * incomp m + ∑ r, (omegas r m - potential r m) - ∑ r, consPot cons r m)
        * masks m / (S : K) := by
  have h : ∀ (x : Vec M K),
      (cons.foldl (fun xi c => forRange S xi fun r xi m => xi m - c.potential r m) x) m =
        x m - ∑ r, consPot cons r m := by
    intro x
    have e : (fun (xi : Vec M K) (c : Cons S M K) =>
        forRange S xi fun r xi m => xi m - c.potential r m) =
        fun xi c m => xi m - ∑ r, c.potential r m := by
      funext xi c m
      exact forRange_sub_vec xi (fun r m => c.potential r m) m
    rw [e, foldl_sub_vec cons (fun c m => ∑ r, c.potential r m), list_sum_sum]
  unfold computeXi
  simp only
  rw [h, forRange_add_vec (fun m => coef * incomp m) (fun r m => omegas r m - potential r m)]

theorem computeLocal_eq (vi ve : Vec M K) (xi incomp : Vec M K) (potential : Mat S M K)
    (phisFeat : Mat S M K) (cons : List (Cons S M K)) :
    computeLocal vi ve xi incomp potential phisFeat cons =
      (fun m => vi m + ve m + xi m * incomp m + consVd cons m
        - ∑ r, (potential r m + consPot cons r m + xi m) * phisFeat r m,
       fun r m => potential r m + consPot cons r m + xi m) := by
  unfold computeLocal
  simp only
  have h : ∀ (s : Vec M K × Mat S M K), (cons.foldl (fun (s : Vec M K × Mat S M K) c =>
      (fun m => s.1 m + c.volumeDerivative m, fun r m => s.2 r m + c.potential r m)) s) =
      (fun m => s.1 m + consVd cons m, fun r m => s.2 r m + consPot cons r m) := by
    unfold consVd consPot
    induction cons with
    | nil => intro s; simp
    | cons c cs ih =>
      intro s
      rw [List.foldl_cons, ih]
      simp [add_assoc]
  rw [h]
  simp only
  set a : Vec M K := fun m => vi m + ve m + xi m * incomp m + consVd cons m
  set b : Mat S M K := fun r m => potential r m + consPot cons r m
  have := forRange_inv (n := S) (s := (a, b)) (body := fun r s =>
    (fun m => s.1 m - (setAt s.2 r fun m => s.2 r m + xi m) r m * phisFeat r m,
      setAt s.2 r fun m => s.2 r m + xi m))
    (fun k t => (∀ m, t.1 m = a m - ∑ r : Fin S, if (r : ℕ) < k then
        (b r m + xi m) * phisFeat r m else 0) ∧
      ∀ (r : Fin S) m, t.2 r m = if (r : ℕ) < k then b r m + xi m else b r m)
    (by simp) (by
      rintro i t ⟨h1, h2⟩
      refine ⟨fun m => ?_, fun r m => ?_⟩
      · simp only [setAt_same, h1, h2, lt_irrefl, if_false]
        rw [sub_sub]
        congr 1
        have : ∀ r : Fin S, (if (r : ℕ) < i + 1 then (b r m + xi m) * phisFeat r m else 0) =
            (if (r : ℕ) < i then (b r m + xi m) * phisFeat r m else 0) +
            (if r = i then (b r m + xi m) * phisFeat r m else 0) := by
          intro r
          by_cases hr : r = i
          · subst hr; simp
          · have : (r : ℕ) ≠ i := fun e => hr (Fin.ext e)
            by_cases hl : (r : ℕ) < i
            · simp [hl, hr, Nat.lt_succ_of_lt hl]
            · have : ¬ (r : ℕ) < i + 1 := by omega
              simp [hl, hr, this]
        simp [this, Finset.sum_add_distrib]
      · by_cases hr : r = i
        · subst hr; simp [h2]
        · have : (r : ℕ) ≠ i := fun e => hr (Fin.ext e)
          show setAt t.2 i _ r m = _
          rw [setAt_ne _ _ hr, h2]
          by_cases hl : (r : ℕ) < i
          · simp [hl, Nat.lt_succ_of_lt hl]
          · have : ¬ (r : ℕ) < i + 1 := by omega
            simp [hl, this])
  refine Prod.ext (funext fun m => ?_) (funext fun r => funext fun m => ?_)
  · exact (this.1 m).trans (by simp [a, b])
  · exact (this.2 r m).trans (by simp [b])

theorem updateJs_eq {factor acc : K} {JsDiff masks : Vec M K} {nValid : K} {Js Js' : Vec M K}
    (h : updateJs factor acc JsDiff masks nValid Js = .ok Js') :
    nValid ≠ 0 ∧ ∀ m, Js' m = ((Js m + factor * acc * JsDiff m) * masks m
      + (1 - (∑ k, (Js k + factor * acc * JsDiff k) * masks k) / nValid)) * masks m := by
  unfold updateJs at h
  obtain ⟨mean, h1, h2⟩ := bind_eq_ok.mp h
  obtain ⟨h3, h4⟩ := pyDiv_eq_ok.mp h1
  refine ⟨h3, fun m => ?_⟩
  rw [h4, ← (Except.ok.inj h2 : _ = Js')]

theorem updateJs_ok (factor acc : K) (JsDiff masks : Vec M K) {nValid : K} (Js : Vec M K)
    (h : nValid ≠ 0) : ∃ Js', updateJs factor acc JsDiff masks nValid Js = .ok Js' := by
  unfold updateJs
  simp only
  rw [pyDiv_ok h]
  exact ⟨_, rfl⟩

/-- Maximum over the rows with index below `S` of the maximum of the row, starting from zero. -/
def rowsMax (d : Mat S M K) : K := forRange S 0 fun r acc => max acc (npMax (d r))

theorem updateOmegas_eq (step : K) (masks : Vec M K) (ot om : Mat S M K) :
    updateOmegas step masks ot om =
      (rowsMax fun r m => (ot r m - om r m) * masks m,
       fun r m => (ot r m - om r m) * masks m,
       fun r m => (om r m + step * ((ot r m - om r m) * masks m)) * masks m) := by
  unfold updateOmegas
  have key : ∀ (n : ℕ) (hn : n ≤ S), 
      forRange n ((0 : K), ot, om) (fun (r : Fin n) s =>
        let r : Fin S := Fin.castLE hn r
        let omegaTemp := setAt s.2.1 r fun m => s.2.1 r m - s.2.2 r m
        let omegaTemp := setAt omegaTemp r fun m => omegaTemp r m * masks m
        let maxDiff := max s.1 (npMax (omegaTemp r))
        let omegas := setAt s.2.2 r fun m => s.2.2 r m + step * omegaTemp r m
        let omegas := setAt omegas r fun m => omegas r m * masks m
        (maxDiff, omegaTemp, omegas)) =
      (forRange n 0 (fun (r : Fin n) acc => max acc (npMax fun m =>
          (ot (Fin.castLE hn r) m - om (Fin.castLE hn r) m) * masks m)),
       fun (r : Fin S) => if (r : ℕ) < n then fun m => (ot r m - om r m) * masks m else ot r,
       fun (r : Fin S) => if (r : ℕ) < n then
          fun m => (om r m + step * ((ot r m - om r m) * masks m)) * masks m else om r) := by
    intro n
    induction n with
    | zero => intro _; simp
    | succ n ih =>
      intro hn
      rw [forRange_succ, forRange_succ]
      have := ih (by omega)
      simp only [Fin.castLE_castSucc] at this ⊢
      rw [this]
      have hlt : ¬ ((Fin.castLE hn (Fin.last n) : Fin S) : ℕ) < n := by simp
      simp only [setAt_same, hlt, if_false]
      refine Prod.ext rfl (Prod.ext (funext fun r => ?_) (funext fun r => ?_))
      · by_cases hr : r = Fin.castLE hn (Fin.last n)
        · subst hr; simp
        · have : (r : ℕ) ≠ n := fun e => hr (Fin.ext (by simpa using e))
          simp only [setAt_ne _ _ hr]
          by_cases hl : (r : ℕ) < n
          · simp [hl, Nat.lt_succ_of_lt hl]
          · have : ¬ (r : ℕ) < n + 1 := by omega
            simp [hl, this]
      · by_cases hr : r = Fin.castLE hn (Fin.last n)
        · subst hr; simp
        · have : (r : ℕ) ≠ n := fun e => hr (Fin.ext (by simpa using e))
          simp only [setAt_ne _ _ hr]
          by_cases hl : (r : ℕ) < n
          · simp [hl, Nat.lt_succ_of_lt hl]
          · have : ¬ (r : ℕ) < n + 1 := by omega
            simp [hl, this]
  have h := key S le_rfl
  simp only [Fin.castLE_rfl, Fin.is_lt, if_true] at h
  exact h

theorem rowsMax_spec (d : Mat S M K) :
    0 ≤ rowsMax d ∧ (∀ r m, d r m ≤ rowsMax d) ∧
      (rowsMax d = 0 ∨ ∃ r m, rowsMax d = d r m) := by
  have := forRange_inv (n := S) (s := (0 : K)) (body := fun r acc => max acc (npMax (d r)))
    (fun k acc => 0 ≤ acc ∧ (∀ (r : Fin S) m, (r : ℕ) < k → d r m ≤ acc) ∧
      (acc = 0 ∨ ∃ r m, acc = d r m))
    (by simp) (by
      rintro i acc ⟨h1, h2, h3⟩
      refine ⟨h1.trans (le_max_left _ _), fun r m hr => ?_, ?_⟩
      · rcases Nat.lt_succ_iff_lt_or_eq.mp hr with h | h
        · exact (h2 r m h).trans (le_max_left _ _)
        · have : r = i := Fin.ext h
          subst this
          exact (le_npMax (d r) m).trans (le_max_right _ _)
      · rcases max_choice acc (npMax (d i)) with h | h
        · rw [h]; exact h3
        · rw [h]
          obtain ⟨m, hm⟩ := npMax_mem (d i)
          exact Or.inr ⟨i, m, hm⟩)
  exact ⟨this.1, fun r m => this.2.1 r m r.2, this.2.2⟩

/-- Everything known about the variables of one successful pass, for arbitrary instances. -/
structure IterFacts (ia : InteractionI S M K) (en : EntropyI C S M K) (es : EnsembleI C M K)
    (rng : Rng G K) (p : Params K) (tries : ℤ) (count : ℕ) (s : State C S M K G)
    (t : Trace C S M K G) : Prop where
  omegasOld : t.omegasOld = (reviveBlock rng p tries s.Js s.omegas s.g count).targets
  gen : t.g = (reviveBlock rng p tries s.Js s.omegas s.g count).g
  reviveCount : t.reviveCount = (reviveBlock rng p tries s.Js s.omegas s.g count).count
  masks : t.masks = makeMasks (reviveBlock rng p tries s.Js s.omegas s.g count).Js p.killThreshold
  nValid : t.nValid = ∑ m, t.masks m
  nValid_ne : t.nValid ≠ 0
  JsOld : ∀ m, t.JsOld m =
    (reviveBlock rng p tries s.Js s.omegas s.g count).Js m * t.masks m
  partition : ∃ phi0, en.partition s.phisComp t.omegasOld t.JsOld = .ok (phi0, t.Qs) ∧
    es.normalize phi0 t.Qs t.masks = .ok (t.phisComp, t.incomp)
  phisFeat : en.compToFeat s.phisFeat t.phisComp = .ok t.phisFeat
  maxAbsIncomp : t.maxAbsIncomp = npMax fun m => |t.incomp m|
  consPrep : t.consPrep = s.cons.map (Cons.prepare t.phisFeat t.JsOld t.masks)
  potential : t.potential = ia.potential t.phisFeat
  xi : ∀ m, t.xi m = (ia.incompCoef t.phisFeat * t.incomp m
    + ∑ r, (t.omegasOld r m - t.potential r m) - ∑ r, consPot t.consPrep r m)
      * t.masks m / (S : K)
  localEnergy : ∀ m, t.localEnergy m = ia.volumeDerivative t.potential t.phisFeat m
    + en.volumeDerivative t.phisComp m + t.xi m * t.incomp m + consVd t.consPrep m
    - ∑ r, (t.potential r m + consPot t.consPrep r m + t.xi m) * t.phisFeat r m
  localEnergyMean : t.localEnergyMean = (∑ m, t.localEnergy m * t.JsOld m) / t.nValid
  JsDiff : ∀ m, t.JsDiff m = (t.localEnergyMean - t.localEnergy m) * t.masks m
  maxAbsJsDiff : t.maxAbsJsDiff = npMax fun m => |t.JsDiff m|
  factor_ne : max (t.maxAbsJsDiff * p.acceptanceJs) p.JsStepUpperBound ≠ 0
  factor : t.factor =
    p.JsStepUpperBound / max (t.maxAbsJsDiff * p.acceptanceJs) p.JsStepUpperBound
  Js : ∀ m, t.Js m = ((t.JsOld m + t.factor * p.acceptanceJs * t.JsDiff m) * t.masks m
    + (1 - (∑ k, (t.JsOld k + t.factor * p.acceptanceJs * t.JsDiff k) * t.masks k) / t.nValid))
      * t.masks m
  omegaDiff : ∀ r m, t.omegaDiff r m =
    (t.potential r m + consPot t.consPrep r m + t.xi m - t.omegasOld r m) * t.masks m
  omegas : ∀ r m, t.omegas r m = (t.omegasOld r m +
    t.factor * p.acceptanceOmega * t.omegaDiff r m) * t.masks m
  maxAbsOmegaDiff : t.maxAbsOmegaDiff = rowsMax t.omegaDiff
  cons : evolveCons (t.factor * p.acceptanceOmega) t.masks t.consPrep 0 =
    .ok (t.maxConstraintResidue, t.cons)

theorem iterate_facts {ia : InteractionI S M K} {en : EntropyI C S M K} {es : EnsembleI C M K}
    {rng : Rng G K} {p : Params K} {tries : ℤ} {count : ℕ} {s : State C S M K G}
    {t : Trace C S M K G} (h : iterate ia en es rng p tries count s = .ok t) :
    IterFacts ia en es rng p tries count s t := by
  unfold iterate at h
  simp only [computeLocal_eq, updateOmegas_eq, bind_eq_ok, pyDiv_eq_ok] at h
  obtain ⟨⟨phi0, Qs⟩, h1, ⟨phisComp, incomp⟩, h2, phisFeat, h3, mean, ⟨h4, h5⟩, factor,
    ⟨h6, h7⟩, JsNew, h8, ⟨res, cons⟩, h9, h10⟩ := h
  cases h10
  obtain ⟨h11, h12⟩ := updateJs_eq h8
  refine ⟨rfl, rfl, rfl, rfl, rfl, h4, fun _ => rfl, ⟨_, h1, h2⟩, h3, rfl, rfl, rfl,
    fun m => computeXi_eq _ _ _ _ _ _ m, fun _ => rfl, h5.symm, fun _ => rfl, rfl, h6, h7.symm,
    h12, fun _ _ => rfl, fun _ _ => rfl, rfl, h9⟩

end Flory
