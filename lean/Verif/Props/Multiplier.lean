import Verif.Props.Constraint
import Verif.Lemmas.Balance

/-! # Lagrange multipliers of constraints move against the violation (C67) -/

set_option linter.unusedSectionVars false

namespace Flory

open Spec

variable {A S M : ℕ}

/-- Replace one multiplier of a local constraint. -/
def updMultiplier (xi : Mat A M ℝ) (a : Fin A) (m : Fin M) (x : ℝ) : Mat A M ℝ :=
  fun a' m' => if a' = a ∧ m' = m then x else xi a' m'

/-- `new` is the constraint `old` after one step in which each multiplier increases by `step` times the
acceptance ratio times the slope of the documented constraint energy with respect to this multiplier (per
volume).  `J` are the volumes; only compartments with mask one count, the multipliers of the
others are reset. -/
inductive Ascends (phi : Mat S M ℝ) (J mk : Vec M ℝ) (step : ℝ) : Cons S M ℝ → Cons S M ℝ → Prop
  | no {c c' : NoC S M ℝ} : Ascends phi J mk step (.no c) (.no c')
  | loc {A : ℕ} {c c' : LocalC A S M ℝ} :
      c'.Cs = c.Cs → c'.Ts = c.Ts → c'.elasticity = c.elasticity →
      c'.acceptanceRatio = c.acceptanceRatio →
      (∀ a m, mk m = 1 → ∃ slope, HasDerivAt (fun x => localConstraintEnergy c.Cs c.Ts
          (updMultiplier c.multiplier a m x) c.elasticity phi J) (J m * slope) (c.multiplier a m) ∧
        c'.multiplier a m = c.multiplier a m + step * c.acceptanceRatio * slope) →
      (∀ a m, mk m = 0 → c'.multiplier a m = 0) → Ascends phi J mk step (.loc A c) (.loc A c')
  | glob {A : ℕ} {c c' : GlobalC A S M ℝ} :
      c'.Cs = c.Cs → c'.Ts = c.Ts → c'.elasticity = c.elasticity →
      c'.acceptanceRatio = c.acceptanceRatio →
      (∀ a, ∃ slope, HasDerivAt (fun x => globalConstraintEnergy c.Cs c.Ts
          (setAt c.multiplier a x) c.elasticity phi J) ((∑ m, J m) * slope) (c.multiplier a) ∧
        c'.multiplier a = c.multiplier a + step * c.acceptanceRatio * slope) →
      Ascends phi J mk step (.glob A c) (.glob A c')

theorem localEnergy_slope (Cs : Mat A S ℝ) (Ts : Vec A ℝ) (xi : Mat A M ℝ) (kappa : ℝ)
    (phi : Mat S M ℝ) (J : Vec M ℝ) (a : Fin A) (m : Fin M) :
    HasDerivAt (fun x => localConstraintEnergy Cs Ts (updMultiplier xi a m x) kappa phi J)
      (J m * violation Cs Ts phi a m) (xi a m) := by
  unfold localConstraintEnergy
  have h : ∀ a' m', HasDerivAt (fun x => updMultiplier xi a m x a' m')
      (if a' = a ∧ m' = m then 1 else 0) (xi a m) := by
    intro a' m'
    unfold updMultiplier
    by_cases h : a' = a ∧ m' = m
    · simp only [h, and_self, if_true]; exact hasDerivAt_id _
    · simp only [h, if_false]; exact hasDerivAt_const _ _
  have h' := HasDerivAt.fun_sum (u := Finset.univ) (x := xi a m) fun a' _ =>
    HasDerivAt.fun_sum (u := Finset.univ) (x := xi a m) fun m' _ =>
      (((h a' m').mul_const (violation Cs Ts phi a' m')).add_const
        (kappa * violation Cs Ts phi a' m' ^ 2)).const_mul (J m')
  refine h'.congr_deriv ?_
  rw [Finset.sum_eq_single a, Finset.sum_eq_single m]
  · simp
  · intro m' _ hm; simp [hm]
  · simp
  · intro a' _ ha; exact Finset.sum_eq_zero fun m' _ => by simp [ha]
  · simp

theorem globalEnergy_slope (Cs : Mat A S ℝ) (Ts : Vec A ℝ) (xi : Vec A ℝ) (kappa : ℝ)
    (phi : Mat S M ℝ) (J : Vec M ℝ) (a : Fin A) :
    HasDerivAt (fun x => globalConstraintEnergy Cs Ts (setAt xi a x) kappa phi J)
      (∑ m, J m * violation Cs Ts phi a m) (xi a) := by
  unfold globalConstraintEnergy
  have h' := (HasDerivAt.fun_sum (u := Finset.univ) (x := xi a) fun a' _ =>
    (hasDerivAt_setAt xi a a' (xi a)).mul_const (∑ m, J m * violation Cs Ts phi a' m)).add_const
      (∑ a, kappa * (∑ m, J m * violation Cs Ts phi a m) ^ 2)
  refine h'.congr_deriv ?_
  rw [Finset.sum_eq_single a]
  · simp
  · intro a' _ ha; simp [ha]
  · simp

section Pass

variable {G : Type} {C : ℕ} [NeZero M]
variable {ia : InteractionI S M ℝ} {en : EntropyI C S M ℝ} {es : EnsembleI C M ℝ}
  {rng : Rng G ℝ} {p : Params ℝ} {tries : ℤ} {count : ℕ} {s : State C S M ℝ G}
  {t : Trace C S M ℝ G}

theorem Cons.evolve_ascends {phi : Mat S M ℝ} {J mk : Vec M ℝ} {step res : ℝ} {k k' : Cons S M ℝ}
    (hJ : ∑ m, J m ≠ 0) (h : (Cons.prepare phi J mk k).evolve step mk = .ok (res, k')) :
    Ascends phi J mk step k k' := by
  cases k with
  | no c => rw [Cons.evolve_no h]; exact .no
  | loc A c =>
    obtain ⟨⟨r, c1⟩, h1, h2⟩ := bind_eq_ok.mp h
    obtain ⟨-, rfl⟩ := Prod.mk.inj (Except.ok.inj h2)
    obtain ⟨y, -, h4⟩ := bind_eq_ok.mp h1
    obtain ⟨-, rfl⟩ := Prod.mk.inj (Except.ok.inj h4)
    refine .loc rfl rfl rfl rfl (fun a m hm => ⟨_, localEnergy_slope _ _ _ _ _ _ a m, ?_⟩)
      fun a m hm => ?_
    · show (c.multiplier a m + step * c.acceptanceRatio * (c.prepare phi J mk).residue a m) * mk m = _
      rw [c.prepare_residue, hm, mul_one, mul_one]
      rfl
    · show _ * mk m = 0
      rw [hm, mul_zero]
  | glob A c =>
    obtain ⟨⟨r, c1⟩, h1, h2⟩ := bind_eq_ok.mp h
    obtain ⟨-, rfl⟩ := Prod.mk.inj (Except.ok.inj h2)
    obtain ⟨y, -, h4⟩ := bind_eq_ok.mp h1
    obtain ⟨-, rfl⟩ := Prod.mk.inj (Except.ok.inj h4)
    refine .glob rfl rfl rfl rfl fun a => ⟨(c.prepare phi J mk).residue a, ?_, rfl⟩
    refine (globalEnergy_slope _ _ _ _ _ _ a).congr_deriv ?_
    rw [c.prepare_residue, mul_div_cancel₀ _ hJ]
    exact Finset.sum_congr rfl fun m _ => by unfold violation; ring

theorem evolveCons_ascends {phi : Mat S M ℝ} {J mk : Vec M ℝ} {step acc res : ℝ}
    {cs cs' : List (Cons S M ℝ)} (hJ : ∑ m, J m ≠ 0)
    (h : evolveCons step mk (cs.map (Cons.prepare phi J mk)) acc = .ok (res, cs')) :
    List.Forall₂ (Ascends phi J mk step) cs cs' := by
  induction cs generalizing acc cs' res with
  | nil =>
    obtain ⟨-, rfl⟩ := Prod.mk.inj (Except.ok.inj h)
    exact .nil
  | cons k ks ih =>
    simp only [List.map_cons, evolveCons] at h
    obtain ⟨⟨r1, k1⟩, h1, h2⟩ := bind_eq_ok.mp h
    obtain ⟨⟨r2, ks2⟩, h3, h4⟩ := bind_eq_ok.mp h2
    obtain ⟨-, rfl⟩ := Prod.mk.inj (Except.ok.inj h4)
    exact .cons (Cons.evolve_ascends hJ h1) (ih h3)

/-- **C67**. In every pass the constraints keep their coefficients, and each Lagrange multiplier moves up
the documented constraint energy (evaluated at the fractions and volumes of the pass), with the
step of the fields times the acceptance ratio of the constraint. -/
theorem C67_multipliers (hthr : 0 ≤ p.killThreshold)
    (h : iterate ia en es rng p tries count s = .ok t) :
    List.Forall₂ (Ascends t.phisFeat t.JsOld t.masks (t.factor * p.acceptanceOmega)) s.cons t.cons := by
  have hf := iterate_facts h
  have hc := hf.cons
  rw [hf.consPrep] at hc
  refine evolveCons_ascends ?_ hc
  obtain ⟨m, hm, -⟩ := hf.exists_Js_ge_one
  refine ne_of_gt (Finset.sum_pos' (fun k _ => hf.JsOld_nonneg hthr k) ⟨m, Finset.mem_univ m, ?_⟩)
  exact lt_of_le_of_lt hthr (hf.JsOld_gt hm)

/-- Living multipliers (all multipliers of global constraints) are the same. -/
inductive SameMultipliers (mk : Vec M ℝ) : Cons S M ℝ → Cons S M ℝ → Prop
  | no {c c' : NoC S M ℝ} : SameMultipliers mk (.no c) (.no c')
  | loc {A : ℕ} {c c' : LocalC A S M ℝ} :
      (∀ a m, mk m = 1 → c'.multiplier a m = c.multiplier a m) → SameMultipliers mk (.loc A c) (.loc A c')
  | glob {A : ℕ} {c c' : GlobalC A S M ℝ} :
      (∀ a, c'.multiplier a = c.multiplier a) → SameMultipliers mk (.glob A c) (.glob A c')

/-- The acceptance ratio of a constraint does not vanish. -/
def Responsive : Cons S M ℝ → Prop
  | .no _ => True
  | .loc _ c => c.acceptanceRatio ≠ 0
  | .glob _ c => c.acceptanceRatio ≠ 0

/-- **C67**, stationarity: the multipliers stop moving exactly when all constraints are fulfilled. -/
theorem C67_stationary_iff (hthr : 0 ≤ p.killThreshold) (hb : 0 < p.JsStepUpperBound)
    (hacc : p.acceptanceOmega ≠ 0) (hresp : ∀ k ∈ s.cons, Responsive k)
    (h : iterate ia en es rng p tries count s = .ok t) :
    List.Forall₂ (SameMultipliers t.masks) s.cons t.cons ↔
      ∀ k ∈ s.cons, Satisfied t.phisFeat t.JsOld t.masks 0 k := by
  have hf := iterate_facts h
  have hstep : t.factor * p.acceptanceOmega ≠ 0 := mul_ne_zero (hf.factor_le_one hb).1.ne' hacc
  have hJ : ∑ m, t.JsOld m ≠ 0 := by
    obtain ⟨m, hm, -⟩ := hf.exists_Js_ge_one
    refine ne_of_gt (Finset.sum_pos' (fun k _ => hf.JsOld_nonneg hthr k) ⟨m, Finset.mem_univ m, ?_⟩)
    exact lt_of_le_of_lt hthr (hf.JsOld_gt hm)
  have hpos : ∀ m, t.masks m = 1 → t.JsOld m ≠ 0 := fun m hm =>
    (lt_of_le_of_lt hthr (hf.JsOld_gt hm)).ne'
  have key : ∀ k k', Responsive k →
      Ascends t.phisFeat t.JsOld t.masks (t.factor * p.acceptanceOmega) k k' →
      (SameMultipliers t.masks k k' ↔ Satisfied t.phisFeat t.JsOld t.masks 0 k) := by
    intro k k' hr ha
    cases ha with
    | no => exact ⟨fun _ => trivial, fun _ => .no⟩
    | @loc A c c' _ _ _ _ h1 _ =>
      have e : ∀ a m, t.masks m = 1 → (c'.multiplier a m = c.multiplier a m ↔
          violation c.Cs c.Ts t.phisFeat a m = 0) := by
        intro a m hm
        obtain ⟨slope, hd, he⟩ := h1 a m hm
        have := hd.unique (localEnergy_slope c.Cs c.Ts c.multiplier c.elasticity t.phisFeat t.JsOld a m)
        rw [mul_left_cancel₀ (hpos m hm) this] at he
        rw [he, add_eq_left, mul_eq_zero]
        exact ⟨fun h => h.resolve_left (mul_ne_zero hstep hr), Or.inr⟩
      constructor
      · intro h a m hm
        cases h with
        | loc h => rw [(e a m hm).mp (h a m hm), abs_zero]
      · intro h
        exact .loc fun a m hm => (e a m hm).mpr (abs_nonpos_iff.mp (h a m hm))
    | @glob A c c' _ _ _ _ h1 =>
      have e : ∀ a, c'.multiplier a = c.multiplier a ↔
          (∑ m, t.JsOld m * violation c.Cs c.Ts t.phisFeat a m) / ∑ m, t.JsOld m = 0 := by
        intro a
        obtain ⟨slope, hd, he⟩ := h1 a
        have := hd.unique (globalEnergy_slope c.Cs c.Ts c.multiplier c.elasticity t.phisFeat t.JsOld a)
        rw [he, add_eq_left, mul_eq_zero, ← this, mul_div_cancel_left₀ _ hJ]
        exact ⟨fun h => h.resolve_left (mul_ne_zero hstep hr), Or.inr⟩
      constructor
      · intro h a
        cases h with
        | glob h => rw [(e a).mp (h a), abs_zero]
      · intro h
        exact .glob fun a => (e a).mpr (abs_nonpos_iff.mp (h a))
  have hall := C67_multipliers hthr h
  revert hall hresp
  generalize t.cons = cs'
  generalize s.cons = cs
  intro hresp hall
  induction hall with
  | nil => simp
  | @cons k k' ks ks' h1 _ ih =>
    have hks : List.Forall₂ (SameMultipliers t.masks) ks ks' ↔
        ∀ k ∈ ks, Satisfied t.phisFeat t.JsOld t.masks 0 k :=
      ih fun k hk => hresp k (List.mem_cons_of_mem _ hk)
    rw [List.forall₂_cons, key k k' (hresp k List.mem_cons_self) h1, hks, List.forall_mem_cons]

end Pass

-- C67: a pass with a local and a global constraint and a dead compartment.
example : ∃ t, iterate (Demo.fh.toI 3) (Demo.gas.toI 3) (Demo.canonical.toI 3) (rngZero ℝ)
    Demo.params 0 0 (Demo.state Demo.allCons) = .ok t ∧
    List.Forall₂ (Ascends t.phisFeat t.JsOld t.masks (t.factor * Demo.params.acceptanceOmega))
      Demo.allCons t.cons ∧ (∀ k ∈ Demo.allCons, Responsive k) := by
  obtain ⟨t, ht⟩ := Demo.iterate_canonical 0 _ Demo.allCons_proper
  refine ⟨t, ht, C67_multipliers (by simp [Demo.params]) ht, ?_⟩
  intro k hk
  simp only [Demo.allCons, List.mem_cons, List.not_mem_nil, or_false] at hk
  rcases hk with rfl | rfl | rfl <;> simp [Responsive, Demo.consLoc, Demo.consGlob, LocalC.new, GlobalC.new]

end Flory
