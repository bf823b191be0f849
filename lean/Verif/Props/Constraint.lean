import Verif.Lemmas.ConstraintEnergy
import Verif.Props.Demo

/-!
# C27 – C29: constraint forces and residues
-/

set_option linter.unusedSectionVars false

namespace Flory

open Spec

variable {A S M : ℕ}

/-- **C27**. After `prepare` with the fractions `phi` and masks `mk`: in a living compartment,
`J_m` times the potential of the local constraint is the derivative of the documented energy with
respect to each feature fraction, and the volume derivative is the derivative with respect to the
compartment volume; in a dead compartment both vanish. -/
theorem C27_local_forces (c : LocalC A S M ℝ) (phi : Mat S M ℝ) (J mk : Vec M ℝ) (m : Fin M) :
    (mk m = 1 →
      (∀ r, HasDerivAt (fun x => localConstraintEnergy c.Cs c.Ts c.multiplier c.elasticity
          (updEntry phi r m x) J) (J m * (c.prepare phi J mk).potential r m) (phi r m)) ∧
      HasDerivAt (fun x => localConstraintEnergy c.Cs c.Ts c.multiplier c.elasticity phi
          (setAt J m x)) ((c.prepare phi J mk).volumeDerivative m) (J m)) ∧
    (mk m = 0 → (∀ r, (c.prepare phi J mk).potential r m = 0) ∧
      (c.prepare phi J mk).volumeDerivative m = 0) := by
  refine ⟨fun h1 => ⟨fun r => ?_, ?_⟩, fun h0 => ⟨fun r => ?_, ?_⟩⟩
  · unfold localConstraintEnergy
    have h := HasDerivAt.fun_sum (u := Finset.univ) (x := phi r m) fun a _ =>
      HasDerivAt.fun_sum (u := Finset.univ) (x := phi r m) fun k _ =>
        (((hasDerivAt_violation c.Cs c.Ts phi r m a k).const_mul (c.multiplier a k)).add
          (((hasDerivAt_violation c.Cs c.Ts phi r m a k).pow 2).const_mul c.elasticity)).const_mul
          (J k)
    refine h.congr_deriv ?_
    rw [c.prepare_potential, h1, mul_one, Finset.mul_sum]
    refine Finset.sum_congr rfl fun a _ => ?_
    rw [Finset.sum_eq_single m (by intro k _ hk; simp [hk]) (by simp)]
    simp only [if_true, updEntry_self]
    unfold violation
    push_cast
    rw [pow_one]
    ring
  · unfold localConstraintEnergy
    have h := HasDerivAt.fun_sum (u := Finset.univ) (x := J m) fun a _ =>
      HasDerivAt.fun_sum (u := Finset.univ) (x := J m) fun k _ =>
        (hasDerivAt_setAt J m k (J m)).mul_const (c.multiplier a k * violation c.Cs c.Ts phi a k +
          c.elasticity * violation c.Cs c.Ts phi a k ^ 2)
    refine h.congr_deriv ?_
    rw [c.prepare_volumeDerivative, h1, mul_one]
    refine Finset.sum_congr rfl fun a _ => ?_
    rw [Finset.sum_eq_single m (by intro k _ hk; simp [hk]) (by simp)]
    simp only [if_true]
    unfold violation
    ring
  · rw [c.prepare_potential, h0, mul_zero]
  · rw [c.prepare_volumeDerivative, h0, mul_zero]

/-- **C28**. The same for global constraints; the forces in living compartments derive from the
documented energy over all compartments with the volumes `J` given to `prepare`. -/
theorem C28_global_forces (c : GlobalC A S M ℝ) (phi : Mat S M ℝ) (J mk : Vec M ℝ) (m : Fin M) :
    (mk m = 1 →
      (∀ r, HasDerivAt (fun x => globalConstraintEnergy c.Cs c.Ts c.multiplier c.elasticity
          (updEntry phi r m x) J) (J m * (c.prepare phi J mk).potential r m) (phi r m)) ∧
      HasDerivAt (fun x => globalConstraintEnergy c.Cs c.Ts c.multiplier c.elasticity phi
          (setAt J m x)) ((c.prepare phi J mk).volumeDerivative m) (J m)) ∧
    (mk m = 0 → (∀ r, (c.prepare phi J mk).potential r m = 0) ∧
      (c.prepare phi J mk).volumeDerivative m = 0) := by
  refine ⟨fun h1 => ⟨fun r => ?_, ?_⟩, fun h0 => ⟨fun r => ?_, ?_⟩⟩
  · unfold globalConstraintEnergy
    have h0 := fun a => HasDerivAt.fun_sum (u := Finset.univ) (x := phi r m) fun k _ =>
      (hasDerivAt_violation c.Cs c.Ts phi r m a k).const_mul (J k)
    have h := (HasDerivAt.fun_sum (u := Finset.univ) (x := phi r m) fun a _ =>
      (h0 a).const_mul (c.multiplier a)).add
      (HasDerivAt.fun_sum (u := Finset.univ) (x := phi r m) fun a _ =>
        ((h0 a).pow 2).const_mul c.elasticity)
    refine h.congr_deriv ?_
    rw [c.prepare_potential, h1, mul_one, Finset.mul_sum, ← Finset.sum_add_distrib]
    refine Finset.sum_congr rfl fun a _ => ?_
    have e : (∑ k, J k * if k = m then c.Cs a r else 0) = J m * c.Cs a r := by
      rw [Finset.sum_eq_single m (by intro k _ hk; simp [hk]) (by simp)]; simp
    have e2 : ∑ k, ((∑ r, c.Cs a r * phi r k) - c.Ts a) * J k =
        ∑ k, J k * violation c.Cs c.Ts phi a k :=
      Finset.sum_congr rfl fun k _ => by unfold violation; ring
    rw [e, e2]
    simp only [updEntry_self]
    norm_num
    ring
  · unfold globalConstraintEnergy
    have h0 := fun a => HasDerivAt.fun_sum (u := Finset.univ) (x := J m) fun k _ =>
      (hasDerivAt_setAt J m k (J m)).mul_const (violation c.Cs c.Ts phi a k)
    have h := (HasDerivAt.fun_sum (u := Finset.univ) (x := J m) fun a _ =>
      (h0 a).const_mul (c.multiplier a)).add
      (HasDerivAt.fun_sum (u := Finset.univ) (x := J m) fun a _ =>
        ((h0 a).pow 2).const_mul c.elasticity)
    refine h.congr_deriv ?_
    rw [c.prepare_volumeDerivative, h1, mul_one, ← Finset.sum_add_distrib]
    refine Finset.sum_congr rfl fun a _ => ?_
    have e : (∑ k, (if k = m then (1 : ℝ) else 0) * violation c.Cs c.Ts phi a k) =
        violation c.Cs c.Ts phi a m := by
      rw [Finset.sum_eq_single m (by intro k _ hk; simp [hk]) (by simp)]; simp
    have e2 : ∑ k, ((∑ r, c.Cs a r * phi r k) - c.Ts a) * J k =
        ∑ k, J k * violation c.Cs c.Ts phi a k :=
      Finset.sum_congr rfl fun k _ => by unfold violation; ring
    rw [e, e2]
    simp only [setAt_self]
    unfold violation
    norm_num
    ring
  · rw [c.prepare_potential, h0, mul_zero]
  · rw [c.prepare_volumeDerivative, h0, mul_zero]

-- The hypotheses `mk m = 1`, `mk m = 0` are those of the masks of a pass (C30): living and dead.
example : ∃ t, iterate (Demo.fh.toI 3) (Demo.gas.toI 3) (Demo.canonical.toI 3) (rngZero ℝ)
    Demo.params 0 0 (Demo.state Demo.allCons) = .ok t ∧ t.masks 0 = 1 ∧ t.masks 2 = 0 := by
  obtain ⟨t, ht⟩ := Demo.iterate_canonical 0 _ Demo.allCons_proper
  have hf := iterate_facts ht
  have hrv := reviveBlock_exhausted (rng := rngZero ℝ) (p := Demo.params)
    (Js := (Demo.state Demo.allCons).Js) (om := (Demo.state Demo.allCons).omegas)
    (g := (Demo.state Demo.allCons).g) (tries := 0) (count := 0) (by simp)
  refine ⟨t, ht, ?_, ?_⟩ <;> rw [hf.mask_eq, hrv] <;> simp [Demo.state, Demo.params]

/-- What a constraint demands, up to a tolerance `x`: a local one bounds the violation in every
living compartment, a global one the violation of the volume-weighted mean. -/
def Satisfied (phi : Mat S M ℝ) (J mk : Vec M ℝ) (x : ℝ) : Cons S M ℝ → Prop
  | .no _ => True
  | .loc _ c => ∀ a m, mk m = 1 → |violation c.Cs c.Ts phi a m| ≤ x
  | .glob _ c => ∀ a, |(∑ m, J m * violation c.Cs c.Ts phi a m) / ∑ m, J m| ≤ x

section Pass

variable {G : Type} {C : ℕ} [NeZero M]
variable {ia : InteractionI S M ℝ} {en : EntropyI C S M ℝ} {es : EnsembleI C M ℝ}
  {rng : Rng G ℝ} {p : Params ℝ} {tries : ℤ} {count : ℕ} {s : State C S M ℝ G}
  {t : Trace C S M ℝ G}

/-- **C29**, one pass: the reported residue is the smallest number (from zero on) up to which all
constraints are satisfied by the fractions of the pass; it is zero iff all constraints hold. -/
theorem C29_residue_of_pass (h : iterate ia en es rng p tries count s = .ok t) :
    0 ≤ t.maxConstraintResidue ∧
    (∀ x, 0 ≤ x → (t.maxConstraintResidue ≤ x ↔
      ∀ k ∈ s.cons, Satisfied t.phisFeat t.JsOld t.masks x k)) ∧
    (t.maxConstraintResidue = 0 ↔ ∀ k ∈ s.cons, Satisfied t.phisFeat t.JsOld t.masks 0 k) := by
  have hf := iterate_facts h
  obtain ⟨h1, h2⟩ := evolveCons_spec hf.cons
  have key : ∀ x, 0 ≤ x → (t.maxConstraintResidue ≤ x ↔
      ∀ k ∈ s.cons, Satisfied t.phisFeat t.JsOld t.masks x k) := by
    intro x hx
    rw [h2 x hx, hf.consPrep]
    simp only [hx, true_and, List.mem_map, forall_exists_index, and_imp,
      forall_apply_eq_imp_iff₂]
    refine forall₂_congr fun k _ => ?_
    cases k with
    | no c => simp [Cons.prepare, Cons.ResidueLe, Satisfied]
    | loc A c =>
      simp only [Cons.prepare, Cons.ResidueLe, Satisfied, LocalC.prepare_residue]
      refine forall₂_congr fun a m => ?_
      rcases hf.mask_cases m with e | e
      · simp [e, violation]
      · simp [e, hx]
    | glob A c =>
      simp only [Cons.prepare, Cons.ResidueLe, Satisfied, GlobalC.prepare_residue]
      refine forall_congr' fun a => ?_
      have : ∑ m, ((∑ r, c.Cs a r * t.phisFeat r m) - c.Ts a) * t.JsOld m =
          ∑ m, t.JsOld m * violation c.Cs c.Ts t.phisFeat a m :=
        Finset.sum_congr rfl fun m _ => by unfold violation; ring
      rw [this]
  exact ⟨h1, key, by rw [← key 0 le_rfl]; exact ⟨fun e => e.le, fun e => le_antisymm e h1⟩⟩

example : ∃ t, iterate (Demo.fh.toI 3) (Demo.gas.toI 3) (Demo.canonical.toI 3) (rngZero ℝ)
    Demo.params 3 0 (Demo.state Demo.allCons) = .ok t :=
  Demo.iterate_canonical 3 _ Demo.allCons_proper

end Pass

end Flory
