import Verif.Spec.Floats
import Verif.Lemmas.FloatExact
import Verif.Lemmas.Loops

/-! # Where infinities and NaN go in a pass -/

set_option linter.unusedSectionVars false

namespace Flory

open Spec

variable {F G : Type} {o : Floats F} {C S M : ℕ}

section Facts

variable [NeZero M]

/-- All intermediate values of a successful pass. -/
structure FloatFacts (o : Floats F) (ia : InteractionI S M F) (en : EntropyI C S M F) (es : EnsembleI C M F)
    (rng : Rng G F) (p : Params F) (tries : ℤ) (count : ℕ) (s : State C S M F G) (t : Trace C S M F G)
    (tmp : Mat S M F) : Prop where
  masks : t.masks = makeMasksF o (reviveBlockF o rng p tries s.Js s.omegas s.g count).Js p.killThreshold
  nValid : t.nValid = o.whole (o.sum t.masks)
  omegasOld : t.omegasOld = (reviveBlockF o rng p tries s.Js s.omegas s.g count).targets
  JsOld : ∀ m, t.JsOld m =
    o.mul ((reviveBlockF o rng p tries s.Js s.omegas s.g count).Js m) (t.masks m)
  partition : ∃ phi0, en.partition s.phisComp t.omegasOld t.JsOld = .ok (phi0, t.Qs) ∧
    es.normalize phi0 t.Qs t.masks = .ok (t.phisComp, t.incomp)
  phisFeat : en.compToFeat s.phisFeat t.phisComp = .ok t.phisFeat
  maxAbsIncomp : t.maxAbsIncomp = o.max fun m => o.abs (t.incomp m)
  consPrep : t.consPrep = s.cons.map (Cons.prepareF o t.phisFeat t.JsOld t.masks)
  potential : t.potential = ia.potential t.phisFeat
  xi : t.xi = computeXiF o (ia.incompCoef t.phisFeat) t.incomp t.omegasOld t.potential t.consPrep t.masks
  loc : (t.localEnergy, tmp) = computeLocalF o (ia.volumeDerivative t.potential t.phisFeat)
    (en.volumeDerivative t.phisComp) t.xi t.incomp t.potential t.phisFeat t.consPrep
  mean : o.pyDiv (o.sum fun m => o.mul (t.localEnergy m) (t.JsOld m)) t.nValid = .ok t.localEnergyMean
  JsDiff : ∀ m, t.JsDiff m = o.mul (o.sub t.localEnergyMean (t.localEnergy m)) (t.masks m)
  maxAbsJsDiff : t.maxAbsJsDiff = o.max fun m => o.abs (t.JsDiff m)
  factor : o.pyDiv p.JsStepUpperBound (o.max2 (o.mul t.maxAbsJsDiff p.acceptanceJs) p.JsStepUpperBound) =
    .ok t.factor
  Js : updateJsF o t.factor p.acceptanceJs t.JsDiff t.masks t.nValid t.JsOld = .ok t.Js
  omegas : (t.maxAbsOmegaDiff, t.omegaDiff, t.omegas) =
    updateOmegasF o (o.mul t.factor p.acceptanceOmega) t.masks tmp t.omegasOld
  cons : evolveConsF o (o.mul t.factor p.acceptanceOmega) t.masks t.consPrep (o.ofNat 0) =
    .ok (t.maxConstraintResidue, t.cons)

theorem iterateF_facts {ia : InteractionI S M F} {en : EntropyI C S M F} {es : EnsembleI C M F}
    {rng : Rng G F} {p : Params F} {tries : ℤ} {count : ℕ} {s : State C S M F G} {t : Trace C S M F G}
    (h : iterateF o ia en es rng p tries count s = .ok t) :
    ∃ tmp, FloatFacts o ia en es rng p tries count s t tmp := by
  unfold iterateF at h
  simp only [bind_eq_ok] at h
  obtain ⟨⟨phi0, Qs⟩, h1, ⟨phisComp, incomp⟩, h2, phisFeat, h3, mean, h4, factor, h6, JsNew, h8,
    ⟨res, cons⟩, h9, h10⟩ := h
  cases h10
  exact ⟨_, ⟨rfl, rfl, rfl, fun _ => rfl, ⟨_, h1, h2⟩, h3, rfl, rfl, rfl, rfl, rfl, h4, fun _ => rfl, rfl,
    h6, h8, rfl, h9⟩⟩

end Facts

theorem pyDivF_ok {a b c : F} (h : o.pyDiv a b = .ok c) : c = o.div a b := by
  unfold Floats.pyDiv at h
  split_ifs at h
  exact (Except.ok.inj h).symm

variable {Finite : F → Prop} (ho : Ieee o Finite)
include ho

theorem finite_add_loop {n : ℕ} {x : Vec M F} {f : Fin n → Vec M F} {m : Fin M}
    (h : Finite ((forRange n x fun r x m => o.add (x m) (f r m)) m)) :
    Finite (x m) ∧ ∀ r, Finite (f r m) := by
  have inv := forRange_inv (n := n) (s := x) (body := fun r x m => o.add (x m) (f r m))
    (P := fun k y => Finite (y m) → Finite (x m) ∧ ∀ r : Fin n, r.1 < k → Finite (f r m))
    (fun h => ⟨h, fun r hr => absurd hr (Nat.not_lt_zero _)⟩) (by
      intro r y hy hf
      obtain ⟨h1, h2⟩ := ho.add hf
      refine ⟨(hy h1).1, fun q hq => ?_⟩
      rcases Nat.lt_succ_iff_lt_or_eq.mp hq with hlt | heq
      · exact (hy h1).2 q hlt
      · rw [show q = r from Fin.ext heq]; exact h2)
  exact ⟨(inv h).1, fun r => (inv h).2 r r.2⟩

theorem finite_sub_loop {n : ℕ} {x : Vec M F} {f : Fin n → Vec M F} {m : Fin M}
    (h : Finite ((forRange n x fun r x m => o.sub (x m) (f r m)) m)) :
    Finite (x m) ∧ ∀ r, Finite (f r m) := by
  have inv := forRange_inv (n := n) (s := x) (body := fun r x m => o.sub (x m) (f r m))
    (P := fun k y => Finite (y m) → Finite (x m) ∧ ∀ r : Fin n, r.1 < k → Finite (f r m))
    (fun h => ⟨h, fun r hr => absurd hr (Nat.not_lt_zero _)⟩) (by
      intro r y hy hf
      obtain ⟨h1, h2⟩ := ho.sub hf
      refine ⟨(hy h1).1, fun q hq => ?_⟩
      rcases Nat.lt_succ_iff_lt_or_eq.mp hq with hlt | heq
      · exact (hy h1).2 q hlt
      · rw [show q = r from Fin.ext heq]; exact h2)
  exact ⟨(inv h).1, fun r => (inv h).2 r r.2⟩

theorem finite_abs_max [NeZero M] {v : Vec M F} {t : F} (h : o.lt (o.max fun m => o.abs (v m)) t) (m : Fin M) :
    Finite (v m) := ho.lt_abs (ho.lt_max h m)

theorem finite_canonical {e : CanonicalC C F} {phi0 phis : Mat C M F} {Qs : Vec C F} {masks incomp : Vec M F}
    (h : e.normalizeF o phi0 Qs masks = .ok (phis, incomp)) (m : Fin M) (hm : Finite (incomp m)) :
    Finite (masks m) ∧ ∀ i, Finite (phis i m) := by
  unfold CanonicalC.normalizeF at h
  rw [bind_eq_ok] at h
  obtain ⟨s, hs, he⟩ := h
  cases he
  obtain ⟨h1, h2⟩ := ho.mul hm
  refine ⟨h2, ?_⟩
  have inv := forRangeM_inv (P := fun k (s : Mat C M F × Vec M F) => Finite (s.2 m) →
      ∀ i : Fin C, i.1 < k → Finite (s.1 i m))
    (fun _ i hi => absurd hi (Nat.not_lt_zero _)) (by
      intro i s s' ih hb
      rw [bind_eq_ok] at hb
      obtain ⟨q, -, hb⟩ := hb
      cases hb
      intro hf j hj
      obtain ⟨f1, f2⟩ := ho.add hf
      by_cases hij : j = i
      · subst hij; exact f2
      · show Finite (setAt s.1 i _ j m)
        rw [setAt_ne _ _ hij]
        have : j.1 ≠ i.1 := fun hc => hij (Fin.ext hc)
        exact ih f1 j (by omega)) hs
  exact fun i => inv h1 i i.2

theorem finite_grand {e : GrandC C F} {phi0 phis : Mat C M F} {Qs : Vec C F} {masks incomp : Vec M F}
    (h : e.normalizeF o phi0 Qs masks = .ok (phis, incomp)) (m : Fin M) (hm : Finite (incomp m)) :
    Finite (masks m) ∧ ∀ i, Finite (phis i m) := by
  unfold GrandC.normalizeF at h
  cases h
  obtain ⟨h1, h2⟩ := ho.mul hm
  refine ⟨h2, ?_⟩
  have inv := forRange_inv (n := C) (s := (phi0, fun _ => o.mul (o.neg (o.ofNat 1)) (o.ofNat 1)))
    (body := fun i s => (setAt s.1 i fun m => o.mul (o.mul (e.scaledActivity i) (s.1 i m)) (masks m),
      fun m => o.add (s.2 m) (setAt s.1 i (fun m => o.mul (o.mul (e.scaledActivity i) (s.1 i m))
        (masks m)) i m)))
    (P := fun k (s : Mat C M F × Vec M F) => Finite (s.2 m) →
      ∀ i : Fin C, i.1 < k → Finite (s.1 i m))
    (fun _ i hi => absurd hi (Nat.not_lt_zero _)) (by
      intro i s ih hf j hj
      obtain ⟨f1, f2⟩ := ho.add hf
      by_cases hij : j = i
      · subst hij; exact f2
      · show Finite (setAt s.1 i _ j m)
        rw [setAt_ne _ _ hij]
        have : j.1 ≠ i.1 := fun hc => hij (Fin.ext hc)
        exact ih f1 j (by omega))
  exact fun i => inv h1 i i.2

theorem finite_xi {coef : F} {incomp : Vec M F} {omegas potential : Mat S M F} {cons : List (Cons S M F)}
    {masks : Vec M F} {m : Fin M} (h : Finite (computeXiF o coef incomp omegas potential cons masks m)) :
    Finite coef ∧ Finite (incomp m) ∧ Finite (masks m) ∧
    (∀ r, Finite (omegas r m) ∧ Finite (potential r m)) ∧ ∀ c ∈ cons, ∀ r, Finite (c.potential r m) := by
  obtain ⟨h1, h2⟩ := ho.mul (ho.div h)
  have fold : ∀ (cs : List (Cons S M F)) (x : Vec M F), Finite (cs.foldl (fun xi c =>
      forRange S xi fun r xi m => o.sub (xi m) (c.potential r m)) x m) →
      Finite (x m) ∧ ∀ c ∈ cs, ∀ r, Finite (c.potential r m) := by
    intro cs
    induction cs with
    | nil => exact fun x hx => ⟨hx, fun c hc => absurd hc List.not_mem_nil⟩
    | cons c cs ih =>
      intro x hx
      obtain ⟨a, b⟩ := ih _ hx
      obtain ⟨a1, a2⟩ := finite_sub_loop ho (f := fun r m => c.potential r m) a
      refine ⟨a1, fun d hd => ?_⟩
      rcases List.mem_cons.mp hd with rfl | hd
      · exact a2
      · exact b d hd
  obtain ⟨a, b⟩ := fold cons _ h1
  obtain ⟨c1, c2⟩ := finite_add_loop ho (f := fun r m => o.sub (omegas r m) (potential r m)) a
  exact ⟨(ho.mul c1).1, (ho.mul c1).2, h2, fun r => ho.sub (c2 r), b⟩

theorem finite_local {vi ve xi incomp : Vec M F} {potential phisFeat : Mat S M F} {cons : List (Cons S M F)}
    {m : Fin M} (h : Finite ((computeLocalF o vi ve xi incomp potential phisFeat cons).1 m)) :
    Finite (vi m) ∧ Finite (ve m) ∧ Finite (xi m) ∧ Finite (incomp m) ∧
    (∀ c ∈ cons, Finite (c.volumeDerivative m)) ∧
    ∀ r, Finite (phisFeat r m) ∧
      Finite ((computeLocalF o vi ve xi incomp potential phisFeat cons).2 r m) := by
  unfold computeLocalF at h ⊢
  set s0 := cons.foldl (fun (s : Vec M F × Mat S M F) c =>
    (fun m => o.add (s.1 m) (c.volumeDerivative m), fun r m => o.add (s.2 r m) (c.potential r m)))
    (fun m => o.add (o.add (vi m) (ve m)) (o.mul (xi m) (incomp m)), potential) with hs0
  have inv := forRange_inv (n := S) (s := s0) (body := fun r s =>
      (fun m => o.sub (s.1 m) (o.mul (setAt s.2 r (fun m => o.add (s.2 r m) (xi m)) r m) (phisFeat r m)),
        setAt s.2 r fun m => o.add (s.2 r m) (xi m)))
    (P := fun k (s : Vec M F × Mat S M F) => Finite (s.1 m) → Finite (s0.1 m) ∧
      ∀ r : Fin S, r.1 < k → Finite (phisFeat r m) ∧ Finite (s.2 r m))
    (fun h => ⟨h, fun r hr => absurd hr (Nat.not_lt_zero _)⟩) (by
      intro r s ih hf
      obtain ⟨f1, f2⟩ := ho.sub hf
      obtain ⟨f3, f4⟩ := ho.mul f2
      refine ⟨(ih f1).1, fun q hq => ?_⟩
      by_cases hqr : q = r
      · subst hqr; exact ⟨f4, f3⟩
      · have : q.1 ≠ r.1 := fun hc => hqr (Fin.ext hc)
        refine ⟨((ih f1).2 q (by omega)).1, ?_⟩
        show Finite (setAt s.2 r _ q m)
        rw [setAt_ne _ _ hqr]
        exact ((ih f1).2 q (by omega)).2)
  obtain ⟨h1, h2⟩ := inv h
  have fold : ∀ (cs : List (Cons S M F)) (x : Vec M F × Mat S M F), Finite ((cs.foldl
      (fun (s : Vec M F × Mat S M F) c => (fun m => o.add (s.1 m) (c.volumeDerivative m),
        fun r m => o.add (s.2 r m) (c.potential r m))) x).1 m) →
      Finite (x.1 m) ∧ ∀ c ∈ cs, Finite (c.volumeDerivative m) := by
    intro cs
    induction cs with
    | nil => exact fun x hx => ⟨hx, fun c hc => absurd hc List.not_mem_nil⟩
    | cons c cs ih =>
      intro x hx
      obtain ⟨a, b⟩ := ih _ hx
      obtain ⟨a1, a2⟩ := ho.add a
      refine ⟨a1, fun d hd => ?_⟩
      rcases List.mem_cons.mp hd with rfl | hd
      · exact a2
      · exact b d hd
  obtain ⟨a, b⟩ := fold cons _ h1
  obtain ⟨a1, a2⟩ := ho.add a
  exact ⟨(ho.add a1).1, (ho.add a1).2, (ho.mul a2).1, (ho.mul a2).2, b, fun r => h2 r r.2⟩

/-- Finite volume derivatives of a local constraint come from finite residues. -/
theorem number_local {A : ℕ} {c : LocalC A S M F} {phisFeat : Mat S M F} {Js masks : Vec M F} {m : Fin M}
    (h : Finite ((c.prepareF o phisFeat Js masks).volumeDerivative m)) (a : Fin A) :
    o.eq ((c.prepareF o phisFeat Js masks).residue a m) ((c.prepareF o phisFeat Js masks).residue a m) := by
  obtain ⟨h1, h2⟩ := ho.mul h
  obtain ⟨-, h3⟩ := finite_add_loop ho h1
  exact ho.mul_number (ho.mul (h3 a)).1 h2

end Flory
