import Verif.Props.Run
import Verif.Lemmas.Equilibrium

/-!
# Runs with local constraints

A local constraint exerts forces that differ between compartments, so chemical potentials need not
agree.  Exchanges of material that respect the constraints still have to be balanced: for a
constraint on charges, that is every neutral combination of components.
-/

set_option linter.unusedSectionVars false

namespace Flory

open Spec

section Definitions

variable {C S M : ℕ}

/-- Adding the volume `w i` of each component to a mixture does not change how much the mixture
violates a local constraint `∑ C φ = T`.  Demands nothing for global constraints; a `NoConstraint`
instance must exert no force (as it does after `initialize`). -/
def Cons.Keeps (feat : Fin C → Fin S) (w : Vec C ℝ) : Cons S M ℝ → Prop
  | .no c => (∀ r m, c.potential r m = 0) ∧ ∀ m, c.volumeDerivative m = 0
  | .loc _ c => ∀ a, ∑ i, w i * (c.Cs a (feat i) - c.Ts a) = 0
  | .glob _ _ => True

/-- The same for global constraints, too. -/
def Cons.KeepsAll (feat : Fin C → Fin S) (w : Vec C ℝ) : Cons S M ℝ → Prop
  | .no c => (∀ r m, c.potential r m = 0) ∧ ∀ m, c.volumeDerivative m = 0
  | .loc _ c => ∀ a, ∑ i, w i * (c.Cs a (feat i) - c.Ts a) = 0
  | .glob _ c => ∀ a, ∑ i, w i * (c.Cs a (feat i) - c.Ts a) = 0

/-- The elastic constants of local constraints. -/
def Cons.stiffness : Cons S M ℝ → ℝ
  | .no _ => 0
  | .loc A c => A * |c.elasticity|
  | .glob _ _ => 0

theorem Cons.stiffness_nonneg (c : Cons S M ℝ) : 0 ≤ c.stiffness := by
  cases c with
  | no c => exact le_rfl
  | loc A c => exact mul_nonneg (Nat.cast_nonneg A) (abs_nonneg _)
  | glob A c => exact le_rfl

end Definitions

section Lemmas

variable {G : Type} {C S M : ℕ} [NeZero M]
variable {feat : Fin C → Fin S} {w : Vec C ℝ}

theorem Cons.plain_stiffness (c : Cons S M ℝ) : c.plain.stiffness = c.stiffness := by
  cases c <;> rfl

theorem Cons.Keeps.prepare {c : Cons S M ℝ} (pf J mk) (h : c.Keeps feat w) :
    (Cons.prepare pf J mk c).Keeps feat w := by
  cases c with
  | no c => exact h
  | loc A c => exact h
  | glob A c => trivial

theorem Cons.Keeps.evolve {c c' : Cons S M ℝ} {step res : ℝ} {mk : Vec M ℝ} (h : c.Keeps feat w)
    (he : c.evolve step mk = .ok (res, c')) : c'.Keeps feat w := by
  have hp := Cons.plain_evolve he
  cases c with
  | no c => rw [Cons.evolve_no he]; exact h
  | loc A c =>
    cases c' with
    | no c' => simp [Cons.plain] at hp
    | loc A' c' =>
      simp only [Cons.plain, Cons.loc.injEq] at hp
      obtain ⟨rfl, hp⟩ := hp
      have hp := eq_of_heq hp
      have h1 : c'.Cs = c.Cs := by
        simpa [LocalC.new] using congrArg LocalC.Cs hp
      have h2 : c'.Ts = c.Ts := by
        simpa [LocalC.new] using congrArg LocalC.Ts hp
      intro a
      rw [h1, h2]
      exact h a
    | glob A' c' => trivial
  | glob A c =>
    cases c' with
    | no c' => simp [Cons.plain] at hp
    | loc A' c' => simp [Cons.plain] at hp
    | glob A' c' => trivial

/-- The shift of the chemical potentials by a prepared local constraint. -/
theorem LocalC.shift_eq {A : ℕ} (c : LocalC A S M ℝ) (pf : Mat S M ℝ) (J mk : Vec M ℝ) {m : Fin M}
    (hm : mk m = 1) (r : Fin S) :
    (∑ q, (c.prepare pf J mk).potential q m * pf q m) - (c.prepare pf J mk).volumeDerivative m
      - (c.prepare pf J mk).potential r m =
    ∑ a, (c.elasticity * (violation c.Cs c.Ts pf a m) ^ 2 - (c.Cs a r - c.Ts a) *
      (c.multiplier a m + 2 * c.elasticity * violation c.Cs c.Ts pf a m)) := by
  simp only [LocalC.prepare_potential, LocalC.prepare_volumeDerivative, hm, mul_one, violation]
  simp only [Finset.sum_mul]
  rw [Finset.sum_comm, ← Finset.sum_sub_distrib, ← Finset.sum_sub_distrib]
  refine Finset.sum_congr rfl fun a _ => ?_
  have : ∀ X, ∑ q, c.Cs a q * X * pf q m = (∑ q, c.Cs a q * pf q m) * X := by
    intro X
    rw [Finset.sum_mul]
    exact Finset.sum_congr rfl fun q _ => by ring
  rw [this]
  ring

theorem Cons.shift_keeps {c : Cons S M ℝ} (hc : c.Keeps feat w) (pf : Mat S M ℝ) (J mk : Vec M ℝ)
    {R : ℝ} (hR : Satisfied pf J mk R c) {m n : Fin M} (hm : mk m = 1) (hn : mk n = 1) :
    |∑ i, w i * (((∑ q, (Cons.prepare pf J mk c).potential q m * pf q m)
      - (Cons.prepare pf J mk c).volumeDerivative m - (Cons.prepare pf J mk c).potential (feat i) m) -
    ((∑ q, (Cons.prepare pf J mk c).potential q n * pf q n)
      - (Cons.prepare pf J mk c).volumeDerivative n
      - (Cons.prepare pf J mk c).potential (feat i) n))| ≤ |∑ i, w i| * (c.stiffness * R ^ 2) := by
  have hrest : ∀ c : Cons S M ℝ, c.NotLocal → |∑ i, w i *
      (((∑ q, (Cons.prepare pf J mk c).potential q m * pf q m)
      - (Cons.prepare pf J mk c).volumeDerivative m - (Cons.prepare pf J mk c).potential (feat i) m) -
      ((∑ q, (Cons.prepare pf J mk c).potential q n * pf q n)
      - (Cons.prepare pf J mk c).volumeDerivative n
      - (Cons.prepare pf J mk c).potential (feat i) n))| ≤ |∑ i, w i| * (c.stiffness * R ^ 2) := by
    intro c hnl
    rw [Finset.sum_eq_zero fun i _ => by
      rw [Cons.shift_const hnl pf J mk hm hn (feat i), sub_self, mul_zero], abs_zero]
    exact mul_nonneg (abs_nonneg _) (mul_nonneg c.stiffness_nonneg (sq_nonneg R))
  cases c with
  | no c => exact hrest _ hc
  | glob A c => exact hrest _ trivial
  | loc A c =>
    have key : ∀ k, mk k = 1 → ∑ i, w i * ((∑ q, (c.prepare pf J mk).potential q k * pf q k)
        - (c.prepare pf J mk).volumeDerivative k - (c.prepare pf J mk).potential (feat i) k) =
        (∑ i, w i) * (c.elasticity * ∑ a, (violation c.Cs c.Ts pf a k) ^ 2) := by
      intro k hk
      have e : ∀ i, w i * ((∑ q, (c.prepare pf J mk).potential q k * pf q k)
          - (c.prepare pf J mk).volumeDerivative k - (c.prepare pf J mk).potential (feat i) k) =
          ∑ a, (w i * (c.elasticity * (violation c.Cs c.Ts pf a k) ^ 2) -
            w i * (c.Cs a (feat i) - c.Ts a) *
              (c.multiplier a k + 2 * c.elasticity * violation c.Cs c.Ts pf a k)) := by
        intro i
        rw [LocalC.shift_eq c pf J mk hk, Finset.mul_sum]
        exact Finset.sum_congr rfl fun a _ => by ring
      rw [Finset.sum_congr rfl fun i _ => e i, Finset.sum_comm]
      simp only [Finset.sum_sub_distrib, ← Finset.sum_mul]
      have z : ∀ a, ∑ i, w i * (c.Cs a (feat i) - c.Ts a) = 0 := hc
      simp only [z, zero_mul, Finset.sum_const_zero, sub_zero]
      simp only [← Finset.mul_sum]
    have hsum : ∀ k, mk k = 1 → 0 ≤ ∑ a, (violation c.Cs c.Ts pf a k) ^ 2 ∧
        ∑ a, (violation c.Cs c.Ts pf a k) ^ 2 ≤ A * R ^ 2 := by
      intro k hk
      refine ⟨Finset.sum_nonneg fun a _ => sq_nonneg _, ?_⟩
      refine (Finset.sum_le_sum fun a _ => ?_).trans (le_of_eq (by simp : ∑ _ : Fin A, R ^ 2 = _))
      have := hR a k hk
      rw [← sq_abs (violation c.Cs c.Ts pf a k)]
      exact pow_le_pow_left₀ (abs_nonneg _) this 2
    show |∑ i, w i * (((∑ q, (c.prepare pf J mk).potential q m * pf q m)
        - (c.prepare pf J mk).volumeDerivative m - (c.prepare pf J mk).potential (feat i) m) -
        ((∑ q, (c.prepare pf J mk).potential q n * pf q n)
        - (c.prepare pf J mk).volumeDerivative n - (c.prepare pf J mk).potential (feat i) n))| ≤ _
    simp only [mul_sub (w _), Finset.sum_sub_distrib] at key ⊢
    rw [key m hm, key n hn, ← mul_sub, ← mul_sub, abs_mul, abs_mul]
    refine mul_le_mul_of_nonneg_left ?_ (abs_nonneg _)
    show _ ≤ A * |c.elasticity| * R ^ 2
    have := mul_le_mul_of_nonneg_left (show |(∑ a, (violation c.Cs c.Ts pf a m) ^ 2)
      - ∑ a, (violation c.Cs c.Ts pf a n) ^ 2| ≤ A * R ^ 2 from by
        rw [abs_le]
        obtain ⟨h1, h2⟩ := hsum m hm
        obtain ⟨h3, h4⟩ := hsum n hn
        constructor <;> linarith) (abs_nonneg c.elasticity)
    linarith

theorem Cons.KeepsAll.prepare {c : Cons S M ℝ} (pf J mk) (h : c.KeepsAll feat w) :
    (Cons.prepare pf J mk c).KeepsAll feat w := by
  cases c with
  | no c => exact h
  | loc A c => exact h
  | glob A c => exact h

theorem Cons.KeepsAll.evolve {c c' : Cons S M ℝ} {step res : ℝ} {mk : Vec M ℝ}
    (h : c.KeepsAll feat w) (he : c.evolve step mk = .ok (res, c')) : c'.KeepsAll feat w := by
  have hp := Cons.plain_evolve he
  cases c with
  | no c => rw [Cons.evolve_no he]; exact h
  | loc A c =>
    cases c' with
    | no c' => simp [Cons.plain] at hp
    | loc A' c' => exact Cons.Keeps.evolve (c := .loc A c) h he
    | glob A' c' => simp [Cons.plain] at hp
  | glob A c =>
    cases c' with
    | no c' => simp [Cons.plain] at hp
    | loc A' c' => simp [Cons.plain] at hp
    | glob A' c' =>
      simp only [Cons.plain, Cons.glob.injEq] at hp
      obtain ⟨rfl, hp⟩ := hp
      have hp := eq_of_heq hp
      have h1 : c'.Cs = c.Cs := by
        simpa [GlobalC.new] using congrArg GlobalC.Cs hp
      have h2 : c'.Ts = c.Ts := by
        simpa [GlobalC.new] using congrArg GlobalC.Ts hp
      intro a
      rw [h1, h2]
      exact h a

/-- The shift of the chemical potentials by a prepared global constraint. -/
theorem GlobalC.shift_eq {A : ℕ} (c : GlobalC A S M ℝ) (pf : Mat S M ℝ) (J mk : Vec M ℝ) {m : Fin M}
    (hm : mk m = 1) (r : Fin S) :
    (∑ q, (c.prepare pf J mk).potential q m * pf q m) - (c.prepare pf J mk).volumeDerivative m
      - (c.prepare pf J mk).potential r m =
    ∑ a, -((c.Cs a r - c.Ts a) * (c.multiplier a + 2 * c.elasticity *
      ∑ m, ((∑ r, c.Cs a r * pf r m) - c.Ts a) * J m)) := by
  simp only [GlobalC.prepare_potential, GlobalC.prepare_volumeDerivative, hm, mul_one]
  simp only [Finset.sum_mul]
  rw [Finset.sum_comm, ← Finset.sum_sub_distrib, ← Finset.sum_sub_distrib]
  refine Finset.sum_congr rfl fun a _ => ?_
  generalize ∑ m, ((∑ r, c.Cs a r * pf r m) - c.Ts a) * J m = W
  have : ∑ q, c.Cs a q * (c.multiplier a + 2 * c.elasticity * W) * pf q m =
      (∑ q, c.Cs a q * pf q m) * (c.multiplier a + 2 * c.elasticity * W) := by
    rw [Finset.sum_mul]
    exact Finset.sum_congr rfl fun q _ => by ring
  rw [this]
  ring

/-- Constraints exert no force on exchanges that keep them and the total volume. -/
theorem Cons.shift_keepsAll {c : Cons S M ℝ} (hc : c.KeepsAll feat w) (hw : ∑ i, w i = 0)
    (pf : Mat S M ℝ) (J mk : Vec M ℝ) {m : Fin M} (hm : mk m = 1) :
    ∑ i, w i * ((∑ q, (Cons.prepare pf J mk c).potential q m * pf q m)
      - (Cons.prepare pf J mk c).volumeDerivative m
      - (Cons.prepare pf J mk c).potential (feat i) m) = 0 := by
  cases c with
  | no c =>
    obtain ⟨h1, h2⟩ := hc
    simp [Cons.prepare, NoC.prepare, Cons.potential, Cons.volumeDerivative, h1, h2]
  | loc A c =>
    have e : ∀ i, w i * ((∑ q, (c.prepare pf J mk).potential q m * pf q m)
        - (c.prepare pf J mk).volumeDerivative m - (c.prepare pf J mk).potential (feat i) m) =
        ∑ a, (w i * (c.elasticity * (violation c.Cs c.Ts pf a m) ^ 2) -
          w i * (c.Cs a (feat i) - c.Ts a) *
            (c.multiplier a m + 2 * c.elasticity * violation c.Cs c.Ts pf a m)) := by
      intro i
      rw [LocalC.shift_eq c pf J mk hm, Finset.mul_sum]
      exact Finset.sum_congr rfl fun a _ => by ring
    refine (Finset.sum_congr rfl fun i _ => e i).trans ?_
    rw [Finset.sum_comm]
    simp only [Finset.sum_sub_distrib, ← Finset.sum_mul]
    have z : ∀ a, ∑ i, w i * (c.Cs a (feat i) - c.Ts a) = 0 := hc
    simp [z, hw]
  | glob A c =>
    have e : ∀ i, w i * ((∑ q, (c.prepare pf J mk).potential q m * pf q m)
        - (c.prepare pf J mk).volumeDerivative m - (c.prepare pf J mk).potential (feat i) m) =
        ∑ a, -(w i * (c.Cs a (feat i) - c.Ts a) * (c.multiplier a + 2 * c.elasticity *
          ∑ m, ((∑ r, c.Cs a r * pf r m) - c.Ts a) * J m)) := by
      intro i
      rw [GlobalC.shift_eq c pf J mk hm, Finset.mul_sum]
      exact Finset.sum_congr rfl fun a _ => by ring
    refine (Finset.sum_congr rfl fun i _ => e i).trans ?_
    rw [Finset.sum_comm]
    simp only [Finset.sum_neg_distrib, ← Finset.sum_mul]
    have z : ∀ a, ∑ i, w i * (c.Cs a (feat i) - c.Ts a) = 0 := hc
    simp [z]

/-- Weights with sum zero see only differences. -/
theorem abs_sum_mul_le_half {n : ℕ} {w x : Fin n → ℝ} {B : ℝ} (hw : ∑ i, w i = 0)
    (hB : ∀ i k, |x i - x k| ≤ B) : |∑ i, w i * x i| ≤ (∑ i, |w i|) / 2 * B := by
  rcases Nat.eq_zero_or_pos n with rfl | hn
  · simp
  have : (Finset.univ : Finset (Fin n)).Nonempty := ⟨⟨0, hn⟩, Finset.mem_univ _⟩
  obtain ⟨k, -, hk⟩ := Finset.exists_max_image _ x this
  obtain ⟨l, -, hl⟩ := Finset.exists_min_image _ x this
  have e : ∑ i, w i * x i = ∑ i, w i * (x i - (x k + x l) / 2) := by
    simp only [mul_sub, Finset.sum_sub_distrib, ← Finset.sum_mul, hw]
    ring
  rw [e, Finset.sum_div, Finset.sum_mul]
  refine (Finset.abs_sum_le_sum_abs _ _).trans (Finset.sum_le_sum fun i _ => ?_)
  rw [abs_mul, div_mul_eq_mul_div, mul_div_assoc]
  refine mul_le_mul_of_nonneg_left ?_ (abs_nonneg _)
  have h1 := hk i (Finset.mem_univ _)
  have h2 := hl i (Finset.mem_univ _)
  have h3 := (abs_le.mp (hB k l)).2
  rw [abs_le]
  constructor <;> linarith

variable {ia : FHCompiled S ℝ} {en : EntropyI C S M ℝ} {es : EnsembleI C M ℝ}
  {rng : Rng G ℝ} {p : Params ℝ} {tries : ℤ} {count : ℕ} {s : State C S M ℝ G}
  {t : Trace C S M ℝ G}

theorem consShift_keeps (h : IterFacts (ia.toI M) en es rng p tries count s t)
    (hc : ∀ c ∈ s.cons, c.Keeps feat w) {R : ℝ}
    (hR : ∀ c ∈ s.cons, Satisfied t.phisFeat t.JsOld t.masks R c) {m n : Fin M}
    (hm : t.masks m = 1) (hn : t.masks n = 1) :
    |∑ i, w i * (consShift t (feat i) m - consShift t (feat i) n)| ≤
      |∑ i, w i| * ((s.cons.map Cons.stiffness).sum * R ^ 2) := by
  simp only [consShift_eq_sum, h.consPrep, List.map_map]
  generalize s.cons = cs at hc hR
  induction cs with
  | nil => simp
  | cons c cs ih =>
    have e1 := Cons.shift_keeps (hc c (by simp)) t.phisFeat t.JsOld t.masks (hR c (by simp)) hm hn
    have e2 := ih (fun c h => hc c (by simp [h])) fun c h => hR c (by simp [h])
    simp only [List.map_cons, List.sum_cons, Function.comp_apply] at e2 ⊢
    refine le_trans (le_of_eq ?_) ((abs_add_le _ _).trans ((add_le_add e1 e2).trans (le_of_eq ?_)))
    · rw [← Finset.sum_add_distrib]
      congr 1
      exact Finset.sum_congr rfl fun i _ => by ring
    · ring

theorem consShift_keepsAll (h : IterFacts (ia.toI M) en es rng p tries count s t)
    (hc : ∀ c ∈ s.cons, c.KeepsAll feat w) (hw : ∑ i, w i = 0) {m : Fin M} (hm : t.masks m = 1) :
    ∑ i, w i * consShift t (feat i) m = 0 := by
  simp only [consShift_eq_sum, h.consPrep, List.map_map]
  generalize s.cons = cs at hc
  induction cs with
  | nil => simp
  | cons c cs ih =>
    have e1 := Cons.shift_keepsAll (hc c (by simp)) hw t.phisFeat t.JsOld t.masks hm
    have e2 := ih (fun c h => hc c (by simp [h]))
    simp only [List.map_cons, List.sum_cons, Function.comp_apply, mul_add,
      Finset.sum_add_distrib] at e2 ⊢
    rw [e1, e2, add_zero]

end Lemmas

section Run

variable {G : Type} {C S M : ℕ} [NeZero M]
variable {e : RunEnv C S M ℝ G} {maxSteps : ℚ} {tol : ℝ} {interval : ℤ} {st : State C S M ℝ G} {b : ℤ}
  {s' : RunState C S M ℝ G} {ph : Phases M C ℝ} {d : Diagnostics ℝ}
  {ia : FHCompiled S ℝ} {sizes : Vec C ℝ} {feat : Fin C → Fin S} {a : Vec C ℝ → Vec C ℝ}

/-- **C88**. For every result of a run with any constraints, and every exchange `w` (volumes of the
components) that keeps all local constraints: the cost of the exchange, `∑ w_i μ_i`, is the same in
any two returned compartments up to the reported errors. -/
theorem C88_exchange_balance (hok : e.rng.Ok) (hthr : 0 ≤ e.params.killThreshold)
    (hia : e.ia = ia.toI M) (hen : IsIdealGas e.en sizes feat) (hes : Scales e.es a)
    (h : runImpl e maxSteps tol interval st b = (s', .ok (ph, d)))
    {w : Vec C ℝ} (hw : ∀ c ∈ st.cons, c.Keeps feat w)
    (hl : ∀ i, w i ≠ 0 → sizes i ≠ 0) (ha : ∀ i, w i ≠ 0 → ∀ Q, (∀ j, 0 < Q j) → 0 < a Q i)
    (p q : Fin M) :
    |(∑ i, w i * chemPot (liftChis ia.chis feat) sizes (ph.fractions p) i)
      - ∑ i, w i * chemPot (liftChis ia.chis feat) sizes (ph.fractions q) i| ≤
      (∑ i, |w i|) * (S * d.maxAbsOmegaDiff + |ia.coef| * d.maxAbsIncomp)
        + |∑ i, w i| * (2 * d.maxAbsJsDiff
          + (st.cons.map Cons.stiffness).sum * d.maxConstraintResidue ^ 2) := by
  obtain ⟨b₀, count, s, t, hs⟩ := run_source hok hthr h
  obtain ⟨r1, r2, -⟩ := C29_residue_of_pass hs.pass
  have hF := iterate_facts hs.pass
  rw [hia] at hF
  have hcs := hs.inv (Cons.Keeps feat w) (fun c pf J mk hc => hc.prepare pf J mk)
    (fun c step mk res c' hc he => hc.evolve he) hw
  obtain ⟨m, hm, -, hpm⟩ := hs.rows p
  obtain ⟨n, hn, -, hqn⟩ := hs.rows q
  have hstiff : (s.cons.map Cons.stiffness).sum = (st.cons.map Cons.stiffness).sum := by
    have conv : ∀ cs : List (Cons S M ℝ), cs.map Cons.stiffness = (cs.map Cons.plain).map
        Cons.stiffness := fun cs => by
      rw [List.map_map]
      exact List.map_congr_left fun c _ => c.plain_stiffness.symm
    rw [conv s.cons, conv st.cons, hs.plain]
  rw [show ph.fractions p = fun j => t.phisComp j m from funext hpm,
    show ph.fractions q = fun j => t.phisComp j n from funext hqn,
    hs.omega, hs.incomp, hs.js, hs.residue, ← hstiff]
  have e0 : ∀ i, w i * chemPot (liftChis ia.chis feat) sizes (fun j => t.phisComp j m) i
      - w i * chemPot (liftChis ia.chis feat) sizes (fun j => t.phisComp j n) i =
      w i * (t.omegaDiff (feat i) m - t.omegaDiff (feat i) n)
        + w i * (t.localEnergy m - t.localEnergy n)
        + w i * (consShift t (feat i) m - consShift t (feat i) n) := by
    intro i
    by_cases hi : w i = 0
    · simp [hi]
    have ha' := ha i hi t.Qs fun j => hF.Qs_pos hen hthr j
    rw [hF.chemPot_identity hen hes hm (hl i hi) ha', hF.chemPot_identity hen hes hn (hl i hi) ha']
    ring
  rw [← Finset.sum_sub_distrib, Finset.sum_congr rfl fun i _ => e0 i, Finset.sum_add_distrib,
    Finset.sum_add_distrib, ← Finset.sum_mul]
  have e1 : |∑ i, w i * (t.omegaDiff (feat i) m - t.omegaDiff (feat i) n)| ≤
      (∑ i, |w i|) * (S * t.maxAbsOmegaDiff + |ia.coef| * t.maxAbsIncomp) := by
    refine (Finset.abs_sum_le_sum_abs _ _).trans ?_
    rw [Finset.sum_mul]
    refine Finset.sum_le_sum fun i _ => ?_
    rw [abs_mul]
    exact mul_le_mul_of_nonneg_left (hF.omega_diff (feat i) (feat i) m n) (abs_nonneg _)
  have e2 : |(∑ i, w i) * (t.localEnergy m - t.localEnergy n)| ≤
      |∑ i, w i| * (2 * t.maxAbsJsDiff) := by
    rw [abs_mul]
    exact mul_le_mul_of_nonneg_left (hF.local_diff hm hn) (abs_nonneg _)
  have e3 := consShift_keeps hF hcs ((r2 _ r1).mp le_rfl) hm hn
  refine (abs_add_le _ _).trans ((add_le_add ((abs_add_le _ _).trans (add_le_add e1 e2)) e3).trans
    (le_of_eq ?_))
  ring

/-- **C88**, converged runs. -/
theorem C88_converged (hok : e.rng.Ok) (hthr : 0 ≤ e.params.killThreshold)
    (hia : e.ia = ia.toI M) (hen : IsIdealGas e.en sizes feat) (hes : Scales e.es a)
    (h : runImpl e maxSteps tol interval st b = (s', .ok (ph, d)))
    (hconv : d.maxAbsOmegaDiff < tol ∧ d.maxAbsIncomp < tol ∧ d.maxAbsJsDiff < tol ∧
      d.maxConstraintResidue < tol)
    {w : Vec C ℝ} (hw : ∀ c ∈ st.cons, c.Keeps feat w)
    (hl : ∀ i, w i ≠ 0 → sizes i ≠ 0) (ha : ∀ i, w i ≠ 0 → ∀ Q, (∀ j, 0 < Q j) → 0 < a Q i)
    (p q : Fin M) :
    |(∑ i, w i * chemPot (liftChis ia.chis feat) sizes (ph.fractions p) i)
      - ∑ i, w i * chemPot (liftChis ia.chis feat) sizes (ph.fractions q) i| ≤
      (∑ i, |w i|) * (S + |ia.coef| + 2 + (st.cons.map Cons.stiffness).sum * tol) * tol := by
  refine (C88_exchange_balance hok hthr hia hen hes h hw hl ha p q).trans ?_
  obtain ⟨h1, h2, h3, h4⟩ := hconv
  have hr : 0 ≤ d.maxConstraintResidue := by
    obtain ⟨b₀, count, s, t, hs⟩ := run_source hok hthr h
    rw [hs.residue]
    exact (C29_residue_of_pass hs.pass).1
  have hst : 0 ≤ (st.cons.map Cons.stiffness).sum :=
    List.sum_nonneg fun x hx => by
      obtain ⟨c, -, rfl⟩ := List.mem_map.mp hx
      exact c.stiffness_nonneg
  have e1 := mul_le_mul_of_nonneg_left h1.le (Nat.cast_nonneg (α := ℝ) S)
  have e2 := mul_le_mul_of_nonneg_left h2.le (abs_nonneg ia.coef)
  have e3 := mul_le_mul_of_nonneg_left (pow_le_pow_left₀ hr h4.le 2) hst
  have e4 : |∑ i, w i| ≤ ∑ i, |w i| := Finset.abs_sum_le_sum_abs _ _
  have e5 : 0 ≤ ∑ i, |w i| := Finset.sum_nonneg fun i _ => abs_nonneg _
  have e6 : 0 ≤ |∑ i, w i| := abs_nonneg _
  generalize ∑ i, |w i| = W at *
  generalize |∑ i, w i| = V at *
  generalize (st.cons.map Cons.stiffness).sum = κ at *
  have htol : 0 ≤ tol := hr.trans h4.le
  have f1 : W * (S * d.maxAbsOmegaDiff + |ia.coef| * d.maxAbsIncomp) ≤
      W * (S * tol + |ia.coef| * tol) := mul_le_mul_of_nonneg_left (by linarith) e5
  have f2 : V * (2 * d.maxAbsJsDiff + κ * d.maxConstraintResidue ^ 2) ≤
      V * (2 * tol + κ * tol ^ 2) := mul_le_mul_of_nonneg_left (by linarith) e6
  have f3 : V * (2 * tol + κ * tol ^ 2) ≤ W * (2 * tol + κ * tol ^ 2) :=
    mul_le_mul_of_nonneg_right e4 (by positivity)
  linarith

/-- **C88**, prescribed potentials (extension of C25 to constraints). In a run of the grand canonical
ensemble made from chemical potentials `mus`, every exchange that keeps all constraints and the volume
costs in every returned compartment what the prescribed potentials demand, up to the reported
errors. -/
theorem C88_prescribed {mus : Vec C ℝ} (hok : e.rng.Ok)
    (hthr : 0 ≤ e.params.killThreshold) (hia : e.ia = ia.toI M) (hen : IsIdealGas e.en sizes feat)
    (hes : e.es = (GrandC.fromChemicalPotential mus sizes).toI M)
    (h : runImpl e maxSteps tol interval st b = (s', .ok (ph, d)))
    {w : Vec C ℝ} (hw : ∀ c ∈ st.cons, c.KeepsAll feat w) (hw0 : ∑ i, w i = 0)
    (hl : ∀ i, w i ≠ 0 → 0 < sizes i) (p : Fin M) :
    |(∑ i, w i * chemPot (liftChis ia.chis feat) sizes (ph.fractions p) i)
      - ∑ i, w i * (mus i + (1 + Real.log (sizes i)) / sizes i)| ≤
      (∑ i, |w i|) / 2 * (S * d.maxAbsOmegaDiff + |ia.coef| * d.maxAbsIncomp) := by
  obtain ⟨b₀, count, s, t, hs⟩ := run_source hok hthr h
  have hF := iterate_facts hs.pass
  rw [hia] at hF
  have hcs := hs.inv (Cons.KeepsAll feat w) (fun c pf J mk hc => hc.prepare pf J mk)
    (fun c step mk res c' hc he => hc.evolve he) hw
  obtain ⟨m, hm, -, hpm⟩ := hs.rows p
  have hsc : Scales e.es fun _ i => (GrandC.fromChemicalPotential mus sizes).scaledActivity i :=
    hes ▸ GrandC.scales _
  have hpos : ∀ j, 0 < sizes j → 0 < (GrandC.fromChemicalPotential mus sizes).scaledActivity j :=
    fun j hj => mul_pos hj (Real.exp_pos _)
  have hconst : ∀ j, 0 < sizes j →
      (Real.log ((GrandC.fromChemicalPotential mus sizes).scaledActivity j) + 1) / sizes j =
        mus j + (1 + Real.log (sizes j)) / sizes j := by
    intro j hj
    show (Real.log (sizes j * Real.exp (sizes j * mus j)) + 1) / sizes j = _
    rw [Real.log_mul hj.ne' (Real.exp_pos _).ne', Real.log_exp]
    field_simp
    ring
  rw [show ph.fractions p = fun j => t.phisComp j m from funext hpm, hs.omega, hs.incomp]
  have e0 : ∀ i, w i * chemPot (liftChis ia.chis feat) sizes (fun j => t.phisComp j m) i
      - w i * (mus i + (1 + Real.log (sizes i)) / sizes i) =
      w i * t.omegaDiff (feat i) m + w i * t.localEnergy m + w i * consShift t (feat i) m := by
    intro i
    by_cases hi : w i = 0
    · simp [hi]
    have hi' := hl i hi
    rw [hF.chemPot_identity hen hsc hm hi'.ne' (hpos i hi'), hconst i hi']
    ring
  rw [← Finset.sum_sub_distrib, Finset.sum_congr rfl fun i _ => e0 i, Finset.sum_add_distrib,
    Finset.sum_add_distrib, ← Finset.sum_mul, hw0, consShift_keepsAll hF hcs hw0 hm, zero_mul,
    add_zero, add_zero]
  exact abs_sum_mul_le_half hw0 fun i k => hF.omega_diff (feat i) (feat k) m m

end Run

/-! ### Charges -/

namespace Demo

/-- Cations, anions and a solvent. -/
noncomputable def salt : FHCompiled 3 ℝ := FHCompiled.new ![![0, 1, 4], ![1, 0, 2], ![4, 2, 0]] 1

/-- Different sizes. -/
def saltGas : IdealC 3 := ⟨![1, 2, 1]⟩

/-- Charge neutrality of every compartment, a global constraint on the solvent, and no constraint. -/
noncomputable def saltCons : List (Cons 3 2 ℝ) :=
  [.loc 1 (LocalC.new ![![1, -1, 0]] ![0] 1 (1 / 2)), .glob 1 (GlobalC.new ![![0, 0, 1]] ![1 / 2] 1 1),
    .no NoC.new]

/-- Two compartments with different fields. -/
noncomputable def saltState (cons : List (Cons 3 2 ℝ)) : State 3 3 2 ℝ Unit where
  omegas := ![![1, -1], ![-1, 1], ![0, 1]]
  Js := ![1, 1]
  phisComp := fun _ _ => 0
  phisFeat := fun _ _ => 0
  cons := cons
  g := ()

/-- Charge neutrality only. -/
noncomputable def chargeCons : List (Cons 3 2 ℝ) :=
  [.no NoC.new, .loc 1 (LocalC.new ![![1, -1, 0]] ![0] 1 (1 / 2))]

theorem chargeCons_proper : ∀ c ∈ chargeCons, c.Proper := by
  intro c hc
  simp only [chargeCons, List.mem_cons, List.not_mem_nil, or_false] at hc
  rcases hc with rfl | rfl <;> simp [Cons.Proper]

theorem chargeCons_keeps : ∀ c ∈ chargeCons, c.KeepsAll id ![1, 1, -2] := by
  intro c hc
  simp only [chargeCons, List.mem_cons, List.not_mem_nil, or_false] at hc
  rcases hc with rfl | rfl
  · simp [Cons.KeepsAll, NoC.new]
  · intro a
    simp [LocalC.new, Fin.sum_univ_three]

theorem saltCons_proper : ∀ c ∈ saltCons, c.Proper := by
  intro c hc
  simp only [saltCons, List.mem_cons, List.not_mem_nil, or_false] at hc
  rcases hc with rfl | rfl | rfl <;> simp [Cons.Proper]

/-- A pair of ions is neutral. -/
theorem saltCons_keeps : ∀ c ∈ saltCons, c.Keeps id ![1, 1, 0] := by
  intro c hc
  simp only [saltCons, List.mem_cons, List.not_mem_nil, or_false] at hc
  rcases hc with rfl | rfl | rfl
  · intro a
    simp [LocalC.new, Fin.sum_univ_three]
  · trivial
  · simp [Cons.Keeps, NoC.new]

/-- A canonical run with a local constraint on charges. -/
noncomputable def saltEnv (es : EnsembleI 3 2 ℝ) : RunEnv 3 3 2 ℝ Unit :=
  ⟨salt.toI 2, saltGas.toI 2, es, rngZero ℝ, params, "standard", id⟩

theorem salt_run (es : EnsembleI 3 2 ℝ) (hes : es.Total) (cons : List (Cons 3 2 ℝ))
    (hc : ∀ c ∈ cons, c.Proper) : ∃ s' ph d, runImpl (saltEnv es) 1000000 (1 / 100000) 10000
      (saltState cons) 0 = (s', .ok (ph, d)) :=
  run_ok (e := saltEnv es) (rngZero_ok ℝ) saltGas.isIdealGas hes (by simp [saltEnv, params])
    (by simp [saltEnv, params]) (by simp [saltEnv, params]) (by simp [saltEnv, params]) rfl
    (by norm_num) (by norm_num) (saltState cons) 0 hc
    (Or.inl ⟨0, by simp [saltEnv, params, saltState]⟩)

end Demo

-- In the run of a salt solution the pairs of ions are balanced (their potentials need not be).
example : ∃ s' ph d, runImpl (Demo.saltEnv ((⟨![1 / 4, 1 / 4, 1 / 2]⟩ : CanonicalC 3 ℝ).toI 2)) 1000000
    (1 / 100000) 10000 (Demo.saltState Demo.saltCons) 0 = (s', .ok (ph, d)) ∧
    |(chemPot Demo.salt.chis ![1, 2, 1] (ph.fractions 0) 0
        + chemPot Demo.salt.chis ![1, 2, 1] (ph.fractions 0) 1)
      - (chemPot Demo.salt.chis ![1, 2, 1] (ph.fractions 1) 0
        + chemPot Demo.salt.chis ![1, 2, 1] (ph.fractions 1) 1)| ≤
      2 * (3 * d.maxAbsOmegaDiff + |Demo.salt.coef| * d.maxAbsIncomp) +
        2 * (2 * d.maxAbsJsDiff + 1 / 2 * d.maxConstraintResidue ^ 2) := by
  obtain ⟨s', ph, d, h⟩ := Demo.salt_run _ (CanonicalC.total _) Demo.saltCons
    Demo.saltCons_proper
  refine ⟨s', ph, d, h, ?_⟩
  have := C88_exchange_balance (ia := Demo.salt) (sizes := ![1, 2, 1]) (feat := id) (rngZero_ok ℝ)
    (by simp [Demo.saltEnv, Demo.params]) rfl Demo.saltGas.isIdealGas
    (CanonicalC.scales (⟨![1 / 4, 1 / 4, 1 / 2]⟩ : CanonicalC 3 ℝ)) h (w := ![1, 1, 0])
    Demo.saltCons_keeps (fun i _ => by fin_cases i <;> simp)
    (fun i _ Q hQ => div_pos (by fin_cases i <;> norm_num) (hQ i)) 0 1
  refine le_trans (le_of_eq ?_) (this.trans (le_of_eq ?_))
  · simp [Fin.sum_univ_three]
    rfl
  · simp [Fin.sum_univ_three, Demo.saltState, Demo.saltCons, Cons.stiffness, LocalC.new]
    norm_num

-- The same with prescribed potentials: pairs of ions replace two volumes of solvent.
example : ∃ s' ph d, runImpl (Demo.saltEnv ((GrandC.fromChemicalPotential ![1, -2, 0] ![1, 2, 1]).toI 2))
    1000000 (1 / 100000) 10000 (Demo.saltState Demo.chargeCons) 0 = (s', .ok (ph, d)) ∧
    |(chemPot Demo.salt.chis ![1, 2, 1] (ph.fractions 0) 0
        + chemPot Demo.salt.chis ![1, 2, 1] (ph.fractions 0) 1
        - 2 * chemPot Demo.salt.chis ![1, 2, 1] (ph.fractions 0) 2)
      - ((1 + 1) + (-2 + (1 + Real.log 2) / 2) - 2 * (0 + 1))| ≤
      2 * (3 * d.maxAbsOmegaDiff + |Demo.salt.coef| * d.maxAbsIncomp) := by
  obtain ⟨s', ph, d, h⟩ := Demo.salt_run _ (GrandC.total _) Demo.chargeCons Demo.chargeCons_proper
  refine ⟨s', ph, d, h, ?_⟩
  have := C88_prescribed (ia := Demo.salt) (sizes := ![1, 2, 1]) (feat := id) (rngZero_ok ℝ)
    (by simp [Demo.saltEnv, Demo.params]) rfl Demo.saltGas.isIdealGas rfl h (w := ![1, 1, -2])
    Demo.chargeCons_keeps (by simp [Fin.sum_univ_three]; norm_num)
    (fun i _ => by fin_cases i <;> simp) 0
  refine le_trans (le_of_eq ?_) (this.trans (le_of_eq ?_))
  · simp [Fin.sum_univ_three]
    rfl
  · simp [Fin.sum_univ_three]
    norm_num

/-! ### Single ions need not be balanced -/

namespace Demo

/-- Only cations and solvent interact. -/
noncomputable def ionFH : FHCompiled 3 ℝ :=
  FHCompiled.new ![![0, 0, 4 * Real.log 3], ![0, 0, 0], ![4 * Real.log 3, 0, 0]] 1

/-- Two neutral phases (columns). -/
noncomputable def ionPhi : Mat 3 2 ℝ := ![![1 / 8, 3 / 8], ![1 / 8, 3 / 8], ![3 / 4, 1 / 4]]

/-- Mean composition of the two phases. -/
noncomputable def ionEns : CanonicalC 3 ℝ := ⟨![1 / 4, 1 / 4, 1 / 2]⟩

/-- Charge neutrality, with the multipliers of the two phases. -/
noncomputable def ionCons : LocalC 1 3 2 ℝ :=
  { LocalC.new ![![1, -1, 0]] ![0] 1 1 with
    multiplier := ![![-(3 / 2) * Real.log 3, -(1 / 2) * Real.log 3]] }

/-- The state of a finder that has found the two phases. -/
noncomputable def ionState : State 3 3 2 ℝ Unit where
  omegas := fun r m => ![Real.log (1 / 2), Real.log (1 / 2), 0] r - Real.log (ionPhi r m)
  Js := ![1, 1]
  phisComp := fun _ _ => 0
  phisFeat := fun _ _ => 0
  cons := [.loc 1 ionCons]
  g := ()

/-- Default parameters. -/
noncomputable def ionEnv : RunEnv 3 3 2 ℝ Unit :=
  ⟨ionFH.toI 2, (⟨fun _ => 1⟩ : IdealC 3).toI 2, ionEns.toI 2, rngZero ℝ, params, "standard", id⟩

theorem ionPhi_pos (i : Fin 3) (m : Fin 2) : 0 < ionPhi i m := by
  fin_cases i <;> fin_cases m <;> norm_num [ionPhi]

theorem log_eight : Real.log 8 = 3 * Real.log 2 := by
  rw [show (8 : ℝ) = 2 ^ 3 by norm_num, Real.log_pow]; norm_num

theorem log_quad : Real.log 4 = 2 * Real.log 2 := by
  rw [show (4 : ℝ) = 2 ^ 2 by norm_num, Real.log_pow]; norm_num

theorem log_threeEighths : Real.log (3 / 8) = Real.log 3 - 3 * Real.log 2 := by
  rw [Real.log_div (by norm_num) (by norm_num), log_eight]

theorem log_threeFourths : Real.log (3 / 4) = Real.log 3 - 2 * Real.log 2 := by
  rw [Real.log_div (by norm_num) (by norm_num), log_quad]

variable {tries : ℤ} {count : ℕ} {t : Trace 3 3 2 ℝ Unit}

/-- A pass sees no errors. -/
theorem ion_pass (h : iterate ionEnv.ia ionEnv.en ionEnv.es ionEnv.rng ionEnv.params tries count ionState = .ok t) :
    t.phisComp = ionPhi ∧ t.maxAbsIncomp = 0 ∧ t.maxAbsOmegaDiff = 0 ∧ t.maxAbsJsDiff = 0 ∧
      t.maxConstraintResidue = 0 ∧ t.Js = ![1, 1] ∧ t.JsOld = ![1, 1] := by
  have hF : IterFacts (ionFH.toI 2) ionEnv.en ionEnv.es ionEnv.rng ionEnv.params tries count ionState t :=
    iterate_facts h
  have hen : IsIdealGas ionEnv.en (fun _ => (1 : ℝ)) id := (⟨fun _ => 1⟩ : IdealC 3).isIdealGas (M := 2)
  have hsc : Scales ionEnv.es fun Qs i => ionEns.phiMeans i / Qs i := ionEns.scales
  have hal : ∀ m, ionEnv.params.killThreshold < ionState.Js m := by
    intro m
    fin_cases m <;> norm_num [ionEnv, params, ionState]
  have hrv := reviveBlock_all_alive (rng := ionEnv.rng) (p := ionEnv.params) (tries := tries)
    (om := ionState.omegas) (g := ionState.g) (count := count) hal
  have hmk : ∀ m, t.masks m = 1 := fun m => by rw [hF.mask_eq, hrv, if_pos (hal m)]
  have hJ : t.JsOld = ionState.Js := funext fun m => by rw [hF.JsOld, hrv, hmk, mul_one]
  have hom : t.omegasOld = ionState.omegas := by rw [hF.omegasOld, hrv]
  have hexp : ∀ i m, Real.exp (-t.omegasOld (id i) m * 1) =
      ionPhi i m * Real.exp (-(![Real.log (1 / 2), Real.log (1 / 2), 0] : Vec 3 ℝ) i) := by
    intro i m
    conv_rhs => rw [← Real.exp_log (ionPhi_pos i m), ← Real.exp_add]
    rw [hom]
    congr 1
    simp only [ionState, id]
    ring
  have hQ : ∀ i, t.Qs i = ionEns.phiMeans i *
      Real.exp (-(![Real.log (1 / 2), Real.log (1 / 2), 0] : Vec 3 ℝ) i) := by
    intro i
    rw [hF.Qs_eq hen, hJ]
    simp only [hexp]
    simp only [ionState, Fin.sum_univ_two]
    generalize Real.exp _ = E
    fin_cases i <;> simp [ionPhi, ionEns] <;> ring
  have hpm : ∀ i, ionEns.phiMeans i ≠ 0 := fun i => by fin_cases i <;> norm_num [ionEns]
  have hphi : t.phisComp = ionPhi := by
    funext i m
    rw [hF.phis_eq hen hsc, hexp, hQ, hmk]
    have := (Real.exp_pos (-(![Real.log (1 / 2), Real.log (1 / 2), 0] : Vec 3 ℝ) i)).ne'
    have := hpm i
    field_simp
  have hpf : t.phisFeat = ionPhi := by
    funext r m
    rw [hF.phisFeat_eq hen, hphi]
    simp
  have hinc : ∀ m, t.incomp m = 0 := by
    intro m
    rw [hF.incomp_eq hsc, hphi, hmk]
    fin_cases m <;> simp [ionPhi, Fin.sum_univ_three] <;> norm_num
  have hcp : t.consPrep = [.loc 1 (ionCons.prepare ionPhi ionState.Js t.masks)] := by
    rw [hF.consPrep, hpf, hJ]; rfl
  have hviol : ∀ a m, (∑ r, ionCons.Cs a r * ionPhi r m) - ionCons.Ts a = 0 := by
    intro a m
    fin_cases a
    fin_cases m <;> simp [ionCons, LocalC.new, ionPhi, Fin.sum_univ_three]
  have hcpot : ∀ r m, consPot t.consPrep r m = ionCons.Cs 0 r * ionCons.multiplier 0 m := by
    intro r m
    rw [hcp]
    show ((ionCons.prepare ionPhi ionState.Js t.masks).potential r m) + 0 = _
    rw [LocalC.prepare_potential, hmk]
    simp [hviol]
  have hcvd : ∀ m, consVd t.consPrep m = 0 := by
    intro m
    rw [hcp]
    show ((ionCons.prepare ionPhi ionState.Js t.masks).volumeDerivative m) + 0 = _
    rw [LocalC.prepare_volumeDerivative, hmk]
    simp [hviol]
  have hpot : ∀ r m, t.potential r m = ∑ j, ionFH.chis r j * ionPhi j m := by
    intro r m
    rw [hF.potential_feat hen, hphi]
    rfl
  have hxi : ∀ m r, t.xi m = t.omegasOld r m - t.potential r m - consPot t.consPrep r m := by
    intro m r
    rw [hF.xi, hinc, hmk]
    simp only [hpot, hom, hcpot, ionState, Fin.sum_univ_three]
    fin_cases m <;> fin_cases r <;>
      simp [ionPhi, ionFH, ionCons, FHCompiled.new, LocalC.new] <;>
      norm_num [log_threeFourths, log_threeEighths, log_eight, log_quad] <;> ring
  have hod : ∀ r m, t.omegaDiff r m = 0 := by
    intro r m
    rw [hF.omegaDiff, hxi m r, hmk]
    ring
  have hle : ∀ m, t.localEnergy m = t.localEnergy 0 := by
    intro m
    rw [hF.localEnergy_eq hen hsc (hmk m), hF.localEnergy_eq hen hsc (hmk 0), hxi m 2, hxi 0 2]
    simp only [hphi, hpf, hpot, hom, hcpot, hcvd, ionState, Fin.sum_univ_three, liftChis, id]
    fin_cases m <;>
      simp [ionPhi, ionFH, ionCons, FHCompiled.new, LocalC.new] <;>
      norm_num [log_threeFourths, log_threeEighths, log_eight, log_quad] <;> ring
  have hn : t.nValid = 2 := by rw [hF.nValid]; simp [hmk]
  have hjd : ∀ m, t.JsDiff m = 0 := by
    intro m
    rw [hF.JsDiff, hF.localEnergyMean, hn, hJ, hle m]
    simp only [Fin.sum_univ_two, hle 1, ionState]
    simp
  refine ⟨hphi, ?_, ?_, ?_, ?_, ?_, hJ⟩
  · rw [hF.maxAbsIncomp]
    exact npMax_zero fun m => by rw [hinc, abs_zero]
  · rw [hF.maxAbsOmegaDiff]
    rcases (rowsMax_spec t.omegaDiff).2.2 with e | ⟨r, m, e⟩
    · exact e
    · rw [e, hod]
  · rw [hF.maxAbsJsDiff]
    exact npMax_zero fun m => by rw [hjd, abs_zero]
  · rw [(C29_residue_of_pass h).2.2]
    intro k hk
    obtain rfl : k = .loc 1 ionCons := by simpa [ionState] using hk
    intro a m _
    rw [hpf, violation, hviol, abs_zero]
  · funext m
    rw [hF.Js_eq, hJ, hn]
    simp only [hjd, hmk, Fin.sum_univ_two]
    fin_cases m <;> simp [ionState]

end Demo

/-- **C88**, why C39 excludes local constraints: this run converges with all errors zero to neutral phases, but
the chemical potential of the cations differs by `ln 3` between them. -/
theorem C88_ions_differ : ∃ s' ph d,
    runImpl Demo.ionEnv 1000000 (1 / 100000) 1 Demo.ionState 0 = (s', .ok (ph, d)) ∧ d.steps = 1 ∧
    d.maxAbsIncomp = 0 ∧ d.maxAbsOmegaDiff = 0 ∧ d.maxAbsJsDiff = 0 ∧ d.maxConstraintResidue = 0 ∧
    (∀ p, ph.fractions p 0 = ph.fractions p 1) ∧
    chemPot Demo.ionFH.chis (fun _ => 1) (ph.fractions 0) 0
      - chemPot Demo.ionFH.chis (fun _ => 1) (ph.fractions 1) 0 = Real.log 3 := by
  have hthr : Demo.ionEnv.params.killThreshold = 0 := rfl
  have hal : ∀ m, Demo.ionEnv.params.killThreshold < Demo.ionState.Js m := by
    intro m
    fin_cases m <;> norm_num [Demo.ionEnv, Demo.params, Demo.ionState]
  obtain ⟨s', ph, d, h⟩ := run_ok (e := Demo.ionEnv) (tol := 1 / 100000) (maxSteps := 1000000)
    (interval := 1) (rngZero_ok ℝ) (sizes := fun _ => 1) ((⟨fun _ => 1⟩ : IdealC 3).isIdealGas (M := 2))
    (Demo.ionEns.total (M := 2)) le_rfl (by rw [hthr]; norm_num)
    (by rw [hthr]; norm_num) (by simp [Demo.ionEnv, Demo.params]) rfl (by norm_num) (by norm_num)
    Demo.ionState 0 (by simp [Demo.ionState, Cons.Proper]) (Or.inl ⟨0, hal 0⟩)
  obtain ⟨tracker, inner, ts, t, c, ht, hi, hf⟩ := run_facts (e := Demo.ionEnv) le_rfl h
  have htr : tracker = 1000000 := by
    have : stepsTracker 1000000 1 = .ok 1000000 := by
      unfold stepsTracker
      norm_num [Int.ceil_eq_iff]
    exact Except.ok.inj (ht.symm.trans this)
  subst htr
  have hin : inner = 1 := by
    have : stepsInner 1000000 1000000 = .ok 1 := by
      unfold stepsInner
      norm_num
    exact Except.ok.inj (hi.symm.trans this)
  subst hin
  have hone : ∀ {t : Trace 3 3 2 ℝ Unit}, Passes Demo.ionEnv 0 1 0 Demo.ionState t →
      iterate Demo.ionEnv.ia Demo.ionEnv.en Demo.ionEnv.es Demo.ionEnv.rng Demo.ionEnv.params 0 0
        Demo.ionState = .ok t := by
    intro t hp
    cases hp with
    | one hp => exact hp
    | more h1 _ => exact absurd h1.pos (lt_irrefl 0)
  have hchain := hf.chain
  cases ts with
  | nil =>
    cases hchain with
    | cons hp _ =>
      obtain ⟨k1, k2, k3, k4, k5, k6, -⟩ := Demo.ion_pass (hone hp)
      have hJ : ∀ m, Demo.ionEnv.params.killThreshold < t.Js m := by
        intro m
        rw [k6]
        exact hal m
      obtain ⟨c1, -⟩ := C32_copy_revival_conserves (rngZero_ok ℝ) _ _ le_rfl _ hf.copy
      have hfr : ∀ q i, ph.fractions q i = Demo.ionPhi i q := by
        intro q i
        rw [hf.fractions, ← k1]
        exact (c1 q (hJ q)).1 i
      have h0 : ph.fractions 0 = ![1 / 8, 1 / 8, 3 / 4] := by
        funext i; rw [hfr]; fin_cases i <;> rfl
      have h1 : ph.fractions 1 = ![3 / 8, 3 / 8, 1 / 4] := by
        funext i; rw [hfr]; fin_cases i <;> rfl
      refine ⟨s', ph, d, h, by rw [hf.diag]; rfl, by rw [hf.diag]; exact k2, by rw [hf.diag]; exact k3,
        by rw [hf.diag]; exact k4, by rw [hf.diag]; exact k5, fun p => by rw [hfr, hfr]; rfl, ?_⟩
      rw [h0, h1]
      unfold chemPot
      simp only [Fin.sum_univ_three]
      simp [Demo.ionFH, FHCompiled.new]
      norm_num [Demo.log_threeEighths, Demo.log_eight]
      ring
  | cons t₁ ts =>
    cases hchain with
    | cons hp _ =>
      obtain ⟨-, k2, k3, k4, k5, k6, k7⟩ := Demo.ion_pass (hone hp)
      refine absurd ?_ (hf.notMet t₁ (by simp))
      refine ⟨?_, by rw [k2]; norm_num, by rw [k3]; norm_num, by rw [k4]; norm_num, by rw [k5]; norm_num⟩
      rw [k6, k7]

end Flory
