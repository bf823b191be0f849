import Verif.Lemmas.SelectionLocal
import Verif.Props.Separated

set_option linter.unusedSectionVars false

/-! # C92: the grand canonical ensemble selects the phases of least grand potential -/

namespace Flory

open Finset Spec

section Selection

variable {C S M : ℕ} {G : Type} [NeZero M]

/-- **C92**: among stable phases that balance the same reservoir, the iteration selects those of least grand
potential, for every large enough shift of the interaction. -/
theorem C92_selects [NeZero S] {chis : Mat S S ℝ} {feat : Fin C → Fin S} {l mus : Vec C ℝ} {phi : Mat C M ℝ}
    (hsym : ∀ r q, chis r q = chis q r) (hl : ∀ i, 0 < l i) (hfeat : Function.Surjective feat)
    (hph : ∀ m, ∃ c, ReservoirPhase chis feat l mus (fun i => phi i m) c)
    (hstab : ∀ m, StablePhase chis feat l fun i => phi i m) :
    ∃ s₀, ∀ shift, s₀ ≤ shift → SelectsPhases G (FHCompiled.new chis shift) l mus feat phi
      fun m => grandPotential chis feat l mus fun i => phi i m := by
  have hph' : ∀ m, ReservoirPhase chis feat l mus (fun i => phi i m)
      (grandPotential chis feat l mus fun i => phi i m) := fun m => by
    obtain ⟨c, hc⟩ := hph m
    rwa [grandPotential_eq hc]
  obtain ⟨c₀, -, h⟩ := selects_phases (G := G) hsym hl hfeat (NeZero.ne S) hph' hstab
  obtain ⟨s₀, hs⟩ := exists_shift chis c₀
  exact ⟨s₀, fun shift hsh => h _ rfl (hs shift hsh)⟩

/-- **C92**, one winner. If one phase has a smaller grand potential than every phase of a different
composition, a run that starts near the phases returns this phase in every compartment. -/
theorem C92_winner {ia : FHCompiled S ℝ} {l mus : Vec C ℝ} {feat : Fin C → Fin S} {phi : Mat C M ℝ} {c : Vec M ℝ}
    (h : SelectsPhases G ia l mus feat phi c) {n : Fin M}
    (hn : ∀ k, c n < c k ∨ ∀ i, phi i k = phi i n) :
    ∃ a₀ > 0, ∀ (e : RunEnv C S M ℝ G), e.rng.Ok → 0 ≤ e.params.killThreshold →
    e.params.killThreshold < 1 → 2 * e.params.killThreshold * ((M : ℝ) - 1) < 1 →
    0 < e.params.JsStepUpperBound → e.criterion = "standard" → e.ia = ia.toI M →
    IsIdealGas e.en l feat → e.es = (GrandC.fromChemicalPotential mus l).toI M →
    0 < e.params.acceptanceOmega → e.params.acceptanceOmega ≤ a₀ → 0 < e.params.acceptanceJs →
    ∃ η > 0, ∃ B > 0, ∃ tol₀ > 0, ∃ q, 0 < q ∧ q < 1 ∧ ∀ (st : State C S M ℝ G) (U : ℝ), 0 ≤ U → U ≤ η →
      (∀ m, |st.Js m - 1| ≤ U) →
      (∀ r m, |st.omegas r m - (equilibriumField ia.chis feat l (fun j => phi j m) r - c m)| ≤ U) →
      (∀ k ∈ st.cons, k.Trivial) → ∃ K > 0, ∀ tol, 0 < tol → tol ≤ tol₀ → ∃ N : ℕ, LogSteps K tol N ∧
      ∀ (maxSteps : ℚ) (interval b : ℤ), b ≤ 0 → N ≤ maxSteps → 0 < interval →
      ∃ f ph d, runImpl e maxSteps tol interval st b = (f, .ok (ph, d)) ∧
        d.maxAbsIncomp < tol ∧ d.maxAbsOmegaDiff < tol ∧ d.maxAbsJsDiff < tol ∧
        ∀ m i, |ph.fractions m i - phi i n| ≤ B * U * q ^ d.steps := by
  obtain ⟨a₀, ha₀, h⟩ := h
  refine ⟨a₀, ha₀, fun e h1 h2 h3 h4 h5 h6 h7 h8 h9 h10 h11 h12 => ?_⟩
  obtain ⟨η, hη, B, hB, tol₀, htol₀, q, q0, q1, h⟩ := h e h1 h2 h3 h4 h5 h6 h7 h8 h9 h10 h11 h12
  refine ⟨η, hη, B, hB, tol₀, htol₀, q, q0, q1, fun st U k1 k2 k3 k4 k5 => ?_⟩
  obtain ⟨K, hK, h⟩ := h st U k1 k2 k3 k4 k5
  refine ⟨K, hK, fun tol k6 k7 => ?_⟩
  obtain ⟨N, hN, h⟩ := h tol k6 k7
  refine ⟨N, hN, fun maxSteps interval b g1 g2 g3 => ?_⟩
  obtain ⟨f, ph, d, r1, -, r2, r3, r4, -, r5, -⟩ := h maxSteps interval b g1 g2 g3
  refine ⟨f, ph, d, r1, r2, r3, r4, fun m i => ?_⟩
  obtain ⟨j, hj, hji⟩ := r5 m
  rcases hn j with hlt | heq
  · exact absurd (hj n) (not_le.mpr hlt)
  · rw [← heq i]; exact hji i

/-- **C92**, coexistence. Stable phases that coexist balance one reservoir with equal grand potentials, so
that all of them are selected. -/
theorem C92_coexistence [NeZero S] {chis : Mat S S ℝ} {feat : Fin C → Fin S} {l pm : Vec C ℝ} {J : Vec M ℝ}
    {phi : Mat C M ℝ} (hsym : ∀ r q, chis r q = chis q r) (hl : ∀ i, 0 < l i) (hfeat : Function.Surjective feat)
    (h : Coexistence chis feat l pm J phi) (hstab : ∀ m, StablePhase chis feat l fun i => phi i m) :
    ∃ mus, (∀ m, ReservoirPhase chis feat l mus (fun i => phi i m) 0) ∧ ∃ s₀, ∀ shift, s₀ ≤ shift →
      SelectsPhases G (FHCompiled.new chis shift) l mus feat phi fun _ => 0 := by
  obtain ⟨mu, hmu⟩ := h.balance
  have hph : ∀ m, ReservoirPhase chis feat l (fun i => mu i - (1 + Real.log (l i)) / l i)
      (fun i => phi i m) 0 := fun m =>
    ⟨fun i => h.pos i m, h.incompressible m, fun i => by rw [hmu i m]; ring⟩
  refine ⟨_, hph, ?_⟩
  have := C92_selects (G := G) hsym hl hfeat (fun m => ⟨_, hph m⟩) hstab
  rwa [show (fun m => grandPotential chis feat l (fun i => mu i - (1 + Real.log (l i)) / l i)
    fun i => phi i m) = fun _ => 0 from funext fun m => grandPotential_eq (hph m)] at this

end Selection

namespace Demo

/-- Interaction for which two compositions balance the same reservoir. -/
noncomputable def selChi : ℝ := 5 / 7 * Real.log 36

/-- The interaction matrix. -/
noncomputable def selChis : Mat 2 2 ℝ := fun r s => if r = s then 0 else selChi

/-- The two compositions. -/
noncomputable def selPhi : Mat 2 2 ℝ := ![![9 / 10, 1 / 5], ![1 / 10, 4 / 5]]

/-- Potentials of the reservoir. -/
noncomputable def selMus : Vec 2 ℝ := ![Real.log (9 / 10) + selChi / 100 - 1, Real.log (1 / 10) + selChi * (81 / 100) - 1]

theorem selChi_lt : selChi < 25 / 8 := by
  have h1 : Real.log 36 < 4 := by
    rw [Real.log_lt_iff_lt_exp (by norm_num)]
    have h2 : Real.exp 4 = Real.exp 1 ^ 4 := by rw [← Real.exp_nat_mul]; norm_num
    rw [h2]
    have h3 := Real.exp_one_gt_d9
    have h4 : (2.7182818283 : ℝ) ^ 4 ≤ Real.exp 1 ^ 4 := pow_le_pow_left₀ (by norm_num) h3.le 4
    refine lt_of_lt_of_le ?_ h4
    norm_num
  unfold selChi
  linarith

/-- Grand potentials of the two phases. -/
noncomputable def selPot : Vec 2 ℝ := ![0, 9 / 20 * Real.log 36 - Real.log (9 / 2)]

theorem selPot_lt : selPot 0 < selPot 1 := by
  have h : 20 * Real.log (9 / 2) < 9 * Real.log 36 := by
    have h1 := Real.log_pow (9 / 2 : ℝ) 20
    have h2 := Real.log_pow (36 : ℝ) 9
    push_cast at h1 h2
    rw [← h1, ← h2]
    exact Real.log_lt_log (by norm_num) (by norm_num)
  simp only [selPot, Matrix.cons_val_zero, Matrix.cons_val_one]
  linarith

/-- Both compositions balance the reservoir. -/
theorem sel_phases (m : Fin 2) :
    ReservoirPhase selChis id (fun _ => 1) selMus (fun i => selPhi i m) (selPot m) := by
  have e1 : Real.log (1 / 5) = - Real.log 5 := by rw [one_div, Real.log_inv]
  have e2 : Real.log (1 / 10) = - (Real.log 2 + Real.log 5) := by
    rw [one_div, Real.log_inv, ← Real.log_mul (by norm_num) (by norm_num)]
    norm_num
  have e3 : Real.log (9 / 10) = 2 * Real.log 3 - (Real.log 2 + Real.log 5) := by
    rw [Real.log_div (by norm_num) (by norm_num), ← Real.log_mul (by norm_num) (by norm_num),
      show (9 : ℝ) = 3 ^ 2 by norm_num, Real.log_pow]
    norm_num
  have e4 : Real.log (4 / 5) = 2 * Real.log 2 - Real.log 5 := by
    rw [Real.log_div (by norm_num) (by norm_num), show (4 : ℝ) = 2 ^ 2 by norm_num, Real.log_pow]
    norm_num
  have e5 : Real.log 36 = 2 * Real.log 2 + 2 * Real.log 3 := by
    rw [show (36 : ℝ) = 2 ^ 2 * 3 ^ 2 by norm_num, Real.log_mul (by norm_num) (by norm_num), Real.log_pow,
      Real.log_pow]
    norm_num
  have e6 : Real.log (9 / 2) = 2 * Real.log 3 - Real.log 2 := by
    rw [Real.log_div (by norm_num) (by norm_num), show (9 : ℝ) = 3 ^ 2 by norm_num, Real.log_pow]
    norm_num
  refine ⟨fun i => ?_, ?_, fun i => ?_⟩
  · fin_cases m <;> fin_cases i <;> (simp [selPhi]; try norm_num)
  · fin_cases m <;> (simp [selPhi, Fin.sum_univ_two]; try norm_num)
  · simp only [one_div] at e1 e2
    fin_cases m <;> fin_cases i <;>
      (simp [selPhi, chemPot, selMus, selPot, selChis, selChi, Fin.sum_univ_two, e1, e2, e3, e4, e5, e6]; ring)

theorem sel_symm (r q : Fin 2) : selChis r q = selChis q r := by simp [selChis, eq_comm]

/-- Both are stable. -/
theorem sel_stable (m : Fin 2) : StablePhase selChis id (fun _ => 1) fun i => selPhi i m := by
  refine stablePhase_binary sel_symm (by simp) (sel_phases m).pos (sel_phases m).incompressible ?_
  have h := selChi_lt
  fin_cases m <;> (simp [Binary.P, selPhi, selChis]; nlinarith)

/-- The values in the theorem are the grand potentials. -/
theorem sel_eq : (fun m => grandPotential selChis id (fun _ => 1) selMus fun i => selPhi i m) = selPot :=
  funext fun m => grandPotential_eq (sel_phases m)

end Demo

/-! ## Examples -/

-- Two different stable phases of one reservoir, of which the first has the smaller grand potential.
example : ∃ s₀, ∀ shift, s₀ ≤ shift → SelectsPhases Unit (FHCompiled.new Demo.selChis shift) (fun _ => 1)
    Demo.selMus id Demo.selPhi Demo.selPot := by
  have := C92_selects (G := Unit) Demo.sel_symm (by simp) Function.surjective_id
    (fun m => ⟨_, Demo.sel_phases m⟩) Demo.sel_stable
  rwa [Demo.sel_eq] at this

-- Environments and states as in the definition of `SelectsPhases` exist: a run that starts with one
-- compartment in each phase and wrong fields returns the first phase twice, and the volume of one compartment.
example : ∃ shift, ∃ a > 0, ∃ U > 0, ∃ B > 0, ∃ q, 0 < q ∧ q < 1 ∧ ∃ tol₀ > 0, ∃ K, ∀ tol, 0 < tol → tol ≤ tol₀ →
    ∃ N : ℕ, LogSteps K tol N ∧ ∃ f ph d, runImpl { Demo.coexEnv with
      ia := (FHCompiled.new Demo.selChis shift).toI 2
      es := (GrandC.fromChemicalPotential Demo.selMus fun _ => 1).toI 2
      params := { Demo.params with acceptanceOmega := a } } N tol 10
    { Demo.coexState with
      Js := ![1 + U, 1 - U]
      omegas := fun r m => equilibriumField Demo.selChis id (fun _ => 1) (fun j => Demo.selPhi j m) r -
        Demo.selPot m + U
      cons := [] } 0 = (f, .ok (ph, d)) ∧ d.maxAbsIncomp < tol ∧ d.maxAbsJsDiff < tol ∧
      (∀ m, |ph.fractions m 0 - 9 / 10| ≤ B * U * q ^ d.steps) ∧ ∑ m, ph.volumes m = 1 := by
  obtain ⟨shift, hshift⟩ := C92_selects (G := Unit) Demo.sel_symm (by simp) Function.surjective_id
    (fun m => ⟨_, Demo.sel_phases m⟩) Demo.sel_stable
  rw [Demo.sel_eq] at hshift
  obtain ⟨a, ha, key⟩ := hshift shift le_rfl
  obtain ⟨U, hU, B, hB, tol₀, htol₀, q, q0, q1, h⟩ := key { Demo.coexEnv with
      ia := (FHCompiled.new Demo.selChis shift).toI 2
      es := (GrandC.fromChemicalPotential Demo.selMus fun _ => 1).toI 2
      params := { Demo.params with acceptanceOmega := a } }
    (rngZero_ok ℝ) (by simp [Demo.params])
    (by simp [Demo.params]) (by simp [Demo.params])
    (by simp [Demo.params]) rfl rfl
    ((⟨fun _ => 1⟩ : IdealC 2).isIdealGas (M := 2)) rfl ha le_rfl (by simp [Demo.params])
  refine ⟨shift, a, ha, U, hU, B, hB, q, q0, q1, tol₀, htol₀, ?_⟩
  obtain ⟨K, -, h⟩ := h { Demo.coexState with
      Js := ![1 + U, 1 - U]
      omegas := fun r m => equilibriumField Demo.selChis id (fun _ => 1) (fun j => Demo.selPhi j m) r -
        Demo.selPot m + U
      cons := [] } U hU.le le_rfl
      (by intro m; fin_cases m <;> simp [abs_of_pos hU])
      (fun r m => by
        have e : equilibriumField Demo.selChis id (fun _ => 1) (fun j => Demo.selPhi j m) r -
            Demo.selPot m + U - (equilibriumField Demo.selChis id (fun _ => 1)
            (fun j => Demo.selPhi j m) r - Demo.selPot m) = U := by ring
        exact (by rw [e]; exact (abs_of_pos hU).le : |equilibriumField Demo.selChis id (fun _ => 1)
            (fun j => Demo.selPhi j m) r - Demo.selPot m + U - (equilibriumField Demo.selChis id (fun _ => 1)
            (fun j => Demo.selPhi j m) r - Demo.selPot m)| ≤ U))
      (by simp)
  refine ⟨K, fun tol htol htol' => ?_⟩
  obtain ⟨N, hlog, hN⟩ := h tol htol htol'
  obtain ⟨f, ph, d, h1, -, h2, -, h3, -, h4, -, h5⟩ := hN N 10 0 le_rfl (by simp) (by norm_num)
  have hlt := Demo.selPot_lt
  have hleast : ∀ n : Fin 2, Least Demo.selPot n ↔ n = 0 := fun n => by
    constructor
    · intro hn
      fin_cases n
      · rfl
      · exact absurd (hn 0) (not_le.mpr hlt)
    · rintro rfl k
      fin_cases k
      · exact le_rfl
      · exact hlt.le
  refine ⟨N, hlog, f, ph, d, h1, h2, h3, fun m => ?_, ?_⟩
  · obtain ⟨n, hn, hni⟩ := h4 m
    rw [hleast] at hn
    subst hn
    simpa [Demo.selPhi] using hni 0
  · rw [h5]
    simp [hleast]

-- The phases that coexist in the demonstration mixture have equal grand potentials: both remain.
example : ∃ mus : Vec 2 ℝ, (∀ m, ReservoirPhase Demo.coexFH.chis id (fun _ => 1) mus
      (fun i => Demo.coexPhi i m) 0) ∧ ∃ s₀, ∀ shift, s₀ ≤ shift →
    SelectsPhases Unit (FHCompiled.new Demo.coexFH.chis shift) (fun _ => 1) mus id Demo.coexPhi fun _ => 0 :=
  C92_coexistence Demo.coex_symm (by simp) Function.surjective_id Demo.coexistence
    (C91_binary_stable Demo.coex_symm (by simp) Demo.coexistence (p := 0) (q := 1)
      (by simp [Demo.coexPhi]; norm_num))

-- The hypothesis of `C92_winner` holds for the two phases above.
example : ∀ k, Demo.selPot 0 < Demo.selPot k ∨ ∀ i, Demo.selPhi i k = Demo.selPhi i 0 := by
  intro k
  fin_cases k
  · exact Or.inr fun _ => rfl
  · exact Or.inl Demo.selPot_lt

end Flory
