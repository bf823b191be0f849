import Verif.Lemmas.SeparatedLocal
import Verif.Props.Merge
import Verif.Props.Critical

set_option linter.unusedSectionVars false

/-! # C91: runs near coexisting stable phases converge to them -/

namespace Flory

open Finset Spec

variable {C S M : ℕ} {G : Type}

/-- **C91**: coexisting phases that are all stable attract the iteration, for every ratio of the acceptances
below four times the smallest `J · l` and every large enough shift of the interaction. -/
theorem C91_converges [NeZero M] [NeZero S] {chis : Mat S S ℝ} {feat : Fin C → Fin S} {l : Vec C ℝ}
    {es : CanonicalC C ℝ} {J : Vec M ℝ} {phi : Mat C M ℝ} (hsym : ∀ r q, chis r q = chis q r)
    (hl : ∀ i, 0 < l i) (hfeat : Function.Surjective feat) (hJ : ∀ m, 0 < J m)
    (hc : Coexistence chis feat l es.phiMeans J phi)
    (hstab : ∀ m, StablePhase chis feat l fun i => phi i m) {R : ℝ} (hR : ∀ i m, R < 4 * (J m * l i)) :
    ∃ s₀, ∀ shift, s₀ ≤ shift → ConvergesToPhases G (FHCompiled.new chis shift) es l feat J phi R := by
  choose σ hσ using hfeat
  obtain ⟨c₀, -, h⟩ := converges_to_phases (G := G) hsym hl hσ hJ hc hstab hR
  obtain ⟨s₀, hs⟩ := exists_shift chis c₀
  exact ⟨s₀, fun shift hsh => h _ rfl (hs shift hsh)⟩

section Binary

variable {X : Mat S S ℝ} {feat : Fin 2 → Fin S} {l phiMeans : Vec 2 ℝ} {J : Vec M ℝ} {phi : Mat 2 M ℝ}

/-- The stability of a phase of a binary mixture is the sign of one number. -/
theorem stablePhase_binary (hs : ∀ r q, X r q = X q r) (hl : ∀ i, 0 < l i) {x : Vec 2 ℝ}
    (hx : ∀ i, 0 < x i) (hsum : ∑ i, x i = 1)
    (h : 0 < Binary.P (l 0) (l 1)
      (1 / 2 * (X (feat 0) (feat 0) + X (feat 1) (feat 1)) - X (feat 0) (feat 1)) (x 0)) :
    StablePhase X feat l x := by
  intro z hz hne
  rw [Fin.sum_univ_two] at hsum hz
  have hx0 := hx 0
  have hx1 := hx 1
  have e1 : x 1 = 1 - x 0 := by linarith
  have ez : z 1 = - z 0 := by linarith
  have hz0 : z 0 ≠ 0 := by
    intro h0
    refine hne (funext fun i => ?_)
    fin_cases i
    · exact h0
    · show z 1 = 0
      rw [ez, h0, neg_zero]
  rw [Binary.P_eq (hl 0) (hl 1) hx0 (by linarith)] at h
  have hpos : 0 < l 0 * l 1 * x 0 * (1 - x 0) := by
    have := hl 0
    have := hl 1
    have : 0 < 1 - x 0 := by linarith
    positivity
  have h2 := pos_of_mul_pos_right h hpos.le
  have key : ∑ i, z i ^ 2 / (l i * x i) + ∑ i, ∑ j, X (feat i) (feat j) * z i * z j =
      z 0 ^ 2 * Binary.G2 (l 0) (l 1)
        (1 / 2 * (X (feat 0) (feat 0) + X (feat 1) (feat 1)) - X (feat 0) (feat 1)) (x 0) := by
    unfold Binary.G2
    simp only [Fin.sum_univ_two]
    rw [ez, e1, hs (feat 1) (feat 0)]
    ring
  rw [key]
  positivity

/-- **C91**: in a binary mixture coexisting phases are stable as soon as two of them differ. -/
theorem C91_binary_stable (hs : ∀ r q, X r q = X q r) (hl : ∀ i, 0 < l i)
    (h : Coexistence X feat l phiMeans J phi) {p q : Fin M} (hpq : phi 0 p ≠ phi 0 q) (m : Fin M) :
    StablePhase X feat l fun i => phi i m := by
  wlog hlt : phi 0 p < phi 0 q generalizing p q
  · exact this hpq.symm (lt_of_le_of_ne (not_lt.mp hlt) hpq.symm)
  have hb := h.balanced
  refine stablePhase_binary hs hl (fun i => h.pos i m) (h.incompressible m) ?_
  obtain ⟨z, w, h1, h2, h3, hz, hw⟩ := Binary.two_spinodals (hl 0) (hl 1)
    (balanced_touches (hs _ _) hb p p) (balanced_touches (hs _ _) hb p q) hlt
  have h1 : phi 0 p < z := h1
  have h3 : w < phi 0 q := h3
  refine Binary.outside (hl 1) (lt_trans (h.pos 0 p) h1) h2 hz hw ?_
  rcases C75_phase_rule (hs _ _) hl hb m p q with e | e | e
  · have e : phi 0 m = phi 0 p := congrFun e 0
    exact Or.inl (by rw [e]; exact h1)
  · exact absurd (congrFun e 0) hlt.ne
  · have e : phi 0 m = phi 0 q := congrFun e 0
    exact Or.inr (by rw [e]; exact h3)

/-- Two different phases are independent. -/
theorem independent_two {C : ℕ} {phi : Mat C 2 ℝ} (h : ∀ m, ∑ i, phi i m = 1) {i : Fin C}
    (hne : phi i 0 ≠ phi i 1) : IndependentPhases phi := by
  intro y hy
  have hs : ∑ i, ∑ m, y m * phi i m = 0 := sum_eq_zero fun i _ => hy i
  simp only [Fin.sum_univ_two, sum_add_distrib, ← mul_sum, h, mul_one] at hs
  have hi := hy i
  rw [Fin.sum_univ_two] at hi
  have e : y 1 = - y 0 := by linarith
  have : y 0 * (phi i 0 - phi i 1) = 0 := by rw [e] at hi; linear_combination hi
  have h0 := (mul_eq_zero.mp this).resolve_right (sub_ne_zero.mpr hne)
  funext m
  fin_cases m
  · exact h0
  · show y 1 = 0
    rw [e, h0, neg_zero]

/-- **C91** for binary mixtures: every coexistence of different phases attracts the iteration. -/
theorem C91_binary [NeZero M] [NeZero S] {es : CanonicalC 2 ℝ} (hs : ∀ r q, X r q = X q r)
    (hl : ∀ i, 0 < l i) (hfeat : Function.Surjective feat) (hJ : ∀ m, 0 < J m)
    (h : Coexistence X feat l es.phiMeans J phi) {p q : Fin M} (hpq : phi 0 p ≠ phi 0 q) {R : ℝ}
    (hR : ∀ i m, R < 4 * (J m * l i)) :
    ∃ s₀, ∀ shift, s₀ ≤ shift → ConvergesToPhases G (FHCompiled.new X shift) es l feat J phi R :=
  C91_converges hs hl hfeat hJ h (C91_binary_stable hs hl h hpq) hR

/-- **C91**, existence: above the critical point there are two compositions such that every mean
composition between them separates into these two phases in any number `M ≥ 2` of compartments, and the
separated state attracts the iteration. -/
theorem C91_phase_diagram [NeZero S] (hs : ∀ r q, X r q = X q r) (hl : ∀ i, 0 < l i)
    (hfeat : Function.Surjective feat)
    (hcrit : 1 / 2 * (1 / √(l 0) + 1 / √(l 1)) ^ 2 <
      X (feat 0) (feat 1) - 1 / 2 * (X (feat 0) (feat 0) + X (feat 1) (feat 1))) :
    ∃ lo hi : Vec 2 ℝ, lo 0 < hi 0 ∧ ∀ (es : CanonicalC 2 ℝ) (M : ℕ) [NeZero M], 2 ≤ M →
      ∑ i, es.phiMeans i = 1 → lo 0 < es.phiMeans 0 → es.phiMeans 0 < hi 0 →
      ∃ (J : Vec M ℝ) (phi : Mat 2 M ℝ), Coexistence X feat l es.phiMeans J phi ∧ (∀ m, 0 < J m) ∧
        (∃ p, (fun i => phi i p) = lo) ∧ (∃ q, (fun i => phi i q) = hi) ∧ ∀ R,
        (∀ i m, R < 4 * (J m * l i)) → ∃ s₀, ∀ shift, s₀ ≤ shift →
          ConvergesToPhases G (FHCompiled.new X shift) es l feat J phi R := by
  obtain ⟨ps, hb, hne⟩ := (C76_critical (chis := liftChis X feat) (hs _ _) hl).mpr hcrit
  have hne0 : ps 0 0 ≠ ps 1 0 := fun e => hne (eq_of_first (hb.fill 0) (hb.fill 1) e)
  have main : ∀ ps : Fin 2 → Vec 2 ℝ, Balanced (liftChis X feat) l ps → ps 0 0 < ps 1 0 →
      ∃ lo hi : Vec 2 ℝ, lo 0 < hi 0 ∧ ∀ (es : CanonicalC 2 ℝ) (M : ℕ) [NeZero M], 2 ≤ M →
      ∑ i, es.phiMeans i = 1 → lo 0 < es.phiMeans 0 → es.phiMeans 0 < hi 0 →
      ∃ (J : Vec M ℝ) (phi : Mat 2 M ℝ), Coexistence X feat l es.phiMeans J phi ∧ (∀ m, 0 < J m) ∧
        (∃ p, (fun i => phi i p) = lo) ∧ (∃ q, (fun i => phi i q) = hi) ∧ ∀ R,
        (∀ i m, R < 4 * (J m * l i)) → ∃ s₀, ∀ shift, s₀ ≤ shift →
          ConvergesToPhases G (FHCompiled.new X shift) es l feat J phi R := by
    intro ps hb hlt
    refine ⟨ps 0, ps 1, hlt, fun es M _ hM hsum h1 h2 => ?_⟩
    obtain ⟨J, phi, hc, hJ, ⟨p, -, hp⟩, ⟨q, -, hq⟩⟩ := exists_coexistence hb hM hsum h1 h2
    have hpq : phi 0 p ≠ phi 0 q := by
      have e1 : phi 0 p = ps 0 0 := congrFun hp 0
      have e2 : phi 0 q = ps 1 0 := congrFun hq 0
      rw [e1, e2]
      exact hlt.ne
    exact ⟨J, phi, hc, hJ, ⟨p, hp⟩, ⟨q, hq⟩, fun R hR => C91_binary hs hl hfeat hJ hc hpq hR⟩
  rcases lt_or_gt_of_ne hne0 with h | h
  · exact main ps hb h
  · refine main ![ps 1, ps 0] ⟨fun p i => ?_, fun p => ?_, fun p q i => ?_⟩ h
    · fin_cases p <;> exact hb.pos _ i
    · fin_cases p <;> exact hb.fill _
    · fin_cases p <;> fin_cases q <;> exact hb.balance _ _ i

end Binary

/-! ## Examples -/

-- The two phases of the demonstration mixture attract the iteration.
example : ∃ s₀, ∀ shift, s₀ ≤ shift → ConvergesToPhases Unit (FHCompiled.new Demo.coexFH.chis shift)
    Demo.coexEns (fun _ => 1) id (![1 / 2, 3 / 2] : Vec 2 ℝ) Demo.coexPhi 1 :=
  C91_binary Demo.coex_symm (by simp) Function.surjective_id
    (by intro m; fin_cases m <;> simp) Demo.coexistence (p := 0) (q := 1)
    (by simp [Demo.coexPhi]; norm_num)
    (by intro i m; fin_cases m <;> (simp; try norm_num))

-- They are independent, so that the volumes converge.
example : IndependentPhases Demo.coexPhi :=
  independent_two Demo.coexistence.incompressible (i := 0) (by simp [Demo.coexPhi]; norm_num)

-- Environments and states as in the definition of `ConvergesToPhases` exist: a run of this mixture that
-- starts with wrong volumes and wrong fields.
example : ∃ shift, ∃ a > 0, ∃ U > 0, ∃ B > 0, ∃ q, 0 < q ∧ q < 1 ∧ ∃ K > 0, ∀ tol > 0,
    ∃ N : ℕ, LogSteps K tol N ∧ ∃ f ph d, runImpl { Demo.coexEnv with
      ia := (FHCompiled.new Demo.coexFH.chis shift).toI 2
      params := { Demo.params with acceptanceOmega := a, acceptanceJs := 1 / 10 * a } } N tol 10
    { Demo.coexState with
      Js := ![1 / 2 + U, 3 / 2 - U]
      omegas := fun r m => Demo.coexState.omegas r m + U
      cons := [] } 32 = (f, .ok (ph, d)) ∧ d.maxAbsIncomp < tol ∧ d.maxAbsJsDiff < tol ∧
      |ph.fractions 0 0 - 1 / 4| ≤ B * U * q ^ d.steps ∧ |ph.volumes 1 - 3 / 2| ≤ B * U * q ^ d.steps := by
  obtain ⟨shift, hshift⟩ := C91_binary (G := Unit) (es := Demo.coexEns) Demo.coex_symm
    (by simp) Function.surjective_id
    (by intro m; fin_cases m <;> simp) Demo.coexistence (p := 0) (q := 1)
    (by simp [Demo.coexPhi]; norm_num) (R := 1)
    (by intro i m; fin_cases m <;> (simp; try norm_num))
  obtain ⟨a, ha, key⟩ := hshift shift le_rfl (1 / 10) (by norm_num) (by norm_num)
  obtain ⟨U, hU, B, hB, q, q0, q1, h⟩ := key { Demo.coexEnv with
      ia := (FHCompiled.new Demo.coexFH.chis shift).toI 2
      params := { Demo.params with acceptanceOmega := a, acceptanceJs := 1 / 10 * a } }
    (rngZero_ok ℝ) (by simp [Demo.params])
    (by simp [Demo.params]) (by simp [Demo.params]) (by intro m; fin_cases m <;> simp [Demo.params])
    (by simp [Demo.params]) rfl rfl
    ((⟨fun _ => 1⟩ : IdealC 2).isIdealGas (M := 2)) rfl ha le_rfl rfl
  refine ⟨shift, a, ha, U, hU, B, hB, q, q0, q1, ?_⟩
  obtain ⟨K, hK, h⟩ := h fun _ => 7
  refine ⟨K, hK, fun tol htol => ?_⟩
  obtain ⟨N, hlog, hN⟩ := h tol htol
  obtain ⟨f, ph, d, h1, -, h2, -, h3, -, h4, -, -, h5⟩ := hN { Demo.coexState with
      Js := ![1 / 2 + U, 3 / 2 - U]
      omegas := fun r m => Demo.coexState.omegas r m + U
      cons := [] } U hU.le le_rfl (by simp [Fin.sum_univ_two]; ring)
      (by intro m; fin_cases m <;> simp [abs_of_pos hU])
      (fun r m => by
        have e : Demo.coexState.omegas r m + U - (equilibriumField Demo.coexFH.chis id (fun _ => 1)
            (fun j => Demo.coexPhi j m) r + 7) = U := by
          simp only [Demo.coexState]
          ring
        exact (by rw [e]; exact (abs_of_pos hU).le : |Demo.coexState.omegas r m + U -
          (equilibriumField Demo.coexFH.chis id (fun _ => 1) (fun j => Demo.coexPhi j m) r + 7)| ≤ U))
      (by simp) N 10 32 (by simp) (by norm_num)
  refine ⟨N, hlog, f, ph, d, h1, h2, h3, ?_, ?_⟩
  · simpa [Demo.coexPhi] using h4 0 0
  · simpa using h5 (independent_two Demo.coexistence.incompressible (i := 0)
      (by simp [Demo.coexPhi]; norm_num)) 1

end Flory
