import Verif.Spec.Miscible
import Verif.Props.Equilibrium

/-! # Mixtures that cannot demix are never reported as demixed (C66) -/

set_option linter.unusedSectionVars false

namespace Flory

open Spec

section Pair

variable {C : ℕ} {chis : Mat C C ℝ} {l x y : Vec C ℝ}

theorem log_diff_lower {a b U : ℝ} (ha : 0 < a) (hb : 0 < b) (hau : a ≤ U) (hbu : b ≤ U) :
    (a - b) ^ 2 / U ≤ (a - b) * (Real.log a - Real.log b) := by
  have key : ∀ a b : ℝ, 0 < a → 0 < b → b ≤ a → a ≤ U →
      (a - b) ^ 2 / U ≤ (a - b) * (Real.log a - Real.log b) := by
    intro a b ha hb hba hau
    have h1 := Real.one_sub_inv_le_log_of_pos (div_pos ha hb)
    rw [Real.log_div ha.ne' hb.ne', inv_div] at h1
    have h2 : (a - b) / U ≤ 1 - b / a := by
      rw [div_le_iff₀ (ha.trans_le hau)]
      have h3 : 0 ≤ 1 - b / a := by rw [sub_nonneg, div_le_one ha]; exact hba
      calc a - b = (1 - b / a) * a := by field_simp
        _ ≤ (1 - b / a) * U := mul_le_mul_of_nonneg_left hau h3
    calc (a - b) ^ 2 / U = (a - b) * ((a - b) / U) := by ring
      _ ≤ _ := mul_le_mul_of_nonneg_left (h2.trans h1) (sub_nonneg.mpr hba)
  rcases le_total b a with h | h
  · exact key a b ha hb h hau
  · have := key b a hb ha h hbu
    have e1 : (a - b) ^ 2 = (b - a) ^ 2 := by ring
    have e2 : (a - b) * (Real.log a - Real.log b) = (b - a) * (Real.log b - Real.log a) := by ring
    rw [e1, e2]; exact this

/-- The part of the chemical potentials that is common to all components. -/
noncomputable def commonPart (chis : Mat C C ℝ) (l x : Vec C ℝ) : ℝ :=
  1 / 2 * (∑ j, ∑ k, chis j k * x j * x k) + ∑ j, x j / l j

theorem sum_mul_chemPot_diff :
    ∑ i, (x i - y i) * (chemPot chis l x i - chemPot chis l y i) =
      (∑ i, (x i - y i) * (Real.log (x i) - Real.log (y i)) / l i)
      + (∑ i, ∑ j, chis i j * (x i - y i) * (x j - y j))
      - (commonPart chis l x - commonPart chis l y) * ∑ i, (x i - y i) := by
  have e : ∀ i, (x i - y i) * (chemPot chis l x i - chemPot chis l y i) =
      (x i - y i) * (Real.log (x i) - Real.log (y i)) / l i
      + (∑ j, chis i j * (x i - y i) * (x j - y j))
      - (commonPart chis l x - commonPart chis l y) * (x i - y i) := by
    intro i
    have : ∑ j, chis i j * (x i - y i) * (x j - y j) =
        (x i - y i) * ((∑ j, chis i j * x j) - ∑ j, chis i j * y j) := by
      rw [← Finset.sum_sub_distrib, Finset.mul_sum]
      exact Finset.sum_congr rfl fun j _ => by ring
    rw [this]
    unfold chemPot commonPart
    ring
  rw [Finset.sum_congr rfl fun i _ => e i, Finset.sum_sub_distrib, Finset.sum_add_distrib,
    ← Finset.mul_sum]

/-- Two phases with equal chemical potentials of a mixture with convex interaction energy coincide. -/
theorem balanced_eq (hm : Miscible chis) (hl : ∀ i, 0 < l i) (hx : ∀ i, 0 < x i) (hy : ∀ i, 0 < y i)
    (hsum : ∑ i, x i = ∑ i, y i) (hmu : ∀ i, chemPot chis l x i = chemPot chis l y i) : x = y := by
  have h1 := sum_mul_chemPot_diff (chis := chis) (l := l) (x := x) (y := y)
  have hv : ∑ i, (x i - y i) = 0 := by rw [Finset.sum_sub_distrib, hsum, sub_self]
  have h2 := hm (fun i => x i - y i) hv
  rw [hv, mul_zero, sub_zero] at h1
  have h0 : ∑ i, (x i - y i) * (chemPot chis l x i - chemPot chis l y i) = 0 :=
    Finset.sum_eq_zero fun i _ => by rw [hmu, sub_self, mul_zero]
  rw [h0] at h1
  have h3 : ∀ i, (x i - y i) ^ 2 / (x i + y i) / l i ≤
      (x i - y i) * (Real.log (x i) - Real.log (y i)) / l i := fun i =>
    div_le_div_of_nonneg_right (log_diff_lower (hx i) (hy i) (by linarith [hy i]) (by linarith [hx i]))
      (hl i).le
  have h4 : ∀ i, 0 ≤ (x i - y i) ^ 2 / (x i + y i) / l i := fun i =>
    div_nonneg (div_nonneg (sq_nonneg _) (add_pos (hx i) (hy i)).le) (hl i).le
  have h5 : ∑ i, (x i - y i) ^ 2 / (x i + y i) / l i ≤ 0 :=
    (Finset.sum_le_sum fun i _ => h3 i).trans (by linarith)
  have h6 := (Finset.sum_eq_zero_iff_of_nonneg fun i _ => h4 i).mp
    (le_antisymm h5 (Finset.sum_nonneg fun i _ => h4 i))
  funext i
  have h7 := h6 i (Finset.mem_univ i)
  have : (x i - y i) ^ 2 = 0 := by
    rcases div_eq_zero_iff.mp h7 with h | h
    · rcases div_eq_zero_iff.mp h with h | h
      · exact h
      · exact absurd h (add_pos (hx i) (hy i)).ne'
    · exact absurd h (hl i).ne'
  exact sub_eq_zero.mp (pow_eq_zero_iff (two_ne_zero)|>.mp this)

/-- Size of the common part. -/
theorem commonPart_diff {X Λ B : ℝ} (hX0 : 0 ≤ X) (hX : ∀ i j, |chis i j| ≤ X) (hl : ∀ i, 0 < l i)
    (hΛ0 : 0 ≤ Λ) (hΛ : ∀ i, 1 / l i ≤ Λ) (hx : ∀ i, 0 ≤ x i) (hy : ∀ i, 0 ≤ y i)
    (hxs : ∑ i, x i ≤ B) (hys : ∑ i, y i ≤ B) :
    |commonPart chis l x - commonPart chis l y| ≤ X * B ^ 2 + Λ * B := by
  have hq : ∀ z : Vec C ℝ, (∀ i, 0 ≤ z i) → ∑ i, z i ≤ B →
      |∑ j, ∑ k, chis j k * z j * z k| ≤ X * B ^ 2 := by
    intro z hz hzs
    calc |∑ j, ∑ k, chis j k * z j * z k| ≤ ∑ j, ∑ k, X * (z j * z k) := by
          refine (Finset.abs_sum_le_sum_abs _ _).trans (Finset.sum_le_sum fun j _ => ?_)
          refine (Finset.abs_sum_le_sum_abs _ _).trans (Finset.sum_le_sum fun k _ => ?_)
          rw [mul_assoc, abs_mul, abs_of_nonneg (mul_nonneg (hz j) (hz k))]
          exact mul_le_mul_of_nonneg_right (hX j k) (mul_nonneg (hz j) (hz k))
      _ = X * (∑ i, z i) ^ 2 := by
          rw [sq, Finset.sum_mul_sum, Finset.mul_sum]
          exact Finset.sum_congr rfl fun j _ => by rw [Finset.mul_sum]
      _ ≤ X * B ^ 2 := mul_le_mul_of_nonneg_left
          (pow_le_pow_left₀ (Finset.sum_nonneg fun i _ => hz i) hzs 2) hX0
  have hp : ∀ z : Vec C ℝ, (∀ i, 0 ≤ z i) → ∑ i, z i ≤ B →
      0 ≤ ∑ j, z j / l j ∧ ∑ j, z j / l j ≤ Λ * B := by
    intro z hz hzs
    refine ⟨Finset.sum_nonneg fun j _ => div_nonneg (hz j) (hl j).le, ?_⟩
    calc ∑ j, z j / l j ≤ ∑ j, Λ * z j := Finset.sum_le_sum fun j _ => by
          rw [div_eq_mul_one_div, mul_comm]; exact mul_le_mul_of_nonneg_right (hΛ j) (hz j)
      _ = Λ * ∑ j, z j := by rw [Finset.mul_sum]
      _ ≤ Λ * B := mul_le_mul_of_nonneg_left hzs hΛ0
  have q1 := abs_le.mp (hq x hx hxs)
  have q2 := abs_le.mp (hq y hy hys)
  have p1 := hp x hx hxs
  have p2 := hp y hy hys
  unfold commonPart
  rw [abs_le]
  constructor <;> linarith [q1.1, q1.2, q2.1, q2.2, p1.1, p1.2, p2.1, p2.2]

/-- Two phases with nearly equal chemical potentials of a mixture with convex interaction energy
nearly coincide. -/
theorem balanced_close {c X Λ δ E : ℝ} (hc : 0 ≤ c) (hm : MiscibleUpTo chis c) (hX0 : 0 ≤ X)
    (hX : ∀ i j, |chis i j| ≤ X) (hl : ∀ i, 0 < l i) (hΛ0 : 0 ≤ Λ) (hΛ : ∀ i, 1 / l i ≤ Λ)
    (hxy : ∀ i, (0 < x i ∧ 0 < y i) ∨ (x i = 0 ∧ y i = 0))
    (hxs : |∑ i, x i - 1| ≤ δ) (hys : |∑ i, y i - 1| ≤ δ)
    (hmu : ∀ i, 0 < x i → |chemPot chis l x i - chemPot chis l y i| ≤ E) (hE : 0 ≤ E) :
    ∑ i, (x i - y i) ^ 2 / l i ≤
      (1 + δ) * (2 * (1 + δ) * E + 2 * δ * (X * (1 + δ) ^ 2 + Λ * (1 + δ)) + 4 * c * δ ^ 2) := by
  have hx0 : ∀ i, 0 ≤ x i := fun i => by rcases hxy i with h | h; exacts [h.1.le, h.1.ge]
  have hy0 : ∀ i, 0 ≤ y i := fun i => by rcases hxy i with h | h; exacts [h.2.le, h.2.ge]
  have hδ : 0 ≤ δ := (abs_nonneg _).trans hxs
  have hxB : ∑ i, x i ≤ 1 + δ := by have := (abs_le.mp hxs).2; linarith
  have hyB : ∑ i, y i ≤ 1 + δ := by have := (abs_le.mp hys).2; linarith
  have h1 := sum_mul_chemPot_diff (chis := chis) (l := l) (x := x) (y := y)
  have hv : |∑ i, (x i - y i)| ≤ 2 * δ := by
    rw [Finset.sum_sub_distrib]
    have := abs_le.mp hxs
    have := abs_le.mp hys
    rw [abs_le]; constructor <;> linarith
  have hK := commonPart_diff hX0 hX hl hΛ0 hΛ hx0 hy0 hxB hyB
  -- the entropic term
  have h3 : ∀ i, (x i - y i) ^ 2 / l i / (1 + δ) ≤
      (x i - y i) * (Real.log (x i) - Real.log (y i)) / l i := by
    intro i
    rw [div_right_comm]
    refine div_le_div_of_nonneg_right ?_ (hl i).le
    rcases hxy i with h | h
    · exact log_diff_lower h.1 h.2
        ((Finset.single_le_sum (fun i _ => hx0 i) (Finset.mem_univ i)).trans hxB)
        ((Finset.single_le_sum (fun i _ => hy0 i) (Finset.mem_univ i)).trans hyB)
    · rw [h.1, h.2]; simp
  -- the left-hand side
  have h4 : ∑ i, (x i - y i) * (chemPot chis l x i - chemPot chis l y i) ≤ 2 * (1 + δ) * E := by
    have h5 : ∀ i, (x i - y i) * (chemPot chis l x i - chemPot chis l y i) ≤ (x i + y i) * E := by
      intro i
      rcases hxy i with h | h
      · refine (le_abs_self _).trans ?_
        rw [abs_mul]
        refine mul_le_mul ?_ (hmu i h.1) (abs_nonneg _) (add_nonneg (hx0 i) (hy0 i))
        rw [abs_le]; constructor <;> linarith [h.1, h.2]
      · rw [h.1, h.2]; simp
    refine (Finset.sum_le_sum fun i _ => h5 i).trans ?_
    rw [← Finset.sum_mul, Finset.sum_add_distrib]
    exact mul_le_mul_of_nonneg_right (by linarith) hE
  have h6 := hm fun i => x i - y i
  have h7 : c * (∑ i, (x i - y i)) ^ 2 ≤ 4 * c * δ ^ 2 := by
    have := mul_le_mul_of_nonneg_left (sq_le_sq' (neg_le_of_abs_le hv) (le_of_abs_le hv)) hc
    linarith
  have h8 : (commonPart chis l x - commonPart chis l y) * ∑ i, (x i - y i) ≤
      2 * δ * (X * (1 + δ) ^ 2 + Λ * (1 + δ)) := by
    refine (le_abs_self _).trans ?_
    rw [abs_mul, mul_comm]
    exact mul_le_mul hv hK (abs_nonneg _) (by linarith)
  have h9 : (∑ i, (x i - y i) ^ 2 / l i) / (1 + δ) ≤
      ∑ i, (x i - y i) * (Real.log (x i) - Real.log (y i)) / l i := by
    rw [Finset.sum_div]; exact Finset.sum_le_sum fun i _ => h3 i
  rw [mul_comm (1 + δ), ← div_le_iff₀ (by linarith)]
  linarith

end Pair

section Run

variable {G : Type} {C S M : ℕ} [NeZero M]
variable {e : RunEnv C S M ℝ G} {maxSteps : ℚ} {tol : ℝ} {interval : ℤ} {st : State C S M ℝ G} {b : ℤ}
  {s' : RunState C S M ℝ G} {ph : Phases M C ℝ} {d : Diagnostics ℝ}
  {ia : FHCompiled S ℝ} {sizes : Vec C ℝ} {feat : Fin C → Fin S} {a : Vec C ℝ → Vec C ℝ}

/-- **C66**. For a mixture whose interaction energy is convex (`MiscibleUpTo`), in any ensemble, with
any global constraints, any initial fields, any random numbers and any numerical parameters: the
compositions of any two phases returned by a run are equal up to an explicit multiple of the
reported errors. -/
theorem C66_no_false_phases (hok : e.rng.Ok) (hthr : 0 ≤ e.params.killThreshold)
    (hia : e.ia = ia.toI M) (hen : IsIdealGas e.en sizes feat) (hes : Scales e.es a)
    (hcons : ∀ c ∈ st.cons, c.NotLocal)
    (h : runImpl e maxSteps tol interval st b = (s', .ok (ph, d)))
    (hl : ∀ i, 0 < sizes i) (ha : ∀ i, (∀ Q, (∀ j, 0 < Q j) → 0 < a Q i) ∨ ∀ Q, a Q i = 0)
    {c X Λ : ℝ} (hc : 0 ≤ c) (hm : MiscibleUpTo (liftChis ia.chis feat) c)
    (hX0 : 0 ≤ X) (hX : ∀ r q, |ia.chis r q| ≤ X) (hΛ0 : 0 ≤ Λ) (hΛ : ∀ i, 1 / sizes i ≤ Λ)
    (p q : Fin M) :
    ∑ i, (ph.fractions p i - ph.fractions q i) ^ 2 / sizes i ≤
      (1 + d.maxAbsIncomp) *
        (2 * (1 + d.maxAbsIncomp) *
          (S * d.maxAbsOmegaDiff + |ia.coef| * d.maxAbsIncomp + 2 * d.maxAbsJsDiff)
        + 2 * d.maxAbsIncomp * (X * (1 + d.maxAbsIncomp) ^ 2 + Λ * (1 + d.maxAbsIncomp))
        + 4 * c * d.maxAbsIncomp ^ 2) := by
  obtain ⟨-, p2, -, p4⟩ := C40_physical hok hthr hia hen hes h p
  obtain ⟨-, q2, -, q4⟩ := C40_physical hok hthr hia hen hes h q
  have hz : ∀ k i, (∀ Q, a Q i = 0) → ph.fractions k i = 0 := by
    intro k i h0
    obtain ⟨b₀, count, s, t, hs⟩ := run_source hok hthr h
    have hF := iterate_facts hs.pass
    rw [hia] at hF
    obtain ⟨m, -, -, hpm⟩ := hs.rows k
    rw [hpm, hF.phis_eq hen hes, h0]
    simp
  refine balanced_close hc hm hX0 (fun i j => hX _ _) hl hΛ0 hΛ (fun i => ?_) p4 q4 (fun i hi => ?_) ?_
  · rcases ha i with hp | h0
    · exact Or.inl ⟨p2 i hp, q2 i hp⟩
    · exact Or.inr ⟨hz p i h0, hz q i h0⟩
  · rcases ha i with hp | h0
    · exact C39_chemical_balance hok hthr hia hen hes hcons h (hl i).ne' hp p q
    · rw [hz p i h0] at hi; exact absurd hi (lt_irrefl 0)
  · obtain ⟨b₀, count, s, t, hs⟩ := run_source hok hthr h
    have hF := iterate_facts hs.pass
    have e1 := hF.maxAbsOmegaDiff_nonneg
    have e2 := (abs_nonneg _).trans (hF.incomp_le p)
    have e3 := (abs_nonneg _).trans (hF.JsDiff_le p)
    rw [hs.omega, hs.incomp, hs.js]
    positivity

/-- **C66**, the canonical limit of vanishing errors: phases in equilibrium of a miscible mixture are
all equal to the mean composition. -/
theorem C66_equilibrium_homogeneous {chis : Mat S S ℝ} {l phiMeans : Vec C ℝ} {J : Vec M ℝ}
    {phi : Mat C M ℝ} (hm : Miscible (liftChis chis feat)) (hl : ∀ i, 0 < l i)
    (h : Coexistence chis feat l phiMeans J phi) (i : Fin C) (m : Fin M) : phi i m = phiMeans i := by
  obtain ⟨mu, hmu⟩ := h.balance
  have heq : ∀ k, phi i k = phi i m := fun k => congrFun (balanced_eq (chis := liftChis chis feat)
    (l := l) (x := fun j => phi j k) (y := fun j => phi j m) hm hl (fun j => h.pos j k)
    (fun j => h.pos j m) (by rw [h.incompressible, h.incompressible])
    fun j => (hmu j k).trans (hmu j m).symm) i
  have h1 := h.mean i
  simp only [heq] at h1
  rw [← Finset.sum_mul, h.volumes] at h1
  exact mul_left_cancel₀ (by exact_mod_cast NeZero.ne M) h1

end Run

namespace Demo

/-- Unlike molecules attract each other. -/
noncomputable def attract : FHCompiled 2 ℝ := FHCompiled.new ![![0, -3], ![-3, 0]] 1

theorem attract_miscible : MiscibleUpTo (liftChis attract.chis id) (3 / 2) := by
  intro v
  have e : liftChis attract.chis (id : Fin 2 → Fin 2) = ![![0, -3], ![-3, 0]] := rfl
  rw [e]
  simp only [Fin.sum_univ_two]
  simp
  nlinarith [sq_nonneg (v 0 - v 1)]

/-- The attracting mixture. -/
noncomputable def attractEnv : RunEnv 2 2 3 ℝ Unit := { env (canonical.toI 3) with ia := attract.toI 3 }

end Demo

-- C66: a run with different fields in the compartments, a dead compartment and a global constraint.
example : ∃ s' ph d, runImpl Demo.attractEnv 10 (1 / 100000) 5 (Demo.state Demo.globCons) 0 =
      (s', .ok (ph, d)) ∧
    ∀ p q, ∑ i, (ph.fractions p i - ph.fractions q i) ^ 2 / Demo.gas.sizes i ≤
      (1 + d.maxAbsIncomp) * (2 * (1 + d.maxAbsIncomp) * (2 * d.maxAbsOmegaDiff +
        |Demo.attract.coef| * d.maxAbsIncomp + 2 * d.maxAbsJsDiff)
        + 2 * d.maxAbsIncomp * (3 * (1 + d.maxAbsIncomp) ^ 2 + 1 * (1 + d.maxAbsIncomp))
        + 4 * (3 / 2) * d.maxAbsIncomp ^ 2) := by
  obtain ⟨s', ph, d, h⟩ := run_ok (e := Demo.attractEnv) (rngZero_ok ℝ) Demo.gas.isIdealGas
    Demo.canonical.total (by simp [Demo.attractEnv, Demo.env, Demo.params])
    (by simp [Demo.attractEnv, Demo.env, Demo.params])
    (by simp [Demo.attractEnv, Demo.env, Demo.params])
    (by simp [Demo.attractEnv, Demo.env, Demo.params]) rfl (tol := 1 / 100000)
    (maxSteps := 10) (interval := 5) (by norm_num) (by norm_num)
    (Demo.state Demo.globCons) 0 Demo.globCons_proper
    (Or.inl ⟨0, by simp [Demo.attractEnv, Demo.env, Demo.params, Demo.state]⟩)
  refine ⟨s', ph, d, h, fun p q => ?_⟩
  have := C66_no_false_phases (e := Demo.attractEnv) (ia := Demo.attract) (rngZero_ok ℝ)
    (by simp [Demo.attractEnv, Demo.env, Demo.params]) rfl Demo.gas.isIdealGas
    Demo.canonical.scales Demo.globCons_notLocal h
    (by intro i; fin_cases i <;> simp [Demo.gas])
    (fun i => Or.inl fun Q hQ => div_pos (by fin_cases i <;> simp [Demo.canonical]) (hQ i))
    (by norm_num) Demo.attract_miscible (X := 3) (by norm_num)
    (by intro r q; fin_cases r <;> fin_cases q <;> simp [Demo.attract, FHCompiled.new])
    (Λ := 1) (by norm_num) (by intro i; fin_cases i <;> norm_num [Demo.gas]) p q
  exact_mod_cast this

-- Miscibility cannot be dropped: `Demo.coexistence` is an equilibrium of two different phases.
example : Coexistence Demo.coexFH.chis id (fun _ => 1) Demo.coexEns.phiMeans Demo.coexState.Js
    Demo.coexPhi ∧ Demo.coexPhi 0 0 ≠ Demo.coexPhi 0 1 :=
  ⟨Demo.coexistence, by norm_num [Demo.coexPhi]⟩

end Flory
