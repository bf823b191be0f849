import Verif.Lemmas.Convexity

/-! # C66 for all mixtures with a convex free energy -/

set_option linter.unusedSectionVars false

namespace Flory

open Spec

section Pair

variable {C : ℕ} {chis : Mat C C ℝ} {l x y : Vec C ℝ}

/-- **C66**, which mixtures have a convex free energy: the interaction energy released by a change of composition
must not exceed the smallest entropic cost. -/
theorem C66_convex_iff (hl : ∀ i, 0 < l i) : ConvexOn ℝ (mixtures C) (freeEnergy chis l) ↔
    ∀ v : Vec C ℝ, ∑ i, v i = 0 → 0 ≤ (∑ i, |v i| / √(l i)) ^ 2 + ∑ i, ∑ j, chis i j * v i * v j :=
  ⟨fun h _ hv => stiffness_of_convexOn hl h hv, convexOn_of_stiffness hl⟩

/-- Two phases with equal chemical potentials of a mixture with convex free energy coincide. -/
theorem convex_eq (hl : ∀ i, 0 < l i) (hc : ConvexOn ℝ (mixtures C) (freeEnergy chis l)) (hx : x ∈ mixtures C)
    (hy : y ∈ mixtures C) (hmu : ∀ i, chemPot chis l x i = chemPot chis l y i) : x = y := by
  by_contra hne
  have hv : ∑ i, (x i - y i) = 0 := by rw [Finset.sum_sub_distrib, hx.2, hy.2, sub_self]
  have h1 := sum_mul_chemPot_diff (chis := chis) (l := l) (x := x) (y := y)
  rw [hv, mul_zero, sub_zero] at h1
  have h0 : ∑ i, (x i - y i) * (chemPot chis l x i - chemPot chis l y i) = 0 :=
    Finset.sum_eq_zero fun i _ => by rw [hmu, sub_self, mul_zero]
  have h2 := stiffness_lt hl hx hy hne
  have h3 := stiffness_of_convexOn hl hc hv
  linarith

/-- Two phases with nearly equal chemical potentials of a mixture whose free energy is convex with a margin nearly
coincide. -/
theorem convex_close {κ c X Λ δ E : ℝ} (hc : 0 ≤ c) (hm : ConvexUpTo chis l κ c) (hX0 : 0 ≤ X)
    (hX : ∀ i j, |chis i j| ≤ X) (hl : ∀ i, 0 < l i) (hΛ0 : 0 ≤ Λ) (hΛ : ∀ i, 1 / l i ≤ Λ)
    (hxy : ∀ i, (0 < x i ∧ 0 < y i) ∨ (x i = 0 ∧ y i = 0))
    (hxs : |∑ i, x i - 1| ≤ δ) (hys : |∑ i, y i - 1| ≤ δ)
    (hmu : ∀ i, 0 < x i → |chemPot chis l x i - chemPot chis l y i| ≤ E) (hE : 0 ≤ E) :
    (1 / (1 + δ) - (1 - κ)) * stiffness l (fun i => x i - y i) ^ 2 ≤
      2 * (1 + δ) * E + 2 * δ * (X * (1 + δ) ^ 2 + Λ * (1 + δ)) + 4 * c * δ ^ 2 := by
  have hx0 : ∀ i, 0 ≤ x i := fun i => by rcases hxy i with h | h; exacts [h.1.le, h.1.ge]
  have hy0 : ∀ i, 0 ≤ y i := fun i => by rcases hxy i with h | h; exacts [h.2.le, h.2.ge]
  have hδ : 0 ≤ δ := (abs_nonneg _).trans hxs
  have hxB : ∑ i, x i ≤ 1 + δ := by have := (abs_le.mp hxs).2; linarith
  have hyB : ∑ i, y i ≤ 1 + δ := by have := (abs_le.mp hys).2; linarith
  have h1 := sum_mul_chemPot_diff (chis := chis) (l := l) (x := x) (y := y)
  have hv : |∑ i, (x i - y i)| ≤ 2 * δ := by
    rw [Finset.sum_sub_distrib]
    have := abs_le.mp hxs
    have := abs_le.mp hys
    rw [abs_le]; constructor <;> linarith
  have hK := commonPart_diff hX0 hX hl hΛ0 hΛ hx0 hy0 hxB hyB
  have h4 : ∑ i, (x i - y i) * (chemPot chis l x i - chemPot chis l y i) ≤ 2 * (1 + δ) * E := by
    have h5 : ∀ i, (x i - y i) * (chemPot chis l x i - chemPot chis l y i) ≤ (x i + y i) * E := by
      intro i
      rcases hxy i with h | h
      · refine (le_abs_self _).trans ?_
        rw [abs_mul]
        refine mul_le_mul ?_ (hmu i h.1) (abs_nonneg _) (add_nonneg (hx0 i) (hy0 i))
        rw [abs_le]; constructor <;> linarith [h.1, h.2]
      · rw [h.1, h.2]; simp
    refine (Finset.sum_le_sum fun i _ => h5 i).trans ?_
    rw [← Finset.sum_mul, Finset.sum_add_distrib]
    exact mul_le_mul_of_nonneg_right (by linarith) hE
  have h6 := hm fun i => x i - y i
  have h7 : c * (∑ i, (x i - y i)) ^ 2 ≤ 4 * c * δ ^ 2 := by
    have := mul_le_mul_of_nonneg_left (sq_le_sq' (neg_le_of_abs_le hv) (le_of_abs_le hv)) hc
    linarith
  have h8 : (commonPart chis l x - commonPart chis l y) * ∑ i, (x i - y i) ≤
      2 * δ * (X * (1 + δ) ^ 2 + Λ * (1 + δ)) := by
    refine (le_abs_self _).trans ?_
    rw [abs_mul, mul_comm]
    exact mul_le_mul hv hK (abs_nonneg _) (by linarith)
  have h9 := stiffness_le hl hxy hxB hyB
  rw [← div_le_iff₀' (by linarith)] at h9
  rw [sub_mul, one_div_mul_eq_div]
  linarith

end Pair

section Run

variable {G : Type} {C S M : ℕ} [NeZero M]
variable {e : RunEnv C S M ℝ G} {maxSteps : ℚ} {tol : ℝ} {interval : ℤ} {st : State C S M ℝ G} {b : ℤ}
  {s' : RunState C S M ℝ G} {ph : Phases M C ℝ} {d : Diagnostics ℝ}
  {ia : FHCompiled S ℝ} {sizes : Vec C ℝ} {feat : Fin C → Fin S} {a : Vec C ℝ → Vec C ℝ}

/-- **C66**. For a mixture whose free energy is convex with the margin `κ` (up to a multiple `c` of the squared
change of volume), in any ensemble, with any global constraints, any initial fields, any random numbers and any
numerical parameters: the compositions of any two phases returned by a run are equal up to an explicit multiple of
the reported errors. -/
theorem C66_convex (hok : e.rng.Ok) (hthr : 0 ≤ e.params.killThreshold)
    (hia : e.ia = ia.toI M) (hen : IsIdealGas e.en sizes feat) (hes : Scales e.es a)
    (hcons : ∀ c ∈ st.cons, c.NotLocal)
    (h : runImpl e maxSteps tol interval st b = (s', .ok (ph, d)))
    (hl : ∀ i, 0 < sizes i) (ha : ∀ i, (∀ Q, (∀ j, 0 < Q j) → 0 < a Q i) ∨ ∀ Q, a Q i = 0)
    {κ c X Λ : ℝ} (hc : 0 ≤ c) (hm : ConvexUpTo (liftChis ia.chis feat) sizes κ c)
    (hX0 : 0 ≤ X) (hX : ∀ r q, |ia.chis r q| ≤ X) (hΛ0 : 0 ≤ Λ) (hΛ : ∀ i, 1 / sizes i ≤ Λ)
    (p q : Fin M) :
    (1 / (1 + d.maxAbsIncomp) - (1 - κ)) * (∑ i, |ph.fractions p i - ph.fractions q i| / √(sizes i)) ^ 2 ≤
      2 * (1 + d.maxAbsIncomp) *
          (S * d.maxAbsOmegaDiff + |ia.coef| * d.maxAbsIncomp + 2 * d.maxAbsJsDiff)
        + 2 * d.maxAbsIncomp * (X * (1 + d.maxAbsIncomp) ^ 2 + Λ * (1 + d.maxAbsIncomp))
        + 4 * c * d.maxAbsIncomp ^ 2 := by
  obtain ⟨-, p2, -, p4⟩ := C40_physical hok hthr hia hen hes h p
  obtain ⟨-, q2, -, q4⟩ := C40_physical hok hthr hia hen hes h q
  have hz : ∀ k i, (∀ Q, a Q i = 0) → ph.fractions k i = 0 := by
    intro k i h0
    obtain ⟨b₀, count, s, t, hs⟩ := run_source hok hthr h
    have hF := iterate_facts hs.pass
    rw [hia] at hF
    obtain ⟨m, -, -, hpm⟩ := hs.rows k
    rw [hpm, hF.phis_eq hen hes, h0]
    simp
  refine convex_close hc hm hX0 (fun i j => hX _ _) hl hΛ0 hΛ (fun i => ?_) p4 q4 (fun i hi => ?_) ?_
  · rcases ha i with hp | h0
    · exact Or.inl ⟨p2 i hp, q2 i hp⟩
    · exact Or.inr ⟨hz p i h0, hz q i h0⟩
  · rcases ha i with hp | h0
    · exact C39_chemical_balance hok hthr hia hen hes hcons h (hl i).ne' hp p q
    · rw [hz p i h0] at hi; exact absurd hi (lt_irrefl 0)
  · obtain ⟨b₀, count, s, t, hs⟩ := run_source hok hthr h
    have hF := iterate_facts hs.pass
    have e1 := hF.maxAbsOmegaDiff_nonneg
    have e2 := (abs_nonneg _).trans (hF.incomp_le p)
    have e3 := (abs_nonneg _).trans (hF.JsDiff_le p)
    rw [hs.omega, hs.incomp, hs.js]
    positivity

/-- **C66**, the canonical limit of vanishing errors: phases in equilibrium of a mixture with convex free energy
are all equal to the mean composition. -/
theorem C66_convex_homogeneous {chis : Mat S S ℝ} {l phiMeans : Vec C ℝ} {J : Vec M ℝ} {phi : Mat C M ℝ}
    (hl : ∀ i, 0 < l i) (hc : ConvexOn ℝ (mixtures C) (freeEnergy (liftChis chis feat) l))
    (h : Coexistence chis feat l phiMeans J phi) (i : Fin C) (m : Fin M) : phi i m = phiMeans i := by
  obtain ⟨mu, hmu⟩ := h.balance
  have heq : ∀ k, phi i k = phi i m := fun k => congrFun (convex_eq (chis := liftChis chis feat)
    (l := l) (x := fun j => phi j k) (y := fun j => phi j m) hl hc ⟨fun j => h.pos j k, h.incompressible k⟩
    ⟨fun j => h.pos j m, h.incompressible m⟩ fun j => (hmu j k).trans (hmu j m).symm) i
  have h1 := h.mean i
  simp only [heq] at h1
  rw [← Finset.sum_mul, h.volumes] at h1
  exact mul_left_cancel₀ (by exact_mod_cast NeZero.ne M) h1

end Run

namespace Demo

/-- Unlike molecules repel each other, but not enough to demix. -/
noncomputable def repel : FHCompiled 2 ℝ := FHCompiled.new ![![0, 1 / 2], ![1 / 2, 0]] 1

theorem repel_convex : ConvexUpTo (liftChis repel.chis id) gas.sizes (1 / 2) 0 := by
  intro v
  have e : liftChis repel.chis (id : Fin 2 → Fin 2) = ![![0, 1 / 2], ![1 / 2, 0]] := rfl
  rw [e]
  have h2 : √(2 : ℝ) * √2 = 2 := Real.mul_self_sqrt (by norm_num)
  have h1 : 1 ≤ √(2 : ℝ) := Real.one_le_sqrt.mpr (by norm_num)
  have hs : stiffness gas.sizes v = |v 0| + |v 1| * (√2 / 2) := by
    have h3 : (√(2 : ℝ))⁻¹ = √2 / 2 := by
      refine inv_eq_of_mul_eq_one_right ?_; linarith
    simp [stiffness, gas, Fin.sum_univ_two, div_eq_mul_inv, h3]
  rw [hs]
  simp only [Fin.sum_univ_two]
  simp
  have h4 : -(|v 0| * |v 1|) ≤ v 0 * v 1 := by rw [← abs_mul]; exact neg_abs_le _
  have h5 := mul_nonneg (abs_nonneg (v 0)) (abs_nonneg (v 1))
  have h6 := mul_le_mul_of_nonneg_right h1 h5
  nlinarith [sq_nonneg (|v 0| - |v 1| * (√2 / 2))]

theorem repel_not_miscible (c : ℝ) : ¬ MiscibleUpTo (liftChis repel.chis id) c := by
  intro h
  have e : liftChis repel.chis (id : Fin 2 → Fin 2) = ![![0, 1 / 2], ![1 / 2, 0]] := rfl
  have := h ![1, -1]
  rw [e] at this
  simp [Fin.sum_univ_two] at this
  norm_num at this

/-- The weakly repelling mixture. -/
noncomputable def repelEnv : RunEnv 2 2 3 ℝ Unit := { env (canonical.toI 3) with ia := repel.toI 3 }

end Demo

-- C66: a weakly repelling mixture, whose free energy is convex although its interaction energy is not.
example : ConvexOn ℝ (mixtures 2) (freeEnergy (liftChis Demo.repel.chis id) Demo.gas.sizes) ∧
    ∀ c, ¬ MiscibleUpTo (liftChis Demo.repel.chis id) c := by
  refine ⟨(C66_convex_iff (by intro i; fin_cases i <;> simp [Demo.gas])).mpr fun v _ => ?_,
    Demo.repel_not_miscible⟩
  have h := Demo.repel_convex v
  rw [zero_mul, neg_zero] at h
  refine h.trans (add_le_add ?_ le_rfl)
  have : 0 ≤ stiffness Demo.gas.sizes v ^ 2 := sq_nonneg _
  show _ ≤ stiffness Demo.gas.sizes v ^ 2
  linarith

-- C66: a run of it with different fields in the compartments, a dead compartment and a global constraint.
example : ∃ s' ph d, runImpl Demo.repelEnv 10 (1 / 100000) 5 (Demo.state Demo.globCons) 0 =
      (s', .ok (ph, d)) ∧
    ∀ p q, (1 / (1 + d.maxAbsIncomp) - (1 - 1 / 2)) *
        (∑ i, |ph.fractions p i - ph.fractions q i| / √(Demo.gas.sizes i)) ^ 2 ≤
      2 * (1 + d.maxAbsIncomp) * (2 * d.maxAbsOmegaDiff +
        |Demo.repel.coef| * d.maxAbsIncomp + 2 * d.maxAbsJsDiff)
        + 2 * d.maxAbsIncomp * (1 / 2 * (1 + d.maxAbsIncomp) ^ 2 + 1 * (1 + d.maxAbsIncomp))
        + 4 * 0 * d.maxAbsIncomp ^ 2 := by
  obtain ⟨s', ph, d, h⟩ := run_ok (e := Demo.repelEnv) (rngZero_ok ℝ) Demo.gas.isIdealGas
    Demo.canonical.total (by simp [Demo.repelEnv, Demo.env, Demo.params])
    (by simp [Demo.repelEnv, Demo.env, Demo.params])
    (by simp [Demo.repelEnv, Demo.env, Demo.params])
    (by simp [Demo.repelEnv, Demo.env, Demo.params]) rfl (tol := 1 / 100000)
    (maxSteps := 10) (interval := 5) (by norm_num) (by norm_num)
    (Demo.state Demo.globCons) 0 Demo.globCons_proper
    (Or.inl ⟨0, by simp [Demo.repelEnv, Demo.env, Demo.params, Demo.state]⟩)
  refine ⟨s', ph, d, h, fun p q => ?_⟩
  have := C66_convex (e := Demo.repelEnv) (ia := Demo.repel) (rngZero_ok ℝ)
    (by simp [Demo.repelEnv, Demo.env, Demo.params]) rfl Demo.gas.isIdealGas
    Demo.canonical.scales Demo.globCons_notLocal h
    (by intro i; fin_cases i <;> simp [Demo.gas])
    (fun i => Or.inl fun Q hQ => div_pos (by fin_cases i <;> simp [Demo.canonical]) (hQ i))
    le_rfl Demo.repel_convex (X := 1 / 2) (by norm_num)
    (by intro r q; fin_cases r <;> fin_cases q <;> simp [Demo.repel, FHCompiled.new])
    (Λ := 1) (by norm_num) (by intro i; fin_cases i <;> norm_num [Demo.gas]) p q
  exact_mod_cast this

-- C66: the homogeneous state of the repelling mixture is an equilibrium.
example : Coexistence (C := 2) (S := 2) (M := 2) Demo.repel.chis id Demo.gas.sizes (fun _ => 1 / 2) (fun _ => 1)
    (fun _ _ => 1 / 2) where
  volumes := by simp
  pos := fun _ _ => by norm_num
  mean := fun _ => by simp
  incompressible := fun _ => by simp
  balance := ⟨_, fun _ _ => rfl⟩

end Flory
