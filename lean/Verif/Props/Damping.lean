import Verif.Lemmas.Damping
import Verif.Props.Overshoot

/-! # C100: mixed states that no `acceptance_omega` reaches

Small differences between compartments relax in modes with complex rates (C99).  If all rates have positive real
part, all small `acceptance_omega` damp all differences; if one has negative real part, none does.  Which is the
case depends on the mixture and on the coefficient of the incompressibility, that is on the shift of the
interaction. -/

set_option linter.unusedSectionVars false

namespace Flory

open Spec Finset

variable {C S : ℕ} {G : Type} {ia : FHCompiled S ℝ} {es : CanonicalC C ℝ} {l : Vec C ℝ} {feat : Fin C → Fin S}

/-- **C100**: if all rates have positive real part, compartments merge for all small `acceptance_omega`. -/
theorem C100_damped (hm : Mixture l es.phiMeans)
    (h : ∀ μ u, FieldMode ia.chis ia.coef (loads l feat es.phiMeans) μ u → 0 < μ.re) :
    ∃ a₀ > 0, ∀ (M : ℕ) [NeZero M] (e : RunEnv C S M ℝ G), Suits e ia es l feat →
      e.params.acceptanceOmega ≤ a₀ → Merges e es.phiMeans := by
  classical
  set R := responseMat (fun r s => (ia.chis r s : ℂ)) ia.coef fun s => (loads l feat es.phiMeans s : ℂ) with hR
  obtain ⟨a₀, ha₀, hstep⟩ := exists_step R.charpoly.roots.toFinset fun μ hμ => by
    obtain ⟨u, hu⟩ := exists_mode (Polynomial.isRoot_of_mem_roots (Multiset.mem_toFinset.mp hμ))
    exact h μ u hu
  refine ⟨min a₀ 1, lt_min ha₀ one_pos, fun M _ e he ha => ?_⟩
  refine C99_merges he hm (ha.trans (min_le_right _ _)) fun μ u hu => ?_
  refine hstep _ he.step (ha.trans (min_le_left _ _)) μ (Multiset.mem_toFinset.mpr ?_)
  exact (Polynomial.mem_roots (Matrix.charpoly_monic R).ne_zero).mpr (mode_isRoot hu)

/-- **C100**: if a rate has negative real part, differences grow for every `acceptance_omega`. -/
theorem C100_growing {M : ℕ} [NeZero M] {e : RunEnv C S M ℝ G} (h : Suits e ia es l feat)
    (hm : Mixture l es.phiMeans) (hM : 2 ≤ M) (hfeat : Function.Surjective feat) {μ : ℂ} {u : Fin S → ℂ}
    (hmode : FieldMode ia.chis ia.coef (loads l feat es.phiMeans) μ u) (hμ : μ.re < 0) :
    Leaves e es.phiMeans :=
  C99_leaves h hm hM hfeat hmode (one_lt_norm_of_re h.step hμ)

/-- **C100**, unstable mixtures: behind the spinodal differences grow for every `acceptance_omega` and every shift
that makes the coefficient positive. -/
theorem C100_unstable {M : ℕ} [NeZero M] [NeZero S] {e : RunEnv C S M ℝ G} (h : Suits e ia es l feat)
    (hm : Mixture l es.phiMeans) (hM : 2 ≤ M) (hfeat : Function.Surjective feat)
    (hsym : ∀ r s, ia.chis r s = ia.chis s r) (hcoef : 0 < ia.coef)
    (hu : OneUnstable ia.chis (loads l feat es.phiMeans)) : Leaves e es.phiMeans := by
  obtain ⟨μ, u, hμ, hmode⟩ := exists_mode_of_unstable hsym hcoef (loads_pos hm.size hm.fraction hfeat) hu
  exact C100_growing h hm hM hfeat hmode (by simpa using hμ)

theorem coef_compile_pos [NeZero S] (o : FHInteraction S ℝ) {add : ℝ} (hadd : 0 < add) :
    0 < (o.compile add).coef := by
  have h1 : (o.compile add).coef = ∑ r, ∑ s, (o.chis r s + (-matMin o.chis + add)) := by
    simp only [FHInteraction.compile, FHCompiled.new, sum_add_distrib, sum_const, card_univ, Fintype.card_fin,
      nsmul_eq_mul]
    ring
  rw [h1]
  exact sum_pos (fun r _ => sum_pos (fun s _ => by linarith [matMin_le o.chis r s]) univ_nonempty) univ_nonempty

/-- **C100**, unstable mixtures: this is so for the shift that the code chooses. -/
theorem C100_unstable_compiled {M : ℕ} [NeZero M] [NeZero S] {e : RunEnv C S M ℝ G} {o : FHInteraction S ℝ}
    {add : ℝ} (hadd : 0 < add) (h : Suits e (o.compile add) es l feat) (hm : Mixture l es.phiMeans) (hM : 2 ≤ M)
    (hfeat : Function.Surjective feat) (hsym : ∀ r s, o.chis r s = o.chis s r)
    (hu : OneUnstable o.chis (loads l feat es.phiMeans)) : Leaves e es.phiMeans :=
  C100_unstable h hm hM hfeat hsym (coef_compile_pos o hadd) hu

/-- **C100**, stable mixtures: a shift that is large enough for compartments to merge. -/
theorem C100_stable [NeZero S] (hm : Mixture l es.phiMeans) (hfeat : Function.Surjective feat) {α c : ℝ}
    (hα : 0 < α) (hst : StableBy α ia.chis (loads l feat es.phiMeans))
    (hcoef : unevenness ia.chis (loads l feat es.phiMeans) c < 4 * α * S * ia.coef) :
    ∃ a₀ > 0, ∀ (M : ℕ) [NeZero M] (e : RunEnv C S M ℝ G), Suits e ia es l feat →
      e.params.acceptanceOmega ≤ a₀ → Merges e es.phiMeans := by
  have hd := loads_pos hm.size hm.fraction hfeat
  exact C100_damped hm fun μ u hu => mode_re_pos hd (fun v hv => dot_response_pos hd hα hst hcoef hv) hu

namespace Demo

/-- Three components; the third is only present in traces. -/
noncomputable def traceFH : FHInteraction 3 ℝ := ⟨fun r s => if r = s then ![2, -2, 0] r else 0, false⟩

noncomputable def traceEns : CanonicalC 3 ℝ := ⟨![1 / 2, 49999 / 100000, 1 / 100000]⟩

theorem trace_mixture : Mixture (fun _ => 200) traceEns.phiMeans where
  size := fun _ => by norm_num
  fraction := by intro i; fin_cases i <;> simp [traceEns]
  total := by simp [traceEns, Fin.sum_univ_three]; norm_num

theorem trace_loads : loads (fun _ => 200) id traceEns.phiMeans = ![100, 49999 / 500, 1 / 500] := by
  funext r
  fin_cases r <;> simp [loads, traceEns] <;> norm_num

theorem matMin_trace : matMin traceFH.chis = -2 := by
  refine le_antisymm (by simpa [traceFH] using matMin_le traceFH.chis 1 1) ?_
  obtain ⟨r, s, h⟩ := matMin_mem traceFH.chis
  rw [h]
  fin_cases r <;> fin_cases s <;> simp [traceFH]

theorem trace_coef (add : ℝ) : (traceFH.compile add).coef = 9 * (2 + add) := by
  rw [FHInteraction.compile, matMin_trace]
  simp [FHCompiled.new, traceFH, Fin.sum_univ_three]
  ring

theorem trace_stable : StableBy (3 / 10) traceFH.chis (loads (fun _ => 200) id traceEns.phiMeans) := by
  intro z hz
  rw [trace_loads]
  rw [Fin.sum_univ_three] at hz
  have h2 : z 2 = -z 0 - z 1 := by linarith
  simp only [curvature, Fin.sum_univ_three, traceFH]
  simp
  rw [h2]
  have h3 : 0 ≤ 350 * (z 0 + z 1 + (z 0 - z 1) / 350) ^ 2 := by positivity
  nlinarith [sq_nonneg (z 0), sq_nonneg (z 1), sq_nonneg (z 0 + z 1), h3]

theorem trace_mode (add : ℝ) (hadd : add = 1) : ∃ (μ : ℝ) (u : Fin 3 → ℂ), μ < 0 ∧
    FieldMode traceFH.chis (traceFH.compile add).coef (loads (fun _ => 200) id traceEns.phiMeans) μ u := by
  rw [trace_coef, trace_loads, hadd]
  refine exists_negative_mode (t := 27 / 10) (by norm_num) ?_
  rw [Matrix.det_fin_three]
  simp [responseMat, traceFH, Fin.sum_univ_three]
  norm_num

end Demo

/-- **C100**: stability of the mean composition is not enough.  There is a stable mixture (of three components of
size 200) whose compartments do not merge for any `acceptance_omega` with the default `additional_chis_shift` of
1, but merge for all small `acceptance_omega` with 50. -/
theorem C100_default_shift : ∃ (o : FHInteraction 3 ℝ) (es : CanonicalC 3 ℝ),
    (∀ r s, o.chis r s = o.chis s r) ∧ Mixture (fun _ => 200) es.phiMeans ∧
    StableBy (3 / 10) o.chis (loads (fun _ => 200) id es.phiMeans) ∧
    (∀ (G : Type) (M : ℕ) [NeZero M] (e : RunEnv 3 3 M ℝ G), 2 ≤ M →
      Suits e (o.compile 1) es (fun _ => 200) id → Leaves e es.phiMeans) ∧
    ∀ G : Type, ∃ a₀ > 0, ∀ (M : ℕ) [NeZero M] (e : RunEnv 3 3 M ℝ G),
      Suits e (o.compile 50) es (fun _ => 200) id → e.params.acceptanceOmega ≤ a₀ → Merges e es.phiMeans := by
  refine ⟨Demo.traceFH, Demo.traceEns, fun r s => ?_, Demo.trace_mixture, Demo.trace_stable,
    fun G M _ e hM h => ?_, fun G => ?_⟩
  · by_cases h : r = s
    · rw [h]
    · simp [Demo.traceFH, h, Ne.symm h]
  · obtain ⟨μ, u, hμ, hu⟩ := Demo.trace_mode 1 rfl
    exact C100_growing h Demo.trace_mixture hM Function.surjective_id hu (by simpa using hμ)
  · refine C100_stable (α := 3 / 10) (c := 0) Demo.trace_mixture Function.surjective_id (by norm_num)
      Demo.trace_stable ?_
    show unevenness Demo.traceFH.chis _ 0 < _
    rw [Demo.trace_coef, Demo.trace_loads]
    simp [unevenness, Fin.sum_univ_three, Demo.traceFH]
    norm_num

namespace Demo

/-- Two compartments of the mixture with traces of the third component. -/
noncomputable def traceEnv (add a : ℝ) : RunEnv 3 3 2 ℝ Unit :=
  ⟨(traceFH.compile add).toI 2, (⟨fun _ => 200⟩ : IdealC 3).toI 2, traceEns.toI 2, rngZero ℝ,
    { params with acceptanceOmega := a }, "standard", id⟩

theorem traceEnv_suits (add : ℝ) {a : ℝ} (ha : 0 < a) :
    Suits (traceEnv add a) (traceFH.compile add) traceEns (fun _ => 200) id where
  rng := rngZero_ok ℝ
  nonneg := by simp [traceEnv, params]
  lt_one := by simp [traceEnv, params]
  small := by simp [traceEnv, params]
  bound := by simp [traceEnv, params]
  step := ha
  criterion := rfl
  interaction := rfl
  entropy := (⟨fun _ => 200⟩ : IdealC 3).isIdealGas (M := 2)
  ensemble := rfl

/-- Three components, two of which repel each other. -/
noncomputable def pairFH : FHInteraction 3 ℝ :=
  ⟨fun r s => if r = 0 ∧ s = 1 ∨ r = 1 ∧ s = 0 then 4 else 0, false⟩

noncomputable def pairEns : CanonicalC 3 ℝ := ⟨fun _ => 1 / 3⟩

theorem pair_unstable : OneUnstable pairFH.chis (loads (fun _ => 1) id pairEns.phiMeans) := by
  have hd : loads (fun _ => 1) id pairEns.phiMeans = fun _ => 1 / 3 := by
    funext r
    fin_cases r <;> simp [loads, pairEns]
  rw [hd]
  refine ⟨![1, -1, 0], by simp [Fin.sum_univ_three], ?_, fun z hz hne h => ?_⟩
  · simp [curvature, pairFH, Fin.sum_univ_three]; norm_num
  · simp [crossCurvature, pairFH, Fin.sum_univ_three] at h
    rw [Fin.sum_univ_three] at hz
    have h1 : z 1 = z 0 := by linarith
    have h2 : z 2 = -2 * z 0 := by linarith
    have h0 : z 0 ≠ 0 := by
      intro h0
      refine hne (funext fun r => ?_)
      fin_cases r <;> simp [h0, h1, h2]
    have : 0 < z 0 ^ 2 := by positivity
    simp [curvature, pairFH, Fin.sum_univ_three, h1, h2]
    nlinarith

noncomputable def pairEnv (a : ℝ) : RunEnv 3 3 2 ℝ Unit :=
  ⟨(pairFH.compile 1).toI 2, (⟨fun _ => 1⟩ : IdealC 3).toI 2, pairEns.toI 2, rngZero ℝ,
    { params with acceptanceOmega := a }, "standard", id⟩

end Demo

-- The stable mixture with default settings is left for every `acceptance_omega`.
example (a : ℝ) (ha : 0 < a) : Leaves (Demo.traceEnv 1 a) Demo.traceEns.phiMeans := by
  obtain ⟨μ, u, hμ, hu⟩ := Demo.trace_mode 1 rfl
  exact C100_growing (Demo.traceEnv_suits 1 ha) Demo.trace_mixture le_rfl Function.surjective_id hu
    (by simpa using hμ)

-- Three components of which two repel each other: one unstable direction.
example (a : ℝ) (ha : 0 < a) : Leaves (Demo.pairEnv a) Demo.pairEns.phiMeans := by
  refine C100_unstable_compiled one_pos (o := Demo.pairFH) (l := fun _ => 1) (feat := id) ⟨rngZero_ok ℝ,
    by simp [Demo.pairEnv, Demo.params], by simp [Demo.pairEnv, Demo.params], by simp [Demo.pairEnv, Demo.params],
    by simp [Demo.pairEnv, Demo.params], ha, rfl, rfl, (⟨fun _ => 1⟩ : IdealC 3).isIdealGas (M := 2), rfl⟩
    ⟨fun _ => one_pos, fun i => by simp [Demo.pairEns], by simp [Demo.pairEns]⟩ le_rfl
    Function.surjective_id (fun r s => ?_) Demo.pair_unstable
  fin_cases r <;> fin_cases s <;> simp [Demo.pairFH]

end Flory
