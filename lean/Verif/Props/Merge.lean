import Verif.Lemmas.MergeBinary
import Verif.Lemmas.MergeMany
import Verif.Props.Stability
import Verif.Props.Critical

/-! # C83: stability of the homogeneous state decides whether compartments merge

Near equal compartments the iteration is driven by the curvature of the free energy.  Where the mean
composition is stable, nearly equal compartments merge; where it is unstable, there are arbitrarily
small differences between compartments that grow. -/

set_option linter.unusedSectionVars false

namespace Flory

open Spec Finset

variable {C S : ℕ} {G : Type} {es : CanonicalC C ℝ} {l : Vec C ℝ}

/-- For monodisperse mixtures the curvature is the second derivative of the free energy. -/
theorem C83_curvature {chis : Mat C C ℝ} (hs : ∀ i j, chis i j = chis j i) {x : Vec C ℝ}
    (h : ∀ i, 0 < x i) (z : Vec C ℝ) :
    curvature chis (loads l id x) z = deriv (deriv fun t : ℝ => freeEnergy chis l (x + t • z)) 0 := by
  rw [second_deriv hs h]
  show _ = quad (fun i j => chis i j + if i = j then 1 / (l i * x i) else 0) z
  rw [quad_diag chis (fun i => 1 / (l i * x i)), add_comm]
  unfold curvature quad loads
  congr 1
  · refine sum_congr rfl fun i _ => ?_
    simp only [id, sum_ite_eq', mem_univ, if_true]
    ring
  · exact sum_congr rfl fun i _ => sum_congr rfl fun j _ => by ring

/-- The exchange curvature is the curvature in the only volume-conserving direction. -/
theorem C83_exchange {chis : Mat 2 2 ℝ} (hsym : chis 1 0 = chis 0 1) (d z : Vec 2 ℝ)
    (hz : ∑ r, z r = 0) : curvature chis d z = exchangeCurvature chis d * z 0 ^ 2 := by
  have h : z 1 = - z 0 := by rw [Fin.sum_univ_two] at hz; linarith
  unfold curvature exchangeCurvature
  simp only [Fin.sum_univ_two, h, hsym]
  ring

theorem loads_pos {feat : Fin C → Fin S} (hl : ∀ i, 0 < l i) {x : Vec C ℝ} (hx : ∀ i, 0 < x i)
    (hfeat : Function.Surjective feat) (r : Fin S) : 0 < loads l feat x r := by
  obtain ⟨i, hi⟩ := hfeat r
  unfold loads
  refine sum_pos' (fun j _ => ?_) ⟨i, mem_univ i, ?_⟩
  · split_ifs
    · exact (mul_pos (hl j) (hx j)).le
    · exact le_rfl
  · rw [if_pos hi]; exact mul_pos (hl i) (hx i)

section Binary

variable {chis : Mat 2 2 ℝ} {shift : ℝ} {feat : Fin C → Fin 2}

/-- Two features, mean composition inside the spinodal's complement: compartments merge. -/
theorem C83_binary_converges (hsym : chis 1 0 = chis 0 1) (hshift : ∀ r s, 0 < chis r s + shift)
    (hl : ∀ i, 0 < l i) (hx : ∀ i, 0 ≤ es.phiMeans i) (hsum : ∑ i, es.phiMeans i = 1)
    (hd : ∀ r, 0 < loads l feat es.phiMeans r)
    (hstable : 0 < exchangeCurvature chis (loads l feat es.phiMeans)) :
    ConvergesToMean G (FHCompiled.new chis shift) es l feat := by
  obtain ⟨W, hW, hF⟩ := (binary_forms hsym (hd 0) (hd 1) hshift
    (kap := (FHCompiled.new chis shift).coef) (by simp [FHCompiled.new])).1 hstable
  exact converges_of_form hl hx hsum hW hF

/-- Two features, mean composition inside the spinodal: differences between compartments grow. -/
theorem C83_binary_leaves (hsym : chis 1 0 = chis 0 1) (hshift : ∀ r s, 0 < chis r s + shift)
    (hl : ∀ i, 0 < l i) (hx : ∀ i, 0 < es.phiMeans i) (hsum : ∑ i, es.phiMeans i = 1)
    (hfeat : Function.Surjective feat)
    (hunstable : exchangeCurvature chis (loads l feat es.phiMeans) < 0) :
    LeavesMean G (FHCompiled.new chis shift) es l feat := by
  obtain ⟨W, hW, hF⟩ := (binary_forms hsym (loads_pos hl hx hfeat 0) (loads_pos hl hx hfeat 1) hshift
    (kap := (FHCompiled.new chis shift).coef) (by simp [FHCompiled.new])).2 hunstable
  exact leaves_of_form hl hx hsum hfeat hW hF

/-- For the shift that `_compiled_impl` chooses, with any positive `additional_chis_shift`: the sign of
the exchange curvature decides whether compartments merge or differences grow. -/
theorem C83_binary_compiled {o : FHInteraction 2 ℝ} (hsym : ∀ r s, o.chis r s = o.chis s r) {add : ℝ}
    (hadd : 0 < add) (hl : ∀ i, 0 < l i) (hx : ∀ i, 0 < es.phiMeans i) (hsum : ∑ i, es.phiMeans i = 1)
    (hfeat : Function.Surjective feat) :
    (0 < exchangeCurvature o.chis (loads l feat es.phiMeans) →
      ConvergesToMean G (o.compile add) es l feat) ∧
    (exchangeCurvature o.chis (loads l feat es.phiMeans) < 0 →
      LeavesMean G (o.compile add) es l feat) := by
  have hshift : ∀ r s, 0 < o.chis r s + (-matMin o.chis + add) := fun r s => by
    have := matMin_le o.chis r s
    linarith
  exact ⟨C83_binary_converges (hsym 1 0) hshift hl (fun i => (hx i).le) hsum (loads_pos hl hx hfeat),
    C83_binary_leaves (hsym 1 0) hshift hl hx hsum hfeat⟩

end Binary

section Many

variable [NeZero S] {chis : Mat S S ℝ} {feat : Fin C → Fin S}

theorem exists_shift (chis : Mat S S ℝ) (k₀ : ℝ) :
    ∃ s₀, ∀ shift, s₀ ≤ shift → k₀ ≤ (FHCompiled.new chis shift).coef := by
  have hS : (0 : ℝ) < S := by exact_mod_cast Nat.pos_of_ne_zero (NeZero.ne S)
  refine ⟨(k₀ - ∑ r, ∑ s, chis r s) / (S * S), fun shift h => ?_⟩
  rw [div_le_iff₀ (by positivity)] at h
  have : (FHCompiled.new chis shift).coef = (∑ r, ∑ s, chis r s) + shift * S * S := by
    simp [FHCompiled.new]
  rw [this]
  nlinarith

/-- Any number of features, stable mean composition and large enough shift: compartments merge. -/
theorem C83_converges (hsym : ∀ r s, chis r s = chis s r)
    (hl : ∀ i, 0 < l i) (hx : ∀ i, 0 ≤ es.phiMeans i) (hsum : ∑ i, es.phiMeans i = 1)
    (hd : ∀ r, 0 < loads l feat es.phiMeans r)
    (hstable : ∀ z : Vec S ℝ, ∑ r, z r = 0 → z ≠ 0 → 0 < curvature chis (loads l feat es.phiMeans) z) :
    ∃ s₀, ∀ shift, s₀ ≤ shift → ConvergesToMean G (FHCompiled.new chis shift) es l feat := by
  have hδ : 0 < ∑ r, loads l feat es.phiMeans r := sum_pos (fun r _ => hd r) univ_nonempty
  obtain ⟨k₀, hk⟩ := many_forms hd hδ hsym (regular_of_stable hstable)
  obtain ⟨s₀, hs⟩ := exists_shift chis k₀
  exact ⟨s₀, fun shift h => converges_of_form hl hx hsum (fun u hu => form_pos hd hδ hstable hu)
    (hk _ (hs shift h))⟩

/-- Any number of features, unstable mean composition and large enough shift: differences grow. -/
theorem C83_leaves (hsym : ∀ r s, chis r s = chis s r)
    (hl : ∀ i, 0 < l i) (hx : ∀ i, 0 < es.phiMeans i) (hsum : ∑ i, es.phiMeans i = 1)
    (hfeat : Function.Surjective feat)
    (hreg : ∀ z : Vec S ℝ, ∑ r, z r = 0 →
      (∃ c, ∀ r, z r / loads l feat es.phiMeans r + ∑ s, chis r s * z s = c) → z = 0)
    (hunstable : ∃ z : Vec S ℝ, ∑ r, z r = 0 ∧ curvature chis (loads l feat es.phiMeans) z < 0) :
    ∃ s₀, ∀ shift, s₀ ≤ shift → LeavesMean G (FHCompiled.new chis shift) es l feat := by
  have hd := loads_pos hl hx hfeat
  have hδ : 0 < ∑ r, loads l feat es.phiMeans r := sum_pos (fun r _ => hd r) univ_nonempty
  obtain ⟨z, hz, hneg⟩ := hunstable
  obtain ⟨k₀, hk⟩ := many_forms hd hδ hsym hreg
  obtain ⟨s₀, hs⟩ := exists_shift chis k₀
  exact ⟨s₀, fun shift h => leaves_of_form hl hx hsum hfeat (form_neg hd hδ hz hneg) (hk _ (hs shift h))⟩

end Many

namespace Demo

/-- A binary mixture that is stable at the mean composition of `coexEns`. -/
noncomputable def stableFH : FHInteraction 2 ℝ := ⟨![![0, 2], ![2, 0]], false⟩

/-- A binary mixture that is unstable at the mean composition of `coexEns`. -/
noncomputable def unstableFH : FHInteraction 2 ℝ := ⟨![![0, 3], ![3, 0]], false⟩

/-- Three components that repel each other equally. -/
noncomputable def threeChis (c : ℝ) : Mat 3 3 ℝ := fun r s => if r = s then 0 else c

/-- Equal amounts of three components. -/
noncomputable def threeEns : CanonicalC 3 ℝ := ⟨fun _ => 1 / 3⟩

theorem three_curvature (c : ℝ) (z : Vec 3 ℝ) (hz : ∑ r, z r = 0) :
    curvature (threeChis c) (loads (fun _ => 1) id threeEns.phiMeans) z =
      (3 - c) * (z 0 ^ 2 + z 1 ^ 2 + z 2 ^ 2) := by
  have h : z 2 = - z 0 - z 1 := by rw [Fin.sum_univ_three] at hz; linarith
  simp only [curvature, loads, threeEns, threeChis, Fin.sum_univ_three, id]
  simp [h]
  ring

end Demo

-- The compartments of a stable binary mixture merge.
example : ConvergesToMean Unit (Demo.stableFH.compile 1) Demo.coexEns (fun _ => 1) id :=
  (C83_binary_compiled (o := Demo.stableFH)
    (by intro r s; fin_cases r <;> fin_cases s <;> simp [Demo.stableFH]) one_pos (by simp)
    (by intro i; fin_cases i <;> simp [Demo.coexEns])
    (by simp [Demo.coexEns, Fin.sum_univ_two]; norm_num) Function.surjective_id).1
    (by simp [exchangeCurvature, loads, Demo.stableFH, Demo.coexEns]; norm_num)

-- Differences between the compartments of an unstable binary mixture grow.
example : LeavesMean Unit (Demo.unstableFH.compile 1) Demo.coexEns (fun _ => 1) id :=
  (C83_binary_compiled (o := Demo.unstableFH)
    (by intro r s; fin_cases r <;> fin_cases s <;> simp [Demo.unstableFH]) one_pos (by simp)
    (by intro i; fin_cases i <;> simp [Demo.coexEns])
    (by simp [Demo.coexEns, Fin.sum_univ_two]; norm_num) Function.surjective_id).2
    (by simp [exchangeCurvature, loads, Demo.unstableFH, Demo.coexEns]; norm_num)

-- Environments and states as in the definition of `ConvergesToMean` exist: a run of the stable mixture.
example : ∃ a > 0, ∃ U > 0, ∃ K, ∀ tol > 0, ∃ N : ℕ, LogSteps K tol N ∧ ∃ f ph d, runImpl { Demo.coexEnv with
      ia := (Demo.stableFH.compile 1).toI 2
      params := { Demo.params with acceptanceOmega := a } } N tol 10
    { Demo.coexState with
      Js := fun _ => 1
      omegas := fun _ m => if m = 0 then U else 0
      cons := [] } 32 = (f, .ok (ph, d)) ∧ d.maxAbsIncomp < tol ∧ d.maxAbsOmegaDiff < tol := by
  obtain ⟨a, ha, key⟩ : ConvergesToMean Unit (Demo.stableFH.compile 1) Demo.coexEns (fun _ => 1) id :=
    (C83_binary_compiled (o := Demo.stableFH)
      (by intro r s; fin_cases r <;> fin_cases s <;> simp [Demo.stableFH]) one_pos (by simp)
      (by intro i; fin_cases i <;> simp [Demo.coexEns])
      (by simp [Demo.coexEns, Fin.sum_univ_two]; norm_num) Function.surjective_id).1
      (by simp [exchangeCurvature, loads, Demo.stableFH, Demo.coexEns]; norm_num)
  obtain ⟨U, hU, B, -, q, -, -, h⟩ := key 2 { Demo.coexEnv with
      ia := (Demo.stableFH.compile 1).toI 2
      params := { Demo.params with acceptanceOmega := a } } (rngZero_ok ℝ) (by simp [Demo.params])
    (by simp [Demo.params]) (by simp [Demo.params]) (by simp [Demo.params]) rfl rfl
    ((⟨fun _ => 1⟩ : IdealC 2).isIdealGas (M := 2)) rfl ha le_rfl
  obtain ⟨K, -, h⟩ := h { Demo.coexState with
      Js := fun _ => 1
      omegas := fun _ m => if m = 0 then U else 0
      cons := [] } U le_rfl (fun _ => rfl) (by
        intro r m n
        fin_cases m <;> fin_cases n <;> simp [abs_of_pos hU, hU.le]) hU.le (by simp)
  refine ⟨a, ha, U, hU, K, fun tol htol => ?_⟩
  obtain ⟨N, hlog, hN⟩ := h tol htol
  obtain ⟨f, ph, d, h1, -, h2, h3, -⟩ := hN N 10 32 (by simp) (by norm_num)
  exact ⟨N, hlog, f, ph, d, h1, h2, h3⟩

-- Three components, stable and unstable.
example : ∃ s₀, ∀ shift, s₀ ≤ shift →
    ConvergesToMean Unit (FHCompiled.new (Demo.threeChis 2) shift) Demo.threeEns (fun _ => 1) id := by
  refine C83_converges (fun r s => by simp [Demo.threeChis, eq_comm]) (by simp)
    (by simp [Demo.threeEns]) (by simp [Demo.threeEns]) (by simp [loads, Demo.threeEns]) fun z hz hne => ?_
  rw [Demo.three_curvature 2 z hz]
  by_contra hle
  refine hne (funext fun r => ?_)
  have h0 := sq_nonneg (z 0)
  have h1 := sq_nonneg (z 1)
  have h2 := sq_nonneg (z 2)
  have : z r ^ 2 = 0 := by fin_cases r <;> simp <;> nlinarith
  simpa using this

example : ∃ s₀, ∀ shift, s₀ ≤ shift →
    LeavesMean Unit (FHCompiled.new (Demo.threeChis 4) shift) Demo.threeEns (fun _ => 1) id := by
  refine C83_leaves (fun r s => by simp [Demo.threeChis, eq_comm]) (by simp)
    (by simp [Demo.threeEns]) (by simp [Demo.threeEns]) Function.surjective_id (fun z hz hc => ?_)
    ⟨![1, -1, 0], by simp [Fin.sum_univ_three], ?_⟩
  · obtain ⟨c, hc⟩ := hc
    rw [Fin.sum_univ_three] at hz
    have e0 := hc 0
    have e1 := hc 1
    have e2 := hc 2
    simp [loads, Demo.threeEns, Demo.threeChis, Fin.sum_univ_three] at e0 e1 e2
    funext r
    fin_cases r <;> simp <;> linarith
  · rw [Demo.three_curvature 4 _ (by simp [Fin.sum_univ_three])]
    show ((3 : ℝ) - 4) * (1 ^ 2 + (-1) ^ 2 + 0 ^ 2) < 0
    norm_num

end Flory
