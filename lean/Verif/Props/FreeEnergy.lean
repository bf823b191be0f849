import Verif.Lemmas.FreeEnergy

/-!
# C19 – C21, C49 – C52, C57, C58 (free energy part)

`fhFree chis l` is the free energy object with a Flory-Huggins interaction matrix `chis` (plain or the
component matrix of a block interaction) and an ideal gas (plain or polydisperse) with sizes `l`.
-/

set_option linter.unusedSectionVars false

namespace Flory

open XReal Spec Topology

variable {C : ℕ}

/-- `free_energy_density` of one composition. -/
noncomputable def energyOf (fe : FreeEnergy C) (phi : Vec C ℝ) : XReal :=
  match fe.freeEnergyDensity (NDArr.ofVec phi) with
  | .ok r => r.row []
  | .error _ => nan

theorem energyOf_eq (fe : FreeEnergy C) {phi : Vec C ℝ} (h : ∀ i, 0 ≤ phi i) :
    energyOf fe phi = fe.energyImpl phi := by
  unfold energyOf FreeEnergy.freeEnergyDensity
  rw [check_ofVec fe h]
  simp only [bind_ok, pure_eq_ok, Rows.map]
  congr 1
  funext i
  exact ofVec_get phi i

/-- The constructor of `FloryHuggins` gives such an object, with the symmetrized matrix. -/
theorem floryHuggins_eq (chis : Mat C C ℝ) (l : Vec C ℝ) :
    ∃ chis' : Mat C C ℝ, (∀ i j, chis' i j = (chis i j + chis j i) / 2) ∧
      (∀ i j, chis' i j = chis' j i) ∧
      FreeEnergy.floryHuggins C (NDArr.ofMat chis) (some (NDArr.ofVec l)) =
        .ok ⟨C, fhFree chis' l⟩ ∧
      FreeEnergy.floryHuggins C (NDArr.ofMat chis) none = .ok ⟨C, fhFree chis' fun _ => 1⟩ := by
  obtain ⟨a, ha, ha'⟩ := convertAndBroadcast_mat chis
  obtain ⟨b, hb, hb'⟩ := convertAndBroadcast_vec l
  unfold convertAndBroadcast at ha hb
  refine ⟨symmetrize chis, fun i j => by simp only [symmetrize]; ring, symmetrize_symm chis, ?_, ?_⟩
  · unfold FreeEnergy.floryHuggins FHInteraction.new GasEntropy.new
    rw [ha]
    simp only [bind_ok, pure_eq_ok, hb, FreeEnergy.new, dif_pos, ha', hb']
    rfl
  · unfold FreeEnergy.floryHuggins FHInteraction.new GasEntropy.new
    rw [ha]
    simp only [bind_ok, pure_eq_ok, FreeEnergy.new, dif_pos, ha']
    rfl

/-- **C19**. -/
theorem C19_entropy_jacobian {l x : Vec C ℝ} (hl : ∀ i, l i ≠ 0) (h : ∀ i, 0 < x i) :
    XGradientAt (gasEnergy l) (gasJacobian l x) x :=
  ⟨_, _, (eventually_pos h).mono fun _ hy => gasEnergy_eq hl fun i => (hy i).le,
    fun i => gasJacobian_eq (hl i) (h i), gasEnergy_gradient h⟩

/-- What the Hessian of the entropy should be. -/
theorem true_hessian {l x : Vec C ℝ} (i : Fin C) (hl : l i ≠ 0) (h : ∀ i, 0 < x i) :
    XGradientAt (fun y => gasJacobian l y i)
      (fun j => fin (if i = j then 1 / (l i * x i) else 0)) x :=
  ⟨_, _, (eventually_pos h).mono fun _ hy => gasJacobian_eq hl (hy i), fun _ => rfl,
    gasJacobian_gradient i (h i)⟩

/-- **C20 fails** for every component whose size is not one (up to sign): row `i` of the Hessian is the
derivative of the Jacobian exactly if `l_i² = 1`. -/
theorem C20_hessian_iff {l x : Vec C ℝ} (i : Fin C) (hl : l i ≠ 0) (h : ∀ i, 0 < x i) :
    XGradientAt (fun y => gasJacobian l y i) (gasHessian l x i) x ↔ l i ^ 2 = 1 := by
  have e : (fun j => gasHessian l x i j) = fun j => fin (if i = j then l i / x i else 0) :=
    funext fun j => gasHessian_eq (h i)
  have hx := (h i).ne'
  constructor
  · intro hg
    have h2 := congrFun (xgradient_unique hg (true_hessian i hl h)) i
    rw [gasHessian_eq (h i), if_pos rfl, if_pos rfl] at h2
    have h3 := XReal.fin.inj h2
    field_simp at h3
    linarith
  · intro h2
    have : gasHessian l x i = fun j => fin (if i = j then 1 / (l i * x i) else 0) := by
      rw [show gasHessian l x i = fun j => gasHessian l x i j from rfl, e]
      funext j
      congr 2
      rw [div_eq_div_iff hx (mul_ne_zero hl hx), ← mul_assoc, ← pow_two, h2]
    rw [this]
    exact true_hessian i hl h

/-- **C20**, the part that holds: molecules of unit size.  Missing: any other size
(`C20_hessian_wrong`). -/
theorem C20_hessian_partial {l x : Vec C ℝ} (hl : ∀ i, l i = 1) (h : ∀ i, 0 < x i) (i : Fin C) :
    XGradientAt (fun y => gasJacobian l y i) (gasHessian l x i) x :=
  (C20_hessian_iff i (by rw [hl]; norm_num) h).mpr (by rw [hl]; norm_num)

/-- **C20 fails**: sizes 2 at composition 1/2 — the reported second derivative is 4, the true one 1. -/
theorem C20_hessian_wrong :
    ¬ XGradientAt (fun y : Vec 2 ℝ => gasJacobian (fun _ => 2) y 0)
        (gasHessian (fun _ => 2) (fun _ => 1 / 2) 0) (fun _ => 1 / 2) ∧
      gasHessian (C := 2) (fun _ => 2) (fun _ => 1 / 2) 0 0 = fin 4 ∧
      XGradientAt (fun y : Vec 2 ℝ => gasJacobian (fun _ => 2) y 0) ![fin 1, fin 0]
        (fun _ => 1 / 2) := by
  refine ⟨?_, ?_, ?_⟩
  · rw [C20_hessian_iff (l := fun _ => 2) (x := fun _ => 1 / 2) 0 (by norm_num) (by norm_num)]
    norm_num
  · rw [gasHessian_eq (l := fun _ => 2) (phi := fun _ => 1 / 2) (by norm_num)]
    norm_num
  · have := true_hessian (C := 2) (l := fun _ => 2) (x := fun _ => 1 / 2) 0 (by norm_num)
      (by norm_num)
    convert this using 1
    funext j
    fin_cases j <;> simp

example : ∃ l x : Vec 2 ℝ, (∀ i, l i ≠ 0) ∧ (∀ i, 0 < x i) ∧ l 0 ≠ l 1 ∧ x 0 ≠ x 1 :=
  ⟨![1, 3], ![1 / 4, 3 / 4], by intro i; fin_cases i <;> simp,
    by intro i; fin_cases i <;> simp, by simp, by norm_num⟩

/-- **C21**, entropy: at all non-negative compositions the energy density is finite and continuous, the
product of fraction and Jacobian is finite and continuous, vanishes where the fraction does and is
that product where it does not. -/
theorem C21_entropy_vanishing {l : Vec C ℝ} (hl : ∀ i, l i ≠ 0) :
    (∃ e : Vec C ℝ → ℝ, (∀ x, (∀ i, 0 ≤ x i) → gasEnergy l x = fin (e x)) ∧ Continuous e) ∧
    ∀ i, ∃ p : Vec C ℝ → ℝ, Continuous p ∧
      (∀ x, 0 ≤ x i → gasJacobianFractions l x i = fin (p x)) ∧ (∀ x, x i = 0 → p x = 0) ∧
      ∀ x, 0 < x i → (gasJacobian l x i).mulR (x i) = fin (p x) := by
  refine ⟨⟨_, fun x hx => gasEnergy_eq hl hx, ?_⟩, fun i =>
    ⟨fun x => x i * (Real.log (x i) + 1) / l i, ?_, fun x hx => gasJacobianFractions_eq (hl i) hx,
      fun x hx => by simp [hx], fun x hx => ?_⟩⟩
  · refine continuous_finsetSum _ fun i _ => ?_
    exact (Real.continuous_mul_log.comp (continuous_apply i)).div_const _
  · have : (fun x : Vec C ℝ => x i * (Real.log (x i) + 1) / l i) =
        fun x => (x i * Real.log (x i) + x i) / l i := by funext x; ring
    rw [this]
    exact ((Real.continuous_mul_log.comp (continuous_apply i)).add (continuous_apply i)).div_const _
  · rw [gasJacobian_eq (hl i) hx, mulR_fin]
    congr 1
    ring

theorem isFin_of_add {a b : XReal} (h : (a + b).IsFin) : a.IsFin ∧ b.IsFin := by
  cases a <;> cases b <;> first | exact h.elim | exact ⟨trivial, trivial⟩

theorem isFin_of_sum {n : ℕ} {v : Vec n XReal} (h : (XReal.sum v).IsFin) (i : Fin n) : (v i).IsFin := by
  unfold XReal.sum at h
  induction n with
  | zero => exact i.elim0
  | succ n ih =>
    rw [forRange_succ] at h
    have h' := isFin_of_add h
    induction i using Fin.lastCases with
    | last => exact h'.2
    | cast j => exact ih (v := fun i => v i.castSucc) h'.1 j

/-- **C21**, sizes: the sizes are not checked by the constructor. The energy density is finite exactly if none of
them vanishes, and where one does the product of fraction and Jacobian is NaN, also for an absent component. -/
theorem C21_zero_size {l x : Vec C ℝ} (hx : ∀ i, 0 ≤ x i) :
    ((gasEnergy l x).IsFin ↔ ∀ i, l i ≠ 0) ∧
    ∀ i, l i = 0 → x i ≤ 1 → gasJacobianFractions l x i = nan := by
  refine ⟨⟨fun h i hi => ?_, fun h => by rw [gasEnergy_eq h hx]; trivial⟩, fun i hi h1 => ?_⟩
  · have h' := isFin_of_sum h i
    rw [xlogx_nonneg (hx i), hi] at h'
    simp only [divR, if_true] at h'
    split_ifs at h' <;> exact h'
  · unfold gasJacobianFractions
    rw [xlogx_nonneg (hx i), hi]
    rcases (hx i).eq_or_lt with h0 | h0
    · simp [divR, ← h0]
      rfl
    · rcases h1.eq_or_lt with h1 | h1
      · simp [divR, h1]
        rfl
      · have hneg : x i * Real.log (x i) < 0 := mul_neg_of_pos_of_neg h0 (Real.log_neg h0 h1)
        simp only [divR, if_true, if_neg (not_lt.mpr hneg.le), if_pos hneg, if_pos h0]
        rfl

-- A vanishing size and an absent component.
example : ∃ l x : Vec 2 ℝ, (∀ i, 0 ≤ x i) ∧ l 0 = 0 ∧ x 0 = 0 ∧ l 1 ≠ 0 :=
  ⟨![0, 1], ![0, 1], by intro i; fin_cases i <;> simp, rfl, rfl, by simp⟩

/-- The composition whose chemical potentials are in row `idx` of the result: for a single composition
the result has one row. -/
def sourceIndex (phis : NDArr ℝ) (idx : List ℕ) : List ℕ := if phis.shape.length = 1 then [] else idx

theorem chemPot_rows {chis : Mat C C ℝ} (hs : ∀ i j, chis i j = chis j i) {l : Vec C ℝ}
    (hl : ∀ i, 0 < l i) {phis : NDArr ℝ} {r : Rows (Vec C XReal)}
    (h : (fhFree chis l).chemicalPotentials phis = .ok r) {idx : List ℕ}
    (hi : ValidIndex idx r.lead) (i : Fin C) :
    let x := composition C phis (sourceIndex phis idx)
    0 ≤ x i ∧
    (x i = 0 → r.row idx i = ninf) ∧ (0 < x i → r.row idx i = fin (chemPot chis l x i)) := by
  obtain ⟨lead, h1, h2, h3, h4⟩ := chemicalPotentials_inv h
  have hsrc : sourceIndex phis idx = if lead = [] then [] else idx := by
    unfold sourceIndex
    rw [h1, List.length_append, List.length_singleton]
    have : lead.length + 1 = 1 ↔ lead = [] := by
      rw [Nat.add_eq_right, List.length_eq_zero_iff]
    simp only [this]
  intro x
  have hx : ∀ j, 0 ≤ x j := by
    intro j
    refine h4 _ ?_ j
    rw [hsrc]
    split
    · next e => rw [e]; exact .nil
    · next e => rw [h2, if_neg e] at hi; exact hi
  have hr := h3 idx i
  rw [← hsrc] at hr
  change r.row idx i = (fhFree chis l).energyImpl x -
    XReal.sum ((fhFree chis l).jacobianFractionsImpl x) + (fhFree chis l).jacobianImpl x i at hr
  have hl0 : ∀ i, l i ≠ 0 := fun i => (hl i).ne'
  have e1 : XReal.sum ((fhFree chis l).jacobianFractionsImpl x) =
      fin (∑ j, x j * fhGrad chis l x j) := by
    rw [← xsum_fin]
    congr 1
    funext j
    exact fhFree_fractions (hl0 j) (hx j)
  rw [fhFree_energy hl0 hx, e1, fin_sub_fin] at hr
  refine ⟨hx i, fun h0 => ?_, fun hp => ?_⟩
  · rw [hr, fhFree_jacobian_zero (hl i) h0]; rfl
  · rw [hr, fhFree_jacobian (hl0 i) hp, fin_add_fin, chemPot_eq hs]

/-- **C21**, API: `chemical_potentials` is minus infinity exactly for the absent components, and the
finite analytic value for the present ones (in which absent components contribute nothing). -/
theorem C21_chemical_potentials {chis : Mat C C ℝ} (hs : ∀ i j, chis i j = chis j i) {l : Vec C ℝ}
    (hl : ∀ i, 0 < l i) {phis : NDArr ℝ} {r : Rows (Vec C XReal)}
    (h : (fhFree chis l).chemicalPotentials phis = .ok r) {idx : List ℕ}
    (hi : ValidIndex idx r.lead) (i : Fin C) :
    let x := composition C phis (sourceIndex phis idx)
    (r.row idx i = ninf ↔ x i = 0) ∧ (x i ≠ 0 → r.row idx i = fin (chemPot chis l x i)) := by
  obtain ⟨h0, h1, h2⟩ := chemPot_rows hs hl h hi i
  refine ⟨⟨fun hn => ?_, h1⟩, fun hne => h2 (lt_of_le_of_ne h0 (Ne.symm hne))⟩
  by_contra hne
  rw [h2 (lt_of_le_of_ne h0 (Ne.symm hne))] at hn
  cases hn

/-- The API call succeeds for every array of non-negative compositions. -/
theorem chemicalPotentials_ok (fe : FreeEnergy C) (phis : NDArr ℝ) {lead : List ℕ}
    (hs : phis.shape = lead ++ [C])
    (hp : ∀ idx, ValidIndex idx lead → ∀ i, 0 ≤ composition C phis idx i) :
    ∃ r, fe.chemicalPotentials phis = .ok r ∧ r.lead = if lead = [] then [1] else lead := by
  have hc := check_spec fe phis hs fun idx hi i => hp idx (mem_allIndices.mp hi) i
  unfold FreeEnergy.chemicalPotentials FreeEnergy.freeEnergyDensity FreeEnergy.jacobian
  rw [hc]
  exact ⟨_, rfl, rfl⟩

example : ∃ r, (fhFree (C := 2) ![![0, 3], ![3, 0]] ![1, 2]).chemicalPotentials
    (NDArr.ofMat (![![0, 1], ![1 / 2, 1 / 2]] : Mat 2 2 ℝ)) = .ok r ∧ ValidIndex [0] r.lead := by
  obtain ⟨r, h1, h2⟩ := chemicalPotentials_ok (fhFree (C := 2) ![![0, 3], ![3, 0]] ![1, 2])
    (NDArr.ofMat (![![0, 1], ![1 / 2, 1 / 2]] : Mat 2 2 ℝ)) (lead := [2]) rfl (by
      intro idx hi i
      cases hi with
      | cons hd ht =>
        cases ht
        next a =>
        show 0 ≤ (NDArr.ofMat (![![0, 1], ![1 / 2, 1 / 2]] : Mat 2 2 ℝ)).get [a, i]
        have := ofMat_get (![![0, 1], ![1 / 2, 1 / 2]] : Mat 2 2 ℝ) ⟨a, hd⟩ i
        rw [this]
        have ha : a < 2 := hd
        interval_cases a <;> fin_cases i <;> simp)
  exact ⟨r, h1, by rw [h2]; exact .cons (by norm_num) .nil⟩

/-- **C49**, full Jacobian: for every composition of the array, `jacobian` is the gradient of
`free_energy_density`. -/
theorem C49_jacobian {chis : Mat C C ℝ} (hs : ∀ i j, chis i j = chis j i) {l : Vec C ℝ}
    (hl : ∀ i, l i ≠ 0) {phis : NDArr ℝ} {r : Rows (Vec C XReal)}
    (h : (fhFree chis l).jacobian phis = .ok r) {idx : List ℕ}
    (hx : ∀ i, 0 < composition C phis idx i) :
    XGradientAt (energyOf (fhFree chis l)) (r.row idx) (composition C phis idx) := by
  obtain ⟨-, h2, -⟩ := jacobian_inv h
  refine ⟨freeEnergy chis l, fhGrad chis l (composition C phis idx), ?_, fun i => ?_,
    fhFree_gradient hs hx⟩
  · filter_upwards [eventually_pos hx] with y hy
    rw [energyOf_eq _ fun i => (hy i).le, fhFree_energy hl fun i => (hy i).le]
  · rw [h2, fhFree_jacobian (hl i) (hx i)]

/-- **C49**, conserved Jacobian: with the dependent component `k` the entries belong to the other
components in order, and each is the derivative of the free energy density along the exchange of
that component against `k`. -/
theorem C49_conserved_jacobian {n : ℕ} {chis : Mat (n + 1) (n + 1) ℝ}
    (hs : ∀ i j, chis i j = chis j i) {l : Vec (n + 1) ℝ} (hl : ∀ i, l i ≠ 0) {phis : NDArr ℝ}
    {index : ℤ} {r : Rows (Vec n XReal)} (h : (fhFree chis l).jacobianAt phis index = .ok r)
    {idx : List ℕ} (hx : ∀ i, 0 < composition (n + 1) phis idx i) :
    ∃ k : Fin (n + 1), IsIndex index k ∧ ∀ i : Fin n, ∃ d : ℝ, r.row idx i = fin d ∧
      HasDerivAt (fun t : ℝ => freeEnergy chis l
        (composition (n + 1) phis idx + t • exchange (k.succAbove i) k)) d 0 ∧
      ∀ᶠ t in 𝓝 (0 : ℝ), energyOf (fhFree chis l)
        (composition (n + 1) phis idx + t • exchange (k.succAbove i) k) = fin (freeEnergy chis l
        (composition (n + 1) phis idx + t • exchange (k.succAbove i) k)) := by
  obtain ⟨k, hk, -, h2, -⟩ := jacobianAt_inv h
  refine ⟨k, hk, fun i => ?_⟩
  set x := composition (n + 1) phis idx with hxdef
  refine ⟨fhGrad chis l x (k.succAbove i) - fhGrad chis l x k, ?_, ?_, ?_⟩
  · rw [h2 idx i, skipAt_eq, fhFree_jacobian (hl _) (hx _), fhFree_jacobian (hl _) (hx _),
      fin_sub_fin]
  · rw [← sum_exchange (fhGrad chis l x)]
    exact hasDerivAt_line (fhFree_gradient hs hx) _
  · have hc : ContinuousAt (fun t : ℝ => x + t • exchange (k.succAbove i) k) 0 := by
      fun_prop
    have h0 : (fun t : ℝ => x + t • exchange (k.succAbove i) k) 0 = x := by simp
    have := hc.eventually (p := fun y => ∀ i, 0 < y i) (by rw [h0]; exact eventually_pos hx)
    filter_upwards [this] with t ht
    rw [energyOf_eq _ fun i => (ht i).le, fhFree_energy hl fun i => (ht i).le]

-- C49: both Jacobians of a mixture of unequal sizes, the second with the last component eliminated.
example : ∃ r r', (fhFree (C := 2) ![![0, 3], ![3, 0]] ![1, 2]).jacobian
      (NDArr.ofVec (![1 / 4, 3 / 4] : Vec 2 ℝ)) = .ok r ∧
    (fhFree (C := 2) ![![0, 3], ![3, 0]] ![1, 2]).jacobianAt (NDArr.ofVec (![1 / 4, 3 / 4] : Vec 2 ℝ)) (-1) = .ok r' ∧
    XGradientAt (energyOf (fhFree ![![0, 3], ![3, 0]] ![1, 2])) (r.row []) (composition 2
      (NDArr.ofVec (![1 / 4, 3 / 4] : Vec 2 ℝ)) []) ∧
    ∀ i, 0 < composition 2 (NDArr.ofVec (![1 / 4, 3 / 4] : Vec 2 ℝ)) [] i := by
  have hc := check_ofVec (fhFree (C := 2) ![![0, 3], ![3, 0]] ![1, 2]) (phi := ![1 / 4, 3 / 4])
    (by intro i; fin_cases i <;> norm_num)
  have hn := normIndex_ok (C := 2) (k := -1) (k' := 1) (Or.inr rfl)
  have hx : ∀ i, 0 < composition 2 (NDArr.ofVec (![1 / 4, 3 / 4] : Vec 2 ℝ)) [] i := fun i => by
    have := ofVec_get (![1 / 4, 3 / 4] : Vec 2 ℝ) i
    show 0 < (NDArr.ofVec (![1 / 4, 3 / 4] : Vec 2 ℝ)).get [i.1]
    rw [this]
    fin_cases i <;> norm_num
  obtain ⟨r, hr⟩ : ∃ r, (fhFree (C := 2) ![![0, 3], ![3, 0]] ![1, 2]).jacobian
      (NDArr.ofVec (![1 / 4, 3 / 4] : Vec 2 ℝ)) = .ok r := by
    unfold FreeEnergy.jacobian
    rw [hc]
    exact ⟨_, rfl⟩
  obtain ⟨r', hr'⟩ : ∃ r, (fhFree (C := 2) ![![0, 3], ![3, 0]] ![1, 2]).jacobianAt
      (NDArr.ofVec (![1 / 4, 3 / 4] : Vec 2 ℝ)) (-1) = .ok r := by
    unfold FreeEnergy.jacobianAt
    rw [hc]
    simp only [bind_ok, pure_eq_ok, hn]
    exact ⟨_, rfl⟩
  exact ⟨r, r', hr, hr', C49_jacobian (by intro i j; fin_cases i <;> fin_cases j <;> simp)
    (by intro i; fin_cases i <;> norm_num) hr hx, hx⟩

/-- **C49**, invalid dependent component: `IndexError`, for the Jacobian, the Hessian and the exchange
chemical potentials alike. -/
theorem C49_invalid_index (fe : FreeEnergy C) {phis : NDArr ℝ} {lead : List ℕ}
    (hs : phis.shape = lead ++ [C])
    (hp : ∀ idx, ValidIndex idx lead → ∀ i, 0 ≤ composition C phis idx i) {index : ℤ}
    (hk : ∀ k : Fin C, ¬ IsIndex index k) :
    fe.jacobianAt phis index = .error .indexError ∧
    fe.hessianAt phis index = .error .indexError ∧
    fe.exchangeChemicalPotentials phis index = .error .indexError ∧
    fe.pressure phis index = .error .indexError := by
  have hc := check_spec fe phis hs fun idx hi i => hp idx (mem_allIndices.mp hi) i
  have hn := normIndex_error hk
  obtain ⟨r, hr, -⟩ := chemicalPotentials_ok fe phis hs hp
  refine ⟨?_, ?_, ?_, ?_⟩
  · unfold FreeEnergy.jacobianAt; rw [hc]; simp [hn]
  · unfold FreeEnergy.hessianAt; rw [hc]; simp [hn]
  · unfold FreeEnergy.exchangeChemicalPotentials FreeEnergy.jacobian; rw [hc]; simp [hn]
  · unfold FreeEnergy.pressure; rw [hr]; simp [hn]

/-- **C50**. For positive compositions the exchange chemical potentials vanish for component `k`, are
the differences of the chemical potentials, and the other entries are the conserved Jacobian.
(The documentation promises the vanishing always; see `C50_absent_solvent`.) -/
theorem C50_exchange {n : ℕ} {chis : Mat (n + 1) (n + 1) ℝ}
    (hs : ∀ i j, chis i j = chis j i) {l : Vec (n + 1) ℝ} (hl : ∀ i, 0 < l i) {phis : NDArr ℝ}
    {index : ℤ} {r : Rows (Vec (n + 1) XReal)}
    (h : (fhFree chis l).exchangeChemicalPotentials phis index = .ok r) {idx : List ℕ}
    (hx : ∀ i, 0 < composition (n + 1) phis idx i) :
    ∃ k : Fin (n + 1), IsIndex index k ∧ r.row idx k = fin 0 ∧
      (∀ i, r.row idx i = fin (chemPot chis l (composition (n + 1) phis idx) i -
        chemPot chis l (composition (n + 1) phis idx) k)) ∧
      ∃ r', (fhFree chis l).jacobianAt phis index = .ok r' ∧ r'.lead = r.lead ∧
        ∀ i : Fin n, r.row idx (k.succAbove i) = r'.row idx i := by
  obtain ⟨mus, hm, h⟩ := bind_eq_ok.mp h
  obtain ⟨k, hk, h⟩ := bind_eq_ok.mp h
  obtain rfl := Except.ok.inj h
  obtain ⟨m1, m2, m3⟩ := jacobian_inv hm
  set x := composition (n + 1) phis idx with hxdef
  have hrow : ∀ i, mus.row idx i = fin (fhGrad chis l x i) := fun i => by
    rw [m2, fhFree_jacobian (hl i).ne' (hx i)]
  have hv : ∀ i, (mus.map fun v i => v i - v k).row idx i =
      fin (fhGrad chis l x i - fhGrad chis l x k) := by
    intro i
    show mus.row idx i - mus.row idx k = _
    rw [hrow, hrow, fin_sub_fin]
  refine ⟨k, normIndex_inv hk, ?_, fun i => ?_, ?_⟩
  · rw [hv, sub_self]
  · rw [hv, ← chemPot_eq hs, ← chemPot_eq hs]
    congr 1
    ring
  · have hc := check_spec (fhFree chis l) phis m1 fun idx hi i => m3 idx (mem_allIndices.mp hi) i
    have hr : ∃ r', (fhFree chis l).jacobianAt phis index = .ok r' ∧ r'.lead = mus.lead := by
      unfold FreeEnergy.jacobianAt
      rw [hc]
      simp only [bind_ok, hk]
      exact ⟨_, rfl, rfl⟩
    obtain ⟨r', hr', hl'⟩ := hr
    refine ⟨r', hr', hl', fun i => ?_⟩
    obtain ⟨k', hk', -, j2, -⟩ := jacobianAt_inv hr'
    have hkk : k' = k := Except.ok.inj ((normIndex_ok hk').symm.trans hk)
    subst hkk
    rw [hv, j2 idx i, skipAt_eq, fhFree_jacobian (hl _).ne' (hx _),
      fhFree_jacobian (hl _).ne' (hx _), fin_sub_fin]

/-- **C50** is limited to positive compositions for a reason: for a composition without component `k`
the entry of `k`, documented as "always zero", is NaN. -/
theorem C50_absent_solvent {chis : Mat C C ℝ} {l : Vec C ℝ} (hl : ∀ i, 0 < l i) {phis : NDArr ℝ}
    {index : ℤ} {r : Rows (Vec C XReal)}
    (h : (fhFree chis l).exchangeChemicalPotentials phis index = .ok r) {idx : List ℕ} {k : Fin C}
    (hk : IsIndex index k) (hx : composition C phis idx k = 0) : r.row idx k = nan := by
  obtain ⟨mus, hm, h⟩ := bind_eq_ok.mp h
  obtain ⟨k', hk', h⟩ := bind_eq_ok.mp h
  obtain rfl := Except.ok.inj h
  obtain rfl : k' = k := Except.ok.inj (hk'.symm.trans (normIndex_ok hk))
  obtain ⟨m1, m2, m3⟩ := jacobian_inv hm
  show mus.row idx k' - mus.row idx k' = nan
  rw [m2, fhFree_jacobian_zero (hl k') hx]
  rfl

example : ∃ r, (fhFree (C := 2) ![![0, 3], ![3, 0]] ![1, 2]).exchangeChemicalPotentials
    (NDArr.ofVec ![0, 1]) 0 = .ok r ∧ composition 2 (NDArr.ofVec ![(0 : ℝ), 1]) [] 0 = 0 := by
  have hc := check_ofVec (fhFree (C := 2) ![![0, 3], ![3, 0]] ![1, 2]) (phi := ![0, 1])
    (by intro i; fin_cases i <;> simp)
  have hn := normIndex_ok (C := 2) (k := 0) (k' := 0) (Or.inl rfl)
  unfold FreeEnergy.exchangeChemicalPotentials FreeEnergy.jacobian
  rw [hc]
  simp only [bind_ok, pure_eq_ok, hn]
  exact ⟨_, rfl, ofVec_get ![(0 : ℝ), 1] 0⟩

/-- **C51**. For positive compositions summing to one: the chemical potentials are the gradient of the
extensive free energy `V f(n/V)`, `V = Σ n`, at any amounts `n = V φ`; their fraction-weighted sum
is the free energy density; and `pressure(phis, k)` is the fraction-weighted sum of the exchange
chemical potentials minus the free energy density. -/
theorem C51_chemical_potentials {chis : Mat C C ℝ} (hs : ∀ i j, chis i j = chis j i) {l : Vec C ℝ}
    (hl : ∀ i, 0 < l i) {phis : NDArr ℝ} {r : Rows (Vec C XReal)}
    (h : (fhFree chis l).chemicalPotentials phis = .ok r) {idx : List ℕ}
    (hi : ValidIndex idx r.lead) :
    let x := composition C phis (sourceIndex phis idx)
    (∀ i, 0 < x i) → ∑ i, x i = 1 →
    ∃ mu : Vec C ℝ, (∀ i, r.row idx i = fin (mu i)) ∧
      (∀ V : ℝ, 0 < V → IsGradientAt
        (fun n : Vec C ℝ => (∑ i, n i) * freeEnergy chis l fun i => n i / ∑ j, n j) mu
        (fun i => V * x i)) ∧
      ∑ i, x i * mu i = freeEnergy chis l x ∧
      energyOf (fhFree chis l) x = fin (freeEnergy chis l x) ∧
      ∀ index p, (fhFree chis l).pressure phis index = .ok p → ∃ k, IsIndex index k ∧
        p.row idx = fin ((∑ i, x i * (mu i - mu k)) - freeEnergy chis l x) := by
  intro x hx hsum
  have hmu : ∀ i, r.row idx i = fin (chemPot chis l x i) := fun i =>
    (chemPot_rows hs hl h hi i).2.2 (hx i)
  have hw : ∑ i, x i * chemPot chis l x i = freeEnergy chis l x := by
    have : ∀ i, x i * chemPot chis l x i = x i * (freeEnergy chis l x -
        ∑ j, x j * fhGrad chis l x j) + x i * fhGrad chis l x i := fun i => by
      rw [← chemPot_eq hs]; ring
    simp only [this, Finset.sum_add_distrib, ← Finset.sum_mul, hsum]
    ring
  refine ⟨chemPot chis l x, hmu, fun V hV => ?_, hw, ?_, fun index p hp => ?_⟩
  · unfold IsGradientAt
    set n0 : Vec C ℝ := fun i => V * x i with hn0
    have hN : ∑ i, n0 i = V := by rw [hn0, ← Finset.mul_sum, hsum, mul_one]
    have hxeq : (fun i => n0 i / ∑ j, n0 j) = x := by
      funext i; rw [hN, hn0]; field_simp
    have hS : HasFDerivAt (fun n : Vec C ℝ => ∑ i, n i) (dot fun _ => 1) n0 := by
      refine (HasFDerivAt.fun_sum (u := Finset.univ) fun i _ =>
        hasFDerivAt_coord n0 i).congr_fderiv ?_
      ext v; simp
    have hphi : HasFDerivAt (fun (n : Vec C ℝ) (i : Fin C) => n i / ∑ j, n j)
        (ContinuousLinearMap.pi fun i => V⁻¹ • ContinuousLinearMap.proj (R := ℝ)
          (φ := fun _ : Fin C => ℝ) i - (x i * V⁻¹) • dot fun _ => 1) n0 := by
      rw [hasFDerivAt_pi]
      intro i
      have h1 := (hasFDerivAt_coord n0 i).mul
        ((hasDerivAt_inv (x := ∑ j, n0 j) (by rw [hN]; exact hV.ne')).comp_hasFDerivAt n0 hS)
      simp only [Function.comp_def] at h1
      have : (fun n : Vec C ℝ => n i / ∑ j, n j) = fun n => n i * (∑ j, n j)⁻¹ := by
        funext n; rw [div_eq_mul_inv]
      rw [this]
      refine h1.congr_fderiv ?_
      ext v
      have hNN : Finset.univ.sum n0 = V := hN
      have hni : n0 i = V * x i := rfl
      simp only [hNN, hni, add_apply, smul_apply, ContinuousLinearMap.proj_apply, smul_eq_mul,
        _root_.sub_apply, dot_apply]
      generalize (∑ j, 1 * v j) = W
      field_simp
      ring
    have hf : HasFDerivAt (freeEnergy chis l) (dot (fhGrad chis l x))
        ((fun (n : Vec C ℝ) (i : Fin C) => n i / ∑ j, n j) n0) := by
      show HasFDerivAt _ _ (fun i => n0 i / ∑ j, n0 j)
      rw [hxeq]
      exact fhFree_gradient hs hx
    have hcomp := hS.mul (hf.comp n0 hphi)
    have hval : (freeEnergy chis l ∘ fun (n : Vec C ℝ) (i : Fin C) => n i / ∑ j, n j) n0 =
        freeEnergy chis l x := congrArg (freeEnergy chis l) hxeq
    rw [hval] at hcomp
    refine hcomp.congr_fderiv ?_
    ext v
    simp only [hN, add_apply, smul_apply, smul_eq_mul,
      ContinuousLinearMap.comp_apply, dot_apply, ContinuousLinearMap.pi_apply, _root_.sub_apply,
      ContinuousLinearMap.proj_apply, one_mul]
    simp only [← chemPot_eq hs]
    have e1 : ∑ i, fhGrad chis l x i * (V⁻¹ * v i - x i * V⁻¹ * ∑ j, v j) =
        V⁻¹ * (∑ i, fhGrad chis l x i * v i) -
          V⁻¹ * (∑ j, x j * fhGrad chis l x j) * ∑ j, v j := by
      generalize (∑ j, v j) = W
      rw [Finset.mul_sum, Finset.mul_sum, Finset.sum_mul, ← Finset.sum_sub_distrib]
      exact Finset.sum_congr rfl fun i _ => by ring
    have e2 : ∑ i, (freeEnergy chis l x - ∑ j, x j * fhGrad chis l x j + fhGrad chis l x i) * v i =
        (freeEnergy chis l x - ∑ j, x j * fhGrad chis l x j) * (∑ i, v i) +
          ∑ i, fhGrad chis l x i * v i := by
      rw [Finset.mul_sum, ← Finset.sum_add_distrib]
      exact Finset.sum_congr rfl fun i _ => by ring
    rw [e1, e2]
    generalize (∑ i, v i) = W
    generalize (∑ i, fhGrad chis l x i * v i) = A
    generalize (∑ j, x j * fhGrad chis l x j) = B
    field_simp
    ring
  · rw [energyOf_eq _ fun i => (hx i).le, fhFree_energy (fun i => (hl i).ne') fun i => (hx i).le]
  · obtain ⟨mus, hm, hp⟩ := bind_eq_ok.mp hp
    obtain ⟨k, hk, hp⟩ := bind_eq_ok.mp hp
    obtain rfl := Except.ok.inj hp
    obtain rfl : mus = r := Except.ok.inj (hm.symm.trans h)
    refine ⟨k, normIndex_inv hk, ?_⟩
    show -(mus.row idx k) = _
    rw [hmu, neg_fin]
    congr 1
    have : ∑ i, x i * (chemPot chis l x i - chemPot chis l x k) =
        freeEnergy chis l x - chemPot chis l x k := by
      simp only [mul_sub, Finset.sum_sub_distrib, hw, ← Finset.sum_mul, hsum, one_mul]
    rw [this]
    ring

example : ∃ r, (fhFree (C := 2) ![![0, 3], ![3, 0]] ![1, 2]).chemicalPotentials
    (NDArr.ofVec (![1 / 4, 3 / 4] : Vec 2 ℝ)) = .ok r ∧ ValidIndex [0] r.lead ∧
    sourceIndex (NDArr.ofVec (![1 / 4, 3 / 4] : Vec 2 ℝ)) [0] = [] ∧
    ∀ i, composition 2 (NDArr.ofVec (![1 / 4, 3 / 4] : Vec 2 ℝ)) [] i = ![1 / 4, 3 / 4] i := by
  have hcomp : ∀ i, composition 2 (NDArr.ofVec (![1 / 4, 3 / 4] : Vec 2 ℝ)) [] i =
      ![1 / 4, 3 / 4] i := ofVec_get _
  obtain ⟨r, h1, h2⟩ := chemicalPotentials_ok (fhFree (C := 2) ![![0, 3], ![3, 0]] ![1, 2])
    (NDArr.ofVec (![1 / 4, 3 / 4] : Vec 2 ℝ)) (lead := []) rfl (by
      intro idx hi i
      cases hi
      rw [hcomp]
      fin_cases i <;> norm_num)
  exact ⟨r, h1, by rw [h2]; exact .cons (by norm_num) .nil, rfl, hcomp⟩

/-- **C57**. The volume fraction check accepts exactly the arrays whose last dimension is the number of
components and whose entries are all non-negative (zero and values above one included); otherwise
it raises `VolumeFractionError` — for a scalar, which has no dimension, `IndexError`.  Every method
starts with this check. -/
theorem C57_validation (fe : FreeEnergy C) (phis : NDArr ℝ) :
    ((∃ r, fe.checkVolumeFractions phis = .ok r) ↔
      phis.shape.getLast? = some C ∧ ∀ idx, ValidIndex idx phis.shape → 0 ≤ phis.get idx) ∧
    (fe.checkVolumeFractions phis = .error .volumeFractionError ↔
      phis.shape ≠ [] ∧ ¬ (phis.shape.getLast? = some C ∧
        ∀ idx, ValidIndex idx phis.shape → 0 ≤ phis.get idx)) ∧
    (∀ e, fe.checkVolumeFractions phis = .error e →
      fe.freeEnergyDensity phis = .error e ∧ fe.jacobian phis = .error e ∧
      (∀ k, fe.jacobianAt phis k = .error e) ∧ fe.hessian phis = .error e ∧
      (∀ k, fe.hessianAt phis k = .error e) ∧ fe.chemicalPotentials phis = .error e ∧
      (∀ k, fe.exchangeChemicalPotentials phis k = .error e) ∧
      (∀ k, fe.pressure phis k = .error e) ∧ fe.numUnstableModes phis = .error e ∧
      fe.numUnstableModesFree phis = .error e ∧ fe.isStable phis = .error e ∧
      fe.isStableFree phis = .error e ∧ fe.equilibrationErrorByPhase phis = .error e ∧
      fe.equilibrationErrorByComponent phis = .error e ∧ fe.equilibrationErrorAll phis = .error e) := by
  have key : (phis.shape.getLast? = some C ∧ ∀ idx, ValidIndex idx phis.shape → 0 ≤ phis.get idx) →
      ∃ r, fe.checkVolumeFractions phis = .ok r := by
    rintro ⟨h1, h2⟩
    unfold FreeEnergy.checkVolumeFractions
    rw [h1]
    simp only [ne_eq, not_true_eq_false, if_false]
    rw [if_neg]
    · exact ⟨_, rfl⟩
    · rintro ⟨idx, hi, h⟩
      exact absurd h (not_lt.mpr (h2 idx (mem_allIndices.mp hi)))
  have hok : (∃ r, fe.checkVolumeFractions phis = .ok r) →
      phis.shape.getLast? = some C ∧ ∀ idx, ValidIndex idx phis.shape → 0 ≤ phis.get idx := by
    rintro ⟨r, h⟩
    unfold FreeEnergy.checkVolumeFractions at h
    split at h
    · cases h
    · next d hd =>
      split at h
      · cases h
      · next hdC =>
        split at h
        · cases h
        · next hneg =>
          refine ⟨by rw [hd, not_ne_iff.mp hdC], fun idx hi => ?_⟩
          by_contra hc
          exact hneg ⟨idx, mem_allIndices.mpr hi, not_le.mp hc⟩
  refine ⟨⟨hok, key⟩, ?_, ?_⟩
  · constructor
    · intro h
      refine ⟨fun e => ?_, fun hc => ?_⟩
      · unfold FreeEnergy.checkVolumeFractions at h
        rw [e] at h
        simp at h
      · obtain ⟨r, hr⟩ := key hc
        rw [hr] at h; cases h
    · rintro ⟨hne, hc⟩
      cases hch : fe.checkVolumeFractions phis with
      | ok r => exact absurd (hok ⟨r, hch⟩) hc
      | error e =>
        unfold FreeEnergy.checkVolumeFractions at hch
        split at hch
        · next hd => exact absurd (List.getLast?_eq_none_iff.mp hd) hne
        · split at hch
          · rw [← Except.error.inj hch]
          · split at hch
            · rw [← Except.error.inj hch]
            · cases hch
  · intro e he
    have hd : fe.freeEnergyDensity phis = .error e := by
      unfold FreeEnergy.freeEnergyDensity; rw [he]; rfl
    have hj : fe.jacobian phis = .error e := by unfold FreeEnergy.jacobian; rw [he]; rfl
    have hm : fe.chemicalPotentials phis = .error e := by
      unfold FreeEnergy.chemicalPotentials; rw [he]; rfl
    have hh : fe.hessian phis = .error e := by unfold FreeEnergy.hessian; rw [he]; rfl
    have hha : ∀ k, fe.hessianAt phis k = .error e := fun k => by
      unfold FreeEnergy.hessianAt; rw [he]; rfl
    have hu : fe.numUnstableModes phis = .error e := by
      unfold FreeEnergy.numUnstableModes; rw [hha]; rfl
    have huf : fe.numUnstableModesFree phis = .error e := by
      unfold FreeEnergy.numUnstableModesFree; rw [hh]; rfl
    have hq : fe.equilibrationDeviations phis = .error e := by
      unfold FreeEnergy.equilibrationDeviations; rw [hm]; rfl
    refine ⟨hd, hj, fun k => ?_, hh, hha, hm, fun k => ?_, fun k => ?_, hu, huf, ?_, ?_, ?_, ?_, ?_⟩
    · unfold FreeEnergy.jacobianAt; rw [he]; rfl
    · unfold FreeEnergy.exchangeChemicalPotentials; rw [hj]; rfl
    · unfold FreeEnergy.pressure; rw [hm]; rfl
    · unfold FreeEnergy.isStable; rw [hu]; rfl
    · unfold FreeEnergy.isStableFree; rw [huf]; rfl
    · unfold FreeEnergy.equilibrationErrorByPhase; rw [hq]; rfl
    · unfold FreeEnergy.equilibrationErrorByComponent; rw [hq]; rfl
    · unfold FreeEnergy.equilibrationErrorAll; rw [hq]; rfl

example (fe : FreeEnergy 2) : (∃ r, fe.checkVolumeFractions (NDArr.ofVec ![0, 7 / 2]) = .ok r) ∧
    fe.checkVolumeFractions (NDArr.ofVec ![1, -1]) = .error .volumeFractionError ∧
    fe.checkVolumeFractions (NDArr.ofVec ![1, 1, 1]) = .error .volumeFractionError := by
  refine ⟨⟨_, check_ofVec fe (by intro i; fin_cases i <;> norm_num)⟩, ?_, ?_⟩
  · rw [(C57_validation fe _).2.1]
    refine ⟨by simp [NDArr.ofVec], fun h => ?_⟩
    have := h.2 [1] (.cons (by norm_num) .nil)
    rw [show [1] = [((1 : Fin 2) : ℕ)] from rfl, ofVec_get] at this
    norm_num at this
  · rw [(C57_validation fe _).2.1]
    refine ⟨by simp [NDArr.ofVec], fun h => ?_⟩
    have := h.1
    simp [NDArr.ofVec] at this

/-- **C58**, free energies: creation succeeds, keeping the parts, exactly if the component numbers
agree; otherwise `ComponentNumberError`. -/
theorem C58_free_energy_sizes (i e : Σ C, EnergyPart C) :
    (i.1 ≠ e.1 → FreeEnergy.new i e = .error .componentNumberError) ∧
    ∀ (C : ℕ) (a b : EnergyPart C), FreeEnergy.new ⟨C, a⟩ ⟨C, b⟩ = .ok ⟨C, a, b⟩ := by
  refine ⟨fun h => ?_, fun C a b => ?_⟩
  · unfold FreeEnergy.new; rw [dif_neg h]
  · unfold FreeEnergy.new; rw [dif_pos rfl]

end Flory
