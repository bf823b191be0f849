import Verif.Model.FreeEnergy
import Verif.Lemmas.GasEntropy
import Verif.Lemmas.NDArray

/-! # Free energy API: closed forms -/

set_option linter.unusedSectionVars false

namespace Flory

open XReal Spec Topology

variable {C : ℕ}

/-- The free energy object with a Flory-Huggins interaction and an ideal gas. -/
noncomputable def fhFree (chis : Mat C C ℝ) (l : Vec C ℝ) : FreeEnergy C := ⟨fhPart chis, gasPart l⟩

theorem mem_allIndices {s idx : List ℕ} :
    idx ∈ FreeEnergy.allIndices s ↔ List.Forall₂ (· < ·) idx s := by
  induction s generalizing idx with
  | nil => simp [FreeEnergy.allIndices]
  | cons d s ih =>
    simp only [FreeEnergy.allIndices, List.mem_flatMap, List.mem_range, List.mem_map]
    constructor
    · rintro ⟨i, hi, t, ht, rfl⟩
      exact .cons hi (ih.mp ht)
    · intro h
      cases h with
      | cons h1 h2 => exact ⟨_, h1, _, ih.mpr h2, rfl⟩

theorem check_spec (fe : FreeEnergy C) (phis : NDArr ℝ) {lead : List ℕ}
    (hs : phis.shape = lead ++ [C]) (hp : ∀ idx ∈ FreeEnergy.allIndices lead, ∀ i : Fin C,
      0 ≤ phis.get (idx ++ [i.1])) :
    fe.checkVolumeFractions phis = .ok ⟨lead, fun idx i => phis.get (idx ++ [i.1])⟩ := by
  unfold FreeEnergy.checkVolumeFractions
  rw [hs]
  simp only [List.getLast?_append, List.getLast?_singleton, Option.some_or, ne_eq, not_true_eq_false,
    if_false, List.dropLast_concat]
  rw [if_neg]
  rintro ⟨idx, hi, h⟩
  rw [mem_allIndices] at hi
  obtain ⟨a, b, hab, h1, h2⟩ : ∃ a b, idx = a ++ [b] ∧ List.Forall₂ (· < ·) a lead ∧ b < C := by
    have hl := hi.length_eq
    rw [List.length_append] at hl
    have hne : idx ≠ [] := by rintro rfl; simp at hl
    refine ⟨idx.dropLast, idx.getLast hne, (List.dropLast_append_getLast hne).symm, ?_⟩
    rw [← List.dropLast_append_getLast hne] at hi
    have hl2 : idx.dropLast.length = lead.length := by
      rw [List.length_dropLast]; simp at hl; omega
    have := List.forall₂_iff_zip.mp hi
    have hz : (idx.dropLast ++ [idx.getLast hne]).zip (lead ++ [C]) =
        idx.dropLast.zip lead ++ [(idx.getLast hne, C)] := by
      rw [List.zip_append hl2]; rfl
    rw [hz] at this
    refine ⟨List.forall₂_iff_zip.mpr ⟨hl2, fun h => this.2 (by simp [h])⟩, this.2 (by simp)⟩
  subst hab
  exact absurd h (not_lt.mpr (hp a (mem_allIndices.mpr h1) ⟨b, h2⟩))

/-- What the check accepts. -/
theorem check_inv {fe : FreeEnergy C} {phis : NDArr ℝ} {r : Rows (Vec C ℝ)}
    (h : fe.checkVolumeFractions phis = .ok r) :
    phis.shape = r.lead ++ [C] ∧ r.row = (fun idx i => phis.get (idx ++ [i.1])) ∧
      ∀ idx ∈ FreeEnergy.allIndices r.lead, ∀ i : Fin C, 0 ≤ phis.get (idx ++ [i.1]) := by
  unfold FreeEnergy.checkVolumeFractions at h
  split at h
  · cases h
  · next d hd =>
    split at h
    · cases h
    · next hdC =>
      split at h
      · cases h
      · next hneg =>
        obtain rfl := Except.ok.inj h
        have hs : phis.shape = phis.shape.dropLast ++ [C] := by
          obtain ⟨t, ht⟩ := List.getLast?_eq_some_iff.mp hd
          have : d = C := not_ne_iff.mp hdC
          rw [ht, this]; simp
        refine ⟨hs, rfl, fun idx hi i => ?_⟩
        by_contra hc
        refine hneg ⟨idx ++ [i.1], ?_, not_le.mp hc⟩
        rw [mem_allIndices]
        rw [hs]
        exact List.rel_append (mem_allIndices.mp hi) (.cons i.2 .nil)

/-- Accepting does not depend on the energy. -/
theorem check_ofVec (fe : FreeEnergy C) {phi : Vec C ℝ} (h : ∀ i, 0 ≤ phi i) :
    fe.checkVolumeFractions (NDArr.ofVec phi) =
      .ok ⟨[], fun idx i => (NDArr.ofVec phi).get (idx ++ [i.1])⟩ := by
  refine check_spec fe _ (lead := []) rfl fun idx hi i => ?_
  have : idx = [] := by simpa [FreeEnergy.allIndices] using hi
  subst this
  exact (ofVec_get phi i).symm ▸ h i

theorem fhFree_energy {chis : Mat C C ℝ} {l phi : Vec C ℝ} (hl : ∀ i, l i ≠ 0) (h : ∀ i, 0 ≤ phi i) :
    (fhFree chis l).energyImpl phi = fin (freeEnergy chis l phi) := by
  unfold FreeEnergy.energyImpl
  show fin (fhEnergy chis phi) + gasEnergy l phi = _
  rw [gasEnergy_eq hl h, fin_add_fin]
  congr 1
  unfold fhEnergy freeEnergy
  rw [add_comm]
  congr 2
  exact Finset.sum_congr rfl fun i _ => Finset.sum_congr rfl fun j _ => by ring

/-- Real part of the Jacobian. -/
noncomputable def fhGrad (chis : Mat C C ℝ) (l phi : Vec C ℝ) (i : Fin C) : ℝ :=
  fhJacobian chis phi i + (Real.log (phi i) + 1) / l i

theorem fhFree_jacobian {chis : Mat C C ℝ} {l phi : Vec C ℝ} {i : Fin C} (hl : l i ≠ 0)
    (h : 0 < phi i) : (fhFree chis l).jacobianImpl phi i = fin (fhGrad chis l phi i) := by
  unfold FreeEnergy.jacobianImpl
  show fin (fhJacobian chis phi i) + gasJacobian l phi i = _
  rw [gasJacobian_eq hl h, fin_add_fin]
  rfl

theorem fhFree_jacobian_zero {chis : Mat C C ℝ} {l phi : Vec C ℝ} {i : Fin C} (hl : 0 < l i)
    (h : phi i = 0) : (fhFree chis l).jacobianImpl phi i = ninf := by
  unfold FreeEnergy.jacobianImpl
  show fin (fhJacobian chis phi i) + gasJacobian l phi i = _
  rw [gasJacobian_zero hl h]; rfl

theorem fhFree_fractions {chis : Mat C C ℝ} {l phi : Vec C ℝ} {i : Fin C} (hl : l i ≠ 0)
    (h : 0 ≤ phi i) : (fhFree chis l).jacobianFractionsImpl phi i =
      fin (phi i * fhGrad chis l phi i) := by
  unfold FreeEnergy.jacobianFractionsImpl
  show (fin (fhJacobian chis phi i)).mulR (phi i) + gasJacobianFractions l phi i = _
  rw [gasJacobianFractions_eq hl h, mulR_fin, fin_add_fin]
  congr 1
  unfold fhGrad
  ring

theorem fhFree_gradient {chis : Mat C C ℝ} (hs : ∀ i j, chis i j = chis j i) {l x : Vec C ℝ}
    (h : ∀ i, 0 < x i) : IsGradientAt (freeEnergy chis l) (fhGrad chis l x) x := by
  have h1 := IsGradientAt.add (fhEnergy_gradient hs x) (gasEnergy_gradient (l := l) h)
  have : freeEnergy chis l = fun y => fhEnergy chis y + ∑ i, y i * Real.log (y i) / l i := by
    funext y
    unfold fhEnergy freeEnergy
    rw [add_comm]
    congr 2
    exact Finset.sum_congr rfl fun i _ => Finset.sum_congr rfl fun j _ => by ring
  rw [this]
  exact h1

/-- `f − Σ φ_j f_j + f_i` is the documented chemical potential, also with absent components. -/
theorem chemPot_eq {chis : Mat C C ℝ} (hs : ∀ i j, chis i j = chis j i) (l x : Vec C ℝ)
    (i : Fin C) : freeEnergy chis l x - (∑ j, x j * fhGrad chis l x j) + fhGrad chis l x i =
      chemPot chis l x i := by
  unfold freeEnergy chemPot fhGrad fhJacobian
  have e1 : ∑ j, x j * (∑ i, x i * chis i j + (Real.log (x j) + 1) / l j) =
      (∑ j, ∑ k, chis j k * x j * x k) + (∑ j, x j * Real.log (x j) / l j) + ∑ j, x j / l j := by
    rw [← Finset.sum_add_distrib, ← Finset.sum_add_distrib]
    refine Finset.sum_congr rfl fun j _ => ?_
    rw [mul_add, Finset.mul_sum, add_assoc]
    congr 1
    · exact Finset.sum_congr rfl fun k _ => by rw [hs]; ring
    · ring
  have e2 : ∑ j, x j * chis j i = ∑ j, chis i j * x j :=
    Finset.sum_congr rfl fun j _ => by rw [hs]; ring
  rw [e1, e2]
  ring

/-! ### API calls -/

theorem normIndex_ok {k : ℤ} {k' : Fin C} (h : IsIndex k k') : normIndex C k = .ok k' := by
  unfold normIndex
  have h1 := k'.2
  by_cases hk : 0 ≤ k ∧ k < C
  · rw [dif_pos hk]
    congr 1
    refine Fin.ext ?_
    rcases h with h | h
    · show k.toNat = k'; omega
    · show k.toNat = k'; omega
  · rw [dif_neg hk]
    have : -(C : ℤ) ≤ k ∧ k < 0 := by rcases h with h | h <;> omega
    rw [dif_pos this]
    congr 1
    refine Fin.ext ?_
    rcases h with h | h
    · show (k + C).toNat = k'; omega
    · show (k + C).toNat = k'; omega

theorem normIndex_inv {k : ℤ} {k' : Fin C} (h : normIndex C k = .ok k') : IsIndex k k' := by
  unfold normIndex at h
  split at h
  · have := Except.ok.inj h
    subst this
    left; show k = (k.toNat : ℤ); omega
  · split at h
    · have := Except.ok.inj h
      subst this
      right; show k = ((k + C).toNat : ℤ) - C; omega
    · cases h

theorem normIndex_error {k : ℤ} (h : ∀ k' : Fin C, ¬ IsIndex k k') :
    normIndex C k = .error .indexError := by
  cases hk : normIndex C k with
  | ok k' => exact absurd (normIndex_inv hk) (h k')
  | error e =>
    unfold normIndex at hk
    split at hk
    · cases hk
    · split at hk
      · cases hk
      · rw [← Except.error.inj hk]

theorem skipAt_eq {n : ℕ} (k : Fin (n + 1)) (i : Fin n) :
    skipAt k (i : Fin (n + 1 - 1)) = k.succAbove i := by
  refine Fin.ext ?_
  unfold skipAt Fin.succAbove
  by_cases h : i.1 < k.1
  · have : i.castSucc < k := h
    rw [if_pos h, if_pos this]; rfl
  · have : ¬ i.castSucc < k := h
    rw [if_neg h, if_neg this]; rfl

variable {fe : FreeEnergy C} {phis : NDArr ℝ}

theorem density_inv {r : Rows XReal} (h : fe.freeEnergyDensity phis = .ok r) :
    phis.shape = r.lead ++ [C] ∧ (∀ idx, r.row idx = fe.energyImpl (composition C phis idx)) ∧
      ∀ idx, ValidIndex idx r.lead → ∀ i, 0 ≤ composition C phis idx i := by
  obtain ⟨p, hp, h⟩ := bind_eq_ok.mp h
  obtain rfl := Except.ok.inj h
  obtain ⟨h1, h2, h3⟩ := check_inv hp
  exact ⟨h1, fun idx => by show fe.energyImpl (p.row idx) = _; rw [h2]; rfl,
    fun idx hi i => h3 idx (mem_allIndices.mpr hi) i⟩

theorem jacobian_inv {r : Rows (Vec C XReal)} (h : fe.jacobian phis = .ok r) :
    phis.shape = r.lead ++ [C] ∧ (∀ idx, r.row idx = fe.jacobianImpl (composition C phis idx)) ∧
      ∀ idx, ValidIndex idx r.lead → ∀ i, 0 ≤ composition C phis idx i := by
  obtain ⟨p, hp, h⟩ := bind_eq_ok.mp h
  obtain rfl := Except.ok.inj h
  obtain ⟨h1, h2, h3⟩ := check_inv hp
  exact ⟨h1, fun idx => by show fe.jacobianImpl (p.row idx) = _; rw [h2]; rfl,
    fun idx hi i => h3 idx (mem_allIndices.mpr hi) i⟩

theorem jacobianAt_inv {k : ℤ} {r : Rows (Vec (C - 1) XReal)} (h : fe.jacobianAt phis k = .ok r) :
    ∃ k' : Fin C, IsIndex k k' ∧ phis.shape = r.lead ++ [C] ∧
      (∀ idx i, r.row idx i = fe.jacobianImpl (composition C phis idx) (skipAt k' i) -
        fe.jacobianImpl (composition C phis idx) k') ∧
      ∀ idx, ValidIndex idx r.lead → ∀ i, 0 ≤ composition C phis idx i := by
  obtain ⟨p, hp, h⟩ := bind_eq_ok.mp h
  obtain ⟨k', hk, h⟩ := bind_eq_ok.mp h
  obtain rfl := Except.ok.inj h
  obtain ⟨h1, h2, h3⟩ := check_inv hp
  refine ⟨k', normIndex_inv hk, h1, fun idx i => ?_,
    fun idx hi i => h3 idx (mem_allIndices.mpr hi) i⟩
  show fe.jacobianImpl (p.row idx) (skipAt k' i) - fe.jacobianImpl (p.row idx) k' = _
  rw [h2]; rfl

theorem hessian_inv {r : Rows (Mat C C XReal)} (h : fe.hessian phis = .ok r) :
    phis.shape = r.lead ++ [C] ∧ (∀ idx, r.row idx = fe.hessianImpl (composition C phis idx)) ∧
      ∀ idx, ValidIndex idx r.lead → ∀ i, 0 ≤ composition C phis idx i := by
  obtain ⟨p, hp, h⟩ := bind_eq_ok.mp h
  obtain rfl := Except.ok.inj h
  obtain ⟨h1, h2, h3⟩ := check_inv hp
  exact ⟨h1, fun idx => by show fe.hessianImpl (p.row idx) = _; rw [h2]; rfl,
    fun idx hi i => h3 idx (mem_allIndices.mpr hi) i⟩

theorem hessianAt_inv {k : ℤ} {r : Rows (Mat (C - 1) (C - 1) XReal)}
    (h : fe.hessianAt phis k = .ok r) :
    ∃ k' : Fin C, IsIndex k k' ∧ phis.shape = r.lead ++ [C] ∧
      (∀ idx i j, let H := fe.hessianImpl (composition C phis idx)
        r.row idx i j = H (skipAt k' i) (skipAt k' j) - H k' (skipAt k' j) - H (skipAt k' i) k' +
          H k' k') ∧
      ∀ idx, ValidIndex idx r.lead → ∀ i, 0 ≤ composition C phis idx i := by
  obtain ⟨p, hp, h⟩ := bind_eq_ok.mp h
  obtain ⟨k', hk, h⟩ := bind_eq_ok.mp h
  obtain rfl := Except.ok.inj h
  obtain ⟨h1, h2, h3⟩ := check_inv hp
  refine ⟨k', normIndex_inv hk, h1, fun idx i j => ?_,
    fun idx hi i => h3 idx (mem_allIndices.mpr hi) i⟩
  show fe.hessianImpl (p.row idx) _ _ - fe.hessianImpl (p.row idx) _ _ -
    fe.hessianImpl (p.row idx) _ _ + fe.hessianImpl (p.row idx) _ _ = _
  rw [h2]; rfl

/-- The composition a row of `chemical_potentials` belongs to: for one composition the result has an
extra leading dimension. -/
theorem chemicalPotentials_inv {r : Rows (Vec C XReal)} (h : fe.chemicalPotentials phis = .ok r) :
    ∃ lead, phis.shape = lead ++ [C] ∧ r.lead = (if lead = [] then [1] else lead) ∧
      (∀ idx i, let x := composition C phis (if lead = [] then [] else idx)
        r.row idx i = fe.energyImpl x - XReal.sum (fe.jacobianFractionsImpl x) +
          fe.jacobianImpl x i) ∧
      ∀ idx, ValidIndex idx lead → ∀ i, 0 ≤ composition C phis idx i := by
  obtain ⟨p, hp, h⟩ := bind_eq_ok.mp h
  obtain ⟨f, hf, h⟩ := bind_eq_ok.mp h
  obtain ⟨j, hj, h⟩ := bind_eq_ok.mp h
  obtain rfl := Except.ok.inj h
  obtain ⟨h1, h2, h3⟩ := check_inv hp
  obtain ⟨f1, f2, -⟩ := density_inv hf
  obtain ⟨j1, j2, -⟩ := jacobian_inv hj
  have hl : f.lead = p.lead := List.append_cancel_right (f1.symm.trans h1)
  refine ⟨p.lead, h1, by rw [hl], fun idx i => ?_, fun idx hi i => h3 idx (mem_allIndices.mpr hi) i⟩
  simp only [hl, f2, j2]
  congr 2
  show XReal.sum (fe.jacobianFractionsImpl (p.row _)) = _
  rw [h2]; rfl

theorem hasDerivAt_line {f : Vec C ℝ → ℝ} {g x : Vec C ℝ} (h : IsGradientAt f g x) (v : Vec C ℝ) :
    HasDerivAt (fun t : ℝ => f (x + t • v)) (∑ i, g i * v i) 0 := by
  have h1 : HasDerivAt (fun t : ℝ => x + t • v) v 0 := by
    simpa using ((hasDerivAt_id (0 : ℝ)).smul_const v).const_add x
  have h2 : HasFDerivAt f (dot g) (x + (0 : ℝ) • v) := by rw [zero_smul, add_zero]; exact h
  have := h2.comp_hasDerivAt (0 : ℝ) h1
  rw [dot_apply] at this
  exact this

theorem sum_exchange (g : Vec C ℝ) (i k : Fin C) : ∑ j, g j * exchange i k j = g i - g k := by
  unfold exchange
  simp [mul_sub, Finset.sum_sub_distrib, Pi.single_apply]

end Flory
