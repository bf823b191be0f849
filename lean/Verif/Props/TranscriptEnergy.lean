import Verif.Lemmas.TranscriptEnergy
import Verif.Props.FreeEnergy

/-!
# C104: the transcribed array code of the free energies agrees with the model
-/

set_option linter.unusedSectionVars false

namespace Flory

open XReal Spec

variable {C : ℕ}

/-- C104: the transcription of `xlogx` is the model. -/
theorem C104_xlogx : Gen.xlogx = xlogx := rfl

/-- C104: the Flory-Huggins interaction of the model consists of the transcribed methods. -/
theorem C104_interaction (chis : Mat C C ℝ) (phi : Vec C ℝ) :
    (fhPart chis).energy phi = fin (Gen.FloryHugginsInteractionBase.energy_impl chis phi) ∧
    (fhPart chis).jacobian phi =
      (fun i => fin (Gen.FloryHugginsInteractionBase.jacobian_impl chis phi i)) ∧
    (fhPart chis).hessian phi =
      (fun i j => fin (Gen.FloryHugginsInteractionBase.hessian_impl chis phi i j)) ∧
    (fhPart chis).jacobianFractions = none :=
  ⟨rfl, rfl, rfl, rfl⟩

/-- C104: the ideal gas entropy of the model consists of the transcribed methods. -/
theorem C104_entropy (sizes : Vec C ℝ) :
    (gasPart sizes).energy = Gen.IdealGasEntropyBase.energy_impl sizes ∧
    (gasPart sizes).jacobian = Gen.IdealGasEntropyBase.jacobian_impl sizes ∧
    (gasPart sizes).hessian = Gen.IdealGasEntropyBase.hessian_impl sizes ∧
    (gasPart sizes).jacobianFractions = some (Gen.IdealGasEntropyBase.jacobian_fractions_impl sizes) :=
  ⟨rfl, rfl, rfl, rfl⟩

/-- A Flory-Huggins free energy made of the transcribed methods. -/
noncomputable def transcribed (chis : Mat C C ℝ) (sizes : Vec C ℝ) : FreeEnergy C where
  interaction :=
    { energy := fun phi => fin (Gen.FloryHugginsInteractionBase.energy_impl chis phi)
      jacobian := fun phi i => fin (Gen.FloryHugginsInteractionBase.jacobian_impl chis phi i)
      hessian := fun phi i j => fin (Gen.FloryHugginsInteractionBase.hessian_impl chis phi i j)
      jacobianFractions := none }
  entropy :=
    { energy := Gen.IdealGasEntropyBase.energy_impl sizes
      jacobian := Gen.IdealGasEntropyBase.jacobian_impl sizes
      hessian := Gen.IdealGasEntropyBase.hessian_impl sizes
      jacobianFractions := some (Gen.IdealGasEntropyBase.jacobian_fractions_impl sizes) }

theorem transcribed_eq (chis : Mat C C ℝ) (sizes : Vec C ℝ) : transcribed chis sizes = fhFree chis sizes :=
  rfl

/-- C104: the sums of both parts. -/
theorem C104_implementations (fe : FreeEnergy C) :
    Gen.FreeEnergyBase.energy_impl fe = fe.energyImpl ∧
    Gen.FreeEnergyBase.jacobian_impl fe = fe.jacobianImpl ∧
    Gen.FreeEnergyBase.hessian_impl fe = fe.hessianImpl ∧
    Gen.FreeEnergyBase.jacobian_fractions_impl fe = fe.jacobianFractionsImpl :=
  ⟨rfl, rfl, rfl, rfl⟩

/-- C104: `check_volume_fractions` returns its argument, and accepts what the model accepts. -/
theorem C104_check (fe : FreeEnergy C) (phis : NDArr ℝ) :
    fe.checkVolumeFractions phis =
      (Gen.FreeEnergyBase.check_volume_fractions fe phis (-1)).map (rowsOf C) ∧
    ∀ r, Gen.FreeEnergyBase.check_volume_fractions fe phis (-1) = .ok r → r = phis := by
  unfold Gen.FreeEnergyBase.check_volume_fractions FreeEnergy.checkVolumeFractions
  dsimp only
  rw [shapeAt_last]
  cases h : phis.shape.getLast? with
  | none => exact ⟨rfl, fun r hr => by simp [bind, Except.bind] at hr⟩
  | some d =>
    by_cases hd : d = C
    · by_cases hn : ndAny (fun x => x < 0) phis
      · have hn' : ∃ idx ∈ FreeEnergy.allIndices phis.shape, phis.get idx < 0 := hn
        simp [hd, hn, hn', bind, Except.bind, Except.map]
      · have hn' : ¬∃ idx ∈ FreeEnergy.allIndices phis.shape, phis.get idx < 0 := hn
        simp only [bind, Except.bind, hd, ne_eq, not_true_eq_false, if_false, if_neg hn, if_neg hn']
        exact ⟨rfl, fun r hr => by cases hr; rfl⟩
    · simp [hd, bind, Except.bind, Except.map]

/-- Both outcomes of the check at once. -/
theorem check_cases (fe : FreeEnergy C) (phis : NDArr ℝ) :
    (Gen.FreeEnergyBase.check_volume_fractions fe phis (-1) = .ok phis ∧
      fe.checkVolumeFractions phis = .ok (rowsOf C phis)) ∨
    ∃ e, Gen.FreeEnergyBase.check_volume_fractions fe phis (-1) = .error e ∧
      fe.checkVolumeFractions phis = .error e := by
  obtain ⟨h1, h2⟩ := C104_check fe phis
  cases h : Gen.FreeEnergyBase.check_volume_fractions fe phis (-1) with
  | error e => exact Or.inr ⟨e, rfl, by rw [h1, h]; rfl⟩
  | ok r => exact Or.inl ⟨by rw [h2 r h], by rw [h1, h, h2 r h]; rfl⟩

/-- C104: `free_energy_density`. -/
theorem C104_free_energy_density (fe : FreeEnergy C) (phis : NDArr ℝ) :
    Gen.FreeEnergyBase.free_energy_density fe phis = fe.freeEnergyDensity phis := by
  unfold Gen.FreeEnergyBase.free_energy_density FreeEnergy.freeEnergyDensity
  rcases check_cases fe phis with ⟨h1, h2⟩ | ⟨e, h1, h2⟩ <;> rw [h1, h2] <;> rfl

/-- C104: `jacobian`, with and without an index. -/
theorem C104_jacobian (fe : FreeEnergy C) (phis : NDArr ℝ) :
    Gen.FreeEnergyBase.jacobian fe phis = fe.jacobian phis ∧
    ∀ index, Gen.FreeEnergyBase.jacobian_at fe phis index = fe.jacobianAt phis index := by
  unfold Gen.FreeEnergyBase.jacobian FreeEnergy.jacobian Gen.FreeEnergyBase.jacobian_at
    FreeEnergy.jacobianAt
  rcases check_cases fe phis with ⟨h1, h2⟩ | ⟨e, h1, h2⟩ <;> rw [h1, h2]
  · refine ⟨rfl, fun index => ?_⟩
    cases hk : normIndex C index with
    | error e => rfl
    | ok k =>
      simp only [bind, Except.bind, Rows.zip2_self]
      rfl
  · exact ⟨rfl, fun _ => rfl⟩

/-- C104: `hessian`, with and without an index. -/
theorem C104_hessian (fe : FreeEnergy C) (phis : NDArr ℝ) :
    Gen.FreeEnergyBase.hessian fe phis = fe.hessian phis ∧
    ∀ index, Gen.FreeEnergyBase.hessian_at fe phis index = fe.hessianAt phis index := by
  unfold Gen.FreeEnergyBase.hessian FreeEnergy.hessian Gen.FreeEnergyBase.hessian_at
    FreeEnergy.hessianAt
  rcases check_cases fe phis with ⟨h1, h2⟩ | ⟨e, h1, h2⟩ <;> rw [h1, h2]
  · refine ⟨rfl, fun index => ?_⟩
    cases hk : normIndex C index with
    | error e => rfl
    | ok k =>
      simp only [bind, Except.bind, Rows.zip2_self, Rows.map_map, Rows.zip2_map_map]
      rfl
  · exact ⟨rfl, fun _ => rfl⟩

/-- C104: `chemical_potentials`, whatever the leading axes. -/
theorem C104_chemical_potentials (fe : FreeEnergy C) (phis : NDArr ℝ) :
    Gen.FreeEnergyBase.chemical_potentials fe phis = fe.chemicalPotentials phis := by
  unfold Gen.FreeEnergyBase.chemical_potentials FreeEnergy.chemicalPotentials
  rcases check_cases fe phis with ⟨h1, h2⟩ | ⟨e, h1, h2⟩
  swap
  · rw [h1, h2]
    rfl
  have hf : fe.freeEnergyDensity phis = .ok ((rowsOf C phis).map fe.energyImpl) := by
    unfold FreeEnergy.freeEnergyDensity
    rw [h2]
    rfl
  have hj : fe.jacobian phis = .ok ((rowsOf C phis).map fe.jacobianImpl) := by
    unfold FreeEnergy.jacobian
    rw [h2]
    rfl
  rw [h1, h2]
  simp only [bind, Except.bind, C104_free_energy_density, (C104_jacobian fe phis).1, hf, hj,
    (C104_implementations fe).2.2.2, Rows.map_map]
  generalize rowsOf C phis = r
  obtain ⟨lead, row⟩ := r
  by_cases hl : lead = []
  · subst hl
    rfl
  · have h1 : Rows.atLeast1 (Rows.map fe.energyImpl ⟨lead, row⟩) = Rows.map fe.energyImpl ⟨lead, row⟩ :=
      if_neg hl
    rw [h1, Rows.zip2_map_map]
    simp only [Rows.zip2_map_map]
    simp only [Rows.map, hl, if_false]

/-- C104: `exchange_chemical_potentials` and `pressure`. -/
theorem C104_exchange_pressure (fe : FreeEnergy C) (phis : NDArr ℝ) (index : ℤ) :
    Gen.FreeEnergyBase.exchange_chemical_potentials fe phis index =
      fe.exchangeChemicalPotentials phis index ∧
    Gen.FreeEnergyBase.pressure fe phis index = fe.pressure phis index := by
  unfold Gen.FreeEnergyBase.exchange_chemical_potentials FreeEnergy.exchangeChemicalPotentials
    Gen.FreeEnergyBase.pressure FreeEnergy.pressure
  rw [(C104_jacobian fe phis).1, C104_chemical_potentials]
  constructor
  · cases fe.jacobian phis with
    | error e => rfl
    | ok mus =>
      cases normIndex C index with
      | error e => rfl
      | ok k =>
        simp only [bind, Except.bind, Rows.zip2_self]
        rfl
  · cases fe.chemicalPotentials phis <;> cases normIndex C index <;> rfl

/-- C104: `num_unstable_modes` and `is_stable`, with and without conservation. -/
theorem C104_stability (fe : FreeEnergy C) (phis : NDArr ℝ) :
    Gen.FreeEnergyBase.num_unstable_modes fe phis = fe.numUnstableModes phis ∧
    Gen.FreeEnergyBase.num_unstable_modes_free fe phis = fe.numUnstableModesFree phis ∧
    Gen.FreeEnergyBase.is_stable fe phis = fe.isStable phis ∧
    Gen.FreeEnergyBase.is_stable_free fe phis = fe.isStableFree phis := by
  have h1 : Gen.FreeEnergyBase.num_unstable_modes fe phis = fe.numUnstableModes phis := by
    unfold Gen.FreeEnergyBase.num_unstable_modes FreeEnergy.numUnstableModes
    rw [(C104_hessian fe phis).2]
    cases fe.hessianAt phis 0 with
    | error e => rfl
    | ok h =>
      simp only [bind, Except.bind, countRows_eq]
      cases Rows.eigvalsh h <;> rfl
  have h2 : Gen.FreeEnergyBase.num_unstable_modes_free fe phis = fe.numUnstableModesFree phis := by
    unfold Gen.FreeEnergyBase.num_unstable_modes_free FreeEnergy.numUnstableModesFree
    rw [(C104_hessian fe phis).1]
    cases fe.hessian phis with
    | error e => rfl
    | ok h =>
      simp only [bind, Except.bind, countRows_eq]
      cases Rows.eigvalsh h <;> rfl
  refine ⟨h1, h2, ?_, ?_⟩
  · unfold Gen.FreeEnergyBase.is_stable FreeEnergy.isStable
    rw [h1]
  · unfold Gen.FreeEnergyBase.is_stable_free FreeEnergy.isStableFree
    rw [h2]

/-- C104: `equilibration_error`, with every order and axis. -/
theorem C104_equilibration_error (fe : FreeEnergy C) (phis : NDArr ℝ) (order : NormOrder)
    (axis : Option ℤ) :
    Gen.FreeEnergyBase.equilibration_error fe phis order axis =
      fe.equilibrationError phis order axis := by
  unfold Gen.FreeEnergyBase.equilibration_error FreeEnergy.equilibrationError
    FreeEnergy.equilibrationDeviations
  rw [C104_chemical_potentials]
  cases hm : fe.chemicalPotentials phis with
  | error e => rfl
  | ok mus =>
    have hl := chemicalPotentials_lead hm
    obtain ⟨lead, row⟩ := mus
    cases lead with
    | nil => exact absurd rfl hl
    | cons P l =>
      have hne : ¬((P :: l : List ℕ) = l) := fun h => by
        have := congrArg List.length h
        simp at this
      have hb : broadcastShapes (P :: l).reverse l.reverse = some (P :: l).reverse := by
        rw [List.reverse_cons]
        exact broadcastShapes_append _ _
      simp only [bind, Except.bind, Rows.map, Rows.mean0, Rows.zip2, if_neg hne, hb, Rows.inPlace,
        List.reverse_reverse, if_true]
      cases l with
      | cons Q l => rfl
      | nil =>
        have key : (fun (p : Fin P) (i : Fin C) =>
            (row (clipIndex [P] [p.1]) i).nanToNum -
              (∑ q : Fin P, (row (q.1 :: clipIndex [] [p.1]) i).nanToNum) / P) =
            FreeEnergy.deviations fun p : Fin P => row [p.1] := by
          funext p i
          have h1 : clipIndex [P] [p.1] = [p.1] := by
            unfold clipIndex
            simp only [List.length_singleton, Nat.sub_self, List.drop_zero, List.zipWith_cons_cons,
              List.zipWith_nil_left]
            split
            · have := p.2
              congr 1
              omega
            · rfl
          rw [h1]
          rfl
        simp only [Rows.norm, key]

/-- C104: the chemical potentials that the transcribed code returns for a Flory-Huggins free energy are
negative infinity for absent components, and the formula of the theory for the others. -/
theorem C104_formula {chis : Mat C C ℝ} (hs : ∀ i j, chis i j = chis j i) {l : Vec C ℝ}
    (hl : ∀ i, 0 < l i) {phis : NDArr ℝ} {r : Rows (Vec C XReal)}
    (h : Gen.FreeEnergyBase.chemical_potentials (transcribed chis l) phis = .ok r) {idx : List ℕ}
    (hi : ValidIndex idx r.lead) (i : Fin C) :
    let x := composition C phis (sourceIndex phis idx)
    (r.row idx i = ninf ↔ x i = 0) ∧ (x i ≠ 0 → r.row idx i = fin (chemPot chis l x i)) := by
  rw [C104_chemical_potentials, transcribed_eq] at h
  exact C21_chemical_potentials hs hl h hi i

/-- One composition, with an absent component: the transcribed code accepts it, and every method with an
index counting from the end returns a value. -/
example :
    let fe := transcribed (C := 2) ![![0, 3], ![3, 0]] ![1, 2]
    let phis := NDArr.ofVec (![0, 1] : Vec 2 ℝ)
    Gen.FreeEnergyBase.check_volume_fractions fe phis (-1) = .ok phis ∧
    (∃ r, Gen.FreeEnergyBase.jacobian_at fe phis (-1) = .ok r ∧ r.lead = []) ∧
    (∃ r, Gen.FreeEnergyBase.hessian_at fe phis (-1) = .ok r ∧ r.lead = []) ∧
    (∃ r, Gen.FreeEnergyBase.chemical_potentials fe phis = .ok r ∧ r.lead = [1] ∧ r.row [0] 0 = ninf) ∧
    (∃ r, Gen.FreeEnergyBase.pressure fe phis (-1) = .ok r ∧ r.lead = [1]) ∧
    Gen.FreeEnergyBase.pressure fe phis 2 = .error .indexError := by
  intro fe phis
  have hc := check_ofVec fe (phi := ![0, 1]) (by intro i; fin_cases i <;> simp)
  have hcheck : Gen.FreeEnergyBase.check_volume_fractions fe phis (-1) = .ok phis := by
    rcases check_cases fe phis with ⟨h1, h2⟩ | ⟨e, h1, h2⟩
    · exact h1
    · rw [hc] at h2
      cases h2
  have hn : normIndex 2 (-1) = .ok 1 := by
    unfold normIndex
    rw [dif_neg (by omega), dif_pos (by omega)]
    rfl
  have hn2 : normIndex 2 2 = .error .indexError := by
    unfold normIndex
    rw [dif_neg (by omega), dif_neg (by omega)]
  obtain ⟨r, h1, h2⟩ := chemicalPotentials_ok fe phis (lead := []) rfl (by
    intro idx hi i
    cases hi
    show 0 ≤ (NDArr.ofVec (![0, 1] : Vec 2 ℝ)).get [i]
    rw [ofVec_get]
    fin_cases i <;> simp)
  have hr : r.lead = [1] := h2
  have hv : ValidIndex [0] r.lead := by
    rw [hr]
    exact List.Forall₂.cons Nat.one_pos List.Forall₂.nil
  refine ⟨hcheck, ?_, ?_, ?_, ?_, ?_⟩
  · rw [(C104_jacobian fe phis).2]
    unfold FreeEnergy.jacobianAt
    rw [hc, hn]
    exact ⟨_, rfl, rfl⟩
  · rw [(C104_hessian fe phis).2]
    unfold FreeEnergy.hessianAt
    rw [hc, hn]
    exact ⟨_, rfl, rfl⟩
  · have h3 : Gen.FreeEnergyBase.chemical_potentials fe phis = .ok r := by
      rw [C104_chemical_potentials, h1]
    refine ⟨r, h3, hr, (C104_formula ?_ ?_ h3 hv 0).1.mpr ?_⟩
    · intro i j
      fin_cases i <;> fin_cases j <;> rfl
    · intro i
      fin_cases i <;> simp
    · exact ofVec_get ![(0 : ℝ), 1] 0
  · rw [(C104_exchange_pressure fe phis (-1)).2]
    unfold FreeEnergy.pressure
    rw [h1, hn]
    exact ⟨_, rfl, hr⟩
  · rw [(C104_exchange_pressure fe phis 2).2]
    unfold FreeEnergy.pressure
    rw [h1, hn2]
    rfl

/-- Two axes in front: the broadcasting of `chemical_potentials` keeps them. -/
example : broadcastShapes [3, 2] [3, 2] = some [3, 2] ∧ broadcastShapes [1] [] = some [1] ∧
    broadcastShapes [4, 1] [1, 5] = some [4, 5] ∧ broadcastShapes [2] [3] = none := by decide

end Flory
