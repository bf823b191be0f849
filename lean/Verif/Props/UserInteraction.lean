import Verif.Lemmas.UserInteraction
import Verif.Props.UserConstraint

/-!
# Interactions of any class (C113)

The translation of `run` for constraints of any class (C112) takes an interaction, an entropy and an
ensemble of any class as well.
-/

set_option linter.unusedSectionVars false

namespace Flory

open Spec

variable {G X : Type} {C S M : ℕ} [NeZero M]

/-- **C113**, results: when `run` returns for an interaction of any class, any ensemble that scales
the fractions and constraints of any class, then the chemical potentials of the free energy to which
the interaction belongs, with the terms of the prepared constraints, are balanced between the returned
phases up to the reported errors. -/
theorem C113_result {rng : Rng G ℝ} (hok : rng.Ok) {sizes : Vec C ℝ} {feat : Fin C → Fin S}
    {a a' : UserAttrs X C S M} (hen : IsIdealGas a.entropy sizes feat) {w : Vec C ℝ → Vec C ℝ}
    (hes : Scales a.ensemble w) (hw : ∀ i Q, (∀ j, 0 < Q j) → 0 < w Q i)
    {f : Vec S ℝ → ℝ} {df : Vec S ℝ → Vec S ℝ} (hia : IsDensity a.interaction f df)
    (hthr : 0 ≤ a.params.killThreshold)
    {ms : Option ℚ} {tol : Option ℝ} {iv : Option ℤ} {g g' : G} {ph : Phases M C ℝ}
    (h : Gen.User.Finder.run a ms tol iv rng g = .ok (ph, a', g')) :
    ∃ d cs J masks, ∃ place : Fin M → Fin M, a'.diagnostics = some d ∧
      List.Forall₂ Grown a.constraints cs ∧
      (∀ m, masks m = if a.params.killThreshold < J m then 1 else 0) ∧
      (∃ prep : List (UserCons X S M ℝ),
        prep = cs.map (fun c => { c with data := c.methods.prepare a'.phisFeat J masks c.data }) ∧
        ∀ i, sizes i ≠ 0 → ∀ p q,
          |(densityPotential (freeDensity f sizes feat) (ph.fractions p) i
              + totalPotential prep (feat i) (place p) + totalVolumeDerivative prep (place p)
              - ∑ j, totalPotential prep (feat j) (place p) * ph.fractions p j)
            - (densityPotential (freeDensity f sizes feat) (ph.fractions q) i
              + totalPotential prep (feat i) (place q) + totalVolumeDerivative prep (place q)
              - ∑ j, totalPotential prep (feat j) (place q) * ph.fractions q j)| ≤
          S * d.maxAbsOmegaDiff + |a.interaction.incompCoef a'.phisFeat| * d.maxAbsIncomp
            + 2 * d.maxAbsJsDiff) ∧
      ∀ p, (∀ i, ph.fractions p i = a'.phisComp i (place p)) ∧
        a.params.killThreshold < ph.volumes p ∧ (∀ i, 0 < ph.fractions p i) ∧
        |∑ i, ph.fractions p i - 1| ≤ d.maxAbsIncomp ∧
        (∀ r, a'.phisFeat r (place p) = features feat (ph.fractions p) r) := by
  obtain ⟨d, tries, count, st, cs, t, hS⟩ := user_run_source hok hthr h
  have hO := hS.facts
  have hF := hO.facts
  choose place hp1 hp2 hp3 using hS.rows
  have hpf : a'.phisFeat = t.pass.phisFeat := by rw [hS.finish]
  have hpc : a'.phisComp = t.pass.phisComp := by rw [hS.finish]
  have hdiag : a'.diagnostics = some d := by rw [hS.finish]
  have hrow : ∀ p, ph.fractions p = fun j => t.pass.phisComp j (place p) := fun p => funext (hp3 p)
  have hQ := fun j => hF.general_Qs_pos hen hthr j
  have hpos : ∀ p i, 0 < ph.fractions p i := fun p i => by
    rw [hp3, hF.phis_eq hen hes, hp1 p, mul_one]
    exact mul_pos (hw i _ hQ) (Real.exp_pos _)
  have hfe : ∀ p, (fun r => t.pass.phisFeat r (place p)) = features feat (ph.fractions p) := by
    intro p
    funext r
    rw [hF.phisFeat_eq hen, hrow]
    rfl
  have hnn : ∀ p r, 0 ≤ features feat (ph.fractions p) r := fun p r =>
    Finset.sum_nonneg fun i _ => by split <;> [exact (hpos p i).le; exact le_rfl]
  refine ⟨d, cs, t.pass.JsOld, t.pass.masks, place, hdiag, hS.rel, fun m => ?_,
    ⟨t.prep, ?_, fun i hl p q => ?_⟩, fun p => ⟨fun i => ?_, hS.volumes p, hpos p, ?_, fun r => ?_⟩⟩
  · rcases hF.mask_cases m with e | e
    · rw [e, if_pos (hF.JsOld_gt e)]
    · rw [e, if_neg]
      rw [hF.JsOld, e, mul_zero]
      exact not_lt.mpr hthr
  · rw [hpf]; exact hO.prep
  · have hid : ∀ p, densityPotential (freeDensity f sizes feat) (ph.fractions p) i
        + totalPotential t.prep (feat i) (place p) + totalVolumeDerivative t.prep (place p)
        - ∑ j, totalPotential t.prep (feat j) (place p) * ph.fractions p j =
        (Real.log (w t.pass.Qs i) + 1) / sizes i + t.pass.omegaDiff (feat i) (place p)
          + t.pass.localEnergy (place p) := by
      intro p
      have h1 := hF.general_identity hen hes (hp1 p) hl (hw i _ hQ)
      have hP : ∀ r, consPot t.pass.consPrep r (place p) = totalPotential t.prep r (place p) := by
        intro r
        rw [hO.consPrep, consPot_mimic]
        rfl
      have hV : consVd t.pass.consPrep (place p) = totalVolumeDerivative t.prep (place p) := by
        rw [hO.consPrep, consVd_mimic]
        rfl
      have hsum := hF.sum_mul_phisFeat hen (fun r => totalPotential t.prep r (place p)) (place p)
      have hW : ∀ r, t.pass.potential r (place p) = df (features feat (ph.fractions p)) r := by
        intro r
        rw [hF.potential, hia.potential, hfe]
      have hE : a.interaction.volumeDerivative t.pass.potential t.pass.phisFeat (place p) =
          f (features feat (ph.fractions p)) := by
        rw [hF.potential, hia.volumeDerivative, hfe]
      rw [densityPotential_eq (hpos p) (hia.gradient _ (hnn p)) i]
      unfold consShift at h1
      simp only [hP, hV, hW, hE] at h1
      rw [hsum] at h1
      have hX : ∑ r, df (features feat (ph.fractions p)) r * t.pass.phisFeat r (place p) =
          ∑ r, df (features feat (ph.fractions p)) r * features feat (ph.fractions p) r :=
        Finset.sum_congr rfl fun r _ => by rw [← congrFun (hfe p) r]
      rw [hX] at h1
      simp only [hp3]
      linarith
    rw [hid p, hid q, hS.omega, hS.js, hS.incomp, hpf]
    have h1 := hF.general_omega_diff (feat i) (feat i) (place p) (place q)
    have h2 := hF.general_local_diff (hp1 p) (hp1 q)
    rw [abs_le] at h1 h2 ⊢
    constructor <;> linarith [h1.1, h1.2, h2.1, h2.2]
  · rw [hpc]; exact hp3 p i
  · have := hF.incomp_le (place p)
    rw [hF.incomp_eq hes, hp1 p, mul_one] at this
    rw [hS.incomp, Finset.sum_congr rfl fun i _ => hp3 p i]
    exact this
  · rw [hpf]; exact congrFun (hfe p) r

/-- **C113**, balance: with constraints that have neither potential nor volume derivative, and in
particular without constraints, the chemical potentials of any free energy density are balanced
between the returned phases up to the reported errors. -/
theorem C113_balance {rng : Rng G ℝ} (hok : rng.Ok) {sizes : Vec C ℝ} {feat : Fin C → Fin S}
    {a a' : UserAttrs X C S M} (hen : IsIdealGas a.entropy sizes feat) {w : Vec C ℝ → Vec C ℝ}
    (hes : Scales a.ensemble w) (hw : ∀ i Q, (∀ j, 0 < Q j) → 0 < w Q i)
    {f : Vec S ℝ → ℝ} {df : Vec S ℝ → Vec S ℝ} (hia : IsDensity a.interaction f df)
    (hthr : 0 ≤ a.params.killThreshold)
    (hcons : ∀ c ∈ a.constraints, ∀ x, (∀ r m, c.methods.potential x r m = 0) ∧
      ∀ m, c.methods.volumeDerivative x m = 0)
    {ms : Option ℚ} {tol : Option ℝ} {iv : Option ℤ} {g g' : G} {ph : Phases M C ℝ}
    (h : Gen.User.Finder.run a ms tol iv rng g = .ok (ph, a', g')) :
    ∃ d, a'.diagnostics = some d ∧ ∀ i, sizes i ≠ 0 → ∀ p q,
      |densityPotential (freeDensity f sizes feat) (ph.fractions p) i
        - densityPotential (freeDensity f sizes feat) (ph.fractions q) i| ≤
      S * d.maxAbsOmegaDiff + |a.interaction.incompCoef a'.phisFeat| * d.maxAbsIncomp
        + 2 * d.maxAbsJsDiff := by
  obtain ⟨d, cs, J, masks, place, hd, hrel, -, ⟨prep, hprep, hb⟩, -⟩ :=
    C113_result hok hen hes hw hia hthr h
  have hz := grown_silent hcons hrel hprep
  refine ⟨d, hd, fun i hl p q => ?_⟩
  have := hb i hl p q
  simpa only [hz.1, hz.2, add_zero, zero_mul, Finset.sum_const_zero, sub_zero] using this

/-- **C113**, the library: the transcribed compiled Flory-Huggins interaction with a symmetric matrix is
the one of the density `½ Σ χ φ φ`. -/
theorem C113_flory_huggins {chis : Mat S S ℝ} (hs : ∀ i j, chis i j = chis j i) (shift : ℝ) :
    IsDensity (Gen.FHCompiled.obj (Gen.FHCompiled.init chis shift) M)
      (fun x => 1 / 2 * ∑ i, ∑ j, chis i j * x i * x j) (fun x r => ∑ j, chis r j * x j) := by
  have hp : ∀ phi r m, (Gen.FHCompiled.obj (Gen.FHCompiled.init chis shift) M).potential phi r m =
      ∑ j, chis r j * phi j m := fun phi r m => rfl
  refine ⟨hp, fun phi m => ?_, fun x _ => ?_⟩
  · have hvd : ((Gen.FHCompiled.init chis shift).toI M).volumeDerivative
        ((Gen.FHCompiled.obj (Gen.FHCompiled.init chis shift) M).potential phi) phi m =
        (∑ r, (∑ j, chis r j * phi j m) * phi r m) * (1 / 2) := by
      show (forRange S (fun _ => 0) fun r (ans : Vec M ℝ) m =>
        ans m + (∑ j, chis r j * phi j m) * phi r m) m * (1 / 2) = _
      rw [forRange_add_vec (fun _ => 0) (fun r m => (∑ j, chis r j * phi j m) * phi r m), zero_add]
    refine hvd.trans ?_
    rw [mul_comm]
    congr 1
    refine Finset.sum_congr rfl fun r _ => ?_
    rw [Finset.sum_mul]
    exact Finset.sum_congr rfl fun j _ => by ring
  · have h := fhEnergy_gradient hs x
    have e1 : (fun x : Vec S ℝ => 1 / 2 * ∑ i, ∑ j, chis i j * x i * x j) = fhEnergy chis := by
      funext y
      unfold fhEnergy
      exact congrArg _ (Finset.sum_congr rfl fun i _ => Finset.sum_congr rfl fun j _ => by ring)
    have e2 : (fun r => ∑ j, chis r j * x j) = fhJacobian chis x := by
      funext r
      unfold fhJacobian
      exact Finset.sum_congr rfl fun j _ => by rw [hs r j]; ring
    rw [e1, e2]
    exact h

namespace Demo

/-- An interaction as a user may write it: three-body terms `3 φ₀² φ₁`. -/
noncomputable def threeBody : InteractionI 2 2 ℝ where
  potential phi := fun r m => if r = 0 then 6 * phi 0 m * phi 1 m else 3 * phi 0 m ^ 2
  volumeDerivative _ phi := fun m => 3 * phi 0 m ^ 2 * phi 1 m
  incompCoef _ := 4

theorem threeBody_density : IsDensity threeBody (fun x => 3 * x 0 ^ 2 * x 1)
    (fun x r => if r = 0 then 6 * x 0 * x 1 else 3 * x 0 ^ 2) := by
  refine ⟨fun _ _ _ => rfl, fun _ _ => rfl, fun x _ => ?_⟩
  unfold IsGradientAt
  have h0 : HasFDerivAt (fun y : Vec 2 ℝ => y 0) _ x := hasFDerivAt_coord x 0
  have h1 : HasFDerivAt (fun y : Vec 2 ℝ => y 1) _ x := hasFDerivAt_coord x 1
  refine (((h0.pow 2).const_mul 3).mul h1).congr_fderiv ?_
  ext v
  simp [Fin.sum_univ_two]
  ring

end Demo

/-- Three-body interactions: `run` returns, and the chemical potentials of the free energy density
`φ₀ ln φ₀ + φ₁ ln φ₁ + 3 φ₀² φ₁` are balanced up to the reported errors. -/
example : ∃ ph a' g' d,
    Gen.User.Finder.run { Demo.userAttrs (X := Empty) [] with interaction := Demo.threeBody } none none
      (some 5000) (rngZero ℝ) () = .ok (ph, a', g') ∧ a'.diagnostics = some d ∧
    ∀ i p q, |densityPotential (freeDensity (fun x => 3 * x 0 ^ 2 * x 1) (fun _ => 1) id)
        (ph.fractions p) i
      - densityPotential (freeDensity (fun x => 3 * x 0 ^ 2 * x 1) (fun _ => 1) id)
        (ph.fractions q) i| ≤ 2 * d.maxAbsOmegaDiff + 4 * d.maxAbsIncomp + 2 * d.maxAbsJsDiff := by
  obtain ⟨ph, a', g', h⟩ := C112_returns (.ideal (Gen.IdealC.init fun _ => 1))
    (.canonical (Gen.CanonicalC.init ![5 / 8, 3 / 8])) Demo.coexAttrs_gas (rngZero_ok ℝ)
    (a := { Demo.userAttrs (X := Empty) [] with interaction := Demo.threeBody }) rfl rfl
    (by simp [Demo.userAttrs, Demo.coexAttrs, Demo.params])
    (by simp [Demo.userAttrs, Demo.coexAttrs, Demo.params])
    (by simp [Demo.userAttrs, Demo.coexAttrs, Demo.params])
    (by simp [Demo.userAttrs, Demo.coexAttrs, Demo.params]) rfl (ms := none) (tol := none)
    (iv := some 5000) (by norm_num [Demo.userAttrs, Demo.coexAttrs]) (by norm_num)
    (by simp [Demo.userAttrs]) (Or.inr (by norm_num [Demo.userAttrs, Demo.coexAttrs])) ()
  obtain ⟨d, hd, hb⟩ := C113_balance (rngZero_ok ℝ) (sizes := fun _ => 1) (feat := id)
    (a := { Demo.userAttrs (X := Empty) [] with interaction := Demo.threeBody }) Demo.coexAttrs_gas
    (w := fun Q i => (![5 / 8, 3 / 8] : Vec 2 ℝ) i / Q i)
    (show Scales (Gen.CanonicalC.obj (Gen.CanonicalC.init ![5 / 8, 3 / 8]) 2) _ from
      ((C102_interaction_and_ensembles (K := ℝ) (C := 2) (S := 0) (M := 2)).2.2.1
        (Gen.CanonicalC.init ![5 / 8, 3 / 8])).symm ▸
        CanonicalC.scales (M := 2) (Gen.CanonicalC.init (![5 / 8, 3 / 8] : Vec 2 ℝ)))
    (fun i Q hQ => div_pos (by fin_cases i <;> norm_num) (hQ i)) Demo.threeBody_density
    (by simp [Demo.userAttrs, Demo.coexAttrs, Demo.params]) (by simp [Demo.userAttrs]) h
  refine ⟨ph, a', g', d, h, hd, fun i p q => ?_⟩
  have := hb i one_ne_zero p q
  have e : |Demo.threeBody.incompCoef a'.phisFeat| = 4 := abs_of_pos (by norm_num [Demo.threeBody])
  dsimp only at this
  rw [e] at this
  exact_mod_cast this

end Flory
