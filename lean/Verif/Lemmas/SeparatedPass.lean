import Verif.Lemmas.SeparatedMap
import Verif.Lemmas.Merging
import Verif.Props.Scheme

/-! # Passes near separated phases in terms of fractions and volumes -/

set_option linter.unusedSectionVars false

namespace Flory

open Spec Finset

variable {G : Type} {C S M : ℕ} [NeZero M] [NeZero S]
variable {ia : FHCompiled S ℝ} {en : EntropyI C S M ℝ} {es : CanonicalC C ℝ} {rng : Rng G ℝ}
  {p : Params ℝ} {tries : ℤ} {count : ℕ} {s : State C S M ℝ G} {t : Trace C S M ℝ G}
  {l : Vec C ℝ} {feat : Fin C → Fin S}

/-- The documented fractions of compartments with volumes `J` and fields `om`. -/
noncomputable def fracsOf (feat : Fin C → Fin S) (l x : Vec C ℝ) (J : Vec M ℝ) (om : Mat S M ℝ) :
    Mat C M ℝ := schemePhi feat l x (fun m => J m / M) om

/-- What a pass computes when all compartments are alive. -/
structure SchemePass (ia : FHCompiled S ℝ) (feat : Fin C → Fin S) (l : Vec C ℝ) (phi : Mat C M ℝ)
    (s : State C S M ℝ G) (t : Trace C S M ℝ G) : Prop where
  phis : t.phisComp = phi
  incomp : ∀ m, t.incomp m = ∑ i, phi i m - 1
  omegaDiff : ∀ r m, t.omegaDiff r m = schemeField ia.chis ia.coef feat s.omegas phi r m - s.omegas r m
  jsDiff : ∀ m, t.JsDiff m = schemeEta ia.chis ia.coef feat l s.omegas phi m -
    (∑ n, schemeEta ia.chis ia.coef feat l s.omegas phi n * s.Js n) / M

theorem IterFacts.schemePass (hf : IterFacts (ia.toI M) en (es.toI M) rng p tries count s t)
    (hen : IsIdealGas en l feat) (hal : ∀ m, p.killThreshold < s.Js m) (hvol : ∑ m, s.Js m = M)
    (hcons : ∀ c ∈ s.cons, c.Trivial) :
    SchemePass ia feat l (fracsOf feat l es.phiMeans s.Js s.omegas) s t := by
  obtain ⟨hmk, hJ, hom, -, hn⟩ := hf.masks_one hal
  have hphi : ∀ i m, t.phisComp i m = fracsOf feat l es.phiMeans s.Js s.omegas i m := fun i m => by
    rw [hf.phis_eq hen es.scales, hmk, mul_one, ← hf.partitionFn_eq hen, hom]
    have : relVolume t = fun m => s.Js m / M := by
      funext m
      unfold relVolume
      rw [hJ, hvol]
    rw [this]
    rfl
  have hpot : ∀ m r, t.potential r m = ∑ j, ia.chis r (feat j) * fracsOf feat l es.phiMeans s.Js s.omegas j m :=
    fun m r => by
      rw [hf.potential_feat hen]
      exact sum_congr rfl fun j _ => by rw [hphi]
  have hinc : ∀ m, t.incomp m = ∑ i, fracsOf feat l es.phiMeans s.Js s.omegas i m - 1 := fun m => by
    rw [hf.incomp_eq es.scales, hmk, mul_one]
    exact congrArg (· - 1) (sum_congr rfl fun j _ => hphi j m)
  set phi := fracsOf feat l es.phiMeans s.Js s.omegas with hphidef
  have hxi : ∀ m, t.xi m = schemeXi ia.chis ia.coef feat s.omegas phi m := fun m => by
    rw [hf.xi_trivial es.scales hcons (hmk m), hom]
    simp only [hphi, hpot]
    unfold schemeXi
    rw [add_comm]
  have heta : ∀ m, t.localEnergy m = -schemeEta ia.chis ia.coef feat l s.omegas phi m := fun m => by
    have h2 : consVd t.consPrep m = 0 := (hf.consPot_zero hcons 0 m).2
    have h3 : ∑ r, consPot t.consPrep r m * t.phisFeat r m = 0 :=
      sum_eq_zero fun r _ => by rw [(hf.consPot_zero hcons r m).1, zero_mul]
    rw [hf.localEnergy_eq hen es.scales (hmk m), h2, h3, hxi m]
    unfold schemeEta schemeField liftChis
    simp only [hphi, add_mul, sum_add_distrib, ← mul_sum, sum_mul]
    have e : ∑ i, ∑ j, ia.chis (feat i) (feat j) * phi j m * phi i m =
        ∑ i, ∑ j, ia.chis (feat i) (feat j) * phi i m * phi j m :=
      sum_congr rfl fun i _ => sum_congr rfl fun j _ => by ring
    rw [e]
    ring
  refine ⟨funext fun i => funext fun m => hphi i m, hinc, fun r m => ?_, fun m => ?_⟩
  · rw [hf.omegaDiff, hmk, hpot, hxi, (hf.consPot_zero hcons r m).1, hom]
    unfold schemeField
    ring
  · rw [hf.JsDiff, hf.localEnergyMean, heta, hmk, hn, hJ]
    simp only [heta, neg_mul, sum_neg_distrib]
    ring

section Reduce

variable {x : Vec C ℝ} {J : Vec M ℝ} {om : Mat S M ℝ} {σ : Fin S → Fin C} {chis : Mat S S ℝ} {c : ℝ}

theorem fracsOf_pos (hx : ∀ i, 0 < x i) (hJ : ∀ m, 0 < J m) (i : Fin C) (m : Fin M) :
    0 < fracsOf feat l x J om i m := by
  have hM : (0 : ℝ) < M := by exact_mod_cast Nat.pos_of_ne_zero (NeZero.ne M)
  unfold fracsOf schemePhi partitionFn
  refine mul_pos (div_pos (hx i) (sum_pos (fun n _ => ?_) univ_nonempty)) (Real.exp_pos _)
  exact mul_pos (div_pos (hJ n) hM) (Real.exp_pos _)

theorem fracsOf_mean (hJ : ∀ m, 0 < J m) (i : Fin C) :
    ∑ m, J m * fracsOf feat l x J om i m = M * x i := by
  have hM : (0 : ℝ) < M := by exact_mod_cast Nat.pos_of_ne_zero (NeZero.ne M)
  have hQ : 0 < partitionFn feat l (fun m => J m / M) om i :=
    sum_pos (fun n _ => mul_pos (div_pos (hJ n) hM) (Real.exp_pos _)) univ_nonempty
  unfold fracsOf schemePhi
  have e : ∑ m, J m * (x i / partitionFn feat l (fun m => J m / M) om i * Real.exp (-om (feat i) m * l i)) =
      M * x i / partitionFn feat l (fun m => J m / M) om i * partitionFn feat l (fun m => J m / M) om i := by
    nth_rw 3 [partitionFn]
    rw [mul_sum]
    exact sum_congr rfl fun n _ => by field_simp
  rw [e, div_mul_cancel₀ _ hQ.ne']

/-- The constant that connects fields and fractions. -/
noncomputable def fieldConst (feat : Fin C → Fin S) (l x : Vec C ℝ) (J : Vec M ℝ) (om : Mat S M ℝ)
    (i : Fin C) : ℝ := Real.log (x i / partitionFn feat l (fun m => J m / M) om i) / l i

theorem field_of_fracs (hl : ∀ i, 0 < l i) (hx : ∀ i, 0 < x i) (hJ : ∀ m, 0 < J m) (i : Fin C) (m : Fin M) :
    om (feat i) m = fieldConst feat l x J om i - Real.log (fracsOf feat l x J om i m) / l i := by
  have hM : (0 : ℝ) < M := by exact_mod_cast Nat.pos_of_ne_zero (NeZero.ne M)
  have hQ : 0 < partitionFn feat l (fun m => J m / M) om i :=
    sum_pos (fun n _ => mul_pos (div_pos (hJ n) hM) (Real.exp_pos _)) univ_nonempty
  have hli := (hl i).ne'
  unfold fracsOf schemePhi fieldConst
  rw [Real.log_mul (div_pos (hx i) hQ).ne' (Real.exp_pos _).ne', Real.log_exp]
  field_simp
  ring

variable (hl : ∀ i, 0 < l i) (hx : ∀ i, 0 < x i) (hJ : ∀ m, 0 < J m) (hσ : ∀ r, feat (σ r) = r)
include hl hx hJ hσ

/-- The average constant. -/
noncomputable def avgConst (feat : Fin C → Fin S) (l x : Vec C ℝ) (J : Vec M ℝ) (om : Mat S M ℝ)
    (σ : Fin S → Fin C) : ℝ := (∑ r, fieldConst feat l x J om (σ r)) / S

theorem schemeXi_eq (m : Fin M) : schemeXi chis c feat om (fracsOf feat l x J om) m =
    Sep.mult (fun i j => chis (feat i) (feat j)) l σ c (fracsOf feat l x J om) m +
      avgConst feat l x J om σ := by
  unfold schemeXi Sep.mult avgConst
  have e : ∑ r, (om r m - ∑ j, chis r (feat j) * fracsOf feat l x J om j m) =
      ∑ r, fieldConst feat l x J om (σ r) -
        ∑ r, Sep.pot (fun i j => chis (feat i) (feat j)) l (fracsOf feat l x J om) (σ r) m := by
    rw [← sum_sub_distrib]
    refine sum_congr rfl fun r _ => ?_
    have := field_of_fracs (feat := feat) (om := om) hl hx hJ (σ r) m
    rw [hσ] at this
    unfold Sep.pot
    simp only [hσ]
    rw [this]
    ring
  rw [e]
  ring

theorem schemeField_eq (i : Fin C) (m : Fin M) :
    schemeField chis c feat om (fracsOf feat l x J om) (feat i) m - om (feat i) m =
    Sep.drive (fun i j => chis (feat i) (feat j)) l σ c (fracsOf feat l x J om) i m +
      (avgConst feat l x J om σ - fieldConst feat l x J om i) := by
  unfold schemeField
  rw [schemeXi_eq hl hx hJ hσ]
  have h := field_of_fracs (feat := feat) (om := om) hl hx hJ i m
  unfold Sep.drive Sep.pot
  linear_combination -h

theorem schemeEta_eq (m : Fin M) :
    schemeEta chis c feat l om (fracsOf feat l x J om) m =
    Sep.eta (fun i j => chis (feat i) (feat j)) l σ c (fracsOf feat l x J om) m +
      avgConst feat l x J om σ := by
  unfold schemeEta schemeField
  rw [schemeXi_eq hl hx hJ hσ]
  set phi := fracsOf feat l x J om
  unfold Sep.eta
  set k := Sep.mult (fun i j => chis (feat i) (feat j)) l σ c phi m
  simp only [add_mul, sum_add_distrib, ← mul_sum, sum_mul]
  have e : ∑ i, ∑ j, chis (feat i) (feat j) * phi j m * phi i m =
      ∑ i, ∑ j, chis (feat i) (feat j) * phi i m * phi j m :=
    sum_congr rfl fun i _ => sum_congr rfl fun j _ => by ring
  rw [e]
  ring

/-- Fractions after fields and volumes moved. -/
theorem fracsOf_next {a b : ℝ} {J' : Vec M ℝ} {om' : Mat S M ℝ}
    (hJ' : ∀ m, J' m = Sep.nextJ (fun i j => chis (feat i) (feat j)) l σ b c (fracsOf feat l x J om) J m)
    (hom' : ∀ r m, om' r m = om r m + a * (schemeField chis c feat om (fracsOf feat l x J om) r m - om r m)) :
    fracsOf feat l x J' om' =
      Sep.nextPhi (fun i j => chis (feat i) (feat j)) l σ a b c (fracsOf feat l x J om) J := by
  have hM : (0 : ℝ) < M := by exact_mod_cast Nat.pos_of_ne_zero (NeZero.ne M)
  funext i m
  set X : Mat C C ℝ := fun i j => chis (feat i) (feat j) with hX
  have hQ : 0 < partitionFn feat l (fun m => J m / M) om i :=
    sum_pos (fun n _ => mul_pos (div_pos (hJ n) hM) (Real.exp_pos _)) univ_nonempty
  set K := avgConst feat l x J om σ - fieldConst feat l x J om i with hK
  have he : ∀ n, Real.exp (-om' (feat i) n * l i) = fracsOf feat l x J om i n *
      Sep.weight X l σ a c (fracsOf feat l x J om) i n *
      (partitionFn feat l (fun m => J m / M) om i / x i * Real.exp (-(l i * a * K))) := fun n => by
    rw [hom', schemeField_eq hl hx hJ hσ, ← hK]
    unfold Sep.weight
    have e1 : -(om (feat i) n + a * (Sep.drive X l σ c (fracsOf feat l x J om) i n + K)) * l i =
        -om (feat i) n * l i + (-(l i * a * Sep.drive X l σ c (fracsOf feat l x J om) i n)) +
          (-(l i * a * K)) := by ring
    rw [e1, Real.exp_add, Real.exp_add]
    have e2 : fracsOf feat l x J om i n = x i / partitionFn feat l (fun m => J m / M) om i *
      Real.exp (-om (feat i) n * l i) := rfl
    have hxi := (hx i).ne'
    have hQ' := hQ.ne'
    rw [show ∀ y z : ℝ, fracsOf feat l x J om i n * y * z = x i / partitionFn feat l (fun m => J m / M) om i *
      Real.exp (-om (feat i) n * l i) * y * z from fun y z => by rw [← e2]]
    field_simp
  set Z := partitionFn feat l (fun m => J m / M) om i / x i * Real.exp (-(l i * a * K)) with hZ
  have hZ0 : Z ≠ 0 := (mul_pos (div_pos hQ (hx i)) (Real.exp_pos _)).ne'
  have hQ' : partitionFn feat l (fun m => J' m / M) om' i = (∑ n, Sep.nextJ X l σ b c
      (fracsOf feat l x J om) J n * (fracsOf feat l x J om i n *
        Sep.weight X l σ a c (fracsOf feat l x J om) i n)) * Z / M := by
    unfold partitionFn
    rw [sum_mul, sum_div]
    refine sum_congr rfl fun n _ => ?_
    rw [he]
    show J' n / M * _ = _
    rw [hJ']
    ring
  have h1 : fracsOf feat l x J' om' i m = x i / partitionFn feat l (fun m => J' m / M) om' i *
    Real.exp (-om' (feat i) m * l i) := rfl
  rw [h1, hQ', he]
  unfold Sep.nextPhi
  rw [fracsOf_mean hJ]
  rcases eq_or_ne (∑ n, Sep.nextJ X l σ b c (fracsOf feat l x J om) J n * (fracsOf feat l x J om i n *
        Sep.weight X l σ a c (fracsOf feat l x J om) i n)) 0 with h0 | h0
  · rw [h0]; simp
  · field_simp

end Reduce

end Flory
