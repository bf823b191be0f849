import Verif.Lemmas.Persist
import Verif.Lemmas.ScanRun

/-! # Runs after a small change of the mixture -/

set_option linter.unusedSectionVars false

namespace Flory

open Spec Finset

variable {G : Type} {C S M P : ℕ} [NeZero M] [NeZero S]

theorem warm_starts {chis : Mat S S ℝ} {feat : Fin C → Fin S} {l x : Vec C ℝ} {σ : Fin S → Fin C}
    {J₀ : Vec M ℝ} {phase : Fin M → Fin P} {ψ₀ : Mat C P ℝ} {shift ρ : ℝ} {p : Params ℝ}
    (hsym : ∀ r q, chis r q = chis q r) (hl : ∀ i, 0 < l i) (hσ : ∀ r, feat (σ r) = r) (hJ₀ : ∀ m, 0 < J₀ m)
    (hph : Function.Surjective phase)
    (hkill : ∀ m, p.killThreshold < J₀ m) (hc : Coexistence chis feat l x J₀ fun i m => ψ₀ i (phase m))
    (hst : ∀ k, StablePhase chis feat l fun i => ψ₀ i k) (hi : IndependentPhases ψ₀) (hρ : 0 < ρ)
    (hp : ParamSetup M p ρ)
    (hsh : Sep.Shrinks (fun i j => chis (feat i) (feat j)) l J₀ (fun i m => ψ₀ i (phase m)) σ
      (FHCompiled.new chis shift).coef ρ p.acceptanceOmega) :
    WarmStarts G feat l chis x J₀ phase ψ₀ shift p := by
  intro ε hε
  have hM : (0 : ℝ) < M := by exact_mod_cast Nat.pos_of_ne_zero (NeZero.ne M)
  obtain ⟨r, hr, n, hn, B, hB, q, hq0, hq1, hrun⟩ := local_runs (G := G) hsym hl hσ hJ₀ hkill hc
    (fun m => hst (phase m)) hi hρ hp hsh
  have hx : ∀ i, 0 < x i := fun i => by
    have e1 := hc.mean i
    have e2 : 0 < ∑ m, J₀ m * ψ₀ i (phase m) := sum_pos (fun m _ => mul_pos (hJ₀ m) (hc.pos i m)) univ_nonempty
    rw [e1] at e2
    exact (mul_pos_iff_of_pos_left hM).mp e2
  obtain ⟨x₀, hx₀, hxx⟩ := Sep.exists_lower x hx
  have hX : ∀ r, ∑ j, |chis r (feat j)| ≤ ∑ r, ∑ j, |chis r (feat j)| := fun r =>
    single_le_sum (f := fun r => ∑ j, |chis r (feat j)|) (fun r _ => sum_nonneg fun j _ => abs_nonneg _) (mem_univ r)
  have hX0 : 0 ≤ ∑ r, ∑ j, |chis r (feat j)| := sum_nonneg fun r _ => sum_nonneg fun j _ => abs_nonneg _
  set X := ∑ r, ∑ j, |chis r (feat j)| with hXdef
  clear_value X
  have hW : ∀ r m, |equilibriumField chis feat l (fun j => ψ₀ j (phase m)) r| ≤
      ∑ a : Fin S × Fin M, |equilibriumField chis feat l (fun j => ψ₀ j (phase a.2)) a.1| := fun r m =>
    single_le_sum (f := fun a : Fin S × Fin M => |equilibriumField chis feat l (fun j => ψ₀ j (phase a.2)) a.1|)
      (fun a _ => abs_nonneg _) (mem_univ (r, m))
  set W := ∑ a : Fin S × Fin M, |equilibriumField chis feat l (fun j => ψ₀ j (phase a.2)) a.1| with hWdef
  have hW0 : 0 ≤ W := sum_nonneg fun a _ => abs_nonneg _
  clear_value W
  set U := min n (ε / (2 * B)) with hUdef
  have hU : 0 < U := by positivity
  have hUn : U ≤ n := min_le_left _ _
  have hUB : B * U ≤ ε / 2 := by
    have : U ≤ ε / (2 * B) := min_le_right _ _
    rw [le_div_iff₀ (by positivity)] at this
    linarith
  obtain ⟨ω, hω, u, hu, hmove⟩ := near_shift (G := G) (S := S) (M := M) (l := l) hx₀ hX0 hU
  obtain ⟨ηf, hηf, hstart⟩ := near_fields (G := G) (S := S) (M := M) hl hx₀ hu
  obtain ⟨δ, hδ, hco⟩ := Persist.exists_coexistence hsym hl hJ₀ hph hc hst hi
    (ε := min (min r ω) (ε / 2)) (by positivity)
  have hS : (0 : ℝ) < 2 * (S * S) := by
    have : (0 : ℝ) < S := by exact_mod_cast Nat.pos_of_ne_zero (NeZero.ne S)
    positivity
  set η := min (min ηf (min r ω)) (min δ (r / (2 * (S * S)))) with hη
  have hη0 : 0 < η := by positivity
  have k1 : η ≤ ηf := (min_le_left _ _).trans (min_le_left _ _)
  have k2 : η ≤ r := (min_le_left _ _).trans ((min_le_right _ _).trans (min_le_left _ _))
  have k3 : η ≤ ω := (min_le_left _ _).trans ((min_le_right _ _).trans (min_le_right _ _))
  have k4 : η ≤ δ := (min_le_right _ _).trans (min_le_left _ _)
  have k5 : η * (2 * (S * S)) ≤ r := by
    have : η ≤ r / (2 * (S * S)) := (min_le_right _ _).trans (min_le_right _ _)
    rwa [le_div_iff₀ hS] at this
  clear_value η
  refine ⟨η, hη0, (M + 1) * (B * (U + 1)), by positivity, q, hq0, hq1, fun offset => ?_⟩
  obtain ⟨K, hK, hrun⟩ := hrun (2 * (X * (1 + u) + (W + ∑ r, |offset r|) + ηf) + 1) (by positivity)
  refine ⟨K, hK, fun tol htol => ?_⟩
  obtain ⟨N, hN0, hrun⟩ := hrun tol htol
  refine ⟨N, hN0, fun chis' es h1 h2 h3 h4 => ?_⟩
  obtain ⟨J, ψ, c1, c2, c3, c4, c5⟩ := hco chis' es.phiMeans (fun r q => (h2 r q).trans k4)
    (fun i => (h3 i).trans k4) h4
  have m1 : min (min r ω) (ε / 2) ≤ r := (min_le_left _ _).trans (min_le_left _ _)
  have m2 : min (min r ω) (ε / 2) ≤ ω := (min_le_left _ _).trans (min_le_right _ _)
  have m3 : min (min r ω) (ε / 2) ≤ ε / 2 := min_le_right _ _
  refine ⟨J, ψ, c1, c3, c2, fun m => (c4 m).trans (m3.trans (by linarith)),
    fun i k => (c5 i k).trans (m3.trans (by linarith)), fun shift' hs' e he st s1 s2 s3 s4
    maxSteps interval b hmax hint => ?_⟩
  have hcoef : |(FHCompiled.new chis' shift').coef - (FHCompiled.new chis shift).coef| ≤ r := by
    rw [coef_new, coef_new]
    have e1 : (∑ r, ∑ s, chis' r s) + shift' * S * S - ((∑ r, ∑ s, chis r s) + shift * S * S) =
        (∑ r, ∑ s, (chis' r s - chis r s)) + (shift' - shift) * (S * S) := by
      simp only [sum_sub_distrib]
      ring
    rw [e1]
    have e2 : |∑ r, ∑ s, (chis' r s - chis r s)| ≤ S * (S * η) := by
      refine (abs_sum_le_sum_abs _ _).trans ?_
      calc ∑ r, |∑ s, (chis' r s - chis r s)| ≤ ∑ _r : Fin S, (S * η : ℝ) := sum_le_sum fun r _ => by
            refine (abs_sum_le_sum_abs _ _).trans ?_
            calc ∑ s, |chis' r s - chis r s| ≤ ∑ _s : Fin S, η := sum_le_sum fun s _ => h2 r s
              _ = S * η := by simp
        _ = S * (S * η) := by simp
    have e3 : |(shift' - shift) * (S * S)| ≤ η * (S * S) := by
      rw [abs_mul, abs_of_nonneg (by positivity : (0 : ℝ) ≤ (S : ℝ) * S)]
      exact mul_le_mul_of_nonneg_right hs' (by positivity)
    refine (abs_add_le _ _).trans ?_
    calc _ ≤ S * (S * η) + η * (S * S) := add_le_add e2 e3
      _ = η * (2 * (S * S)) := by ring
      _ ≤ r := k5
  have hn1 := hstart chis feat x J₀ _ hJ₀ hc hxx X W offset hX hW st s1 (fun m => (s2 m).trans k1)
    (fun r m => (s3 r m).trans k1) s4
  have hle1 : ∀ i m, ψ₀ i (phase m) ≤ 1 := fun i m => by
    rw [← hc.incompressible m]
    exact single_le_sum (f := fun i => ψ₀ i (phase m)) (fun j _ => (hc.pos j m).le) (mem_univ i)
  have hn2 := hmove chis chis' feat x es.phiMeans J₀ J _ (fun i m => ψ i (phase m)) hxx hX hc.pos hle1
    (fun r q => (h2 r q).trans k3) (fun i => (h3 i).trans k3) (fun m => (c4 m).trans m2)
    (fun i m => (c5 i (phase m)).trans m2) _ st hn1
  obtain ⟨f, ph, d, hf, hres⟩ := hrun (FHCompiled.new chis' shift') es J ψ h1 (fun k q => (h2 k q).trans k2) hcoef
    (fun m => (c4 m).trans m1) (fun i k => (c5 i k).trans m1) c1 (fun m => c3 (phase m)) e he st U hU.le hUn
    hn2.volumes hn2.near hn2.fracs hn2.lag hn2.cons maxSteps interval b hmax hint
  have hqd : 0 < q ^ d.steps := pow_pos hq0 _
  have hmin : 0 ≤ min tol (q ^ d.steps) := le_min htol.le hqd.le
  have b1 : B * U * q ^ d.steps ≤ B * (U + 1) * q ^ d.steps :=
    mul_le_mul_of_nonneg_right (mul_le_mul_of_nonneg_left (by linarith) hB.le) hqd.le
  have b2 : B * tol ≤ B * (U + 1) * tol :=
    mul_le_mul_of_nonneg_right (le_mul_of_one_le_right hB.le (by linarith)) htol.le
  have bmin : ∀ y : ℝ, y ≤ B * U * q ^ d.steps → y ≤ B * tol → y ≤ B * (U + 1) * min tol (q ^ d.steps) :=
    fun y y1 y2 => by
      rcases min_choice tol (q ^ d.steps) with h | h <;> rw [h]
      · exact y2.trans b2
      · exact y1.trans b1
  have hM1 : (0 : ℝ) ≤ M * (B * (U + 1) * min tol (q ^ d.steps)) := by positivity
  have hB1 : 0 ≤ B * (U + 1) * min tol (q ^ d.steps) := by positivity
  refine ⟨f, ph, d, hf, hres.revive, hres.incomp, hres.omegaDiff, hres.jsDiff, hres.residue, fun m i => ?_, fun m => ?_,
    fun k => ?_, fun m i => ?_⟩
  · have := bmin _ (hres.fractions m i) (hres.fractionsTol m i)
    linarith
  · rw [hres.phVolumes]
    have e1 := abs_sub_le (f.st.Js m) (J m) (J₀ m)
    linarith [hres.drift m, (c4 m).trans m3]
  · have := bmin _ (hres.phases k) (hres.phasesTol k)
    have e1 : ∀ J : Vec M ℝ, volumeOf J phase k = M * Persist.phaseVolume J phase k := fun J => by
      unfold volumeOf Persist.phaseVolume
      field_simp
    rw [hres.phVolumes, e1, e1, ← mul_sub, abs_mul, abs_of_pos hM]
    have e2 := mul_le_mul_of_nonneg_left this hM.le
    linarith
  · refine (hres.fractions m i).trans ((mul_le_of_le_one_right (by positivity) ?_).trans
      (hUB.trans (half_le_self hε.le)))
    exact pow_le_one₀ hq0.le hq1.le

/-- With a large enough shift and small enough acceptances. -/
theorem exists_warm_starts {chis : Mat S S ℝ} {feat : Fin C → Fin S} {l x : Vec C ℝ}
    {J : Vec M ℝ} {phase : Fin M → Fin P} {ψ : Mat C P ℝ}
    (hsym : ∀ r q, chis r q = chis q r) (hl : ∀ i, 0 < l i) (hfeat : Function.Surjective feat) (hJ : ∀ m, 0 < J m)
    (hph : Function.Surjective phase) (hc : Coexistence chis feat l x J fun i m => ψ i (phase m))
    (hst : ∀ k, StablePhase chis feat l fun i => ψ i k) (hi : IndependentPhases ψ)
    {R : ℝ} (hR : ∀ i m, R < 4 * (J m * l i)) :
    ∃ s₀ : ℝ, ∀ shift, s₀ ≤ shift → ∀ ρ, 0 < ρ → ρ ≤ R → ∃ a₀ > 0,
      ∀ p : Params ℝ, ParamSetup M p ρ → (∀ m, p.killThreshold < J m) → p.acceptanceOmega ≤ a₀ →
        ∀ G : Type, WarmStarts G feat l chis x J phase ψ shift p := by
  obtain ⟨σ, hσ⟩ := hfeat.hasRightInverse
  have hS : (1 : ℝ) ≤ (S : ℝ) * S := by
    have : (1 : ℝ) ≤ S := by exact_mod_cast Nat.pos_of_ne_zero (NeZero.ne S)
    nlinarith
  obtain ⟨c₀, hc₀, hsh⟩ := Sep.exists_shrinks_on (T := Unit) (σ := σ) (X := fun _ i j => chis (feat i) (feat j))
    (J := fun _ => J) (φ := fun _ i m => ψ i (phase m)) (l := l) (fun i j => continuous_const)
    (fun m => continuous_const) (fun i m => continuous_const)
    (fun _ => hc.stablePhases hsym hl hJ fun m => hst (phase m)) (fun _ => hc.volumes) fun _ => hR
  refine ⟨c₀ + |∑ r, ∑ q, chis r q|, fun shift hs0 ρ hρ hρR => ?_⟩
  obtain ⟨a₀, ha₀, hsh⟩ := hsh (fun _ => (FHCompiled.new chis shift).coef) continuous_const (fun _ => by
    have e2 := neg_abs_le (∑ r, ∑ q, chis r q)
    have e4 : c₀ + |∑ r, ∑ q, chis r q| ≤ shift * (S * S) :=
      hs0.trans (le_mul_of_one_le_right ((add_pos_of_pos_of_nonneg hc₀ (abs_nonneg _)).le.trans hs0) hS)
    simp only [coef_new]
    rw [mul_assoc]
    linarith) ρ hρ hρR
  exact ⟨a₀, ha₀, fun p hp hkill hpa G => warm_starts hsym hl hσ hJ hph hkill hc hst hi hρ hp
    (hsh p.acceptanceOmega hp.omega hpa ())⟩

end Flory
