import Verif.Lemmas.ScanFinder
import Verif.Lemmas.WarmStart
import Verif.Props.Separated
import Verif.Props.Finder
import Mathlib.Topology.Order.Lattice

/-! # Scans follow coexisting phases (C98) -/

set_option linter.unusedSectionVars false

namespace Flory

open Spec Finset

variable {C S M P : ℕ}

/-- **C98**: scans follow every continuous family of stable coexisting phases, one per compartment, when the
shift of the interaction is large and the acceptances are small. -/
theorem C98_scan [NeZero M] [NeZero S] {T : Type} [PseudoMetricSpace T] [CompactSpace T] {feat : Fin C → Fin S}
    {l : Vec C ℝ} {chis : T → Mat S S ℝ} {x : T → Vec C ℝ} {J : T → Vec M ℝ} {phi : T → Mat C M ℝ}
    (h : Branch feat l chis x J phi) (hl : ∀ i, 0 < l i) (hfeat : Function.Surjective feat) {R : ℝ}
    (hR : ∀ t i m, R < 4 * (J t m * l i)) :
    ∃ s₀ : ℝ, ∀ shift : T → ℝ, Continuous shift → (∀ t, s₀ ≤ shift t) → ∀ ρ, 0 < ρ → ρ ≤ R → ∃ a₀ > 0,
      ∀ p : Params ℝ, ParamSetup M p ρ → (∀ t m, p.killThreshold < J t m) → p.acceptanceOmega ≤ a₀ →
        ∀ G : Type, FollowsBranch G feat l chis x J phi shift p ∧ FinderFollows G feat l chis x J phi shift p := by
  obtain ⟨s₀, h⟩ := exists_follows_branch h hl hfeat hR
  refine ⟨s₀, fun shift hs hs0 ρ hρ hρR => ?_⟩
  obtain ⟨a₀, ha₀, h⟩ := h shift hs hs0 ρ hρ hρR
  exact ⟨a₀, ha₀, fun p hp hk hpa G => ⟨h p hp hk hpa G, finder_follows (h p hp hk hpa G)⟩⟩

theorem npMin_eq_inf' {n : ℕ} [NeZero n] (v : Vec n ℝ) : npMin v = univ.inf' ⟨0, mem_univ _⟩ v := by
  obtain ⟨h1, i, h2⟩ := npMin_spec v
  refine le_antisymm ((le_inf'_iff _ _).mpr fun i _ => h1 i) ?_
  rw [h2]
  exact inf'_le _ (mem_univ i)

theorem continuous_npMin {n : ℕ} [NeZero n] {T : Type} [TopologicalSpace T] {f : T → Vec n ℝ}
    (hf : ∀ i, Continuous fun t => f t i) : Continuous fun t => npMin (f t) := by
  simp only [npMin_eq_inf']
  exact Continuous.finset_inf'_apply ⟨0, mem_univ _⟩ fun i _ => hf i

/-- **C98**: with the shift that `FloryHugginsInteraction` chooses, minus the smallest entry of the matrix
plus `additional_chis_shift`, the same holds for all large values of `additional_chis_shift`. -/
theorem C98_objects [NeZero M] [NeZero S] {T : Type} [PseudoMetricSpace T] [CompactSpace T] {feat : Fin C → Fin S}
    {l : Vec C ℝ} {o : T → FHInteraction S ℝ} {x : T → Vec C ℝ} {J : T → Vec M ℝ} {phi : T → Mat C M ℝ}
    (h : Branch feat l (fun t => (o t).chis) x J phi) (hl : ∀ i, 0 < l i) (hfeat : Function.Surjective feat) {R : ℝ}
    (hR : ∀ t i m, R < 4 * (J t m * l i)) :
    ∃ s₀ : ℝ, ∀ add, s₀ ≤ add → ∀ ρ, 0 < ρ → ρ ≤ R → ∃ a₀ > 0,
      ∃ shift : T → ℝ, (∀ t, (o t).compile add = FHCompiled.new (o t).chis (shift t)) ∧
      ∀ p : Params ℝ, ParamSetup M p ρ → (∀ t m, p.killThreshold < J t m) → p.acceptanceOmega ≤ a₀ →
        ∀ G : Type, FollowsBranch G feat l (fun t => (o t).chis) x J phi shift p ∧
          FinderFollows G feat l (fun t => (o t).chis) x J phi shift p := by
  obtain ⟨s₀, H⟩ := C98_scan h hl hfeat hR
  have hc : Continuous fun t => matMin (o t).chis := continuous_npMin fun r => continuous_npMin (h.contChis r)
  obtain ⟨K, hK⟩ := (isCompact_univ (X := T)).exists_bound_of_continuousOn hc.continuousOn
  refine ⟨s₀ + K, fun add hadd ρ hρ hρR => ?_⟩
  obtain ⟨a₀, ha₀, H⟩ := H (fun t => -matMin (o t).chis + add) (hc.neg.add continuous_const) (fun t => by
    have := hK t (Set.mem_univ t)
    rw [Real.norm_eq_abs] at this
    linarith [(abs_le.mp this).2]) ρ hρ hρR
  exact ⟨a₀, ha₀, _, fun t => rfl, H⟩

/-- **C98**, one step of a scan with any number of compartments per phase: coexisting phases persist when
interaction and mean composition change a little, and a run that starts in the old phases converges to the
new ones. -/
theorem C98_warm_start [NeZero M] [NeZero S] {chis : Mat S S ℝ} {feat : Fin C → Fin S} {l x : Vec C ℝ}
    {J : Vec M ℝ} {phase : Fin M → Fin P} {psi : Mat C P ℝ}
    (hsym : ∀ r q, chis r q = chis q r) (hl : ∀ i, 0 < l i) (hfeat : Function.Surjective feat) (hJ : ∀ m, 0 < J m)
    (hph : Function.Surjective phase) (hc : Coexistence chis feat l x J fun i m => psi i (phase m))
    (hst : ∀ k, StablePhase chis feat l fun i => psi i k) (hi : IndependentPhases psi)
    {R : ℝ} (hR : ∀ i m, R < 4 * (J m * l i)) :
    ∃ s₀ : ℝ, ∀ shift, s₀ ≤ shift → ∀ ρ, 0 < ρ → ρ ≤ R → ∃ a₀ > 0,
      ∀ p : Params ℝ, ParamSetup M p ρ → (∀ m, p.killThreshold < J m) → p.acceptanceOmega ≤ a₀ →
        ∀ G : Type, WarmStarts G feat l chis x J phase psi shift p :=
  exists_warm_starts hsym hl hfeat hJ hph hc hst hi hR

section Binary

/-- Two phases of a binary mixture determine their volumes. -/
theorem lever {J J' : Vec 2 ℝ} {φ : Mat 2 2 ℝ} (hne : φ 0 0 ≠ φ 0 1) (h : ∑ m, J m = ∑ m, J' m)
    (h' : ∑ m, J m * φ 0 m = ∑ m, J' m * φ 0 m) : J = J' := by
  simp only [Fin.sum_univ_two] at h h'
  have h2 : (J 0 - J' 0) * (φ 0 0 - φ 0 1) = 0 := by linear_combination h' - φ 0 1 * h
  have h3 : J 0 = J' 0 := by
    rcases mul_eq_zero.mp h2 with e | e
    · linarith
    · exact absurd (by linarith) hne
  funext m
  fin_cases m
  · exact h3
  · show J 1 = J' 1
    linarith

/-- **C98**: the two phases of a binary mixture form such a family for every continuous change of interaction
and mean composition in the region of phase separation. -/
theorem C98_binary [NeZero S] {T : Type} [TopologicalSpace T] {feat : Fin 2 → Fin S} {l : Vec 2 ℝ}
    {chis : T → Mat S S ℝ} {x : T → Vec 2 ℝ} {J : T → Vec 2 ℝ} {phi : T → Mat 2 2 ℝ} (hl : ∀ i, 0 < l i)
    (hchis : ∀ r q, Continuous fun t => chis t r q) (hx : ∀ i, Continuous fun t => x t i)
    (hsym : ∀ t r q, chis t r q = chis t q r) (hJ : ∀ t m, 0 < J t m)
    (hc : ∀ t, Coexistence (chis t) feat l (x t) (J t) (phi t)) (hlt : ∀ t, phi t 0 0 < phi t 0 1) :
    Branch feat l chis x J phi := by
  have hst : ∀ t m, StablePhase (chis t) feat l fun i => phi t i m := fun t m =>
    C91_binary_stable (hsym t) hl (hc t) (hlt t).ne m
  have hind : ∀ t, IndependentPhases (phi t) := fun t =>
    independent_two (hc t).incompressible (i := 0) (hlt t).ne
  have hx1 : ∀ t, ∑ i, x t i = 1 := fun t => by
    have h1 : ∑ i, ∑ m, J t m * phi t i m = ∑ i, (2 : ℕ) * x t i := sum_congr rfl fun i _ => (hc t).mean i
    rw [sum_comm] at h1
    simp only [← mul_sum, (hc t).incompressible, mul_one, (hc t).volumes] at h1
    have h2 : ((2 : ℕ) : ℝ) ≠ 0 := by norm_num
    exact (mul_left_cancel₀ h2 (by rw [mul_one]; exact h1)).symm
  have key : ∀ t₀ ε, 0 < ε → ∀ᶠ t in nhds t₀, (∀ m, |J t m - J t₀ m| ≤ ε) ∧ ∀ i m, |phi t i m - phi t₀ i m| ≤ ε := by
    intro t₀ ε hε
    have hgap := hlt t₀
    obtain ⟨δ, hδ, H⟩ := Persist.exists_coexistence (phase := id) (ψ₀ := phi t₀) (hsym t₀) hl (hJ t₀)
      Function.surjective_id (hc t₀) (hst t₀) (hind t₀) (ε := min ε ((phi t₀ 0 1 - phi t₀ 0 0) / 3))
      (lt_min hε (by linarith))
    have near : ∀ f : T → ℝ, Continuous f → ∀ᶠ t in nhds t₀, |f t - f t₀| ≤ δ := fun f hf => by
      have := (hf.tendsto t₀).eventually (Metric.closedBall_mem_nhds (f t₀) hδ)
      exact this.mono fun t h => by rwa [Real.dist_eq] at h
    have h1 : ∀ᶠ t in nhds t₀, ∀ r q, |chis t r q - chis t₀ r q| ≤ δ :=
      Filter.eventually_all.mpr fun r => Filter.eventually_all.mpr fun q => near _ (hchis r q)
    have h2 : ∀ᶠ t in nhds t₀, ∀ i, |x t i - x t₀ i| ≤ δ := Filter.eventually_all.mpr fun i => near _ (hx i)
    filter_upwards [h1, h2] with t h1 h2
    obtain ⟨J', ψ, c1, -, -, c4, c5⟩ := H (chis t) (x t) h1 h2 (hx1 t)
    have g0 := abs_le.mp ((c5 0 0).trans (min_le_right _ _))
    have g1 := abs_le.mp ((c5 0 1).trans (min_le_right _ _))
    have hψ : ψ 0 0 < ψ 0 1 := by linarith [g0.2, g1.1]
    obtain ⟨e0, e1⟩ := C75_binodal (chis := liftChis (chis t) feat) (hsym t _ _) hl (hc t).balanced c1.balanced
      (p := 0) (q := 1) (p' := 0) (q' := 1) (hlt t) hψ
    have hφ : phi t = ψ := by
      funext i m
      fin_cases m
      · exact congrFun e0 i
      · exact congrFun e1 i
    have hJ' : J t = J' := lever (φ := phi t) (hlt t).ne ((hc t).volumes.trans c1.volumes.symm) (by
      have a1 := (hc t).mean 0
      have a2 := c1.mean 0
      rw [← hφ] at a2
      exact a1.trans a2.symm)
    rw [hφ, hJ']
    exact ⟨fun m => (c4 m).trans (min_le_left _ _), fun i m => (c5 i m).trans (min_le_left _ _)⟩
  have cont : ∀ f : T → ℝ, (∀ t₀ ε, 0 < ε → ∀ᶠ t in nhds t₀, |f t - f t₀| ≤ ε) → Continuous f := fun f hf => by
    refine continuous_iff_continuousAt.mpr fun t₀ => Metric.tendsto_nhds.mpr fun ε hε => ?_
    filter_upwards [hf t₀ (ε / 2) (by linarith)] with t ht
    rw [Real.dist_eq]
    linarith
  exact ⟨hchis, hx, fun m => cont _ fun t₀ ε hε => (key t₀ ε hε).mono fun t h => h.1 m,
    fun i m => cont _ fun t₀ ε hε => (key t₀ ε hε).mono fun t h => h.2 i m, hsym, hJ, hc, hst, hind⟩

end Binary

section Calls

variable {G : Type}

/-- The calls of a scan: the interaction `o` and the mean composition `x` of the next point. -/
noncomputable def scanCalls (o : FHInteraction S ℝ) (x : Vec C ℝ) : List FinderOp :=
  [.setInteraction o.obj true [], .setEnsemble (CanonicalEnsemble.mk x).obj true []]

/-- **C98**: `set_interaction` and `set_ensemble` between the runs install the instances that the
theorems on scans of finders ask for, with the `additional_chis_shift` of the finder, and restore the
revive budget. -/
theorem C98_calls [NeZero S] {env : FinderEnv G} {f : Finder G} (hC : f.numComp = C) (hS : f.numFeat = S)
    {add : ℝ} (hadd : f.kwargs.get? "additional_chis_shift" = some add) (o : ℕ → FHInteraction S ℝ) (x : ℕ → Vec C ℝ)
    (maxSteps : ℕ → ℚ) (tol : ℝ) (interval : ℕ → ℤ) (k : ℕ) :
    (∀ op ∈ scanCalls (o k) (x k), IsSetter op) ∧
    (scanFinder env (fun k => scanCalls (o k) (x k)) maxSteps tol interval f k).interaction = ⟨S, (o k).compile add⟩ ∧
    (scanFinder env (fun k => scanCalls (o k) (x k)) maxSteps tol interval f k).ensemble = ⟨C, .canonical ⟨x k⟩⟩ ∧
    (scanFinder env (fun k => scanCalls (o k) (x k)) maxSteps tol interval f k).reviveLeft =
      f.maxRevive * f.numPart := by
  refine ⟨by simp [scanCalls, IsSetter], ?_⟩
  have key : ∀ F : Finder G, SameSetup f F → ∀ k, ((F.steps env (scanCalls (o k) (x k))).1.interaction =
      ⟨S, (o k).compile add⟩ ∧ (F.steps env (scanCalls (o k) (x k))).1.ensemble = ⟨C, .canonical ⟨x k⟩⟩ ∧
      (F.steps env (scanCalls (o k) (x k))).1.reviveLeft = f.maxRevive * f.numPart) ∧
      SameSetup f (F.steps env (scanCalls (o k) (x k))).1 := fun F hF k => by
    have h1 : (o k).obj.compiled (F.kwargs.merge []) = .ok ⟨S, (o k).compile add⟩ := by
      rw [InstObj.compiled_eq]
      have : F.kwargs.merge [] = f.kwargs := hF.kwargs
      simp [FHInteraction.obj, this, hadd, NeZero.ne S]
    have h2 : (CanonicalEnsemble.mk (x k)).obj.compiled (F.kwargs.merge []) = .ok ⟨C, .canonical ⟨x k⟩⟩ := by
      rw [InstObj.compiled_eq]
      rfl
    have h3 : Finder.checkSizes F.numComp F.numFeat none (some S) = .ok () := by
      rw [hF.numFeat, hS]; simp [Finder.checkSizes]
    have h4 : Finder.checkSizes F.numComp F.numFeat (some C) none = .ok () := by
      rw [hF.numComp, hC]; simp [Finder.checkSizes]
    have h5 : F.setInteraction (o k).obj true [] =
        (Finder.resetRevive { F with interaction := ⟨S, (o k).compile add⟩ }, .ok ()) := by
      unfold Finder.setInteraction
      rw [h1]
      dsimp only
      rw [h3]
      rfl
    have h6 : (Finder.resetRevive { F with interaction := ⟨S, (o k).compile add⟩ }).setEnsemble
        (CanonicalEnsemble.mk (x k)).obj true [] = (Finder.resetRevive { F with
          interaction := ⟨S, (o k).compile add⟩
          ensemble := ⟨C, .canonical ⟨x k⟩⟩ }, .ok ()) := by
      unfold Finder.setEnsemble
      have h2' : (CanonicalEnsemble.mk (x k)).obj.compiled ((Finder.resetRevive { F with
        interaction := ⟨S, (o k).compile add⟩ }).kwargs.merge []) = .ok ⟨C, .canonical ⟨x k⟩⟩ := h2
      rw [h2']
      dsimp only
      have h4' : Finder.checkSizes (Finder.resetRevive { F with interaction := ⟨S, (o k).compile add⟩ }).numComp
        (Finder.resetRevive { F with interaction := ⟨S, (o k).compile add⟩ }).numFeat (some C) none = .ok () := h4
      rw [h4']
      rfl
    have h7 : (F.steps env (scanCalls (o k) (x k))).1 = Finder.resetRevive { F with
          interaction := ⟨S, (o k).compile add⟩
          ensemble := ⟨C, .canonical ⟨x k⟩⟩ } := by
      show ((F.setInteraction (o k).obj true []).1.setEnsemble (CanonicalEnsemble.mk (x k)).obj true []).1 = _
      rw [h5, h6]
    rw [h7]
    refine ⟨⟨rfl, rfl, ?_⟩, hF.numComp, hF.numFeat, hF.numPart, hF.maxSteps, hF.criterion, hF.tolerance, hF.interval,
      hF.randomStd, hF.params, hF.maxRevive, hF.kwargs⟩
    show F.maxRevive * F.numPart = _
    rw [hF.maxRevive, hF.numPart]
  have hsame : ∀ k, SameSetup f (scanFinder env (fun k => scanCalls (o k) (x k)) maxSteps tol interval f k) := fun k => by
    induction k with
    | zero => exact (key f (.refl f) 0).2
    | succ k ih => exact (key _ (ih.trans (sameSetup_run env _ _ _ _)) (k + 1)).2
  cases k with
  | zero => exact (key f (.refl f) 0).1
  | succ k => exact (key _ ((hsame k).trans (sameSetup_run env _ _ _ _)) (k + 1)).1

end Calls

/-! ## Examples -/

namespace Demo

/-- Interaction of the symmetric binary mixture in which the compositions `φ` and `1 - φ` coexist. -/
noncomputable def scanChi (φ : ℝ) : ℝ := (Real.log (1 - φ) - Real.log φ) / (1 - 2 * φ)

/-- The interaction as an object. -/
noncomputable def scanFH (φ : ℝ) : FHInteraction 2 ℝ := ⟨![![0, scanChi φ], ![scanChi φ, 0]], false⟩

/-- The two compositions. -/
def scanPhi (φ : ℝ) : Mat 2 2 ℝ := ![![φ, 1 - φ], ![1 - φ, φ]]

theorem scan_coexistence {φ : ℝ} (h0 : 0 < φ) (h1 : φ < 1 / 2) :
    Coexistence (scanFH φ).chis id (fun _ => 1) ![1 / 2, 1 / 2] (fun _ : Fin 2 => 1) (scanPhi φ) where
  volumes := by simp
  pos := by intro i m; fin_cases i <;> fin_cases m <;> simp [scanPhi] <;> linarith
  incompressible := by intro m; fin_cases m <;> simp [scanPhi, Fin.sum_univ_two]
  mean := by intro i; fin_cases i <;> simp [scanPhi, Fin.sum_univ_two]
  balance := by
    have e : scanChi φ * (1 - 2 * φ) = Real.log (1 - φ) - Real.log φ :=
      div_mul_cancel₀ _ (by linarith)
    refine ⟨fun _ => Real.log φ + scanChi φ * (1 - φ) - scanChi φ * φ * (1 - φ), fun i m => ?_⟩
    unfold chemPot
    simp only [id, Fin.sum_univ_two, scanFH, scanPhi]
    fin_cases i <;> fin_cases m <;>
      simp only [Fin.zero_eta, Fin.mk_one, Fin.isValue, Matrix.cons_val_zero, Matrix.cons_val_one,
        Matrix.cons_val', Matrix.cons_val_fin_one] <;>
      first | ring1 | linear_combination -e

/-- The points of the scan: `φ` from 1/10 to 2/5. -/
abbrev ScanPoint : Type := Set.Icc (1 / 10 : ℝ) (2 / 5)

theorem scan_branch : Branch id (fun _ => 1) (fun t : ScanPoint => (scanFH t).chis) (fun _ => ![1 / 2, 1 / 2])
    (fun _ _ => 1) (fun t => scanPhi t) := by
  have hcont : Continuous fun t : ScanPoint => scanChi t := by
    unfold scanChi
    refine Continuous.div ?_ (by fun_prop) fun t => by have := t.2.2; linarith
    exact (Continuous.log (by fun_prop) fun t => by have := t.2.2; linarith).sub
      (Continuous.log continuous_subtype_val fun t => by have := t.2.1; linarith)
  refine C98_binary (fun _ => one_pos) (fun r q => ?_) (fun i => continuous_const) (fun t r q => ?_)
    (fun _ _ => one_pos) (fun t => scan_coexistence (by have := t.2.1; linarith) (by have := t.2.2; linarith))
    (fun t => by simp [scanPhi]; have := t.2.2; linarith)
  · fin_cases r <;> fin_cases q <;> simp [scanFH] <;> first | exact continuous_const | exact hcont
  · fin_cases r <;> fin_cases q <;> rfl

/-- A finder with two compartments at the first point of the scan. -/
noncomputable def scanStart (p : Params ℝ) (add : ℝ) (t : ScanPoint) : Finder Unit where
  numComp := 2
  numFeat := 2
  numPart := 2
  maxSteps := 1000000
  criterion := "standard"
  tolerance := 1 / 100000
  interval := 10000
  randomStd := 5
  params := p
  maxRevive := 16
  kwargs := [("additional_chis_shift", add)]
  interaction := ⟨2, (scanFH t).compile 1⟩
  entropy := ⟨2, 2, .ideal ⟨fun _ => 1⟩⟩
  ensemble := ⟨2, .canonical ⟨![1 / 2, 1 / 2]⟩⟩
  constraints := [⟨2, true, .no NoC.new⟩]
  omegas := fun r m => equilibriumField (scanFH t).chis id (fun _ => 1) (fun j => scanPhi t j m) r + 7
  Js := fun _ => 1
  phisFeat := fun _ _ => 0
  phisComp := fun _ _ => 0
  reviveLeft := 32
  g := ()
  diagnostics := none

/-- Parameters with small acceptances. -/
noncomputable def scanParams (a : ℝ) : Params ℝ := { params with acceptanceOmega := a, acceptanceJs := 1 / 10 * a }

end Demo

-- C98: a scan of the interaction of a symmetric binary mixture, as in `examples/binary_phase_diagram.py`, from
-- strong to weak interactions and back, follows the binodal for any number of points.
example : ∃ (a add h τ B K : ℝ), 0 < a ∧ 0 < h ∧ 0 < τ ∧ ∀ tol, 0 < tol → tol ≤ τ → ∃ N : ℕ, LogSteps K tol N ∧
    ∀ ts : ℕ → Demo.ScanPoint, (∀ k, dist (ts k) (ts (k + 1)) ≤ h) → ∀ k, ∃ ph d,
      ((scanFinder Demo.fenv (fun k => scanCalls (Demo.scanFH (ts k)) ![1 / 2, 1 / 2]) (fun _ => N) tol (fun _ => 10)
        (Demo.scanStart (Demo.scanParams a) add (ts 0)) k).run Demo.fenv (some (N : ℚ)) (some tol) (some 10)).2 =
          .ok ⟨2, 2, ph, d⟩ ∧
      d.reviveCountLeft = 32 ∧ d.maxAbsIncomp < tol ∧ |ph.fractions 0 0 - ts k| ≤ B * tol ∧
      |ph.fractions 1 0 - (1 - ts k)| ≤ B * tol ∧ |ph.volumes 0 - 1| ≤ B * tol := by
  obtain ⟨add, H⟩ := C98_objects (o := fun t : Demo.ScanPoint => Demo.scanFH t) Demo.scan_branch (fun _ => one_pos)
    Function.surjective_id (R := 1) (fun _ _ _ => by norm_num)
  obtain ⟨a, ha, shift, hshift, H⟩ := H add le_rfl (1 / 10) (by norm_num) (by norm_num)
  obtain ⟨-, h, hh, η, hη, τ, hτ, B, hB, H⟩ := H (Demo.scanParams a)
    ⟨by simp [Demo.scanParams, Demo.params], by simp [Demo.scanParams, Demo.params],
      by simp [Demo.scanParams, Demo.params], by simp [Demo.scanParams, Demo.params], ha, rfl⟩
    (fun _ _ => by simp [Demo.scanParams, Demo.params]) le_rfl Unit
  obtain ⟨K, hK, H⟩ := H fun _ => 7
  refine ⟨a, add, h, τ, B, K, ha, hh, hτ, fun tol htol hle => ?_⟩
  obtain ⟨N, hlog, H⟩ := H tol htol hle
  refine ⟨N, hlog, fun ts hts k => ?_⟩
  have hcalls := C98_calls (C := 2) (S := 2) (env := Demo.fenv) (f := Demo.scanStart (Demo.scanParams a) add (ts 0)) rfl rfl rfl
    (fun k => Demo.scanFH (ts k)) (fun _ => ![1 / 2, 1 / 2]) (fun _ => N) tol fun _ => 10
  obtain ⟨ph, d, h1, h2, h3, -, -, -, h4, h5⟩ := H ts hts Demo.fenv (rngZero_ok ℝ)
    (Demo.scanStart (Demo.scanParams a) add (ts 0))
    ⟨rfl, rfl, rfl, rfl, rfl, ⟨_, rfl, (⟨fun _ => 1⟩ : IdealC 2).isIdealGas (M := 2)⟩,
      fun c hc => by obtain rfl := List.mem_singleton.mp hc; exact ⟨rfl, rfl, fun _ _ => rfl, fun _ => rfl⟩,
      show ∑ _m : Fin 2, (1 : ℝ) = 2 by simp,
      fun m m' _ => by simp [Demo.scanStart, hη.le],
      fun r r' m m' e1 e2 => by
        obtain rfl : r = r' := Fin.ext e1
        obtain rfl : m = m' := Fin.ext e2
        simp [Demo.scanStart, hη.le]⟩
    (fun k => scanCalls (Demo.scanFH (ts k)) ![1 / 2, 1 / 2]) (fun k => (hcalls k).1) (fun _ => N) (fun _ => 10)
    (fun _ => le_rfl) (fun _ => by norm_num) (fun k => by rw [(hcalls k).2.1, hshift]) (fun k => (hcalls k).2.2.1) k
  refine ⟨ph, d, h1, by rw [h2, (hcalls k).2.2.2]; rfl, h3, ?_, ?_, ?_⟩
  · simpa [Demo.scanPhi] using h4 0 0
  · simpa [Demo.scanPhi] using h4 1 0
  · simpa using h5 0

-- C98, warm start: four compartments share two phases.
example : ∃ s₀ : ℝ, ∀ shift, s₀ ≤ shift → ∃ a₀ > 0, ∀ a, 0 < a → a ≤ a₀ →
    WarmStarts Unit id (fun _ => 1) (Demo.scanFH (1 / 4)).chis ![1 / 2, 1 / 2] (fun _ : Fin 4 => 1)
      (![0, 1, 1, 0] : Fin 4 → Fin 2) (Demo.scanPhi (1 / 4)) shift (Demo.scanParams a) := by
  have hc := Demo.scan_coexistence (φ := 1 / 4) (by norm_num) (by norm_num)
  obtain ⟨s₀, H⟩ := C98_warm_start (M := 4) (P := 2) (chis := (Demo.scanFH (1 / 4)).chis) (feat := id) (l := fun _ => 1)
    (x := ![1 / 2, 1 / 2]) (J := fun _ => 1) (phase := ![0, 1, 1, 0]) (psi := Demo.scanPhi (1 / 4)) (R := 1)
    (fun r q => by fin_cases r <;> fin_cases q <;> rfl) (fun _ => one_pos) Function.surjective_id (fun _ => one_pos)
    (fun k => by fin_cases k; exacts [⟨0, rfl⟩, ⟨1, rfl⟩])
    ⟨by simp, fun i m => hc.pos i _, fun m => hc.incompressible _, fun i => by
      fin_cases i <;> (simp [Demo.scanPhi, Fin.sum_univ_succ]; norm_num), by
        obtain ⟨mu, hmu⟩ := hc.balance
        exact ⟨mu, fun i m => hmu i _⟩⟩
    (C91_binary_stable (fun r q => by fin_cases r <;> fin_cases q <;> rfl) (fun _ => one_pos) hc (p := 0) (q := 1)
      (by simp [Demo.scanPhi]; norm_num))
    (independent_two hc.incompressible (i := 0) (by simp [Demo.scanPhi]; norm_num)) (fun _ _ => by norm_num)
  refine ⟨s₀, fun shift hs => ?_⟩
  obtain ⟨a₀, ha₀, H⟩ := H shift hs (1 / 10) (by norm_num) (by norm_num)
  exact ⟨a₀, ha₀, fun a ha hle => H (Demo.scanParams a)
    ⟨by simp [Demo.scanParams, Demo.params], by simp [Demo.scanParams, Demo.params],
      by simp [Demo.scanParams, Demo.params], by simp [Demo.scanParams, Demo.params], ha, rfl⟩
    (fun _ => by simp [Demo.scanParams, Demo.params]) hle Unit⟩

end Flory
