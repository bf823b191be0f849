import Verif.Spec.OpenChance
import Verif.Props.TextChance
import Verif.Props.Scan
import Mathlib.Algebra.BigOperators.Fin

/-!
# C115: searches find the phases of all mixtures near a given one

The function called is `Gen.find_coexisting_phases`, written by `tools/transcribe_shortcut.py` from the source text.
-/

set_option linter.unusedSectionVars false

namespace Flory

open Finset Spec MeasureTheory ProbabilityTheory

variable {G : Type} {C M P : ℕ}

theorem matMin_near [NeZero C] {a b : Mat C C ℝ} {η : ℝ} (h : ∀ i j, |a i j - b i j| ≤ η) :
    |matMin a - matMin b| ≤ η := by
  obtain ⟨r, s, e⟩ := matMin_mem a
  obtain ⟨r', s', e'⟩ := matMin_mem b
  have h1 := matMin_le a r' s'
  have h2 := matMin_le b r s
  have h3 := abs_le.mp (h r s)
  have h4 := abs_le.mp (h r' s')
  rw [abs_le]
  constructor <;> linarith

/-- Volumes that are multiples of `1 / M` are shares of `M` compartments. -/
theorem exists_phase_map {V : Vec P ℝ} (hV : ∀ k, 0 < V k) (hsum : ∑ k, V k = 1) (hM : ∀ k, ∃ j : ℕ, M * V k = j)
    [NeZero M] : ∃ phase : Fin M → Fin P, phase.Surjective ∧ ∀ k, volumeOf (fun _ => 1) phase k = M * V k := by
  have hM0 : (0 : ℝ) < M := by exact_mod_cast Nat.pos_of_ne_zero (NeZero.ne M)
  choose j hj using hM
  have hs : ∑ k, j k = M := by
    have : ((∑ k, j k : ℕ) : ℝ) = M := by
      push_cast
      simp only [← hj, ← mul_sum, hsum, mul_one]
    exact_mod_cast this
  have e : Fin M ≃ Σ k, Fin (j k) := (finCongr hs.symm).trans finSigmaFinEquiv.symm
  have hc : ∀ k, volumeOf (fun _ => 1) (fun m => (e m).1) k = M * V k := fun k => by
    unfold volumeOf
    rw [hj, sum_const, nsmul_eq_mul, mul_one, Nat.cast_inj, ← Fintype.card_subtype]
    calc Fintype.card {m // (e m).1 = k} = Fintype.card {x : Σ k, Fin (j k) // x.1 = k} :=
          Fintype.card_congr (e.subtypeEquiv fun m => Iff.rfl)
      _ = Fintype.card (Fin (j k)) := Fintype.card_congr (Equiv.sigmaSubtype k)
      _ = j k := Fintype.card_fin _
  refine ⟨fun m => (e m).1, fun k => ?_, hc⟩
  by_contra h
  push Not at h
  have h1 := hc k
  unfold volumeOf at h1
  rw [filter_false_of_mem fun m _ => h m, sum_empty] at h1
  exact absurd h1 (mul_pos hM0 (hV k)).ne

theorem sum_volumeOf (J : Vec M ℝ) (phase : Fin M → Fin P) : ∑ k, volumeOf J phase k = ∑ m, J m :=
  sum_fiberwise _ _ _

theorem sum_volumeOf_mul (J : Vec M ℝ) (phase : Fin M → Fin P) (f : Fin P → ℝ) :
    ∑ k, volumeOf J phase k * f k = ∑ m, J m * f (phase m) := by
  unfold volumeOf
  rw [← sum_fiberwise (s := univ) (g := phase) (f := fun m => J m * f (phase m))]
  refine sum_congr rfl fun k _ => ?_
  rw [sum_mul]
  refine sum_congr rfl fun m hm => ?_
  rw [(mem_filter.mp hm).2]

theorem volumeOf_pos {J : Vec M ℝ} (hJ : ∀ m, 0 < J m) {phase : Fin M → Fin P} (hph : phase.Surjective) (k : Fin P) :
    0 < volumeOf J phase k := by
  obtain ⟨m, hm⟩ := hph k
  exact sum_pos (fun m _ => hJ m) ⟨m, mem_filter.mpr ⟨mem_univ _, hm⟩⟩

theorem volumeOf_near {J J' : Vec M ℝ} {ε : ℝ} (h : ∀ m, |J m - J' m| ≤ ε) (phase : Fin M → Fin P) (k : Fin P) :
    |volumeOf J phase k - volumeOf J' phase k| ≤ M * ε := by
  unfold volumeOf
  rw [← sum_sub_distrib]
  calc |∑ m with phase m = k, (J m - J' m)| ≤ ∑ m with phase m = k, |J m - J' m| := abs_sum_le_sum_abs _ _
    _ ≤ ∑ m, |J m - J' m| := sum_le_sum_of_subset_of_nonneg (filter_subset _ _) fun _ _ _ => abs_nonneg _
    _ ≤ ∑ _m : Fin M, ε := sum_le_sum fun m _ => h m
    _ = M * ε := by simp

/-- Compartments of coexisting phases in terms of the phases. -/
theorem coexistingPhases_of [NeZero M] {chis : Mat C C ℝ} {l phi : Vec C ℝ} {J : Vec M ℝ} {phase : Fin M → Fin P}
    {psi : Mat C P ℝ} (hph : phase.Surjective) (hc : Coexistence chis id l phi J fun i m => psi i (phase m))
    (hst : ∀ k, StablePhase chis id l fun i => psi i k) (hJ : ∀ m, 0 < J m) :
    CoexistingPhases chis l phi (fun k => volumeOf J phase k / M) psi := by
  have hM : (0 : ℝ) < M := by exact_mod_cast Nat.pos_of_ne_zero (NeZero.ne M)
  refine ⟨fun k => div_pos (volumeOf_pos hJ hph k) hM, ?_, fun i k => ?_, fun k => ?_, fun i => ?_, ?_, hst⟩
  · rw [← sum_div, sum_volumeOf, hc.volumes, div_self hM.ne']
  · obtain ⟨m, rfl⟩ := hph k
    exact hc.pos i m
  · obtain ⟨m, rfl⟩ := hph k
    exact hc.incompressible m
  · simp only [div_mul_eq_mul_div]
    rw [← sum_div, sum_volumeOf_mul, hc.mean i, mul_div_cancel_left₀ _ hM.ne']
  · obtain ⟨mu, h⟩ := hc.balance
    refine ⟨mu, fun i k => ?_⟩
    obtain ⟨m, rfl⟩ := hph k
    exact h i m

theorem coexistence_of [NeZero M] {chis : Mat C C ℝ} {l phi : Vec C ℝ} {V : Vec P ℝ} {phase : Fin M → Fin P}
    {psi : Mat C P ℝ} (h : CoexistingPhases chis l phi V psi) (hph : ∀ k, volumeOf (fun _ => 1) phase k = M * V k) :
    Coexistence chis id l phi (fun _ => 1) fun i m => psi i (phase m) := by
  refine ⟨by simp, fun i m => h.pos i _, fun m => h.incompressible _, fun i => ?_, ?_⟩
  · rw [← sum_volumeOf_mul (fun _ => 1) phase fun k => psi i k, ← h.mean i, mul_sum]
    exact sum_congr rfl fun k _ => by rw [hph, mul_assoc]
  · obtain ⟨mu, h⟩ := h.balance
    exact ⟨mu, fun i m => h i _⟩

/-- Compartments near separated phases are reported as these phases. -/
theorem recovers_of_near [NeZero M] {ph : Phases M C ℝ} {labels : Vec M ℤ} {argsort : ArgSort ℝ}
    {phase : Fin M → Fin P} (hph : phase.Surjective) {psi : Mat C P ℝ} {J : Vec M ℝ} (hJ : ∀ m, 0 < J m)
    (hJs : ∑ m, J m = M) {δ β : ℝ} (hδ : δ ≤ 1 / 200)
    (hlab : 2 ≤ M → FCluster (1 / 100) ph.fractions labels)
    (hv : ∀ m, |ph.volumes m - 1| ≤ 1 / 2) (hf : ∀ m, eucl (ph.fractions m) (fun i => psi i (phase m)) ≤ δ)
    (hβ : ∀ k, |volumeOf ph.volumes phase k - volumeOf J phase k| ≤ M * β)
    (far : ∀ k k', k ≠ k' → 1 / 100 + 2 * δ < eucl (fun i => psi i k) (fun i => psi i k'))
    {cl so : Σ P : ℕ, Phases P C ℝ} (hcl : ph.getClusters labels = .ok cl)
    (hso : cl.2.sort argsort = .ok so) :
    so.1 = P ∧ Recovers psi (fun k => volumeOf J phase k / M) (max δ (2 * (1 + P) * β)) so.2.normalize.volumes
      so.2.normalize.fractions := by
  classical
  have hM : (0 : ℝ) < M := by exact_mod_cast Nat.pos_of_ne_zero (NeZero.ne M)
  have hvpos : ∀ m, 0 < ph.volumes m := fun m => by
    have := (abs_le.mp (hv m)).1
    linarith
  obtain ⟨cl', hcl', k, j1, j2, j3⟩ := C81_recovers (x := ph) (dist := 1 / 100) (eps := δ)
    hvpos hlab (fun k i => psi i k) phase hf (by linarith) far
  obtain rfl := Except.ok.inj (hcl.symm.trans hcl')
  have hksurj : k.Surjective := fun p => by
    have : p ∈ Set.range k := by rw [j2]; exact hph p
    exact this
  obtain ⟨-, s2, s3, -⟩ := C02_sort_reorders hso
  have htot : so.2.totalVolume = ∑ m, ph.volumes m := by
    rw [s3]
    exact ((C04_clusters_conserve ph labels).1 cl hcl).2.1
  have hlen : so.1 = cl.1 := by
    have := s2.length_eq
    simpa [Phases.rows] using this
  have hmem : ∀ p, ∃ n, so.2.volumes p = cl.2.volumes n ∧ so.2.fractions p = cl.2.fractions n := by
    intro p
    have : (so.2.volumes p, so.2.fractions p) ∈ cl.2.rows :=
      s2.mem_iff.mp ((List.mem_ofFn ..).mpr ⟨p, rfl⟩)
    obtain ⟨n, hn⟩ := (List.mem_ofFn ..).mp this
    exact ⟨n, (congrArg Prod.fst hn).symm, (congrArg Prod.snd hn).symm⟩
  choose w hw1 hw2 using hmem
  have hcinj : cl.2.fractions.Injective := fun a b e => by
    by_contra hne
    have h1 := far (k a) (k b) fun h => hne (j1 h)
    have h2 := eucl_triangle (fun i => psi i (k a)) (cl.2.fractions a) (fun i => psi i (k b))
    have h3 := (j3 a).1
    rw [eucl_comm] at h3
    have h4 := (j3 b).1
    rw [← e] at h4
    linarith
  have hnd : so.2.fractions.Injective := by
    have e1 : (cl.2.rows.map Prod.snd).Nodup := by
      rw [Phases.rows, List.map_ofFn]
      exact List.nodup_ofFn.mpr hcinj
    have e2 := (s2.map Prod.snd).nodup_iff.mpr e1
    rw [Phases.rows, List.map_ofFn] at e2
    exact List.nodup_ofFn.mp e2
  have hwinj : w.Injective := fun a b e => hnd (by rw [hw2, hw2, e])
  have hwbij : w.Bijective := (Fintype.bijective_iff_injective_and_card w).mpr ⟨hwinj, by simp [hlen]⟩
  have hbij : (fun p => k (w p)).Bijective := ⟨j1.comp hwinj, hksurj.comp hwbij.2⟩
  have hP : so.1 = P := by simpa using Fintype.card_of_bijective hbij
  refine ⟨hP, Equiv.ofBijective _ hbij, fun p => ⟨?_, ?_⟩⟩
  · show eucl (so.2.fractions p) (fun i => psi i (k (w p))) ≤ _
    rw [hw2]
    exact (j3 _).1.trans (le_max_left _ _)
  · show |so.2.volumes p / so.2.totalVolume - volumeOf J phase (k (w p)) / M| ≤ _
    refine le_trans ?_ (le_max_right _ _)
    rw [hw1, (j3 _).2, htot]
    have e1 : (∑ m, if phase m = k (w p) then ph.volumes m else 0) = volumeOf ph.volumes phase (k (w p)) := by
      unfold volumeOf
      rw [sum_filter]
    rw [e1]
    have h1 := hβ (k (w p))
    have h2 : |∑ m, ph.volumes m - M| ≤ P * (M * β) := by
      have e2 : ∑ m, ph.volumes m - M = ∑ k, (volumeOf ph.volumes phase k - volumeOf J phase k) := by
        rw [sum_sub_distrib, sum_volumeOf, sum_volumeOf, hJs]
      rw [e2]
      exact (abs_sum_le_sum_abs _ _).trans ((sum_le_sum fun k _ => hβ k).trans (by simp))
    have hT : (M : ℝ) / 2 ≤ ∑ m, ph.volumes m := by
      have : ∑ _m : Fin M, (1 / 2 : ℝ) ≤ ∑ m, ph.volumes m := sum_le_sum fun m _ => by
        have := (abs_le.mp (hv m)).1
        linarith
      rw [sum_const, card_univ, Fintype.card_fin, nsmul_eq_mul] at this
      linarith
    have hc0 := (volumeOf_pos hJ hph (k (w p))).le
    have hcM : volumeOf J phase (k (w p)) ≤ M := by
      refine le_trans ?_ ((sum_volumeOf J phase).trans hJs).le
      exact single_le_sum (f := volumeOf J phase) (fun k _ => (volumeOf_pos hJ hph k).le) (mem_univ _)
    have hβ0 : 0 ≤ β := by
      have := (abs_nonneg _).trans h1
      exact (mul_nonneg_iff_of_pos_left hM).mp this
    set s := volumeOf ph.volumes phase (k (w p))
    set c := volumeOf J phase (k (w p))
    set T := ∑ m, ph.volumes m
    have hT0 : 0 < T := by linarith
    have e : s / T - c / M = ((s - c) * M - c * (T - M)) / (T * M) := by
      field_simp
      ring
    rw [e, abs_div, abs_of_pos (mul_pos hT0 hM), div_le_iff₀ (mul_pos hT0 hM)]
    have h3 : |(s - c) * M| ≤ M * β * M := by
      rw [abs_mul, abs_of_pos hM]; exact mul_le_mul_of_nonneg_right h1 hM.le
    have h4 : |c * (T - M)| ≤ M * (P * (M * β)) := by
      rw [abs_mul, abs_of_nonneg hc0]; exact mul_le_mul hcM h2 (abs_nonneg _) hM.le
    have h5 := abs_sub ((s - c) * M) (c * (T - M))
    have h6 : 2 * (1 + P) * β * (M / 2 * M) ≤ 2 * (1 + P) * β * (T * M) := by gcongr
    nlinarith

section Search

variable [NeZero C] [NeZero M] {env : TextEnv G M} {chis : Mat C C ℝ} {l phi : Vec C ℝ} {V : Vec P ℝ} {psi : Mat C P ℝ}

/-- Draws that fall into certain intervals lead to the phases of all mixtures nearby. -/
theorem recovered_box (henv : env.Documented C) (hs : ∀ i j, chis i j = chis j i) (hl : ∀ i, 0 < l i)
    (hco : CoexistingPhases chis l phi V psi) (hV : ∀ k, ∃ j : ℕ, M * V k = j) (hi : IndependentPhases psi)
    (far : ∀ k k', k ≠ k' → 1 / 100 < eucl (fun i => psi i k) (fun i => psi i k'))
    {ρ : ℝ} (hρ : 0 < ρ) (hρl : ∀ i, ρ < 4 * l i) :
    ∃ s₀, ∀ shift, s₀ ≤ shift → ∃ a₀ > 0, ∀ a : FinderArgs, Careful C M shift ρ a₀ a →
      ∀ ε > 0, ε ≤ 1 / 200 → ∃ box : Fin (C * M) → Set ℝ,
      (∀ k, MeasurableSet (box k) ∧ 0 < gaussianReal 0 1 (box k)) ∧ ∃ r > 0, ∃ B > 0, ∃ K > 0, ∀ tol > 0,
      ∃ N : ℕ, LogSteps K tol N ∧
      ∀ (chis' : Mat C C ℝ) (phi' : Vec C ℝ), (∀ i j, chis' i j = chis' j i) → (∀ i j, |chis' i j - chis i j| ≤ r) →
        (∀ i, |phi' i - phi i| ≤ r) → ∑ i, phi' i = 1 →
      ∃ (V' : Vec P ℝ) (psi' : Mat C P ℝ), CoexistingPhases chis' l phi' V' psi' ∧ (∀ k, |V' k - V k| ≤ ε) ∧
        (∀ i k, |psi' i k - psi i k| ≤ ε) ∧ ∀ maxSteps : ℚ, N ≤ maxSteps → ∀ progress,
        ∀ g : G, (∀ k : Fin (C * M), normalDraw env.gen g k ∈ box k) →
          g ∈ textRecovered env id chis' l phi' { a with tolerance := tol } maxSteps progress psi' V'
            (min ε (B * tol)) := by
  obtain ⟨ext, hext, htext⟩ := text_result henv
  have hM : (0 : ℝ) < M := by exact_mod_cast Nat.pos_of_ne_zero (NeZero.ne M)
  have hCpos : (0 : ℝ) < C := by exact_mod_cast Nat.pos_of_ne_zero (NeZero.ne C)
  obtain ⟨phase, hph, hvol⟩ := exists_phase_map (M := M) hco.vol_pos hco.vol_sum hV
  obtain ⟨s₁, h1⟩ := C98_warm_start (feat := id) (x := phi) (J := fun _ : Fin M => 1) hs hl
    Function.surjective_id (fun _ => one_pos) hph (coexistence_of hco hvol) hco.stable hi (R := ρ)
    (fun i m => by simpa using hρl i)
  refine ⟨s₁ + matMin chis, fun shift hsh => ?_⟩
  obtain ⟨a₀, ha₀, h2⟩ := h1 (-matMin chis + shift) (by linarith) ρ hρ le_rfl
  refine ⟨a₀, ha₀, fun a ha ε hε hε' => ?_⟩
  have h3 := h2 ⟨a.acceptanceJs, a.JsStepUpperBound, a.acceptanceOmega, a.killThreshold, a.reviveScaler⟩
    ⟨ha.kill, ha.kill_one, ha.kill_share, ha.step, ha.omega, ha.Js⟩ (fun _ => ha.kill_one) ha.omega_le G
  classical
  obtain ⟨γ, hγ, hgap⟩ := Sep.exists_lower (fun kk : Fin P × Fin P => if kk.1 ≠ kk.2 then
      eucl (fun i => psi i kk.1) (fun i => psi i kk.2) - 1 / 100 else 1) fun kk => by
    split_ifs with h
    · exact sub_pos.mpr (far _ _ h)
    · exact one_pos
  -- The accuracy that the runs need.
  set D : ℝ := 5 * C + 4 * (1 + P) with hD
  have hD0 : 0 < D := by positivity
  have hD1 : 1 ≤ D := by
    have : (0 : ℝ) ≤ P := Nat.cast_nonneg P
    rw [hD]; linarith
  set κ := min ε γ / D with hκ
  have hκ0 : 0 < κ := by positivity
  have hκD : D * κ = min ε γ := by rw [hκ]; field_simp
  have hκε : D * κ ≤ ε := hκD.le.trans (min_le_left _ _)
  have hκγ : D * κ ≤ γ := hκD.le.trans (min_le_right _ _)
  have hP0 : (0 : ℝ) ≤ P * κ := by positivity
  have hC0 : (0 : ℝ) < C * κ := by positivity
  have hexp : D * κ = 5 * (C * κ) + 4 * κ + 4 * (P * κ) := by rw [hD]; ring
  obtain ⟨η, hη, B, hB, q, hq0, hq1, h4⟩ := h3 κ hκ0
  set T : Mat C M ℝ := fun r m => equilibriumField chis id l (fun j => psi j (phase m)) r with hT
  refine ⟨fun k =>
    {x | |a.randomStd * x - T (finProdFinEquiv.symm k).1 (finProdFinEquiv.symm k).2| ≤ η}, fun k =>
    gaussian_interval_pos ha.std hη, η, hη, (C + 2 * (1 + P)) * B, by positivity, ?_⟩
  obtain ⟨K, hK, h4⟩ := h4 fun _ => 0
  refine ⟨K, hK, fun tol htol => ?_⟩
  obtain ⟨N, hN, h5⟩ := h4 tol htol
  refine ⟨N, hN, fun chis' phi' c1 c2 c3 c4 => ?_⟩
  obtain ⟨J', psi', d1, d2, d3, d4, d5, h6⟩ := h5 chis' ⟨phi'⟩ c1 c2 c3 c4
  refine ⟨_, psi', coexistingPhases_of hph d1 d2 d3, fun k => ?_, fun i k => (d5 i k).trans (by nlinarith),
    fun maxSteps hmax progress g hg => ?_⟩
  · rw [show V k = volumeOf (fun _ => 1) phase k / M by rw [hvol]; field_simp, ← sub_div, abs_div, abs_of_pos hM,
      div_le_iff₀ hM]
    have := volumeOf_near d4 phase k
    nlinarith
  have hω' : ∀ (r : Fin C) (m : Fin M),
      |a.randomStd * normalDraw env.gen g (r * M + m) - T r m| ≤ η := fun r m => by
    have := hg (finProdFinEquiv (r, m))
    have e : ((finProdFinEquiv (r, m) : Fin (C * M)) : ℕ) = r * M + m := by
      rw [finProdFinEquiv_apply_val]; ring
    simpa only [Set.mem_ofPred_eq, Equiv.symm_apply_apply, e] using this
  have hsteps : 0 < maxSteps := lt_of_lt_of_le (by exact_mod_cast hN.1) hmax
  obtain ⟨r, hr, ph, d, cl, so, ⟨q1, q2, q3, q4⟩, hcl, hso, rfl⟩ := shortcut_at (env := ⟨env.gen, fun _ _ _ s => s⟩)
    henv.rng ext g c1 (l := l) (phi := phi') (a := { a with tolerance := tol, maxSteps := maxSteps }) (shift := shift)
    (ρ := ρ) (a₀ := a₀)
    ⟨ha.numPart, ha.shift, ha.std, ha.kill, ha.kill_one, ha.kill_share, ha.step, ha.criterion,
      htol, ha.interval, ha.omega, ha.omega_le, ha.Js⟩ hsteps (T := T) (U := η)
    (Q := fun ph d => ErrorsLT tol d ∧ (∀ m i, |ph.fractions m i - psi' i (phase m)| ≤ min κ (B * tol)) ∧
      (∀ m, |ph.volumes m - 1| ≤ κ) ∧ ∀ k, |volumeOf ph.volumes phase k - volumeOf J' phase k| ≤ B * tol)
    (fun st interval b hint hJ hom hcons => by
      obtain ⟨f, ph, d, i1, -, i2, i3, i4, -, i5, i6, i7, i8⟩ := h6 (-matMin chis' + shift) (by
          rw [show -matMin chis' + shift - (-matMin chis + shift) = -(matMin chis' - matMin chis) by ring, abs_neg]
          exact matMin_near c2)
        ⟨(FHCompiled.new chis' (-matMin chis' + shift)).toI M, (⟨l⟩ : IdealC C).toI M,
          (⟨phi'⟩ : CanonicalC C ℝ).toI M, env.gen, ⟨a.acceptanceJs, a.JsStepUpperBound, a.acceptanceOmega,
            a.killThreshold, a.reviveScaler⟩, a.criterion, fun s => s⟩
        ⟨henv.rng, ha.criterion, rfl, IdealC.isIdealGas _, rfl, rfl⟩ st (by simp [hJ])
        (fun m => by rw [hJ, sub_self, abs_zero]; exact hη.le) (fun r m => by rw [add_zero]; exact hom r m) hcons
        maxSteps interval b hmax hint
      have hle : B * min tol (q ^ d.steps) ≤ B * tol := mul_le_mul_of_nonneg_left (min_le_left _ _) hB.le
      exact ⟨f, ph, d, i1, ⟨i2, i3, i4⟩, fun m i => le_min (i8 m i) ((i5 m i).trans hle), i6,
        fun k => (i7 k).trans hle⟩)
    hω'
  have hδ : ∀ m, eucl (ph.fractions m) (fun i => psi' i (phase m)) ≤ C * min κ (B * tol) := fun m =>
    (eucl_le_sum _ _).trans ((sum_le_sum fun i _ => q2 m i).trans (by simp))
  have hδκ : C * min κ (B * tol) ≤ C * κ := mul_le_mul_of_nonneg_left (min_le_left _ _) hCpos.le
  have hβ : ∀ k, |volumeOf ph.volumes phase k - volumeOf J' phase k| ≤ M * min (2 * κ) (B * tol) := fun k => by
    rw [mul_min_of_nonneg _ _ hM.le]
    refine le_min (volumeOf_near (fun m => ?_) phase k) ((q4 k).trans ?_)
    · have h7 := abs_sub_le (ph.volumes m) 1 (J' m)
      have h8 := d4 m
      rw [abs_sub_comm] at h8
      linarith [q3 m]
    · have : (1 : ℝ) ≤ M := by exact_mod_cast (NeZero.one_le : 1 ≤ M)
      exact le_mul_of_one_le_left (by positivity) this
  obtain ⟨hP, e, hrec⟩ := recovers_of_near hph d3 d1.volumes (psi := psi') (δ := C * min κ (B * tol))
    (β := min (2 * κ) (B * tol)) (by linarith) (hext ph) (fun m => (q3 m).trans (by linarith)) hδ hβ
    (fun k k' hkk => by
      have h7 := hgap (k, k')
      dsimp only at h7
      rw [if_pos hkk] at h7
      have near : ∀ k, eucl (fun i => psi' i k) (fun i => psi i k) ≤ C * κ := fun k =>
        (eucl_le_sum _ _).trans ((sum_le_sum fun i _ => d5 i k).trans (by simp))
      have h8 := eucl_triangle (fun i => psi i k) (fun i => psi' i k) (fun i => psi i k')
      have h9 := eucl_triangle (fun i => psi' i k) (fun i => psi' i k') (fun i => psi i k')
      have h10 := near k
      rw [eucl_comm] at h10
      have h11 := near k'
      linarith) hcl hso
  obtain ⟨P', so⟩ := so
  obtain rfl : P' = P := hP
  obtain ⟨b, hb, s1, s2, hv, hf, he⟩ := htext (a := { a with tolerance := tol }) maxSteps progress g ha.numPart hr
  refine ⟨b, hb, s1, s2, ?_, he _ q1⟩
  rw [hv, hf]
  have hle : max (C * min κ (B * tol)) (2 * (1 + P') * min (2 * κ) (B * tol)) ≤
      min ε ((C + 2 * (1 + P')) * B * tol) := by
    have hP1 : (0 : ℝ) ≤ 2 * (1 + P') := by positivity
    have hBt : 0 ≤ B * tol := by positivity
    have t1 : C * min κ (B * tol) ≤ C * (B * tol) := mul_le_mul_of_nonneg_left (min_le_right _ _) hCpos.le
    have t2 : 2 * (1 + P') * min (2 * κ) (B * tol) ≤ 2 * (1 + P') * (2 * κ) :=
      mul_le_mul_of_nonneg_left (min_le_left _ _) hP1
    have t3 : 2 * (1 + P') * min (2 * κ) (B * tol) ≤ 2 * (1 + P') * (B * tol) :=
      mul_le_mul_of_nonneg_left (min_le_right _ _) hP1
    have t4 : (C + 2 * (1 + P')) * B * tol = C * (B * tol) + 2 * (1 + P') * (B * tol) := by ring
    have t5 : 0 ≤ C * (B * tol) := by positivity
    have t6 : 0 ≤ 2 * (1 + P') * (B * tol) := by positivity
    exact max_le (le_min (by linarith) (by linarith)) (le_min (by linarith) (by linarith))
  exact ⟨e, fun n => ⟨(hrec n).1.trans hle, (hrec n).2.trans hle⟩⟩

/-- **C115**: let stable phases that differ by more than 0.01 and whose compositions are independent coexist, with
volumes that are multiples of `1 / M`.  For every mixture with an interaction and a mean composition near enough there
are stable coexisting phases close to these, and the transcribed `find_coexisting_phases` with `M` compartments returns
them, with the accuracy `B * tolerance` or better, with a probability of at least `p > 0`.  Neither `p` nor `B` depends
on the tolerance or on the mixture.  The shift has to be large enough, `acceptance_omega` small enough, and there have
to be enough steps; their number grows at most like the logarithm of the inverse tolerance. -/
theorem C115_found (henv : env.Documented C) (hs : ∀ i j, chis i j = chis j i) (hl : ∀ i, 0 < l i)
    (hco : CoexistingPhases chis l phi V psi) (hV : ∀ k, ∃ j : ℕ, M * V k = j) (hi : IndependentPhases psi)
    (far : ∀ k k', k ≠ k' → 1 / 100 < eucl (fun i => psi i k) (fun i => psi i k'))
    {ρ : ℝ} (hρ : 0 < ρ) (hρl : ∀ i, ρ < 4 * l i) :
    ∃ s₀, ∀ shift, s₀ ≤ shift → ∃ a₀ > 0, ∀ a : FinderArgs, Careful C M shift ρ a₀ a →
      ∀ ε > 0, ε ≤ 1 / 200 → ∃ p : ENNReal, 0 < p ∧ ∃ r > 0, ∃ B > 0, ∃ K > 0, ∀ tol > 0,
      ∃ N : ℕ, LogSteps K tol N ∧
      ∀ (chis' : Mat C C ℝ) (phi' : Vec C ℝ), (∀ i j, chis' i j = chis' j i) → (∀ i j, |chis' i j - chis i j| ≤ r) →
        (∀ i, |phi' i - phi i| ≤ r) → ∑ i, phi' i = 1 →
      ∃ (V' : Vec P ℝ) (psi' : Mat C P ℝ), CoexistingPhases chis' l phi' V' psi' ∧ (∀ k, |V' k - V k| ≤ ε) ∧
        (∀ i k, |psi' i k - psi i k| ≤ ε) ∧ ∀ maxSteps : ℚ, N ≤ maxSteps → ∀ progress,
        ∀ {Ω : Type} [MeasurableSpace Ω] {Pr : Measure Ω} {g : Ω → G}, NormalDraws Pr env.gen g (C * M) →
          p ≤ Pr (textRecovered env g chis' l phi' { a with tolerance := tol } maxSteps progress psi' V'
            (min ε (B * tol))) := by
  obtain ⟨s₀, h1⟩ := recovered_box henv hs hl hco hV hi far hρ hρl
  refine ⟨s₀, fun shift hsh => ?_⟩
  obtain ⟨a₀, ha₀, h2⟩ := h1 shift hsh
  refine ⟨a₀, ha₀, fun a ha ε hε hε' => ?_⟩
  obtain ⟨box, hpos, r, hr, B, hB, K, hK, h3⟩ := h2 a ha ε hε hε'
  refine ⟨∏ k, gaussianReal 0 1 (box k), CanonicallyOrderedAdd.prod_pos.mpr fun k _ => (hpos k).2, r, hr, B, hB,
    K, hK, fun tol htol => ?_⟩
  obtain ⟨N, hN, h4⟩ := h3 tol htol
  refine ⟨N, hN, fun chis' phi' c1 c2 c3 c4 => ?_⟩
  obtain ⟨V', psi', d1, d2, d3, h5⟩ := h4 chis' phi' c1 c2 c3 c4
  refine ⟨V', psi', d1, d2, d3, fun maxSteps hmax progress Ω _ Pr g hg => ?_⟩
  rw [← draws_probability hg fun k => (hpos k).1]
  exact measure_mono fun ω hω => h5 maxSteps hmax progress (g ω) fun k => Set.mem_iInter.mp hω k

/-- **C115**, repeated searches: for all mixtures nearby, the first `n` independent searches all miss the phases with
a probability that decreases exponentially with `n`, at a rate that does not depend on the mixture or the tolerance;
almost surely some search finds them. -/
theorem C115_repeated (henv : env.Documented C) (hs : ∀ i j, chis i j = chis j i) (hl : ∀ i, 0 < l i)
    (hco : CoexistingPhases chis l phi V psi) (hV : ∀ k, ∃ j : ℕ, M * V k = j) (hi : IndependentPhases psi)
    (far : ∀ k k', k ≠ k' → 1 / 100 < eucl (fun i => psi i k) (fun i => psi i k'))
    {ρ : ℝ} (hρ : 0 < ρ) (hρl : ∀ i, ρ < 4 * l i) :
    ∃ s₀, ∀ shift, s₀ ≤ shift → ∃ a₀ > 0, ∀ a : FinderArgs, Careful C M shift ρ a₀ a →
      ∀ ε > 0, ε ≤ 1 / 200 → ∃ p : ENNReal, 0 < p ∧ p ≤ 1 ∧ ∃ r > 0, ∃ B > 0, ∃ K > 0, ∀ tol > 0,
      ∃ N : ℕ, LogSteps K tol N ∧
      ∀ (chis' : Mat C C ℝ) (phi' : Vec C ℝ), (∀ i j, chis' i j = chis' j i) → (∀ i j, |chis' i j - chis i j| ≤ r) →
        (∀ i, |phi' i - phi i| ≤ r) → ∑ i, phi' i = 1 →
      ∃ (V' : Vec P ℝ) (psi' : Mat C P ℝ), CoexistingPhases chis' l phi' V' psi' ∧ (∀ k, |V' k - V k| ≤ ε) ∧
        (∀ i k, |psi' i k - psi i k| ≤ ε) ∧ ∀ maxSteps : ℚ, N ≤ maxSteps → ∀ progress,
        ∀ {Ω : Type} [MeasurableSpace Ω] {Pr : Measure Ω} {g : ℕ → Ω → G},
          IndependentSearches Pr env.gen g (C * M) →
          (∀ n, Pr {ω | ∀ j < n, ω ∉ textRecovered env (g j) chis' l phi' { a with tolerance := tol } maxSteps progress
            psi' V' (min ε (B * tol))} ≤ (1 - p) ^ n) ∧
          ∀ᵐ ω ∂Pr, ∃ j, ω ∈ textRecovered env (g j) chis' l phi' { a with tolerance := tol } maxSteps progress
            psi' V' (min ε (B * tol)) := by
  obtain ⟨s₀, h1⟩ := recovered_box henv hs hl hco hV hi far hρ hρl
  refine ⟨s₀, fun shift hsh => ?_⟩
  obtain ⟨a₀, ha₀, h2⟩ := h1 shift hsh
  refine ⟨a₀, ha₀, fun a ha ε hε hε' => ?_⟩
  obtain ⟨box, hpos, r, hr, B, hB, K, hK, h3⟩ := h2 a ha ε hε hε'
  have hp : 0 < ∏ k, gaussianReal 0 1 (box k) := CanonicallyOrderedAdd.prod_pos.mpr fun k _ => (hpos k).2
  refine ⟨∏ k, gaussianReal 0 1 (box k), hp, prod_le_one' fun k _ => prob_le_one, r, hr, B, hB, K, hK, fun tol htol => ?_⟩
  obtain ⟨N, hN, h4⟩ := h3 tol htol
  refine ⟨N, hN, fun chis' phi' c1 c2 c3 c4 => ?_⟩
  obtain ⟨V', psi', d1, d2, d3, h5⟩ := h4 chis' phi' c1 c2 c3 c4
  refine ⟨V', psi', d1, d2, d3, fun maxSteps hmax progress Ω _ Pr g hg => ?_⟩
  have hn : ∀ n, Pr {ω | ∀ j < n, ω ∉ textRecovered env (g j) chis' l phi' { a with tolerance := tol } maxSteps progress
      psi' V' (min ε (B * tol))} ≤ (1 - ∏ k, gaussianReal 0 1 (box k)) ^ n := fun n => by
    refine le_trans (measure_mono fun ω hω => ?_) (misses_probability hg (fun k => (hpos k).1) n).le
    exact Set.mem_iInter₂.mpr fun j hj h => hω j (mem_range.mp hj) (h5 maxSteps hmax progress (g j ω) h)
  refine ⟨hn, ?_⟩
  rw [ae_iff]
  push Not
  refine le_antisymm (ge_of_tendsto' (ENNReal.tendsto_pow_atTop_nhds_zero_of_lt_one
    (ENNReal.sub_lt_self ENNReal.one_ne_top one_ne_zero hp.ne')) fun n => ?_) zero_le
  refine (measure_mono fun ω (hω : ∀ j, _) => ?_).trans (hn n)
  exact fun j _ => hω j

end Search

namespace Demo

/-- One eighth of the mixture has composition (3/4, 1/4), the rest (1/4, 3/4). -/
theorem eighth_phases : CoexistingPhases coexFH.chis (fun _ => 1) ![5 / 16, 11 / 16] ![7 / 8, 1 / 8] coexPhi := by
  refine ⟨fun k => ?_, ?_, coexistence.pos, coexistence.incompressible, fun i => ?_, coexistence.balance, ?_⟩
  · fin_cases k <;> norm_num
  · rw [Fin.sum_univ_two]; norm_num
  · fin_cases i <;> (simp [coexPhi]; norm_num)
  · exact C91_binary_stable coex_symm (fun _ => one_pos) coexistence (p := 0) (q := 1) (by simp [coexPhi]; norm_num)

end Demo

-- C115: all mixtures near the one with one eighth of composition (3/4, 1/4); eight compartments.
example : ∃ (scipy : Scipy) (sort : ArgSort ℝ) (a : FinderArgs) (p : ENNReal) (r B K : ℝ), 0 < p ∧ 0 < r ∧ 0 < B ∧
    ∀ tol > 0, ∃ N : ℕ, LogSteps K tol N ∧ ∀ (chis' : Mat 2 2 ℝ) (phi' : Vec 2 ℝ), (∀ i j, chis' i j = chis' j i) →
      (∀ i j, |chis' i j - Demo.coexFH.chis i j| ≤ r) → (∀ i, |phi' i - (![5 / 16, 11 / 16] : Vec 2 ℝ) i| ≤ r) →
      ∑ i, phi' i = 1 →
      ∃ (V' : Vec 2 ℝ) (psi' : Mat 2 2 ℝ), CoexistingPhases chis' (fun _ => 1) phi' V' psi' ∧
        p ≤ (Measure.pi fun _ : Fin (2 * 8) => gaussianReal 0 1)
          (textRecovered (M := 8) ⟨Demo.gaussRng, fun _ => Demo.tapeOf (n := 0) fun _ => 0, 7, fun _ c => c, scipy, sort⟩
            (fun x => Demo.tapeOf x) chis' (fun _ => 1) phi' { a with tolerance := tol } N true psi' V'
            (min (1 / 1000) (B * tol))) := by
  obtain ⟨scipy, hs, hcl⟩ := Demo.scipy_exists
  obtain ⟨sort, hok⟩ := argsort_exists (K := ℝ)
  obtain ⟨s₀, h⟩ := C115_found (C := 2) (M := 8)
    (env := ⟨Demo.gaussRng, fun _ => Demo.tapeOf (n := 0) fun _ => 0, 7, fun _ c => c, scipy, sort⟩)
    ⟨Demo.gaussRng_ok, hs, fun x => hcl x⟩ Demo.coex_symm (fun _ => one_pos) Demo.eighth_phases
    (fun k => by
      fin_cases k
      · exact ⟨7, by norm_num⟩
      · exact ⟨1, by norm_num⟩)
    (independent_two Demo.coexistence.incompressible (i := 0) (by simp [Demo.coexPhi]; norm_num))
    (fun k k' hk => by
      refine lt_of_lt_of_le ?_ (abs_le_eucl _ _ 0)
      fin_cases k <;> fin_cases k' <;> first | exact absurd rfl hk | (simp [Demo.coexPhi]; norm_num [abs_of_pos, abs_of_neg]))
    (ρ := 1 / 10) (by norm_num) (fun i => by norm_num)
  obtain ⟨a₀, ha₀, h⟩ := h s₀ le_rfl
  let a : FinderArgs :=
    { numPart := some 8
      kwargs := [("additional_chis_shift", s₀)]
      acceptanceOmega := a₀
      acceptanceJs := 1 / 10 * a₀ }
  obtain ⟨p, hp, r, hr, B, hB, K, hK, h⟩ := h a
    ⟨rfl, rfl, by norm_num, by norm_num, by norm_num, by norm_num, by norm_num, rfl, by norm_num, by norm_num,
      ha₀, le_rfl, rfl⟩ (1 / 1000) (by norm_num) (by norm_num)
  refine ⟨scipy, sort, a, p, r, B, K, hp, hr, hB, fun tol htol => ?_⟩
  obtain ⟨N, hN, h⟩ := h tol htol
  refine ⟨N, hN, fun chis' phi' c1 c2 c3 c4 => ?_⟩
  obtain ⟨V', psi', d1, -, -, h⟩ := h chis' phi' c1 c2 c3 c4
  exact ⟨V', psi', d1, h N le_rfl true (Demo.gauss_draws (2 * 8))⟩

end Flory
