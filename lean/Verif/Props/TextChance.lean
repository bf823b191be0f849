import Verif.Spec.TextChance
import Verif.Props.Chance
import Verif.Props.ShortcutObject

/-!
# C114: searches with the transcribed text find the phases with positive probability

The function called is `Gen.find_coexisting_phases`, written by `tools/transcribe_shortcut.py` from the source text.
-/

set_option linter.unusedSectionVars false

namespace Flory

open Spec MeasureTheory ProbabilityTheory

variable {G : Type} {C M : ℕ}

/-- There are labels for the model such that a search of the transcribed text returns what the model returns. -/
theorem text_result {env : TextEnv G M} (henv : env.Documented C) :
    ∃ ext : PhasesExt, (∀ {P : ℕ} (x : Phases P C ℝ), 2 ≤ P → FCluster (1 / 100) x.fractions (ext.labels x)) ∧
      ∀ {chis : Mat C C ℝ} {l phi : Vec C ℝ} {a : FinderArgs} (maxSteps : ℚ) (progress : Bool) (g : G) {P : ℕ}
        {ph : Phases P C ℝ} {d : Diagnostics ℝ}, Finder.partNumber a.numPart C = M →
        findCoexistingPhases ⟨env.gen, fun _ _ _ s => s⟩ ext g C (.ofMat chis) (some (.ofVec phi)) (some (.ofVec l)) .none
          { a with maxSteps := maxSteps } = .ok ⟨P, C, ph, d⟩ →
        ∃ b, env.search chis l phi a maxSteps progress g = .ok b ∧ b.volumes.shape = [P] ∧ b.fractions.shape = [P, C] ∧
          (fun p : Fin P => b.volumes.get [p.1]) = ph.volumes ∧
          (fun (p : Fin P) (i : Fin C) => b.fractions.get [p.1, i.1]) = ph.fractions ∧
          ∀ tol, ErrorsLT tol d → ∀ k ∈ ["max_abs_incomp", "max_abs_omega_diff", "max_abs_js_diff"],
            ∃ e, b._info.get? k = some e ∧ e < tol := by
  obtain ⟨ext, hext, he⟩ := scipy_labels henv.returns env.sort
  refine ⟨ext, fun {P} x hP => ?_, ?_⟩
  · obtain ⟨links, l, w1, w2, w3, w4⟩ := hext x hP
    rw [show ext.labels x = fun p => l.getD p.1 0 by funext p; exact w4 p]
    exact henv.clusters x links l hP w1 w2
  intro chis l phi a maxSteps progress g P ph d hM hr
  have hM' : M = if a.numPart.getD 0 = 0 then C * 8 else a.numPart.getD 0 := by
    rw [← hM]
    unfold Finder.partNumber
    cases a.numPart <;> simp
  have hag := C110_shortcut (env := ⟨env.gen, fun _ _ _ s => s⟩) henv.rng hext env.newGen env.now env.other C
    (.ofMat chis) (some (.ofVec phi)) (some (.ofVec l)) .none { a with maxSteps := maxSteps } (some g) progress hM'
  rw [show (some g).getD (env.newGen env.now) = g from rfl, hr, he] at hag
  show ∃ b, Gen.find_coexisting_phases _ _ _ _ _ _ _ _ _ _ _ _ _ = _ ∧ _
  cases hg : Gen.find_coexisting_phases env.gen env.newGen env.now env.other env.scipy env.sort C (.ofMat chis)
      (some (.ofVec phi)) (some (.ofVec l)) .none (initArgs { a with maxSteps := maxSteps } (some g) progress)
      a.kwargs with
  | error e => rw [hg] at hag; exact hag.elim
  | ok b =>
    rw [hg] at hag
    obtain ⟨⟨hv, hf⟩, hi⟩ := hag
    refine ⟨b, rfl, hv.shape, hf.shape, funext hv.get, funext fun p => funext (hf.get p), fun tol hd k hk => ?_⟩
    rw [hi]
    obtain ⟨d1, d2, d3⟩ := hd
    simp only [List.mem_cons, List.not_mem_nil, or_false] at hk
    rcases hk with rfl | rfl | rfl
    · exact ⟨_, rfl, d1⟩
    · exact ⟨_, rfl, d2⟩
    · exact ⟨_, rfl, d3⟩

/-- A search of the model that finds the phases is one of the transcribed text. -/
theorem text_of_model {env : TextEnv G M} (henv : env.Documented C) :
    ∃ ext : PhasesExt, (∀ {P : ℕ} (x : Phases P C ℝ), 2 ≤ P → FCluster (1 / 100) x.fractions (ext.labels x)) ∧
      ∀ {chis : Mat C C ℝ} {l phi : Vec C ℝ} {a : FinderArgs} (maxSteps : ℚ) (progress : Bool) {psi : Mat C M ℝ}
        {ε : ℝ} {Ω : Type} (g : Ω → G), Finder.partNumber a.numPart C = M →
        foundEvent ⟨env.gen, fun _ _ _ s => s⟩ ext g chis l phi a maxSteps psi ε ⊆
          textFound env g chis l phi a maxSteps progress psi ε := by
  obtain ⟨ext, hext, h⟩ := text_result henv
  refine ⟨ext, hext, ?_⟩
  intro chis l phi a maxSteps progress psi ε Ω g hM ω ⟨r, hr, hd, P, ph, hph, u1, u2⟩
  rw [hph] at hr
  obtain ⟨b, hb, s1, s2, hv, hf, he⟩ := h maxSteps progress (g ω) hM hr
  have hf' : ∀ p : Fin P, (fun i : Fin C => b.fractions.get [p.1, i.1]) = ph.fractions p := congrFun hf
  refine ⟨b, hb, P, s1, s2, fun p => ?_, fun m => ?_, he _ hd⟩
  · rw [hf', congrFun hv p]
    exact u1 p
  · simp only [hf']
    exact u2 m

section Search

variable [NeZero C] [NeZero M] {env : TextEnv G M} {chis : Mat C C ℝ} {l phi : Vec C ℝ} {psi : Mat C M ℝ}

/-- **C114**: if as many compartments as there are can coexist in equal volumes as stable phases that differ by more
than 0.01, then the transcribed `find_coexisting_phases` finds these phases, to any accuracy, with a probability that
is positive and does not depend on the generator, provided that the shift is large enough, `acceptance_omega` is small
enough and there are enough steps. -/
theorem C114_found (henv : env.Documented C) (hs : ∀ i j, chis i j = chis j i) (hl : ∀ i, 0 < l i)
    (hco : Coexistence chis id l phi (fun _ => 1) psi) (hstab : ∀ m, StablePhase chis id l fun i => psi i m)
    (far : ∀ m n, (∃ i, psi i m ≠ psi i n) → 1 / 100 < eucl (fun i => psi i m) (fun i => psi i n))
    {ρ : ℝ} (hρ : 0 < ρ) (hρl : ∀ i, ρ < 4 * l i) :
    ∃ s₀, ∀ shift, s₀ ≤ shift → ∃ a₀ > 0, ∀ a : FinderArgs, Careful C M shift ρ a₀ a →
      ∀ ε > 0, ε ≤ 1 / 200 → ∃ p > 0, ∃ N : ℕ, ∀ maxSteps : ℚ, N ≤ maxSteps → ∀ progress,
      ∀ {Ω : Type} [MeasurableSpace Ω] {P : Measure Ω} {g : Ω → G}, NormalDraws P env.gen g (C * M) →
        p ≤ P (textFound env g chis l phi a maxSteps progress psi ε) := by
  obtain ⟨ext, hext, h⟩ := text_of_model henv
  obtain ⟨s₀, h1⟩ := C94_found (env := ⟨env.gen, fun _ _ _ s => s⟩) henv.rng ext hext hs hl hco hstab far hρ hρl
  refine ⟨s₀, fun shift hsh => ?_⟩
  obtain ⟨a₀, ha₀, h2⟩ := h1 shift hsh
  refine ⟨a₀, ha₀, fun a ha ε hε hε' => ?_⟩
  obtain ⟨p, hp, N, h3⟩ := h2 a ha ε hε hε'
  exact ⟨p, hp, N, fun maxSteps hN progress Ω _ P g hg =>
    (h3 maxSteps hN hg).trans (measure_mono (h maxSteps progress g ha.numPart))⟩

/-- **C114**, repeated searches with the transcribed text: the first `n` independent searches all miss the phases with
a probability that decreases exponentially with `n`; almost surely some search finds them. -/
theorem C114_repeated (henv : env.Documented C) (hs : ∀ i j, chis i j = chis j i) (hl : ∀ i, 0 < l i)
    (hco : Coexistence chis id l phi (fun _ => 1) psi) (hstab : ∀ m, StablePhase chis id l fun i => psi i m)
    (far : ∀ m n, (∃ i, psi i m ≠ psi i n) → 1 / 100 < eucl (fun i => psi i m) (fun i => psi i n))
    {ρ : ℝ} (hρ : 0 < ρ) (hρl : ∀ i, ρ < 4 * l i) :
    ∃ s₀, ∀ shift, s₀ ≤ shift → ∃ a₀ > 0, ∀ a : FinderArgs, Careful C M shift ρ a₀ a →
      ∀ ε > 0, ε ≤ 1 / 200 → ∃ p > 0, p ≤ 1 ∧ ∃ N : ℕ, ∀ maxSteps : ℚ, N ≤ maxSteps → ∀ progress,
      ∀ {Ω : Type} [MeasurableSpace Ω] {P : Measure Ω} {g : ℕ → Ω → G},
        IndependentSearches P env.gen g (C * M) →
        (∀ n, P {ω | ∀ j < n, ω ∉ textFound env (g j) chis l phi a maxSteps progress psi ε} ≤ (1 - p) ^ n) ∧
        ∀ᵐ ω ∂P, ∃ j, ω ∈ textFound env (g j) chis l phi a maxSteps progress psi ε := by
  obtain ⟨ext, hext, h⟩ := text_of_model henv
  obtain ⟨s₀, h1⟩ := C94_repeated (env := ⟨env.gen, fun _ _ _ s => s⟩) henv.rng ext hext hs hl hco hstab far hρ hρl
  refine ⟨s₀, fun shift hsh => ?_⟩
  obtain ⟨a₀, ha₀, h2⟩ := h1 shift hsh
  refine ⟨a₀, ha₀, fun a ha ε hε hε' => ?_⟩
  obtain ⟨p, hp, hp1, N, h3⟩ := h2 a ha ε hε hε'
  refine ⟨p, hp, hp1, N, fun maxSteps hN progress Ω _ P g hg => ?_⟩
  obtain ⟨k1, k2⟩ := h3 maxSteps hN hg
  refine ⟨fun n => le_trans (measure_mono fun ω hω => ?_) (k1 n), k2.mono fun ω ⟨j, hj⟩ => ?_⟩
  · exact fun j hj hf => hω j hj (h maxSteps progress (g j) ha.numPart hf)
  · exact ⟨j, h maxSteps progress (g j) ha.numPart hj⟩

/-- **C114**, metastable mean composition: when the mean composition is stable, too, the same call of the transcribed
text returns the separated phases with positive probability and the single phase of mean composition with positive
probability. -/
theorem C114_both (henv : env.Documented C) (hs : ∀ i j, chis i j = chis j i) (hl : ∀ i, 0 < l i)
    (hco : Coexistence chis id l phi (fun _ => 1) psi) (hstab : ∀ m, StablePhase chis id l fun i => psi i m)
    (hmean : StablePhase chis id l phi)
    (far : ∀ m n, (∃ i, psi i m ≠ psi i n) → 1 / 100 < eucl (fun i => psi i m) (fun i => psi i n))
    {ρ : ℝ} (hρ : 0 < ρ) (hρl : ∀ i, ρ < 4 * l i) :
    ∃ s₀, ∀ shift, s₀ ≤ shift → ∃ a₀ > 0, ∀ a : FinderArgs, Careful C M shift ρ a₀ a →
      ∀ ε > 0, ε ≤ 1 / 200 → ∃ p > 0, ∃ N : ℕ, ∀ maxSteps : ℚ, N ≤ maxSteps → ∀ progress,
      ∀ {Ω : Type} [MeasurableSpace Ω] {P : Measure Ω} {g : Ω → G}, NormalDraws P env.gen g (C * M) →
        p ≤ P (textFound env g chis l phi a maxSteps progress psi ε) ∧
        p ≤ P (textFound env g chis l phi a maxSteps progress (fun i (_ : Fin M) => phi i) ε) := by
  obtain ⟨ext, hext, h⟩ := text_of_model henv
  obtain ⟨s₀, h1⟩ := C94_both (env := ⟨env.gen, fun _ _ _ s => s⟩) henv.rng ext hext hs hl hco hstab hmean far hρ hρl
  refine ⟨s₀, fun shift hsh => ?_⟩
  obtain ⟨a₀, ha₀, h2⟩ := h1 shift hsh
  refine ⟨a₀, ha₀, fun a ha ε hε hε' => ?_⟩
  obtain ⟨p, hp, N, h3⟩ := h2 a ha ε hε hε'
  refine ⟨p, hp, N, fun maxSteps hN progress Ω _ P g hg => ?_⟩
  obtain ⟨k1, k2⟩ := h3 maxSteps hN hg
  exact ⟨k1.trans (measure_mono (h maxSteps progress g ha.numPart)),
    k2.trans (measure_mono (h maxSteps progress g ha.numPart))⟩

end Search

/-- **C114**, number of phases: when the transcribed text finds `psi`, it returns as many phases as there are different
columns, so that different outcomes exclude each other. -/
theorem C114_count {psi : Mat C M ℝ} {ε tol : ℝ} (hε : ε ≤ 1 / 200)
    (far : ∀ m n, (∃ i, psi i m ≠ psi i n) → 1 / 100 < eucl (fun i => psi i m) (fun i => psi i n))
    {b : Gen.PhasesResultAttrs ℝ} (h : TextFinds psi ε tol b) :
    b.volumes.shape = [Nat.card (Set.range fun (m : Fin M) (i : Fin C) => psi i m)] := by
  obtain ⟨P, h1, h2, h3, h4, -⟩ := h
  have := C94_count hε far (r := ⟨P, C, ⟨fun p => b.volumes.get [p.1], fun p i => b.fractions.get [p.1, i.1]⟩,
    ⟨0, 0, 0, 0, 0, 0⟩⟩) ⟨P, _, rfl, h3, h4⟩
  rw [h1, ← this]

-- C114: a binary mixture with metastable mean composition (5/16, 11/16) and eight compartments.
example : ∃ (scipy : Scipy) (sort : ArgSort ℝ) (a : FinderArgs) (p : ENNReal) (maxSteps : ℚ), 0 < p ∧
    p ≤ (Measure.pi fun _ : Fin (2 * 8) => gaussianReal 0 1)
      (textFound ⟨Demo.gaussRng, fun _ => Demo.tapeOf (n := 0) fun _ => 0, 7, fun _ c => c, scipy, sort⟩
        (fun x => Demo.tapeOf x) Demo.coexFH.chis (fun _ => 1) ![5 / 16, 11 / 16] a maxSteps true Demo.eightPhi
        (1 / 1000)) ∧
    p ≤ (Measure.pi fun _ : Fin (2 * 8) => gaussianReal 0 1)
      (textFound ⟨Demo.gaussRng, fun _ => Demo.tapeOf (n := 0) fun _ => 0, 7, fun _ c => c, scipy, sort⟩
        (fun x => Demo.tapeOf x) Demo.coexFH.chis (fun _ => 1) ![5 / 16, 11 / 16] a maxSteps true
        (fun i (_ : Fin 8) => (![5 / 16, 11 / 16] : Vec 2 ℝ) i) (1 / 1000)) := by
  obtain ⟨scipy, hs, hcl⟩ := Demo.scipy_exists
  obtain ⟨sort, hok⟩ := argsort_exists (K := ℝ)
  obtain ⟨s₀, h⟩ := C114_both (C := 2) (M := 8)
    (env := ⟨Demo.gaussRng, fun _ => Demo.tapeOf (n := 0) fun _ => 0, 7, fun _ c => c, scipy, sort⟩)
    ⟨Demo.gaussRng_ok, hs, fun x => hcl x⟩ Demo.coex_symm (fun _ => one_pos) Demo.eight_coexistence
    Demo.eight_stable Demo.eight_mean Demo.eight_far (ρ := 1 / 10) (by norm_num) (fun i => by norm_num)
  obtain ⟨a₀, ha₀, h⟩ := h s₀ le_rfl
  obtain ⟨p, hp, N, h⟩ := h
    { numPart := some 8
      kwargs := [("additional_chis_shift", s₀)]
      acceptanceOmega := a₀
      acceptanceJs := 1 / 10 * a₀ }
    ⟨rfl, rfl, by norm_num, by norm_num, by norm_num, by norm_num, by norm_num, rfl, by norm_num, by norm_num,
      ha₀, le_rfl, rfl⟩ (1 / 1000) (by norm_num) (by norm_num)
  obtain ⟨h1, h2⟩ := h N le_rfl true (Demo.gauss_draws (2 * 8))
  exact ⟨scipy, sort, _, p, N, hp, h1, h2⟩

-- C114: almost surely one of repeated searches finds the two phases.
example : ∃ (scipy : Scipy) (sort : ArgSort ℝ) (a : FinderArgs) (maxSteps : ℚ),
    ∀ᵐ x ∂(Measure.infinitePi fun _ : ℕ => Measure.pi fun _ : Fin (2 * 8) => gaussianReal 0 1), ∃ j,
      x ∈ textFound ⟨Demo.gaussRng, fun _ => Demo.tapeOf (n := 0) fun _ => 0, 7, fun _ c => c, scipy, sort⟩
        (fun x => Demo.tapeOf (x j)) Demo.coexFH.chis (fun _ => 1) ![5 / 16, 11 / 16] a maxSteps false Demo.eightPhi
        (1 / 1000) := by
  obtain ⟨scipy, hs, hcl⟩ := Demo.scipy_exists
  obtain ⟨sort, hok⟩ := argsort_exists (K := ℝ)
  obtain ⟨s₀, h⟩ := C114_repeated (C := 2) (M := 8)
    (env := ⟨Demo.gaussRng, fun _ => Demo.tapeOf (n := 0) fun _ => 0, 7, fun _ c => c, scipy, sort⟩)
    ⟨Demo.gaussRng_ok, hs, fun x => hcl x⟩ Demo.coex_symm (fun _ => one_pos) Demo.eight_coexistence
    Demo.eight_stable Demo.eight_far (ρ := 1 / 10) (by norm_num) (fun i => by norm_num)
  obtain ⟨a₀, ha₀, h⟩ := h s₀ le_rfl
  obtain ⟨p, hp, hp1, N, h⟩ := h
    { numPart := some 8
      kwargs := [("additional_chis_shift", s₀)]
      acceptanceOmega := a₀
      acceptanceJs := 1 / 10 * a₀ }
    ⟨rfl, rfl, by norm_num, by norm_num, by norm_num, by norm_num, by norm_num, rfl, by norm_num, by norm_num,
      ha₀, le_rfl, rfl⟩ (1 / 1000) (by norm_num) (by norm_num)
  exact ⟨scipy, sort, _, N, (h N le_rfl false (Demo.gauss_searches (2 * 8))).2⟩

end Flory
