import Verif.Spec.Chance
import Verif.Props.Clustering
import Verif.Props.Separated
import Verif.Props.Distribution
import Mathlib.Probability.Independence.InfinitePi

/-! # C94: the outcome of a search depends on chance -/

set_option linter.unusedSectionVars false

namespace Flory

open Finset Spec MeasureTheory ProbabilityTheory

variable {G : Type}

section Clusters

variable {C M : ℕ}

theorem eucl_le_sum (u v : Vec C ℝ) : eucl u v ≤ ∑ i, |u i - v i| := by
  unfold eucl
  refine Real.sqrt_le_iff.mpr ⟨sum_nonneg fun i _ => abs_nonneg _, ?_⟩
  have := sum_sq_le_sq_sum_of_nonneg (s := univ) (f := fun i => |u i - v i|) fun i _ => abs_nonneg _
  simpa [sq_abs] using this

open Classical in
/-- Compartments near separated compositions are reported as these compositions. -/
theorem finds_of_near [NeZero M] {ph : Phases M C ℝ} {labels : Vec M ℤ} {argsort : ArgSort ℝ}
    {psi : Mat C M ℝ} {δ ε : ℝ} (hδ : 0 ≤ δ) (hδε : 4 * δ ≤ ε) (hε : ε ≤ 1 / 200)
    (hlab : 2 ≤ M → FCluster (1 / 100) ph.fractions labels)
    (hv : ∀ m, |ph.volumes m - 1| ≤ δ) (hf : ∀ m, eucl (ph.fractions m) (fun i => psi i m) ≤ δ)
    (far : ∀ m n, (∃ i, psi i m ≠ psi i n) →
      1 / 100 + 2 * δ < eucl (fun i => psi i m) (fun i => psi i n))
    {cl so : Σ P : ℕ, Phases P C ℝ} (hcl : ph.getClusters labels = .ok cl)
    (hso : cl.2.sort argsort = .ok so) (d : Diagnostics ℝ) :
    Finds psi ε ⟨so.1, C, so.2.normalize, d⟩ := by
  have hM : (0 : ℝ) < M := by exact_mod_cast Nat.pos_of_ne_zero (NeZero.ne M)
  have hvpos : ∀ m, 0 < ph.volumes m := fun m => by
    have := (abs_le.mp (hv m)).1
    linarith
  obtain ⟨cl', hcl', k, j1, j2, j3⟩ := C81_recovers (x := ph) (dist := 1 / 100) (eps := δ)
    hvpos hlab (fun v : {v : Vec C ℝ // ∃ m, v = fun i => psi i m} => v.1) (fun m => ⟨_, m, rfl⟩)
    hf (by linarith)
    (fun u v huv => by
      obtain ⟨u, m, rfl⟩ := u
      obtain ⟨v, n, rfl⟩ := v
      refine far m n (by_contra fun hne => huv (Subtype.ext ?_))
      push Not at hne
      exact funext hne)
  obtain rfl := Except.ok.inj (hcl.symm.trans hcl')
  have hsep : ∀ n m, eucl (cl.2.fractions n) (fun i => psi i m) ≤ ε → (k n).1 = fun i => psi i m := by
    intro n m h
    obtain ⟨q, hq⟩ := (k n).2
    rw [hq]
    by_contra hne
    have h1 := far q m (by
      by_contra h
      push Not at h
      exact hne (funext h))
    have h2 := eucl_triangle (fun i => psi i q) (cl.2.fractions n) (fun i => psi i m)
    have h3 := (j3 n).1
    rw [eucl_comm, hq] at h3
    linarith
  obtain ⟨-, s2, s3, -⟩ := C02_sort_reorders hso
  have hmem : ∀ p, ∃ n, so.2.volumes p = cl.2.volumes n ∧ so.2.fractions p = cl.2.fractions n := by
    intro p
    have : (so.2.volumes p, so.2.fractions p) ∈ cl.2.rows :=
      s2.mem_iff.mp ((List.mem_ofFn ..).mpr ⟨p, rfl⟩)
    obtain ⟨n, hn⟩ := (List.mem_ofFn ..).mp this
    exact ⟨n, (congrArg Prod.fst hn).symm, (congrArg Prod.snd hn).symm⟩
  have hsurj : ∀ n, ∃ p, so.2.fractions p = cl.2.fractions n := by
    intro n
    have : (cl.2.volumes n, cl.2.fractions n) ∈ so.2.rows :=
      s2.mem_iff.mpr ((List.mem_ofFn ..).mpr ⟨n, rfl⟩)
    obtain ⟨p, hp⟩ := (List.mem_ofFn ..).mp this
    exact ⟨p, congrArg Prod.snd hp⟩
  have hfrac : ∀ n, ∃ m, (k n).1 = (fun i => psi i m) ∧ eucl (cl.2.fractions n) (fun i => psi i m) ≤ ε := by
    intro n
    obtain ⟨m, hm⟩ := (k n).2
    refine ⟨m, hm, ?_⟩
    have := (j3 n).1
    rw [hm] at this
    linarith
  have hcinj : cl.2.fractions.Injective := fun a b e => by
    obtain ⟨m, h1, h2⟩ := hfrac a
    refine j1 (Subtype.ext ?_)
    rw [h1, hsep b m (by rw [← e]; exact h2)]
  have hnd : so.2.fractions.Injective := by
    have e1 : (cl.2.rows.map Prod.snd).Nodup := by
      rw [Phases.rows, List.map_ofFn]
      exact List.nodup_ofFn.mpr hcinj
    have e2 := (s2.map Prod.snd).nodup_iff.mpr e1
    rw [Phases.rows, List.map_ofFn] at e2
    exact List.nodup_ofFn.mp e2
  have htot : so.2.totalVolume = ∑ m, ph.volumes m := by
    rw [s3]
    exact ((C04_clusters_conserve ph labels).1 cl hcl).2.1
  have hpart : ∀ (w : Fin M → Prop), |(∑ m, if w m then ph.volumes m else 0) - ∑ m, if w m then 1 else 0| ≤ M * δ := by
    intro w
    rw [← sum_sub_distrib]
    refine (abs_sum_le_sum_abs _ _).trans ((sum_le_sum (g := fun _ => δ) fun m _ => ?_).trans (by simp))
    by_cases h : w m
    · simpa [h] using hv m
    · simpa [h] using hδ
  have hshare : ∀ (w : Fin M → Prop), |(∑ m, if w m then ph.volumes m else 0) / so.2.totalVolume -
      (∑ m, if w m then (1 : ℝ) else 0) / M| ≤ 4 * δ := by
    intro w
    have h1 := hpart w
    have h2 := hpart fun _ => True
    simp only [if_true, sum_const, card_univ, Fintype.card_fin, nsmul_eq_mul, mul_one] at h2
    rw [htot]
    set s := ∑ m, if w m then ph.volumes m else 0
    set c := ∑ m, if w m then (1 : ℝ) else 0 with hc
    set T := ∑ m, ph.volumes m
    have hc0 : 0 ≤ c := sum_nonneg fun m _ => by split <;> norm_num
    have hcM : c ≤ M := by
      refine (sum_le_sum (g := fun _ => (1 : ℝ)) fun m _ => ?_).trans (by simp)
      split <;> norm_num
    have hT : (M : ℝ) / 2 ≤ T := by
      have := (abs_le.mp h2).1
      nlinarith
    have hT0 : 0 < T := by linarith
    have e : s / T - c / M = ((s - c) * M - c * (T - M)) / (T * M) := by
      field_simp
      ring
    rw [e, abs_div, abs_of_pos (mul_pos hT0 hM), div_le_iff₀ (mul_pos hT0 hM)]
    have h3 : |(s - c) * M| ≤ M * δ * M := by
      rw [abs_mul, abs_of_pos hM]; exact mul_le_mul_of_nonneg_right h1 hM.le
    have h4 : |c * (T - M)| ≤ M * (M * δ) := by
      rw [abs_mul, abs_of_nonneg hc0]; exact mul_le_mul hcM h2 (abs_nonneg _) hM.le
    have h5 := abs_sub ((s - c) * M) (c * (T - M))
    have h6 : 4 * δ * (M / 2 * M) ≤ 4 * δ * (T * M) := by gcongr
    nlinarith
  refine ⟨so.1, so.2.normalize, rfl, fun p => ?_, fun m => ?_⟩
  · obtain ⟨n, e1, e2⟩ := hmem p
    obtain ⟨m, h1, h2⟩ := hfrac n
    refine ⟨m, by rw [← e2] at h2; exact h2, ?_⟩
    show |so.2.volumes p / so.2.totalVolume - _| ≤ ε
    rw [e1, (j3 n).2]
    have h3 := hshare fun q => ∀ i, psi i q = psi i m
    have e3 : ∀ q, ((⟨_, q, rfl⟩ : {v : Vec C ℝ // ∃ m, v = fun i => psi i m}) = k n) ↔
        ∀ i, psi i q = psi i m := fun q => by
      rw [Subtype.ext_iff, h1, funext_iff]
    have e4 : (∑ q, if (⟨_, q, rfl⟩ : {v : Vec C ℝ // ∃ m, v = fun i => psi i m}) = k n then
        ph.volumes q else 0) = ∑ q, if ∀ i, psi i q = psi i m then ph.volumes q else 0 := by
      refine sum_congr rfl fun q _ => ?_
      by_cases h : ∀ i, psi i q = psi i m
      · rw [if_pos ((e3 q).mpr h), if_pos h]
      · rw [if_neg fun e => h ((e3 q).mp e), if_neg h]
    have e5 : ((Nat.card {q // ∀ i, psi i q = psi i m} : ℕ) : ℝ) =
        ∑ q, if ∀ i, psi i q = psi i m then (1 : ℝ) else 0 := by
      rw [sum_boole, Nat.card_eq_fintype_card, Fintype.card_subtype]
    rw [e4, e5]
    refine le_trans (le_of_eq ?_) (h3.trans hδε)
    congr!
  · obtain ⟨n, hn⟩ : (⟨_, m, rfl⟩ : {v : Vec C ℝ // ∃ m, v = fun i => psi i m}) ∈ Set.range k := by
      rw [j2]; exact ⟨m, rfl⟩
    obtain ⟨p, hp⟩ := hsurj n
    have hkn : (k n).1 = fun i => psi i m := by rw [hn]
    refine ⟨p, ?_, fun q hq => ?_⟩
    · show eucl (so.2.fractions p) _ ≤ ε
      have := (j3 n).1
      rw [hkn] at this
      rw [hp]
      linarith
    · obtain ⟨n', -, e'⟩ := hmem q
      have hq : eucl (so.2.fractions q) (fun i => psi i m) ≤ ε := hq
      have h1 := hsep n' m (by rw [← e']; exact hq)
      have : n' = n := j1 (Subtype.ext (by rw [h1, hkn]))
      exact hnd (by rw [e', hp, this])

end Clusters

section Run

/-- Runs with equal volumes and fields near `T` return phases with the property `Q`. -/
def ArrivesAt {C S M : ℕ} [NeZero M] (e : RunEnv C S M ℝ G) (maxSteps : ℚ) (tol : ℝ) (T : Mat S M ℝ) (U : ℝ)
    (Q : Phases M C ℝ → Diagnostics ℝ → Prop) : Prop :=
  ∀ (st : State C S M ℝ G) (interval b : ℤ), 0 < interval → (∀ m, st.Js m = 1) →
    (∀ r m, |st.omegas r m - T r m| ≤ U) → (∀ k ∈ st.cons, k.Trivial) →
    ∃ f ph d, runImpl e maxSteps tol interval st b = (f, .ok (ph, d)) ∧ Q ph d

/-- They return the fractions `psi` and equal volumes up to `δ`. -/
def Arrives {C S M : ℕ} [NeZero M] (e : RunEnv C S M ℝ G) (maxSteps : ℚ) (tol : ℝ) (T : Mat S M ℝ)
    (psi : Mat C M ℝ) (U δ : ℝ) : Prop :=
  ArrivesAt e maxSteps tol T U fun ph d => ErrorsLT tol d ∧
    (∀ m i, |ph.fractions m i - psi i m| ≤ δ) ∧ ∀ m, |ph.volumes m - 1| ≤ δ

/-- A run of the parts of a finder whose fields are near those of the phases. -/
theorem near_instances {env : FinderEnv G} {C S M : ℕ} [NeZero M] {e : RunEnv C S M ℝ G} {pia : FHCompiled S ℝ}
    {pen : EntropyInst C S} {pes : EnsembleInst C} {ia : FHCompiled C ℝ} {gas : IdealC C}
    {es : CanonicalC C ℝ} {st : State C S M ℝ G} {s' : RunState C S M ℝ G} {ph : Phases M C ℝ}
    {d : Diagnostics ℝ} {maxSteps : ℚ} {tol : ℝ} {interval b : ℤ} {T : Mat C M ℝ} {U : ℝ}
    {Q : Phases M C ℝ → Diagnostics ℝ → Prop}
    (e1 : e.ia = pia.toI M) (e2 : e.en = pen.toI M) (e3 : e.es = pes.toI M) (e4 : e.crash = env.crash C S M)
    (h1 : (⟨S, pia⟩ : AnyInteraction) = ⟨C, ia⟩) (h2 : (⟨C, S, pen⟩ : AnyEntropy) = ⟨C, C, .ideal gas⟩)
    (h3 : (⟨C, pes⟩ : AnyEnsemble) = ⟨C, .canonical es⟩) (hJ : ∀ m, st.Js m = 1) (hint : 0 < interval)
    (H : ArrivesAt ⟨ia.toI M, gas.toI M, es.toI M, e.rng, e.params, e.criterion, env.crash C C M⟩ maxSteps tol T
      U Q)
    (hom : ∀ (r : Fin S) (q : Fin C) m, r.1 = q.1 → |st.omegas r m - T q m| ≤ U)
    (hcons : ∀ k ∈ st.cons, k.Trivial)
    (h : runImpl e maxSteps tol interval st b = (s', .ok (ph, d))) :
    Q ph d := by
  obtain rfl : S = C := congrArg Sigma.fst h1
  have h1' : pia = ia := by simpa using h1
  have h2' : pen = .ideal gas := by simpa using h2
  have h3' : pes = .canonical es := by simpa using h3
  subst h1' h2' h3'
  obtain ⟨f, ph', d', k1, k2⟩ := H st interval b hint hJ (fun r m => hom r r m rfl) hcons
  have he : e = ⟨pia.toI M, gas.toI M, es.toI M, e.rng, e.params, e.criterion, env.crash S S M⟩ := by
    obtain ⟨x1, x2, x3, x4, x5, x6, x7⟩ := e
    dsimp only at e1 e2 e3 e4
    subst e1 e2 e3 e4
    rfl
  rw [← he, h] at k1
  obtain ⟨-, k1⟩ := Prod.mk.inj k1
  obtain ⟨rfl, rfl⟩ := Prod.mk.inj (Except.ok.inj k1)
  exact k2

/-- The same for a finder. -/
theorem finder_run_near {env : FinderEnv G} {f f' : Finder G} {out : RunOut}
    {ia : FHCompiled out.numComp ℝ} {gas : IdealC out.numComp} {es : CanonicalC out.numComp ℝ}
    {T : Mat out.numComp out.numPart ℝ} {U : ℝ} [NeZero out.numPart]
    {Q : Phases out.numPart out.numComp ℝ → Diagnostics ℝ → Prop}
    (hrng : env.rng.Ok) (hthr : 0 ≤ f.params.killThreshold)
    (hia : f.interaction = ⟨_, ia⟩) (hen : f.entropy = ⟨_, _, .ideal gas⟩)
    (hes : f.ensemble = ⟨_, .canonical es⟩) (hJ : ∀ m, f.Js m = 1) (hint : 0 < f.interval)
    (H : ArrivesAt ⟨ia.toI out.numPart, gas.toI out.numPart, es.toI out.numPart, env.rng, f.params, f.criterion,
      env.crash _ _ _⟩ f.maxSteps f.tolerance T U Q)
    (hom : ∀ (r : Fin f.numFeat) (m : Fin f.numPart) q m', r.1 = q.1 → m.1 = m'.1 →
      |f.omegas r m - T q m'| ≤ U)
    (hcons : ∀ c ∈ enforced f, c.2 = .no) (hq : QuietFinder f)
    (h : f.run env none none none = (f', .ok out)) :
    Q out.phases out.diagnostics := by
  have hgood : GoodEntropy f.entropy := by rw [hen]; exact ⟨trivial, trivial⟩
  obtain ⟨k1, -⟩ := C40_finder hrng hthr hgood h
  cases hp : f.parts with
  | none => rw [run_none hp] at h; cases h
  | some p =>
    have hM : f.numPart ≠ 0 := fun h0 => by rw [run_zero hp h0] at h; cases h
    have : NeZero f.numPart := ⟨hM⟩
    rw [run_some hp] at h
    obtain ⟨e1, e2, e3, e4⟩ := parts_eq.mp hp
    rcases hr : runImpl (f.runEnv env p) ((none : Option ℚ).getD f.maxSteps) ((none : Option ℝ).getD f.tolerance)
        ((none : Option ℤ).getD f.interval) (f.state p.cons) f.reviveLeft with ⟨s, x⟩
    rw [hr] at h
    cases x with
    | error e => cases h
    | ok x =>
      obtain ⟨ph, d⟩ := x
      cases h
      refine near_instances (env := env) (e := f.runEnv env p) rfl rfl rfl rfl
        (e1.symm.trans hia) (e2.symm.trans hen) (e3.symm.trans hes) hJ hint H
        (fun r q m e => hom r m q m e rfl) (fun k hk => ?_) hr
      have h1 := hcons ⟨f.numFeat, consParams k⟩ (by
        unfold enforced
        rw [e4, List.map_map]
        exact List.mem_map.mpr ⟨k, hk, rfl⟩)
      have h2 := hq ⟨f.numFeat, true, k⟩ (by rw [e4]; exact List.mem_map.mpr ⟨k, hk, rfl⟩)
      cases k with
      | no x => exact h2
      | loc A x => cases h1
      | glob A x => cases h1

end Run

section Probability

variable {Ω : Type} [MeasurableSpace Ω] {P : Measure Ω}

/-- The probability that normal draws fall into given sets. -/
theorem draws_probability {n : ℕ} {rng : Rng G ℝ} {g : Ω → G} (h : NormalDraws P rng g n)
    {B : Fin n → Set ℝ} (hB : ∀ k, MeasurableSet (B k)) :
    P (⋂ k : Fin n, (fun ω => normalDraw rng (g ω) k) ⁻¹' B k) = ∏ k, gaussianReal 0 1 (B k) := by
  rw [h.2.meas_iInter fun k => ⟨B k, hB k, rfl⟩]
  refine prod_congr rfl fun k _ => ?_
  have hk := h.1 k k.2
  rw [← hk.map_eq, Measure.map_apply_of_aemeasurable hk.aemeasurable (hB k)]

/-- The probability that the draws of `n` independent searches never fall into given sets together. -/
theorem misses_probability {d : ℕ} {rng : Rng G ℝ} {g : ℕ → Ω → G} (h : IndependentSearches P rng g d)
    {B : Fin d → Set ℝ} (hB : ∀ k, MeasurableSet (B k)) (n : ℕ) :
    P (⋂ j ∈ range n, {ω | ∀ k : Fin d, normalDraw rng (g j ω) k ∈ B k}ᶜ) =
      (1 - ∏ k, gaussianReal 0 1 (B k)) ^ n := by
  have hP : IsProbabilityMeasure P := h.2.isProbabilityMeasure
  have hbox : MeasurableSet (Set.univ.pi B)ᶜ := (MeasurableSet.univ_pi hB).compl
  have e : ∀ j, {ω | ∀ k : Fin d, normalDraw rng (g j ω) k ∈ B k}ᶜ =
      (fun ω (k : Fin d) => normalDraw rng (g j ω) k) ⁻¹' (Set.univ.pi B)ᶜ := fun j => by
    ext ω
    simp
  rw [Set.iInter₂_congr fun j _ => e j, h.2.measure_inter_preimage_eq_mul _ fun j _ => hbox]
  refine (prod_congr rfl fun j _ => ?_).trans (by rw [prod_const, card_range])
  have hj := draws_probability (h.1 j) hB
  have hm : AEMeasurable (fun ω (k : Fin d) => normalDraw rng (g j ω) k) P :=
    aemeasurable_pi_lambda _ fun k => ((h.1 j).1 k k.2).aemeasurable
  rw [Set.preimage_compl, prob_compl_eq_one_sub₀ (hm.nullMeasurableSet_preimage (MeasurableSet.univ_pi hB)), ← hj]
  congr 2
  ext ω
  simp

theorem gaussian_interval_pos {s U t : ℝ} (hs : 0 < s) (hU : 0 < U) :
    MeasurableSet {x : ℝ | |s * x - t| ≤ U} ∧ 0 < gaussianReal 0 1 {x : ℝ | |s * x - t| ≤ U} := by
  refine ⟨measurableSet_le (by fun_prop) (by fun_prop), pos_iff_ne_zero.mpr fun h0 => ?_⟩
  have hv := gaussianReal_absolutelyContinuous' 0 (v := 1) one_ne_zero h0
  have hsub : Set.Ioo ((t - U) / s) ((t + U) / s) ⊆ {x : ℝ | |s * x - t| ≤ U} := fun x hx => by
    rw [Set.mem_Ioo, div_lt_iff₀ hs, lt_div_iff₀ hs] at hx
    show |s * x - t| ≤ U
    rw [abs_le]
    constructor <;> linarith [hx.1, hx.2]
  have := measure_mono_null hsub hv
  rw [Real.volume_Ioo, ENNReal.ofReal_eq_zero, ← sub_div, div_le_iff₀ hs] at this
  linarith

end Probability

section Search

variable {C M : ℕ}

/-- A search whose first fields are near given ones clusters what a run from there returns. -/
theorem shortcut_at {env : FinderEnv G} (hrng : env.rng.Ok) (ext : PhasesExt) (g : G) [NeZero C] [NeZero M]
    {chis : Mat C C ℝ} (hs : ∀ i j, chis i j = chis j i) {l phi : Vec C ℝ} {a : FinderArgs} {shift ρ a₀ : ℝ}
    (ha : Careful C M shift ρ a₀ a) (hsteps : 0 < a.maxSteps) {T : Mat C M ℝ} {U : ℝ}
    {Q : Phases M C ℝ → Diagnostics ℝ → Prop}
    (H : ArrivesAt ⟨(FHCompiled.new chis (-matMin chis + shift)).toI M, (⟨l⟩ : IdealC C).toI M,
      (⟨phi⟩ : CanonicalC C ℝ).toI M, env.rng, ⟨a.acceptanceJs, a.JsStepUpperBound, a.acceptanceOmega,
        a.killThreshold, a.reviveScaler⟩, a.criterion, env.crash C C M⟩ a.maxSteps a.tolerance T U Q)
    (hom : ∀ (r : Fin C) (m : Fin M), |a.randomStd * normalDraw env.rng g (r * M + m) - T r m| ≤ U) :
    ∃ r, findCoexistingPhases env ext g C (NDArr.ofMat chis) (some (NDArr.ofVec phi))
        (some (NDArr.ofVec l)) .none a = .ok r ∧ ∃ ph d cl so, Q ph d ∧
      ph.getClusters (ext.labels ph) = .ok cl ∧ cl.2.sort ext.argsort = .ok so ∧
      r = ⟨so.1, C, so.2.normalize, d⟩ := by
  have hC : 1 ≤ C := NeZero.one_le
  obtain ⟨r, hr⟩ := C59_returns hrng ext g hC chis l phi ha.std.le ha.kill ha.kill_one
    (by rw [ha.numPart]; exact ha.kill_share) ha.step ha.criterion hsteps ha.interval
  have hr' := hr
  obtain ⟨o1, o2, -, o3, -⟩ := shortcut_objects hC chis l phi
  set o : FHInteraction C ℝ := ⟨fun i j => 1 / 2 * (chis i j + chis j i), false⟩ with ho
  have hoc : o.chis = chis := by
    funext i j
    show 1 / 2 * (chis i j + chis j i) = chis i j
    rw [← hs i j]; ring
  unfold findCoexistingPhases at hr
  rw [o1, bind_ok, o2, bind_ok] at hr
  obtain ⟨-, -, hr⟩ := bind_eq_ok.mp hr
  rw [o3, bind_ok] at hr
  obtain ⟨f, hf, h⟩ := bind_eq_ok.mp hr
  dsimp only at h
  rcases hrun : f.run env none none none with ⟨f', res⟩
  rw [hrun] at h
  obtain ⟨out, hout, h⟩ := bind_eq_ok.mp h
  dsimp only at hout
  subst hout
  obtain ⟨cl, hcl, h⟩ := bind_eq_ok.mp h
  obtain ⟨so, hso, h⟩ := bind_eq_ok.mp h
  obtain ⟨ia, en, es', x1, x2, x3, -, x4, hcr⟩ := create_ok hf
  rw [InstObj.compiled_eq] at x2 x3
  obtain rfl := Except.ok.inj x2
  obtain rfl := Except.ok.inj x3
  have hC0 : C ≠ 0 := NeZero.ne C
  have hia : ia = ⟨C, FHCompiled.new chis (-matMin chis + shift)⟩ := by
    rw [InstObj.compiled_eq] at x1
    simp only [FHInteraction.obj, dif_neg hC0, List.mem_singleton, if_true] at x1
    rw [← Except.ok.inj x1, ha.shift]
    unfold FHInteraction.compile
    rw [hoc]
  have hthr' : 0 ≤ f.params.killThreshold := by rw [hcr.params]; exact ha.kill
  obtain ⟨k1, k2, k3, k4⟩ := C40_finder hrng hthr'
    (by rw [hcr.entropy]; exact ⟨trivial, trivial⟩) hrun
  rw [k3] at h
  obtain rfl := Except.ok.inj h
  obtain ⟨M', N, ph, d⟩ := out
  dsimp only at k1 k2 k4 cl hcl so hso hr' ⊢
  have hNC : N = C := k2.trans hcr.numComp
  subst hNC
  have hM' : M' = M := by
    rw [k1, hcr.numPart, ← ha.numPart]
    unfold Finder.partNumber
    cases a.numPart with
    | none => rfl
    | some n => by_cases hn : n = 0 <;> simp [hn]
  subst hM'
  obtain ⟨c1, c2, -, c4, -⟩ := C78_created hf
  have q := finder_run_near (f := f) (out := ⟨M', N, ph, d⟩) (T := T) (U := U) (Q := Q) hrng hthr'
    (by rw [hcr.interaction, hia]) (by rw [hcr.entropy])
    (by rw [hcr.ensemble]) (es := ⟨phi⟩) c4 (by rw [hcr.interval]; exact ha.interval)
    (by rw [hcr.params, hcr.criterion, hcr.maxSteps, hcr.tolerance]; exact H)
    (fun r m q m' e1 e2 => by
      rw [c2, e1, e2, ← k1]
      exact hom q m')
    (fun x hx => by
      rw [hcr.enforced] at hx
      obtain ⟨y, hy, rfl⟩ := List.mem_map.mp hx
      rw [List.mem_singleton.mp hy, PackedCons.ofNew_enforces])
    (quiet_created hf) hrun
  exact ⟨_, hr', ph, d, cl, so, q, hcl, hso, rfl⟩

/-- A search whose first fields are near those of separated phases finds them. -/
theorem shortcut_near {env : FinderEnv G} (hrng : env.rng.Ok) (ext : PhasesExt) (g : G) [NeZero C] [NeZero M]
    (hext : ∀ {P : ℕ} (x : Phases P C ℝ), 2 ≤ P → FCluster (1 / 100) x.fractions (ext.labels x))
    {chis : Mat C C ℝ} (hs : ∀ i j, chis i j = chis j i) {l phi : Vec C ℝ} {a : FinderArgs} {shift ρ a₀ : ℝ}
    (ha : Careful C M shift ρ a₀ a) (hsteps : 0 < a.maxSteps) {psi T : Mat C M ℝ} {U δ ε : ℝ} (hδ : 0 ≤ δ)
    (hδε : 4 * (C * δ) ≤ ε) (hε : ε ≤ 1 / 200)
    (far : ∀ m n, (∃ i, psi i m ≠ psi i n) →
      1 / 100 + 2 * (C * δ) < eucl (fun i => psi i m) (fun i => psi i n))
    (H : Arrives ⟨(FHCompiled.new chis (-matMin chis + shift)).toI M, (⟨l⟩ : IdealC C).toI M,
      (⟨phi⟩ : CanonicalC C ℝ).toI M, env.rng, ⟨a.acceptanceJs, a.JsStepUpperBound, a.acceptanceOmega,
        a.killThreshold, a.reviveScaler⟩, a.criterion, env.crash C C M⟩ a.maxSteps a.tolerance T psi U δ)
    (hom : ∀ (r : Fin C) (m : Fin M), |a.randomStd * normalDraw env.rng g (r * M + m) - T r m| ≤ U) :
    ∃ r, findCoexistingPhases env ext g C (NDArr.ofMat chis) (some (NDArr.ofVec phi))
        (some (NDArr.ofVec l)) .none a = .ok r ∧ ErrorsLT a.tolerance r.info ∧ Finds psi ε r := by
  obtain ⟨r, hr, ph, d, cl, so, ⟨q1, q2, q3⟩, hcl, hso, rfl⟩ := shortcut_at hrng ext g hs ha hsteps H hom
  have hCr : (1 : ℝ) ≤ C := by exact_mod_cast (NeZero.one_le : 1 ≤ C)
  have hδN : δ ≤ C * δ := le_mul_of_one_le_left hδ hCr
  refine ⟨_, hr, q1, finds_of_near (δ := C * δ) (by positivity) hδε hε
    (hext ph) (fun m => (q3 m).trans hδN) (fun m => ?_) far hcl hso d⟩
  refine (eucl_le_sum _ _).trans ((sum_le_sum fun i _ => q2 m i).trans ?_)
  simp

/-- Draws that fall into certain intervals lead to the phases. -/
theorem found_box {env : FinderEnv G} (hrng : env.rng.Ok) (ext : PhasesExt) [NeZero C] [NeZero M]
    (hext : ∀ {P : ℕ} (x : Phases P C ℝ), 2 ≤ P → FCluster (1 / 100) x.fractions (ext.labels x))
    {chis : Mat C C ℝ} (hs : ∀ i j, chis i j = chis j i) {l : Vec C ℝ} (hl : ∀ i, 0 < l i) {phi : Vec C ℝ}
    {psi : Mat C M ℝ} (hco : Coexistence chis id l phi (fun _ => 1) psi)
    (hstab : ∀ m, StablePhase chis id l fun i => psi i m)
    (far : ∀ m n, (∃ i, psi i m ≠ psi i n) → 1 / 100 < eucl (fun i => psi i m) (fun i => psi i n))
    {ρ : ℝ} (hρ : 0 < ρ) (hρl : ∀ i, ρ < 4 * l i) :
    ∃ s₀, ∀ shift, s₀ ≤ shift → ∃ a₀ > 0, ∀ a : FinderArgs, Careful C M shift ρ a₀ a →
      ∀ ε > 0, ε ≤ 1 / 200 → ∃ (box : Fin (C * M) → Set ℝ) (N : ℕ),
      (∀ k, MeasurableSet (box k) ∧ 0 < gaussianReal 0 1 (box k)) ∧ ∀ maxSteps : ℚ, N ≤ maxSteps →
      ∀ g : G, (∀ k : Fin (C * M), normalDraw env.rng g k ∈ box k) →
        g ∈ foundEvent env ext id chis l phi a maxSteps psi ε := by
  obtain ⟨s₁, h1⟩ := C91_converges (G := G) (feat := id) (es := ⟨phi⟩) (J := fun _ : Fin M => 1) hs hl
    Function.surjective_id (fun _ => one_pos) hco hstab (R := ρ) (fun i m => by simpa using hρl i)
  refine ⟨s₁ + matMin chis, fun shift hsh => ?_⟩
  obtain ⟨a₀, ha₀, h2⟩ := h1 (-matMin chis + shift) (by linarith) ρ hρ le_rfl
  refine ⟨a₀, ha₀, fun a ha ε hε hε' => ?_⟩
  obtain ⟨η, hη, B, hB, q, hq0, hq1, h3⟩ := h2
    ⟨(FHCompiled.new chis (-matMin chis + shift)).toI M, (⟨l⟩ : IdealC C).toI M,
      (⟨phi⟩ : CanonicalC C ℝ).toI M, env.rng, ⟨a.acceptanceJs, a.JsStepUpperBound, a.acceptanceOmega,
        a.killThreshold, a.reviveScaler⟩, a.criterion, env.crash C C M⟩
    hrng ha.kill ha.kill_one ha.kill_share (fun _ => ha.kill_one) ha.step ha.criterion rfl
    (IdealC.isIdealGas _) rfl ha.omega ha.omega_le ha.Js
  have hCpos : (0 : ℝ) < C := by exact_mod_cast Nat.pos_of_ne_zero (NeZero.ne C)
  classical
  obtain ⟨γ, hγ, hgap⟩ := Sep.exists_lower (fun mn : Fin M × Fin M => if ∃ i, psi i mn.1 ≠ psi i mn.2 then
      eucl (fun i => psi i mn.1) (fun i => psi i mn.2) - 1 / 100 else 1) fun mn => by
    split_ifs with h
    · exact sub_pos.mpr (far _ _ h)
    · exact one_pos
  set δ := min (ε / 4) (γ / 4) / C with hδ
  have hδ0 : 0 < δ := by positivity
  have hCδ : C * δ = min (ε / 4) (γ / 4) := by rw [hδ]; field_simp
  set U := min η (δ / B) with hU
  have hU0 : 0 < U := by positivity
  have hBU : B * U ≤ δ := by
    have := min_le_right η (δ / B)
    rwa [← hU, le_div_iff₀ hB, mul_comm] at this
  obtain ⟨K, -, h3⟩ := h3 fun _ => 0
  obtain ⟨N, hN, h4⟩ := h3 a.tolerance ha.tolerance
  set T : Mat C M ℝ := fun r m => equilibriumField chis id l (fun j => psi j m) r with hT
  set box : Fin (C * M) → Set ℝ := fun k =>
    {x | |a.randomStd * x - T (finProdFinEquiv.symm k).1 (finProdFinEquiv.symm k).2| ≤ U} with hbox
  have hpos : ∀ k, MeasurableSet (box k) ∧ 0 < gaussianReal 0 1 (box k) := fun k =>
    gaussian_interval_pos ha.std hU0
  refine ⟨box, N, hpos, fun maxSteps hmax g hg => ?_⟩
  have hω' : ∀ (r : Fin C) (m : Fin M),
      |a.randomStd * normalDraw env.rng g (r * M + m) - T r m| ≤ U := fun r m => by
    have := hg (finProdFinEquiv (r, m))
    have e : ((finProdFinEquiv (r, m) : Fin (C * M)) : ℕ) = r * M + m := by
      rw [finProdFinEquiv_apply_val]; ring
    simpa only [hbox, Set.mem_ofPred_eq, Equiv.symm_apply_apply, e] using this
  have hsteps : 0 < maxSteps := lt_of_lt_of_le (by exact_mod_cast hN.1) hmax
  refine shortcut_near hrng ext g hext hs (a := { a with maxSteps := maxSteps }) (shift := shift) (ρ := ρ)
    (a₀ := a₀) ⟨ha.numPart, ha.shift, ha.std, ha.kill, ha.kill_one, ha.kill_share, ha.step, ha.criterion,
      ha.tolerance, ha.interval, ha.omega, ha.omega_le, ha.Js⟩ hsteps (T := T) (U := U) hδ0.le ?_ hε' ?_ ?_ hω'
  · rw [hCδ]
    linarith [min_le_left (ε / 4) (γ / 4)]
  · intro m n hmn
    have h5 := hgap (m, n)
    dsimp only at h5
    rw [if_pos hmn] at h5
    rw [hCδ]
    linarith [min_le_right (ε / 4) (γ / 4)]
  · intro st interval b hint hJ hom hcons
    obtain ⟨f, ph, d, k1, -, k2, k3, k4, -, k5, -, k6, -⟩ := h4 st U hU0.le (min_le_left _ _)
      (by simp [hJ]) (fun m => by rw [hJ, sub_self, abs_zero]; exact hU0.le)
      (fun r m => by rw [add_zero]; exact hom r m) hcons maxSteps interval b hmax hint
    refine ⟨f, ph, d, k1, ⟨k2, k3, k4⟩, fun m i => (k5 m i).trans (le_trans ?_ hBU),
      fun m => (k6 m).trans hBU⟩
    exact mul_le_of_le_one_right (by positivity) (pow_le_one₀ hq0.le hq1.le)

/-- **C94**: if as many compartments as there are can coexist in equal volumes as stable phases that differ by
more than 0.01, then `find_coexisting_phases` finds these phases, to any accuracy, with a probability that is
positive and does not depend on the generator, provided that the shift is large enough, `acceptance_omega` is
small enough and there are enough steps. -/
theorem C94_found {env : FinderEnv G} (hrng : env.rng.Ok) (ext : PhasesExt) [NeZero C] [NeZero M]
    (hext : ∀ {P : ℕ} (x : Phases P C ℝ), 2 ≤ P → FCluster (1 / 100) x.fractions (ext.labels x))
    {chis : Mat C C ℝ} (hs : ∀ i j, chis i j = chis j i) {l : Vec C ℝ} (hl : ∀ i, 0 < l i) {phi : Vec C ℝ}
    {psi : Mat C M ℝ} (hco : Coexistence chis id l phi (fun _ => 1) psi)
    (hstab : ∀ m, StablePhase chis id l fun i => psi i m)
    (far : ∀ m n, (∃ i, psi i m ≠ psi i n) → 1 / 100 < eucl (fun i => psi i m) (fun i => psi i n))
    {ρ : ℝ} (hρ : 0 < ρ) (hρl : ∀ i, ρ < 4 * l i) :
    ∃ s₀, ∀ shift, s₀ ≤ shift → ∃ a₀ > 0, ∀ a : FinderArgs, Careful C M shift ρ a₀ a →
      ∀ ε > 0, ε ≤ 1 / 200 → ∃ p > 0, ∃ N : ℕ, ∀ maxSteps : ℚ, N ≤ maxSteps →
      ∀ {Ω : Type} [MeasurableSpace Ω] {P : Measure Ω} {g : Ω → G}, NormalDraws P env.rng g (C * M) →
        p ≤ P (foundEvent env ext g chis l phi a maxSteps psi ε) := by
  obtain ⟨s₁, h1⟩ := found_box hrng ext hext hs hl hco hstab far hρ hρl
  refine ⟨s₁, fun shift hsh => ?_⟩
  obtain ⟨a₀, ha₀, h2⟩ := h1 shift hsh
  refine ⟨a₀, ha₀, fun a ha ε hε hε' => ?_⟩
  obtain ⟨box, N, hpos, h3⟩ := h2 a ha ε hε hε'
  refine ⟨∏ k, gaussianReal 0 1 (box k), CanonicallyOrderedAdd.prod_pos.mpr fun k _ => (hpos k).2, N,
    fun maxSteps hmax Ω _ P g hg => ?_⟩
  rw [← draws_probability hg fun k => (hpos k).1]
  exact measure_mono fun ω hω => h3 maxSteps hmax (g ω) fun k => Set.mem_iInter.mp hω k

/-- **C94**, repeated searches: of independent searches, the first `n` all miss the phases with a probability
that decreases exponentially with `n`; almost surely some search finds them. -/
theorem C94_repeated {env : FinderEnv G} (hrng : env.rng.Ok) (ext : PhasesExt) [NeZero C] [NeZero M]
    (hext : ∀ {P : ℕ} (x : Phases P C ℝ), 2 ≤ P → FCluster (1 / 100) x.fractions (ext.labels x))
    {chis : Mat C C ℝ} (hs : ∀ i j, chis i j = chis j i) {l : Vec C ℝ} (hl : ∀ i, 0 < l i) {phi : Vec C ℝ}
    {psi : Mat C M ℝ} (hco : Coexistence chis id l phi (fun _ => 1) psi)
    (hstab : ∀ m, StablePhase chis id l fun i => psi i m)
    (far : ∀ m n, (∃ i, psi i m ≠ psi i n) → 1 / 100 < eucl (fun i => psi i m) (fun i => psi i n))
    {ρ : ℝ} (hρ : 0 < ρ) (hρl : ∀ i, ρ < 4 * l i) :
    ∃ s₀, ∀ shift, s₀ ≤ shift → ∃ a₀ > 0, ∀ a : FinderArgs, Careful C M shift ρ a₀ a →
      ∀ ε > 0, ε ≤ 1 / 200 → ∃ p > 0, p ≤ 1 ∧ ∃ N : ℕ, ∀ maxSteps : ℚ, N ≤ maxSteps →
      ∀ {Ω : Type} [MeasurableSpace Ω] {P : Measure Ω} {g : ℕ → Ω → G},
        IndependentSearches P env.rng g (C * M) →
        (∀ n, P {ω | ∀ j < n, ω ∉ foundEvent env ext (g j) chis l phi a maxSteps psi ε} ≤ (1 - p) ^ n) ∧
        ∀ᵐ ω ∂P, ∃ j, ω ∈ foundEvent env ext (g j) chis l phi a maxSteps psi ε := by
  obtain ⟨s₁, h1⟩ := found_box hrng ext hext hs hl hco hstab far hρ hρl
  refine ⟨s₁, fun shift hsh => ?_⟩
  obtain ⟨a₀, ha₀, h2⟩ := h1 shift hsh
  refine ⟨a₀, ha₀, fun a ha ε hε hε' => ?_⟩
  obtain ⟨box, N, hpos, h3⟩ := h2 a ha ε hε hε'
  have hp : 0 < ∏ k, gaussianReal 0 1 (box k) := CanonicallyOrderedAdd.prod_pos.mpr fun k _ => (hpos k).2
  refine ⟨∏ k, gaussianReal 0 1 (box k), hp, prod_le_one' fun k _ => prob_le_one, N,
    fun maxSteps hmax Ω _ P g hg => ?_⟩
  have hn : ∀ n, P {ω | ∀ j < n, ω ∉ foundEvent env ext (g j) chis l phi a maxSteps psi ε} ≤
      (1 - ∏ k, gaussianReal 0 1 (box k)) ^ n := fun n => by
    refine le_trans (measure_mono fun ω hω => ?_) (misses_probability hg (fun k => (hpos k).1) n).le
    exact Set.mem_iInter₂.mpr fun j hj h => hω j (mem_range.mp hj) (h3 maxSteps hmax (g j ω) h)
  refine ⟨hn, ?_⟩
  rw [ae_iff]
  push Not
  refine le_antisymm (ge_of_tendsto' (ENNReal.tendsto_pow_atTop_nhds_zero_of_lt_one
    (ENNReal.sub_lt_self ENNReal.one_ne_top one_ne_zero hp.ne')) fun n => ?_) zero_le
  refine (measure_mono fun ω (hω : ∀ j, _) => ?_).trans (hn n)
  exact fun j _ => hω j

/-- The mean composition in all compartments is balanced, too. -/
theorem coexistence_mean [NeZero M] {chis : Mat C C ℝ} {l phi : Vec C ℝ} {psi : Mat C M ℝ}
    (hco : Coexistence chis id l phi (fun _ => 1) psi) :
    Coexistence chis id l phi (fun _ => 1) fun i (_ : Fin M) => phi i := by
  have hM : (0 : ℝ) < M := by exact_mod_cast Nat.pos_of_ne_zero (NeZero.ne M)
  have hphi : ∀ i, M * phi i = ∑ m, psi i m := fun i => by rw [← hco.mean i]; simp
  refine ⟨by simp, fun i _ => ?_, fun _ => ?_, fun i => by simp, _, fun i m => rfl⟩
  · have : 0 < M * phi i := by
      rw [hphi]
      exact sum_pos (fun m _ => hco.pos i m) univ_nonempty
    exact (mul_pos_iff_of_pos_left hM).mp this
  · have : M * ∑ i, phi i = M * 1 := by
      rw [mul_sum, sum_congr rfl fun i _ => hphi i, sum_comm, sum_congr rfl fun m _ => hco.incompressible m]
      simp
    exact mul_left_cancel₀ hM.ne' this

/-- **C94**, metastable mean composition: when the mean composition is stable, too, the same search returns
the separated phases with positive probability and the single phase of mean composition with positive
probability. -/
theorem C94_both {env : FinderEnv G} (hrng : env.rng.Ok) (ext : PhasesExt) [NeZero C] [NeZero M]
    (hext : ∀ {P : ℕ} (x : Phases P C ℝ), 2 ≤ P → FCluster (1 / 100) x.fractions (ext.labels x))
    {chis : Mat C C ℝ} (hs : ∀ i j, chis i j = chis j i) {l : Vec C ℝ} (hl : ∀ i, 0 < l i) {phi : Vec C ℝ}
    {psi : Mat C M ℝ} (hco : Coexistence chis id l phi (fun _ => 1) psi)
    (hstab : ∀ m, StablePhase chis id l fun i => psi i m) (hmean : StablePhase chis id l phi)
    (far : ∀ m n, (∃ i, psi i m ≠ psi i n) → 1 / 100 < eucl (fun i => psi i m) (fun i => psi i n))
    {ρ : ℝ} (hρ : 0 < ρ) (hρl : ∀ i, ρ < 4 * l i) :
    ∃ s₀, ∀ shift, s₀ ≤ shift → ∃ a₀ > 0, ∀ a : FinderArgs, Careful C M shift ρ a₀ a →
      ∀ ε > 0, ε ≤ 1 / 200 → ∃ p > 0, ∃ N : ℕ, ∀ maxSteps : ℚ, N ≤ maxSteps →
      ∀ {Ω : Type} [MeasurableSpace Ω] {P : Measure Ω} {g : Ω → G}, NormalDraws P env.rng g (C * M) →
        p ≤ P (foundEvent env ext g chis l phi a maxSteps psi ε) ∧
        p ≤ P (foundEvent env ext g chis l phi a maxSteps (fun i (_ : Fin M) => phi i) ε) := by
  obtain ⟨s₁, h1⟩ := C94_found hrng ext hext hs hl hco hstab far hρ hρl
  obtain ⟨s₂, h2⟩ := C94_found hrng ext hext hs hl (coexistence_mean hco) (fun _ => hmean)
    (fun m n ⟨i, hi⟩ => absurd rfl hi) hρ hρl
  refine ⟨max s₁ s₂, fun shift hsh => ?_⟩
  obtain ⟨a₁, ha₁, h1⟩ := h1 shift ((le_max_left _ _).trans hsh)
  obtain ⟨a₂, ha₂, h2⟩ := h2 shift ((le_max_right _ _).trans hsh)
  refine ⟨min a₁ a₂, lt_min ha₁ ha₂, fun a ha ε hε hε' => ?_⟩
  obtain ⟨p₁, hp₁, N₁, h1⟩ := h1 a { ha with omega_le := ha.omega_le.trans (min_le_left _ _) } ε hε hε'
  obtain ⟨p₂, hp₂, N₂, h2⟩ := h2 a { ha with omega_le := ha.omega_le.trans (min_le_right _ _) } ε hε hε'
  refine ⟨min p₁ p₂, lt_min hp₁ hp₂, max N₁ N₂, fun maxSteps hN Ω _ P g hg => ⟨?_, ?_⟩⟩
  · exact (min_le_left _ _).trans (h1 maxSteps (le_trans (by exact_mod_cast le_max_left _ _) hN) hg)
  · exact (min_le_right _ _).trans (h2 maxSteps (le_trans (by exact_mod_cast le_max_right _ _) hN) hg)

/-- **C94**, number of phases: a search that finds `psi` returns as many phases as there are different columns,
so that different outcomes exclude each other. -/
theorem C94_count {psi : Mat C M ℝ} {ε : ℝ} (hε : ε ≤ 1 / 200)
    (far : ∀ m n, (∃ i, psi i m ≠ psi i n) → 1 / 100 < eucl (fun i => psi i m) (fun i => psi i n))
    {r : ShortcutResult} (h : Finds psi ε r) :
    r.numPhases = Nat.card (Set.range fun (m : Fin M) (i : Fin C) => psi i m) := by
  obtain ⟨P, ph, hr, h1, h2⟩ := h
  have hP : r.numPhases = P := congrArg ShortcutResult.numPhases hr
  rw [hP]
  choose m hm using h1
  have hcol : ∀ {p a b}, eucl (ph.fractions p) (fun i => psi i a) ≤ ε →
      eucl (ph.fractions p) (fun i => psi i b) ≤ ε → (fun i => psi i a) = fun i => psi i b := by
    intro p a b ha hb
    by_contra hne
    have h3 := far a b (by
      by_contra h
      push Not at h
      exact hne (funext h))
    have h4 := eucl_triangle (fun i => psi i a) (ph.fractions p) (fun i => psi i b)
    rw [eucl_comm] at ha
    linarith
  rw [← Nat.card_eq_of_bijective (fun p : Fin P => (⟨_, m p, rfl⟩ : Set.range fun m i => psi i m)) ⟨?_, ?_⟩]
  · simp
  · intro p q e
    have e : (fun i => psi i (m p)) = fun i => psi i (m q) := congrArg Subtype.val e
    refine (h2 (m p)).unique (hm p).1 ?_
    rw [e]
    exact (hm q).1
  · rintro ⟨v, n, rfl⟩
    obtain ⟨p, hp, -⟩ := h2 n
    exact ⟨p, Subtype.ext (hcol (hm p).1 hp)⟩

end Search

/-! ### Example -/

namespace Demo

/-- A generator that reads its normal draws from a list prepared before. -/
def gaussRng : Rng (ℕ × (ℕ → ℝ)) ℝ where
  uniform g := (0, g)
  normal g := (g.2 g.1, (g.1 + 1, g.2))
  integers g _ := (0, g)

theorem gaussRng_ok : gaussRng.Ok := ⟨fun _ => by norm_num [gaussRng], fun _ hi h => h⟩

theorem gauss_draws (n : ℕ) : NormalDraws (Measure.pi fun _ : Fin n => gaussianReal 0 1) gaussRng
    (fun x => tapeOf x) n := by
  have hk : ∀ (x : Fin n → ℝ) k, genAfter gaussRng (tapeOf x) k = (k, (tapeOf x).2) := fun x k => by
    induction k with
    | zero => rfl
    | succ k ih => simp only [genAfter, ih]; rfl
  have hd : ∀ (x : Fin n → ℝ) k, normalDraw gaussRng (tapeOf x) k = normalDraw tapeRng (tapeOf x) k := by
    intro x k
    have hk' : ∀ k, genAfter tapeRng (tapeOf x) k = (k, (tapeOf x).2) := fun k => by
      induction k with
      | zero => rfl
      | succ k ih => simp only [genAfter, ih]; rfl
    simp only [normalDraw, hk, hk']
    rfl
  have := tape_normal_law n
  unfold NormalDraws
  simp only [hd]
  exact this

/-- Seven compartments of composition (1/4, 3/4) and one of composition (3/4, 1/4). -/
noncomputable def eightPhi : Mat 2 8 ℝ := fun i m => coexPhi i (if m = 0 then 1 else 0)

theorem log_three_lt : Real.log 3 < 11 / 10 := by
  have h1 : Real.log ((3 : ℝ) ^ 10) < 11 := by
    rw [Real.log_lt_iff_lt_exp (by norm_num)]
    have h2 : (2.718 : ℝ) ^ 11 ≤ Real.exp 11 := by
      have h3 := Real.exp_one_gt_d9
      have h4 : Real.exp 11 = Real.exp 1 ^ 11 := by rw [← Real.exp_nat_mul]; norm_num
      rw [h4]
      exact pow_le_pow_left₀ (by norm_num) (by linarith) _
    exact lt_of_lt_of_le (by norm_num) h2
  rw [Real.log_pow] at h1
  norm_num at h1
  linarith

theorem eight_coexistence : Coexistence coexFH.chis id (fun _ => 1) ![5 / 16, 11 / 16] (fun _ : Fin 8 => 1)
    eightPhi := by
  refine ⟨by simp, fun i m => coexistence.pos i _, fun m => coexistence.incompressible _,
    fun i => ?_, ?_⟩
  · fin_cases i <;> (simp [eightPhi, coexPhi, Fin.sum_univ_succ]; norm_num)
  · obtain ⟨mu, h⟩ := coexistence.balance
    exact ⟨mu, fun i m => h i _⟩

theorem eight_mean : StablePhase coexFH.chis id (fun _ => 1) (![5 / 16, 11 / 16] : Vec 2 ℝ) := by
  refine stablePhase_binary coex_symm (fun _ => one_pos) (fun i => by fin_cases i <;> norm_num)
    (by rw [Fin.sum_univ_two]; norm_num) ?_
  have := log_three_lt
  simp [Binary.P, coexFH, FHCompiled.new]
  linarith

theorem eight_stable : ∀ m, StablePhase coexFH.chis id (fun _ => 1) fun i => eightPhi i m :=
  C91_binary_stable coex_symm (fun _ => one_pos) eight_coexistence (p := 0) (q := 1)
    (by simp [eightPhi, coexPhi]; norm_num)

theorem eight_far : ∀ m n : Fin 8, (∃ i, eightPhi i m ≠ eightPhi i n) →
    1 / 100 < eucl (fun i => eightPhi i m) (fun i => eightPhi i n) := by
  intro m n ⟨i, hi⟩
  refine lt_of_lt_of_le ?_ (abs_le_eucl _ _ 0)
  unfold eightPhi at hi ⊢
  by_cases hm : m = 0 <;> by_cases hn : n = 0
  · simp [hm, hn] at hi
  · simp [hm, hn, coexPhi]; norm_num [abs_of_pos]
  · simp [hm, hn, coexPhi]; norm_num [abs_of_neg]
  · simp [hm, hn] at hi

theorem gauss_draw {n : ℕ} (x : Fin n → ℝ) (k : Fin n) : normalDraw gaussRng (tapeOf x) k = x k := by
  have hk : ∀ k, genAfter gaussRng (tapeOf x) k = (k, (tapeOf x).2) := fun k => by
    induction k with
    | zero => rfl
    | succ k ih => simp only [genAfter, ih]; rfl
  simp only [normalDraw, hk]
  exact dif_pos k.2

theorem gauss_searches (n : ℕ) :
    IndependentSearches (Measure.infinitePi fun _ : ℕ => Measure.pi fun _ : Fin n => gaussianReal 0 1) gaussRng
      (fun j x => tapeOf (x j)) n := by
  have hmp := fun j => measurePreserving_eval_infinitePi
    (fun _ : ℕ => Measure.pi fun _ : Fin n => gaussianReal 0 1) j
  have hlaw : ∀ j (k : Fin n), HasLaw (fun x : ℕ → Fin n → ℝ => x j k) (gaussianReal 0 1)
      (Measure.infinitePi fun _ : ℕ => Measure.pi fun _ : Fin n => gaussianReal 0 1) := fun j k =>
    ((measurePreserving_eval (fun _ : Fin n => gaussianReal 0 1) k).comp (hmp j)).hasLaw
  refine ⟨fun j => ⟨fun k hk => ?_, ?_⟩, ?_⟩
  · have := hlaw j ⟨k, hk⟩
    simp only [← gauss_draw] at this
    exact this
  · simp only [gauss_draw]
    rw [iIndepFun_iff_map_fun_eq_pi_map fun k => (hlaw j k).aemeasurable]
    simp only [(hlaw j _).map_eq]
    exact (hmp j).map_eq
  · simp only [gauss_draw]
    exact iIndepFun_infinitePi (P := fun _ : ℕ => Measure.pi fun _ : Fin n => gaussianReal 0 1)
      (X := fun _ x => x) fun _ => measurable_id

theorem cluster_ext : ∃ ext : PhasesExt, ∀ {P C : ℕ} (x : Phases P C ℝ), 2 ≤ P →
    FCluster (1 / 100) x.fractions (ext.labels x) := by
  classical
  obtain ⟨argsort, hok⟩ := argsort_exists (K := ℝ)
  have hlab : ∀ {P C : ℕ} (x : Phases P C ℝ), ∃ labels, 2 ≤ P → FCluster (1 / 100) x.fractions labels := by
    intro P C x
    by_cases hP : 1 ≤ P
    · obtain ⟨labels, h⟩ := fcluster_exists hP (1 / 100) x.fractions
      exact ⟨labels, fun _ => h⟩
    · exact ⟨0, fun h => absurd h (by omega)⟩
  choose labels hlabels using @hlab
  exact ⟨⟨argsort, labels⟩, fun x hP => hlabels x hP⟩

end Demo

-- C94: a binary mixture with metastable mean composition (5/16, 11/16) and eight compartments.
example : ∃ (ext : PhasesExt) (a : FinderArgs) (p : ENNReal) (maxSteps : ℚ), 0 < p ∧
    p ≤ (Measure.pi fun _ : Fin (2 * 8) => gaussianReal 0 1)
      (foundEvent (⟨Demo.gaussRng, fun _ _ _ s => s⟩ : FinderEnv _) ext (fun x => Demo.tapeOf x)
        Demo.coexFH.chis (fun _ => 1) ![5 / 16, 11 / 16] a maxSteps Demo.eightPhi (1 / 1000)) ∧
    p ≤ (Measure.pi fun _ : Fin (2 * 8) => gaussianReal 0 1)
      (foundEvent (⟨Demo.gaussRng, fun _ _ _ s => s⟩ : FinderEnv _) ext (fun x => Demo.tapeOf x)
        Demo.coexFH.chis (fun _ => 1) ![5 / 16, 11 / 16] a maxSteps
        (fun i (_ : Fin 8) => (![5 / 16, 11 / 16] : Vec 2 ℝ) i) (1 / 1000)) ∧
    Nat.card (Set.range fun (m : Fin 8) (i : Fin 2) => Demo.eightPhi i m) = 2 := by
  obtain ⟨ext, hext⟩ := Demo.cluster_ext
  obtain ⟨s₀, h⟩ := C94_both (env := (⟨Demo.gaussRng, fun _ _ _ s => s⟩ : FinderEnv _)) Demo.gaussRng_ok
    ext hext Demo.coex_symm (fun _ => one_pos) Demo.eight_coexistence
    Demo.eight_stable Demo.eight_mean Demo.eight_far (ρ := 1 / 10) (by norm_num)
    (fun i => by norm_num)
  obtain ⟨a₀, ha₀, h⟩ := h s₀ le_rfl
  obtain ⟨p, hp, N, h⟩ := h
    { numPart := some 8
      kwargs := [("additional_chis_shift", s₀)]
      acceptanceOmega := a₀
      acceptanceJs := 1 / 10 * a₀ }
    ⟨rfl, rfl, by norm_num, by norm_num, by norm_num, by norm_num, by norm_num, rfl, by norm_num, by norm_num,
      ha₀, le_rfl, rfl⟩ (1 / 1000) (by norm_num) (by norm_num)
  obtain ⟨h1, h2⟩ := h N le_rfl (Demo.gauss_draws (2 * 8))
  refine ⟨_, _, p, N, hp, h1, h2, ?_⟩
  have : (Set.range fun (m : Fin 8) (i : Fin 2) => Demo.eightPhi i m) =
      ({![3 / 4, 1 / 4], ![1 / 4, 3 / 4]} : Set (Vec 2 ℝ)) := by
    ext v
    simp only [Set.mem_range, Set.mem_insert_iff, Set.mem_singleton_iff]
    constructor
    · rintro ⟨m, rfl⟩
      by_cases hm : m = 0
      · left; funext i; fin_cases i <;> simp [Demo.eightPhi, Demo.coexPhi, hm]
      · right; funext i; fin_cases i <;> simp [Demo.eightPhi, Demo.coexPhi, hm]
    · rintro (rfl | rfl)
      · exact ⟨0, by funext i; fin_cases i <;> simp [Demo.eightPhi, Demo.coexPhi]⟩
      · exact ⟨1, by funext i; fin_cases i <;> simp [Demo.eightPhi, Demo.coexPhi]⟩
  rw [this, Nat.card_coe_set_eq, Set.ncard_pair]
  intro e
  have := congrFun e 0
  norm_num at this

-- C94: of infinitely many independent searches, some return two phases and some return one.
example : ∃ (ext : PhasesExt) (a : FinderArgs) (maxSteps : ℚ),
    ∀ᵐ x ∂(Measure.infinitePi fun _ : ℕ => Measure.pi fun _ : Fin (2 * 8) => gaussianReal 0 1),
      (∃ j, x ∈ foundEvent (⟨Demo.gaussRng, fun _ _ _ s => s⟩ : FinderEnv _) ext (fun x => Demo.tapeOf (x j))
        Demo.coexFH.chis (fun _ => 1) ![5 / 16, 11 / 16] a maxSteps Demo.eightPhi (1 / 1000)) ∧
      ∃ j, x ∈ foundEvent (⟨Demo.gaussRng, fun _ _ _ s => s⟩ : FinderEnv _) ext (fun x => Demo.tapeOf (x j))
        Demo.coexFH.chis (fun _ => 1) ![5 / 16, 11 / 16] a maxSteps
        (fun i (_ : Fin 8) => (![5 / 16, 11 / 16] : Vec 2 ℝ) i) (1 / 1000) := by
  obtain ⟨ext, hext⟩ := Demo.cluster_ext
  obtain ⟨s₁, h1⟩ := C94_repeated (env := (⟨Demo.gaussRng, fun _ _ _ s => s⟩ : FinderEnv _)) Demo.gaussRng_ok
    ext hext Demo.coex_symm (fun _ => one_pos) Demo.eight_coexistence Demo.eight_stable Demo.eight_far
    (ρ := 1 / 10) (by norm_num) (fun i => by norm_num)
  obtain ⟨s₂, h2⟩ := C94_repeated (env := (⟨Demo.gaussRng, fun _ _ _ s => s⟩ : FinderEnv _)) Demo.gaussRng_ok
    ext hext Demo.coex_symm (fun _ => one_pos) (coexistence_mean Demo.eight_coexistence)
    (fun _ => Demo.eight_mean) (fun m n ⟨i, hi⟩ => absurd rfl hi) (ρ := 1 / 10) (by norm_num)
    (fun i => by norm_num)
  obtain ⟨a₁, ha₁, h1⟩ := h1 (max s₁ s₂) (le_max_left _ _)
  obtain ⟨a₂, ha₂, h2⟩ := h2 (max s₁ s₂) (le_max_right _ _)
  set a : FinderArgs :=
    { numPart := some 8
      kwargs := [("additional_chis_shift", max s₁ s₂)]
      acceptanceOmega := min a₁ a₂
      acceptanceJs := 1 / 10 * min a₁ a₂ } with ha
  have hc : ∀ a₀, min a₁ a₂ ≤ a₀ → Careful 2 8 (max s₁ s₂) (1 / 10) a₀ a := fun a₀ h =>
    ⟨rfl, rfl, by norm_num [ha], by norm_num [ha], by norm_num [ha], by norm_num [ha], by norm_num [ha], rfl,
      by norm_num [ha], by norm_num [ha], lt_min ha₁ ha₂, h, rfl⟩
  obtain ⟨p₁, -, -, N₁, h1⟩ := h1 a (hc _ (min_le_left _ _)) (1 / 1000) (by norm_num) (by norm_num)
  obtain ⟨p₂, -, -, N₂, h2⟩ := h2 a (hc _ (min_le_right _ _)) (1 / 1000) (by norm_num) (by norm_num)
  refine ⟨ext, a, (max N₁ N₂ : ℕ), ?_⟩
  filter_upwards [(h1 (max N₁ N₂ : ℕ) (by exact_mod_cast le_max_left N₁ N₂) (Demo.gauss_searches (2 * 8))).2,
    (h2 (max N₁ N₂ : ℕ) (by exact_mod_cast le_max_right N₁ N₂) (Demo.gauss_searches (2 * 8))).2] with x k1 k2
  exact ⟨k1, k2⟩

end Flory
