import Verif.Props.Initial
import Verif.Props.Interaction
import Verif.Lemmas.Compartments
import Mathlib.Probability.HasLaw
import Mathlib.Probability.Independence.Basic
import Mathlib.Probability.Distributions.Gaussian.Real
import Mathlib.Probability.Distributions.Uniform
import Mathlib.MeasureTheory.Measure.Lebesgue.Basic

/-!
# C89: distributions of random fields and interactions
-/

set_option linter.unusedSectionVars false

namespace Flory

open Spec MeasureTheory ProbabilityTheory

variable {G : Type}

section Facts

variable {Ω : Type} [MeasurableSpace Ω] {P : Measure Ω} [IsProbabilityMeasure P]

/-- Independent variables, one of them with no atoms, almost surely differ. -/
theorem ae_ne_of_indep {X Y : Ω → ℝ} {μ ν : Measure ℝ} (hX : HasLaw X μ P) (hY : HasLaw Y ν P)
    [SigmaFinite ν] [NullSingletonClass ν] (h : IndepFun X Y P) : ∀ᵐ ω ∂P, X ω ≠ Y ω := by
  have hp := (indepFun_iff_map_prod_eq_prod_map_map hX.aemeasurable hY.aemeasurable).mp h
  have hm : MeasurableSet {p : ℝ × ℝ | p.1 = p.2} := measurableSet_eq_fun measurable_fst measurable_snd
  have h0 : (P.map fun ω => (X ω, Y ω)) {p : ℝ × ℝ | p.1 = p.2} = 0 := by
    rw [hp, hX.map_eq, hY.map_eq]
    refine Measure.measure_prod_null_of_ae_null hm (Filter.Eventually.of_forall fun x => ?_)
    have : Prod.mk x ⁻¹' {p : ℝ × ℝ | p.1 = p.2} = {x} := by
      ext y; simp [eq_comm]
    simp only [this, Pi.zero_apply]
    exact measure_singleton x
  rw [Measure.map_apply_of_aemeasurable (hX.aemeasurable.prodMk hY.aemeasurable) hm] at h0
  rw [ae_iff]
  simpa using h0

/-- An affine function of a uniform variable is uniform. -/
theorem uniform_affine {X : Ω → ℝ} (hX : HasLaw X (cond volume (Set.Icc (-1 : ℝ) 1)) P) (c : ℝ) {d : ℝ}
    (hd : 0 < d) : HasLaw (fun ω => c + d * X ω) (cond volume (Set.Icc (c - d) (c + d))) P := by
  refine HasLaw.comp (Y := fun x : ℝ => c + d * x) ⟨by fun_prop, ?_⟩ hX
  have e : (fun x : ℝ => c + d * x) = (fun x => c + x) ∘ fun x => d * x := rfl
  have hpre : (fun x : ℝ => c + d * x) ⁻¹' Set.Icc (c - d) (c + d) = Set.Icc (-1) 1 := by
    ext x
    simp only [Set.mem_preimage, Set.mem_Icc]
    constructor
    · rintro ⟨h1, h2⟩
      exact ⟨by nlinarith, by nlinarith⟩
    · rintro ⟨h1, h2⟩
      exact ⟨by nlinarith, by nlinarith⟩
  have hv : Measure.map (fun x : ℝ => c + d * x) volume = ENNReal.ofReal |d⁻¹| • volume := by
    rw [e, ← Measure.map_map (by fun_prop) (by fun_prop), Real.map_volume_mul_left hd.ne',
      Measure.map_smul, map_add_left_eq_self]
  unfold ProbabilityTheory.cond
  rw [Measure.map_smul, ← hpre, ← Measure.restrict_map (by fun_prop) measurableSet_Icc, hv,
    Measure.restrict_smul, smul_smul, hpre]
  congr 1
  rw [Real.volume_Icc, Real.volume_Icc, abs_of_pos (inv_pos.mpr hd),
    ← ENNReal.ofReal_inv_of_pos (by norm_num), ← ENNReal.ofReal_mul (by norm_num),
    ← ENNReal.ofReal_inv_of_pos (by linarith)]
  congr 1
  have := hd.ne'
  field_simp
  ring_nf
  rw [mul_inv_cancel₀ this]

end Facts

/-- **C89**, initial fields: if the draws of the generator are independent standard normal variables,
then `reinitialize_random` makes the fields of all features in all compartments independent normal
variables with mean zero and the standard deviation `random_std`; and with a positive `random_std` it
almost surely happens that all fields are different, in particular no two compartments start equal. -/
theorem C89_fields {Ω : Type} [MeasurableSpace Ω] {P : Measure Ω} [IsProbabilityMeasure P]
    (env : FinderEnv G) (f : Finder G) (g : Ω → G) (hs : 0 ≤ f.randomStd)
    (hlaw : ∀ k < f.numFeat * f.numPart,
      HasLaw (fun ω => normalDraw env.rng (g ω) k) (gaussianReal 0 1) P)
    (hind : iIndepFun (fun (k : Fin (f.numFeat * f.numPart)) ω => normalDraw env.rng (g ω) k) P) :
    ∃ w : Ω → Mat f.numFeat f.numPart ℝ,
      (∀ ω, ∃ g', (({ f with g := g ω } : Finder G).reinitRandom env).2 = .ok () ∧
        Restarted { f with g := g ω } (({ f with g := g ω } : Finder G).reinitRandom env).1 (w ω) g') ∧
      (∀ r m, HasLaw (fun ω => w ω r m)
        (gaussianReal 0 (.mk (f.randomStd ^ 2) (sq_nonneg _))) P) ∧
      iIndepFun (fun (p : Fin f.numFeat × Fin f.numPart) ω => w ω p.1 p.2) P ∧
      (0 < f.randomStd → ∀ᵐ ω ∂P, ∀ r m r' m', (r, m) ≠ (r', m') → w ω r m ≠ w ω r' m') := by
  have hlt : ∀ (r : Fin f.numFeat) (m : Fin f.numPart),
      (r : ℕ) * f.numPart + m < f.numFeat * f.numPart := fun r m =>
    calc (r : ℕ) * f.numPart + m < (r + 1) * f.numPart := by rw [add_mul, one_mul]; omega
      _ ≤ _ := Nat.mul_le_mul_right _ r.2
  have hl : ∀ (r : Fin f.numFeat) (m : Fin f.numPart),
      HasLaw (fun ω => f.randomStd * normalDraw env.rng (g ω) (r * f.numPart + m))
        (gaussianReal 0 (.mk (f.randomStd ^ 2) (sq_nonneg _))) P := fun r m => by
    have h := gaussianReal_const_mul (hlaw _ (hlt r m)) f.randomStd
    rwa [mul_zero, mul_one] at h
  have hi : iIndepFun (fun (p : Fin f.numFeat × Fin f.numPart) ω =>
      f.randomStd * normalDraw env.rng (g ω) (p.1 * f.numPart + p.2)) P := by
    have hinj : Function.Injective (fun p : Fin f.numFeat × Fin f.numPart =>
        (⟨p.1 * f.numPart + p.2, hlt p.1 p.2⟩ : Fin (f.numFeat * f.numPart))) := by
      rintro ⟨r, m⟩ ⟨r', m'⟩ h
      have h : (r : ℕ) * f.numPart + m = r' * f.numPart + m' := congrArg Fin.val h
      have hm : (m : ℕ) = m' := by
        have := congrArg (· % f.numPart) h
        simpa [Nat.add_mod, Nat.mod_eq_of_lt m.2, Nat.mod_eq_of_lt m'.2] using this
      have hr : (r : ℕ) = r' := by
        rw [hm] at h
        exact Nat.eq_of_mul_eq_mul_right (Nat.pos_of_ne_zero fun h0 => by
          have := m.2; omega) (Nat.add_right_cancel h)
      exact Prod.ext (Fin.ext hr) (Fin.ext hm)
    exact (hind.precomp hinj).comp (fun _ x => f.randomStd * x) fun _ => by fun_prop
  refine ⟨fun ω r m => f.randomStd * normalDraw env.rng (g ω) (r * f.numPart + m), fun ω => ?_, hl, hi,
    fun hpos => ?_⟩
  · exact ⟨_, (C78_random env { f with g := g ω }).1 hs⟩
  · have : NullSingletonClass (gaussianReal 0 (.mk (f.randomStd ^ 2) (sq_nonneg _))) :=
      nullSingletonClass_gaussianReal fun h => by
        have := congrArg NNReal.toReal h
        simp at this
        exact hpos.ne' this
    simp only [ae_all_iff]
    intro r m r' m' hne
    exact ae_ne_of_indep (hl r m) (hl r' m') (hi.indepFun (i := (r, m)) (j := (r', m')) hne)

/-- A random matrix is symmetric with independent normal entries of the given mean and variance above
the diagonal, and with the same on the diagonal unless the diagonal vanishes. -/
structure ChiLaw {Ω : Type} [MeasurableSpace Ω] (P : Measure Ω) {C : ℕ} (vd : Bool) (mean : ℝ)
    (var : NNReal) (chis : Ω → Mat C C ℝ) : Prop where
  symm : ∀ ω i j, chis ω i j = chis ω j i
  diag : vd = true → ∀ ω i, chis ω i i = 0
  law : ∀ i j, i ≠ j ∨ vd = false → HasLaw (fun ω => chis ω i j) (gaussianReal mean var) P
  indep : iIndepFun (fun (p : {p : Fin C × Fin C // p.1 < p.2 ∨ vd = false ∧ p.1 = p.2}) ω =>
    chis ω p.1.1 p.1.2) P

theorem upperEntries_triu {C : ℕ} (vd : Bool) (chis : Mat C C ℝ) :
    upperEntries (!vd) chis = (FHInteraction.triuIndices C vd).map fun p => chis p.1 p.2 := by
  unfold upperEntries FHInteraction.triuIndices
  rw [List.map_flatMap]
  refine List.flatMap_congr fun i _ => ?_
  rw [List.map_map]
  cases vd <;> rfl

theorem chiLaw_of_upper {Ω : Type} [MeasurableSpace Ω] {P : Measure Ω} {C : ℕ} {vd : Bool} {mean : ℝ}
    {var : NNReal} {n : ℕ} {X : Fin n → Ω → ℝ} {chis : Ω → Mat C C ℝ}
    (hu : ∀ ω, upperEntries (!vd) (chis ω) = List.ofFn fun k => X k ω)
    (hs : ∀ ω i j, chis ω i j = chis ω j i) (hd : vd = true → ∀ ω i, chis ω i i = 0)
    (hlaw : ∀ k, HasLaw (X k) (gaussianReal mean var) P) (hind : iIndepFun X P)
    (hn : (FHInteraction.triuIndices C vd).length = n) :
    ChiLaw P vd mean var chis := by
  have key : ∀ p : {p : Fin C × Fin C // p.1 < p.2 ∨ vd = false ∧ p.1 = p.2},
      ∃ k : Fin n, (FHInteraction.triuIndices C vd)[k.1]'(by rw [hn]; exact k.2) = p.1 ∧
        ∀ ω, chis ω p.1.1 p.1.2 = X k ω := by
    rintro ⟨p, hp⟩
    have hmem : p ∈ FHInteraction.triuIndices C vd := by
      rw [mem_triu]
      rcases hp with h | ⟨rfl, h⟩
      · cases vd
        · simpa using h.le
        · simpa using h
      · simpa using h.le
    obtain ⟨k, hk, e⟩ := List.mem_iff_getElem.mp hmem
    refine ⟨⟨k, hn ▸ hk⟩, e, fun ω => ?_⟩
    have h := hu ω
    rw [upperEntries_triu] at h
    have h1 : ((FHInteraction.triuIndices C vd).map fun p => chis ω p.1 p.2)[k]? =
        (List.ofFn fun k => X k ω)[k]? := by rw [h]
    rw [List.getElem?_map, List.getElem?_eq_getElem hk, e, List.getElem?_ofFn, dif_pos (hn ▸ hk)] at h1
    simpa using h1
  choose pos hpos hval using key
  have hinj : Function.Injective pos := fun p q h => by
    apply Subtype.ext
    rw [← hpos p, ← hpos q]
    simp only [h]
  have hl : ∀ i j, (i < j ∨ vd = false ∧ i = j) →
      HasLaw (fun ω => chis ω i j) (gaussianReal mean var) P := fun i j h => by
    have : (fun ω => chis ω i j) = X (pos ⟨(i, j), h⟩) := funext fun ω => hval ⟨(i, j), h⟩ ω
    rw [this]
    exact hlaw _
  refine ⟨hs, hd, fun i j h => ?_, ?_⟩
  · rcases lt_trichotomy i j with h' | h' | h'
    · exact hl i j (.inl h')
    · exact hl i j (.inr ⟨h.resolve_left (not_not.mpr h'), h'⟩)
    · simp only [hs _ i j]
      exact hl j i (.inl h')
  · have : (fun (p : {p : Fin C × Fin C // p.1 < p.2 ∨ vd = false ∧ p.1 = p.2}) ω =>
        chis ω p.1.1 p.1.2) = fun p => X (pos p) := funext fun p => funext fun ω => hval p ω
    rw [this]
    exact hind.precomp hinj

/-- **C89**, random interactions: if the draws for a matrix are independent normal variables with the
requested mean and variance, then the matrix made by `from_random_normal`, and by `set_random_chis` on any
matrix of floats, is symmetric, the entries above the diagonal (and on it unless it is to vanish) are
independent normal variables with that mean and variance, and a diagonal that is to vanish is zero. -/
theorem C89_chis {Ω : Type} [MeasurableSpace Ω] {P : Measure Ω} [IsProbabilityMeasure P] {C : ℕ}
    (vd : Bool) (mean : ℝ) (var : NNReal) (draws : Ω → ℕ → List ℝ)
    (X : Fin (if vd then C * (C - 1) / 2 else C * (C + 1) / 2) → Ω → ℝ)
    (hlen : ∀ ω n, (draws ω n).length = n)
    (hX : ∀ ω, draws ω (if vd then C * (C - 1) / 2 else C * (C + 1) / 2) = List.ofFn fun k => X k ω)
    (hlaw : ∀ k, HasLaw (X k) (gaussianReal mean var) P) (hind : iIndepFun X P) :
    (∃ o : Ω → FHInteraction C ℝ, (∀ ω, FHInteraction.fromRandomNormal C (draws ω) vd = .ok (o ω)) ∧
      ChiLaw P vd mean var fun ω => (o ω).chis) ∧
    ∀ o : FHInteraction C ℝ, o.isInt = false →
      ChiLaw P vd mean var fun ω => (o.setRandom (draws ω) vd).chis := by
  have main : ∀ o : FHInteraction C ℝ, o.isInt = false →
      ChiLaw P vd mean var fun ω => (o.setRandom (draws ω) vd).chis := fun o ho => by
    refine chiLaw_of_upper (fun ω => ?_) (fun ω => setRandom_symm o (draws ω) vd) ?_ hlaw hind
      (length_triu vd)
    · rw [(C13_random_chis_partial (draws ω) (hlen ω) vd).1 o ho, hX ω]
    · rintro rfl ω i
      exact (C12_content o.chis o).2.2.2 (draws ω) i
  refine ⟨⟨fun ω => (⟨fun _ _ => 0, false⟩ : FHInteraction C ℝ).setRandom (draws ω) vd, fun ω => ?_,
    main _ rfl⟩, main⟩
  unfold FHInteraction.fromRandomNormal
  rw [new_scalar]; rfl

/-! ### Revived compartments -/

theorem reviveInner_draws {R M : ℕ} [NeZero M] (rng : Rng G ℝ) (centers widths : Vec R ℝ) (scaler : ℝ)
    (m : Fin M) (s : ReviveState R M ℝ G) (g : G) (n : ℕ) (hg : s.g = uniformAfter rng g n) :
    let s' := forRange R s fun r s =>
        { s with
          targets := setAt2 s.targets r m (centers r + widths r * scaler * (rng.uniform s.g).1)
          g := (rng.uniform s.g).2 }
    s'.Js = s.Js ∧ s'.count = s.count ∧ s'.g = uniformAfter rng g (n + R) ∧
    (∀ r, s'.targets r m = centers r + widths r * scaler * uniformDraw rng g (n + r)) ∧
    (∀ r m', m' ≠ m → s'.targets r m' = s.targets r m') := by
  intro s'
  have := forRange_inv (n := R) (s := s) (body := fun r s =>
        { s with
          targets := setAt2 s.targets r m (centers r + widths r * scaler * (rng.uniform s.g).1)
          g := (rng.uniform s.g).2 })
    (fun k t => t.Js = s.Js ∧ t.count = s.count ∧ t.g = uniformAfter rng g (n + k) ∧
      (∀ r : Fin R, (r : ℕ) < k →
        t.targets r m = centers r + widths r * scaler * uniformDraw rng g (n + r)) ∧
      (∀ r m', m' ≠ m → t.targets r m' = s.targets r m'))
    (by simp [hg]) (by
      rintro i t ⟨h1, h2, h5, h3, h4⟩
      refine ⟨h1, h2, by simp only [h5]; rfl, ?_, ?_⟩
      · intro r hr
        by_cases hri : r = i
        · subst hri
          simp [setAt2, h5, uniformDraw]
        · have : (r : ℕ) < i := by
            have : (r : ℕ) ≠ i := fun e => hri (Fin.ext e)
            omega
          simpa [setAt2, hri] using h3 r this
      · intro r m' hm
        simp [setAt2, hm, h4 r m' hm])
  obtain ⟨h1, h2, h5, h3, h4⟩ := this
  exact ⟨h1, h2, h5, fun r => h3 r r.2, h4⟩

/-- The number of dead compartments before compartment `m`. -/
noncomputable def deadBefore {M : ℕ} (Js : Vec M ℝ) (thr : ℝ) (m : ℕ) : ℕ :=
  (Finset.univ.filter fun m' : Fin M => (m' : ℕ) < m ∧ Js m' ≤ thr).card

theorem deadBefore_succ {M : ℕ} (Js : Vec M ℝ) (thr : ℝ) (i : Fin M) :
    deadBefore Js thr (i + 1) = deadBefore Js thr i + if Js i ≤ thr then 1 else 0 := by
  unfold deadBefore
  split_ifs with hd
  · have : (Finset.univ.filter fun m : Fin M => (m : ℕ) < i + 1 ∧ Js m ≤ thr) =
        insert i (Finset.univ.filter fun m : Fin M => (m : ℕ) < i ∧ Js m ≤ thr) := by
      ext m
      simp only [Finset.mem_filter, Finset.mem_univ, true_and, Finset.mem_insert]
      constructor
      · rintro ⟨a, b⟩
        rcases Nat.lt_succ_iff_lt_or_eq.mp a with h | h
        · exact Or.inr ⟨h, b⟩
        · exact Or.inl (Fin.ext h)
      · rintro (rfl | ⟨a, b⟩)
        · exact ⟨Nat.lt_succ_self _, hd⟩
        · exact ⟨by omega, b⟩
    rw [this, Finset.card_insert_of_notMem (by simp)]
  · rw [add_zero]
    congr 1
    ext m
    simp only [Finset.mem_filter, Finset.mem_univ, true_and]
    refine ⟨fun ⟨a, b⟩ => ⟨?_, b⟩, fun ⟨a, b⟩ => ⟨by omega, b⟩⟩
    have : (m : ℕ) ≠ i := fun e => hd (Fin.ext e ▸ b)
    omega

theorem deadBefore_mono {M : ℕ} (Js : Vec M ℝ) (thr : ℝ) {a b : ℕ} (h : a ≤ b) :
    deadBefore Js thr a ≤ deadBefore Js thr b :=
  Finset.card_le_card fun m hm => by
    simp only [Finset.mem_filter, Finset.mem_univ, true_and] at hm ⊢
    exact ⟨by omega, hm.2⟩

theorem deadBefore_inj {M : ℕ} {Js : Vec M ℝ} {thr : ℝ} {m m' : Fin M} (hm : Js m ≤ thr)
    (hm' : Js m' ≤ thr) (h : deadBefore Js thr m = deadBefore Js thr m') : m = m' := by
  have key : ∀ a b : Fin M, Js a ≤ thr → a < b → deadBefore Js thr a < deadBefore Js thr b :=
    fun a b ha hab => by
      have h1 := deadBefore_succ Js thr a
      rw [if_pos ha] at h1
      have h2 := deadBefore_mono Js thr (show (a : ℕ) + 1 ≤ b from hab)
      omega
  rcases lt_trichotomy m m' with hlt | he | hlt
  · exact absurd h (key _ _ hm hlt).ne
  · exact he
  · exact absurd h.symm (key _ _ hm' hlt).ne

/-- Which draw gives which field of a revived compartment. -/
theorem reviveByRandom_draws {R M : ℕ} [NeZero M] (rng : Rng G ℝ) (Js : Vec M ℝ) (T : Mat R M ℝ)
    (thr scaler : ℝ) (g : G) :
    let s := reviveByRandom rng Js T thr scaler g
    s.g = uniformAfter rng g (deadBefore Js thr M * R) ∧
    (∀ m, Js m ≤ thr → ∀ r, s.targets r m =
      (npMax (T r) + npMin (T r)) * (1 / 2) + (npMax (T r) - npMin (T r)) * (1 / 2) * scaler *
        uniformDraw rng g (deadBefore Js thr m * R + r)) ∧
    ∀ m, thr < Js m → ∀ r, s.targets r m = T r m := by
  intro s
  set centers : Vec R ℝ := fun r => (npMax (T r) + npMin (T r)) * (1 / 2) with hc
  set widths : Vec R ℝ := fun r => (npMax (T r) - npMin (T r)) * (1 / 2) with hw
  have := forRange_inv (n := M) (s := (⟨Js, T, g, 0⟩ : ReviveState R M ℝ G))
    (body := fun m s =>
      if s.Js m ≤ thr then
        let s := { s with Js := setAt s.Js m 1, count := s.count + 1 }
        forRange R s fun r s =>
          let d := rng.uniform s.g
          { s with
            targets := setAt2 s.targets r m (centers r + widths r * scaler * d.1)
            g := d.2 }
      else s)
    (fun k t => t.g = uniformAfter rng g (deadBefore Js thr k * R) ∧
      (∀ m : Fin M, (m : ℕ) < k → Js m ≤ thr → ∀ r, t.targets r m =
        centers r + widths r * scaler * uniformDraw rng g (deadBefore Js thr m * R + r)) ∧
      (∀ m : Fin M, k ≤ m → t.Js m = Js m) ∧
      ∀ m : Fin M, thr < Js m → ∀ r, t.targets r m = T r m)
    (by simp [deadBefore, uniformAfter]) (by
      rintro i t ⟨h1, h2, h3, h4⟩
      have hi := h3 i le_rfl
      by_cases hd : Js i ≤ thr
      · have hd' : t.Js i ≤ thr := hi ▸ hd
        simp only [hd', if_true]
        obtain ⟨e1, e2, e5, e3, e4⟩ := reviveInner_draws rng centers widths scaler i
          ({ t with Js := setAt t.Js i 1, count := t.count + 1 }) g _ h1
        refine ⟨?_, fun m hm hdm r => ?_, fun m hm => ?_, fun m hm r => ?_⟩
        · rw [deadBefore_succ, if_pos hd, add_mul, one_mul]
          exact e5
        · by_cases hmi : m = i
          · subst hmi
            exact e3 r
          · have hlt : (m : ℕ) < i := by
              have : (m : ℕ) ≠ i := fun e => hmi (Fin.ext e)
              omega
            rw [e4 r m hmi]
            exact h2 m hlt hdm r
        · rw [e1]
          have hmi : m ≠ i := by rintro rfl; omega
          exact (setAt_ne _ _ hmi).trans (h3 m (by omega))
        · have hmi : m ≠ i := fun e => absurd hd (not_le.mpr (e ▸ hm))
          rw [e4 r m hmi]
          exact h4 m hm r
      · have hd' : ¬ t.Js i ≤ thr := hi ▸ hd
        simp only [hd', if_false]
        refine ⟨by rw [deadBefore_succ, if_neg hd, add_zero]; exact h1, fun m hm hdm => ?_,
          fun m hm => h3 m (by omega), h4⟩
        have : (m : ℕ) ≠ i := fun e => hd (Fin.ext e ▸ hdm)
        exact h2 m (by omega) hdm)
  obtain ⟨k1, k2, -, k4⟩ := this
  exact ⟨k1, fun m hm r => k2 m m.2 hm r, k4⟩

/-- **C89**, random revival: if the draws are independent and uniform between -1 and 1, the new fields of
all revived compartments are independent; the field of feature `r` is uniform on the interval around the
middle of the range of this feature's fields, with half of the range times the scale as half width (if
that is positive; otherwise it is the middle). -/
theorem C89_revive {Ω : Type} [MeasurableSpace Ω] {P : Measure Ω} [IsProbabilityMeasure P]
    {R M : ℕ} [NeZero M] (rng : Rng G ℝ) (g : Ω → G) (Js : Vec M ℝ) (T : Mat R M ℝ)
    (thr scaler : ℝ) (hs : 0 ≤ scaler) (lo hi : Vec R ℝ)
    (hlo : ∀ r, IsLeast (Set.range (T r)) (lo r)) (hhi : ∀ r, IsGreatest (Set.range (T r)) (hi r))
    (hlaw : ∀ k < M * R, HasLaw (fun ω => uniformDraw rng (g ω) k) (cond volume (Set.Icc (-1 : ℝ) 1)) P)
    (hind : iIndepFun (fun (k : Fin (M * R)) ω => uniformDraw rng (g ω) k) P) :
    let new : Ω → Mat R M ℝ := fun ω => (reviveByRandom rng Js T thr scaler (g ω)).targets
    (∀ m, Js m ≤ thr → ∀ r, 0 < (hi r - lo r) / 2 * scaler → HasLaw (fun ω => new ω r m)
      (cond volume (Set.Icc ((lo r + hi r) / 2 - (hi r - lo r) / 2 * scaler)
        ((lo r + hi r) / 2 + (hi r - lo r) / 2 * scaler))) P) ∧
    (∀ m, Js m ≤ thr → ∀ r, (hi r - lo r) / 2 * scaler ≤ 0 → ∀ ω, new ω r m = (lo r + hi r) / 2) ∧
    (∀ m, thr < Js m → ∀ r ω, new ω r m = T r m) ∧
    iIndepFun (fun (p : {m : Fin M // Js m ≤ thr} × Fin R) ω => new ω p.2 p.1) P := by
  intro new
  have hmax : ∀ r, npMax (T r) = hi r := fun r =>
    npMax_eq_of _ _ (fun m => (hhi r).2 ⟨m, rfl⟩) (hhi r).1
  have hmin : ∀ r, npMin (T r) = lo r := fun r => by
    obtain ⟨m, hm⟩ := (hlo r).1
    obtain ⟨m', hm'⟩ := npMin_mem (T r)
    refine le_antisymm ?_ ?_
    · rw [← hm]; exact npMin_le _ m
    · rw [hm']; exact (hlo r).2 ⟨m', rfl⟩
  have hval : ∀ m, Js m ≤ thr → ∀ r ω, new ω r m = (lo r + hi r) / 2 +
      (hi r - lo r) / 2 * scaler * uniformDraw rng (g ω) (deadBefore Js thr m * R + r) :=
    fun m hm r ω => by
      have h := (reviveByRandom_draws rng Js T thr scaler (g ω)).2.1 m hm r
      rw [hmax, hmin] at h
      show (reviveByRandom rng Js T thr scaler (g ω)).targets r m = _
      rw [h]
      ring
  have hlt : ∀ (m : {m : Fin M // Js m ≤ thr}) (r : Fin R), deadBefore Js thr m.1 * R + r < M * R :=
    fun m r => by
      have h1 := deadBefore_succ Js thr m.1
      rw [if_pos m.2] at h1
      have h2 : deadBefore Js thr (m.1 + 1) ≤ M := by
        unfold deadBefore
        exact (Finset.card_le_univ _).trans (by simp)
      calc deadBefore Js thr m.1 * R + r < (deadBefore Js thr m.1 + 1) * R := by
            rw [add_mul, one_mul]; omega
        _ ≤ _ := Nat.mul_le_mul_right _ (by omega)
  refine ⟨fun m hm r hw => ?_, fun m hm r hw ω => ?_, fun m hm r ω => ?_, ?_⟩
  · simp only [hval m hm r]
    exact uniform_affine (hlaw _ (hlt ⟨m, hm⟩ r)) _ hw
  · have hle : lo r ≤ hi r := by
      obtain ⟨m', h⟩ := (hlo r).1
      rw [← h]
      exact (hhi r).2 ⟨m', rfl⟩
    have : (hi r - lo r) / 2 * scaler = 0 :=
      le_antisymm hw (mul_nonneg (by linarith) hs)
    rw [hval m hm r ω, this, zero_mul, add_zero]
  · exact (reviveByRandom_draws rng Js T thr scaler (g ω)).2.2 m hm r
  · have hinj : Function.Injective (fun p : {m : Fin M // Js m ≤ thr} × Fin R =>
        (⟨deadBefore Js thr p.1.1 * R + p.2, hlt p.1 p.2⟩ : Fin (M * R))) := by
      rintro ⟨m, r⟩ ⟨m', r'⟩ h
      have h : deadBefore Js thr m.1 * R + r = deadBefore Js thr m'.1 * R + r' := congrArg Fin.val h
      have hr : (r : ℕ) = r' := by
        have := congrArg (· % R) h
        simpa [Nat.add_mod, Nat.mod_eq_of_lt r.2, Nat.mod_eq_of_lt r'.2] using this
      have hm : deadBefore Js thr m.1 = deadBefore Js thr m'.1 := by
        rw [hr] at h
        exact Nat.eq_of_mul_eq_mul_right (Nat.pos_of_ne_zero fun h0 => by
          have := r.2; omega) (Nat.add_right_cancel h)
      exact Prod.ext (Subtype.ext (deadBefore_inj m.2 m'.2 hm)) (Fin.ext hr)
    have : (fun (p : {m : Fin M // Js m ≤ thr} × Fin R) ω => new ω p.2 p.1) = fun p ω =>
        (lo p.2 + hi p.2) / 2 + (hi p.2 - lo p.2) / 2 * scaler *
          uniformDraw rng (g ω) (deadBefore Js thr p.1.1 * R + p.2) :=
      funext fun p => funext fun ω => hval p.1.1 p.1.2 p.2 ω
    rw [this]
    exact (hind.precomp hinj).comp
      (fun p x => (lo p.2 + hi p.2) / 2 + (hi p.2 - lo p.2) / 2 * scaler * x) fun _ => by fun_prop

/-! ### Examples -/

namespace Demo

/-- A generator that reads its draws from a list prepared before. -/
def tapeRng : Rng (ℕ × (ℕ → ℝ)) ℝ where
  uniform g := (g.2 g.1, (g.1 + 1, g.2))
  normal g := (g.2 g.1, (g.1 + 1, g.2))
  integers g _ := (0, g)

/-- The generator whose first `n` draws are `x`. -/
def tapeOf {n : ℕ} (x : Fin n → ℝ) : ℕ × (ℕ → ℝ) := (0, fun k => if h : k < n then x ⟨k, h⟩ else 0)

theorem tape_normal {n : ℕ} (x : Fin n → ℝ) (k : ℕ) (h : k < n) :
    normalDraw tapeRng (tapeOf x) k = x ⟨k, h⟩ := by
  have hk : ∀ k, genAfter tapeRng (tapeOf x) k = (k, (tapeOf x).2) := fun k => by
    induction k with
    | zero => rfl
    | succ k ih => simp only [genAfter, ih]; rfl
  simp only [normalDraw, hk]
  exact dif_pos h

theorem tape_uniform {n : ℕ} (x : Fin n → ℝ) (k : ℕ) (h : k < n) :
    uniformDraw tapeRng (tapeOf x) k = x ⟨k, h⟩ := by
  have hk : ∀ k, uniformAfter tapeRng (tapeOf x) k = (k, (tapeOf x).2) := fun k => by
    induction k with
    | zero => rfl
    | succ k ih => simp only [uniformAfter, ih]; rfl
  simp only [uniformDraw, hk]
  exact dif_pos h

theorem tape_law (n : ℕ) (μ : Measure ℝ) [IsProbabilityMeasure μ] :
    (∀ k : Fin n, HasLaw (fun x : Fin n → ℝ => x k) μ (Measure.pi fun _ => μ)) ∧
    iIndepFun (fun (k : Fin n) (x : Fin n → ℝ) => x k) (Measure.pi fun _ => μ) :=
  ⟨fun k => ⟨(measurable_pi_apply k).aemeasurable, (measurePreserving_eval _ k).map_eq⟩,
    iIndepFun_pi (X := fun _ x => x) fun _ => aemeasurable_id⟩

theorem tape_normal_law (n : ℕ) :
    (∀ k < n, HasLaw (fun x : Fin n → ℝ => normalDraw tapeRng (tapeOf x) k) (gaussianReal 0 1)
      (Measure.pi fun _ => gaussianReal 0 1)) ∧
    iIndepFun (fun (k : Fin n) (x : Fin n → ℝ) => normalDraw tapeRng (tapeOf x) k)
      (Measure.pi fun _ => gaussianReal 0 1) := by
  obtain ⟨h1, h2⟩ := tape_law n (gaussianReal 0 1)
  refine ⟨fun k hk => ?_, ?_⟩
  · simp only [tape_normal _ k hk]; exact h1 ⟨k, hk⟩
  · simp only [tape_normal _ _ (Fin.is_lt _)]; exact h2

end Demo

-- The demo finder (two components, three compartments, standard deviation 5) with a generator of
-- independent normal draws: almost surely all six fields differ.
example : ∃ (f : Finder (ℕ × (ℕ → ℝ))) (w : (Fin (f.numFeat * f.numPart) → ℝ) → Mat f.numFeat f.numPart ℝ),
    f.numFeat = 2 ∧ f.numPart = 3 ∧ f.randomStd = 5 ∧
    ∀ᵐ ω ∂(Measure.pi fun _ => gaussianReal 0 1),
      (∃ g', Restarted { f with g := Demo.tapeOf ω }
        (({ f with g := Demo.tapeOf ω } : Finder _).reinitRandom ⟨Demo.tapeRng, fun _ _ _ s => s⟩).1
        (w ω) g') ∧
      ∀ r m r' m', (r, m) ≠ (r', m') → w ω r m ≠ w ω r' m' := by
  obtain ⟨f0, ia, cs, hf, hc, -⟩ := Demo.created
  let f : Finder (ℕ × (ℕ → ℝ)) := { f0 with g := (0, fun _ => 0) }
  have hstd : f.randomStd = 5 := hc.randomStd
  obtain ⟨h1, h2⟩ := Demo.tape_normal_law (f.numFeat * f.numPart)
  obtain ⟨w, k1, -, -, k4⟩ := C89_fields (P := Measure.pi fun _ => gaussianReal 0 1)
    ⟨Demo.tapeRng, fun _ _ _ s => s⟩ f Demo.tapeOf (by rw [hstd]; norm_num) h1 h2
  refine ⟨f, w, hc.numFeat, hc.numPart, hstd, ?_⟩
  filter_upwards [k4 (by rw [hstd]; norm_num)] with ω hω
  obtain ⟨g', -, hg⟩ := k1 ω
  exact ⟨⟨g', hg⟩, hω⟩

-- Random revival with uniform draws: the hypotheses hold for three compartments of which one is dead.
example : ∃ (T : Mat 2 3 ℝ) (lo hi : Vec 2 ℝ) (Js : Vec 3 ℝ),
    (∀ r, IsLeast (Set.range (T r)) (lo r)) ∧ (∀ r, IsGreatest (Set.range (T r)) (hi r)) ∧
    Js 1 ≤ 1 / 4 ∧ 0 < (hi 0 - lo 0) / 2 * 1 ∧
    (∀ k < 3 * 2, HasLaw (fun ω : Fin (3 * 2) → ℝ => uniformDraw Demo.tapeRng (Demo.tapeOf ω) k)
      (cond volume (Set.Icc (-1 : ℝ) 1)) (Measure.pi fun _ => cond volume (Set.Icc (-1 : ℝ) 1))) ∧
    iIndepFun (fun (k : Fin (3 * 2)) (ω : Fin (3 * 2) → ℝ) =>
      uniformDraw Demo.tapeRng (Demo.tapeOf ω) k) (Measure.pi fun _ => cond volume (Set.Icc (-1 : ℝ) 1)) := by
  have : IsProbabilityMeasure (ProbabilityTheory.cond volume (Set.Icc (-1 : ℝ) 1)) :=
    cond_isProbabilityMeasure_of_finite (by simp) (by simp)
  obtain ⟨h1, h2⟩ := Demo.tape_law (3 * 2) (ProbabilityTheory.cond volume (Set.Icc (-1 : ℝ) 1))
  refine ⟨![![0, 1, 2], ![3, 3, 5]], ![0, 3], ![2, 5], ![1, 0, 1], ?_, ?_, by norm_num, by norm_num,
    fun k hk => ?_, ?_⟩
  · intro r
    fin_cases r
    · exact ⟨⟨0, rfl⟩, by rintro _ ⟨m, rfl⟩; fin_cases m <;> norm_num⟩
    · exact ⟨⟨0, rfl⟩, by rintro _ ⟨m, rfl⟩; fin_cases m <;> norm_num⟩
  · intro r
    fin_cases r
    · exact ⟨⟨2, rfl⟩, by rintro _ ⟨m, rfl⟩; fin_cases m <;> norm_num⟩
    · exact ⟨⟨2, rfl⟩, by rintro _ ⟨m, rfl⟩; fin_cases m <;> norm_num⟩
  · simp only [Demo.tape_uniform _ k hk]
    exact h1 ⟨k, hk⟩
  · simp only [Demo.tape_uniform _ _ (Fin.is_lt _)]
    exact h2

-- Random interactions of three components with mean 1 and variance 4.
example (vd : Bool) : ∃ (n : ℕ) (o : (Fin n → ℝ) → FHInteraction 3 ℝ),
    ChiLaw (Measure.pi fun _ : Fin n => gaussianReal 1 4) vd 1 4 fun ω => (o ω).chis := by
  obtain ⟨h1, h2⟩ := Demo.tape_law (if vd then 3 * (3 - 1) / 2 else 3 * (3 + 1) / 2) (gaussianReal 1 4)
  obtain ⟨⟨o, -, ho⟩, -⟩ := C89_chis (C := 3) vd 1 4
    (fun ω n => List.ofFn fun k : Fin n => (Demo.tapeOf ω).2 k) (fun k ω => ω k)
    (fun ω n => by simp) (fun ω => by simp [Demo.tapeOf]) h1 h2
  exact ⟨_, o, ho⟩

end Flory
