import Verif.Lemmas.FloatRounding
import Verif.Props.Floats

/-! # C86: what a pass and a converged run guarantee in spite of rounding errors -/

set_option linter.unusedSectionVars false

namespace Flory

open Spec

variable {o : Floats ℝ} {rnd : ℝ → ℝ} {u : ℝ} {G : Type} {C S M : ℕ} [NeZero M]

section Pass

variable (h : RoundedOps o rnd u) {ia : InteractionI S M ℝ} {en : EntropyI C S M ℝ} {es : EnsembleI C M ℝ}
    {rng : Rng G ℝ} {p : Params ℝ} {tries : ℤ} {count : ℕ} {s : State C S M ℝ G} {t : Trace C S M ℝ G}
    (ht : iterateF o ia en es rng p tries count s = .ok t) (hthr : 0 ≤ p.killThreshold)
    {sizes : Vec C ℝ} {feat : Fin C → Fin S} (hg : FloatGas o en sizes feat)
include h ht hthr hg

/-- **C86**, mean composition: in a canonical ensemble the mean fractions of all components are the prescribed
ones up to `2 M + 4` roundings, whatever the accuracy of the exponential function. -/
theorem C86_mean {e : CanonicalC C ℝ} (hes : es = ⟨e.normalizeF o⟩) (i : Fin C) (hi : 0 ≤ e.phiMeans i) :
    UpTo u (2 * M + 4) (∑ m, t.JsOld m * t.phisComp i m) (e.phiMeans i * ∑ m, t.JsOld m) := by
  subst hes
  have hm := masks_rounded h ht
  have hJ := Js_rounded h ht hthr
  obtain ⟨tmp, f⟩ := iterateF_facts ht
  obtain ⟨phi0, hp, hn⟩ := f.partition
  obtain ⟨hw, hQ⟩ := hg.weights hp i
  obtain ⟨hB0, hQ⟩ := pyDivF_eq_ok.mp hQ
  obtain ⟨-, hphi⟩ := (canonicalF_entries hn).1 i
  have hr := h.rounds
  have hp0 : ∀ m, 0 < phi0 i m := fun m => by rw [hw]; exact h.exp _
  rw [h.eq_zero] at hB0
  obtain ⟨b1, b2⟩ := h.sum_within (v := t.JsOld) fun m => (hJ m).1
  have hB : 0 < o.sum t.JsOld := lt_of_le_of_ne b1 (Ne.symm hB0)
  have hT : 0 < ∑ m, t.JsOld m := b2.symm.pos_left hr hB
  have hv : ∀ m, 0 ≤ phi0 i m * t.JsOld m := fun m => mul_nonneg (hp0 m).le (hJ m).1
  obtain ⟨m0, -, hm0⟩ := Finset.exists_lt_of_sum_lt (s := Finset.univ) (f := fun _ => (0 : ℝ))
    (g := t.JsOld) (by simpa using hT)
  have hW : 0 < ∑ m, phi0 i m * t.JsOld m :=
    Finset.sum_pos' (fun m _ => hv m) ⟨m0, Finset.mem_univ _, mul_pos (hp0 m0) hm0⟩
  have hmul : ∀ m, o.mul (phi0 i m) (t.JsOld m) = rnd (phi0 i m * t.JsOld m) := fun m => h.mul _ _
  simp only [hmul] at hQ
  obtain ⟨a1, a2⟩ := h.sum_within (v := fun m => rnd (phi0 i m * t.JsOld m)) fun m => hr.nonneg_of (hv m)
  have a3 := a2.trans hr (UpTo.sum (s := Finset.univ) (u := u) (n := 1)
    (b := fun m => phi0 i m * t.JsOld m) fun m _ => hr.within (hv m))
  set A := o.sum fun m => rnd (phi0 i m * t.JsOld m) with hA
  have hA0 : 0 < A := a3.pos_left hr hW
  set B := o.sum t.JsOld with hBdef
  set T := ∑ m, t.JsOld m with hTdef
  set W := ∑ m, phi0 i m * t.JsOld m with hWdef
  rw [h.div _ _ hB0] at hQ
  have q1 : UpTo u (M + 1 + M + 1) (t.Qs i) (W / T) := by
    rw [hQ]
    exact (a3.div hr b2 hA0.le hW.le hB hT).rounded hr (div_pos hA0 hB).le
  have hQ0 : 0 < t.Qs i := q1.pos_left hr (div_pos hW hT)
  have f1 : UpTo u (0 + (M + 1 + M + 1) + 1) (o.div (e.phiMeans i) (t.Qs i)) (e.phiMeans i / (W / T)) := by
    rw [h.div _ _ hQ0.ne']
    exact ((UpTo.refl _).div hr q1 hi hi hQ0 (div_pos hW hT)).rounded hr (div_nonneg hi hQ0.le)
  set fac := o.div (e.phiMeans i) (t.Qs i) with hfac
  have hd0 : 0 ≤ e.phiMeans i / (W / T) := div_nonneg hi (div_pos hW hT).le
  have hfac0 : 0 ≤ fac := f1.nonneg_left hr hd0
  have key : ∀ m, UpTo u (2 * M + 4) (t.JsOld m * t.phisComp i m)
      (e.phiMeans i / (W / T) * (phi0 i m * t.JsOld m)) := by
    intro m
    rcases (hm m).1 with h0 | h1
    · rw [(hJ m).2.1 h0, zero_mul, mul_zero, mul_zero]
      simp [UpTo]
    · have e1 : t.phisComp i m = rnd (fac * phi0 i m) := by
        rw [hphi m, h1, h.mul_one, h.mul, hr.idem]
      have g1 := (f1.mul hr (UpTo.refl (phi0 i m)) hfac0 hd0 (hp0 m).le (hp0 m).le).rounded hr
        (mul_nonneg hfac0 (hp0 m).le)
      rw [← e1] at g1
      have hphi0 : 0 ≤ t.phisComp i m := by rw [e1]; exact hr.nonneg_of (mul_nonneg hfac0 (hp0 m).le)
      have g2 := g1.mul hr (UpTo.refl (t.JsOld m)) hphi0 (mul_nonneg hd0 (hp0 m).le) (hJ m).1 (hJ m).1
      rw [mul_comm (t.JsOld m), ← mul_assoc]
      have : 0 + (M + 1 + M + 1) + 1 + 0 + 1 + 0 = 2 * M + 4 := by ring
      rwa [this] at g2
  have := UpTo.sum (s := Finset.univ) (u := u) (n := 2 * M + 4) fun m _ => key m
  rw [← Finset.mul_sum, ← hWdef] at this
  have e2 : e.phiMeans i / (W / T) * W = e.phiMeans i * T := by
    field_simp
  rwa [e2] at this

/-- **C86**, incompressibility: the fractions in a compartment in use sum to one up to the reported
incompressibility and the rounding errors of that sum. -/
theorem C86_incomp (hes : NonnegEnsemble o es) {m : Fin M} (hm : t.masks m = 1) :
    (∀ i, 0 ≤ t.phisComp i m) ∧
    |∑ i, t.phisComp i m - 1| ≤ t.maxAbsIncomp + ((1 + u) ^ C - 1) * (1 + ∑ i, t.phisComp i m) := by
  obtain ⟨h0, h1⟩ := fractions_rounded h ht hthr hg hes m
  refine ⟨h0, ?_⟩
  rw [h.start, hm, h.mul_one, loopSum_float h] at h1
  obtain ⟨tmp, f⟩ := iterateF_facts ht
  have h2 : |t.incomp m| ≤ t.maxAbsIncomp := by
    rw [f.maxAbsIncomp, h.max]
    have := le_npMax (fun m => o.abs (t.incomp m)) m
    rwa [h.abs] at this
  have h3 := loopSum_err h h0
  rw [← h1] at h3
  calc |∑ i, t.phisComp i m - 1| = |t.incomp m - (t.incomp m - (∑ i, t.phisComp i m - 1))| := by ring_nf
    _ ≤ |t.incomp m| + |t.incomp m - (∑ i, t.phisComp i m - 1)| := abs_sub _ _
    _ ≤ _ := add_le_add h2 h3

end Pass

/-- **C86**, volumes: after a pass the volumes of the compartments in use average one up to rounding. -/
theorem C86_volumes (h : RoundedOps o rnd u) {ia : InteractionI S M ℝ} {en : EntropyI C S M ℝ}
    {es : EnsembleI C M ℝ} {rng : Rng G ℝ} {p : Params ℝ} {tries : ℤ} {count : ℕ} {s : State C S M ℝ G}
    {t : Trace C S M ℝ G} (ht : iterateF o ia en es rng p tries count s = .ok t) (hthr : 0 ≤ p.killThreshold)
    (hk : ∀ k : ℕ, k ≤ M → rnd k = k) (hub : 0 < p.JsStepUpperBound) (ha : 0 ≤ p.acceptanceJs) {N : ℕ}
    (hN : N = {m | t.masks m = 1}.ncard) :
    (∀ m, t.masks m ≠ 1 → t.Js m = 0) ∧
    |∑ m, t.Js m - N| ≤ ((1 + u) ^ (M + 4) - 1) *
      ((1 + u) * (∑ m, t.JsOld m + N * ((1 + u) ^ 3 / (1 - u) * p.JsStepUpperBound)) + N) := by
  have hm := masks_rounded h ht
  have hJ := Js_rounded h ht hthr
  have hstep := step_rounded h ht hub ha
  have hnv := nValid_rounded h ht hk
  obtain ⟨tmp, f⟩ := iterateF_facts ht
  have hr := h.rounds
  have hu := hr.nonneg
  set P := Finset.univ.filter fun m => t.masks m = 1 with hPdef
  have hPm : ∀ m, m ∈ P ↔ t.masks m = 1 := fun m => by simp [hPdef]
  have hNP : N = P.card := by
    rw [hN, ← Set.ncard_coe_finset]
    congr 1
    ext m
    simp [hPdef]
  have hmean := (pyDivF_eq_ok.mp f.mean).1
  rw [h.eq_zero, hnv] at hmean
  have hPne : P.Nonempty := by
    rw [Finset.nonempty_iff_ne_empty]
    intro hc
    rw [hc] at hmean
    simp at hmean
  have hj := f.Js
  unfold updateJsF at hj
  dsimp only at hj
  set z : Vec M ℝ := fun m => o.mul (o.mul t.factor p.acceptanceJs) (t.JsDiff m) with hz
  set y : Vec M ℝ := fun m => o.mul (o.add (t.JsOld m) (z m)) (t.masks m) with hy
  rw [bind_eq_ok] at hj
  obtain ⟨mean, h1, h2⟩ := hj
  obtain ⟨hne, h1⟩ := pyDivF_eq_ok.mp h1
  rw [h.eq_zero] at hne
  rw [h.div _ _ hne, hnv] at h1
  have h3 : t.Js = fun m => o.mul (o.add (y m) (o.sub (o.ofNat 1) mean)) (t.masks m) := (Except.ok.inj h2).symm
  have hmask0 : ∀ m, m ∉ P → t.masks m = 0 := fun m hc => by
    rcases (hm m).1 with h0 | h0
    · exact h0
    · exact absurd ((hPm m).mpr h0) hc
  have hy0 : ∀ m, m ∉ P → y m = 0 := fun m hc => by
    show o.mul _ (t.masks m) = 0
    rw [hmask0 m hc, h.mul_zero]
  have hJ0 : ∀ m, m ∉ P → t.Js m = 0 := fun m hc => by
    rw [h3]
    show o.mul _ (t.masks m) = 0
    rw [hmask0 m hc, h.mul_zero]
  refine ⟨fun m hc => hJ0 m (by rwa [hPm]), ?_⟩
  have key := recenter_err hr hPne (y := y) (J := t.Js) (h.sum_err y) hy0 (fun m hc => by
    rw [h3]
    dsimp only
    rw [(hPm m).mp hc, h.mul_one, h.add, hr.idem, h.sub, h.one, h1]) hJ0
  rw [← hNP] at key
  refine key.trans (mul_le_mul_of_nonneg_left (add_le_add ?_ le_rfl) ?_)
  · set b := (1 + u) ^ 3 / (1 - u) * p.JsStepUpperBound with hb
    have e1 : ∑ m, |y m| = ∑ m ∈ P, |y m| :=
      (Finset.sum_subset (Finset.subset_univ P) fun m _ hm => by rw [hy0 m hm, abs_zero]).symm
    have e2 : ∑ m, t.JsOld m = ∑ m ∈ P, t.JsOld m :=
      (Finset.sum_subset (Finset.subset_univ P) fun m _ hc => (hJ m).2.1 (hmask0 m hc)).symm
    rw [e1, e2, hNP, ← nsmul_eq_mul, ← Finset.sum_const, ← Finset.sum_add_distrib, Finset.mul_sum]
    refine Finset.sum_le_sum fun m hc => ?_
    have : y m = rnd (t.JsOld m + z m) := by
      show o.mul (o.add (t.JsOld m) (z m)) (t.masks m) = _
      rw [(hPm m).mp hc, h.mul_one, h.add, hr.idem]
    rw [this]
    have e3 := hr.err (t.JsOld m + z m)
    have e4 := abs_sub_abs_le_abs_sub (rnd (t.JsOld m + z m)) (t.JsOld m + z m)
    have e5 : |t.JsOld m + z m| ≤ t.JsOld m + b :=
      (abs_add_le _ _).trans (by rw [abs_of_nonneg (hJ m).1]; exact add_le_add le_rfl (hstep m))
    calc _ ≤ (1 + u) * |t.JsOld m + z m| := by linarith
      _ ≤ _ := mul_le_mul_of_nonneg_left e5 (by linarith)
  · linarith [one_le_pow₀ (show (1 : ℝ) ≤ 1 + u by linarith) (n := M + 4)]

/-- **C86**, no exceptions: a pass with at least one compartment above the threshold returns. -/
theorem C86_returns (h : RoundedOps o rnd u) (ia : InteractionI S M ℝ) {en : EntropyI C S M ℝ}
    {es : EnsembleI C M ℝ} (rng : Rng G ℝ) {p : Params ℝ} (tries : ℤ) (count : ℕ) {s : State C S M ℝ G}
    (hthr : 0 ≤ p.killThreshold) {sizes : Vec C ℝ} {feat : Fin C → Fin S} (hg : FloatGas o en sizes feat)
    (hes : KnownEnsemble o es) (hk : ∀ k : ℕ, k ≤ M → rnd k = k) (hub : 0 < p.JsStepUpperBound)
    (hcons : ∀ c ∈ s.cons, c.Proper)
    (hlive : ∃ m, p.killThreshold < (reviveBlockF o rng p tries s.Js s.omegas s.g count).Js m) :
    ∃ t, iterateF o ia en es rng p tries count s = .ok t := by
  have hr := h.rounds
  unfold iterateF
  dsimp only
  set rv := reviveBlockF o rng p tries s.Js s.omegas s.g count with hrv
  have hmask : ∀ m, makeMasksF o rv.Js p.killThreshold m = if p.killThreshold < rv.Js m then 1 else 0 :=
    fun m => h.isMask _ _
  set masks := makeMasksF o rv.Js p.killThreshold with hmasks
  obtain ⟨m0, hm0⟩ := hlive
  have hJ : ∀ m, 0 ≤ o.mul (rv.Js m) (masks m) := by
    intro m
    rw [hmask, h.mul]
    split_ifs with hc
    · rw [mul_one]; exact hr.nonneg_of (hthr.trans hc.le)
    · rw [mul_zero, hr.zero]
  have hJ0 : 0 < o.mul (rv.Js m0) (masks m0) := by
    rw [hmask, h.mul, if_pos hm0, mul_one]
    exact hr.pos_of (hthr.trans_lt hm0)
  set J : Vec M ℝ := fun m => o.mul (rv.Js m) (masks m) with hJdef
  obtain ⟨b1, b2⟩ := h.sum_within (v := J) hJ
  have hT : 0 < ∑ m, J m := Finset.sum_pos' (fun m _ => hJ m) ⟨m0, Finset.mem_univ _, hJ0⟩
  have hB : 0 < o.sum J := b2.pos_left hr hT
  obtain ⟨⟨phi0, Qs⟩, hp⟩ := hg.returns s.phisComp rv.targets (Js := J) (by rw [h.eq_zero]; exact hB.ne')
  rw [hp]
  have hp0 : ∀ i m, 0 < phi0 i m := fun i m => by rw [(hg.weights hp i).1]; exact h.exp _
  have hQ : ∀ i, 0 < Qs i := by
    intro i
    obtain ⟨hB0, hQ⟩ := pyDivF_eq_ok.mp (hg.weights hp i).2
    rw [hQ, h.div _ _ hB.ne']
    have hv : ∀ m, 0 ≤ o.mul (phi0 i m) (J m) := fun m => by
      rw [h.mul]; exact hr.nonneg_of (mul_nonneg (hp0 i m).le (hJ m))
    have hA := (h.sum_within (v := fun m => o.mul (phi0 i m) (J m)) hv).2
    refine hr.pos_of (div_pos (hA.pos_left hr ?_) hB)
    refine Finset.sum_pos' (fun m _ => hv m) ⟨m0, Finset.mem_univ _, ?_⟩
    rw [h.mul]
    exact hr.pos_of (mul_pos (hp0 i m0) hJ0)
  obtain ⟨⟨phis, incomp⟩, hn⟩ : ∃ x, es.normalize phi0 Qs masks = .ok x := by
    rcases hes with ⟨e, rfl⟩ | ⟨e, rfl⟩
    · exact canonicalF_returns (fun i => by rw [h.eq_zero]; exact (hQ i).ne') phi0 masks
    · exact ⟨_, rfl⟩
  obtain ⟨feats, hf⟩ := hg.features s.phisFeat phis
  obtain ⟨k, k1, k2, k3⟩ := AddedUp.count hr hk (h.sum masks) (by
    intro x hx
    rw [List.mem_ofFn] at hx
    obtain ⟨m, rfl⟩ := hx
    rw [hmask]; split_ifs <;> simp) (by rw [List.length_ofFn])
  have hkpos : (0 : ℝ) < k := by
    rw [← k3, List.sum_ofFn]
    refine Finset.sum_pos' (fun m _ => ?_) ⟨m0, Finset.mem_univ _, ?_⟩
    · rw [hmask]; split_ifs <;> norm_num
    · rw [hmask, if_pos hm0]; norm_num
  have hN : ¬o.eq (o.whole (o.sum masks)) (o.ofNat 0) := by
    rw [h.eq_zero, k2, h.whole]; exact hkpos.ne'
  have hdiv : ∀ x, o.pyDiv x (o.whole (o.sum masks)) = .ok (o.div x (o.whole (o.sum masks))) :=
    fun x => pyDivF_returns hN
  have hfac : ∀ x y, o.pyDiv x (o.max2 y p.JsStepUpperBound) = .ok (o.div x (o.max2 y p.JsStepUpperBound)) :=
    fun x y => pyDivF_returns (by
      rw [h.eq_zero, h.max2]; exact (lt_of_lt_of_le hub (le_max_right _ _)).ne')
  have hup : ∀ a d, ∃ x, updateJsF o a p.acceptanceJs d masks (o.whole (o.sum masks)) J = .ok x := by
    intro a d
    unfold updateJsF
    dsimp only
    rw [hdiv]
    exact ⟨_, rfl⟩
  have hev : ∀ a (cs : List (Cons S M ℝ)) acc, (∀ c ∈ cs, c.Proper) → ∃ x, evolveConsF o a masks cs acc = .ok x :=
    fun a cs acc => evolveConsF_returns a masks cs acc
  simp only [bind, Except.bind]
  rw [hn]
  dsimp only
  rw [hf]
  dsimp only
  rw [hdiv]
  dsimp only
  rw [hfac]
  dsimp only
  obtain ⟨x, hx⟩ := hup _ _
  rw [hx]
  dsimp only
  obtain ⟨y, hy⟩ := hev _ (s.cons.map (Cons.prepareF o feats J masks)) (o.ofNat 0) (by
    intro c hc
    obtain ⟨d, hd, rfl⟩ := List.mem_map.mp hc
    exact prepareF_proper (hcons d hd) _ _ _)
  rw [hy]
  exact ⟨_, rfl⟩

/-- The flag of a metastep compares the numbers of compartments before and after the last pass. -/
theorem metastepF_safe {F : Type} {o : Floats F} {e : RunEnv C S M F G} {tries : ℤ} {n : ℕ}
    {s : State C S M F G} {r : MetaResult C S M F G}
    (h : metastepF o e.ia e.en e.es e.rng e.params tries n s = .ok r) :
    r.isLastStepSafe = true ↔ o.eq r.last.nValid (o.ofNat (countValidF o r.last.Js e.params.killThreshold)) := by
  cases n with
  | zero => cases h
  | succ n =>
    unfold metastepF at h
    simp only [bind_eq_ok] at h
    obtain ⟨t, h1, t', h2, h3⟩ := h
    cases h3
    exact decide_eq_true_iff

/-- **C86**, converged runs: in every compartment with a volume above the threshold the fractions sum to one up
to the tolerance and rounding, and in a canonical ensemble the means are the prescribed ones up to rounding. -/
theorem C86_converged (h : RoundedOps o rnd u) {e : RunEnv C S M ℝ G} (hthr : 0 ≤ e.params.killThreshold)
    {sizes : Vec C ℝ} {feat : Fin C → Fin S} (hg : FloatGas o e.en sizes feat) (hes : NonnegEnsemble o e.es)
    (hk : ∀ k : ℕ, k ≤ M → rnd k = k) {tries : ℤ} {n : ℕ} {tol : ℝ} {s : State C S M ℝ G}
    {r : MetaResult C S M ℝ G} (hr : metastepF o e.ia e.en e.es e.rng e.params tries n s = .ok r)
    (hc : convergedF o tol r = true) :
    (∀ m, r.last.masks m = 1 ↔ e.params.killThreshold < r.last.Js m) ∧
    (∀ m, e.params.killThreshold < r.last.Js m → (∀ i, 0 ≤ r.last.phisComp i m) ∧
      |∑ i, r.last.phisComp i m - 1| ≤ tol + ((1 + u) ^ C - 1) * (1 + ∑ i, r.last.phisComp i m)) ∧
    ∀ c : CanonicalC C ℝ, e.es = ⟨c.normalizeF o⟩ → ∀ i, 0 ≤ c.phiMeans i →
      UpTo u (2 * M + 4) (∑ m, r.last.JsOld m * r.last.phisComp i m)
        (c.phiMeans i * ∑ m, r.last.JsOld m) := by
  obtain ⟨k, s', hp⟩ := metastepF_pass hr
  unfold convergedF at hc
  simp only [Bool.and_eq_true, decide_eq_true_eq] at hc
  obtain ⟨⟨⟨⟨hsafe, hi⟩, -⟩, -⟩, -⟩ := hc
  rw [metastepF_safe hr, h.eq, h.ofNat] at hsafe
  rw [h.lt] at hi
  have hnv := nValid_rounded h hp hk
  have hcount : countValidF o r.last.Js e.params.killThreshold =
      (Finset.univ.filter fun m => e.params.killThreshold < r.last.Js m).card := by
    unfold countValidF
    rw [Finset.card_filter]
    exact Finset.sum_congr rfl fun m _ => by simp only [h.lt]
  have hle : countValidF o r.last.Js e.params.killThreshold ≤ M := by
    rw [hcount]
    exact (Finset.card_le_univ _).trans (by simp)
  rw [hk _ hle, hnv, hcount] at hsafe
  have hsafe := Nat.cast_injective hsafe
  have hsub : (Finset.univ.filter fun m => e.params.killThreshold < r.last.Js m) ⊆
      Finset.univ.filter fun m => r.last.masks m = 1 := by
    intro m hm
    rw [Finset.mem_filter] at hm ⊢
    refine ⟨hm.1, ?_⟩
    rcases (masks_rounded h hp m).1 with h0 | h1
    · exfalso
      obtain ⟨tmp, f⟩ := iterateF_facts hp
      have hJ := f.Js
      unfold updateJsF at hJ
      rw [bind_eq_ok] at hJ
      obtain ⟨mean, -, hJ⟩ := hJ
      have hJ := Except.ok.inj hJ
      have hm := hm.2
      rw [← hJ] at hm
      beta_reduce at hm
      rw [h0, h.mul_zero] at hm
      linarith
    · exact h1
  have heq := Finset.eq_of_subset_of_card_le hsub hsafe.le
  have hiff : ∀ m, r.last.masks m = 1 ↔ e.params.killThreshold < r.last.Js m := fun m => by
    have := Finset.ext_iff.mp heq m
    simp only [Finset.mem_filter, Finset.mem_univ, true_and] at this
    exact this.symm
  refine ⟨hiff, fun m hm => ?_, fun c hce i hci => C86_mean h hp hthr hg hce i hci⟩
  obtain ⟨h1, h2⟩ := C86_incomp h hp hthr hg hes ((hiff m).mpr hm)
  exact ⟨h1, h2.trans (by linarith)⟩

/-- **C86**, with exact operations the entropies and the interaction are those of the other models. -/
theorem C86_exact (e : IdealC C) (q : PolyC C S) (c : FHCompiled S ℝ) :
    idealF (Floats.exact ℝ Real.exp) e.sizes M = e.toI M ∧
    polyF (Floats.exact ℝ Real.exp) q.sizes q.perFeat M = q.toI M ∧
    floryHugginsF (Floats.exact ℝ Real.exp) c.chis c.coef M = c.toI M := by
  have h0 : (Floats.exact ℝ Real.exp).ofNat 0 = 0 := Nat.cast_zero
  refine ⟨?_, ?_, ?_⟩
  · unfold idealF idealPartitionF gasVolumeDerivativeF
    simp only [pyDiv_exact, h0]
    rfl
  · unfold polyF polyPartitionF polyCompToFeatF gasVolumeDerivativeF
    simp only [pyDiv_exact, h0]
    rfl
  · unfold floryHugginsF
    simp only [h0]
    rfl

namespace RoundingExample

/-- Two components, the second twice as large, in two compartments, in double precision. -/
noncomputable def env (mean : Vec 2 ℝ) : RunEnv 2 2 2 ℝ Unit where
  ia := floryHugginsF realDoubles ![![0, 3], ![3, 0]] 6 2
  en := idealF realDoubles ![1, 2] 2
  es := ⟨(⟨mean⟩ : CanonicalC 2 ℝ).normalizeF realDoubles⟩
  rng := ⟨fun _ => (0, ()), fun _ => (0, ()), fun _ _ => (0, ())⟩
  params := ⟨1 / 4, 1 / 1000, 1 / 1000, 0, 1⟩
  criterion := "standard"
  crash s := s

/-- A state with different fields in the two compartments. -/
noncomputable def state : State 2 2 2 ℝ Unit where
  omegas := ![![1 / 3, 2], ![3, 1 / 7]]
  Js := ![1 / 2, 3 / 2]
  phisComp _ _ := 0
  phisFeat _ _ := 0
  cons := []
  g := ()

theorem counts {k : ℕ} (hk : k ≤ 2) : double k = k := double_nat (by omega)

theorem pass (mean : Vec 2 ℝ) : ∃ t, iterateF realDoubles (env mean).ia (env mean).en (env mean).es
    (env mean).rng (env mean).params 0 0 state = .ok t :=
  C86_returns realDoubles_rounded _ _ 0 0 le_rfl (idealF_gas _) (Or.inl ⟨_, rfl⟩) (fun k hk => counts hk)
    (by norm_num [env]) (by intro c hc; cases hc) ⟨0, by
      show (0 : ℝ) < (![1 / 2, 3 / 2] : Vec 2 ℝ) 0
      norm_num⟩

example : ∃ t, iterateF realDoubles (env ![1 / 3, 2 / 3]).ia (env ![1 / 3, 2 / 3]).en (env ![1 / 3, 2 / 3]).es
    (env ![1 / 3, 2 / 3]).rng (env ![1 / 3, 2 / 3]).params 0 0 state = .ok t ∧
    UpTo (2⁻¹ ^ 53) 8 (∑ m, t.JsOld m * t.phisComp 0 m) (1 / 3 * ∑ m, t.JsOld m) ∧
    |∑ i, t.phisComp i 0 - 1| ≤ t.maxAbsIncomp + ((1 + 2⁻¹ ^ 53) ^ 2 - 1) * (1 + ∑ i, t.phisComp i 0) ∧
    |∑ m, t.Js m - 2| ≤ ((1 + 2⁻¹ ^ 53) ^ 6 - 1) * ((1 + 2⁻¹ ^ 53) *
      (∑ m, t.JsOld m + 2 * ((1 + 2⁻¹ ^ 53) ^ 3 / (1 - 2⁻¹ ^ 53) * (1 / 1000))) + 2) := by
  obtain ⟨t, ht⟩ := pass ![1 / 3, 2 / 3]
  have hm : ∀ m, t.masks m = 1 := fun m => (masks_rounded realDoubles_rounded ht m).2.mpr (by
    show (0 : ℝ) < (![1 / 2, 3 / 2] : Vec 2 ℝ) m
    fin_cases m <;> norm_num)
  refine ⟨t, ht, ?_, ?_, ?_⟩
  · exact C86_mean realDoubles_rounded ht le_rfl (idealF_gas _) (e := ⟨![1 / 3, 2 / 3]⟩) rfl 0
      (by show (0 : ℝ) ≤ 1 / 3; norm_num)
  · refine (C86_incomp realDoubles_rounded ht le_rfl (idealF_gas _) (Or.inl ⟨_, rfl, fun i => ?_⟩) (hm 0)).2
    fin_cases i <;> norm_num
  · have := (C86_volumes realDoubles_rounded ht le_rfl (fun k hk => counts hk) (by norm_num [env])
      (by norm_num [env]) (N := 2) (by simp [hm, Set.ncard_univ])).2
    rw [show (env ![1 / 3, 2 / 3]).params.JsStepUpperBound = 1 / 1000 from rfl] at this
    exact_mod_cast this

/-- One compartment. -/
noncomputable def env1 : RunEnv 2 2 1 ℝ Unit where
  ia := floryHugginsF realDoubles ![![0, 3], ![3, 0]] 6 1
  en := idealF realDoubles ![1, 2] 1
  es := ⟨(⟨![1 / 3, 2 / 3]⟩ : CanonicalC 2 ℝ).normalizeF realDoubles⟩
  rng := ⟨fun _ => (0, ()), fun _ => (0, ()), fun _ _ => (0, ())⟩
  params := ⟨1 / 4, 1 / 1000, 1 / 1000, 0, 1⟩
  criterion := "standard"
  crash s := s

/-- A state of one compartment. -/
noncomputable def state1 : State 2 2 1 ℝ Unit where
  omegas := ![fun _ => 1 / 3, fun _ => 3]
  Js _ := 1
  phisComp _ _ := 0
  phisFeat _ _ := 0
  cons := []
  g := ()

theorem converged : ∃ r tol, metastepF realDoubles env1.ia env1.en env1.es env1.rng env1.params 0 1 state1 = .ok r ∧
    convergedF realDoubles tol r = true := by
  obtain ⟨t, ht⟩ := C86_returns (C := 2) (M := 1) (o := realDoubles) realDoubles_rounded env1.ia env1.rng 0 0
    (en := env1.en) (es := env1.es) (p := env1.params) (s := state1) le_rfl (idealF_gas _) (Or.inl ⟨_, rfl⟩) (fun k hk => counts (by omega))
    (by norm_num [env1]) (by intro c hc; cases hc) ⟨0, one_pos⟩
  have hm : t.masks 0 = 1 := (masks_rounded realDoubles_rounded ht 0).2.mpr one_pos
  have hv := (C86_volumes realDoubles_rounded ht le_rfl (fun k hk => counts (by omega)) (by norm_num [env1])
    (by norm_num [env1]) (N := 1) (by
      have : {m : Fin 1 | t.masks m = 1} = Set.univ := by
        ext m; rw [Subsingleton.elim m 0]; simp [hm]
      rw [this, Set.ncard_univ]; simp)).2
  have hJ : t.JsOld 0 = 1 := by
    obtain ⟨tmp, f⟩ := iterateF_facts ht
    rw [f.JsOld, hm, realDoubles_rounded.mul_one]
    exact double_one
  rw [show env1.params.JsStepUpperBound = 1 / 1000 from rfl, Fin.sum_univ_one, Fin.sum_univ_one, hJ] at hv
  have hpos : 0 < t.Js 0 := by
    have h1 := (abs_le.mp hv).1
    have h2 : ((1 + (2⁻¹ : ℝ) ^ 53) ^ (1 + 4) - 1) * ((1 + 2⁻¹ ^ 53) * (1 + ((1 : ℕ) : ℝ) *
      ((1 + 2⁻¹ ^ 53) ^ 3 / (1 - 2⁻¹ ^ 53) * (1 / 1000))) + ((1 : ℕ) : ℝ)) < 1 / 2 := by norm_num
    have h3 : ((1 : ℕ) : ℝ) = 1 := by norm_num
    linarith
  have hn : t.nValid = 1 := by
    rw [nValid_rounded realDoubles_rounded ht (fun k hk => counts (by omega))]
    have : (Finset.univ.filter fun m => t.masks m = 1) = Finset.univ := by
      ext m; rw [Subsingleton.elim m 0]; simp [hm]
    rw [this]; simp
  have hcount : countValidF realDoubles t.Js env1.params.killThreshold = 1 := by
    unfold countValidF
    rw [Fin.sum_univ_one]
    exact if_pos hpos
  obtain ⟨tol, h1, h2, h3, h4⟩ : ∃ tol, t.maxAbsIncomp < tol ∧ t.maxAbsOmegaDiff < tol ∧ t.maxAbsJsDiff < tol ∧
      t.maxConstraintResidue < tol := by
    refine ⟨|t.maxAbsIncomp| + |t.maxAbsOmegaDiff| + |t.maxAbsJsDiff| + |t.maxConstraintResidue| + 1, ?_, ?_, ?_, ?_⟩ <;>
      linarith [le_abs_self t.maxAbsIncomp, le_abs_self t.maxAbsOmegaDiff, le_abs_self t.maxAbsJsDiff,
        le_abs_self t.maxConstraintResidue, abs_nonneg t.maxAbsIncomp, abs_nonneg t.maxAbsOmegaDiff,
        abs_nonneg t.maxAbsJsDiff, abs_nonneg t.maxConstraintResidue]
  refine ⟨⟨t, decide (realDoubles.eq t.nValid (realDoubles.ofNat
    (countValidF realDoubles t.Js env1.params.killThreshold)))⟩, tol, ?_, ?_⟩
  · unfold metastepF
    rw [ht]
    rfl
  · have hs : realDoubles.eq t.nValid (realDoubles.ofNat
        (countValidF realDoubles t.Js env1.params.killThreshold)) := by
      rw [hcount, hn, realDoubles_rounded.one]
      exact rfl
    have e1 : realDoubles.lt t.maxAbsIncomp tol := h1
    have e2 : realDoubles.lt t.maxAbsOmegaDiff tol := h2
    have e3 : realDoubles.lt t.maxAbsJsDiff tol := h3
    have e4 : realDoubles.lt t.maxConstraintResidue tol := h4
    unfold convergedF
    simp only [decide_eq_true hs, decide_eq_true e1, decide_eq_true e2, decide_eq_true e3, decide_eq_true e4,
      Bool.and_self]

example : ∃ (r : MetaResult 2 2 1 ℝ Unit) (tol : ℝ), convergedF realDoubles tol r = true ∧ (∀ m, r.last.masks m = 1 ↔ 0 < r.last.Js m) ∧
    UpTo (2⁻¹ ^ 53) 6 (∑ m, r.last.JsOld m * r.last.phisComp 0 m) (1 / 3 * ∑ m, r.last.JsOld m) := by
  obtain ⟨r, tol, hr, hc⟩ := converged
  obtain ⟨h1, -, h3⟩ := C86_converged (e := env1) realDoubles_rounded le_rfl (idealF_gas _)
    (Or.inl ⟨⟨![1 / 3, 2 / 3]⟩, rfl, fun i => by fin_cases i <;> norm_num⟩) (fun k hk => counts (by omega)) hr hc
  exact ⟨r, tol, hc, h1, h3 ⟨![1 / 3, 2 / 3]⟩ rfl 0 (by show (0 : ℝ) ≤ 1 / 3; norm_num)⟩

end RoundingExample

end Flory
