import Verif.Lemmas.Near

/-! # Sequences of passes in which compartments merge -/

set_option linter.unusedSectionVars false

namespace Flory

open Spec

variable {G : Type} {C S M : ℕ} [NeZero M]

/-- Constants that describe how compartments merge. -/
structure MergeData (chis : Mat S S ℝ) (kap : ℝ) (x l : Vec C ℝ) (feat : Fin C → Fin S) (p : Params ℝ)
    (W : Mat S S ℝ) (ε c A β q D E θ : ℝ) : Prop where
  c_pos : 0 < c
  coercive : ∀ u, c * sumSq u ≤ quad W u
  decrease : ∀ d, (∀ r, |d r - loads l feat x r| ≤ ε) → ∀ u,
    quad W (u - p.acceptanceOmega • response chis kap d u) ≤ q ^ 2 * quad W u
  A_pos : 0 < A
  β_nonneg : 0 ≤ β
  β_le : β ≤ 1
  load : (∑ i, l i) * (A * β) ≤ ε
  bound : |p.acceptanceJs| * (A * β) ≤ p.JsStepUpperBound
  q_nonneg : 0 ≤ q
  q_lt : q < 1
  D_eq : D = 2 * |p.acceptanceJs| * (A * β)
  volume : D / (1 - q) < 1 - p.killThreshold
  a_pos : 0 < p.acceptanceOmega
  a_le : p.acceptanceOmega ≤ 1
  q_le : q ≤ θ
  a_ge : 1 - p.acceptanceOmega / 2 ≤ θ
  E_ge : 4 * (A * β) ≤ E

/-- A state after `k` passes. -/
structure Merging (chis : Mat S S ℝ) (feat : Fin C → Fin S) (x : Vec C ℝ) (W : Mat S S ℝ)
    (c β q D E θ : ℝ) (k : ℕ) (s : State C S M ℝ G) : Prop where
  volumes : ∑ m, s.Js m = M
  drift : ∀ m, |s.Js m - 1| ≤ D * ∑ j ∈ Finset.range k, q ^ j
  form : ∀ m n, quad W (fun r => s.omegas r m - s.omegas r n) ≤ c * (β * q ^ k) ^ 2
  resid : ∀ r m, |s.omegas r m - homogeneousField chis feat x (fun q => s.omegas q m) r| ≤ E * θ ^ k
  cons : ∀ k ∈ s.cons, k.Trivial

/-- What is known about the last of `k + 1` passes. -/
structure MergePass (A β q E θ : ℝ) (x : Vec C ℝ) (k : ℕ) (t : Trace C S M ℝ G) : Prop where
  phis : ∀ i m, |t.phisComp i m - x i| ≤ A * (β * q ^ k)
  incomp : t.maxAbsIncomp ≤ A * (β * q ^ k)
  jsDiff : t.maxAbsJsDiff ≤ A * (β * q ^ k)
  omegaDiff : t.maxAbsOmegaDiff ≤ E * θ ^ k + A * (β * q ^ k)
  residue : t.maxConstraintResidue = 0

variable {ia : FHCompiled S ℝ} {en : EntropyI C S M ℝ} {es : CanonicalC C ℝ} {rng : Rng G ℝ}
  {p : Params ℝ} {tries : ℤ} {count : ℕ} {s : State C S M ℝ G} {t : Trace C S M ℝ G}
  {l : Vec C ℝ} {feat : Fin C → Fin S} {W : Mat S S ℝ} {ε c A β q D E θ : ℝ} {k : ℕ}

theorem geom_le {q : ℝ} (h0 : 0 ≤ q) (h1 : q < 1) (k : ℕ) :
    ∑ j ∈ Finset.range k, q ^ j ≤ 1 / (1 - q) := by
  have h : (∑ j ∈ Finset.range k, q ^ j) * (1 - q) = 1 - q ^ k := by
    have := geom_sum_mul q k
    linarith
  rw [le_div_iff₀ (by linarith), h]
  have := pow_nonneg h0 k
  linarith

theorem Merging.alive (hd : MergeData ia.chis ia.coef es.phiMeans l feat p W ε c A β q D E θ)
    (hs : Merging ia.chis feat es.phiMeans W c β q D E θ k s) (m : Fin M) :
    p.killThreshold < s.Js m := by
  have h1 := hs.drift m
  have hD : 0 ≤ D := by
    rw [hd.D_eq]
    have := hd.A_pos
    have := hd.β_nonneg
    positivity
  have h2 : D * ∑ j ∈ Finset.range k, q ^ j ≤ D / (1 - q) := by
    rw [div_eq_mul_one_div]
    exact mul_le_mul_of_nonneg_left (geom_le hd.q_nonneg hd.q_lt k) hD
  have h3 := hd.volume
  have h4 := (abs_le.mp (h1.trans h2)).1
  linarith

theorem Merging.near (hd : MergeData ia.chis ia.coef es.phiMeans l feat p W ε c A β q D E θ)
    (hs : Merging ia.chis feat es.phiMeans W c β q D E θ k s) (r : Fin S) (m n : Fin M) :
    |s.omegas r m - s.omegas r n| ≤ β * q ^ k := by
  have h1 := (hd.coercive _).trans (hs.form m n)
  have h2 : sumSq (fun r => s.omegas r m - s.omegas r n) ≤ (β * q ^ k) ^ 2 :=
    le_of_mul_le_mul_left h1 hd.c_pos
  have h3 := (sq_le_sumSq (fun r => s.omegas r m - s.omegas r n) r).trans h2
  exact abs_le_of_sq_le_sq h3 (mul_nonneg hd.β_nonneg (pow_nonneg hd.q_nonneg k))

theorem loads_near (hl : ∀ i, 0 < l i) {x psi : Vec C ℝ} {b : ℝ} (h : ∀ i, |psi i - x i| ≤ b) (hb : 0 ≤ b)
    (r : Fin S) : |loads l feat psi r - loads l feat x r| ≤ (∑ i, l i) * b := by
  unfold loads
  rw [← Finset.sum_sub_distrib, Finset.sum_mul]
  refine (Finset.abs_sum_le_sum_abs _ _).trans (Finset.sum_le_sum fun i _ => ?_)
  split
  · rw [← mul_sub, abs_mul, abs_of_pos (hl i)]
    exact mul_le_mul_of_nonneg_left (h i) (hl i).le
  · rw [sub_zero, abs_zero]
    exact mul_nonneg (hl i).le hb

theorem between_near {x y z w b : ℝ} (h1 : min x y ≤ z) (h2 : z ≤ max x y) (hx : |x - w| ≤ b)
    (hy : |y - w| ≤ b) : |z - w| ≤ b := by
  rw [abs_le] at *
  rcases min_choice x y with h | h <;> rcases max_choice x y with h' | h' <;> rw [h] at h1 <;>
    rw [h'] at h2 <;> constructor <;> linarith [hx.1, hx.2, hy.1, hy.2]

theorem rowsMax_le {d : Mat S M ℝ} {b : ℝ} (hb : 0 ≤ b) (h : ∀ r m, |d r m| ≤ b) : rowsMax d ≤ b := by
  rcases (rowsMax_spec d).2.2 with e0 | ⟨r, m, e0⟩
  · rw [e0]; exact hb
  · rw [e0]; exact (le_abs_self _).trans (h r m)

/-- The bounds of `exists_near_bound`. -/
def NearBound (ia : FHCompiled S ℝ) (es : CanonicalC C ℝ) (en : EntropyI C S M ℝ) (rng : Rng G ℝ)
    (p : Params ℝ) (feat : Fin C → Fin S) (A : ℝ) : Prop :=
  ∀ {tries : ℤ} {count : ℕ} {s : State C S M ℝ G} {t : Trace C S M ℝ G} {U : ℝ},
    IterFacts (ia.toI M) en (es.toI M) rng p tries count s t →
    (∀ m, p.killThreshold < s.Js m) → ∑ m, s.Js m = M →
    (∀ c ∈ s.cons, c.Trivial) → (∀ r m n, |s.omegas r m - s.omegas r n| ≤ U) → 0 ≤ U → U ≤ 1 →
    NearPass A U ia.chis feat es.phiMeans s t

theorem residue_trivial {ia : InteractionI S M ℝ} {es : EnsembleI C M ℝ}
    (h : IterFacts ia en es rng p tries count s t) (hc : ∀ c ∈ s.cons, c.Trivial) :
    t.maxConstraintResidue = 0 := by
  obtain ⟨h1, h2⟩ := evolveCons_spec h.cons
  refine le_antisymm ((h2 0 le_rfl).mpr ⟨le_rfl, fun k hk => ?_⟩) h1
  rw [h.consPrep] at hk
  obtain ⟨k', hk', rfl⟩ := List.mem_map.mp hk
  have := hc k' hk'
  cases k' with
  | no c => trivial
  | loc A c => exact this.elim
  | glob A c => exact this.elim

theorem merging_next (hd : MergeData ia.chis ia.coef es.phiMeans l feat p W ε c A β q D E θ)
    (hl : ∀ i, 0 < l i) (hx : ∀ i, 0 ≤ es.phiMeans i) (hthr : 0 ≤ p.killThreshold)
    (hb : 0 < p.JsStepUpperBound) (hen : IsIdealGas en l feat) (hA : NearBound ia es en rng p feat A)
    (h : iterate (ia.toI M) en (es.toI M) rng p tries count s = .ok t)
    (hs : Merging ia.chis feat es.phiMeans W c β q D E θ k s) :
    MergePass A β q E θ es.phiMeans k t ∧ t.reviveCount = count ∧
      Merging ia.chis feat es.phiMeans W c β q D E θ (k + 1) t.state := by
  have hf := iterate_facts h
  have hes : Scales (es.toI M) fun Qs i => es.phiMeans i / Qs i := es.scales
  have hal := hs.alive hd
  obtain ⟨hmk, hJ, hom, hcount, hn⟩ := hf.masks_one hal
  have hA0 := hd.A_pos
  have hβ0 := hd.β_nonneg
  have hqk : 0 ≤ q ^ k := pow_nonneg hd.q_nonneg k
  have hqk1 : q ^ k ≤ 1 := pow_le_one₀ hd.q_nonneg hd.q_lt.le
  have hU0 : 0 ≤ β * q ^ k := mul_nonneg hβ0 hqk
  have hUβ : β * q ^ k ≤ β := by nlinarith
  have hN := hA hf hal hs.volumes hs.cons (hs.near hd) hU0 (hUβ.trans hd.β_le)
  have hAUβ : A * (β * q ^ k) ≤ A * β := mul_le_mul_of_nonneg_left hUβ hA0.le
  have hAU0 : 0 ≤ A * (β * q ^ k) := mul_nonneg hA0.le hU0
  obtain ⟨hfac, hvol, hdJ, hres, hinc, hjs⟩ := hN.step hf hb hal hs.volumes
    ((mul_le_mul_of_nonneg_left hAUβ (abs_nonneg _)).trans hd.bound)
  have ha := hd.a_pos
  have ha1 := hd.a_le
  have hθ0 : 0 ≤ θ := hd.q_nonneg.trans hd.q_le
  have hqθ : q ^ k ≤ θ ^ k := pow_le_pow_left₀ hd.q_nonneg hd.q_le k
  have hE0 : 0 ≤ E := le_trans (by positivity) hd.E_ge
  refine ⟨⟨hN.phis, hinc, hjs, ?_, residue_trivial hf hs.cons⟩, hcount, ?_, fun m => ?_, fun m n => ?_,
    fun r m => ?_, ?_⟩
  · rw [hf.maxAbsOmegaDiff]
    refine rowsMax_le (by positivity) fun r m => ?_
    have h1 := hs.resid r m
    have h2 := hN.omegaDiff r m
    rw [abs_le] at *
    constructor <;> linarith [h1.1, h1.2, h2.1, h2.2]
  · exact hvol
  · show |t.Js m - 1| ≤ _
    rw [Finset.sum_range_succ, mul_add]
    have h1 := abs_le.mp (hs.drift m)
    have h2 : |t.Js m - s.Js m| ≤ D * q ^ k := by
      refine (hdJ m).trans (le_of_eq ?_)
      rw [hd.D_eq]; ring
    rw [abs_le] at *
    constructor <;> linarith [h1.1, h1.2, h2.1, h2.2]
  · show quad W (fun r => t.omegas r m - t.omegas r n) ≤ _
    have hQ : ∀ i, 0 ≤ es.phiMeans i / t.Qs i := fun i => by
      refine div_nonneg (hx i) ?_
      rw [hf.Qs_eq hen, hJ]
      exact div_nonneg (Finset.sum_nonneg fun m _ => mul_nonneg (Real.exp_pos _).le (hthr.trans (hal m).le))
        (Finset.sum_nonneg fun m _ => hthr.trans (hal m).le)
    obtain ⟨psi, hp1, hp2⟩ := hf.difference hen hes hQ hs.cons (hmk m) (hmk n)
    have hpsi : ∀ i, |psi i - es.phiMeans i| ≤ A * (β * q ^ k) := fun i =>
      between_near (hp1 i).1 (hp1 i).2 (hN.phis i m) (hN.phis i n)
    have hload : ∀ r, |loads l feat psi r - loads l feat es.phiMeans r| ≤ ε := fun r => by
      refine (loads_near hl hpsi hAU0 r).trans (le_trans ?_ hd.load)
      exact mul_le_mul_of_nonneg_left hAUβ (Finset.sum_nonneg fun i _ => (hl i).le)
    have e1 : (fun r => t.omegas r m - t.omegas r n) = (fun r => s.omegas r m - s.omegas r n) -
        p.acceptanceOmega • response ia.chis ia.coef (loads l feat psi)
          (fun r => s.omegas r m - s.omegas r n) := by
      funext r
      rw [hp2, hfac, hom, one_mul]
      rfl
    rw [e1]
    calc _ ≤ q ^ 2 * quad W (fun r => s.omegas r m - s.omegas r n) := hd.decrease _ hload _
      _ ≤ q ^ 2 * (c * (β * q ^ k) ^ 2) := mul_le_mul_of_nonneg_left (hs.form m n) (sq_nonneg q)
      _ = _ := by ring
  · refine (hres r m).trans ?_
    rw [abs_of_nonneg (by linarith), abs_of_pos ha]
    calc _ ≤ (1 - p.acceptanceOmega) * (E * θ ^ k) + p.acceptanceOmega / 2 * (E * θ ^ k) := by
          refine add_le_add (mul_le_mul_of_nonneg_left (hs.resid r m) (by linarith)) ?_
          have h1 : 4 * (A * β) * q ^ k ≤ E * θ ^ k :=
            mul_le_mul hd.E_ge hqθ hqk hE0
          nlinarith
      _ = (1 - p.acceptanceOmega / 2) * (E * θ ^ k) := by ring
      _ ≤ θ * (E * θ ^ k) := mul_le_mul_of_nonneg_right hd.a_ge (by positivity)
      _ = _ := by ring
  · exact (hf.cons_inv Cons.Trivial (fun c pf J mk h => h.prepare pf J mk)
      (fun c step mk res c' h he => h.evolve he) hs.cons).2

variable {e : RunEnv C S M ℝ G}

theorem Spec.Passes.merging (hd : MergeData ia.chis ia.coef es.phiMeans l feat e.params W ε c A β q D E θ)
    (hl : ∀ i, 0 < l i) (hx : ∀ i, 0 ≤ es.phiMeans i) (hthr : 0 ≤ e.params.killThreshold)
    (hb : 0 < e.params.JsStepUpperBound) (hia : e.ia = ia.toI M) (hen : IsIdealGas e.en l feat)
    (hes : e.es = es.toI M) (hA : NearBound ia es e.en e.rng e.params feat A) {b : ℤ} {n : ℕ}
    (h : Passes e b n count s t) (hs : Merging ia.chis feat es.phiMeans W c β q D E θ k s) :
    MergePass A β q E θ es.phiMeans (k + n - 1) t ∧ t.reviveCount = count ∧
      Merging ia.chis feat es.phiMeans W c β q D E θ (k + n) t.state := by
  induction h with
  | one h =>
    rw [hia, hes] at h
    exact merging_next hd hl hx hthr hb hen hA h hs
  | more h1 h2 ih =>
    obtain ⟨i1, i2, i3⟩ := ih hs
    rw [hia, hes] at h2
    obtain ⟨j1, j2, j3⟩ := merging_next hd hl hx hthr hb hen hA h2 i3
    exact ⟨j1, j2.trans i2, j3⟩

theorem Spec.Chain.merging (hd : MergeData ia.chis ia.coef es.phiMeans l feat e.params W ε c A β q D E θ)
    (hl : ∀ i, 0 < l i) (hx : ∀ i, 0 ≤ es.phiMeans i) (hthr : 0 ≤ e.params.killThreshold)
    (hb : 0 < e.params.JsStepUpperBound) (hia : e.ia = ia.toI M) (hen : IsIdealGas e.en l feat)
    (hes : e.es = es.toI M) (hA : NearBound ia es e.en e.rng e.params feat A) {b b' : ℤ} {inner : ℕ}
    {ts : List (Trace C S M ℝ G)} {s s' : State C S M ℝ G} (h : Chain e inner ts s b s' b')
    (hs : Merging ia.chis feat es.phiMeans W c β q D E θ k s) :
    b' = b ∧ Merging ia.chis feat es.phiMeans W c β q D E θ (k + ts.length * inner) s' := by
  induction h generalizing k with
  | nil => exact ⟨rfl, by simpa using hs⟩
  | cons h1 h2 ih =>
    obtain ⟨i1, i2, i3⟩ := h1.merging hd hl hx hthr hb hia hen hes hA hs
    obtain ⟨j1, j2⟩ := ih i3
    have hk : ∀ n : ℕ, k + inner + n * inner = k + (n + 1) * inner := fun n => by ring
    rw [hk] at j2
    exact ⟨by rw [j1, i2]; simp, j2⟩

end Flory
