import Verif.Lemmas.IterationFacts

/-! # The core iteration for ideal gases -/

set_option linter.unusedSectionVars false

namespace Flory

variable {G : Type} {C S M : ℕ} [NeZero M]

/-- The ensemble does not raise for positive partition functions. -/
def EnsembleI.Total (es : EnsembleI C M ℝ) : Prop :=
  ∀ ph Qs masks, (∀ i, 0 < Qs i) → ∃ x, es.normalize ph Qs masks = .ok x

theorem CanonicalC.total (e : CanonicalC C ℝ) : (e.toI M).Total :=
  fun ph _ masks h => e.normalize_ok ph masks fun i => (h i).ne'

theorem GrandC.total (e : GrandC C ℝ) : (e.toI M).Total :=
  fun ph Qs masks _ => ⟨_, e.normalize_eq ph Qs masks⟩

variable {ia : InteractionI S M ℝ} {en : EntropyI C S M ℝ} {es : EnsembleI C M ℝ}
  {rng : Rng G ℝ} {p : Params ℝ} {tries : ℤ} {count : ℕ} {s : State C S M ℝ G}
  {t : Trace C S M ℝ G} {sizes : Vec C ℝ} {feat : Fin C → Fin S} {a : Vec C ℝ → Vec C ℝ}

namespace IterFacts

theorem Qs_eq (h : IterFacts ia en es rng p tries count s t) (hen : IsIdealGas en sizes feat)
    (i : Fin C) : t.Qs i =
      (∑ m, Real.exp (-t.omegasOld (feat i) m * sizes i) * t.JsOld m) / ∑ m, t.JsOld m := by
  obtain ⟨phi0, h1, -⟩ := h.partition
  exact congrFun (congrArg Prod.snd (hen.partition_inv h1).2) i

theorem sum_JsOld_ne (h : IterFacts ia en es rng p tries count s t)
    (hen : IsIdealGas en sizes feat) (hC : C ≠ 0) : ∑ m, t.JsOld m ≠ 0 := by
  obtain ⟨phi0, h1, -⟩ := h.partition
  exact (hen.partition_inv h1).1 hC

theorem phis_eq (h : IterFacts ia en es rng p tries count s t) (hen : IsIdealGas en sizes feat)
    (hes : Scales es a) (i : Fin C) (m : Fin M) : t.phisComp i m =
      a t.Qs i * Real.exp (-t.omegasOld (feat i) m * sizes i) * t.masks m := by
  obtain ⟨phi0, h1, h2⟩ := h.partition
  have h3 := (hen.partition_inv h1).2
  have h4 := hes.inv h2
  have h5 := congrFun (congrFun (congrArg Prod.fst h4) i) m
  simp only at h5
  rw [h5, (Prod.mk.inj h3).1]

theorem incomp_eq (h : IterFacts ia en es rng p tries count s t)
    (hes : Scales es a) (m : Fin M) : t.incomp m = (∑ i, t.phisComp i m - 1) * t.masks m := by
  obtain ⟨phi0, h1, h2⟩ := h.partition
  have h4 := hes.inv h2
  rw [(Prod.mk.inj h4).2, (Prod.mk.inj h4).1]

theorem phisFeat_eq (h : IterFacts ia en es rng p tries count s t)
    (hen : IsIdealGas en sizes feat) (r : Fin S) (m : Fin M) :
    t.phisFeat r m = ∑ i, if feat i = r then t.phisComp i m else 0 := by
  have := h.phisFeat.symm.trans (hen.compToFeat _ _)
  exact congrFun (congrFun (Except.ok.inj this) r) m

theorem sum_phisFeat (h : IterFacts ia en es rng p tries count s t)
    (hen : IsIdealGas en sizes feat) (m : Fin M) :
    ∑ r, t.phisFeat r m = ∑ i, t.phisComp i m := by
  rw [Finset.sum_congr rfl fun r _ => h.phisFeat_eq hen r m, Finset.sum_comm]
  simp

/-- Sums over features of a quantity times the feature fraction are sums over components. -/
theorem sum_mul_phisFeat (h : IterFacts ia en es rng p tries count s t)
    (hen : IsIdealGas en sizes feat) (f : Fin S → ℝ) (m : Fin M) :
    ∑ r, f r * t.phisFeat r m = ∑ i, f (feat i) * t.phisComp i m := by
  rw [Finset.sum_congr rfl fun r _ => by rw [h.phisFeat_eq hen r m, Finset.mul_sum],
    Finset.sum_comm]
  simp

end IterFacts

theorem sum_Js_pos {J : Vec M ℝ} (h0 : ∀ m, 0 ≤ J m) {m : Fin M} (hm : 0 < J m) :
    0 < ∑ m, J m :=
  Finset.sum_pos' (fun m _ => h0 m) ⟨m, Finset.mem_univ _, hm⟩

theorem Q_pos {J w : Vec M ℝ} (h0 : ∀ m, 0 ≤ J m) {m : Fin M} (hm : 0 < J m)
    (hw : ∀ m, 0 < w m) : 0 < (∑ m, w m * J m) / ∑ m, J m :=
  div_pos (Finset.sum_pos' (fun m _ => mul_nonneg (hw m).le (h0 m))
    ⟨m, Finset.mem_univ _, mul_pos (hw m) hm⟩) (sum_Js_pos h0 hm)

/-- What is needed for a pass to succeed. -/
theorem iterate_ok (hok : rng.Ok) (hen : IsIdealGas en sizes feat) (hes : es.Total)
    (hthr : 0 ≤ p.killThreshold) (hthr1 : p.killThreshold < 1)
    (hb : 0 < p.JsStepUpperBound) (hcons : ∀ c ∈ s.cons, c.Proper)
    (halive : (∃ m, p.killThreshold < s.Js m) ∨ (count : ℤ) < tries) :
    ∃ t, iterate ia en es rng p tries count s = .ok t ∧ ∀ c ∈ t.cons, c.Proper := by
  obtain ⟨hr1, hr2⟩ := reviveBlock_spec (S := S) (p := p) (tries := tries) (Js := s.Js)
    (om := s.omegas) (g := s.g) (count := count) hok
  set rv := reviveBlock rng p tries s.Js s.omegas s.g count with hrv
  obtain ⟨m0, hm0⟩ : ∃ m, p.killThreshold < rv.Js m := by
    by_cases hex : ∃ m, p.killThreshold < s.Js m
    · obtain ⟨m, hm⟩ := hex
      exact ⟨m, by rw [(hr1 m hm).1]; exact hm⟩
    · have hc : (count : ℤ) < tries := by tauto
      rw [if_pos hc] at hr2
      push Not at hex
      exact ⟨0, by rw [hr2.2 0 (hex 0)]; exact hthr1⟩
  set masks := makeMasks rv.Js p.killThreshold with hmk
  have hmask : ∀ m, masks m = if p.killThreshold < rv.Js m then 1 else 0 :=
    fun m => makeMasks_eq _ _ m
  set J : Vec M ℝ := fun m => rv.Js m * masks m with hJ
  have hJ0 : ∀ m, 0 ≤ J m := by
    intro m
    simp only [hJ, hmask]
    split
    · rename_i hlt
      rw [mul_one]; exact hthr.trans hlt.le
    · rw [mul_zero]
  have hJp : 0 < J m0 := by
    simp only [hJ, hmask, if_pos hm0, mul_one]
    exact lt_of_le_of_lt hthr hm0
  have hn : (∑ m, masks m) ≠ 0 := by
    refine (Finset.sum_pos' (fun m _ => ?_) ⟨m0, Finset.mem_univ _, ?_⟩).ne'
    · rw [hmask]; split <;> norm_num
    · rw [hmask, if_pos hm0]; norm_num
  obtain ⟨⟨ph0, Qs⟩, hx⟩ := hen.partition_ok s.phisComp rv.targets (sum_Js_pos hJ0 hJp).ne'
  have hQ : ∀ i, 0 < Qs i := by
    intro i
    rw [(Prod.mk.inj (hen.partition_inv hx).2).2]
    exact Q_pos hJ0 hJp fun m => Real.exp_pos _
  obtain ⟨⟨ph, inc⟩, hy⟩ := hes ph0 Qs masks hQ
  unfold iterate
  simp only [← hrv, ← hmk, ← hJ, hx, hy, bind_ok, hen.compToFeat, computeLocal_eq, updateOmegas_eq]
  rw [pyDiv_ok hn]
  simp only [bind_ok]
  rw [pyDiv_ok (lt_of_lt_of_le hb (le_max_right _ _)).ne']
  simp only [bind_ok]
  generalize hfa : p.JsStepUpperBound / max _ p.JsStepUpperBound = factor
  set ip : List (Cons S M ℝ) := s.cons.map (Cons.prepare _ J masks) with hip
  obtain ⟨Jn, hJn⟩ := updateJs_ok factor p.acceptanceJs
    (fun m => _) masks J hn
  rw [hJn]
  simp only [bind_ok]
  obtain ⟨r, cs, h1, h2⟩ := evolveCons_ok (factor * p.acceptanceOmega) masks (cs := ip)
    (by
      intro c hc
      rw [hip] at hc
      obtain ⟨c', hc', rfl⟩ := List.mem_map.mp hc
      exact Cons.prepare_proper (hcons c' hc') _ _ _) 0
  rw [h1]
  exact ⟨_, rfl, h2⟩

end Flory
