import Verif.Lemmas.Selection
import Verif.Lemmas.Result

/-! # Runs that select phases -/

set_option linter.unusedSectionVars false

namespace Flory

open Spec Finset

variable {G : Type} {C S M : ℕ} [NeZero M] {ia : FHCompiled S ℝ} {l mus : Vec C ℝ} {feat : Fin C → Fin S}
  {phi : Mat C M ℝ} {c : Vec M ℝ}

theorem run_selection {e : RunEnv C S M ℝ G} {W : Fin M → Mat S S ℝ}
    {ε v A β q E f₀ γ D₀ D H : ℝ} {T : ℕ}
    (hd : SelData ia l mus feat phi c e.params W ε v A β q E f₀ γ D₀ D H T)
    (hu : SelSetup ia l mus feat e) (hok : e.rng.Ok) {st : State C S M ℝ G}
    (hs : Sel ia l feat phi c e.params.killThreshold W v β q γ D₀ D H T 0 st)
    {maxSteps : ℚ} {tol : ℝ} {interval b : ℤ} (hb : b ≤ 0)
    {f : RunState C S M ℝ G} {ph : Phases M C ℝ} {d : Diagnostics ℝ}
    (h : runImpl e maxSteps tol interval st b = (f, .ok (ph, d)))
    (hstop : T ≤ d.steps - 1 ∨ ∀ m n, c m < c n → 2 * d.maxAbsJsDiff < c n - c m - 2 * (A * β)) :
    d.reviveCountLeft = b ∧ d.maxAbsIncomp ≤ A * (β * q ^ (d.steps - 1)) ∧
    d.maxAbsOmegaDiff ≤ A * (β * q ^ (d.steps - 1)) ∧
    (T < d.steps - 1 → d.maxAbsJsDiff ≤ 2 * (A * (β * q ^ (d.steps - 1)))) ∧
    d.maxConstraintResidue = 0 ∧
    (∀ m, ∃ n, Least c n ∧ ∀ i, |ph.fractions m i - phi i n| ≤ A * (β * q ^ (d.steps - 1))) ∧
    (∀ n, Least c n → ∀ i, |ph.fractions n i - phi i n| ≤ A * (β * q ^ (d.steps - 1))) ∧
    ∑ m, ph.volumes m = Nat.card {n // Least c n} := by
  classical
  have hthr := hd.thr_nonneg
  obtain ⟨tr, inner, ts, t, cp, a1, a2, hf⟩ := run_facts hthr h
  obtain ⟨s₀, b₀, c1, c2, c3, c4⟩ := hf.chain.last
  obtain ⟨k1, k2⟩ := c1.selection hd hu hb hs
  obtain ⟨l1, l2, l3⟩ := c2.selection hd hu (by rw [k1]; simpa using hb) k2
  obtain ⟨count, s, h3, -, -⟩ := c2.lastPass
  have hF := iterate_facts h3
  have hst : 0 + ts.length * inner + inner = d.steps := by rw [hf.diag]; ring
  rw [hst] at l1 l3
  have hjs : d.maxAbsJsDiff = t.maxAbsJsDiff := by rw [hf.diag]
  have hsel : ∀ m, t.masks m = 1 ↔ Least c m := fun m => by
    refine ⟨fun hm => ?_, l1.least m⟩
    rcases hstop with h1 | h1
    · exact l1.selected h1 m hm
    · by_contra hcon
      obtain ⟨n, hn⟩ := Finite.exists_min c
      have hlt : c n < c m := by
        by_contra h'
        exact hcon fun k => (not_lt.mp h').trans (hn k)
      have h2 := h1 n m hlt
      rw [hjs] at h2
      have hnm := l1.least n hn
      have e1 := hF.JsDiff m
      have e2 := hF.JsDiff n
      rw [hm, mul_one] at e1
      rw [hnm, mul_one] at e2
      have g1 := abs_le.mp (hF.JsDiff_le m)
      have g2 := abs_le.mp (hF.JsDiff_le n)
      have g3 := abs_le.mp (l1.energy m hm)
      have g4 := abs_le.mp (l1.energy n hnm)
      have g5 := mul_le_mul_of_nonneg_left (hd.U_le (d.steps - 1)) hd.A_pos.le
      linarith [g1.1, g2.2, g3.1, g4.2]
  have hold : ∀ n, e.params.killThreshold < t.Js n → t.masks n = 1 := fun n hn =>
    (hF.mask_cases n).resolve_right fun h0 => absurd (hF.Js_dead h0 ▸ hn) (not_lt.mpr hthr)
  have halive : ∀ n, Least c n → e.params.killThreshold < t.Js n := fun n hn => l3.alive hd hn
  obtain ⟨r1, r2, r3, r4, -⟩ := C32_copy_revival_conserves hok _ _ hthr _ hf.copy
  refine ⟨?_, ?_, ?_, fun hT => ?_, ?_, fun m => ?_, fun n hn i => ?_, ?_⟩
  · rw [hf.diag]
    show f.reviveLeft = b
    rw [c4, k1, l2]; simp
  · exact (congrArg Diagnostics.maxAbsIncomp hf.diag).trans_le l1.incomp
  · exact (congrArg Diagnostics.maxAbsOmegaDiff hf.diag).trans_le l1.omegaDiff
  · rw [hjs]; exact l1.jsDiff hT
  · rw [hf.diag]; exact l1.residue
  · by_cases hm : e.params.killThreshold < t.Js m
    · refine ⟨m, (hsel m).mp (hold m hm), fun i => ?_⟩
      rw [hf.fractions]
      have := (r1 m hm).1 i
      show |cp.targets i m - phi i m| ≤ _
      rw [this]
      exact l1.phis m (hold m hm) i
    · obtain ⟨n, hn, hn2⟩ := r2 m (not_lt.mp hm)
      refine ⟨n, (hsel n).mp (hold n hn), fun i => ?_⟩
      rw [hf.fractions]
      show |cp.targets i m - phi i n| ≤ _
      rw [hn2 i]
      exact l1.phis n (hold n hn) i
  · rw [hf.fractions]
    show |cp.targets i n - phi i n| ≤ _
    rw [(r1 n (halive n hn)).1 i]
    exact l1.phis n (l1.least n hn) i
  · rw [hf.volumes, r4, sum_filter]
    have e1 : ∀ m, (if e.params.killThreshold < t.Js m then t.Js m else 0) = t.Js m := fun m => by
      rcases hF.mask_cases m with e0 | e0
      · rw [if_pos (halive m ((hsel m).mp e0))]
      · rw [hF.Js_dead e0]; simp
    rw [sum_congr rfl fun m _ => e1 m, hF.sum_Js, hF.nValid_card, Nat.card_eq_fintype_card,
      Fintype.card_subtype]
    congr 2
    ext m
    simp [hsel m]

/-- Stability carries over from components to features. -/
theorem Spec.StablePhase.features {chis : Mat S S ℝ} {x : Vec C ℝ} (h : StablePhase chis feat l x) (hl : ∀ i, 0 < l i)
    (hx : ∀ i, 0 < x i) (hsur : Function.Surjective feat) (z : Vec S ℝ) (hz : ∑ r, z r = 0) (hz0 : z ≠ 0) :
    0 < curvature chis (loads l feat x) z := by
  have hpos : ∀ r, 0 < loads l feat x r := fun r => by
    obtain ⟨i, hi⟩ := hsur r
    unfold loads
    refine sum_pos' (fun j _ => ?_) ⟨i, mem_univ i, ?_⟩
    · split
      · exact (mul_pos (hl j) (hx j)).le
      · exact le_rfl
    · rw [if_pos hi]; exact mul_pos (hl i) (hx i)
  set y : Vec C ℝ := fun i => z (feat i) / loads l feat x (feat i) * (l i * x i) with hy
  have hsum : ∀ g : Fin S → ℝ, ∑ i, g (feat i) * y i = ∑ r, g r * z r := fun g => by
    have h1 := sum_loads l feat x fun r => g r * (z r / loads l feat x r)
    calc _ = ∑ i, g (feat i) * (z (feat i) / loads l feat x (feat i)) * (l i * x i) :=
          sum_congr rfl fun i _ => by simp only [hy]; ring
      _ = _ := h1.symm
      _ = _ := sum_congr rfl fun r _ => by
        have := (hpos r).ne'
        field_simp
  have h0 : ∑ i, y i = 0 := by
    have := hsum fun _ => 1
    simpa [hz] using this
  have hne : y ≠ 0 := fun h0 => hz0 (funext fun r => by
    obtain ⟨i, hi⟩ := hsur r
    have h1 := congrFun h0 i
    have h2 : y i = z (feat i) / loads l feat x (feat i) * (l i * x i) := rfl
    rw [h2, hi] at h1
    have h3 : l i * x i ≠ 0 := (mul_pos (hl i) (hx i)).ne'
    have h4 := (hpos r).ne'
    have h5 : z r / loads l feat x r * (l i * x i) = 0 := h1
    rcases mul_eq_zero.mp h5 with h6 | h6
    · simpa [h4] using h6
    · exact absurd h6 h3)
  have h1 := h y h0 hne
  have e1 : ∑ i, y i ^ 2 / (l i * x i) = ∑ r, z r ^ 2 / loads l feat x r := by
    have := hsum fun r => z r / loads l feat x r
    calc _ = ∑ i, z (feat i) / loads l feat x (feat i) * y i := sum_congr rfl fun i _ => by
          have h3 : l i * x i ≠ 0 := (mul_pos (hl i) (hx i)).ne'
          simp only [hy]
          field_simp
      _ = _ := this
      _ = _ := sum_congr rfl fun r _ => by ring
  have e2 : ∑ i, ∑ j, chis (feat i) (feat j) * y i * y j = ∑ r, ∑ s, chis r s * z r * z s := by
    have h2 : ∀ r, ∑ j, chis r (feat j) * y j = ∑ s, chis r s * z s := fun r => hsum (chis r)
    calc _ = ∑ i, (∑ s, chis (feat i) s * z s) * y i := sum_congr rfl fun i _ => by
          rw [← h2, sum_mul]
          exact sum_congr rfl fun j _ => by ring
      _ = ∑ r, (∑ s, chis r s * z s) * z r := hsum fun r => ∑ s, chis r s * z s
      _ = _ := sum_congr rfl fun r _ => by
          rw [sum_mul]
          exact sum_congr rfl fun j _ => by ring
  unfold curvature
  rw [← e1, ← e2]
  exact h1

/-- An upper bound for finitely many numbers. -/
theorem exists_upper {α : Type} [Fintype α] (f : α → ℝ) : ∃ n > 0, ∀ a, f a ≤ n := by
  refine ⟨∑ a, |f a| + 1, ?_, fun a => ?_⟩
  · have : 0 ≤ ∑ a, |f a| := sum_nonneg fun a _ => abs_nonneg _
    linarith
  · have := single_le_sum (f := fun a => |f a|) (fun a _ => abs_nonneg _) (mem_univ a)
    linarith [le_abs_self (f a)]

/-- Forms that decrease in each of finitely many phases. -/
theorem exists_forms {chis : Mat S S ℝ} (hsym : ∀ r s, chis r s = chis s r) (hl : ∀ i, 0 < l i)
    (hsur : Function.Surjective feat) (hS : S ≠ 0) (hpos : ∀ i m, 0 < phi i m)
    (hstab : ∀ m, StablePhase chis feat l fun i => phi i m) :
    ∃ c₀ > 0, ∀ coef, c₀ ≤ coef → ∃ W : Fin M → Mat S S ℝ, ∃ ε > 0, ∃ a₁ > 0, ∃ c₂ > 0, ∃ L > 0, ∃ v > 0,
      (∀ m u, v * sumSq u ≤ quad (W m) u) ∧ (∀ m u, quad (W m) u ≤ L * sumSq u) ∧
      ∀ m d, (∀ r, |d r - loads l feat (fun i => phi i m) r| ≤ ε) → ∀ a, 0 ≤ a → a ≤ a₁ → ∀ u,
        quad (W m) (u - a • response chis coef d u) ≤ quad (W m) u - a * c₂ * sumSq u := by
  have hd : ∀ m r, 0 < loads l feat (fun i => phi i m) r := fun m r => by
    obtain ⟨i, hi⟩ := hsur r
    unfold loads
    refine sum_pos' (fun j _ => ?_) ⟨i, mem_univ i, ?_⟩
    · split
      · exact (mul_pos (hl j) (hpos j m)).le
      · exact le_rfl
    · rw [if_pos hi]; exact mul_pos (hl i) (hpos i m)
  have hne : NeZero S := ⟨hS⟩
  have hδ : ∀ m, 0 < ∑ r, loads l feat (fun i => phi i m) r := fun m =>
    sum_pos (fun r _ => hd m r) univ_nonempty
  have hst := fun m => (hstab m).features hl (fun i => hpos i m) hsur
  choose k₀ hk using fun m => many_forms (hd m) (hδ m) hsym (regular_of_stable (hst m))
  obtain ⟨c₀, hc₀, hc⟩ := exists_upper k₀
  refine ⟨c₀, hc₀, fun coef hcoef => ⟨fun m => formMatrix chis (loads l feat fun i => phi i m), ?_⟩⟩
  choose L hL hLq using fun m => exists_quad_le (formMatrix chis (loads l feat fun i => phi i m))
  choose v hv hvq using fun m => exists_coercive (continuous_quad (formMatrix chis (loads l feat fun i => phi i m)))
    (quad_smul _) fun u hu => form_pos (hd m) (hδ m) (hst m) hu
  choose ε hε a₁ ha₁ c₂ hc₂ hdec using fun m => exists_decrease
    (formMatrix chis (loads l feat fun i => phi i m)) (response chis coef)
    (response_smul chis coef) (continuous_response chis coef) (loads l feat fun i => phi i m)
    (hk m coef ((hc m).trans hcoef))
  obtain ⟨ε', hε', hεl⟩ := Sep.exists_lower ε hε
  obtain ⟨a', ha', hal⟩ := Sep.exists_lower a₁ ha₁
  obtain ⟨c', hc', hcl⟩ := Sep.exists_lower c₂ hc₂
  obtain ⟨v', hv', hvl⟩ := Sep.exists_lower v hv
  obtain ⟨L', hL', hLl⟩ := exists_upper L
  refine ⟨ε', hε', a', ha', c', hc', L', hL', v', hv', fun m u => ?_, fun m u => ?_, fun m d hdm a h0 h1 u => ?_⟩
  · exact (mul_le_mul_of_nonneg_right (hvl m) (sumSq_nonneg u)).trans (hvq m u)
  · exact (le_abs_self _).trans ((hLq m u).trans (mul_le_mul_of_nonneg_right (hLl m) (sumSq_nonneg u)))
  · have h2 := hdec m d (fun r => (hdm r).trans (hεl m)) a h0 (h1.trans (hal m)) u
    have h3 : a * c' * sumSq u ≤ a * c₂ m * sumSq u :=
      mul_le_mul_of_nonneg_right (mul_le_mul_of_nonneg_left (hcl m) h0) (sumSq_nonneg u)
    linarith

/-- Uniform bounds near finitely many phases. -/
theorem exists_near_phases [NeZero S] (hl : ∀ i, 0 < l i)
    (hph : ∀ m, ReservoirPhase ia.chis feat l mus (fun i => phi i m) (c m)) :
    ∃ A > 0, ∃ δ > 0, ∀ m (w : Vec S ℝ) (U : ℝ), 0 ≤ U → U ≤ δ →
      (∀ r, |w r - (equilibriumField ia.chis feat l (fun j => phi j m) r - c m)| ≤ U) →
      FieldNear ia.chis ia.coef l mus feat (fun i => phi i m) (c m) w (A * U) := by
  choose A hA δ hδ hn using fun m => exists_fieldNear hl (hph m) ia.coef
  obtain ⟨A', hA', hAl⟩ := exists_upper A
  obtain ⟨δ', hδ', hδl⟩ := Sep.exists_lower δ hδ
  refine ⟨A', hA', δ', hδ', fun m w U h0 hU hw => ?_⟩
  have h1 := hn m w U h0 (hU.trans (hδl m)) hw
  have h2 : A m * U ≤ A' * U := mul_le_mul_of_nonneg_right (hAl m) h0
  exact ⟨fun i => (h1.phi i).trans h2, h1.incomp.trans h2, fun r => (h1.gap r).trans h2, h1.energy.trans h2⟩

end Flory
