import Verif.Lemmas.SelectionRun
import Verif.Lemmas.Steps

/-! # Constants of runs that select phases -/

set_option linter.unusedSectionVars false

namespace Flory

open Spec Finset

variable {G : Type} {C S M : ℕ} [NeZero M] {l mus : Vec C ℝ} {feat : Fin C → Fin S}
  {phi : Mat C M ℝ} {c : Vec M ℝ}

/-- Smallest difference between different numbers. -/
theorem exists_gap (c : Vec M ℝ) : ∃ g > 0, ∀ m n, c m < c n → g ≤ c n - c m := by
  obtain ⟨g, hg, h⟩ := Sep.exists_lower (α := {x : Fin M × Fin M // c x.1 < c x.2}) (fun x => c x.1.2 - c x.1.1)
    fun x => sub_pos.mpr x.2
  exact ⟨g, hg, fun m n hmn => h ⟨(m, n), hmn⟩⟩

/-- How small the distance from the phases has to be. -/
theorem exists_small {A A₀ sl aJ δ ε g x q : ℝ} (hA : 0 < A) (hA₀ : 0 ≤ A₀) (hsl : 0 ≤ sl) (haJ : 0 < aJ)
    (hδ : 0 < δ) (hε : 0 < ε) (hg : 0 < g) (hx : 0 < x) (hq : q < 1) :
    ∃ η > 0, ∀ U, 0 ≤ U → U ≤ η → A₀ * U ≤ δ ∧ sl * (A * (A₀ * U)) ≤ ε ∧ A * (A₀ * U) ≤ 1 ∧
      8 * (A * (A₀ * U)) ≤ g ∧ aJ * (2 * (A * (A₀ * U))) ≤ x / 4 * (1 - q) ∧ 4 * U ≤ x / 4 ∧ U ≤ 1 := by
  have hq' : 0 < 1 - q := by linarith
  have key : ∀ K b : ℝ, 0 ≤ K → 0 < b → ∃ η > 0, ∀ U, 0 ≤ U → U ≤ η → K * U ≤ b := fun K b hK hb =>
    ⟨b / (K + 1), by positivity, fun U h0 hU => by
      rw [le_div_iff₀ (by positivity)] at hU
      nlinarith⟩
  obtain ⟨η₁, h1, k1⟩ := key A₀ δ hA₀ hδ
  obtain ⟨η₂, h2, k2⟩ := key (sl * (A * A₀)) ε (by positivity) hε
  obtain ⟨η₃, h3, k3⟩ := key (A * A₀) 1 (by positivity) one_pos
  obtain ⟨η₄, h4, k4⟩ := key (8 * (A * A₀)) g (by positivity) hg
  obtain ⟨η₅, h5, k5⟩ := key (aJ * (2 * (A * A₀))) (x / 4 * (1 - q)) (by positivity) (by positivity)
  obtain ⟨η₆, h6, k6⟩ := key 4 (x / 4) (by norm_num) (by positivity)
  refine ⟨min (min (min η₁ η₂) (min η₃ η₄)) (min (min η₅ η₆) 1), by positivity, fun U h0 hU => ?_⟩
  simp only [le_min_iff] at hU
  obtain ⟨⟨⟨u1, u2⟩, u3, u4⟩, ⟨u5, u6⟩, u7⟩ := hU
  refine ⟨k1 U h0 u1, ?_, ?_, ?_, ?_, k6 U h0 u6, u7⟩
  · have := k2 U h0 u2; linarith
  · have := k3 U h0 u3; linarith
  · have := k4 U h0 u4; linarith
  · have := k5 U h0 u5; linarith

theorem sel_start {ia : FHCompiled S ℝ} {thr : ℝ} {W : Fin M → Mat S S ℝ} {L v A₀ U q γ D H : ℝ} {T : ℕ}
    {st : State C S M ℝ G} (hL : 0 < L) (hv : 0 < v) (hLq : ∀ m u, quad (W m) u ≤ L * sumSq u)
    (hA₀ : A₀ ^ 2 = L * S / v) (hU0 : 0 ≤ U) (hH : 1 + U ≤ H) (hJ : ∀ m, |st.Js m - 1| ≤ U)
    (hom : ∀ r m, |st.omegas r m - (equilibriumField ia.chis feat l (fun j => phi j m) r - c m)| ≤ U)
    (hcons : ∀ k ∈ st.cons, k.Trivial) :
    Sel ia l feat phi c thr W v (A₀ * U) q γ (2 * U) D H T 0 st := by
  have hJl : ∀ m, 1 - U ≤ st.Js m ∧ st.Js m ≤ 1 + U := fun m => by
    have := abs_le.mp (hJ m)
    constructor <;> linarith [this.1, this.2]
  refine ⟨hcons, fun m _ => ?_, ⟨0, by linarith [(hJl 0).1]⟩, fun m => (hJl m).2.trans hH, fun m _ n _ => ?_,
    fun m n _ _ _ => ?_, fun h => absurd h (Nat.not_lt_zero _)⟩
  · refine (hLq m _).trans ?_
    have h2 : sumSq (fun r => st.omegas r m - (equilibriumField ia.chis feat l (fun j => phi j m) r - c m)) ≤
        S * U ^ 2 := by
      unfold sumSq
      refine (sum_le_sum (g := fun _ => U ^ 2) fun r _ => ?_).trans (by simp)
      exact sq_le_sq' (abs_le.mp (hom r m)).1 (abs_le.mp (hom r m)).2
    calc _ ≤ L * (S * U ^ 2) := mul_le_mul_of_nonneg_left h2 hL.le
      _ = v * (A₀ ^ 2 * U ^ 2) := by rw [hA₀]; field_simp
      _ = _ := by ring
  · simp only [range_zero, sum_empty, mul_zero, add_zero]
    linarith [(hJl m).1, (hJl n).2]
  · simp only [range_zero, sum_empty, mul_zero, add_zero, Nat.cast_zero]
    linarith [(hJl m).1, (hJl n).2]

theorem sel_finish {ia : FHCompiled S ℝ} {e : RunEnv C S M ℝ G} {W : Fin M → Mat S S ℝ}
    {ε v A A₀ U q E f₀ γ D₀ D H g : ℝ} {T : ℕ}
    (hd : SelData ia l mus feat phi c e.params W ε v A (A₀ * U) q E f₀ γ D₀ D H T)
    (hu : SelSetup ia l mus feat e) (hok : e.rng.Ok) (hthr1 : e.params.killThreshold < 1)
    (hthr2 : 2 * e.params.killThreshold * ((M : ℝ) - 1) < 1) (hstd : e.criterion = "standard")
    {st : State C S M ℝ G} (hs : Sel ia l feat phi c e.params.killThreshold W v (A₀ * U) q γ D₀ D H T 0 st)
    (hq0 : 0 < q) (hU0 : 0 ≤ U) (hgap : ∀ m n, c m < c n → g ≤ c n - c m) (hg : 0 < g)
    (hgA : 8 * (A * (A₀ * U)) ≤ g) :
    ∃ K > 0, ∀ tol, 0 < tol → tol ≤ g / 4 → ∃ N : ℕ, LogSteps K tol N ∧ ∀ (maxSteps : ℚ) (interval b : ℤ), b ≤ 0 → N ≤ maxSteps → 0 < interval →
      ∃ f ph d, runImpl e maxSteps tol interval st b = (f, .ok (ph, d)) ∧ d.reviveCountLeft = b ∧
        d.maxAbsIncomp < tol ∧ d.maxAbsOmegaDiff < tol ∧ d.maxAbsJsDiff < tol ∧
        d.maxConstraintResidue = 0 ∧
        (∀ m, ∃ n, Least c n ∧ ∀ i, |ph.fractions m i - phi i n| ≤ (A * A₀ / q + 1) * U * q ^ d.steps) ∧
        (∀ n, Least c n → ∀ i, |ph.fractions n i - phi i n| ≤ (A * A₀ / q + 1) * U * q ^ d.steps) ∧
        ∑ m, ph.volumes m = Nat.card {n // Least c n} := by
  have hq1 := hd.q_lt
  have hA := hd.A_pos
  have hβ0 := hd.β_nonneg
  have hthr := hd.thr_nonneg
  have hub := hd.ub_pos
  set β := A₀ * U with hβ
  have hAβ : 0 ≤ A * β := by positivity
  obtain ⟨j₀, hj₀⟩ := hs.large
  replace hj₀ := hd.thr_lt.trans_le hj₀
  obtain ⟨K, hK, hlog⟩ := exists_logSteps (show 0 < 2 * (A * β) + 1 by positivity) hq0.le hq1
  refine ⟨K + (2 * (T + 1) : ℕ), by positivity, fun tol htol htolg => ?_⟩
  obtain ⟨n, hn, hlog⟩ := hlog tol htol
  refine ⟨2 * (max n (T + 1) + 1), logSteps_add hlog htol _ (by omega) (by omega), fun maxSteps interval b hb hN hint => ?_⟩
  have hpos : 0 < maxSteps := by
    refine lt_of_lt_of_le ?_ hN
    exact_mod_cast (by omega : 0 < 2 * (max n (T + 1) + 1))
  have hprop : ∀ k ∈ st.cons, k.Proper := by
    intro k hk
    have := hs.cons k hk
    cases k with
    | no c => trivial
    | loc A c => exact this.elim
    | glob A c => exact this.elim
  obtain ⟨f, ph, d, hrun⟩ := run_ok hok hu.gas (hu.ensemble ▸ GrandC.total _) hthr hthr1 hthr2 hub hstd (tol := tol) hpos hint
    st b hprop (Or.inl ⟨j₀, hj₀⟩)
  obtain ⟨hst, hlong⟩ := run_long hthr hN hint hrun
  have hstop : T ≤ d.steps - 1 ∨ ∀ m n, c m < c n → 2 * d.maxAbsJsDiff < c n - c m - 2 * (A * β) := by
    rcases hlong with h | ⟨-, -, h⟩
    · exact Or.inl (by have := le_max_right n (T + 1); omega)
    · exact Or.inr fun m n hmn => by linarith [hgap m n hmn]
  obtain ⟨r1, r2, r3, r4, r5, r6, r7, r8⟩ := run_selection hd hu hok hs hb hrun hstop
  have hqs : A * (β * q ^ (d.steps - 1)) ≤ (A * A₀ / q + 1) * U * q ^ d.steps := by
    obtain ⟨j, hj⟩ : ∃ j, d.steps = j + 1 := ⟨d.steps - 1, by omega⟩
    rw [hj, Nat.add_sub_cancel]
    have h1 : (A * A₀ / q + 1) * U * q ^ (j + 1) = A * (β * q ^ j) + U * q ^ (j + 1) := by
      rw [hβ, pow_succ]
      field_simp
    rw [h1]
    have : 0 ≤ U * q ^ (j + 1) := by positivity
    linarith
  have hsm : d.maxAbsIncomp < tol ∧ d.maxAbsOmegaDiff < tol ∧ d.maxAbsJsDiff < tol := by
    rcases hlong with h | h
    · have hk : n ≤ d.steps - 1 := (le_max_left n (T + 1)).trans h
      have hk2 : T < d.steps - 1 := by have := le_max_right n (T + 1); omega
      have hlt : 2 * (A * (β * q ^ (d.steps - 1))) < tol := by
        have h1 : q ^ (d.steps - 1) ≤ q ^ n := pow_le_pow_of_le_one hq0.le hq1.le hk
        rw [lt_div_iff₀ (by positivity)] at hn
        have h2 : 0 < q ^ n := by positivity
        have h3 := mul_le_mul_of_nonneg_left h1 hAβ
        have h4 : A * (β * q ^ (d.steps - 1)) = A * β * q ^ (d.steps - 1) := by ring
        have h5 : q ^ n * (2 * (A * β) + 1) = 2 * (A * β * q ^ n) + q ^ n := by ring
        rw [h4]
        linarith
      have h0 : 0 ≤ A * (β * q ^ (d.steps - 1)) := by positivity
      exact ⟨by linarith, by linarith, by linarith [r4 hk2]⟩
    · exact h
  refine ⟨f, ph, d, hrun, r1, hsm.1, hsm.2.1, hsm.2.2, r5, fun m => ?_, fun n hn i => (r7 n hn i).trans hqs, r8⟩
  obtain ⟨n, hn, h1⟩ := r6 m
  exact ⟨n, hn, fun i => (h1 i).trans hqs⟩

theorem selects_phases {chis : Mat S S ℝ} (hsym : ∀ r s, chis r s = chis s r) (hl : ∀ i, 0 < l i)
    (hsur : Function.Surjective feat) (hS : S ≠ 0)
    (hph : ∀ m, ReservoirPhase chis feat l mus (fun i => phi i m) (c m))
    (hstab : ∀ m, StablePhase chis feat l fun i => phi i m) :
    ∃ c₀ > 0, ∀ ia : FHCompiled S ℝ, ia.chis = chis → c₀ ≤ ia.coef → SelectsPhases G ia l mus feat phi c := by
  have hne : NeZero S := ⟨hS⟩
  obtain ⟨c₀, hc₀, hforms⟩ := exists_forms hsym hl hsur hS (fun i m => (hph m).pos i) hstab
  refine ⟨c₀, hc₀, fun ia hia hcoef => ?_⟩
  subst hia
  obtain ⟨W, ε, hε, a₁, ha₁, c₂, hc₂, L, hL, v, hv, hvq, hLq, hdec⟩ := hforms ia.coef hcoef
  obtain ⟨A, hA, δ, hδ, hnear⟩ := exists_near_phases (ia := ia) hl hph
  obtain ⟨g, hg, hgap⟩ := exists_gap c
  refine ⟨min a₁ (L / (2 * c₂)), by positivity, ?_⟩
  intro e hok hthr hthr1 hthr2 hub hstd hiae hen hes ha haa hJ
  have hM1 : (1 : ℝ) ≤ M := by exact_mod_cast Nat.one_le_iff_ne_zero.mpr (NeZero.ne M)
  set a := e.params.acceptanceOmega with hadef
  set ub := e.params.JsStepUpperBound with hubdef
  have hle1 : a ≤ a₁ := haa.trans (min_le_left _ _)
  have hle2 : a ≤ L / (2 * c₂) := haa.trans (min_le_right _ _)
  obtain ⟨E₀, hE₀, hE⟩ := exists_upper fun m => |c m|
  set H := M * (2 + 2 * ub) with hH
  have hH0 : 0 < H := by positivity
  set Y := (M * (E₀ + 1) * H + (E₀ + 1)) * e.params.acceptanceJs with hY
  set f₀ := ub / max Y ub with hf₀
  have hmax : 0 < max Y ub := hub.trans_le (le_max_right _ _)
  have hf0 : 0 < f₀ := div_pos hub hmax
  have hf1 : f₀ ≤ 1 := (div_le_one hmax).mpr (le_max_right _ _)
  have hfm : f₀ * max Y ub ≤ ub := by rw [hf₀, div_mul_cancel₀ _ hmax.ne']
  set ρ := f₀ * a * c₂ / L with hρ
  have hρ0 : 0 < ρ := by positivity
  have hρ1 : ρ ≤ 1 / 2 := by
    rw [hρ, div_le_iff₀ hL]
    rw [le_div_iff₀ (by positivity)] at hle2
    have : f₀ * a * c₂ ≤ 1 * a * c₂ := by gcongr
    linarith
  set q := √(1 - ρ) with hq
  have hq2 : q ^ 2 = 1 - ρ := Real.sq_sqrt (by linarith)
  have hq0 : 0 < q := Real.sqrt_pos.mpr (by linarith)
  have hq1 : q < 1 := by
    by_contra hcon
    have : 1 ≤ q := not_lt.mp hcon
    nlinarith
  set A₀ := √(L * S / v) with hA₀
  have hA₀0 : 0 ≤ A₀ := Real.sqrt_nonneg _
  have hA₀2 : A₀ ^ 2 = L * S / v := Real.sq_sqrt (by positivity)
  set sl := ∑ i, l i with hsl
  have hsl0 : 0 ≤ sl := sum_nonneg fun i _ => (hl i).le
  set γ := f₀ * e.params.acceptanceJs * (g / 2) with hγ
  have hγ0 : 0 < γ := by positivity
  obtain ⟨T, hT⟩ := exists_nat_ge ((H + 3) / γ)
  have hTγ : H + 3 ≤ γ * T := by
    rw [div_le_iff₀ hγ0] at hT
    linarith
  obtain ⟨η, hη, hsmall⟩ := exists_small hA hA₀0 hsl0 hJ hδ hε hg (sub_pos.mpr hthr1) hq1
  rw [hY] at hfm
  clear_value Y f₀ A₀ q γ
  have hu : SelSetup ia l mus feat e := ⟨hl, hen, hiae, hes⟩
  refine ⟨η, hη, A * A₀ / q + 1, by positivity, g / 4, by positivity, q, hq0, hq1, ?_⟩
  intro st U hU0 hUη hJ1 hom hcons
  obtain ⟨s1, s2, s3, s4, s5, s6, s7⟩ := hsmall U hU0 hUη
  set β := A₀ * U with hβ
  have hβ0 : 0 ≤ β := mul_nonneg hA₀0 hU0
  have hAβ : 0 ≤ A * β := by positivity
  set D := e.params.acceptanceJs * (2 * (A * β)) with hD
  have hDq : D / (1 - q) ≤ (1 - e.params.killThreshold) / 4 := by
    rw [div_le_iff₀ (by linarith)]
    exact s5
  have hd : SelData ia l mus feat phi c e.params W ε v A β q (E₀ + 1) f₀ γ (2 * U) D H T := by
    refine ⟨hph, fun m w x h0 hx hw => hnear m w x h0 (hx.trans s1) hw, hv, hvq, fun m d hdm b hb1 hb2 u => ?_,
      hA, hβ0, s2, hq0.le, hq1, fun m => by linarith [hE m], ha, hJ, hub, hthr, rfl, hf0, hfm, rfl, by linarith,
      ?_, hγ0.le, fun m n hmn => ?_, fun m n hmn => ?_, Or.inl ?_⟩
    · have hb0 : 0 ≤ b := le_trans (by positivity) hb1
      refine (hdec m d hdm b hb0 (hb2.trans hle1) u).trans ?_
      have h1 := hLq m u
      have h2 : ρ * quad (W m) u ≤ b * c₂ * sumSq u := by
        calc ρ * quad (W m) u ≤ ρ * (L * sumSq u) := mul_le_mul_of_nonneg_left h1 hρ0.le
          _ = f₀ * a * c₂ * sumSq u := by rw [hρ]; field_simp
          _ ≤ b * c₂ * sumSq u := by
            have := sumSq_nonneg u
            gcongr
      rw [hq2]; linarith
    · linarith
    · rw [hγ]
      refine mul_le_mul_of_nonneg_left ?_ (by positivity)
      linarith [hgap m n hmn]
    · linarith [hgap m n hmn]
    · linarith
  have hs : Sel ia l feat phi c e.params.killThreshold W v (A₀ * U) q γ (2 * U) D H T 0 st := by
    refine sel_start hL hv hLq hA₀2 hU0 ?_ hJ1 hom hcons
    rw [hH]
    have : (1 : ℝ) * (2 + 2 * ub) ≤ M * (2 + 2 * ub) := mul_le_mul_of_nonneg_right hM1 (by positivity)
    linarith
  exact sel_finish hd hu hok hthr1 hthr2 hstd hs hq0 hU0 hgap hg s4

end Flory
