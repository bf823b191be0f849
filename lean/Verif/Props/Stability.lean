import Verif.Lemmas.Stability
import Verif.Props.FreeEnergy
import Mathlib.Analysis.Calculus.Deriv.Add

/-! # C52 – C56: conserved Hessian, stability, equilibration error -/

set_option linter.unusedSectionVars false

namespace Flory

open XReal Spec Topology

/-- Entry `i` of `jacobian` of one composition. -/
noncomputable def jacobianOf {C : ℕ} (fe : FreeEnergy C) (phi : Vec C ℝ) (i : Fin C) : XReal :=
  match fe.jacobian (NDArr.ofVec phi) with
  | .ok r => r.row [] i
  | .error _ => nan

/-- Entry `i` of `jacobian(·, index)` of one composition. -/
noncomputable def conservedJacobianOf {n : ℕ} (fe : FreeEnergy (n + 1)) (index : ℤ)
    (phi : Vec (n + 1) ℝ) (i : Fin n) : XReal :=
  match fe.jacobianAt (NDArr.ofVec phi) index with
  | .ok r => r.row [] i
  | .error _ => nan

theorem jacobianOf_eq {C : ℕ} (fe : FreeEnergy C) {phi : Vec C ℝ} (h : ∀ i, 0 ≤ phi i) :
    jacobianOf fe phi = fe.jacobianImpl phi := by
  funext i
  unfold jacobianOf FreeEnergy.jacobian
  rw [check_ofVec fe h]
  simp only [bind_ok, pure_eq_ok, Rows.map]
  congr 1
  funext i
  exact ofVec_get phi i

theorem conservedJacobianOf_eq {n : ℕ} (fe : FreeEnergy (n + 1)) {index : ℤ} {k : Fin (n + 1)}
    (hk : IsIndex index k) {phi : Vec (n + 1) ℝ} (h : ∀ i, 0 ≤ phi i) (i : Fin n) :
    conservedJacobianOf fe index phi i =
      fe.jacobianImpl phi (k.succAbove i) - fe.jacobianImpl phi k := by
  have e : (fun j : Fin (n + 1) => (NDArr.ofVec phi).get ([] ++ [j.1])) = phi :=
    funext fun j => ofVec_get phi j
  unfold conservedJacobianOf FreeEnergy.jacobianAt
  rw [check_ofVec fe h, normIndex_ok hk]
  show fe.jacobianImpl (fun j : Fin (n + 1) => (NDArr.ofVec phi).get ([] ++ [j.1]))
      (skipAt k (i : Fin (n + 1 - 1))) - fe.jacobianImpl
      (fun j : Fin (n + 1) => (NDArr.ofVec phi).get ([] ++ [j.1])) k = _
  rw [e, skipAt_eq]

theorem hessianAt_entries {n : ℕ} {fe : FreeEnergy (n + 1)} {phis : NDArr ℝ} {index : ℤ}
    {full : Rows (Mat (n + 1) (n + 1) XReal)} {r : Rows (Mat n n XReal)}
    (hf : fe.hessian phis = .ok full) (hr : fe.hessianAt phis index = .ok r) {idx : List ℕ}
    {H : Mat (n + 1) (n + 1) ℝ} (hH : ∀ i j, full.row idx i j = fin (H i j)) :
    ∃ k, IsIndex index k ∧ r.lead = full.lead ∧
      ∀ i j, r.row idx i j = fin (reducedHessian H k i j) := by
  obtain ⟨f1, f2, -⟩ := hessian_inv hf
  obtain ⟨k, hk, h1, h2, -⟩ := hessianAt_inv hr
  refine ⟨k, hk, ?_, fun i j => ?_⟩
  · rw [f1] at h1
    exact (List.append_inj_left' h1 rfl).symm
  · have := h2 idx i j
    simp only at this
    have hH' : ∀ i j, fe.hessianImpl (composition (n + 1) phis idx) i j = fin (H i j) := by
      intro i j
      rw [← hH, f2]
    simp only [hH', skipAt_eq, fin_sub_fin, fin_add_fin] at this
    rw [this]
    rfl

/-- **C52**. If the full Hessian is finite, so is the conserved one; it is symmetric if the full one is;
its quadratic form is the full one on volume-conserving changes; and if the full Hessian is the
derivative of `jacobian`, then it is the derivative of `jacobian(·, index)` along exchanging
components against component `k`. -/
theorem C52_conserved_hessian {n : ℕ} {fe : FreeEnergy (n + 1)} {phis : NDArr ℝ} {index : ℤ}
    {full : Rows (Mat (n + 1) (n + 1) XReal)} {r : Rows (Mat n n XReal)}
    (hf : fe.hessian phis = .ok full) (hr : fe.hessianAt phis index = .ok r) {idx : List ℕ}
    {H : Mat (n + 1) (n + 1) ℝ} (hH : ∀ i j, full.row idx i j = fin (H i j)) :
    ∃ k, IsIndex index k ∧ ∃ R : Mat n n ℝ, (∀ i j, r.row idx i j = fin (R i j)) ∧
      ((∀ i j, H i j = H j i) → ∀ i j, R i j = R j i) ∧
      (∀ y, Conserving y → quad R (fun i => y (k.succAbove i)) = quad H y) ∧
      ((∀ i, 0 < composition (n + 1) phis idx i) →
        (∀ i, XGradientAt (fun y => jacobianOf fe y i) (full.row idx i)
          (composition (n + 1) phis idx)) →
        ∀ i j, ∃ g : ℝ → ℝ, (∀ᶠ t in 𝓝 (0 : ℝ), conservedJacobianOf fe index
            (composition (n + 1) phis idx + t • exchange (k.succAbove j) k) i = fin (g t)) ∧
          HasDerivAt g (R i j) 0) := by
  obtain ⟨k, hk, -, hR⟩ := hessianAt_entries hf hr hH
  refine ⟨k, hk, reducedHessian H k, hR, fun hs => reduced_symm hs k, fun y hy => ?_, ?_⟩
  · rw [quad_reduced, completeAt_surj k hy]
  · intro hx hg i j
    set x := composition (n + 1) phis idx with hxdef
    have hg' : ∀ a, ∃ e : Vec (n + 1) ℝ → ℝ, (∀ᶠ y in 𝓝 x, jacobianOf fe y a = fin (e y)) ∧
        IsGradientAt e (H a) x := by
      intro a
      obtain ⟨e, g', h1, h2, h3⟩ := hg a
      refine ⟨e, h1, ?_⟩
      have : g' = H a := funext fun j => XReal.fin.inj ((h2 j).symm.trans (hH a j))
      rwa [this] at h3
    obtain ⟨ea, ha1, ha2⟩ := hg' (k.succAbove i)
    obtain ⟨ek, hk1, hk2⟩ := hg' k
    have hc : ContinuousAt (fun t : ℝ => x + t • exchange (k.succAbove j) k) 0 := by fun_prop
    have h0 : (fun t : ℝ => x + t • exchange (k.succAbove j) k) 0 = x := by simp
    have hev : ∀ {p : Vec (n + 1) ℝ → Prop}, (∀ᶠ y in 𝓝 x, p y) →
        ∀ᶠ t in 𝓝 (0 : ℝ), p (x + t • exchange (k.succAbove j) k) := fun hp =>
      hc.eventually (by rw [h0]; exact hp)
    refine ⟨fun t => ea (x + t • exchange (k.succAbove j) k) -
      ek (x + t • exchange (k.succAbove j) k), ?_, ?_⟩
    · filter_upwards [hev ha1, hev hk1, hev (eventually_pos hx)] with t h1 h2 h3
      rw [conservedJacobianOf_eq fe hk fun i => (h3 i).le,
        ← jacobianOf_eq fe fun i => (h3 i).le, h1, h2, fin_sub_fin]
    · have := (hasDerivAt_line ha2 (exchange (k.succAbove j) k)).sub
        (hasDerivAt_line hk2 (exchange (k.succAbove j) k))
      rw [sum_exchange, sum_exchange] at this
      have e : reducedHessian H k i j = H (k.succAbove i) (k.succAbove j) - H (k.succAbove i) k -
          (H k (k.succAbove j) - H k k) := by unfold reducedHessian; ring
      rw [e]
      exact this

theorem countRows_ok {n : ℕ} {h : Rows (Mat n n XReal)} {r : Rows ℕ}
    (hr : FreeEnergy.countRows h = .ok r) : r.lead = h.lead ∧
      ∀ idx (R : Mat n n ℝ), (∀ i j, h.row idx i j = fin (R i j)) →
        r.row idx = FreeEnergy.countNegative R := by
  unfold FreeEnergy.countRows at hr
  split at hr
  · obtain rfl := Except.ok.inj hr
    refine ⟨rfl, fun idx R hR => ?_⟩
    show FreeEnergy.countNegative (fun i j => (h.row idx i j).nanToNum) = _
    congr 1
    funext i j
    rw [hR]
    rfl
  · cases hr

/-- **C54**. For every composition at which the reported Hessian `H` is finite and symmetric,
`num_unstable_modes` is the largest dimension of a space of volume-conserving composition changes on
which the quadratic form of `H` is negative (without conservation: of any changes), and counting with
any other dependent component gives the same number. -/
theorem C54_unstable_modes {n : ℕ} {fe : FreeEnergy (n + 1)} {phis : NDArr ℝ}
    {full : Rows (Mat (n + 1) (n + 1) XReal)} (hf : fe.hessian phis = .ok full) {idx : List ℕ}
    {H : Mat (n + 1) (n + 1) ℝ} (hH : ∀ i j, full.row idx i j = fin (H i j))
    (hs : ∀ i j, H i j = H j i) :
    (∀ r, fe.numUnstableModes phis = .ok r →
      IsGreatest {d | HasUnstableModes H Conserving d} (r.row idx)) ∧
    (∀ r, fe.numUnstableModesFree phis = .ok r →
      IsGreatest {d | HasUnstableModes H (fun _ => True) d} (r.row idx)) ∧
    ∀ (k : ℤ) h r r', fe.hessianAt phis k = .ok h → FreeEnergy.countRows h = .ok r' →
      fe.numUnstableModes phis = .ok r → r'.row idx = r.row idx := by
  have key : ∀ (k : ℤ) h r, fe.hessianAt phis k = .ok h → FreeEnergy.countRows h = .ok r →
      IsGreatest {d | HasUnstableModes H Conserving d} (r.row idx) := by
    intro k h r hh hr
    obtain ⟨k', -, -, hR⟩ := hessianAt_entries hf hh hH
    rw [(countRows_ok hr).2 idx _ hR]
    exact countReduced_greatest hs k'
  refine ⟨fun r hr => ?_, fun r hr => ?_, fun k h r r' hh hr' hr => ?_⟩
  · obtain ⟨h, hh, hr⟩ := bind_eq_ok.mp hr
    exact key 0 h r hh hr
  · obtain ⟨h, hh, hr⟩ := bind_eq_ok.mp hr
    obtain rfl := Except.ok.inj (hh.symm.trans hf)
    rw [(countRows_ok hr).2 idx _ hH]
    exact countNegative_greatest hs
  · obtain ⟨h0, hh0, hr⟩ := bind_eq_ok.mp hr
    exact (key k h r' hh hr').unique (key 0 h0 r hh0 hr)

/-- **C53**. `is_stable` is true exactly if no volume-conserving change (without conservation: no change
at all) lowers the quadratic form of the reported Hessian. -/
theorem C53_is_stable {n : ℕ} {fe : FreeEnergy (n + 1)} {phis : NDArr ℝ}
    {full : Rows (Mat (n + 1) (n + 1) XReal)} (hf : fe.hessian phis = .ok full) {idx : List ℕ}
    {H : Mat (n + 1) (n + 1) ℝ} (hH : ∀ i j, full.row idx i j = fin (H i j))
    (hs : ∀ i j, H i j = H j i) :
    (∀ r, fe.isStable phis = .ok r →
      (r.row idx = true ↔ ∀ y, Conserving y → 0 ≤ quad H y)) ∧
    (∀ r, fe.isStableFree phis = .ok r → (r.row idx = true ↔ ∀ y, 0 ≤ quad H y)) ∧
    ∀ (k : ℤ) h c r, fe.hessianAt phis k = .ok h → FreeEnergy.countRows h = .ok c →
      fe.isStable phis = .ok r → (r.row idx = true ↔ c.row idx = 0) := by
  obtain ⟨h1, h2, h3⟩ := C54_unstable_modes hf hH hs
  have hcons : ∀ (y : Vec (n + 1) ℝ) (t : ℝ), Conserving y → Conserving (t • y) := by
    intro y t hy
    unfold Conserving at hy ⊢
    simp only [Pi.smul_apply, smul_eq_mul, ← Finset.mul_sum, hy, mul_zero]
  refine ⟨fun r hr => ?_, fun r hr => ?_, fun k h c r hh hc hr => ?_⟩
  · obtain ⟨c, hc, hr⟩ := bind_eq_ok.mp hr
    obtain rfl := Except.ok.inj hr
    rw [← greatest_zero_iff hcons (h1 c hc)]
    exact decide_eq_true_iff
  · obtain ⟨c, hc, hr⟩ := bind_eq_ok.mp hr
    obtain rfl := Except.ok.inj hr
    have := greatest_zero_iff (fun _ _ _ => trivial) (h2 c hc)
    simp only [forall_const] at this
    rw [← this]
    exact decide_eq_true_iff
  · obtain ⟨c', hc', hr⟩ := bind_eq_ok.mp hr
    obtain rfl := Except.ok.inj hr
    rw [h3 k h c' c hh hc hc']
    exact decide_eq_true_iff

section FloryHuggins

variable {C : ℕ}

/-- The Hessian the code reports for a Flory-Huggins free energy. -/
noncomputable def reportedHessian (chis : Mat C C ℝ) (l x : Vec C ℝ) : Mat C C ℝ :=
  fun i j => chis i j + if i = j then l i / x i else 0

/-- The second derivatives of the Flory-Huggins free energy. -/
noncomputable def trueHessian (chis : Mat C C ℝ) (l x : Vec C ℝ) : Mat C C ℝ :=
  fun i j => chis i j + if i = j then 1 / (l i * x i) else 0

theorem fhFree_hessian {chis : Mat C C ℝ} {l x : Vec C ℝ} (h : ∀ i, 0 < x i) (i j : Fin C) :
    (fhFree chis l).hessianImpl x i j = fin (reportedHessian chis l x i j) := by
  unfold FreeEnergy.hessianImpl
  show fin (fhHessian chis x i j) + gasHessian l x i j = _
  rw [gasHessian_eq (h i), fin_add_fin]
  unfold reportedHessian fhHessian
  rw [zero_add]

theorem reported_symm {chis : Mat C C ℝ} (hs : ∀ i j, chis i j = chis j i) (l x : Vec C ℝ)
    (i j : Fin C) : reportedHessian chis l x i j = reportedHessian chis l x j i := by
  unfold reportedHessian
  rw [hs]
  by_cases h : i = j
  · subst h; rfl
  · rw [if_neg h, if_neg fun e => h e.symm]

theorem quad_diag (chis : Mat C C ℝ) (d y : Vec C ℝ) :
    quad (fun i j => chis i j + if i = j then d i else 0) y = quad chis y + ∑ i, d i * y i ^ 2 := by
  unfold quad
  rw [← Finset.sum_add_distrib]
  refine Finset.sum_congr rfl fun i _ => ?_
  simp only [mul_add, add_mul, Finset.sum_add_distrib, mul_ite, ite_mul, mul_zero, zero_mul,
    Finset.sum_ite_eq, Finset.mem_univ, if_true]
  ring

theorem fhGrad_gradient {chis : Mat C C ℝ} (hs : ∀ i j, chis i j = chis j i) {l x : Vec C ℝ}
    (h : ∀ i, 0 < x i) (i : Fin C) :
    IsGradientAt (fun y => fhGrad chis l y i) (trueHessian chis l x i) x := by
  have := IsGradientAt.add (fhJacobian_gradient hs x i) (gasJacobian_gradient (l := l) i (h i))
  unfold fhGrad
  convert this using 1
  funext j
  simp [trueHessian, fhHessian]

/-- Derivative of the free energy along a line, at any point of the line with positive fractions. -/
theorem line_deriv {chis : Mat C C ℝ} (hs : ∀ i j, chis i j = chis j i) {l x y : Vec C ℝ} {t : ℝ}
    (h : ∀ i, 0 < (x + t • y) i) :
    HasDerivAt (fun t : ℝ => freeEnergy chis l (x + t • y))
      (∑ i, fhGrad chis l (x + t • y) i * y i) t := by
  have h1 := hasDerivAt_line (fhFree_gradient (l := l) hs h) y
  have h2 : HasDerivAt (fun s : ℝ => s - t) 1 t := (hasDerivAt_id t).sub_const t
  have h3 : HasDerivAt (fun s : ℝ => freeEnergy chis l (x + t • y + s • y))
      (∑ i, fhGrad chis l (x + t • y) i * y i) ((fun s : ℝ => s - t) t) := by
    simp only [sub_self]; exact h1
  have h4 := HasDerivAt.comp (h := fun s : ℝ => s - t) t h3 h2
  rw [mul_one] at h4
  refine h4.congr_of_eventuallyEq (Filter.Eventually.of_forall fun s => ?_)
  show freeEnergy chis l (x + s • y) = freeEnergy chis l (x + t • y + (s - t) • y)
  congr 1
  rw [sub_smul]
  abel

theorem second_deriv {chis : Mat C C ℝ} (hs : ∀ i j, chis i j = chis j i) {l x : Vec C ℝ}
    (h : ∀ i, 0 < x i) (y : Vec C ℝ) :
    deriv (deriv fun t : ℝ => freeEnergy chis l (x + t • y)) 0 = quad (trueHessian chis l x) y := by
  have hc : ContinuousAt (fun t : ℝ => x + t • y) 0 := by fun_prop
  have h0 : (fun t : ℝ => x + t • y) 0 = x := by simp
  have hev : ∀ᶠ t in 𝓝 (0 : ℝ), ∀ i, 0 < (x + t • y) i :=
    hc.eventually (p := fun z => ∀ i, 0 < z i) (by rw [h0]; exact eventually_pos h)
  have h1 : (deriv fun t : ℝ => freeEnergy chis l (x + t • y)) =ᶠ[𝓝 0]
      fun t => ∑ i, fhGrad chis l (x + t • y) i * y i := by
    filter_upwards [hev] with t ht
    exact (line_deriv hs ht).deriv
  rw [h1.deriv_eq]
  have h2 := HasDerivAt.fun_sum (u := Finset.univ) fun i _ =>
    (hasDerivAt_line (fhGrad_gradient (l := l) hs h i) y).mul_const (y i)
  rw [h2.deriv]
  unfold quad
  refine Finset.sum_congr rfl fun i _ => ?_
  rw [Finset.sum_mul]
  exact Finset.sum_congr rfl fun j _ => by ring

/-- The free energy does not bend downwards at `x` along any volume-conserving direction. -/
def LocallyConvex (chis : Mat C C ℝ) (l x : Vec C ℝ) : Prop :=
  ∀ y, Conserving y → 0 ≤ deriv (deriv fun t : ℝ => freeEnergy chis l (x + t • y)) 0

theorem hessianAt_ok {n : ℕ} (fe : FreeEnergy (n + 1)) {phis : NDArr ℝ} {lead : List ℕ}
    (hs : phis.shape = lead ++ [n + 1])
    (hp : ∀ idx, ValidIndex idx lead → ∀ i, 0 ≤ composition (n + 1) phis idx i) {index : ℤ}
    {k : Fin (n + 1)} (hk : IsIndex index k) :
    (∃ r, fe.hessian phis = .ok r ∧ r.lead = lead) ∧
      ∃ r, fe.hessianAt phis index = .ok r ∧ r.lead = lead := by
  have hc := check_spec fe phis hs fun idx hi i => hp idx (mem_allIndices.mp hi) i
  refine ⟨?_, ?_⟩
  · unfold FreeEnergy.hessian
    rw [hc]
    exact ⟨_, rfl, rfl⟩
  · unfold FreeEnergy.hessianAt
    rw [hc, normIndex_ok hk]
    exact ⟨_, rfl, rfl⟩

/-- The stability functions succeed for every array of positive compositions. -/
theorem isStable_ok {n : ℕ} {chis : Mat (n + 1) (n + 1) ℝ} {l : Vec (n + 1) ℝ} {phis : NDArr ℝ}
    {lead : List ℕ} (hs : phis.shape = lead ++ [n + 1])
    (hp : ∀ idx, ValidIndex idx lead → ∀ i, 0 < composition (n + 1) phis idx i) :
    (∃ full, (fhFree chis l).hessian phis = .ok full ∧ full.lead = lead ∧ ∀ idx,
      ValidIndex idx lead → ∀ i j, full.row idx i j =
        fin (reportedHessian chis l (composition (n + 1) phis idx) i j)) ∧
    (∃ r, (fhFree chis l).numUnstableModes phis = .ok r) ∧
    (∃ r, (fhFree chis l).isStable phis = .ok r ∧ r.lead = lead) := by
  obtain ⟨⟨full, hf, hl⟩, ⟨r, hr, hrl⟩⟩ := hessianAt_ok (fhFree chis l) hs
    (fun idx hi i => (hp idx hi i).le) (index := 0) (k := 0) (Or.inl rfl)
  obtain ⟨-, f2, -⟩ := hessian_inv hf
  have hH : ∀ idx, ValidIndex idx lead → ∀ i j, full.row idx i j =
      fin (reportedHessian chis l (composition (n + 1) phis idx) i j) := by
    intro idx hi i j
    rw [f2, fhFree_hessian (hp idx hi)]
  have hcount : ∃ c, FreeEnergy.countRows r = .ok c ∧ c.lead = lead := by
    unfold FreeEnergy.countRows
    rw [if_pos]
    · exact ⟨_, rfl, hrl⟩
    · intro idx hi i j
      rw [hrl] at hi
      obtain ⟨k, -, -, hR⟩ := hessianAt_entries hf hr (hH idx (mem_allIndices.mp hi))
      rw [hR]
      trivial
  obtain ⟨c, hc, hcl⟩ := hcount
  have hn : (fhFree chis l).numUnstableModes phis = .ok c := by
    unfold FreeEnergy.numUnstableModes
    rw [hr]
    exact hc
  refine ⟨⟨full, hf, hl, hH⟩, ⟨c, hn⟩, ?_⟩
  unfold FreeEnergy.isStable
  rw [hn]
  exact ⟨_, rfl, hcl⟩

/-- **C55**, the part that holds: for unit sizes `is_stable` decides local convexity; for sizes of at
least one an unstable verdict is right (`is_stable` false implies not convex), for sizes of at most
one a stable verdict is.  Missing: stable verdicts for larger molecules (`C55_stability_wrong`) and
unstable ones for smaller. -/
theorem C55_stability_partial {n : ℕ} {chis : Mat (n + 1) (n + 1) ℝ}
    (hs : ∀ i j, chis i j = chis j i) {l : Vec (n + 1) ℝ} {phis : NDArr ℝ}
    {r : Rows Bool} (h : (fhFree chis l).isStable phis = .ok r) {idx : List ℕ}
    (hx : ∀ i, 0 < composition (n + 1) phis idx i) :
    ((∀ i, 1 ≤ l i) → LocallyConvex chis l (composition (n + 1) phis idx) → r.row idx = true) ∧
    ((∀ i, 0 < l i ∧ l i ≤ 1) → r.row idx = true →
      LocallyConvex chis l (composition (n + 1) phis idx)) ∧
    ((∀ i, l i = 1) → (r.row idx = true ↔
      LocallyConvex chis l (composition (n + 1) phis idx))) := by
  set x := composition (n + 1) phis idx with hxdef
  obtain ⟨full, hf⟩ : ∃ full, (fhFree chis l).hessian phis = .ok full := by
    obtain ⟨c, hc, -⟩ := bind_eq_ok.mp h
    obtain ⟨a, ha, -⟩ := bind_eq_ok.mp hc
    obtain ⟨p, hp, -⟩ := bind_eq_ok.mp ha
    unfold FreeEnergy.hessian
    rw [hp]
    exact ⟨_, rfl⟩
  obtain ⟨-, f2, -⟩ := hessian_inv hf
  have hH : ∀ i j, full.row idx i j = fin (reportedHessian chis l x i j) := fun i j => by
    rw [f2, fhFree_hessian hx]
  have key := (C53_is_stable hf hH (reported_symm hs l x)).1 r h
  have e1 : ∀ y, quad (reportedHessian chis l x) y = quad chis y + ∑ i, l i / x i * y i ^ 2 :=
    fun y => quad_diag chis (fun i => l i / x i) y
  have e2 : ∀ y, quad (trueHessian chis l x) y = quad chis y + ∑ i, 1 / (l i * x i) * y i ^ 2 :=
    fun y => quad_diag chis (fun i => 1 / (l i * x i)) y
  have p1 : (∀ i, 1 ≤ l i) → LocallyConvex chis l x → r.row idx = true := by
    intro hl hc
    rw [key]
    intro y hy
    have := hc y hy
    rw [second_deriv hs hx, e2] at this
    rw [e1]
    refine this.trans (add_le_add le_rfl (Finset.sum_le_sum fun i _ => ?_))
    refine mul_le_mul_of_nonneg_right ?_ (sq_nonneg _)
    have := hl i
    have := hx i
    rw [div_le_div_iff₀ (by positivity) (by positivity)]
    nlinarith [mul_le_mul this.le (hl i) zero_le_one this.le, mul_pos this (by linarith : 0 < l i)]
  have p2 : (∀ i, 0 < l i ∧ l i ≤ 1) → r.row idx = true → LocallyConvex chis l x := by
    intro hl hr y hy
    have := key.mp hr y hy
    rw [second_deriv hs hx, e2]
    rw [e1] at this
    refine this.trans (add_le_add le_rfl (Finset.sum_le_sum fun i _ => ?_))
    refine mul_le_mul_of_nonneg_right ?_ (sq_nonneg _)
    obtain ⟨l0, l1⟩ := hl i
    have := hx i
    rw [div_le_div_iff₀ (by positivity) (by positivity)]
    nlinarith [mul_le_mul l1 l1 l0.le zero_le_one]
  refine ⟨p1, p2, fun hl => ⟨p2 fun i => by rw [hl i]; norm_num, p1 fun i => (hl i).ge⟩⟩

/-- **C55 fails** for molecules of size two: the symmetric binary mixture with `χ = 2` at half filling is
reported stable although exchanging the components lowers the free energy (the critical value
is `χ = 1`). -/
theorem C55_stability_wrong :
    ∃ r, (fhFree (C := 2) ![![0, 2], ![2, 0]] fun _ => 2).isStable
        (NDArr.ofVec (n := 2) fun _ => 1 / 2) = .ok r ∧ r.row [] = true ∧
      ¬ LocallyConvex (C := 2) ![![0, 2], ![2, 0]] (fun _ => 2) fun _ => 1 / 2 := by
  have hs : ∀ i j, (![![0, 2], ![2, 0]] : Mat 2 2 ℝ) i j = (![![0, 2], ![2, 0]] : Mat 2 2 ℝ) j i := by
    intro i j; fin_cases i <;> fin_cases j <;> rfl
  have hcomp : composition 2 (NDArr.ofVec (fun _ : Fin 2 => (1 / 2 : ℝ))) [] = fun _ => 1 / 2 :=
    funext fun i => ofVec_get _ i
  have hpos : ∀ idx, ValidIndex idx [] → ∀ i, 0 < composition 2
      (NDArr.ofVec (fun _ : Fin 2 => (1 / 2 : ℝ))) idx i := by
    intro idx hi i
    cases hi
    rw [hcomp]
    norm_num
  obtain ⟨⟨full, hf, -, hH⟩, -, r, hr, -⟩ := isStable_ok (n := 1) (chis := ![![0, 2], ![2, 0]])
    (l := fun _ => 2) (phis := NDArr.ofVec (n := 2) fun _ => 1 / 2) (lead := []) rfl hpos
  have hH := hH [] .nil
  rw [hcomp] at hH
  refine ⟨r, hr, ?_, ?_⟩
  · rw [(C53_is_stable hf hH (reported_symm hs _ _)).1 r hr]
    intro y hy
    have e := quad_diag (![![0, 2], ![2, 0]] : Mat 2 2 ℝ)
      (fun i => (fun _ : Fin 2 => (2 : ℝ)) i / (fun _ : Fin 2 => (1 / 2 : ℝ)) i) y
    have e' : quad (reportedHessian (![![0, 2], ![2, 0]] : Mat 2 2 ℝ) (fun _ => 2) fun _ => 1 / 2) y
      = _ := e
    rw [e']
    have hy' : y 0 + y 1 = 0 := (Fin.sum_univ_two (f := y)).symm.trans hy
    have : y 1 = -y 0 := by linarith
    unfold quad
    erw [Fin.sum_univ_two, Fin.sum_univ_two]
    simp only [Fin.sum_univ_two, Matrix.cons_val_zero, Matrix.cons_val_one, this]
    nlinarith [sq_nonneg (y 0)]
  · intro hc
    have h1 := hc (exchange 0 1) (by simp [Conserving, exchange])
    rw [second_deriv hs (by intro i; norm_num)] at h1
    have e := quad_diag (![![0, 2], ![2, 0]] : Mat 2 2 ℝ)
      (fun i => 1 / ((fun _ : Fin 2 => (2 : ℝ)) i * (fun _ : Fin 2 => (1 / 2 : ℝ)) i))
      (exchange 0 1)
    have e' : quad (trueHessian (![![0, 2], ![2, 0]] : Mat 2 2 ℝ) (fun _ => 2) fun _ => 1 / 2)
      (exchange 0 1) = _ := e
    rw [e'] at h1
    unfold quad exchange at h1
    simp only [Fin.sum_univ_two, Matrix.cons_val_zero, Matrix.cons_val_one, Pi.sub_apply,
      Pi.single_apply] at h1
    norm_num at h1

/-- Positive compositions of the hypotheses of C52 – C55: two ternary phases of unit and non-unit sizes,
where the reported Hessian is finite and symmetric; for unit sizes it is the derivative of the
Jacobian. -/
example {chis : Mat 3 3 ℝ} (hs : ∀ i j, chis i j = chis j i) (l : Vec 3 ℝ) :
    ∃ full r c, (fhFree chis l).hessian
        (NDArr.ofMat (![![1 / 4, 1 / 4, 1 / 2], ![1 / 5, 2 / 5, 2 / 5]] : Mat 2 3 ℝ)) = .ok full ∧
      (fhFree chis l).isStable
        (NDArr.ofMat (![![1 / 4, 1 / 4, 1 / 2], ![1 / 5, 2 / 5, 2 / 5]] : Mat 2 3 ℝ)) = .ok r ∧
      (fhFree chis l).numUnstableModes
        (NDArr.ofMat (![![1 / 4, 1 / 4, 1 / 2], ![1 / 5, 2 / 5, 2 / 5]] : Mat 2 3 ℝ)) = .ok c ∧
      ∃ H : Mat 3 3 ℝ, (∀ i j, full.row [1] i j = fin (H i j)) ∧ (∀ i j, H i j = H j i) ∧
        ((∀ i, l i = 1) → ∀ i, XGradientAt (fun y => jacobianOf (fhFree chis l) y i)
          (full.row [1] i) ![1 / 5, 2 / 5, 2 / 5]) := by
  set X : Mat 2 3 ℝ := ![![1 / 4, 1 / 4, 1 / 2], ![1 / 5, 2 / 5, 2 / 5]] with hX
  have hXp : ∀ p i, 0 < X p i := by
    intro p i
    fin_cases p <;> fin_cases i <;> norm_num [hX]
  have hcomp : ∀ p : Fin 2, composition 3 (NDArr.ofMat X) [p.1] = X p := fun p =>
    funext fun i => ofMat_get X p i
  have hp : ∀ idx, ValidIndex idx [2] → ∀ i, 0 < composition 3 (NDArr.ofMat X) idx i := by
    intro idx hi i
    cases hi with
    | cons hd ht =>
      cases ht
      next a =>
      have := hcomp ⟨a, hd⟩
      simp only at this
      rw [this]
      exact hXp _ _
  obtain ⟨⟨full, hf, -, hH⟩, ⟨c, hc⟩, ⟨r, hr, -⟩⟩ := isStable_ok (n := 2) (chis := chis) (l := l)
    (phis := NDArr.ofMat X) (lead := [2]) rfl hp
  have h1 : composition 3 (NDArr.ofMat X) [1] = X 1 := hcomp 1
  have hH := hH [1] (.cons (by norm_num) .nil)
  rw [h1] at hH
  refine ⟨full, r, c, hf, hr, hc, _, hH, reported_symm hs _ _, fun hl i => ?_⟩
  refine ⟨fun y => fhGrad chis l y i, trueHessian chis l (X 1) i, ?_, fun j => ?_,
    fhGrad_gradient hs (hXp 1) i⟩
  · filter_upwards [eventually_pos (hXp 1)] with y hy
    rw [jacobianOf_eq _ fun i => (hy i).le, fhFree_jacobian (by rw [hl]; norm_num) (hy i)]
  · rw [hH]
    unfold reportedHessian trueHessian
    rw [hl, one_mul]

end FloryHuggins

section Equilibration

variable {C P : ℕ}

/-- The chemical potentials of one composition. -/
noncomputable def musOf (fe : FreeEnergy C) (x : Vec C ℝ) : Vec C XReal := fun i =>
  fe.energyImpl x - XReal.sum (fe.jacobianFractionsImpl x) + fe.jacobianImpl x i

theorem deviations_eval (fe : FreeEnergy C) {X : Mat P C ℝ} (hX : ∀ p i, 0 ≤ X p i) :
    fe.equilibrationDeviations (NDArr.ofMat X) =
      .ok ⟨P, FreeEnergy.deviations fun p => musOf fe (X p)⟩ := by
  have hcomp : ∀ p : Fin P, composition C (NDArr.ofMat X) [p.1] = X p := fun p =>
    funext fun i => ofMat_get X p i
  have hp : ∀ idx, ValidIndex idx [P] → ∀ i, 0 ≤ composition C (NDArr.ofMat X) idx i := by
    intro idx hi i
    cases hi with
    | cons hd ht =>
      cases ht
      next a =>
      have := hcomp ⟨a, hd⟩
      simp only at this
      rw [this]
      exact hX _ _
  obtain ⟨r, hr, hl⟩ := chemicalPotentials_ok fe (NDArr.ofMat X) (lead := [P]) rfl hp
  obtain ⟨lead, h1, -, h3, -⟩ := chemicalPotentials_inv hr
  have hlead : lead = [P] := by
    have : [P] ++ [C] = lead ++ [C] := h1
    exact (List.append_inj_left' this rfl).symm
  subst hlead
  unfold FreeEnergy.equilibrationDeviations
  rw [hr]
  simp only [List.cons_ne_nil, if_false] at hl
  simp only [bind_ok, hl]
  congr 2
  funext p i
  congr 1
  funext q j
  have := h3 [q.1] j
  simp only [List.cons_ne_nil, if_false] at this
  rw [this, hcomp]
  rfl

theorem musOf_eq {chis : Mat C C ℝ} (hs : ∀ i j, chis i j = chis j i) {l : Vec C ℝ}
    (hl : ∀ i, 0 < l i) {x : Vec C ℝ} (hx : ∀ i, 0 < x i) (i : Fin C) :
    musOf (fhFree chis l) x i = fin (chemPot chis l x i) := by
  have hl0 : ∀ i, l i ≠ 0 := fun i => (hl i).ne'
  unfold musOf
  have e1 : XReal.sum ((fhFree chis l).jacobianFractionsImpl x) =
      fin (∑ j, x j * fhGrad chis l x j) := by
    rw [← xsum_fin]
    congr 1
    funext j
    exact fhFree_fractions (hl0 j) (hx j).le
  rw [fhFree_energy hl0 fun i => (hx i).le, e1, fin_sub_fin, fhFree_jacobian (hl0 i) (hx i),
    fin_add_fin, chemPot_eq hs]

theorem sqrt_sum_sq_eq_zero {n : ℕ} (v : Vec n ℝ) :
    Real.sqrt (∑ i, v i ^ 2) = 0 ↔ ∀ i, v i = 0 := by
  rw [Real.sqrt_eq_zero (Finset.sum_nonneg fun i _ => sq_nonneg _),
    Finset.sum_eq_zero_iff_of_nonneg fun i _ => sq_nonneg _]
  simp

/-- **C56**, zero set: for `P ≥ 1` positive compositions the total error is zero exactly if all phases
have equal chemical potentials, so are all errors by phase, and the error of a component is zero
exactly if that component is in balance. -/
theorem C56_zero_iff_balanced {chis : Mat C C ℝ} (hs : ∀ i j, chis i j = chis j i) {l : Vec C ℝ}
    (hl : ∀ i, 0 < l i) [NeZero P] {X : Mat P C ℝ} (hX : ∀ p i, 0 < X p i) :
    (∃ e, (fhFree chis l).equilibrationErrorAll (NDArr.ofMat X) = .ok e ∧
      (e = 0 ↔ ∀ p q i, chemPot chis l (X p) i = chemPot chis l (X q) i)) ∧
    (∃ e, (fhFree chis l).equilibrationErrorByPhase (NDArr.ofMat X) = .ok e ∧ e.length = P ∧
      ((∀ a ∈ e, a = 0) ↔ ∀ p q i, chemPot chis l (X p) i = chemPot chis l (X q) i)) ∧
    ∃ e, (fhFree chis l).equilibrationErrorByComponent (NDArr.ofMat X) = .ok e ∧
      ∀ i, e i = 0 ↔ ∀ p q, chemPot chis l (X p) i = chemPot chis l (X q) i := by
  have hd := deviations_eval (fhFree chis l) fun p i => (hX p i).le
  set D : Mat P C ℝ := FreeEnergy.deviations fun p => musOf (fhFree chis l) (X p) with hD
  have hDv : ∀ p i, D p i = chemPot chis l (X p) i - (∑ q, chemPot chis l (X q) i) / P := by
    intro p i
    show (musOf (fhFree chis l) (X p) i).nanToNum -
      (∑ q, (musOf (fhFree chis l) (X q) i).nanToNum) / P = _
    simp only [musOf_eq hs hl (hX _)]
    rfl
  have hP : (P : ℝ) ≠ 0 := Nat.cast_ne_zero.mpr (NeZero.ne P)
  have hcol : ∀ i, (∀ p, D p i = 0) ↔ ∀ p q, chemPot chis l (X p) i = chemPot chis l (X q) i := by
    intro i
    constructor
    · intro h p q
      have h1 := h p
      have h2 := h q
      rw [hDv] at h1 h2
      linarith
    · intro h p
      rw [hDv]
      have : ∑ q, chemPot chis l (X q) i = P * chemPot chis l (X p) i := by
        rw [Finset.sum_congr rfl fun q _ => h q p, Finset.sum_const, Finset.card_univ,
          Fintype.card_fin, nsmul_eq_mul]
      rw [this]
      field_simp
      ring
  have hall : (∀ p i, D p i = 0) ↔ ∀ p q i, chemPot chis l (X p) i = chemPot chis l (X q) i :=
    ⟨fun h p q i => (hcol i).mp (fun p => h p i) p q,
      fun h p i => (hcol i).mpr (fun p q => h p q i) p⟩
  refine ⟨⟨Real.sqrt (∑ p, ∑ i, D p i ^ 2), ?_, ?_⟩, ⟨List.ofFn fun p =>
    Real.sqrt (∑ i, D p i ^ 2), ?_, List.length_ofFn, ?_⟩, ⟨fun i => Real.sqrt (∑ p, D p i ^ 2), ?_,
    fun i => ?_⟩⟩
  · unfold FreeEnergy.equilibrationErrorAll; rw [hd]; rfl
  · rw [← hall, Real.sqrt_eq_zero (Finset.sum_nonneg fun p _ => Finset.sum_nonneg fun i _ =>
      sq_nonneg _), Finset.sum_eq_zero_iff_of_nonneg fun p _ => Finset.sum_nonneg fun i _ =>
      sq_nonneg _]
    simp only [Finset.mem_univ, forall_const]
    refine forall_congr' fun p => ?_
    rw [Finset.sum_eq_zero_iff_of_nonneg fun i _ => sq_nonneg _]
    simp
  · unfold FreeEnergy.equilibrationErrorByPhase; rw [hd]; rfl
  · rw [← hall, List.forall_mem_ofFn_iff]
    exact forall_congr' fun p => sqrt_sum_sq_eq_zero (D p)
  · unfold FreeEnergy.equilibrationErrorByComponent; rw [hd]; rfl
  · rw [← hcol]
    exact sqrt_sum_sq_eq_zero fun p => D p i

/-- **C56**, single phase and reordering, for every free energy and all (non-negative) compositions. -/
theorem C56_single_and_permutation (fe : FreeEnergy C) :
    (∀ X : Mat 1 C ℝ, (∀ p i, 0 ≤ X p i) →
      fe.equilibrationErrorAll (NDArr.ofMat X) = .ok 0 ∧
      fe.equilibrationErrorByPhase (NDArr.ofMat X) = .ok [0] ∧
      fe.equilibrationErrorByComponent (NDArr.ofMat X) = .ok fun _ => 0) ∧
    ∀ (X : Mat P C ℝ) (s : Equiv.Perm (Fin P)), (∀ p i, 0 ≤ X p i) →
      fe.equilibrationErrorAll (NDArr.ofMat fun p => X (s p)) =
        fe.equilibrationErrorAll (NDArr.ofMat X) ∧
      fe.equilibrationErrorByComponent (NDArr.ofMat fun p => X (s p)) =
        fe.equilibrationErrorByComponent (NDArr.ofMat X) ∧
      ∃ e : Vec P ℝ, fe.equilibrationErrorByPhase (NDArr.ofMat X) = .ok (List.ofFn e) ∧
        fe.equilibrationErrorByPhase (NDArr.ofMat fun p => X (s p)) =
          .ok (List.ofFn fun p => e (s p)) := by
  constructor
  · intro X hX
    have hd := deviations_eval fe hX
    have h0 : FreeEnergy.deviations (fun p => musOf fe (X p)) = fun _ _ => (0 : ℝ) := by
      funext p i
      unfold FreeEnergy.deviations
      simp only [Finset.univ_unique, Fin.default_eq_zero, Finset.sum_singleton, Nat.cast_one,
        div_one]
      rw [Subsingleton.elim p 0, sub_self]
    rw [h0] at hd
    refine ⟨?_, ?_, ?_⟩
    · unfold FreeEnergy.equilibrationErrorAll; rw [hd]; simp
    · unfold FreeEnergy.equilibrationErrorByPhase; rw [hd]; simp
    · unfold FreeEnergy.equilibrationErrorByComponent; rw [hd]; simp
  · intro X s hX
    have hd := deviations_eval fe hX
    have hd' := deviations_eval fe (X := fun p => X (s p)) fun p i => hX (s p) i
    have hperm : FreeEnergy.deviations (fun p => musOf fe (X (s p))) =
        fun p => FreeEnergy.deviations (fun p => musOf fe (X p)) (s p) := by
      funext p i
      unfold FreeEnergy.deviations
      simp only
      congr 2
      exact Equiv.sum_comp s fun q => (musOf fe (X q) i).nanToNum
    rw [hperm] at hd'
    generalize FreeEnergy.deviations (fun p => musOf fe (X p)) = D at hd hd'
    refine ⟨?_, ?_, fun p => Real.sqrt (∑ i, D p i ^ 2), ?_, ?_⟩
    · unfold FreeEnergy.equilibrationErrorAll
      rw [hd, hd']
      simp only [bind_ok, pure_eq_ok]
      congr 2
      exact Equiv.sum_comp s fun p => ∑ i, D p i ^ 2
    · unfold FreeEnergy.equilibrationErrorByComponent
      rw [hd, hd']
      simp only [bind_ok, pure_eq_ok]
      congr 1
      funext i
      congr 1
      exact Equiv.sum_comp s fun p => D p i ^ 2
    · unfold FreeEnergy.equilibrationErrorByPhase; rw [hd]; rfl
    · unfold FreeEnergy.equilibrationErrorByPhase; rw [hd']; rfl

/-- Two phases related by exchanging the components of a symmetric binary mixture, at the interaction parameter
for which they are in balance: the error vanishes although the phases differ. -/
example : ∃ (χ : ℝ) (X : Mat 2 2 ℝ), (∀ p i, 0 < X p i) ∧ X 0 ≠ X 1 ∧
    (fhFree ![![0, χ], ![χ, 0]] ![1, 1]).equilibrationErrorAll (NDArr.ofMat X) = .ok 0 := by
  have hX : ∀ p i, 0 < (![![1 / 4, 3 / 4], ![3 / 4, 1 / 4]] : Mat 2 2 ℝ) p i := by
    intro p i; fin_cases p <;> fin_cases i <;> norm_num
  refine ⟨2 * Real.log 3, ![![1 / 4, 3 / 4], ![3 / 4, 1 / 4]], hX, fun h => ?_, ?_⟩
  · have := congrFun h 0
    norm_num at this
  · obtain ⟨⟨e, h1, h2⟩, -⟩ := C56_zero_iff_balanced (chis := ![![0, 2 * Real.log 3], ![2 * Real.log 3, 0]])
      (by intro i j; fin_cases i <;> fin_cases j <;> simp) (l := ![1, 1])
      (by intro i; fin_cases i <;> norm_num) hX
    rw [h1, h2.mpr]
    have hl : Real.log (3 / 4) = Real.log 3 - Real.log 4 := Real.log_div (by norm_num) (by norm_num)
    intro p q i
    fin_cases p <;> fin_cases q <;> fin_cases i <;> simp [chemPot, Fin.sum_univ_two, hl] <;> ring

end Equilibration

end Flory
