import Verif.Lemmas.Clustering
import Verif.Props.Workflow
import Verif.Props.Critical
import Verif.Props.Initial

/-! # C81: what clustering makes of the compartments -/

set_option linter.unusedSectionVars false

namespace Flory

open Spec

variable {P C : ℕ}

/-- The clusters, their volumes and fractions. -/
theorem clusters_desc {x : Phases P C ℝ} (labels : Vec P ℤ) (hP : 2 ≤ P) (hv : ∀ p, 0 < x.volumes p) :
    ∃ r, x.getClusters labels = .ok r ∧ ∃ lab : Fin r.1 → ℤ, lab.Injective ∧
      (∀ n, (∃ k, lab k = n) ↔ ∃ p, labels p = n) ∧ ∀ k,
        r.2.volumes k = (∑ p, if labels p = lab k then x.volumes p else 0) ∧
        0 < r.2.volumes k ∧ ∀ i, r.2.fractions k i =
          (∑ p, if labels p = lab k then x.volumes p * x.fractions p i else 0) / r.2.volumes k := by
  have hg : ∀ p, 0 < groupVolume x labels (labels p) := by
    intro p
    unfold groupVolume
    refine Finset.sum_pos' (fun q _ => ?_) ⟨p, Finset.mem_univ _, ?_⟩
    · split
      · exact (hv q).le
      · exact le_rfl
    · rw [if_pos rfl]; exact hv p
  obtain ⟨⟨Q, y⟩, hr, hrows⟩ := clusters_ok (x := x) (labels := labels) hP fun p => (hg p).ne'
  have hlen : Q = (labelList labels).length := by
    have := congrArg List.length hrows
    unfold Phases.rows at this
    rwa [List.length_ofFn, List.length_map] at this
  subst hlen
  have hy : ∀ k, (y.volumes k, y.fractions k) = (groupVolume x labels ((labelList labels).get k),
      fun i => groupAmount x labels ((labelList labels).get k) i /
        groupVolume x labels ((labelList labels).get k)) := by
    intro k
    have := congrArg (fun l => l[k.1]?) hrows
    simpa [Phases.rows] using this
  refine ⟨_, hr, fun k => (labelList labels).get k, ?_, fun n => ?_, fun k => ?_⟩
  · exact List.nodup_iff_injective_get.mp (Finset.sort_nodup _ _)
  · exact List.mem_iff_get.symm.trans mem_labelList
  · obtain ⟨p, hp⟩ := mem_labelList.mp (List.get_mem (labelList labels) k)
    have h1 : y.volumes k = groupVolume x labels ((labelList labels).get k) := congrArg Prod.fst (hy k)
    have h2 : y.fractions k = _ := congrArg Prod.snd (hy k)
    refine ⟨h1, ?_, fun i => ?_⟩
    · show 0 < y.volumes k
      rw [h1, ← hp]
      exact hg p
    · show y.fractions k i = _ / y.volumes k
      rw [h1, h2]
      rfl

theorem centroid_pure {ι : Type} {x : Fin P → Vec C ℝ} {psi : ι → Vec C ℝ} {g : Fin P → ι} {eps : ℝ}
    (near : ∀ p, eucl (x p) (psi (g p)) ≤ eps) {t : Dendro P} (ht : t.Pure g) {p : Fin P}
    (hp : p ∈ t.leaves) : eucl (t.centroid x) (psi (g p)) ≤ eps :=
  Dendro.centroid_near x t _ fun q hq => by
    rw [ht p hp q hq]
    exact near q

/-- Compositions near given ones: the labels do not divide groups, and groups whose given compositions
are further apart than the cut-off get different labels. -/
theorem fcluster_near {ι : Type} {dist eps : ℝ} {x : Fin P → Vec C ℝ} {labels : Vec P ℤ}
    (h : FCluster dist x labels) (psi : ι → Vec C ℝ) (g : Fin P → ι) (h0 : 0 ≤ eps)
    (near : ∀ p, eucl (x p) (psi (g p)) ≤ eps) (hd : 2 * eps ≤ dist)
    (far : ∀ k l, k ≠ l → 4 * eps < eucl (psi k) (psi l)) :
    (∀ p q, g p = g q → labels p = labels q) ∧
    ((∀ k l, k ≠ l → dist + 2 * eps < eucl (psi k) (psi l)) → ∀ p q, labels p = labels q → g p = g q) := by
  have cross : ∀ a b : Dendro P, a.Pure g → b.Pure g → ¬ (Dendro.node a b).Pure g →
      ∃ k l, k ≠ l ∧ eucl (psi k) (psi l) - 2 * eps ≤ Dendro.gap x a b := by
    intro a b ha hb hab
    obtain ⟨p, hp⟩ := a.exists_leaf
    obtain ⟨q, hq⟩ := b.exists_leaf
    refine ⟨g p, g q, fun e => hab ?_, ?_⟩
    · have : ∀ u ∈ (Dendro.node a b).leaves, g u = g p := by
        intro u hu
        rcases Dendro.mem_node.mp hu with hu | hu
        · exact ha u hu p hp
        · rw [e]
          exact hb u hu q hq
      intro u hu v hv
      rw [this u hu, this v hv]
    · have h1 := centroid_pure near ha hp
      have h2 := centroid_pure near hb hq
      have h3 := eucl_triangle (psi (g p)) (a.centroid x) (psi (g q))
      have h4 := eucl_triangle (a.centroid x) (b.centroid x) (psi (g q))
      rw [eucl_comm] at h1
      unfold Dendro.gap
      linarith
  obtain ⟨h1, h2⟩ := fcluster_groups h g (r := 2 * eps) (by linarith) hd
    (fun a b hab => by
      obtain ⟨p, hp⟩ := a.exists_leaf
      obtain ⟨q, hq⟩ := b.exists_leaf
      have ha : a.Pure g := fun u hu v hv => hab u (Dendro.mem_node.mpr (.inl hu)) v
        (Dendro.mem_node.mpr (.inl hv))
      have hb : b.Pure g := fun u hu v hv => hab u (Dendro.mem_node.mpr (.inr hu)) v
        (Dendro.mem_node.mpr (.inr hv))
      have e := hab p (Dendro.mem_node.mpr (.inl hp)) q (Dendro.mem_node.mpr (.inr hq))
      have h1 := centroid_pure near ha hp
      have h2 := centroid_pure near hb hq
      rw [← e, eucl_comm] at h2
      have h3 := eucl_triangle (a.centroid x) (psi (g p)) (b.centroid x)
      unfold Dendro.gap
      linarith)
    (fun a b ha hb hab => by
      obtain ⟨k, l, hkl, h⟩ := cross a b ha hb hab
      have := far k l hkl
      linarith)
  refine ⟨h1, fun hf => h2 fun a b ha hb hab => ?_⟩
  obtain ⟨k, l, hkl, h⟩ := cross a b ha hb hab
  have := hf k l hkl
  linarith

/-- **C81**, phases are recovered: compartments within `eps` of compositions that are more than
`dist + 2 eps` apart are put together exactly if they are near the same one. The clusters are then as
many as there are different compositions, each within `eps` of its own, with the total volume of the
compartments near it. -/
theorem C81_recovers {ι : Type} [DecidableEq ι] {x : Phases P C ℝ} (hv : ∀ p, 0 < x.volumes p)
    {labels : Vec P ℤ} {dist eps : ℝ} (h : 2 ≤ P → FCluster dist x.fractions labels)
    (psi : ι → Vec C ℝ) (g : Fin P → ι) (near : ∀ p, eucl (x.fractions p) (psi (g p)) ≤ eps)
    (hd : 2 * eps ≤ dist) (far : ∀ k l, k ≠ l → dist + 2 * eps < eucl (psi k) (psi l)) :
    ∃ r, x.getClusters labels = .ok r ∧ ∃ k : Fin r.1 → ι, k.Injective ∧ Set.range k = Set.range g ∧
      ∀ n, eucl (r.2.fractions n) (psi (k n)) ≤ eps ∧
        r.2.volumes n = ∑ p, if g p = k n then x.volumes p else 0 := by
  by_cases hP : 2 ≤ P
  · have h0 : 0 ≤ eps := (eucl_nonneg _ _).trans (near ⟨0, by omega⟩)
    obtain ⟨h1, h2⟩ := fcluster_near (h hP) psi g h0 near hd fun k l hkl => by
      have := far k l hkl
      linarith
    have h2 := h2 far
    obtain ⟨r, hr, lab, l1, l2, l3⟩ := clusters_desc labels hP hv
    choose w hw using fun n => (l2 (lab n)).mp ⟨n, rfl⟩
    have hiff : ∀ n p, labels p = lab n ↔ g p = g (w n) := fun n p =>
      ⟨fun e => h2 _ _ (e.trans (hw n).symm), fun e => (h1 _ _ e).trans (hw n)⟩
    refine ⟨r, hr, fun n => g (w n), fun m n e => l1 ?_, ?_, fun n => ?_⟩
    · rw [← hw m, ← hw n]
      exact h1 _ _ e
    · ext j
      constructor
      · rintro ⟨n, rfl⟩
        exact ⟨_, rfl⟩
      · rintro ⟨p, rfl⟩
        obtain ⟨n, hn⟩ := (l2 (labels p)).mpr ⟨p, rfl⟩
        exact ⟨n, ((hiff n p).mp hn.symm).symm⟩
    · obtain ⟨v1, v2, v3⟩ := l3 n
      simp only [hiff] at v1 v3
      refine ⟨?_, v1⟩
      have e : r.2.fractions n = fun i =>
          (∑ p ∈ Finset.univ.filter (fun p => g p = g (w n)), x.volumes p * x.fractions p i) /
            ∑ p ∈ Finset.univ.filter (fun p => g p = g (w n)), x.volumes p := by
        funext i
        rw [v3, v1, Finset.sum_filter, Finset.sum_filter]
      rw [e]
      refine eucl_average _ x.volumes x.fractions _ (fun p _ => (hv p).le) ?_ fun p hp => ?_
      · rw [Finset.sum_filter, ← v1]
        exact v2
      · have := near p
        rwa [(Finset.mem_filter.mp hp).2] at this
  · refine ⟨⟨P, x⟩, ?_, g, ?_, rfl, fun n => ⟨near n, ?_⟩⟩
    · unfold Phases.getClusters
      rw [if_pos (not_le.mp hP)]
    · intro (m : Fin P) (n : Fin P) _
      exact Fin.ext (by omega)
    · have : ∀ p : Fin P, p = n := fun p => Fin.ext (by omega)
      rw [Finset.sum_eq_single n (fun p _ hp => absurd (this p) hp) (by simp), if_pos rfl]

/-- **C81**, one cluster: compartments no two of which are further apart than the cut-off become a single
phase with their total volume and their mean composition. -/
theorem C81_merges {x : Phases P C ℝ} (hP : 1 ≤ P) (hv : ∀ p, 0 < x.volumes p) {labels : Vec P ℤ}
    {dist : ℝ} (h : 2 ≤ P → FCluster dist x.fractions labels)
    (near : ∀ p q, eucl (x.fractions p) (x.fractions q) ≤ dist) :
    ∃ y : Phases 1 C ℝ, x.getClusters labels = .ok ⟨1, y⟩ ∧ y.volumes 0 = ∑ p, x.volumes p ∧
      ∀ i, y.fractions 0 i = (∑ p, x.volumes p * x.fractions p i) / ∑ p, x.volumes p := by
  by_cases hP' : 2 ≤ P
  · have h0 : 0 ≤ dist := (eucl_nonneg _ _).trans (near ⟨0, by omega⟩ ⟨0, by omega⟩)
    obtain ⟨h1, -⟩ := fcluster_groups (h hP') (fun _ => ()) (r := dist) h0 le_rfl
      (fun a b _ => Dendro.gap_le _ a b fun p _ q _ => near p q)
      (fun a b _ _ hab => absurd (fun _ _ _ _ => rfl) hab)
    obtain ⟨⟨n, y⟩, hr, lab, l1, l2, l3⟩ := clusters_desc labels hP' hv
    have hall : ∀ p q, labels p = labels q := fun p q => h1 p q rfl
    have hn : n = 1 := by
      have : Subsingleton (Fin n) := ⟨fun j k => l1 (by
        obtain ⟨p, hp⟩ := (l2 (lab j)).mp ⟨j, rfl⟩
        obtain ⟨q, hq⟩ := (l2 (lab k)).mp ⟨k, rfl⟩
        rw [← hp, ← hq, hall])⟩
      have hle : n ≤ 1 := Fin.subsingleton_iff_le_one.mp this
      obtain ⟨k, -⟩ := (l2 (labels ⟨0, by omega⟩)).mpr ⟨_, rfl⟩
      have : k.1 < n := k.2
      omega
    subst hn
    have e : ∀ p, labels p = lab 0 := by
      intro p
      obtain ⟨q, hq⟩ := (l2 (lab 0)).mp ⟨0, rfl⟩
      rw [← hq, hall]
    obtain ⟨v1, -, v3⟩ := l3 0
    simp only [e, if_true] at v1 v3
    refine ⟨y, hr, v1, fun i => ?_⟩
    rw [v3, v1]
  · obtain rfl : P = 1 := by omega
    refine ⟨x, ?_, by simp, fun i => ?_⟩
    · unfold Phases.getClusters
      rw [if_pos (by norm_num)]
    · simp only [Fin.sum_univ_one]
      rw [mul_div_cancel_left₀ _ (hv 0).ne']

/-- **C81**, never more clusters than groups: compartments within `eps` of compositions that are more
than `4 eps` apart give at most one cluster for each of them. -/
theorem C81_count {n : ℕ} {x : Phases P C ℝ} (hv : ∀ p, 0 < x.volumes p)
    {labels : Vec P ℤ} {dist eps : ℝ} (h : 2 ≤ P → FCluster dist x.fractions labels)
    (psi : Fin n → Vec C ℝ) (g : Fin P → Fin n)
    (near : ∀ p, eucl (x.fractions p) (psi (g p)) ≤ eps)
    (hd : 2 * eps ≤ dist) (far : ∀ k l, k ≠ l → 4 * eps < eucl (psi k) (psi l)) :
    ∃ r, x.getClusters labels = .ok r ∧ r.1 ≤ n := by
  by_cases hP : 2 ≤ P
  · have h0 : 0 ≤ eps := (eucl_nonneg _ _).trans (near ⟨0, by omega⟩)
    obtain ⟨h1, -⟩ := fcluster_near (h hP) psi g h0 near hd far
    obtain ⟨r, hr, lab, l1, l2, -⟩ := clusters_desc labels hP hv
    choose w hw using fun n => (l2 (lab n)).mp ⟨n, rfl⟩
    refine ⟨r, hr, ?_⟩
    have hinj : Function.Injective fun k => g (w k) := fun j k e => l1 (by
      rw [← hw j, ← hw k]
      exact h1 _ _ e)
    simpa using Fintype.card_le_of_injective _ hinj
  · refine ⟨⟨P, x⟩, ?_, ?_⟩
    · unfold Phases.getClusters
      rw [if_pos (not_le.mp hP)]
    · rcases Nat.eq_zero_or_pos P with rfl | h0
      · exact Nat.zero_le _
      · have := (g ⟨0, h0⟩).2
        show P ≤ n
        omega

/-! ## The shortcut -/

section Shortcut

variable {G : Type}

/-- The run made by the shortcut and what is made of it. -/
theorem shortcut_run {env : FinderEnv G} (hrng : env.rng.Ok) {ext : PhasesExt} {g : G} {C : ℕ} [NeZero C]
    {chis : NDArr ℝ} {phiMeans sizes : Option (NDArr ℝ)} {constraints : ConsArg} {a : FinderArgs}
    {r : ShortcutResult} (hthr : 0 ≤ a.killThreshold)
    {o : FHInteraction C ℝ} {gas : GasEntropy C} {es : CanonicalEnsemble C}
    (ho : FHInteraction.new C chis = .ok o) (hgas : GasEntropy.new C sizes = .ok gas)
    (hes : CanonicalEnsemble.new C phiMeans = .ok es)
    (hl : ∀ i, 0 < gas.sizes i) (hphi : ∀ i, 0 < es.phiMeans i)
    (hcs : ∀ o ∈ consObjs constraints, ∀ kw x, o.impl kw = .ok x → NoLocal x.2)
    (h : findCoexistingPhases env ext g C chis phiMeans sizes constraints a = .ok r) {δ : ℝ}
    (hδ : 0 ≤ δ) (hd : ErrorsLE δ r.info) :
    ∃ (M : ℕ) (ph : Phases M C ℝ) (cl so : Σ P : ℕ, Phases P C ℝ), M ≠ 0 ∧ (∀ p, 0 < ph.volumes p) ∧
      NearBalanced o.chis gas.sizes
        ((C + |(o.compile ((a.kwargs.get? "additional_chis_shift").getD 1)).coef| + 3) * δ)
        ph.fractions ∧
      ph.getClusters (ext.labels ph) = .ok cl ∧ cl.2.sort ext.argsort = .ok so ∧
      r = ⟨so.1, C, so.2.normalize, r.info⟩ := by
  unfold findCoexistingPhases at h
  rw [ho, bind_ok, hgas, bind_ok] at h
  obtain ⟨-, -, h⟩ := bind_eq_ok.mp h
  rw [hes, bind_ok] at h
  obtain ⟨f, hf, h⟩ := bind_eq_ok.mp h
  dsimp only at h
  rcases hrun : f.run env none none none with ⟨f', res⟩
  rw [hrun] at h
  obtain ⟨out, hout, h⟩ := bind_eq_ok.mp h
  dsimp only at hout
  subst hout
  obtain ⟨cl, hcl, h⟩ := bind_eq_ok.mp h
  obtain ⟨so, hso, h⟩ := bind_eq_ok.mp h
  obtain ⟨ia, en, es', x1, x2, x3, -, x4, hcr⟩ := create_ok hf
  rw [InstObj.compiled_eq] at x2 x3
  obtain rfl := Except.ok.inj x2
  obtain rfl := Except.ok.inj x3
  have hC : C ≠ 0 := NeZero.ne C
  have hia : ia = ⟨C, o.compile ((a.kwargs.get? "additional_chis_shift").getD 1)⟩ := by
    rw [InstObj.compiled_eq] at x1
    simp only [FHInteraction.obj, dif_neg hC, List.mem_singleton, if_true] at x1
    exact (Except.ok.inj x1).symm
  have hthr' : 0 ≤ f.params.killThreshold := by rw [hcr.params]; exact hthr
  obtain ⟨k1, k2, k3, k4⟩ := C40_finder hrng hthr'
    (by rw [hcr.entropy]; exact ⟨trivial, trivial⟩) hrun
  rw [k3] at h
  obtain rfl := Except.ok.inj h
  obtain ⟨M, N, ph, d⟩ := out
  dsimp only at k1 k2 k4 cl hcl so hso hd ⊢
  have hNC : N = C := k2.trans hcr.numComp
  subst hNC
  have hnl : ∀ c ∈ enforced f, NoLocal c.2 := by
    intro c hc'
    rw [hcr.enforced] at hc'
    obtain ⟨x, hx, rfl⟩ := List.mem_map.mp hc'
    rcases initConstraints_mem x4 hx with rfl | ⟨o', ho, y, hy, rfl⟩
    · rw [PackedCons.ofNew_enforces]; trivial
    · rw [PackedCons.ofNew_enforces]
      rw [InstObj.compiled_eq] at hy
      exact hcs o' ho _ y hy
  obtain ⟨q1, q2, q3, q4⟩ := finder_run_balance hrng hthr' (out := ⟨M, N, ph, d⟩)
    (by rw [hcr.interaction, hia]) (by rw [hcr.entropy]) (by rw [hcr.ensemble])
    hl (es := .canonical ⟨es.phiMeans⟩) hphi hnl (quiet_created hf) hrun
  dsimp only at q1 q2 q3 q4
  obtain ⟨d1, d2, d3⟩ := hd
  set coef := (o.compile ((a.kwargs.get? "additional_chis_shift").getD 1)).coef with hcoef
  have hCn : (0 : ℝ) ≤ N := Nat.cast_nonneg N
  have hcn := abs_nonneg coef
  refine ⟨M, ph, cl, so, q2, fun p => lt_of_le_of_lt hthr' (q3 p).1, ⟨fun p i => (q3 p).2.2 i,
    fun p => ?_, fun p q i => ?_⟩, hcl, hso, rfl⟩
  · refine ((q3 p).2.1.trans d1).trans ?_
    have : 0 ≤ (N + |coef| + 2) * δ := by positivity
    linarith
  · refine (q4 p q i).trans ?_
    unfold errorBound
    have e1 := mul_le_mul_of_nonneg_left d2 hCn
    have e2 := mul_le_mul_of_nonneg_left d1 hcn
    linarith

end Shortcut

/-! ## Binary mixtures -/

section Binary

variable {chis : Mat 2 2 ℝ} {l : Vec 2 ℝ}

theorem eucl_two_le (u v : Vec 2 ℝ) : eucl u v ≤ |u 0 - v 0| + |u 1 - v 1| := by
  unfold eucl
  rw [Fin.sum_univ_two]
  refine Real.sqrt_le_iff.mpr ⟨by positivity, ?_⟩
  nlinarith [sq_abs (u 0 - v 0), sq_abs (u 1 - v 1), abs_nonneg (u 0 - v 0), abs_nonneg (u 1 - v 1),
    mul_nonneg (abs_nonneg (u 0 - v 0)) (abs_nonneg (u 1 - v 1))]

/-- Compositions of about the same first fraction are close. -/
theorem eucl_of_first {u v : Vec 2 ℝ} {δ ε : ℝ} (hu : |∑ i, u i - 1| ≤ δ) (hv : |∑ i, v i - 1| ≤ δ)
    (h : |u 0 - v 0| ≤ ε) : eucl u v ≤ 2 * ε + 2 * δ := by
  refine (eucl_two_le u v).trans ?_
  rw [Fin.sum_univ_two] at hu hv
  have h1 : |u 1 - v 1| ≤ ε + 2 * δ := by
    have := abs_le.mp hu
    have := abs_le.mp hv
    have := abs_le.mp h
    rw [abs_le]
    constructor <;> linarith
  linarith

theorem near_no_separation (hl : ∀ i, 0 < l i)
    (hno : ∀ psi : Fin 2 → Vec 2 ℝ, Balanced chis l psi → ¬ psi 0 0 < psi 1 0) {ε : ℝ} (hε : 0 < ε) :
    ∃ δ : ℝ, 0 < δ ∧ ∀ {M : ℕ} (phi : Fin M → Vec 2 ℝ), NearBalanced chis l δ phi →
      ∀ p q, |phi p 0 - phi q 0| ≤ ε := by
  obtain ⟨δ, hδ, h⟩ := near_balanced_empty (chis := chis) (l := l) hl
    (X := {phi : Fin 2 → Vec 2 ℝ | phi 0 0 + ε ≤ phi 1 0})
    (isClosed_le (f := fun phi : Fin 2 → Vec 2 ℝ => phi 0 0 + ε) (g := fun phi => phi 1 0)
      (by fun_prop) (by fun_prop))
    (fun v hv hn hf i => present_of_apart hε hn hf hv i)
    (fun v hv hb => by
      have hv : v 0 0 + ε ≤ v 1 0 := hv
      exact hno v hb (by linarith))
  refine ⟨δ, hδ, fun phi hb p q => ?_⟩
  have key : ∀ p q, phi q 0 < phi p 0 + ε := by
    intro p q
    by_contra hn
    exact h ![phi p, phi q] (not_lt.mp hn)
      (hb.pick _ (by intro k; fin_cases k <;> exact ⟨_, rfl⟩))
  rw [abs_le]
  constructor <;> linarith [key p q, key q p]

/-- Nearly balanced compositions are all about the same, or each is close to one of the two coexisting
compositions and both occur. -/
theorem near_dichotomy (hs : chis 0 1 = chis 1 0) (hl : ∀ i, 0 < l i) {psi : Fin 2 → Vec 2 ℝ}
    (hpsi : Balanced chis l psi) {ε : ℝ} (hε : 0 < ε)
    (hε4 : 4 * ε ≤ psi 1 0 - psi 0 0) :
    ∃ δ : ℝ, 0 < δ ∧ ∀ {M : ℕ} (phi : Fin M → Vec 2 ℝ), NearBalanced chis l δ phi →
      (∀ p q, |phi p 0 - phi q 0| ≤ ε) ∨
      ∃ g : Fin M → Fin 2, g.Surjective ∧ ∀ p i, |phi p i - psi (g p) i| < ε := by
  obtain ⟨δ, hδ, h⟩ := near_binodal hs hl hε
  refine ⟨δ, hδ, fun phi hb => ?_⟩
  have hpsi' : NearBalanced chis l δ psi := ⟨hpsi.pos, fun p => by
    rw [hpsi.fill, sub_self, abs_zero]
    exact hδ.le, fun p q i => by
    rw [hpsi.balance p q, sub_self, abs_zero]
    exact hδ.le⟩
  have key : ∀ p q, phi p 0 + ε ≤ phi q 0 →
      (∀ i, |phi p i - psi 0 i| < ε) ∧ ∀ i, |phi q i - psi 1 i| < ε := by
    intro p q hpq
    have := h ![phi p, phi q] psi (hb.pick _ (by intro k; fin_cases k <;> exact ⟨_, rfl⟩)) hpsi' hpq
      (by linarith)
    exact ⟨fun i => this 0 i, fun i => this 1 i⟩
  by_cases hap : ∃ p q, phi p 0 + ε ≤ phi q 0
  · right
    obtain ⟨p, q, hpq⟩ := hap
    obtain ⟨kp, kq⟩ := key p q hpq
    have a1 := abs_lt.mp (kp 0)
    have a2 := abs_lt.mp (kq 0)
    have hr : ∀ r, (∀ i, |phi r i - psi 0 i| < ε) ∨ ∀ i, |phi r i - psi 1 i| < ε := by
      intro r
      rcases le_or_gt (phi r 0 + ε) (phi q 0) with h1 | h1
      · exact .inl (key r q h1).1
      · rcases le_or_gt (phi p 0 + ε) (phi r 0) with h2 | h2
        · exact .inr (key p r h2).2
        · exfalso
          linarith [a1.1, a1.2, a2.1, a2.2]
    have hg : ∀ r, ∃ k : Fin 2, ∀ i, |phi r i - psi k i| < ε := fun r =>
      (hr r).elim (fun h => ⟨0, h⟩) fun h => ⟨1, h⟩
    choose g hg using hg
    refine ⟨g, fun k => ?_, hg⟩
    have b1 := abs_lt.mp (hg p 0)
    have b2 := abs_lt.mp (hg q 0)
    fin_cases k
    · refine ⟨p, ?_⟩
      by_contra e
      have e : g p = 1 := Fin.eq_one_of_ne_zero _ e
      rw [e] at b1
      linarith [a1.1, a1.2, b1.1, b1.2]
    · refine ⟨q, ?_⟩
      by_contra e
      have e : g q = 0 := by
        by_contra h0
        exact e (Fin.eq_one_of_ne_zero _ h0)
      rw [e] at b2
      linarith [a2.1, a2.2, b2.1, b2.2]
  · left
    push Not at hap
    intro p q
    rw [abs_le]
    constructor <;> linarith [hap p q, hap q p]

/-- What clustering makes of nearly balanced compartments of a binary mixture. -/
theorem binary_clusters (hs : chis 0 1 = chis 1 0) (hl : ∀ i, 0 < l i) {dist ε : ℝ} (hdist : 0 < dist)
    (hε : 0 < ε) :
    ∃ δ : ℝ, 0 < δ ∧ ∀ {M : ℕ} (ph : Phases M 2 ℝ) (labels : Vec M ℤ), M ≠ 0 →
      (∀ p, 0 < ph.volumes p) → (2 ≤ M → FCluster dist ph.fractions labels) →
      NearBalanced chis l δ ph.fractions →
      ∃ r, ph.getClusters labels = .ok r ∧ (r.1 = 1 ∨ r.1 = 2) ∧
        ((∀ psi : Fin 2 → Vec 2 ℝ, Balanced chis l psi → psi 0 = psi 1) → r.1 = 1) ∧
        ∀ psi : Fin 2 → Vec 2 ℝ, Balanced chis l psi → psi 0 0 < psi 1 0 →
          (eucl (psi 0) (psi 1) < dist → r.1 = 1) ∧
          (dist < eucl (psi 0) (psi 1) → r.1 ≠ 1 →
            r.2.fractions.Injective ∧
            ∃ k : Fin r.1 → Fin 2, k.Bijective ∧ ∀ n i, |r.2.fractions n i - psi (k n) i| ≤ ε) := by
  by_cases hex : ∃ psi : Fin 2 → Vec 2 ℝ, Balanced chis l psi ∧ psi 0 0 < psi 1 0
  · obtain ⟨psi, hpsi, hlt⟩ := hex
    have huniq : ∀ ps : Fin 2 → Vec 2 ℝ, Balanced chis l ps → ps 0 0 < ps 1 0 → ps = psi := by
      intro ps h1 h2
      obtain ⟨e0, e1⟩ := C75_binodal hs hl h1 hpsi h2 hlt
      funext k
      fin_cases k
      · exact e0
      · exact e1
    set D := eucl (psi 0) (psi 1) with hD
    have hD0 : psi 1 0 - psi 0 0 ≤ D := by
      have := abs_le_eucl (psi 0) (psi 1) 0
      rw [abs_sub_comm] at this
      exact (le_abs_self _).trans this
    -- the accuracy that is needed
    obtain ⟨η, hη, n1, n2, n3, n4, n5⟩ : ∃ η : ℝ, 0 < η ∧ 2 * η ≤ ε ∧ 4 * η ≤ dist ∧
        9 * η ≤ psi 1 0 - psi 0 0 ∧ (D < dist → D + 4 * η ≤ dist) ∧ (dist < D → dist + 4 * η < D) := by
      set z := min (min ε dist) (min (psi 1 0 - psi 0 0) (if D = dist then 1 else |D - dist|)) with hz
      have hz0 : 0 < z := by
        refine lt_min (lt_min hε hdist) (lt_min (by linarith) ?_)
        split
        · exact one_pos
        · next h => exact abs_pos.mpr (sub_ne_zero.mpr h)
      have z1 : z ≤ ε := (min_le_left _ _).trans (min_le_left _ _)
      have z2 : z ≤ dist := (min_le_left _ _).trans (min_le_right _ _)
      have z3 : z ≤ psi 1 0 - psi 0 0 := (min_le_right _ _).trans (min_le_left _ _)
      have z4 : z ≤ if D = dist then 1 else |D - dist| := (min_le_right _ _).trans (min_le_right _ _)
      refine ⟨z / 9, by linarith, by linarith, by linarith, by linarith, fun h => ?_, fun h => ?_⟩
      · rw [if_neg h.ne, abs_of_neg (by linarith)] at z4
        linarith
      · rw [if_neg h.ne', abs_of_pos (by linarith)] at z4
        linarith
    obtain ⟨δ, hδ, h⟩ := near_dichotomy hs hl hpsi hη (by linarith)
    refine ⟨min δ η, lt_min hδ hη, fun {M} ph labels hM hv hlab hb => ?_⟩
    have hf := hb.fill
    have hM1 : 1 ≤ M := Nat.one_le_iff_ne_zero.mpr hM
    have hfill : ∀ p q, |ph.fractions p 0 - ph.fractions q 0| ≤ η →
        eucl (ph.fractions p) (ph.fractions q) ≤ 4 * η := by
      intro p q hpq
      have := eucl_of_first ((hf p).trans (min_le_right _ _)) ((hf q).trans (min_le_right _ _)) hpq
      linarith
    rcases h ph.fractions (hb.mono (min_le_left _ _)) with h1 | ⟨g, hg, hnear⟩
    · obtain ⟨y, hy, -⟩ := C81_merges hM1 hv hlab fun p q => (hfill p q (h1 p q)).trans n2
      exact ⟨_, hy, .inl rfl, fun _ => rfl, fun ps _ _ => ⟨fun _ => rfl, fun _ h => absurd rfl h⟩⟩
    · have near : ∀ p, eucl (ph.fractions p) (psi (g p)) ≤ 2 * η := by
        intro p
        refine (eucl_two_le _ _).trans ?_
        linarith [hnear p 0, hnear p 1]
      have hpair : ∀ k k' : Fin 2, k ≠ k' → eucl (psi k) (psi k') = D := by
        intro k k' hk
        fin_cases k <;> fin_cases k'
        · exact absurd rfl hk
        · rfl
        · exact eucl_comm _ _
        · exact absurd rfl hk
      obtain ⟨r, hr, hle⟩ := C81_count hv hlab psi g near (by linarith) fun k k' hk => by
        rw [hpair k k' hk]
        linarith
      have hpos : r.1 ≠ 0 := by
        intro h0
        obtain ⟨-, hvol, -⟩ := (C04_clusters_conserve ph labels).1 r hr
        have h2 : ∑ p, r.2.volumes p = 0 :=
          Finset.sum_eq_zero fun p _ => absurd p.2 (by omega)
        have h3 : 0 < ∑ p, ph.volumes p :=
          Finset.sum_pos (fun p _ => hv p) ⟨⟨0, by omega⟩, Finset.mem_univ _⟩
        rw [← hvol, h2] at h3
        exact lt_irrefl _ h3
      refine ⟨r, hr, by omega, fun hno => ?_, fun ps hps hlt' => ?_⟩
      · exact absurd (congrFun (hno psi hpsi) 0) hlt.ne
      · obtain rfl := huniq ps hps hlt'
        refine ⟨fun hc => ?_, fun hc _ => ?_⟩
        · obtain ⟨y, hy, -⟩ := C81_merges hM1 hv hlab fun p q => by
            have t1 := eucl_triangle (ph.fractions p) (ps (g p)) (ph.fractions q)
            have t2 := eucl_triangle (ps (g p)) (ps (g q)) (ph.fractions q)
            have t3 := near p
            have t4 := near q
            rw [eucl_comm] at t4
            have t5 : eucl (ps (g p)) (ps (g q)) ≤ D := by
              by_cases e : g p = g q
              · rw [e, eucl_self]
                exact eucl_nonneg _ _
              · exact (hpair _ _ e).le
            have := n4 hc
            linarith
          obtain rfl := Except.ok.inj (hr.symm.trans hy)
          rfl
        · obtain ⟨r', hr', k, k1, k2, k3⟩ := C81_recovers hv hlab ps g near (by linarith)
            fun k k' hk => by
              rw [hpair k k' hk]
              have := n5 hc
              linarith
          obtain rfl := Except.ok.inj (hr.symm.trans hr')
          refine ⟨fun m n e => k1 ?_, k, ⟨k1, ?_⟩, fun n i => ?_⟩
          · by_contra hmn
            have t1 := (abs_le_eucl _ _ 0).trans (k3 m).1
            have t2 := (abs_le_eucl _ _ 0).trans (k3 n).1
            rw [e] at t1
            have t1 := abs_le.mp t1
            have t2 := abs_le.mp t2
            have t3 : |ps (k m) 0 - ps (k n) 0| = ps 1 0 - ps 0 0 := by
              generalize k m = x at hmn
              generalize k n = y at hmn
              fin_cases x <;> fin_cases y
              · exact absurd rfl hmn
              · show |ps 0 0 - ps 1 0| = _
                rw [abs_sub_comm, abs_of_pos (by linarith)]
              · show |ps 1 0 - ps 0 0| = _
                rw [abs_of_pos (by linarith)]
              · exact absurd rfl hmn
            have t4 : |ps (k m) 0 - ps (k n) 0| ≤ 4 * η := by
              rw [abs_le]
              constructor <;> linarith [t1.1, t1.2, t2.1, t2.2]
            linarith
          · rw [← Set.range_eq_univ, k2, Set.range_eq_univ]
            exact hg
          · exact (abs_le_eucl _ _ i).trans ((k3 n).1.trans n1)
  · push Not at hex
    set η := dist / 4 with hη
    obtain ⟨δ, hδ, h⟩ := near_no_separation hl (fun psi hpsi => not_lt.mpr (hex psi hpsi))
      (ε := η) (by positivity)
    refine ⟨min δ η, lt_min hδ (by positivity), fun {M} ph labels hM hv hlab hb => ?_⟩
    have hf := hb.fill
    obtain ⟨y, hy, -⟩ := C81_merges (Nat.one_le_iff_ne_zero.mpr hM) hv hlab fun p q => by
      have := eucl_of_first ((hf p).trans (min_le_right _ _)) ((hf q).trans (min_le_right _ _))
        (h ph.fractions (hb.mono (min_le_left _ _)) p q)
      linarith
    exact ⟨_, hy, .inl rfl, fun _ => rfl, fun ps _ _ => ⟨fun _ => rfl, fun _ h => absurd rfl h⟩⟩

variable {G : Type}

/-- **C81**, the shortcut for binary mixtures. For all interactions, sizes, shifts and every
accuracy there is `δ > 0` such that `find_coexisting_phases`, whenever it reports errors of at most `δ`,
returns one or two phases; one, if the mixture has no two different phases in equilibrium, or if they are
closer than the cut-off 0.01 of the clustering. If they are further apart than that and two phases are
returned, these are the phases in equilibrium up to the accuracy. -/
theorem C81_binary_shortcut (chis : Mat 2 2 ℝ) {l : Vec 2 ℝ} (hl : ∀ i, 0 < l i) (shift : ℝ) {ε : ℝ}
    (hε : 0 < ε) :
    ∃ δ : ℝ, 0 < δ ∧ ∀ {env : FinderEnv G} {ext : PhasesExt} {g : G} {phi : Vec 2 ℝ}
      {constraints : ConsArg} {a : FinderArgs} {r : ShortcutResult}, env.rng.Ok →
      0 ≤ a.killThreshold → (a.kwargs.get? "additional_chis_shift").getD 1 = shift →
      (∀ {P C : ℕ} (x : Phases P C ℝ), 2 ≤ P → FCluster (1 / 100) x.fractions (ext.labels x)) →
      (∀ i, 0 < phi i) →
      (∀ o ∈ consObjs constraints, ∀ kw x, o.impl kw = .ok x → NoLocal x.2) →
      findCoexistingPhases env ext g 2 (NDArr.ofMat chis) (some (NDArr.ofVec phi))
        (some (NDArr.ofVec l)) constraints a = .ok r → ErrorsLE δ r.info →
      ∃ (P : ℕ) (ph : Phases P 2 ℝ), r = ⟨P, 2, ph, r.info⟩ ∧ (P = 1 ∨ P = 2) ∧
        ((∀ psi : Fin 2 → Vec 2 ℝ,
            Balanced (fun i j => 1 / 2 * (chis i j + chis j i)) l psi → psi 0 = psi 1) → P = 1) ∧
        ∀ psi : Fin 2 → Vec 2 ℝ, Balanced (fun i j => 1 / 2 * (chis i j + chis j i)) l psi →
          psi 0 0 < psi 1 0 →
          (eucl (psi 0) (psi 1) < 1 / 100 → P = 1) ∧
          (1 / 100 < eucl (psi 0) (psi 1) → P = 2 →
            ∃ p q, p ≠ q ∧ ∀ i, |ph.fractions p i - psi 0 i| ≤ ε ∧ |ph.fractions q i - psi 1 i| ≤ ε) := by
  obtain ⟨δ, hδ, h⟩ := binary_clusters (chis := fun i j => 1 / 2 * (chis i j + chis j i)) (l := l)
    (by ring) hl (dist := 1 / 100) (by norm_num) hε
  set o : FHInteraction 2 ℝ := ⟨fun i j => 1 / 2 * (chis i j + chis j i), false⟩ with ho
  set K := ((2 : ℕ) : ℝ) + |(o.compile shift).coef| + 3 with hK
  have hK0 : 0 < K := by positivity
  refine ⟨δ / K, by positivity, fun {env ext g phi constraints a r} hrng hthr hsh hext hphi hcs hr
    hd => ?_⟩
  obtain ⟨o1, o2, -, o3, -⟩ := shortcut_objects (C := 2) (by norm_num) chis l phi
  obtain ⟨M, ph, cl, so, h1, h2, h3, h4, h5, h6⟩ := shortcut_run hrng hthr o1 o2 o3 hl hphi hcs hr
    (by positivity) hd
  rw [hsh, mul_div_cancel₀ _ hK0.ne'] at h3
  obtain ⟨r', hr', c1, c2, c3⟩ := h ph (ext.labels ph) h1 h2 (fun hP => hext ph hP) h3
  obtain rfl := Except.ok.inj (h4.symm.trans hr')
  obtain ⟨s1, s2, -, -⟩ := C02_sort_reorders h5
  refine ⟨so.1, so.2.normalize, h6, by rwa [s1], fun hno => by rw [s1]; exact c2 hno, fun psi hpsi hlt =>
    ⟨fun hc => by rw [s1]; exact (c3 psi hpsi hlt).1 hc, fun hc hP => ?_⟩⟩
  obtain ⟨hinj, k, kb, hk⟩ := (c3 psi hpsi hlt).2 hc (by omega)
  obtain ⟨m, hm⟩ := kb.2 0
  obtain ⟨n, hn⟩ := kb.2 1
  have hrow : ∀ m, ∃ p, so.2.fractions p = cl.2.fractions m := by
    intro m
    have hmem : (cl.2.volumes m, cl.2.fractions m) ∈ cl.2.rows := (List.mem_ofFn ..).mpr ⟨m, rfl⟩
    obtain ⟨p, hp⟩ := (List.mem_ofFn ..).mp (s2.mem_iff.mpr hmem)
    exact ⟨p, congrArg Prod.snd hp⟩
  obtain ⟨p, hp⟩ := hrow m
  obtain ⟨q, hq⟩ := hrow n
  refine ⟨p, q, ?_, fun i => ⟨?_, ?_⟩⟩
  · rintro rfl
    have e := hinj (hp.symm.trans hq)
    rw [e, hn] at hm
    exact absurd hm (by norm_num)
  · have := hk m i
    rw [hm] at this
    show |so.2.fractions p i - psi 0 i| ≤ ε
    rwa [hp]
  · have := hk n i
    rw [hn] at this
    show |so.2.fractions q i - psi 1 i| ≤ ε
    rwa [hq]

end Binary

/-! ## Coexisting phases that are merged -/

namespace Demo

/-- The interaction for which `1/2 - 1/1000` and `1/2 + 1/1000` coexist. -/
noncomputable def closeChi : ℝ := (Real.log (501 / 1000) - Real.log (499 / 1000)) * 500

/-- Two phases that differ by 2/1000. -/
noncomputable def closePsi : Fin 2 → Vec 2 ℝ := ![![499 / 1000, 501 / 1000], ![501 / 1000, 499 / 1000]]

theorem close_balanced : Balanced ![![0, closeChi], ![closeChi, 0]] (fun _ => 1) closePsi := by
  refine ⟨fun p i => ?_, fun p => ?_, ?_⟩
  · fin_cases p <;> fin_cases i <;> norm_num [closePsi]
  · fin_cases p <;> norm_num [closePsi, Fin.sum_univ_two]
  · have h : ∀ i, chemPot ![![0, closeChi], ![closeChi, 0]] (fun _ => 1) (closePsi 0) i =
        chemPot ![![0, closeChi], ![closeChi, 0]] (fun _ => 1) (closePsi 1) i := by
      intro i
      fin_cases i <;> simp [chemPot, closePsi, closeChi, Fin.sum_univ_two] <;> ring
    intro p q i
    fin_cases p <;> fin_cases q
    · rfl
    · exact h i
    · exact (h i).symm
    · rfl

end Demo

/-- **C81**, a limit: two phases in equilibrium may be closer than the cut-off 0.01. They are then merged
whatever scipy does with ties, and the composition that is returned, in equal volumes (1/2, 1/2), is not in
equilibrium: dividing it lowers the free energy. -/
theorem C81_hidden_phases : ∃ (chis : Mat 2 2 ℝ) (x : Phases 2 2 ℝ),
    Balanced chis (fun _ => 1) x.fractions ∧ x.fractions 0 ≠ x.fractions 1 ∧ (∀ p, x.volumes p = 1) ∧
    (∃ labels, FCluster (1 / 100) x.fractions labels) ∧
    ∀ labels, FCluster (1 / 100) x.fractions labels → ∃ y : Phases 1 2 ℝ,
      x.getClusters labels = .ok ⟨1, y⟩ ∧ y.volumes 0 = 2 ∧ y.fractions 0 = ![1 / 2, 1 / 2] ∧
      ¬ LowerBound chis (fun _ => 1) (y.fractions 0) (freeEnergy chis (fun _ => 1) (y.fractions 0)) := by
  have hne : Demo.closePsi 0 ≠ Demo.closePsi 1 := fun e => by
    have := congrFun e 0
    norm_num [Demo.closePsi] at this
  refine ⟨![![0, Demo.closeChi], ![Demo.closeChi, 0]], ⟨fun _ => 1, Demo.closePsi⟩, Demo.close_balanced,
    hne, fun _ => rfl, fcluster_exists (by norm_num) _ _, fun labels h => ?_⟩
  have hd : eucl (Demo.closePsi 0) (Demo.closePsi 1) ≤ 1 / 100 := by
    refine (eucl_two_le _ _).trans ?_
    norm_num [Demo.closePsi, abs_of_neg, abs_of_pos]
  obtain ⟨y, h1, h2, h3⟩ := C81_merges (x := ⟨fun _ => 1, Demo.closePsi⟩) (by norm_num)
    (fun _ => one_pos) (fun _ => h) (fun p q => by
      fin_cases p <;> fin_cases q
      · exact (eucl_self _).le.trans (by norm_num)
      · exact hd
      · exact (eucl_comm _ _).le.trans hd
      · exact (eucl_self _).le.trans (by norm_num))
  have hy : y.fractions 0 = ![1 / 2, 1 / 2] := by
    funext i
    rw [h3]
    fin_cases i <;> norm_num [Demo.closePsi, Fin.sum_univ_two]
  refine ⟨y, h1, by rw [h2]; norm_num, hy, ?_⟩
  rw [hy]
  have key := (C76_homogeneous_optimal (X := ![![0, Demo.closeChi], ![Demo.closeChi, 0]]) (feat := id)
    (l := fun _ => 1) (phiMeans := ![1 / 2, 1 / 2])
    (fun r q => by fin_cases r <;> fin_cases q <;> rfl) (fun _ => one_pos)
    (fun i => by fin_cases i <;> norm_num) (by norm_num [Fin.sum_univ_two])).not
  refine key.mpr (not_not.mpr ⟨fun _ => 1, fun i m => Demo.closePsi m i, ?_, fun _ => one_pos, ?_⟩)
  · refine ⟨by simp, fun i m => Demo.close_balanced.pos m i, Demo.close_balanced.fill, fun i => ?_,
      fun i => chemPot ![![0, Demo.closeChi], ![Demo.closeChi, 0]] (fun _ => 1) (Demo.closePsi 0) i,
      fun i m => Demo.close_balanced.balance m 0 i⟩
    fin_cases i <;> norm_num [Demo.closePsi, Fin.sum_univ_two]
  · norm_num [Demo.closePsi]

/-! ## Non-vacuity -/

-- C81: five compartments near two phases.
example : ∃ (x : Phases 5 2 ℝ) (labels : Vec 5 ℤ), (∀ p, 0 < x.volumes p) ∧
    FCluster (1 / 100) x.fractions labels ∧
    (∀ p, eucl (x.fractions p)
      ((![![1 / 4, 3 / 4], ![3 / 4, 1 / 4]] : Fin 2 → Vec 2 ℝ) (![0, 1, 1, 0, 1] p)) ≤ 2 / 1000) ∧
    ∃ y, x.getClusters labels = .ok ⟨2, y⟩ := by
  set x : Phases 5 2 ℝ := ⟨![1, 2, 1 / 2, 1, 1], ![![1 / 4, 3 / 4], ![751 / 1000, 1 / 4], ![3 / 4, 1 / 4],
    ![1 / 4, 751 / 1000], ![3 / 4, 249 / 1000]]⟩ with hx
  obtain ⟨labels, hl⟩ := fcluster_exists (by norm_num) (1 / 100) x.fractions
  have hv : ∀ p, 0 < x.volumes p := by
    intro p
    fin_cases p <;> norm_num [hx]
  have near : ∀ p, eucl (x.fractions p)
      ((![![1 / 4, 3 / 4], ![3 / 4, 1 / 4]] : Fin 2 → Vec 2 ℝ) (![0, 1, 1, 0, 1] p)) ≤ 2 / 1000 := by
    intro p
    refine (eucl_two_le _ _).trans ?_
    fin_cases p <;> norm_num [hx, abs_of_neg, abs_of_pos]
  have hd : (1 : ℝ) / 4 ≤ eucl ![1 / 4, 3 / 4] ![3 / 4, 1 / 4] := by
    refine le_trans ?_ (abs_le_eucl _ _ 0)
    norm_num [abs_of_neg]
  obtain ⟨⟨n, y⟩, hr, k, k1, k2, -⟩ := C81_recovers hv (fun _ => hl)
    (![![1 / 4, 3 / 4], ![3 / 4, 1 / 4]] : Fin 2 → Vec 2 ℝ) ![0, 1, 1, 0, 1] near (by norm_num)
    (fun a b hab => by
      fin_cases a <;> fin_cases b
      · exact absurd rfl hab
      · exact lt_of_lt_of_le (by norm_num) hd
      · exact lt_of_lt_of_le (by norm_num) (hd.trans (eucl_comm _ _).le)
      · exact absurd rfl hab)
  have hs : k.Surjective := by
    rw [← Set.range_eq_univ, k2, Set.range_eq_univ]
    intro j
    fin_cases j
    · exact ⟨0, rfl⟩
    · exact ⟨1, rfl⟩
  have hn : n = 2 := by simpa using Fintype.card_of_bijective ⟨k1, hs⟩
  subst hn
  exact ⟨x, labels, hv, hl, near, y, hr⟩

/-! ## Runs that start in equilibrium -/

section Found

variable {G : Type}

/-- A run from the fields of coexisting phases in equal volumes. -/
theorem equilibrium_instances {C S M : ℕ} [NeZero M] {e : RunEnv C S M ℝ G} {pia : FHCompiled S ℝ}
    {pen : EntropyInst C S} {pes : EnsembleInst C} {ia : FHCompiled C ℝ} {gas : IdealC C}
    {es : CanonicalC C ℝ} {st : State C S M ℝ G} {s' : RunState C S M ℝ G} {ph : Phases M C ℝ}
    {d : Diagnostics ℝ} {maxSteps : ℚ} {tol : ℝ} {interval b : ℤ} {psi : Mat C M ℝ} {c : ℝ}
    (hthr : 0 ≤ e.params.killThreshold) (hthr1 : e.params.killThreshold < 1)
    (e1 : e.ia = pia.toI M) (e2 : e.en = pen.toI M) (e3 : e.es = pes.toI M)
    (h1 : (⟨S, pia⟩ : AnyInteraction) = ⟨C, ia⟩) (h2 : (⟨C, S, pen⟩ : AnyEntropy) = ⟨C, C, .ideal gas⟩)
    (h3 : (⟨C, pes⟩ : AnyEnsemble) = ⟨C, .canonical es⟩) (hl : ∀ i, 0 < gas.sizes i)
    (hJ : ∀ m, st.Js m = 1) (hco : Coexistence ia.chis id gas.sizes es.phiMeans (fun _ => 1) psi)
    (hom : ∀ (r : Fin S) (q : Fin C) m, r.1 = q.1 →
      st.omegas r m = equilibriumField ia.chis id gas.sizes (fun j => psi j m) q + c)
    (hcons : ∀ k ∈ st.cons, ∃ x, k = .no x ∧ (∀ r m, x.potential r m = 0) ∧ ∀ m, x.volumeDerivative m = 0)
    (h : runImpl e maxSteps tol interval st b = (s', .ok (ph, d))) :
    (∀ m, ph.volumes m = 1) ∧ (∀ m i, ph.fractions m i = psi i m) ∧ ErrorsLE 0 d := by
  obtain rfl : S = C := congrArg Sigma.fst h1
  have h1' : pia = ia := by simpa using h1
  have h2' : pen = .ideal gas := by simpa using h2
  have h3' : pes = .canonical es := by simpa using h3
  subst h1' h2' h3'
  have hJ' : st.Js = fun _ => 1 := funext hJ
  obtain ⟨k1, k2, -, -, k5, k6, k7, -⟩ := C63_equilibrium_stationary (c := c) hthr e1
    (by rw [e2]; exact gas.isIdealGas) e3 (fun i => (hl i).ne')
    (fun m => by rw [hJ]; exact hthr1) (hJ' ▸ hco) (fun r m => hom r r m rfl)
    (fun k hk => by obtain ⟨x, rfl, hx⟩ := hcons k hk; exact hx) h
  exact ⟨fun m => by rw [k1, hJ], k2, k5.le, k6.le, k7.le⟩

/-- The same for a finder. -/
theorem finder_run_equilibrium {env : FinderEnv G} (hrng : env.rng.Ok) {f f' : Finder G} {ms : Option ℚ}
    {tol : Option ℝ} {int : Option ℤ} {out : RunOut} (hthr : 0 ≤ f.params.killThreshold)
    (hthr1 : f.params.killThreshold < 1)
    {ia : FHCompiled out.numComp ℝ} {gas : IdealC out.numComp} {es : CanonicalC out.numComp ℝ}
    {psi : Mat out.numComp out.numPart ℝ} {c : ℝ}
    (hia : f.interaction = ⟨_, ia⟩) (hen : f.entropy = ⟨_, _, .ideal gas⟩)
    (hes : f.ensemble = ⟨_, .canonical es⟩) (hl : ∀ i, 0 < gas.sizes i) (hJ : ∀ m, f.Js m = 1)
    (hco : Coexistence ia.chis id gas.sizes es.phiMeans (fun _ => 1) psi)
    (hom : ∀ (r : Fin f.numFeat) (m : Fin f.numPart) q m', r.1 = q.1 → m.1 = m'.1 →
      f.omegas r m = equilibriumField ia.chis id gas.sizes (fun j => psi j m') q + c)
    (hcons : ∀ c ∈ enforced f, c.2 = .no) (hq : QuietFinder f)
    (h : f.run env ms tol int = (f', .ok out)) :
    (∀ m, out.phases.volumes m = 1) ∧ (∀ m i, out.phases.fractions m i = psi i m) ∧
      ErrorsLE 0 out.diagnostics := by
  have hgood : GoodEntropy f.entropy := by rw [hen]; exact ⟨trivial, trivial⟩
  obtain ⟨k1, -⟩ := C40_finder hrng hthr hgood h
  cases hp : f.parts with
  | none => rw [run_none hp] at h; cases h
  | some p =>
    have hM : f.numPart ≠ 0 := fun h0 => by rw [run_zero hp h0] at h; cases h
    have : NeZero f.numPart := ⟨hM⟩
    rw [run_some hp] at h
    obtain ⟨e1, e2, e3, e4⟩ := parts_eq.mp hp
    rcases hr : runImpl (f.runEnv env p) (ms.getD f.maxSteps) (tol.getD f.tolerance)
        (int.getD f.interval) (f.state p.cons) f.reviveLeft with ⟨s, x⟩
    rw [hr] at h
    cases x with
    | error e => cases h
    | ok x =>
      obtain ⟨ph, d⟩ := x
      cases h
      refine equilibrium_instances (e := f.runEnv env p) (psi := psi) (c := c) hthr hthr1 rfl rfl rfl
        (e1.symm.trans hia) (e2.symm.trans hen) (e3.symm.trans hes) hl hJ hco
        (fun r q m e => hom r m q m e rfl) (fun k hk => ?_) hr
      have h1 := hcons ⟨f.numFeat, consParams k⟩ (by
        unfold enforced
        rw [e4, List.map_map]
        exact List.mem_map.mpr ⟨k, hk, rfl⟩)
      have h2 := hq ⟨f.numFeat, true, k⟩ (by rw [e4]; exact List.mem_map.mpr ⟨k, hk, rfl⟩)
      cases k with
      | no x => exact ⟨x, rfl, h2⟩
      | loc A x => cases h1
      | glob A x => cases h1

/-- **C81**. When the fields that `find_coexisting_phases` draws are those of coexisting phases that
differ by more than 0.01, the call returns exactly these phases, each once, with vanishing errors; the
volume of a phase is the share of the compartments that have its composition. -/
theorem C81_equilibrium_found {env : FinderEnv G} (hrng : env.rng.Ok) (ext : PhasesExt) (g : G) {C : ℕ}
    (hC : 1 ≤ C) (hext : ∀ {P : ℕ} (x : Phases P C ℝ), 2 ≤ P → FCluster (1 / 100) x.fractions (ext.labels x))
    (chis : Mat C C ℝ) (hs : ∀ i j, chis i j = chis j i) {l : Vec C ℝ} (hl : ∀ i, 0 < l i) (phi : Vec C ℝ)
    {a : FinderArgs} (hstd : 0 ≤ a.randomStd) (hthr : 0 ≤ a.killThreshold) (hthr1 : a.killThreshold < 1)
    (hthr2 : 2 * a.killThreshold * ((Finder.partNumber a.numPart C : ℝ) - 1) < 1)
    (hb : 0 < a.JsStepUpperBound) (hcrit : a.criterion = "standard") (h1 : 0 < a.maxSteps)
    (h2 : 0 < a.interval) {M : ℕ} (hM : Finder.partNumber a.numPart C = M) {psi : Mat C M ℝ} {c : ℝ}
    (hco : Coexistence chis id l phi (fun _ => 1) psi)
    (hom : ∀ (r : Fin C) (m : Fin M), a.randomStd * normalDraw env.rng g (r * M + m) =
      equilibriumField chis id l (fun j => psi j m) r + c)
    (far : ∀ m n, (∃ i, psi i m ≠ psi i n) → 1 / 100 < eucl (fun i => psi i m) (fun i => psi i n)) :
    ∃ (P : ℕ) (ph : Phases P C ℝ) (d : Diagnostics ℝ),
      findCoexistingPhases env ext g C (NDArr.ofMat chis) (some (NDArr.ofVec phi))
        (some (NDArr.ofVec l)) .none a = .ok ⟨P, C, ph, d⟩ ∧ ErrorsLE 0 d ∧
      (∀ p, ∃ m, ph.fractions p = fun i => psi i m) ∧
      (∀ m, ∃! p, ph.fractions p = fun i => psi i m) ∧
      ∀ p, ph.volumes p = (∑ m, if ph.fractions p = (fun i => psi i m) then 1 else 0) / (M : ℝ) := by
  classical
  obtain ⟨r, hr⟩ := C59_returns hrng ext g hC chis l phi hstd hthr hthr1 hthr2 hb hcrit h1 h2
  have hr' := hr
  obtain ⟨o1, o2, -, o3, -⟩ := shortcut_objects hC chis l phi
  set o : FHInteraction C ℝ := ⟨fun i j => 1 / 2 * (chis i j + chis j i), false⟩ with ho
  have hoc : o.chis = chis := by
    funext i j
    show 1 / 2 * (chis i j + chis j i) = chis i j
    rw [← hs i j]; ring
  unfold findCoexistingPhases at hr
  rw [o1, bind_ok, o2, bind_ok] at hr
  obtain ⟨-, -, hr⟩ := bind_eq_ok.mp hr
  rw [o3, bind_ok] at hr
  obtain ⟨f, hf, h⟩ := bind_eq_ok.mp hr
  dsimp only at h
  rcases hrun : f.run env none none none with ⟨f', res⟩
  rw [hrun] at h
  obtain ⟨out, hout, h⟩ := bind_eq_ok.mp h
  dsimp only at hout
  subst hout
  obtain ⟨cl, hcl, h⟩ := bind_eq_ok.mp h
  obtain ⟨so, hso, h⟩ := bind_eq_ok.mp h
  obtain ⟨ia, en, es', x1, x2, x3, -, x4, hcr⟩ := create_ok hf
  rw [InstObj.compiled_eq] at x2 x3
  obtain rfl := Except.ok.inj x2
  obtain rfl := Except.ok.inj x3
  have hC0 : C ≠ 0 := by omega
  have : NeZero C := ⟨hC0⟩
  have hia : ia = ⟨C, o.compile ((a.kwargs.get? "additional_chis_shift").getD 1)⟩ := by
    rw [InstObj.compiled_eq] at x1
    simp only [FHInteraction.obj, dif_neg hC0, List.mem_singleton, if_true] at x1
    exact (Except.ok.inj x1).symm
  have hthr' : 0 ≤ f.params.killThreshold := by rw [hcr.params]; exact hthr
  obtain ⟨k1, k2, k3, k4⟩ := C40_finder hrng hthr'
    (by rw [hcr.entropy]; exact ⟨trivial, trivial⟩) hrun
  rw [k3] at h
  obtain rfl := Except.ok.inj h
  obtain ⟨M', N, ph, d⟩ := out
  dsimp only at k1 k2 k4 cl hcl so hso hr' ⊢
  have hNC : N = C := k2.trans hcr.numComp
  subst hNC
  have hM' : M' = M := by
    rw [k1, hcr.numPart, ← hM]
    unfold Finder.partNumber
    cases a.numPart with
    | none => rfl
    | some n => by_cases hn : n = 0 <;> simp [hn]
  subst hM'
  have hS : f.numFeat = N := hcr.numFeat
  obtain ⟨c1, c2, -, c4, -⟩ := C78_created hf
  obtain ⟨q1, q2, q3⟩ := finder_run_equilibrium hrng hthr' (by rw [hcr.params]; exact hthr1)
    (out := ⟨M', N, ph, d⟩) (psi := psi) (c := c) (by rw [hcr.interaction, hia]) (by rw [hcr.entropy]; rfl)
    (by rw [hcr.ensemble]) hl (es := ⟨phi⟩) c4 (by
      show Coexistence o.chis id l phi (fun _ => 1) psi
      rw [hoc]; exact hco)
    (fun r m q m' e1 e2 => by
      show _ = equilibriumField o.chis id l (fun j => psi j m') q + c
      rw [hoc, c2, ← hom q m', e1, e2, ← k1])
    (fun x hx => by
      rw [hcr.enforced] at hx
      obtain ⟨y, hy, rfl⟩ := List.mem_map.mp hx
      rw [List.mem_singleton.mp hy, PackedCons.ofNew_enforces])
    (quiet_created hf) hrun
  dsimp only at q1 q2 q3
  have hfr : ∀ m, ph.fractions m = fun i => psi i m := fun m => funext fun i => q2 m i
  obtain ⟨cl', hcl', k, j1, j2, j3⟩ := C81_recovers (x := ph) (dist := 1 / 100) (eps := 0)
    (fun m => by rw [q1]; exact one_pos) (fun hP => hext ph hP)
    (fun v : {v : Vec N ℝ // ∃ m, v = fun i => psi i m} => v.1) (fun m => ⟨_, m, rfl⟩)
    (fun m => by rw [hfr]; exact (eucl_self _).le) (by norm_num)
    (fun u v huv => by
      obtain ⟨u, m, rfl⟩ := u
      obtain ⟨v, n, rfl⟩ := v
      simp only [mul_zero, add_zero]
      refine far m n (by_contra fun hne => huv (Subtype.ext ?_))
      push Not at hne
      exact funext hne)
  obtain rfl := Except.ok.inj (hcl.symm.trans hcl')
  have j4 : ∀ n, cl.2.fractions n = (k n).1 := fun n => by
    have e0 := (j3 n).1
    funext i
    have := (abs_le_eucl (cl.2.fractions n) (k n).1 i).trans e0
    linarith [abs_nonpos_iff.mp this]
  have hcinj : cl.2.fractions.Injective := fun m n e => j1 (Subtype.ext (by rw [← j4, ← j4, e]))
  have hcm : ∀ n, ∃ m, cl.2.fractions n = fun i => psi i m := fun n => by
    obtain ⟨m, hm⟩ := (k n).2
    exact ⟨m, (j4 n).trans hm⟩
  have hcs : ∀ m, ∃ n, cl.2.fractions n = fun i => psi i m := fun m => by
    obtain ⟨n, hn⟩ : (⟨_, m, rfl⟩ : {v : Vec N ℝ // ∃ m, v = fun i => psi i m}) ∈ Set.range k := by
      rw [j2]; exact ⟨m, rfl⟩
    exact ⟨n, by rw [j4, hn]⟩
  have hcv : ∀ n, cl.2.volumes n = ∑ m, if cl.2.fractions n = (fun i => psi i m) then 1 else 0 := by
    intro n
    rw [(j3 n).2]
    refine Finset.sum_congr rfl fun m _ => ?_
    rw [q1, j4]
    by_cases hk : (k n).1 = fun i => psi i m
    · rw [if_pos hk, if_pos (Subtype.ext hk.symm)]
    · rw [if_neg hk, if_neg fun e => hk (by rw [← e])]
  obtain ⟨-, s2, s3, -⟩ := C02_sort_reorders hso
  have hmem : ∀ p, ∃ n, so.2.volumes p = cl.2.volumes n ∧ so.2.fractions p = cl.2.fractions n := by
    intro p
    have : (so.2.volumes p, so.2.fractions p) ∈ cl.2.rows :=
      s2.mem_iff.mp ((List.mem_ofFn ..).mpr ⟨p, rfl⟩)
    obtain ⟨n, hn⟩ := (List.mem_ofFn ..).mp this
    exact ⟨n, (congrArg Prod.fst hn).symm, (congrArg Prod.snd hn).symm⟩
  have hsurj : ∀ n, ∃ p, so.2.fractions p = cl.2.fractions n := by
    intro n
    have : (cl.2.volumes n, cl.2.fractions n) ∈ so.2.rows :=
      s2.mem_iff.mpr ((List.mem_ofFn ..).mpr ⟨n, rfl⟩)
    obtain ⟨p, hp⟩ := (List.mem_ofFn ..).mp this
    exact ⟨p, congrArg Prod.snd hp⟩
  have hnd : so.2.fractions.Injective := by
    have e1 : (cl.2.rows.map Prod.snd).Nodup := by
      rw [Phases.rows, List.map_ofFn]
      exact List.nodup_ofFn.mpr hcinj
    have e2 := (s2.map Prod.snd).nodup_iff.mpr e1
    rw [Phases.rows, List.map_ofFn] at e2
    exact List.nodup_ofFn.mp e2
  have htot : so.2.totalVolume = M' := by
    rw [s3]
    show ∑ p, cl.2.volumes p = _
    rw [((C04_clusters_conserve ph (ext.labels ph)).1 cl hcl).2.1]
    simp [q1]
  refine ⟨so.1, so.2.normalize, d, hr', q3, fun p => ?_, fun m => ?_, fun p => ?_⟩
  · obtain ⟨n, -, e⟩ := hmem p
    obtain ⟨m, hm⟩ := hcm n
    exact ⟨m, e.trans hm⟩
  · obtain ⟨n, hn⟩ := hcs m
    obtain ⟨p, hp⟩ := hsurj n
    exact ⟨p, hp.trans hn, fun q hq => hnd (Eq.trans hq (hp.trans hn).symm)⟩
  · obtain ⟨n, e1, e2⟩ := hmem p
    show so.2.volumes p / so.2.totalVolume = _
    rw [htot, e1, hcv]
    show _ = (∑ m, if so.2.fractions p = (fun i => psi i m) then (1 : ℝ) else 0) / (M' : ℝ)
    rw [e2]

end Found

namespace Demo

/-- A generator whose normal draws are the given numbers. -/
def listRng (draws : ℕ → ℝ) : Rng ℕ ℝ := ⟨fun g => (0, g), fun g => (draws g, g + 1), fun g _ => (0, g)⟩

theorem listRng_ok (draws : ℕ → ℝ) : (listRng draws).Ok :=
  ⟨fun _ => by norm_num [listRng], fun _ hi h => h⟩

theorem listRng_draw (draws : ℕ → ℝ) (k : ℕ) : normalDraw (listRng draws) 0 k = draws k := by
  have : ∀ n g, genAfter (listRng draws) g n = g + n := by
    intro n
    induction n with
    | zero => intro g; rfl
    | succ n ih => intro g; rw [genAfter, ih]; show g + n + 1 = g + (n + 1); omega
  unfold normalDraw
  rw [this]
  simp [listRng]

end Demo

-- C81: the fields of the phases (1/4, 3/4) and (3/4, 1/4) are drawn; they are returned with equal
-- volumes. The errors vanish, so that this call meets the hypotheses of `C81_binary_shortcut` for every `δ`.
example : ∃ (env : FinderEnv ℕ) (ext : PhasesExt) (ph : Phases 2 2 ℝ) (d : Diagnostics ℝ), env.rng.Ok ∧
    ArgSort.Ok ext.argsort ∧
    (∀ {P C : ℕ} (x : Phases P C ℝ), 2 ≤ P → FCluster (1 / 100) x.fractions (ext.labels x)) ∧
    findCoexistingPhases env ext 0 2 (NDArr.ofMat Demo.coexFH.chis) (some (NDArr.ofVec ![1 / 2, 1 / 2]))
      (some (NDArr.ofVec fun _ : Fin 2 => 1)) .none { numPart := some 2 } = .ok ⟨2, 2, ph, d⟩ ∧
    ErrorsLE 0 d ∧ ∀ p, ph.volumes p = 1 / 2 := by
  classical
  obtain ⟨argsort, hok⟩ := argsort_exists (K := ℝ)
  have hlab : ∀ {P C : ℕ} (x : Phases P C ℝ), ∃ labels, 2 ≤ P → FCluster (1 / 100) x.fractions labels := by
    intro P C x
    by_cases hP : 1 ≤ P
    · obtain ⟨labels, h⟩ := fcluster_exists hP (1 / 100) x.fractions
      exact ⟨labels, fun _ => h⟩
    · exact ⟨0, fun h => absurd h (by omega)⟩
  choose labels hlabels using @hlab
  set psi : Mat 2 2 ℝ := Demo.coexPhi with hpsi
  set draws : ℕ → ℝ := fun k => equilibriumField Demo.coexFH.chis id (fun _ => 1)
    (fun j => psi j ⟨k % 2, Nat.mod_lt _ (by norm_num)⟩) ⟨k / 2 % 2, Nat.mod_lt _ (by norm_num)⟩ / 5 with hdr
  set env : FinderEnv ℕ := ⟨Demo.listRng draws, fun _ _ _ s => s⟩ with henv
  have hco : Coexistence Demo.coexFH.chis id (fun _ => 1) ![1 / 2, 1 / 2] (fun _ : Fin 2 => 1) psi :=
    ⟨by simp, Demo.coexistence.pos, Demo.coexistence.incompressible, fun i => by
      fin_cases i <;> norm_num [hpsi, Demo.coexPhi, Fin.sum_univ_two], Demo.coexistence.balance⟩
  have hne : ∀ m n : Fin 2, m ≠ n → 1 / 4 < eucl (fun i => psi i m) (fun i => psi i n) := by
    intro m n hmn
    refine lt_of_lt_of_le ?_ (abs_le_eucl _ _ 0)
    fin_cases m <;> fin_cases n
    · exact absurd rfl hmn
    · norm_num [hpsi, Demo.coexPhi, abs_of_neg]
    · norm_num [hpsi, Demo.coexPhi, abs_of_pos]
    · exact absurd rfl hmn
  obtain ⟨P, ph, d, h1, h2, h3, h4, h5⟩ := C81_equilibrium_found (env := env) (Demo.listRng_ok draws)
    ⟨argsort, labels⟩ 0 (C := 2) (by norm_num) (fun x hP => hlabels x hP) Demo.coexFH.chis
    (fun i j => by fin_cases i <;> fin_cases j <;> rfl) (l := fun _ => 1) (fun _ => one_pos)
    ![1 / 2, 1 / 2] (a := { numPart := some 2 }) (by norm_num) (by norm_num) (by norm_num) (by norm_num)
    (by norm_num) rfl (by norm_num) (by norm_num) (M := 2) rfl (psi := psi) (c := 0) hco
    (fun r m => by
      rw [Demo.listRng_draw]
      fin_cases r <;> fin_cases m <;> (simp [hdr]; ring))
    (fun m n h => lt_trans (by norm_num) (hne m n fun e => by
      obtain ⟨i, hi⟩ := h
      exact hi (by rw [e])))
  choose u hu huq using h4
  have hinj : u.Injective := fun m n e => by
    by_contra hmn
    have e1 : (fun i => psi i m) = fun i => psi i n := (hu m).symm.trans (e ▸ hu n)
    have := hne m n hmn
    rw [e1, eucl_self] at this
    norm_num at this
  have hsur : u.Surjective := fun p => by
    obtain ⟨m, hm⟩ := h3 p
    exact ⟨m, (huq m p hm).symm⟩
  obtain rfl : 2 = P := by simpa using Fintype.card_of_bijective ⟨hinj, hsur⟩
  refine ⟨env, ⟨argsort, labels⟩, ph, d, Demo.listRng_ok draws, hok, fun x hP => hlabels x hP, h1, h2,
    fun p => ?_⟩
  obtain ⟨m, rfl⟩ := hsur p
  rw [h5, Finset.sum_eq_single m]
  · rw [if_pos (hu m)]; norm_num
  · intro n _ hn
    rw [if_neg]
    intro e
    have := hne m n hn.symm
    rw [← e, ← hu m, eucl_self] at this
    norm_num at this
  · simp

end Flory
