import Mathlib.Analysis.InnerProductSpace.PiL2
import Verif.Model.Clustering

/-! # Facts about centroid linkage -/

set_option linter.unusedSectionVars false

namespace Flory

variable {P C : ℕ}

theorem eucl_eq (u v : Vec C ℝ) :
    eucl u v = ‖(WithLp.toLp 2 u : EuclideanSpace ℝ (Fin C)) - WithLp.toLp 2 v‖ := by
  rw [EuclideanSpace.norm_eq]
  unfold eucl
  congr 1
  refine Finset.sum_congr rfl fun i _ => ?_
  simp [sq_abs]

theorem eucl_nonneg (u v : Vec C ℝ) : 0 ≤ eucl u v := Real.sqrt_nonneg _

theorem eucl_self (u : Vec C ℝ) : eucl u u = 0 := by rw [eucl_eq, sub_self, norm_zero]

theorem eucl_comm (u v : Vec C ℝ) : eucl u v = eucl v u := by
  rw [eucl_eq, eucl_eq, norm_sub_rev]

theorem eucl_triangle (u v w : Vec C ℝ) : eucl u w ≤ eucl u v + eucl v w := by
  simp only [eucl_eq]
  exact norm_sub_le_norm_sub_add_norm_sub _ _ _

theorem abs_le_eucl (u v : Vec C ℝ) (i : Fin C) : |u i - v i| ≤ eucl u v := by
  unfold eucl
  rw [← Real.sqrt_sq_eq_abs]
  exact Real.sqrt_le_sqrt (Finset.single_le_sum (f := fun i => (u i - v i) ^ 2)
    (fun j _ => sq_nonneg _) (Finset.mem_univ i))

/-- A weighted average of compositions near `y` is near `y`. -/
theorem eucl_average {ι : Type} (s : Finset ι) (w : ι → ℝ) (x : ι → Vec C ℝ) (y : Vec C ℝ) {r : ℝ}
    (hw : ∀ k ∈ s, 0 ≤ w k) (hs : 0 < ∑ k ∈ s, w k) (h : ∀ k ∈ s, eucl (x k) y ≤ r) :
    eucl (fun i => (∑ k ∈ s, w k * x k i) / ∑ k ∈ s, w k) y ≤ r := by
  rw [eucl_eq]
  have e : (WithLp.toLp 2 (fun i => (∑ k ∈ s, w k * x k i) / ∑ k ∈ s, w k) :
      EuclideanSpace ℝ (Fin C)) - WithLp.toLp 2 y =
      (∑ k ∈ s, w k)⁻¹ • ∑ k ∈ s, w k • ((WithLp.toLp 2 (x k) : EuclideanSpace ℝ (Fin C))
        - WithLp.toLp 2 y) := by
    ext i
    simp only [WithLp.ofLp_smul, WithLp.ofLp_sub, WithLp.ofLp_sum, Pi.smul_apply, smul_eq_mul,
      Pi.sub_apply, Finset.sum_apply, mul_sub, Finset.sum_sub_distrib, ← Finset.sum_mul]
    field_simp
  rw [e, norm_smul, Real.norm_of_nonneg (inv_nonneg.mpr hs.le), inv_mul_le_iff₀ hs]
  refine (norm_sum_le _ _).trans ?_
  rw [Finset.sum_mul]
  refine Finset.sum_le_sum fun k hk => ?_
  rw [norm_smul, Real.norm_of_nonneg (hw k hk), ← eucl_eq]
  exact mul_le_mul_of_nonneg_left (h k hk) (hw k hk)

namespace Dendro

theorem size_pos (t : Dendro P) : 0 < t.size := by
  induction t with
  | leaf p => exact one_pos
  | node a b ha hb => exact Nat.add_pos_left ha _

theorem exists_leaf (t : Dendro P) : ∃ p, p ∈ t.leaves := by
  induction t with
  | leaf p => exact ⟨p, by simp [leaves]⟩
  | node a b ha hb =>
    obtain ⟨p, hp⟩ := ha
    exact ⟨p, by simp [leaves, hp]⟩

theorem mem_node {a b : Dendro P} {p : Fin P} :
    p ∈ (node a b).leaves ↔ p ∈ a.leaves ∨ p ∈ b.leaves := by
  simp [leaves]

/-- The centroid of compositions near `y` is near `y`. -/
theorem centroid_near (x : Fin P → Vec C ℝ) (t : Dendro P) (y : Vec C ℝ) {r : ℝ}
    (h : ∀ p ∈ t.leaves, eucl (x p) y ≤ r) : eucl (t.centroid x) y ≤ r := by
  have key : ‖(WithLp.toLp 2 (t.total x) : EuclideanSpace ℝ (Fin C)) -
      (t.size : ℝ) • WithLp.toLp 2 y‖ ≤ t.size * r := by
    induction t with
    | leaf p =>
      have := h p (by simp [leaves])
      rw [eucl_eq] at this
      simpa [total, size] using this
    | node a b iha ihb =>
      have ha := iha fun p hp => h p (mem_node.mpr (.inl hp))
      have hb := ihb fun p hp => h p (mem_node.mpr (.inr hp))
      have e : (WithLp.toLp 2 ((node a b).total x) : EuclideanSpace ℝ (Fin C)) -
          ((node a b).size : ℝ) • WithLp.toLp 2 y =
          (WithLp.toLp 2 (a.total x) - (a.size : ℝ) • WithLp.toLp 2 y) +
            (WithLp.toLp 2 (b.total x) - (b.size : ℝ) • WithLp.toLp 2 y) := by
        have : (WithLp.toLp 2 ((node a b).total x) : EuclideanSpace ℝ (Fin C)) =
            WithLp.toLp 2 (a.total x) + WithLp.toLp 2 (b.total x) := rfl
        rw [this]
        simp only [size, Nat.cast_add, add_smul]
        abel
      rw [e]
      refine (norm_add_le _ _).trans ?_
      simp only [size, Nat.cast_add, add_mul]
      exact add_le_add ha hb
  have hs : (0 : ℝ) < t.size := Nat.cast_pos.mpr t.size_pos
  rw [eucl_eq]
  have e : (WithLp.toLp 2 (t.centroid x) : EuclideanSpace ℝ (Fin C)) - WithLp.toLp 2 y =
      (t.size : ℝ)⁻¹ • ((WithLp.toLp 2 (t.total x) : EuclideanSpace ℝ (Fin C)) -
      (t.size : ℝ) • WithLp.toLp 2 y) := by
    rw [smul_sub, smul_smul, inv_mul_cancel₀ hs.ne', one_smul]
    congr 1
    ext i
    simp [centroid, div_eq_inv_mul]
  rw [e, norm_smul, Real.norm_of_nonneg (inv_nonneg.mpr hs.le), inv_mul_le_iff₀ hs]
  exact key

/-- Clusters all of whose members are close to each other are close. -/
theorem gap_le (x : Fin P → Vec C ℝ) (a b : Dendro P) {r : ℝ}
    (h : ∀ p ∈ a.leaves, ∀ q ∈ b.leaves, eucl (x p) (x q) ≤ r) : gap x a b ≤ r := by
  unfold gap
  refine centroid_near x a _ fun p hp => ?_
  rw [eucl_comm]
  refine centroid_near x b _ fun q hq => ?_
  rw [eucl_comm]
  exact h p hp q hq

theorem together_mem {x : Fin P → Vec C ℝ} {dist : ℝ} {t : Dendro P} {p q : Fin P}
    (h : t.Together x dist p q) : p ∈ t.leaves ∧ q ∈ t.leaves := by
  induction t with
  | leaf r =>
    obtain ⟨rfl, rfl⟩ := h
    simp [leaves]
  | node a b iha ihb =>
    rcases h with h | h | h
    · exact h.2
    · exact ⟨mem_node.mpr (.inl (iha h).1), mem_node.mpr (.inl (iha h).2)⟩
    · exact ⟨mem_node.mpr (.inr (ihb h).1), mem_node.mpr (.inr (ihb h).2)⟩

theorem together_of_top {x : Fin P → Vec C ℝ} {dist : ℝ} {t : Dendro P} (ht : t.top x ≤ dist)
    {p q : Fin P} (hp : p ∈ t.leaves) (hq : q ∈ t.leaves) : t.Together x dist p q := by
  cases t with
  | leaf r => exact ⟨by simpa [leaves] using hp, by simpa [leaves] using hq⟩
  | node a b => exact .inl ⟨ht, hp, hq⟩

section Groups

variable {ι : Type} (g : Fin P → ι) (x : Fin P → Vec C ℝ)

/-- All members belong to one group. -/
def Pure (t : Dendro P) : Prop := ∀ p ∈ t.leaves, ∀ q ∈ t.leaves, g p = g q

/-- A group with a member here is here completely. -/
def Closed (t : Dendro P) : Prop := ∀ p ∈ t.leaves, ∀ q, g p = g q → q ∈ t.leaves

/-- What is kept once all groups are complete. `H` says that different groups are far apart. -/
structure Late (dist : ℝ) (H : Prop) (t : Dendro P) : Prop where
  closed : Closed g t
  back : ∀ p ∈ t.leaves, ∀ q ∈ t.leaves, g p = g q → t.Together x dist p q
  forth : H → ∀ p q, t.Together x dist p q → g p = g q
  low : H → t.top x ≤ dist → Pure g t

/-- The forest: either only parts of single groups, merged at small distances, or only complete
groups. -/
def Stage (dist r : ℝ) (H : Prop) (F : Multiset (Dendro P)) : Prop :=
  (∀ t ∈ F, Pure g t ∧ t.top x ≤ r) ∨ ∀ t ∈ F, Late g x dist H t

theorem linkage_stage {dist r : ℝ} (hrd : r ≤ dist)
    (hin : ∀ a b : Dendro P, Pure g (node a b) → gap x a b ≤ r)
    (hout : ∀ a b : Dendro P, Pure g a → Pure g b → ¬ Pure g (node a b) → r < gap x a b)
    {F : Multiset (Dendro P)} {t : Dendro P} (h : Linkage x F t)
    (hF : (F.map leaves).sum = Finset.univ.val)
    (hst : Stage g x dist r (∀ a b : Dendro P, Pure g a → Pure g b → ¬ Pure g (node a b) →
      dist < gap x a b) F) :
    t.leaves = Finset.univ.val ∧ Stage g x dist r (∀ a b : Dendro P, Pure g a → Pure g b →
      ¬ Pure g (node a b) → dist < gap x a b) {t} := by
  set H := ∀ a b : Dendro P, Pure g a → Pure g b → ¬ Pure g (node a b) → dist < gap x a b with hH
  induction h with
  | done t => exact ⟨by simpa using hF, hst⟩
  | @merge a b t F closest rest ih =>
    have hF' : ((node a b ::ₘ F).map leaves).sum = Finset.univ.val := by
      rw [← hF]
      simp [leaves, add_assoc]
    refine ih hF' ?_
    -- the members of the forest are disjoint
    have hnd : ((a ::ₘ b ::ₘ F).map leaves).sum.Nodup := hF ▸ Finset.univ.nodup
    have hdis : ∀ c d G, a ::ₘ b ::ₘ F = c ::ₘ d ::ₘ G → ∀ p ∈ c.leaves, p ∉ d.leaves := by
      intro c d G e p hc hd
      rw [e] at hnd
      simp only [Multiset.map_cons, Multiset.sum_cons, ← add_assoc] at hnd
      have := (Multiset.nodup_add.mp (Multiset.nodup_add.mp hnd).1).2.2
      exact Multiset.disjoint_left.mp this hc hd
    have hab := hdis a b F rfl
    -- merging two members of the second kind
    have late : ∀ c d : Dendro P, Late g x dist H c → Late g x dist H d →
        (∀ p ∈ c.leaves, p ∉ d.leaves) → Late g x dist H (node c d) := by
      intro c d hc hd hcd
      have hne : ∀ p ∈ c.leaves, ∀ q ∈ d.leaves, g p ≠ g q := fun p hp q hq e =>
        hcd q (hc.closed p hp q e) hq
      have hnp : ¬ Pure g (node c d) := by
        intro hp
        obtain ⟨p, hp'⟩ := c.exists_leaf
        obtain ⟨q, hq'⟩ := d.exists_leaf
        exact hne p hp' q hq' (hp p (mem_node.mpr (.inl hp')) q (mem_node.mpr (.inr hq')))
      have htop : H → ¬ (node c d).top x ≤ dist := by
        intro h0 h1
        have h2 : gap x c d ≤ dist := (le_max_left _ _).trans h1
        have h3 : c.top x ≤ dist := ((le_max_left _ _).trans (le_max_right _ _)).trans h1
        have h4 : d.top x ≤ dist := ((le_max_right _ _).trans (le_max_right _ _)).trans h1
        exact absurd h2 (not_le.mpr (h0 c d (hc.low h0 h3) (hd.low h0 h4) hnp))
      refine ⟨?_, ?_, ?_, fun h0 h1 => absurd h1 (htop h0)⟩
      · intro p hp q e
        rcases mem_node.mp hp with hp | hp
        · exact mem_node.mpr (.inl (hc.closed p hp q e))
        · exact mem_node.mpr (.inr (hd.closed p hp q e))
      · intro p hp q hq e
        rcases mem_node.mp hp with hp | hp
        · exact .inr (.inl (hc.back p hp q (hc.closed p hp q e) e))
        · exact .inr (.inr (hd.back p hp q (hd.closed p hp q e) e))
      · intro h0 p q h1
        rcases h1 with h1 | h1 | h1
        · exact absurd h1.1 (htop h0)
        · exact hc.forth h0 p q h1
        · exact hd.forth h0 p q h1
    rcases hst with hst | hst
    · have ha := hst a (by simp)
      have hb := hst b (by simp)
      by_cases hp : Pure g (node a b)
      · left
        intro c hc
        rcases Multiset.mem_cons.mp hc with rfl | hc
        · exact ⟨hp, max_le (hin a b hp) (max_le ha.2 hb.2)⟩
        · exact hst c (by simp [hc])
      · -- different groups: then all groups are complete
        have hgap := hout a b ha.1 hb.1 hp
        have hlate : ∀ c ∈ a ::ₘ b ::ₘ F, Late g x dist H c := by
          intro c hc
          obtain ⟨hpc, htc⟩ := hst c hc
          have hclosed : Closed g c := by
            intro p hp q e
            by_contra hq
            obtain ⟨G, hG⟩ := Multiset.exists_cons_of_mem hc
            have hqm : q ∈ ((a ::ₘ b ::ₘ F).map leaves).sum := by
              rw [hF]
              exact Finset.mem_univ q
            rw [hG, Multiset.map_cons, Multiset.sum_cons, Multiset.mem_add] at hqm
            obtain ⟨s, hs, hqs⟩ := Multiset.mem_join.mp (hqm.resolve_left hq)
            obtain ⟨d, hd, rfl⟩ := Multiset.mem_map.mp hs
            obtain ⟨G', rfl⟩ := Multiset.exists_cons_of_mem hd
            have hpd := (hst d (by rw [hG]; simp)).1
            have hcd : Pure g (node c d) := by
              have : ∀ u ∈ (node c d).leaves, g u = g p := by
                intro u hu
                rcases mem_node.mp hu with hu | hu
                · exact hpc u hu p hp
                · rw [e]
                  exact hpd u hu q hqs
              intro u hu v hv
              rw [this u hu, this v hv]
            exact absurd (closest c d G' hG) (not_le.mpr ((hin c d hcd).trans_lt hgap))
          exact ⟨hclosed, fun p hp q hq _ => together_of_top (htc.trans hrd) hp hq,
            fun _ p q h => hpc p (together_mem h).1 q (together_mem h).2, fun _ _ => hpc⟩
        right
        intro c hc
        rcases Multiset.mem_cons.mp hc with rfl | hc
        · exact late a b (hlate a (by simp)) (hlate b (by simp)) hab
        · exact hlate c (by simp [hc])
    · right
      intro c hc
      rcases Multiset.mem_cons.mp hc with rfl | hc
      · exact late a b (hst a (by simp)) (hst b (by simp)) hab
      · exact hst c (by simp [hc])

end Groups

theorem start_sum : ((Finset.univ.val.map (leaf (P := P))).map leaves).sum = Finset.univ.val := by
  rw [Multiset.map_map]
  exact Multiset.sum_map_singleton _

end Dendro

/-- Groups of compositions that are closer within than between groups: the labels do not divide groups,
and groups that are further apart than the cut-off get different labels. -/
theorem fcluster_groups {ι : Type} {dist r : ℝ} {x : Fin P → Vec C ℝ} {labels : Vec P ℤ}
    (h : FCluster dist x labels) (g : Fin P → ι) (hr : 0 ≤ r) (hrd : r ≤ dist)
    (hin : ∀ a b : Dendro P, (Dendro.node a b).Pure g → Dendro.gap x a b ≤ r)
    (hout : ∀ a b : Dendro P, a.Pure g → b.Pure g → ¬ (Dendro.node a b).Pure g →
      r < Dendro.gap x a b) :
    (∀ p q, g p = g q → labels p = labels q) ∧
    ((∀ a b : Dendro P, a.Pure g → b.Pure g → ¬ (Dendro.node a b).Pure g → dist < Dendro.gap x a b) →
      ∀ p q, labels p = labels q → g p = g q) := by
  obtain ⟨t, hl, ht⟩ := h
  obtain ⟨hu, hs⟩ := Dendro.linkage_stage g x hrd hin hout hl Dendro.start_sum (.inl (by
    intro t ht
    obtain ⟨p, -, rfl⟩ := Multiset.mem_map.mp ht
    refine ⟨fun u hu v hv => ?_, hr⟩
    simp only [Dendro.leaves, Multiset.mem_singleton] at hu hv
    rw [hu, hv]))
  have hm : ∀ p, p ∈ t.leaves := fun p => by
    rw [hu]
    exact Finset.mem_univ p
  rcases hs with hs | hs
  · obtain ⟨h1, h2⟩ := hs t (by simp)
    exact ⟨fun p q _ => (ht p q).mpr (Dendro.together_of_top (h2.trans hrd) (hm p) (hm q)),
      fun _ p q _ => h1 p (hm p) q (hm q)⟩
  · obtain ⟨-, h2, h3, -⟩ := hs t (by simp)
    exact ⟨fun p q e => (ht p q).mpr (h2 p (hm p) q (hm q) e), fun h0 p q e => h3 h0 p q ((ht p q).mp e)⟩

/-! ## The clustering exists -/

namespace Dendro

theorem linkage_exists (x : Fin P → Vec C ℝ) : ∀ (n : ℕ) (F : Multiset (Dendro P)), F.card = n + 1 →
    ∃ t, Linkage x F t
  | 0, F, h => by
    obtain ⟨t, rfl⟩ := Multiset.card_eq_one.mp h
    exact ⟨t, .done t⟩
  | n + 1, F, h => by
    set X : Set (Dendro P × Dendro P) := {c | ∃ G, F = c.1 ::ₘ c.2 ::ₘ G} with hX
    have hfin : X.Finite := by
      refine Set.Finite.subset (F.finite_toSet.prod F.finite_toSet) ?_
      rintro ⟨c, d⟩ ⟨G, hG⟩
      have hc : c ∈ F := by rw [hG]; simp
      have hd : d ∈ F := by rw [hG]; simp
      exact ⟨hc, hd⟩
    have hne : X.Nonempty := by
      obtain ⟨a, ha⟩ := Multiset.card_pos_iff_exists_mem.mp (by omega : 0 < F.card)
      obtain ⟨F', rfl⟩ := Multiset.exists_cons_of_mem ha
      rw [Multiset.card_cons] at h
      obtain ⟨b, hb⟩ := Multiset.card_pos_iff_exists_mem.mp (by omega : 0 < F'.card)
      obtain ⟨F'', rfl⟩ := Multiset.exists_cons_of_mem hb
      exact ⟨(a, b), F'', rfl⟩
    obtain ⟨⟨a, b⟩, ⟨G, hG⟩, hmin⟩ := Set.exists_min_image X (fun c => gap x c.1 c.2) hfin hne
    dsimp only at hG hmin
    subst hG
    obtain ⟨t, ht⟩ := linkage_exists x n (node a b ::ₘ G) (by simp at h ⊢; omega)
    exact ⟨t, .merge (fun c d G' e => hmin (c, d) ⟨G', e⟩) ht⟩

theorem linkage_leaves {x : Fin P → Vec C ℝ} {F : Multiset (Dendro P)} {t : Dendro P}
    (h : Linkage x F t) : t.leaves = (F.map leaves).sum := by
  induction h with
  | done t => simp
  | merge _ _ ih =>
    rw [ih]
    simp [leaves, add_assoc]

theorem together_refl {x : Fin P → Vec C ℝ} {dist : ℝ} {t : Dendro P} {p : Fin P} (h : p ∈ t.leaves) :
    t.Together x dist p p := by
  induction t with
  | leaf r =>
    have : p = r := by simpa [leaves] using h
    exact ⟨this, this⟩
  | node a b iha ihb =>
    rcases mem_node.mp h with h | h
    · exact .inr (.inl (iha h))
    · exact .inr (.inr (ihb h))

theorem together_symm {x : Fin P → Vec C ℝ} {dist : ℝ} {t : Dendro P} {p q : Fin P}
    (h : t.Together x dist p q) : t.Together x dist q p := by
  induction t with
  | leaf r => exact ⟨h.2, h.1⟩
  | node a b iha ihb =>
    rcases h with h | h | h
    · exact .inl ⟨h.1, h.2.2, h.2.1⟩
    · exact .inr (.inl (iha h))
    · exact .inr (.inr (ihb h))

theorem together_trans {x : Fin P → Vec C ℝ} {dist : ℝ} {t : Dendro P} (hn : t.leaves.Nodup)
    {p q r : Fin P} (h : t.Together x dist p q) (h' : t.Together x dist q r) :
    t.Together x dist p r := by
  induction t with
  | leaf s => exact ⟨h.1, h'.2⟩
  | node a b iha ihb =>
    obtain ⟨ha, hb, hd⟩ := Multiset.nodup_add.mp (show (a.leaves + b.leaves).Nodup from hn)
    by_cases ht : top x (node a b) ≤ dist
    · exact .inl ⟨ht, (together_mem h).1, (together_mem h').2⟩
    rcases h with h | h | h
    · exact absurd h.1 ht
    · rcases h' with h' | h' | h'
      · exact absurd h'.1 ht
      · exact .inr (.inl (iha ha h h'))
      · exact absurd (together_mem h').1 (Multiset.disjoint_left.mp hd (together_mem h).2)
    · rcases h' with h' | h' | h'
      · exact absurd h'.1 ht
      · exact absurd (together_mem h).2 (Multiset.disjoint_left.mp hd (together_mem h').1)
      · exact .inr (.inr (ihb hb h h'))

end Dendro

/-- For any compositions and cut-off there are labels as `fcluster` returns them. -/
theorem fcluster_exists (hP : 1 ≤ P) (dist : ℝ) (x : Fin P → Vec C ℝ) :
    ∃ labels, FCluster dist x labels := by
  obtain ⟨t, ht⟩ := Dendro.linkage_exists x (P - 1) (Finset.univ.val.map Dendro.leaf) (by
    rw [Multiset.card_map]
    simp only [Finset.card_val, Finset.card_univ, Fintype.card_fin]
    omega)
  have hl : t.leaves = Finset.univ.val := (Dendro.linkage_leaves ht).trans Dendro.start_sum
  have hm : ∀ p, p ∈ t.leaves := fun p => by
    rw [hl]
    exact Finset.mem_univ p
  let s : Setoid (Fin P) := ⟨t.Together x dist, fun p => Dendro.together_refl (hm p),
    Dendro.together_symm, Dendro.together_trans (hl ▸ Finset.univ.nodup)⟩
  refine ⟨fun p => ((Finite.equivFin (Quotient s) (Quotient.mk s p)).1 : ℤ), t, ht, fun p q => ?_⟩
  rw [Nat.cast_inj, Fin.val_inj, EmbeddingLike.apply_eq_iff_eq]
  exact Quotient.eq

end Flory
