import Mathlib.Analysis.Real.Sqrt
import Mathlib.Data.Multiset.Basic
import Verif.Model.Phases

/-! # Model of the clustering that `get_clusters` takes from scipy

`flory/common/phases.py:125-130`: `pdist`, `linkage(…, method="centroid")` and
`fcluster(…, criterion="distance")`.  They are external; the model follows their documentation in exact
arithmetic.  Which of several closest pairs is merged first and how the clusters are numbered is left
open. -/

namespace Flory

/-- Euclidean distance of two compositions: an entry of `pdist(self.fractions)`
(`flory/common/phases.py:126`). -/
noncomputable def eucl {C : ℕ} (u v : Vec C ℝ) : ℝ := Real.sqrt (∑ i, (u i - v i) ^ 2)

/-- The tree of merges that `linkage` returns (`flory/common/phases.py:128`).  Simplified: the tree
instead of the table that encodes it; heights are computed by `Dendro.top`. -/
inductive Dendro (P : ℕ) where
  | leaf (p : Fin P)
  | node (a b : Dendro P)

namespace Dendro

variable {P C : ℕ}

/-- The compartments below a node (`flory/common/phases.py:128`). -/
def leaves : Dendro P → Multiset (Fin P)
  | leaf p => {p}
  | node a b => a.leaves + b.leaves

/-- Number of compartments below a node, the last column of the table of `linkage`
(`flory/common/phases.py:128`). -/
def size : Dendro P → ℕ
  | leaf _ => 1
  | node a b => a.size + b.size

/-- Sum of the compositions below a node (`flory/common/phases.py:128`). -/
def total (x : Fin P → Vec C ℝ) : Dendro P → Vec C ℝ
  | leaf p => x p
  | node a b => fun i => a.total x i + b.total x i

/-- The centroid: the mean of the compositions below a node, which `method="centroid"` uses
(`flory/common/phases.py:128`). -/
noncomputable def centroid (x : Fin P → Vec C ℝ) (t : Dendro P) : Vec C ℝ :=
  fun i => t.total x i / t.size

/-- The distance of two clusters for `method="centroid"`: that of their centroids
(`flory/common/phases.py:128`). -/
noncomputable def gap (x : Fin P → Vec C ℝ) (a b : Dendro P) : ℝ := eucl (a.centroid x) (b.centroid x)

/-- The largest distance at which clusters at or below a node were merged, the quantity that
`criterion="distance"` compares with the cut-off (`flory/common/phases.py:130`). -/
noncomputable def top (x : Fin P → Vec C ℝ) : Dendro P → ℝ
  | leaf _ => 0
  | node a b => max (gap x a b) (max (a.top x) (b.top x))

/-- `fcluster` puts two compartments into the same cluster if they are below a node whose merges were
all at most at the cut-off; single compartments are clusters of their own
(`flory/common/phases.py:130`). -/
def Together (x : Fin P → Vec C ℝ) (dist : ℝ) : Dendro P → Fin P → Fin P → Prop
  | leaf r, p, q => p = r ∧ q = r
  | node a b, p, q =>
    (top x (node a b) ≤ dist ∧ p ∈ (node a b).leaves ∧ q ∈ (node a b).leaves) ∨
      a.Together x dist p q ∨ b.Together x dist p q

/-- The merging of `linkage` with `method="centroid"` (`flory/common/phases.py:128`): a closest pair of
clusters is merged until one is left. -/
inductive Linkage (x : Fin P → Vec C ℝ) : Multiset (Dendro P) → Dendro P → Prop
  | done (t : Dendro P) : Linkage x {t} t
  | merge {a b t : Dendro P} {F : Multiset (Dendro P)}
      (closest : ∀ c d G, a ::ₘ b ::ₘ F = c ::ₘ d ::ₘ G → gap x a b ≤ gap x c d)
      (rest : Linkage x (node a b ::ₘ F) t) : Linkage x (a ::ₘ b ::ₘ F) t

end Dendro

/-- What the labels returned by `fcluster(linkage(pdist(fractions), "centroid"), dist, "distance")`
may be (`flory/common/phases.py:126-130`): equal exactly for the compartments that are put together in
the tree.  The numbers themselves are left open. -/
def FCluster {P C : ℕ} (dist : ℝ) (x : Fin P → Vec C ℝ) (labels : Vec P ℤ) : Prop :=
  ∃ t, Dendro.Linkage x (Finset.univ.val.map Dendro.leaf) t ∧
    ∀ p q, labels p = labels q ↔ t.Together x dist p q

end Flory
