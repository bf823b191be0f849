import Verif.Lemmas.TranscriptPhases
import Verif.Props.Phases

/-!
# C106: the transcription of `flory/common/phases.py` agrees with the model
-/

set_option linter.unusedSectionVars false

namespace Flory

open Spec

variable {P C : ℕ}

/-- The properties and `normalize`.  The divisions are by the total volume, which must not be zero. -/
theorem C106_phases {a : Gen.PhasesAttrs} {x : Phases P C ℝ} (h : SamePhases a ⟨P, C, x⟩) :
    Gen.Phases.num_phases a = .ok P ∧ Gen.Phases.num_components a = .ok C ∧
    Gen.Phases.total_volume a = .ok x.totalVolume ∧
    (x.totalVolume ≠ 0 →
      (∃ m, Gen.Phases.mean_fractions a = .ok m ∧ SameVec m x.meanFractions) ∧
      ∃ b, Gen.Phases.normalize a = .ok b ∧ SamePhases b ⟨P, C, x.normalize⟩) :=
  ⟨num_phases_eq h, num_components_eq h, total_volume_eq h, fun _ => ⟨mean_fractions_rel h, normalize_rel h⟩⟩

/-- `sort`, for any result of `np.argsort`. -/
theorem C106_sort (sort : ArgSort ℝ) {a : Gen.PhasesAttrs} {x : Phases P C ℝ} (h : SamePhases a ⟨P, C, x⟩) :
    Agrees (fun b r => SamePhases b ⟨r.1, C, r.2⟩) (Gen.Phases.sort sort a) (x.sort sort) :=
  sort_rel sort h

/-- `get_clusters`, for any functions of scipy that give one label for every phase when called with the pairwise
distances of the fractions, the method `centroid`, the distance and the criterion `distance`. -/
theorem C106_get_clusters {a : Gen.PhasesAttrs} {x : Phases P C ℝ} (h : SamePhases a ⟨P, C, x⟩)
    (scipy : Scipy) (dist : ℝ) {links : NDArr ℝ} {l : List ℤ}
    (h1 : scipy.linkage (scipy.pdist a.fractions) "centroid" = .ok links)
    (h2 : scipy.fcluster links dist "distance" = .ok l) (hl : l.length = P) :
    Agrees (fun b r => SamePhases b ⟨r.1, C, r.2⟩) (Gen.Phases.get_clusters scipy a dist)
      (x.getClusters fun p => l.getD p.1 0) :=
  get_clusters_rel h scipy dist h1 h2 hl

/-- For fewer than two phases scipy is not called at all. -/
theorem C106_get_clusters_few {a : Gen.PhasesAttrs} {x : Phases P C ℝ} (h : SamePhases a ⟨P, C, x⟩)
    (hP : P < 2) (scipy : Scipy) (dist : ℝ) : Gen.Phases.get_clusters scipy a dist = .ok a := by
  unfold Gen.Phases.get_clusters
  rw [num_phases_eq h]
  simp only [bind, Except.bind]
  rw [if_pos hP]
  rfl

/-- What the transcribed `get_clusters` returns holds the same volume and the same amount of every component. -/
theorem C106_conserves {a b : Gen.PhasesAttrs} {x : Phases P C ℝ} (h : SamePhases a ⟨P, C, x⟩)
    (scipy : Scipy) (dist : ℝ) {links : NDArr ℝ} {l : List ℤ}
    (h1 : scipy.linkage (scipy.pdist a.fractions) "centroid" = .ok links)
    (h2 : scipy.fcluster links dist "distance" = .ok l) (hl : l.length = P)
    (hb : Gen.Phases.get_clusters scipy a dist = .ok b) :
    ∃ P' : ℕ, b.volumes.shape = [P'] ∧ b.fractions.shape = [P', C] ∧
      ∑ p : Fin P', b.volumes.get [p.1] = ∑ p : Fin P, a.volumes.get [p.1] ∧
      ∀ i : Fin C, ∑ p : Fin P', b.volumes.get [p.1] * b.fractions.get [p.1, i.1] =
        ∑ p : Fin P, a.volumes.get [p.1] * a.fractions.get [p.1, i.1] := by
  have ha := C106_get_clusters h scipy dist h1 h2 hl
  rw [hb] at ha
  cases hm : x.getClusters fun p => l.getD p.1 0 with
  | error e => rw [hm] at ha; exact ha.elim
  | ok r =>
    rw [hm] at ha
    obtain ⟨-, hv, hf, -⟩ := (C04_clusters_conserve x fun p => l.getD p.1 0).1 r hm
    refine ⟨r.1, ha.volumes.shape, ha.fractions.shape, ?_, fun i => ?_⟩
    · simp only [ha.volumes.get, h.volumes.get]
      exact hv
    · simp only [ha.volumes.get, h.volumes.get, ha.fractions.get, h.fractions.get]
      exact hf i

/-- `get_uniform_random_composition`, for any content of `np.empty` and any generator. -/
theorem C106_random_composition {G : Type} (beta : Beta G ℝ) (n : ℕ) (junk : List ℕ → ℝ) (g : G) :
    Agrees (fun a r => SameVec a.1 r.1 ∧ a.2 = r.2)
      (Gen.get_uniform_random_composition beta n junk g)
      (uniformRandomComposition beta g n fun i => junk [i.1]) :=
  uniformRandomComposition_rel beta n junk g

/-- The constructors of `PhasesResult` from arrays and from phases. -/
theorem C106_result_new {V : Type} (h : InfoHeap V) {a : Gen.PhasesAttrs} {x : Phases P C ℝ}
    (ha : SamePhases a ⟨P, C, x⟩) :
    (∃ b, Gen.PhasesResult.init a.volumes a.fractions (none : Option (Dict V)) = .ok b ∧
      SamePhasesResult b (PhasesObj.new h x none)) ∧
    (∃ b, Gen.PhasesResult.from_phases a (none : Option (Dict V)) = .ok b ∧
      SamePhasesResult b (PhasesObj.new h x none)) ∧
    ∀ addr, (∃ b, Gen.PhasesResult.init a.volumes a.fractions (some (h.cell addr)) = .ok b ∧
        SamePhasesResult b (PhasesObj.new h x (some addr))) ∧
      ∃ b, Gen.PhasesResult.from_phases a (some (h.cell addr)) = .ok b ∧
        SamePhasesResult b (PhasesObj.new h x (some addr)) := by
  have hi : ∀ info : Option (Dict V), Gen.PhasesResult.init a.volumes a.fractions info =
      .ok ⟨a.volumes, a.fractions, info.getD []⟩ := by
    intro info
    rw [result_init, phases_init_ok ha.volumes.shape ha.fractions.shape]
    rfl
  have hf : ∀ info : Option (Dict V), Gen.PhasesResult.from_phases a info =
      .ok ⟨a.volumes, a.fractions, info.getD []⟩ := by
    intro info
    unfold Gen.PhasesResult.from_phases
    rw [hi]
  have hn : SamePhasesResult (⟨a.volumes, a.fractions, []⟩ : Gen.PhasesResultAttrs V) (PhasesObj.new h x none) :=
    ⟨ha, h.next, rfl, by simp [PhasesObj.new, InfoHeap.alloc]⟩
  have hs : ∀ addr, SamePhasesResult (⟨a.volumes, a.fractions, h.cell addr⟩ : Gen.PhasesResultAttrs V)
      (PhasesObj.new h x (some addr)) := fun addr => ⟨ha, addr, rfl, rfl⟩
  exact ⟨⟨_, hi none, hn⟩, ⟨_, hf none, hn⟩, fun addr => ⟨⟨_, hi _, hs addr⟩, _, hf _, hs addr⟩⟩

/-- The methods of a `PhasesResult`: the same phases as for `Phases`, and the content of the dictionary. -/
theorem C106_result {V : Type} {h : InfoHeap V} {o : PhasesObj C ℝ} {a : Gen.PhasesResultAttrs V}
    (ho : SamePhasesResult a (h, o)) (sort : ArgSort ℝ) :
    (o.phases.totalVolume ≠ 0 →
      Agrees SamePhasesResult (Gen.PhasesResult.normalize a) (o.step sort h .normalize)) ∧
    Agrees SamePhasesResult (Gen.PhasesResult.sort sort a) (o.step sort h .sort) ∧
    ∀ (scipy : Scipy) (dist : ℝ) (links : NDArr ℝ) (l : List ℤ) (labels : (P : ℕ) → Vec P ℤ),
      scipy.linkage (scipy.pdist a.fractions) "centroid" = .ok links →
      scipy.fcluster links dist "distance" = .ok l → l.length = o.P → (∀ p, labels o.P p = l.getD p.1 0) →
      Agrees SamePhasesResult (Gen.PhasesResult.get_clusters scipy a dist) (o.step sort h (.getClusters labels)) := by
  refine ⟨fun _ => ?_, ?_, ?_⟩
  · obtain ⟨b, hb, hs⟩ := normalize_rel ho.phases
    rw [result_normalize, hb]
    exact copy_same ho hs
  · rw [result_sort]
    exact agrees_result ho (sort_rel sort ho.phases)
  · intro scipy dist links l labels h1 h2 h3 h4
    rw [result_get_clusters]
    have hl : labels o.P = fun p => l.getD p.1 0 := funext h4
    unfold PhasesObj.step
    dsimp only
    rw [hl]
    by_cases hP : o.P < 2
    · rw [if_pos hP, C106_get_clusters_few ho.phases hP]
      exact ho
    · rw [if_neg hP]
      exact agrees_result ho (get_clusters_rel ho.phases scipy dist h1 h2 h3)

/-! ### Cases -/

/-- Two phases with two components as arrays. -/
noncomputable def twoPhases : Gen.PhasesAttrs :=
  ⟨⟨[2], fun idx => if idx = [0] then 1 else 3⟩, ⟨[2, 2], fun idx => if idx = [0, 0] ∨ idx = [1, 1] then 1 / 4 else 3 / 4⟩⟩

theorem twoPhases_same : SamePhases twoPhases ⟨2, 2, ![1, 3], ![![1 / 4, 3 / 4], ![3 / 4, 1 / 4]]⟩ := by
  refine ⟨⟨rfl, fun p => ?_⟩, rfl, fun p i => ?_⟩
  · fin_cases p <;> simp [twoPhases]
  · fin_cases p <;> fin_cases i <;> simp [twoPhases]

/-- The hypotheses hold, and the mean composition of the transcribed code is the right one. -/
example : ∃ m, Gen.Phases.mean_fractions twoPhases = .ok m ∧ m.shape = [2] ∧ m.get [0] = 5 / 8 := by
  obtain ⟨-, -, -, h⟩ := C106_phases twoPhases_same
  obtain ⟨⟨m, h1, h2⟩, -⟩ := h (by simp [Phases.totalVolume, Fin.sum_univ_two]; norm_num)
  refine ⟨m, h1, h2.shape, (h2.get 0).trans ?_⟩
  simp [Phases.meanFractions, Phases.totalVolume, Fin.sum_univ_two]
  norm_num

/-- One cluster of two phases: the fractions are the average weighted with the volumes. -/
example : ∃ b, Gen.Phases.get_clusters ⟨id, fun a _ => .ok a, fun _ _ _ => .ok [1, 1]⟩ twoPhases (1 / 100) = .ok b ∧
    b.volumes.shape = [1] ∧ b.volumes.get [0] = 4 ∧ b.fractions.get [0, 0] = 5 / 8 := by
  have h := C106_get_clusters twoPhases_same ⟨id, fun a _ => .ok a, fun _ _ _ => .ok [1, 1]⟩ (1 / 100)
    (l := [1, 1]) rfl rfl rfl
  have hu : (Finset.univ.image fun p : Fin 2 => ([1, 1] : List ℤ).getD p.1 0).sort (· ≤ ·) = [1] := by
    have : (Finset.univ.image fun p : Fin 2 => ([1, 1] : List ℤ).getD p.1 0) = {1} := by decide
    rw [this, Finset.sort_singleton]
  have hm : Phases.getClusters (⟨![1, 3], ![![1 / 4, 3 / 4], ![3 / 4, 1 / 4]]⟩ : Phases 2 2 ℝ)
      (fun p => ([1, 1] : List ℤ).getD p.1 0) =
      .ok ⟨1, fun _ => 4, fun _ => ![5 / 8, 3 / 8]⟩ := by
    unfold Phases.getClusters
    rw [if_neg (by norm_num), hu]
    unfold Phases.collect Phases.collect Phases.average
    have hz : (∑ p : Fin 2, if ([1, 1] : List ℤ).getD p.1 0 = 1 then (![1, 3] : Vec 2 ℝ) p else 0) = 4 := by
      simp [Fin.sum_univ_two]
      norm_num
    dsimp only
    rw [hz, if_neg (by norm_num)]
    simp only [bind, Except.bind, pure, Except.pure]
    congr 3
    · funext k
      fin_cases k
      rfl
    · funext k i
      fin_cases k
      fin_cases i <;> simp [Fin.sum_univ_two] <;> norm_num
  rw [hm] at h
  revert h
  cases Gen.Phases.get_clusters ⟨id, fun a _ => .ok a, fun _ _ _ => .ok [1, 1]⟩ twoPhases (1 / 100) with
  | error e => exact fun h => h.elim
  | ok b => exact fun h => ⟨b, rfl, h.volumes.shape, h.volumes.get 0, h.fractions.get 0 0⟩

/-- A random composition of three components is a result of the transcribed code. -/
example : ∃ a g, Gen.get_uniform_random_composition (fun (g : ℕ) _ _ => (1 / 2, g + 1)) 3 (fun _ => 7) 0 = .ok (a, g) ∧
    a.shape = [3] ∧ g = 2 := by
  have h := C106_random_composition (fun (g : ℕ) _ _ => ((1 / 2 : ℝ), g + 1)) 3 (fun _ => 7) 0
  revert h
  cases Gen.get_uniform_random_composition (fun (g : ℕ) _ _ => ((1 / 2 : ℝ), g + 1)) 3 (fun _ => 7) 0 with
  | error e => exact fun h => h.elim
  | ok b => exact fun h => ⟨b.1, b.2, rfl, h.1.shape, h.2⟩

end Flory
