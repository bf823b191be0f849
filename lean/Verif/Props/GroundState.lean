import Verif.Lemmas.GroundState
import Verif.Props.Critical

/-! # The state of least free energy

C77: the best way to divide a mixture of any number of components into phases is an equilibrium with at
most as many phases as components; when an equilibrium is the best. -/

set_option linter.unusedSectionVars false

namespace Flory

open Spec

section

variable {C : ℕ} {chis : Mat C C ℝ} {l : Vec C ℝ} {phiMeans : Vec C ℝ}

theorem Below.lowerBound {mu : Vec C ℝ} (h : Below chis l mu) :
    LowerBound chis l phiMeans (∑ i, mu i * phiMeans i) := by
  intro N J psi hp
  have hN : (0 : ℝ) < N := by exact_mod_cast hp.count
  unfold meanEnergy
  rw [le_div_iff₀ hN]
  have e : (∑ i, mu i * phiMeans i) * N = ∑ m, J m * ∑ i, mu i * psi m i := by
    have e1 : ∀ m, J m * ∑ i, mu i * psi m i = ∑ i, mu i * (J m * psi m i) := fun m => by
      rw [Finset.mul_sum]
      exact Finset.sum_congr rfl fun i _ => by ring
    rw [Finset.sum_congr rfl fun m _ => e1 m, Finset.sum_comm, Finset.sum_mul]
    refine Finset.sum_congr rfl fun i _ => ?_
    rw [← Finset.mul_sum, hp.mean]
    ring
  rw [e]
  exact Finset.sum_le_sum fun m _ => mul_le_mul_of_nonneg_left (h _ (hp.frac m) (hp.fill m)) (hp.nonneg m)

theorem Spec.Partition.mem_hull {N : ℕ} {J : Vec N ℝ} {psi : Fin N → Vec C ℝ}
    (hp : Partition phiMeans J psi) :
    (phiMeans, meanEnergy chis l J psi) ∈ convexHull ℝ (graph chis l) := by
  have hN : (N : ℝ) ≠ 0 := by exact_mod_cast hp.count.ne'
  refine mem_convexHull_of_exists_fintype (fun m => J m / N)
    (fun m => (psi m, freeEnergy chis l (psi m)))
    (fun m => div_nonneg (hp.nonneg m) (Nat.cast_nonneg N)) ?_
    (fun m => ⟨psi m, ⟨hp.frac m, hp.fill m⟩, rfl⟩) ?_
  · rw [← Finset.sum_div, hp.volumes, div_self hN]
  · refine Prod.ext ?_ ?_
    · rw [Prod.fst_sum]
      funext i
      simp only [Prod.smul_fst, Finset.sum_apply, Pi.smul_apply, smul_eq_mul]
      have : ∀ m, J m / N * psi m i = J m * psi m i / N := fun m => by ring
      rw [Finset.sum_congr rfl fun m _ => this m, ← Finset.sum_div, hp.mean, mul_div_cancel_left₀ _ hN]
    · rw [Prod.snd_sum]
      simp only [Prod.smul_snd, smul_eq_mul]
      unfold meanEnergy
      rw [Finset.sum_div]
      exact Finset.sum_congr rfl fun m _ => by ring

/-- The supporting plane touches at phases of which the mixture consists. -/
theorem exists_support (h0 : ∀ i, 0 < phiMeans i) (h1 : ∑ i, phiMeans i = 1) :
    ∃ mu : Vec C ℝ, Below chis l mu ∧ phiMeans ∈ convexHull ℝ
      {y | (∀ i, 0 ≤ y i) ∧ ∑ i, y i = 1 ∧ freeEnergy chis l y = ∑ i, mu i * y i} := by
  obtain ⟨E, hE, hmin⟩ := exists_least (chis := chis) (l := l) (fun i => (h0 i).le) h1
  obtain ⟨mu, hb, hv⟩ := exists_plane hE hmin h0 h1
  refine ⟨mu, hb, ?_⟩
  obtain ⟨ι, _, w, z, hw0, hw1, hz, hsum⟩ := mem_convexHull_iff_exists_fintype.mp hE
  have hz' : ∀ i, (∀ j, 0 ≤ (z i).1 j) ∧ ∑ j, (z i).1 j = 1 ∧ (z i).2 = freeEnergy chis l (z i).1 := by
    intro i
    obtain ⟨y, ⟨y0, y1⟩, hy⟩ := hz i
    rw [← hy]
    exact ⟨y0, y1, rfl⟩
  have hs1 : ∑ i, w i • (z i).1 = phiMeans := by
    have := congrArg Prod.fst hsum
    rwa [Prod.fst_sum] at this
  have hs2 : ∑ i, w i * (z i).2 = E := by
    have := congrArg Prod.snd hsum
    rwa [Prod.snd_sum] at this
  -- the energies of the phases lie on the plane
  have hgap : ∑ i, w i * ((z i).2 - ∑ j, mu j * (z i).1 j) = 0 := by
    simp only [mul_sub, Finset.sum_sub_distrib]
    rw [hs2, ← hv, ← hs1]
    simp only [Finset.sum_apply, Pi.smul_apply, smul_eq_mul, Finset.mul_sum]
    rw [Finset.sum_comm, sub_eq_zero]
    exact Finset.sum_congr rfl fun i _ => Finset.sum_congr rfl fun j _ => by ring
  have hnn : ∀ i ∈ Finset.univ, 0 ≤ w i * ((z i).2 - ∑ j, mu j * (z i).1 j) := by
    intro i _
    refine mul_nonneg (hw0 i) ?_
    rw [(hz' i).2.2]
    have := hb _ (hz' i).1 (hz' i).2.1
    linarith
  have heq := (Finset.sum_eq_zero_iff_of_nonneg hnn).mp hgap
  -- leave out phases of weight zero
  have hw1' : ∑ i : {i // w i ≠ 0}, w i = 1 := by
    rw [← hw1]
    refine Fintype.sum_of_injective (fun i : {i // w i ≠ 0} => (i : ι)) Subtype.val_injective _ _
      (fun i hi => ?_) fun i => rfl
    by_contra hn
    exact hi ⟨⟨i, hn⟩, rfl⟩
  refine mem_convexHull_of_exists_fintype (fun i : {i // w i ≠ 0} => w i) (fun i => (z i).1)
    (fun i => hw0 i) hw1' (fun i => ⟨(hz' i).1, (hz' i).2.1, ?_⟩) ?_
  · have := (mul_eq_zero.mp (heq i (Finset.mem_univ _))).resolve_left i.2
    rw [← (hz' i).2.2]
    linarith
  · rw [← hs1]
    refine Fintype.sum_of_injective (fun i : {i // w i ≠ 0} => (i : ι)) Subtype.val_injective _ _
      (fun i hi => ?_) fun i => rfl
    have : w i = 0 := by
      by_contra hn
      exact hi ⟨⟨i, hn⟩, rfl⟩
    rw [this, zero_smul]

/-- Phases of a best partition lie on every supporting plane of the mixture. -/
theorem touch_of_optimal {N : ℕ} {J : Vec N ℝ} {psi : Fin N → Vec C ℝ} (hp : Partition phiMeans J psi)
    (hopt : LowerBound chis l phiMeans (meanEnergy chis l J psi)) {mu : Vec C ℝ} (hb : Below chis l mu)
    (hmem : phiMeans ∈ convexHull ℝ
      {y | (∀ i, 0 ≤ y i) ∧ ∑ i, y i = 1 ∧ freeEnergy chis l y = ∑ i, mu i * y i})
    {m : Fin N} (hm : 0 < J m) : freeEnergy chis l (psi m) = ∑ i, mu i * psi m i := by
  have hN : (0 : ℝ) < N := by exact_mod_cast hp.count
  -- the mixture of touching phases is a partition
  obtain ⟨ι, _, w, z, hw0, hw1, hz, hsum⟩ := mem_convexHull_iff_exists_fintype.mp hmem
  have hn : 0 < Fintype.card ι := by
    rw [Fintype.card_pos_iff]
    by_contra hn
    rw [not_nonempty_iff] at hn
    simp at hw1
  have hnR : (Fintype.card ι : ℝ) ≠ 0 := by exact_mod_cast hn.ne'
  set e := (Fintype.equivFin ι).symm with he
  have hpart : Partition phiMeans (fun k : Fin (Fintype.card ι) => Fintype.card ι * w (e k))
      (fun k => z (e k)) := by
    refine ⟨hn, fun k => mul_nonneg (Nat.cast_nonneg _) (hw0 _), ?_, fun k i => (hz _).1 i,
      fun k => (hz _).2.1, fun i => ?_⟩
    · rw [← Finset.mul_sum, Equiv.sum_comp e w, hw1, mul_one]
    · rw [← hsum]
      simp only [Finset.sum_apply, Pi.smul_apply, smul_eq_mul]
      rw [← Equiv.sum_comp e, Finset.mul_sum]
      exact Finset.sum_congr rfl fun k _ => by ring
  have hE := hopt _ _ _ hpart
  have hEv : meanEnergy chis l (fun k : Fin (Fintype.card ι) => Fintype.card ι * w (e k))
      (fun k => z (e k)) = ∑ i, mu i * phiMeans i := by
    unfold meanEnergy
    rw [div_eq_iff hnR]
    have e1 : ∀ k, Fintype.card ι * w (e k) * freeEnergy chis l (z (e k)) =
        (fun j => Fintype.card ι * w j * ∑ i, mu i * z j i) (e k) := fun k => by
      simp only
      rw [(hz (e k)).2.2]
    rw [Finset.sum_congr rfl fun k _ => e1 k,
      Equiv.sum_comp e (fun j => Fintype.card ι * w j * ∑ i, mu i * z j i), ← hsum]
    simp only [Finset.sum_apply, Pi.smul_apply, smul_eq_mul, Finset.mul_sum]
    rw [Finset.sum_comm, Finset.sum_mul]
    refine Finset.sum_congr rfl fun i _ => ?_
    rw [Finset.sum_mul]
    exact Finset.sum_congr rfl fun j _ => by ring
  rw [hEv] at hE
  have hgap : ∑ k, J k * (freeEnergy chis l (psi k) - ∑ i, mu i * psi k i) ≤ 0 := by
    simp only [mul_sub, Finset.sum_sub_distrib]
    have h1 : ∑ k, J k * freeEnergy chis l (psi k) ≤ (∑ i, mu i * phiMeans i) * N := by
      have := hE
      unfold meanEnergy at this
      rwa [div_le_iff₀ hN] at this
    have h2 : ∑ k, J k * ∑ i, mu i * psi k i = (∑ i, mu i * phiMeans i) * N := by
      have e1 : ∀ m, J m * ∑ i, mu i * psi m i = ∑ i, mu i * (J m * psi m i) := fun m => by
        rw [Finset.mul_sum]
        exact Finset.sum_congr rfl fun i _ => by ring
      rw [Finset.sum_congr rfl fun m _ => e1 m, Finset.sum_comm, Finset.sum_mul]
      refine Finset.sum_congr rfl fun i _ => ?_
      rw [← Finset.mul_sum, hp.mean]
      ring
    rw [h2]
    linarith
  have hnn : ∀ k ∈ Finset.univ, 0 ≤ J k * (freeEnergy chis l (psi k) - ∑ i, mu i * psi k i) :=
    fun k _ => mul_nonneg (hp.nonneg k) (by
      have := hb _ (hp.frac k) (hp.fill k)
      linarith)
  have hz := (Finset.sum_eq_zero_iff_of_nonneg hnn).mp (le_antisymm hgap (Finset.sum_nonneg hnn)) m
    (Finset.mem_univ m)
  have := (mul_eq_zero.mp hz).resolve_left hm.ne'
  linarith

end

section

variable {C S : ℕ} {X : Mat S S ℝ} {feat : Fin C → Fin S} {l phiMeans : Vec C ℝ}

/-- **C77**, existence: for every mean composition with all components present, in every number `M ≥ C`
of compartments (the default is `8 C`) there is an equilibrium with positive volumes and at most `C`
different phases such that no way to divide the mixture into any number of phases has a lower mean free
energy. -/
theorem C77_ground_state (hs : ∀ r q, X r q = X q r) (hl : ∀ i, 0 < l i) (h0 : ∀ i, 0 < phiMeans i)
    (h1 : ∑ i, phiMeans i = 1) {M : ℕ} (hM : C ≤ M) :
    ∃ (J : Vec M ℝ) (phi : Mat C M ℝ), Coexistence X feat l phiMeans J phi ∧ (∀ m, 0 < J m) ∧
      (Set.range fun m i => phi i m).ncard ≤ C ∧
      LowerBound (liftChis X feat) l phiMeans (meanEnergy (liftChis X feat) l J fun m i => phi i m) := by
  obtain ⟨mu, hb, hmem⟩ := exists_support (chis := liftChis X feat) (l := l) h0 h1
  obtain ⟨ι, _, z, w, hz, hai, hw, hw1, hsum⟩ := eq_pos_convex_span_of_mem_convexHull hmem
  have hz : ∀ i, (∀ j, 0 ≤ z i j) ∧ ∑ j, z i j = 1 ∧
      freeEnergy (liftChis X feat) l (z i) = ∑ j, mu j * z i j := fun i => hz ⟨i, rfl⟩
  -- compositions are linearly independent
  have hli : LinearIndependent ℝ z := by
    rw [Fintype.linearIndependent_iff]
    intro c hc i
    refine affineIndependent_iff.mp hai Finset.univ c ?_ hc i (Finset.mem_univ i)
    have h2 : ∑ j, (∑ i, c i • z i) j = 0 := by rw [hc]; simp
    simp only [Finset.sum_apply, Pi.smul_apply, smul_eq_mul] at h2
    rw [Finset.sum_comm] at h2
    rw [← h2]
    refine Finset.sum_congr rfl fun i _ => ?_
    rw [← Finset.mul_sum, (hz i).2.1, mul_one]
  have hcard : Fintype.card ι ≤ C := by
    have := hli.fintype_card_le_finrank
    simpa using this
  have hne : Nonempty ι := by
    by_contra hn
    rw [not_nonempty_iff] at hn
    simp at hw1
  have hC : 0 < C := lt_of_lt_of_le (Fintype.card_pos_iff.mpr hne) hcard
  have : NeZero M := ⟨by omega⟩
  have hMR : (M : ℝ) ≠ 0 := by exact_mod_cast NeZero.ne M
  obtain ⟨e⟩ := Function.Embedding.nonempty_of_card_le (α := ι) (β := Fin M)
    (by rw [Fintype.card_fin]; omega)
  set σ : Fin M → ι := Function.invFun e with hσ
  have hσe : ∀ i, σ (e i) = i := Function.leftInverse_invFun e.injective
  classical
  -- compartments of the same phase share its volume
  set n : ι → ℝ := fun i => ((Finset.univ.filter fun m => σ m = i).card : ℝ) with hn
  have hnpos : ∀ i, 0 < n i := by
    intro i
    have : 0 < (Finset.univ.filter fun m => σ m = i).card := Finset.card_pos.mpr ⟨e i, by simp [hσe]⟩
    exact Nat.cast_pos.mpr this
  have hfib : ∀ g : ι → ℝ, ∑ m, M * w (σ m) / n (σ m) * g (σ m) = M * ∑ i, w i * g i := by
    intro g
    rw [← Finset.sum_fiberwise_of_maps_to (g := σ) (t := Finset.univ) fun _ _ => Finset.mem_univ _,
      Finset.mul_sum]
    refine Finset.sum_congr rfl fun i _ => ?_
    rw [Finset.sum_congr rfl (g := fun _ => M * w i / n i * g i) fun m hm => by
      rw [(Finset.mem_filter.mp hm).2], Finset.sum_const, nsmul_eq_mul]
    have : ((Finset.univ.filter fun m => σ m = i).card : ℝ) = n i := rfl
    rw [this]
    have := (hnpos i).ne'
    field_simp
  have hcp : ∀ i j, chemPot (liftChis X feat) l (z i) j = mu j := fun i =>
    touch_chemPot (fun _ _ => hs _ _) hl hb (hz i).1 (hz i).2.1 (hz i).2.2
  refine ⟨fun m => M * w (σ m) / n (σ m), fun i m => z (σ m) i, ⟨?_, fun i m => ?_, fun m => (hz _).2.1,
    fun i => ?_, mu, fun i m => hcp _ i⟩, fun m => ?_, ?_, ?_⟩
  · have := hfib fun _ => 1
    simp only [mul_one] at this
    rw [this, hw1, mul_one]
  · exact touch_pos (fun _ _ => hs _ _) hl hb (hz _).1 (hz _).2.1 (hz _).2.2 i
  · rw [hfib fun j => z j i, ← hsum]
    simp only [Finset.sum_apply, Pi.smul_apply, smul_eq_mul]
  · have := hw (σ m)
    have := hnpos (σ m)
    have : (0 : ℝ) < M := by exact_mod_cast NeZero.pos M
    positivity
  · have hsub : (Set.range fun m i => z (σ m) i) ⊆ Set.range z := by
      rintro _ ⟨m, rfl⟩
      exact ⟨σ m, rfl⟩
    refine (Set.ncard_le_ncard hsub (Set.finite_range z)).trans ?_
    rw [← Set.image_univ]
    refine (Set.ncard_image_le Set.finite_univ).trans ?_
    rw [Set.ncard_univ, Nat.card_eq_fintype_card]
    exact hcard
  · have hE : meanEnergy (liftChis X feat) l (fun m => M * w (σ m) / n (σ m)) (fun m i => z (σ m) i) =
        ∑ i, mu i * phiMeans i := by
      unfold meanEnergy
      rw [div_eq_iff hMR]
      have e1 : ∀ m, M * w (σ m) / n (σ m) * freeEnergy (liftChis X feat) l (fun i => z (σ m) i) =
          M * w (σ m) / n (σ m) * (fun j => ∑ i, mu i * z j i) (σ m) := fun m => by
        rw [show (fun i => z (σ m) i) = z (σ m) from rfl, (hz _).2.2]
      rw [Finset.sum_congr rfl fun m _ => e1 m, hfib (fun j => ∑ i, mu i * z j i), ← hsum]
      simp only [Finset.sum_apply, Pi.smul_apply, smul_eq_mul, Finset.mul_sum, Finset.sum_mul]
      rw [Finset.sum_comm]
      exact Finset.sum_congr rfl fun i _ => Finset.sum_congr rfl fun j _ => by ring
    rw [hE]
    exact hb.lowerBound

/-- **C77**, necessity: phases of positive volumes that divide the mixture in the best way are in
equilibrium; in particular every phase contains all components. -/
theorem C77_optimal_coexists {M : ℕ} (hs : ∀ r q, X r q = X q r) (hl : ∀ i, 0 < l i)
    (h0 : ∀ i, 0 < phiMeans i) (h1 : ∑ i, phiMeans i = 1) {J : Vec M ℝ} {psi : Fin M → Vec C ℝ}
    (hp : Partition phiMeans J psi) (hJ : ∀ m, 0 < J m)
    (hopt : LowerBound (liftChis X feat) l phiMeans (meanEnergy (liftChis X feat) l J psi)) :
    Coexistence X feat l phiMeans J fun i m => psi m i := by
  obtain ⟨mu, hb, hmem⟩ := exists_support (chis := liftChis X feat) (l := l) h0 h1
  have ht : ∀ m, freeEnergy (liftChis X feat) l (psi m) = ∑ i, mu i * psi m i := fun m =>
    touch_of_optimal hp hopt hb hmem (hJ m)
  exact ⟨hp.volumes, fun i m => touch_pos (fun _ _ => hs _ _) hl hb (hp.frac m) (hp.fill m) (ht m) i,
    hp.fill, hp.mean, mu, fun i m =>
    touch_chemPot (fun _ _ => hs _ _) hl hb (hp.frac m) (hp.fill m) (ht m) i⟩

/-- **C77**, the tangent plane criterion: an equilibrium divides the mixture in the best way if and only if
no composition has a free energy below the plane given by the chemical potentials. -/
theorem C77_tangent_plane {M : ℕ} [NeZero M] (hs : ∀ r q, X r q = X q r) (hl : ∀ i, 0 < l i)
    {J : Vec M ℝ} {phi : Mat C M ℝ} (h : Coexistence X feat l phiMeans J phi) (hJ : ∀ m, 0 ≤ J m)
    (m : Fin M) :
    LowerBound (liftChis X feat) l phiMeans (meanEnergy (liftChis X feat) l J fun m i => phi i m) ↔
      ∀ y : Vec C ℝ, (∀ i, 0 ≤ y i) → ∑ i, y i = 1 →
        ∑ i, chemPot (liftChis X feat) l (fun j => phi j m) i * y i ≤ freeEnergy (liftChis X feat) l y := by
  have hM : (M : ℝ) ≠ 0 := by exact_mod_cast NeZero.ne M
  have hMp : (0 : ℝ) < M := by exact_mod_cast NeZero.pos M
  have hp : Partition phiMeans J fun m i => phi i m :=
    ⟨NeZero.pos M, hJ, h.volumes, fun m i => (h.pos i m).le, h.incompressible, h.mean⟩
  have hbal := h.balanced.balance
  obtain ⟨k, hk⟩ : ∃ k, 0 < J k := by
    by_contra hn
    push Not at hn
    have := Finset.sum_nonpos (s := Finset.univ) fun k _ => hn k
    rw [h.volumes] at this
    linarith
  constructor
  · intro hopt
    have h0 : ∀ i, 0 < phiMeans i := by
      intro i
      have hm := h.mean i
      have : 0 < ∑ m, J m * phi i m :=
        Finset.sum_pos' (fun m _ => mul_nonneg (hJ m) (h.pos i m).le)
          ⟨k, Finset.mem_univ _, mul_pos hk (h.pos i k)⟩
      rw [hm] at this
      exact pos_of_mul_pos_right this hMp.le
    have h1 : ∑ i, phiMeans i = 1 := by
      have e : ∑ i, ∑ m, J m * phi i m = M * ∑ i, phiMeans i := by
        rw [Finset.mul_sum]
        exact Finset.sum_congr rfl fun i _ => h.mean i
      rw [Finset.sum_comm] at e
      simp only [← Finset.mul_sum, h.incompressible, mul_one, h.volumes] at e
      exact (mul_left_cancel₀ hM (by rw [← e, mul_one]))
    obtain ⟨mu, hb, hmem⟩ := exists_support (chis := liftChis X feat) (l := l) h0 h1
    have ht := touch_of_optimal hp hopt hb hmem hk
    intro y y0 y1
    have e : ∀ i, chemPot (liftChis X feat) l (fun j => phi j m) i = mu i := fun i =>
      (hbal m k i).trans
        (touch_chemPot (fun _ _ => hs _ _) hl hb (hp.frac k) (hp.fill k) ht i)
    simp only [e]
    exact hb y y0 y1
  · intro hb
    have hE : meanEnergy (liftChis X feat) l J (fun m i => phi i m) =
        ∑ i, chemPot (liftChis X feat) l (fun j => phi j m) i * phiMeans i := by
      unfold meanEnergy
      rw [div_eq_iff hM]
      have e1 : ∀ k, J k * freeEnergy (liftChis X feat) l (fun i => phi i k) =
          ∑ i, chemPot (liftChis X feat) l (fun j => phi j m) i * (J k * phi i k) := fun k => by
        rw [freeEnergy_eq_chemPot (h.incompressible k), Finset.mul_sum]
        exact Finset.sum_congr rfl fun i _ => by rw [hbal k m i]; ring
      rw [Finset.sum_congr rfl fun k _ => e1 k, Finset.sum_comm, Finset.sum_mul]
      refine Finset.sum_congr rfl fun i _ => ?_
      rw [← Finset.mul_sum, h.mean]
      ring
    rw [hE]
    exact Below.lowerBound hb

end

/-- **C77**, no guarantee: a run may end with zero errors in phases that are not the best: there is a run
that returns the homogeneous mixture although dividing it lowers the free energy. -/
theorem C77_not_always_best : ∃ (e : RunEnv 2 2 2 ℝ Unit) (ia : FHCompiled 2 ℝ) (es : CanonicalC 2 ℝ)
    (st : State 2 2 2 ℝ Unit) (f : RunState 2 2 2 ℝ Unit) (ph : Phases 2 2 ℝ) (d : Diagnostics ℝ),
    e.ia = ia.toI 2 ∧ e.es = es.toI 2 ∧ IsIdealGas e.en (fun _ => (1 : ℝ)) id ∧
    runImpl e 1000000 (1 / 100000) 10000 st 32 = (f, .ok (ph, d)) ∧ ErrorsLE 0 d ∧
    (∀ m i, ph.fractions m i = es.phiMeans i) ∧
    ¬ LowerBound (liftChis ia.chis id) (fun _ => 1) es.phiMeans
      (freeEnergy (liftChis ia.chis id) (fun _ => 1) es.phiMeans) := by
  have hen : IsIdealGas Demo.coexEnv.en (fun _ => (1 : ℝ)) id :=
    (⟨fun _ => 1⟩ : IdealC 2).isIdealGas (M := 2)
  obtain ⟨f, ph, d, h⟩ := run_ok (e := Demo.coexEnv) (maxSteps := 1000000) (interval := 10000)
    (tol := 1 / 100000) (rngZero_ok ℝ) hen Demo.coexEns.total
    (by simp [Demo.coexEnv, Demo.params]) (by simp [Demo.coexEnv, Demo.params])
    (by simp [Demo.coexEnv, Demo.params]) (by simp [Demo.coexEnv, Demo.params]) rfl (by norm_num)
    (by norm_num) { Demo.coexState with
      Js := fun _ => 1
      omegas := fun r _ => ∑ j, Demo.coexFH.chis r j * Demo.coexEns.phiMeans j } 32
    (by simp [Demo.coexState, Cons.Proper])
    (Or.inl ⟨0, by simp [Demo.coexEnv, Demo.params]⟩)
  have h0 := C61_homogeneous_stationary (e := Demo.coexEnv) (ia := Demo.coexFH) (es := Demo.coexEns)
    (c := 0) (by simp [Demo.coexEnv, Demo.params]) (by simp [Demo.coexEnv, Demo.params]) rfl hen rfl
    (by simp [Demo.coexEns, Fin.sum_univ_two]; norm_num) (fun _ => rfl) (by simp)
    (by
      intro k hk
      simp only [Demo.coexState, List.mem_cons, List.not_mem_nil, or_false] at hk
      rcases hk with rfl | rfl
      · simp [Fulfilled, NoC.new]
      · refine ⟨fun a => rfl, fun a => ?_⟩
        simp [GlobalC.new, Fin.sum_univ_two, Demo.coexEns]) h
  refine ⟨_, Demo.coexFH, Demo.coexEns, _, f, ph, d, rfl, rfl, hen, h,
    ⟨h0.2.2.2.2.1.le, h0.2.2.2.2.2.1.le, h0.2.2.2.2.2.2.1.le⟩, h0.2.1, ?_⟩
  rw [C76_homogeneous_optimal Demo.coex_symm (by simp)
    (by intro i; fin_cases i <;> norm_num [Demo.coexEns])
    (by norm_num [Demo.coexEns, Fin.sum_univ_two]), not_not]
  exact ⟨_, _, Demo.coexistence, by intro m; fin_cases m <;> norm_num [Demo.coexState],
    by norm_num [Demo.coexPhi]⟩

/-! ## Examples -/

-- A ternary mixture in the default number of compartments.
example : ∃ (J : Vec 24 ℝ) (phi : Mat 3 24 ℝ),
    Coexistence ![![0, 3, 4], ![3, 0, 5], ![4, 5, 0]] id ![1, 2, 3] ![1 / 4, 1 / 4, 1 / 2] J phi ∧
      (∀ m, 0 < J m) ∧ (Set.range fun m i => phi i m).ncard ≤ 3 ∧
      LowerBound (liftChis ![![0, 3, 4], ![3, 0, 5], ![4, 5, 0]] id) ![1, 2, 3] ![1 / 4, 1 / 4, 1 / 2]
        (meanEnergy (liftChis ![![0, 3, 4], ![3, 0, 5], ![4, 5, 0]] id) ![1, 2, 3] J fun m i => phi i m) :=
  C77_ground_state (by intro r q; fin_cases r <;> fin_cases q <;> simp)
    (by intro i; fin_cases i <;> simp) (by intro i; fin_cases i <;> simp)
    (by simp [Fin.sum_univ_three]; norm_num) (by norm_num)

-- The phases of `Demo.coexistence` pass the tangent plane test ...
example (y : Vec 2 ℝ) (y0 : ∀ i, 0 ≤ y i) (y1 : ∑ i, y i = 1) :
    ∑ i, chemPot (liftChis Demo.coexFH.chis id) (fun _ => 1) (fun j => Demo.coexPhi j 0) i * y i ≤
      freeEnergy (liftChis Demo.coexFH.chis id) (fun _ => 1) y :=
  (C77_tangent_plane Demo.coex_symm (by simp) Demo.coexistence
    (by intro m; fin_cases m <;> norm_num [Demo.coexState]) 0).mp
    (C76_phases_optimal Demo.coex_symm (by simp) Demo.coexistence (p := 0) (q := 1)
      (by norm_num [Demo.coexPhi])) y y0 y1

-- ... and are recovered from being a best partition.
example : Coexistence Demo.coexFH.chis id (fun _ => 1) Demo.coexEns.phiMeans Demo.coexState.Js
    (fun i m => (fun m i => Demo.coexPhi i m : Fin 2 → Vec 2 ℝ) m i) :=
  C77_optimal_coexists Demo.coex_symm (by simp)
    (by intro i; fin_cases i <;> norm_num [Demo.coexEns])
    (by norm_num [Demo.coexEns, Fin.sum_univ_two])
    ⟨by norm_num, by intro m; fin_cases m <;> norm_num [Demo.coexState], Demo.coexistence.volumes,
      fun m i => (Demo.coexistence.pos i m).le, Demo.coexistence.incompressible, Demo.coexistence.mean⟩
    (by intro m; fin_cases m <;> norm_num [Demo.coexState])
    (C76_phases_optimal Demo.coex_symm (by simp) Demo.coexistence (p := 0) (q := 1)
      (by norm_num [Demo.coexPhi]))

end Flory
