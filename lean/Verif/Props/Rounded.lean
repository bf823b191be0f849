import Verif.Lemmas.Rounded
import Verif.Props.Phases

/-! # C84: phases and random compositions in floating-point arithmetic -/

set_option linter.unusedSectionVars false

namespace Flory

open Spec

variable {f : Fp} {u : ℝ} {P C : ℕ}

theorem sum_ofFn_eq (a : Vec P ℝ) : (List.ofFn a).sum = ∑ p, a p := by rw [List.sum_ofFn]

theorem members_sum (labels : Vec P ℤ) (n : ℤ) (g : Fin P → ℝ) :
    ((Phases.members labels n).map g).sum = ∑ p, if labels p = n then g p else 0 := by
  have key : ∀ l : List (Fin P), ((l.filter fun p => decide (labels p = n)).map g).sum =
      (l.map fun p => if labels p = n then g p else 0).sum := by
    intro l
    induction l with
    | nil => rfl
    | cons p l ih => by_cases h : labels p = n <;> simp [h, ih]
  unfold Phases.members
  rw [key, Fin.sum_univ_def]

theorem members_length (labels : Vec P ℤ) (n : ℤ) : (Phases.members labels n).length ≤ P := by
  unfold Phases.members
  exact (List.length_filter_le _ _).trans (by simp)

section Phases

variable (hf : FpOk f u) (x : Phases P C ℝ) (hv : ∀ p, 0 ≤ x.volumes p)
include hf hv

theorem total_within : 0 ≤ x.totalVolumeF f ∧ UpTo u P (x.totalVolumeF f) (∑ p, x.volumes p) := by
  have := AddedUp.within hf.rounds (hf.sum (List.ofFn x.volumes)) (by
    intro y hy
    obtain ⟨p, rfl⟩ := (List.mem_ofFn' _ _).mp hy
    exact hv p)
  rwa [List.length_ofFn, sum_ofFn_eq] at this

/-- **C84**, normalization: the volumes stay proportional and sum to one up to rounding; nothing else
changes. -/
theorem C84_normalize (hpos : 0 < ∑ p, x.volumes p) :
    UpTo u (P + 1) (∑ p, (x.normalizeF f).volumes p) 1 ∧
    (∀ p, UpTo u (P + 1) ((x.normalizeF f).volumes p) (x.volumes p / ∑ q, x.volumes q)) ∧
    (∀ p, 0 ≤ (x.normalizeF f).volumes p) ∧
    (∀ p, (x.normalizeF f).volumes p = 0 ↔ x.volumes p = 0) ∧
    (∀ p q, x.volumes p ≤ x.volumes q → (x.normalizeF f).volumes p ≤ (x.normalizeF f).volumes q) ∧
    (x.normalizeF f).fractions = x.fractions := by
  have h := hf.rounds
  obtain ⟨-, w⟩ := total_within hf x hv
  have ht := w.pos_left h hpos
  have key : ∀ p, UpTo u (P + 1) ((x.normalizeF f).volumes p) (x.volumes p / ∑ q, x.volumes q) := by
    intro p
    have := ((UpTo.refl (u := u) (x.volumes p)).div h w (hv p) (hv p) ht hpos).rounded h
      (div_nonneg (hv p) ht.le)
    rwa [zero_add] at this
  refine ⟨?_, key, fun p => h.nonneg_of (div_nonneg (hv p) ht.le), fun p => ⟨fun h0 => ?_, fun h0 => ?_⟩,
    fun p q hpq => h.mono (div_le_div_of_nonneg_right hpq ht.le), rfl⟩
  · have := UpTo.sum (u := u) (n := P + 1) (s := Finset.univ) fun p _ => key p
    rwa [← Finset.sum_div, div_self hpos.ne'] at this
  · by_contra hne
    have : 0 < x.volumes p := lt_of_le_of_ne (hv p) (Ne.symm hne)
    exact absurd h0 (h.pos_of (div_pos this ht)).ne'
  · show f.rnd (x.volumes p / _) = 0
    rw [h0, zero_div, h.zero]

/-- **C84**, mean fractions: right up to rounding, so within the range of the fractions up to rounding. -/
theorem C84_mean_fractions (hpos : 0 < ∑ p, x.volumes p) {i : Fin C} (hx : ∀ p, 0 ≤ x.fractions p i) :
    UpTo u (2 * P + 2) (x.meanFractionsF f i)
      ((∑ p, x.volumes p * x.fractions p i) / ∑ p, x.volumes p) ∧
    (∀ a, (∀ p, a ≤ x.fractions p i) → 0 ≤ a → a * (1 - u) ^ (2 * P + 2) ≤ x.meanFractionsF f i) ∧
    ∀ b, (∀ p, x.fractions p i ≤ b) → x.meanFractionsF f i * (1 - u) ^ (2 * P + 2) ≤ b := by
  have h := hf.rounds
  obtain ⟨-, w⟩ := total_within hf x hv
  have ht := w.pos_left h hpos
  have hn : 0 ≤ ∑ p, x.volumes p * x.fractions p i :=
    Finset.sum_nonneg fun p _ => mul_nonneg (hv p) (hx p)
  obtain ⟨d0, d⟩ := DottedUp.within h (hf.dot (List.ofFn fun p => (x.volumes p, x.fractions p i))) (by
    intro y hy
    obtain ⟨p, rfl⟩ := (List.mem_ofFn' _ _).mp hy
    exact ⟨hv p, hx p⟩)
  rw [List.length_ofFn, List.map_ofFn, sum_ofFn_eq] at d
  have e := (d.div h w d0 hn ht hpos).rounded h (div_nonneg d0 ht.le)
  have hw : UpTo u (2 * P + 2) (x.meanFractionsF f i)
      ((∑ p, x.volumes p * x.fractions p i) / ∑ p, x.volumes p) := by
    rw [show 2 * P + 2 = P + 1 + P + 1 by ring]; exact e
  have p0 := (h.pow_pos' (2 * P + 2)).le
  refine ⟨hw, fun a ha _ => ?_, fun b hb => ?_⟩
  · refine le_trans (mul_le_mul_of_nonneg_right ?_ p0) hw.2
    rw [le_div_iff₀ hpos, Finset.mul_sum]
    exact Finset.sum_le_sum fun p _ => by
      rw [mul_comm]; exact mul_le_mul_of_nonneg_left (ha p) (hv p)
  · refine hw.1.trans ?_
    rw [div_le_iff₀ hpos, Finset.mul_sum]
    exact Finset.sum_le_sum fun p _ => by
      rw [mul_comm b]; exact mul_le_mul_of_nonneg_left (hb p) (hv p)

theorem group_within (labels : Vec P ℤ) (n : ℤ) {sum : List ℝ → ℝ}
    (hs : ∀ l, AddedUp f.rnd l (sum l)) :
    0 ≤ sum ((Phases.members labels n).map x.volumes) ∧
    UpTo u P (sum ((Phases.members labels n).map x.volumes))
      (∑ p, if labels p = n then x.volumes p else 0) := by
  have h := hf.rounds
  obtain ⟨a, b⟩ := AddedUp.within h (hs ((Phases.members labels n).map x.volumes)) (by
    intro y hy
    obtain ⟨p, -, rfl⟩ := List.mem_map.mp hy
    exact hv p)
  rw [List.length_map, members_sum] at b
  refine ⟨a, b.mono h (members_length labels n) a ?_⟩
  exact Finset.sum_nonneg fun p _ => by split_ifs; exacts [hv p, le_rfl]

theorem average_within (labels : Vec P ℤ) (n : ℤ) (hx : ∀ p i, 0 ≤ x.fractions p i) :
    (x.averageF f labels n = .error .zeroDivisionError ∧
      x.average labels n = .error .zeroDivisionError) ∨
    ∃ a b, x.averageF f labels n = .ok a ∧ x.average labels n = .ok b ∧
      ∀ i, UpTo u (2 * P + 2) (a i) (b i) ∧ 0 ≤ b i ∧
        ∀ B, (∀ p, x.fractions p i ≤ B) → b i ≤ B := by
  have h := hf.rounds
  obtain ⟨s0, w⟩ := group_within hf x hv labels n hf.sumAxis
  have S0 : 0 ≤ ∑ p, if labels p = n then x.volumes p else 0 :=
    Finset.sum_nonneg fun p _ => by split_ifs; exacts [hv p, le_rfl]
  unfold Phases.averageF Phases.average
  by_cases hS : (∑ p, if labels p = n then x.volumes p else 0) = 0
  · left
    have hs : f.sumAxis ((Phases.members labels n).map x.volumes) = 0 := by
      rw [hS] at w
      have := w.1
      have p0 := h.pow_pos' P
      nlinarith
    simp only [hs, hS, if_true]
    exact ⟨trivial, trivial⟩
  · right
    have hSp : 0 < ∑ p, if labels p = n then x.volumes p else 0 := lt_of_le_of_ne S0 (Ne.symm hS)
    have hsp := w.pos_left h hSp
    simp only [if_neg hS, if_neg hsp.ne']
    refine ⟨_, _, rfl, rfl, fun i => ?_⟩
    have hprod : ∀ p, 0 ≤ x.fractions p i * x.volumes p := fun p => mul_nonneg (hx p i) (hv p)
    obtain ⟨a, b⟩ := AddedUp.within h (hf.sumAxis ((Phases.members labels n).map fun p =>
      f.rnd (x.fractions p i * x.volumes p))) (by
        intro y hy
        obtain ⟨p, -, rfl⟩ := List.mem_map.mp hy
        exact h.nonneg_of (hprod p))
    rw [List.length_map, members_sum] at b
    have n1 : 0 ≤ ∑ p, if labels p = n then f.rnd (x.fractions p i * x.volumes p) else 0 :=
      Finset.sum_nonneg fun p _ => by split_ifs; exacts [h.nonneg_of (hprod p), le_rfl]
    have n2 : 0 ≤ ∑ p, if labels p = n then x.volumes p * x.fractions p i else 0 :=
      Finset.sum_nonneg fun p _ => by
        split_ifs
        · rw [mul_comm]; exact hprod p
        · exact le_rfl
    have c : UpTo u 1 (∑ p, if labels p = n then f.rnd (x.fractions p i * x.volumes p) else 0)
        (∑ p, if labels p = n then x.volumes p * x.fractions p i else 0) := by
      refine UpTo.sum fun p _ => ?_
      split_ifs
      · rw [mul_comm (x.volumes p)]; exact h.within (hprod p)
      · exact (UpTo.refl (u := u) 0).mono h (Nat.zero_le 1) le_rfl le_rfl
    have d := (b.mono h (members_length labels n) a n1).trans h c
    have e := (d.div h w a n2 hsp hSp).rounded h (div_nonneg a hsp.le)
    refine ⟨?_, div_nonneg n2 S0, fun B hB => ?_⟩
    · rw [show 2 * P + 2 = P + 1 + P + 1 by ring]
      exact e
    · rw [div_le_iff₀ hSp, Finset.mul_sum]
      refine Finset.sum_le_sum fun p _ => ?_
      split_ifs
      · rw [mul_comm B]; exact mul_le_mul_of_nonneg_left (hB p) (hv p)
      · rw [mul_zero]

theorem collect_within (labels : Vec P ℤ) (hx : ∀ p i, 0 ≤ x.fractions p i) (ns : List ℤ) :
    (∃ e, x.collectF f labels ns = .error e ∧ x.collect labels ns = .error e) ∨
    ∃ a b, x.collectF f labels ns = .ok a ∧ x.collect labels ns = .ok b ∧
      List.Forall₂ (fun y z => UpTo u P y.1 z.1 ∧ 0 ≤ y.1 ∧ 0 ≤ z.1 ∧
        ∀ i, UpTo u (2 * P + 2) (y.2 i) (z.2 i) ∧ 0 ≤ z.2 i ∧
          ∀ B, (∀ p, x.fractions p i ≤ B) → z.2 i ≤ B) a b := by
  induction ns with
  | nil => exact Or.inr ⟨[], [], rfl, rfl, .nil⟩
  | cons n ns ih =>
    have e1 : x.collectF f labels (n :: ns) = (do
      let meanFractions ← x.averageF f labels n
      let rest ← x.collectF f labels ns
      return (f.sum ((Phases.members labels n).map x.volumes), meanFractions) :: rest) := rfl
    have e2 : x.collect labels (n :: ns) = (do
      let meanFractions ← x.average labels n
      let rest ← x.collect labels ns
      return (∑ p, if labels p = n then x.volumes p else 0, meanFractions) :: rest) := rfl
    rw [e1, e2]
    rcases average_within hf x hv labels n hx with ⟨a1, a2⟩ | ⟨a, b, a1, a2, w⟩
    · rw [a1, a2]; exact Or.inl ⟨_, rfl, rfl⟩
    · rw [a1, a2]
      rcases ih with ⟨e, c1, c2⟩ | ⟨l, l', c1, c2, hl⟩
      · rw [c1, c2]; exact Or.inl ⟨e, rfl, rfl⟩
      · rw [c1, c2]
        obtain ⟨s0, ws⟩ := group_within hf x hv labels n hf.sum
        have S0 : 0 ≤ ∑ p, if labels p = n then x.volumes p else 0 :=
          Finset.sum_nonneg fun p _ => by split_ifs; exacts [hv p, le_rfl]
        exact Or.inr ⟨_, _, rfl, rfl, .cons ⟨ws, s0, S0, w⟩ hl⟩

theorem clusters_within (labels : Vec P ℤ) (hx : ∀ p i, 0 ≤ x.fractions p i) :
    (∃ e, x.getClustersF f labels = .error e ∧ x.getClusters labels = .error e) ∨
    ∃ r r', x.getClustersF f labels = .ok r ∧ x.getClusters labels = .ok r' ∧ ∃ e : r.1 = r'.1,
      ∀ k, UpTo u P (r.2.volumes k) (r'.2.volumes (Fin.cast e k)) ∧ 0 ≤ r.2.volumes k ∧
        0 ≤ r'.2.volumes (Fin.cast e k) ∧
        ∀ i, UpTo u (2 * P + 2) (r.2.fractions k i) (r'.2.fractions (Fin.cast e k) i) ∧
          0 ≤ r'.2.fractions (Fin.cast e k) i ∧
          ∀ B, (∀ p, x.fractions p i ≤ B) → r'.2.fractions (Fin.cast e k) i ≤ B := by
  have h := hf.rounds
  unfold Phases.getClustersF Phases.getClusters
  by_cases hP : P < 2
  · rw [if_pos hP, if_pos hP]
    refine Or.inr ⟨_, _, rfl, rfl, rfl, fun k => ⟨?_, hv k, hv k, fun i => ⟨?_, hx k i, fun B hB => hB k⟩⟩⟩
    · exact (UpTo.refl (u := u) _).mono h (Nat.zero_le _) (hv k) (hv k)
    · exact (UpTo.refl (u := u) _).mono h (Nat.zero_le _) (hx k i) (hx k i)
  · rw [if_neg hP, if_neg hP]
    rcases collect_within hf x hv labels hx ((Finset.univ.image labels).sort (· ≤ ·)) with
      ⟨e, a1, a2⟩ | ⟨l, l', a1, a2, hl⟩
    · rw [a1, a2]; exact Or.inl ⟨e, rfl, rfl⟩
    · rw [a1, a2]
      exact Or.inr ⟨_, _, rfl, rfl, hl.length_eq, fun k =>
        (List.forall₂_iff_get.mp hl).2 k.1 k.2 (hl.length_eq ▸ k.2)⟩

/-- **C84**, clustering: for the same labels the float code fails exactly if exact arithmetic does, and
otherwise returns the same number of phases, with volumes and fractions that are right up to rounding. -/
theorem C84_clusters (labels : Vec P ℤ) (hx : ∀ p i, 0 ≤ x.fractions p i) :
    (∃ e, x.getClustersF f labels = .error e ∧ x.getClusters labels = .error e) ∨
    ∃ r r', x.getClustersF f labels = .ok r ∧ x.getClusters labels = .ok r' ∧ ∃ e : r.1 = r'.1,
      ∀ k, UpTo u P (r.2.volumes k) (r'.2.volumes (Fin.cast e k)) ∧
        ∀ i, UpTo u (2 * P + 2) (r.2.fractions k i) (r'.2.fractions (Fin.cast e k) i) := by
  rcases clusters_within hf x hv labels hx with hl | ⟨r, r', h1, h2, e, key⟩
  · exact Or.inl hl
  · exact Or.inr ⟨r, r', h1, h2, e, fun k => ⟨(key k).1, fun i => ((key k).2.2.2 i).1⟩⟩

/-- **C84**, conservation: clustering in floats keeps the total volume and the amount of every component
up to rounding, and the fractions within their range up to rounding. -/
theorem C84_clusters_conserve (labels : Vec P ℤ) (hx : ∀ p i, 0 ≤ x.fractions p i)
    {r : Σ P' : ℕ, Phases P' C ℝ} (hr : x.getClustersF f labels = .ok r) : r.1 ≤ P ∧
    UpTo u P (∑ k, r.2.volumes k) (∑ p, x.volumes p) ∧
    (∀ i, UpTo u (3 * P + 2) (∑ k, r.2.volumes k * r.2.fractions k i)
      (∑ p, x.volumes p * x.fractions p i)) ∧
    ∀ k i, 0 ≤ r.2.fractions k i ∧
      ∀ b, (∀ p, x.fractions p i ≤ b) → r.2.fractions k i * (1 - u) ^ (2 * P + 2) ≤ b := by
  have h := hf.rounds
  rcases clusters_within hf x hv labels hx with ⟨e, h1, -⟩ | ⟨r₀, r', h1, h2, e, key⟩
  · rw [h1] at hr; cases hr
  rw [h1] at hr
  obtain rfl := Except.ok.inj hr
  obtain ⟨a1, a2, a3, -⟩ := (C04_clusters_conserve x labels).1 r' h2
  have hcast : ∀ g : Fin r'.1 → ℝ, ∑ k, g (Fin.cast e k) = ∑ k, g k := fun g =>
    Equiv.sum_comp (finCongr e) g
  have f0 : ∀ k i, 0 ≤ r₀.2.fractions k i := fun k i =>
    ((key k).2.2.2 i).1.nonneg_left h ((key k).2.2.2 i).2.1
  refine ⟨e ▸ a1, ?_, fun i => ?_, fun k i => ⟨f0 k i, fun b hb => ?_⟩⟩
  · have := UpTo.sum (u := u) (n := P) (s := Finset.univ) fun k _ => (key k).1
    rw [hcast] at this
    rwa [a2] at this
  · have := UpTo.sum (u := u) (n := P + (2 * P + 2)) (s := Finset.univ) fun k _ =>
      ((key k).1).mul h ((key k).2.2.2 i).1 (key k).2.1 (key k).2.2.1 (f0 k i) ((key k).2.2.2 i).2.1
    rw [hcast (fun k => r'.2.volumes k * r'.2.fractions k i), a3 i] at this
    rw [show 3 * P + 2 = P + (2 * P + 2) by ring]
    exact this
  · exact ((key k).2.2.2 i).1.1.trans (((key k).2.2.2 i).2.2 b hb)

end Phases

section Random

variable {G : Type} {beta : Beta G ℝ}

/-- One entry is stored and the rest of the unit interval is shortened. -/
theorem random_loop (hf : FpOk f u) (hb : ∀ g a b, 0 ≤ (beta g a b).1 ∧ (beta g a b).1 ≤ 1) (g : G) (n : ℕ)
    (junk : Vec (n + 1) ℝ) :
    let s := forRange n (junk, (1 : ℝ), g) fun d s =>
      let (b, g) := beta s.2.2 1 (n + 1 - d.1 - 1)
      let x := f.rnd (b * s.2.1)
      (setAt s.1 d.castSucc x, f.rnd (s.2.1 - x), g)
    (∀ d : Fin n, 0 ≤ s.1 d.castSucc ∧ s.1 d.castSucc ≤ 1) ∧
      ∑ d : Fin n, s.1 d.castSucc ≤ 1 + n * u := by
  have h := hf.rounds
  have inv := forRange_inv (n := n) (s := (junk, (1 : ℝ), g))
    (body := fun d s => let (b, g) := beta s.2.2 1 (n + 1 - d.1 - 1)
      let x := f.rnd (b * s.2.1)
      (setAt s.1 d.castSucc x, f.rnd (s.2.1 - x), g))
    (P := fun k s => 0 ≤ s.2.1 ∧ s.2.1 ≤ 1 ∧ f.rnd s.2.1 = s.2.1 ∧
      (∀ d : Fin n, d.1 < k → 0 ≤ s.1 d.castSucc ∧ s.1 d.castSucc ≤ 1) ∧
      (∑ d : Fin n, if d.1 < k then s.1 d.castSucc else 0) ≤ 1 - s.2.1 + k * u)
    (by simp [h.one]) (by
      intro d s ⟨h1, h1', hid, h2, h3⟩
      obtain ⟨b0, b1⟩ := hb s.2.2 1 (n + 1 - d.1 - 1)
      set x := f.rnd ((beta s.2.2 1 (n + 1 - d.1 - 1)).1 * s.2.1) with hx
      have hx0 : 0 ≤ x := h.nonneg_of (mul_nonneg b0 h1)
      have hx1 : x ≤ s.2.1 := by
        have := mul_le_mul_of_nonneg_right b1 h1
        rw [one_mul] at this
        have := h.mono this
        rwa [hid] at this
      have hother : ∀ e : Fin n, e ≠ d → setAt s.1 d.castSucc x e.castSucc = s.1 e.castSucc := by
        intro e he
        exact setAt_ne _ _ fun hc => he (Fin.castSucc_injective _ hc)
      have hd := sub_nonneg.mpr hx1
      have herr := abs_le.mp (h.err (s.2.1 - x))
      rw [abs_of_nonneg hd] at herr
      have hu := h.nonneg
      have hle : u * (s.2.1 - x) ≤ u := by nlinarith
      refine ⟨h.nonneg_of hd, ?_, h.idem _, fun e he => ?_, ?_⟩
      · refine (h.mono (by linarith : s.2.1 - x ≤ 1)).trans h.one.le
      · show 0 ≤ setAt s.1 d.castSucc x e.castSucc ∧ setAt s.1 d.castSucc x e.castSucc ≤ 1
        by_cases hed : e = d
        · subst hed; rw [setAt_same]; exact ⟨hx0, hx1.trans h1'⟩
        · rw [hother e hed]
          refine h2 e ?_
          have : e.1 ≠ d.1 := fun hc => hed (Fin.ext hc)
          omega
      · show (∑ e : Fin n, if e.1 < d.1 + 1 then setAt s.1 d.castSucc x e.castSucc else 0) ≤
          1 - f.rnd (s.2.1 - x) + ((d.1 + 1 : ℕ) : ℝ) * u
        have e1 : ∀ e : Fin n, (if e.1 < d.1 + 1 then setAt s.1 d.castSucc x e.castSucc else 0) =
            (if e.1 < d.1 then s.1 e.castSucc else 0) + if e = d then x else 0 := by
          intro e
          by_cases hed : e = d
          · subst hed; simp [setAt_same]
          · have hne : e.1 ≠ d.1 := fun hc => hed (Fin.ext hc)
            rw [hother e hed, if_neg hed, add_zero]
            by_cases hlt : e.1 < d.1
            · rw [if_pos hlt, if_pos (by omega)]
            · rw [if_neg hlt, if_neg (by omega)]
        have e2 : (∑ e : Fin n, if e = d then x else 0) = x := by simp
        rw [Finset.sum_congr rfl fun e _ => e1 e, Finset.sum_add_distrib, e2]
        push_cast
        linarith [herr.2])
  obtain ⟨h1, -, -, h2, h3⟩ := inv
  simp only [Fin.is_lt, if_true] at h3
  exact ⟨fun d => h2 d d.2, by linarith⟩

/-- **C84**, random compositions: all fractions but the last lie between 0 and 1, the last is at most 1,
and the sum is one up to rounding.  The last can be negative, by at most the same error. -/
theorem C84_random_composition (hf : FpOk f u)
    (hb : ∀ g a b, 0 ≤ (beta g a b).1 ∧ (beta g a b).1 ≤ 1) (g : G) (n : ℕ) (junk : Vec (n + 1) ℝ) :
    ∃ v g', uniformRandomCompositionF f beta g (n + 1) junk = .ok (v, g') ∧
      (∀ d : Fin n, 0 ≤ v d.castSucc) ∧ (∀ i, v i ≤ 1) ∧
      1 - 1 / (1 - u) ^ (2 * n + 1) ≤ v (Fin.last n) ∧
      |∑ i, v i - 1| ≤ 1 / (1 - u) ^ (2 * n + 1) - 1 := by
  have h := hf.rounds
  obtain ⟨hx, hX⟩ := random_loop hf hb g n junk
  refine ⟨_, _, rfl, ?_⟩
  set s := forRange n (junk, (1 : ℝ), g) fun d s =>
      let (b, g) := beta s.2.2 1 (n + 1 - d.1 - 1)
      let x := f.rnd (b * s.2.1)
      (setAt s.1 d.castSucc x, f.rnd (s.2.1 - x), g) with hs
  clear_value s
  set t := f.sum (List.ofFn fun d : Fin n => s.1 d.castSucc) with ht
  obtain ⟨t0, w⟩ := AddedUp.within h (hf.sum (List.ofFn fun d : Fin n => s.1 d.castSucc)) (by
    intro y hy
    obtain ⟨p, rfl⟩ := (List.mem_ofFn' _ _).mp hy
    exact (hx p).1)
  rw [List.length_ofFn, sum_ofFn_eq, ← ht] at w
  rw [← ht] at t0
  set X := ∑ d : Fin n, s.1 d.castSucc with hXd
  have X0 : 0 ≤ X := Finset.sum_nonneg fun d _ => (hx d).1
  have hval : ∀ d : Fin n, setAt s.1 (Fin.last n) (f.rnd (1 - t)) d.castSucc =
      s.1 d.castSucc := fun d => setAt_ne _ _ (Fin.castSucc_lt_last d).ne
  have hu := h.nonneg
  have c0 := h.compl_pos
  have q0 := h.pow_pos' n
  -- the inverse of `1 - u`
  set a := (1 - u)⁻¹ with ha
  have a0 : 0 < a := inv_pos.mpr c0
  have ac : a * (1 - u) = 1 := inv_mul_cancel₀ c0.ne'
  have hau : u ≤ a - 1 := by nlinarith
  have a1 : 1 ≤ a := by linarith
  have hA : ∀ m, 1 / (1 - u) ^ m = a ^ m := fun m => by rw [ha, inv_pow, one_div]
  have hAn : a ^ n * (1 - u) ^ n = 1 := by rw [← mul_pow, ac, one_pow]
  have An1 : 1 ≤ a ^ n := one_le_pow₀ a1
  have hXn : X ≤ a ^ n := by
    refine hX.trans ?_
    have := one_add_mul_le_pow (a := a - 1) (by linarith) n
    rw [add_sub_cancel] at this
    nlinarith [Nat.cast_nonneg (α := ℝ) n]
  have hA2 : a ^ (2 * n) = a ^ n * a ^ n := by rw [two_mul, pow_add]
  have hA21 : a ^ (2 * n + 1) = a ^ n * a ^ n * a := by rw [pow_succ, hA2]
  rw [hA, hA21]
  obtain ⟨wa, wb⟩ := w
  set A := a ^ n with hAd
  set q := (1 - u) ^ n with hq
  clear_value A q t X a
  have w1 : t ≤ X * A := by
    have := mul_le_mul_of_nonneg_right wa (by linarith : 0 ≤ A)
    nlinarith
  have w2 : X ≤ t * A := by
    have := mul_le_mul_of_nonneg_right wb (by linarith : 0 ≤ A)
    nlinarith
  have hXA : X * A ≤ A * A := mul_le_mul_of_nonneg_right hXn (by linarith)
  have AA : A ≤ A * A := by nlinarith
  have tA : t ≤ A * A := w1.trans hXA
  have k1 : t - X ≤ A * A - A := by nlinarith
  have k2 : X - t ≤ A * A - A := by
    have q1 : X * q ≤ t := wb
    have : 1 - q ≤ A - 1 := by nlinarith
    have : X * (1 - q) ≤ A * (A - 1) := by
      have h1 : 0 ≤ A - 1 := by linarith
      nlinarith
    nlinarith
  have k3 : u * |1 - t| ≤ A * A * (a - 1) := by
    have : |1 - t| ≤ A * A := abs_le.mpr ⟨by linarith, by linarith⟩
    exact (mul_le_mul hau this (abs_nonneg _) (by linarith)).trans (by rw [mul_comm])
  have herr := abs_le.mp (h.err (1 - t))
  refine ⟨fun d => by rw [hval]; exact (hx d).1, fun i => ?_, ?_, ?_⟩
  · refine Fin.lastCases ?_ (fun d => ?_) i
    · rw [setAt_same]
      exact (h.mono (by linarith)).trans h.one.le
    · rw [hval]; exact (hx d).2
  · rw [setAt_same]
    nlinarith [herr.1]
  · rw [Fin.sum_univ_castSucc]
    simp only [hval, setAt_same, ← hXd]
    refine abs_le.mpr ⟨?_, ?_⟩
    · nlinarith [herr.1]
    · nlinarith [herr.2]

end Random

/-! ## What rounding breaks -/

theorem double_near {x y : ℝ} (n : ℤ) (e : ℤ) (hx : x = y * 2 ^ e) (h0 : 2 ^ 52 ≤ y) (h1 : y < 2 ^ 53)
    (hn : |y - n| < 1 / 2) : double x = n * 2 ^ e := by
  rw [hx, double_scale h0 h1, roundEven_eq hn]

/-- Three phases with volumes 1, 4 and 1. -/
def volumes141 : Phases 3 1 ℝ := ⟨![1, 4, 1], fun _ _ => 1⟩

theorem total141 : volumes141.totalVolumeF Fp.double = 6 := by
  have d1 : double (0 + 1) = 1 := by rw [zero_add, double_one]
  have d5 : double (1 + 4) = 5 := by
    rw [double_near (y := 5 * 2 ^ 50) (5 * 2 ^ 50) (-50)] <;> norm_num
  have d6 : double (5 + 1) = 6 := by
    rw [double_near (y := 6 * 2 ^ 50) (6 * 2 ^ 50) (-50)] <;> norm_num
  show double (double (double (0 + 1) + 4) + 1) = 6
  rw [d1, d5, d6]

theorem sixth : double (1 / 6) = 6004799503160661 * 2 ^ (-55 : ℤ) := by
  rw [double_near (y := 2 ^ 54 / 3) 6004799503160661 (-55)] <;> norm_num [abs_lt]

theorem two_thirds : double (4 / 6) = 6004799503160661 * 2 ^ (-53 : ℤ) := by
  rw [double_near (y := 2 ^ 54 / 3) 6004799503160661 (-53)] <;> norm_num [abs_lt]

theorem total_normalized : (volumes141.normalizeF Fp.double).totalVolumeF Fp.double = 1 - 2 ^ (-53 : ℤ) := by
  have e : (volumes141.normalizeF Fp.double).totalVolumeF Fp.double =
      double (double (double (0 + double (1 / 6)) + double (4 / 6)) + double (1 / 6)) := by
    show double (double (double (0 + double (1 / volumes141.totalVolumeF Fp.double)) +
      double (4 / volumes141.totalVolumeF Fp.double)) + double (1 / volumes141.totalVolumeF Fp.double)) = _
    rw [total141]
  have s1 : double (6004799503160661 * 2 ^ (-55 : ℤ) + 6004799503160661 * 2 ^ (-53 : ℤ)) =
      7505999378950826 * 2 ^ (-53 : ℤ) := by
    rw [double_near (y := 30023997515803305 / 4) 7505999378950826 (-53)] <;> norm_num [abs_lt]
  have s2 : double (7505999378950826 * 2 ^ (-53 : ℤ) + 6004799503160661 * 2 ^ (-55 : ℤ)) =
      9007199254740991 * 2 ^ (-53 : ℤ) := by
    rw [double_near (y := 36028797018963965 / 4) 9007199254740991 (-53)] <;> norm_num [abs_lt]
  rw [e, zero_add, double_idem, sixth, two_thirds, s1, s2]
  norm_num

/-- **C84**: in doubles the normalized volumes need not sum to one, and normalizing again can change
them. -/
theorem C84_normalize_not_idempotent :
    (volumes141.normalizeF Fp.double).totalVolumeF Fp.double ≠ 1 ∧
    ((volumes141.normalizeF Fp.double).normalizeF Fp.double).volumes 0 ≠
      (volumes141.normalizeF Fp.double).volumes 0 := by
  constructor
  · rw [total_normalized]; norm_num
  · have e1 : (volumes141.normalizeF Fp.double).volumes 0 = double (1 / 6) := by
      show double (1 / volumes141.totalVolumeF Fp.double) = _
      rw [total141]
    have e2 : ((volumes141.normalizeF Fp.double).normalizeF Fp.double).volumes 0 =
        double (double (1 / 6) / (1 - 2 ^ (-53 : ℤ))) := by
      show double ((volumes141.normalizeF Fp.double).volumes 0 /
        (volumes141.normalizeF Fp.double).totalVolumeF Fp.double) = _
      rw [e1, total_normalized]
    have e3 : double (6004799503160661 * 2 ^ (-55 : ℤ) / (1 - 2 ^ (-53 : ℤ))) =
        6004799503160662 * 2 ^ (-55 : ℤ) := by
      rw [double_near (y := 6004799503160661 / (1 - 2 ^ (-53 : ℤ))) 6004799503160662 (-55)] <;>
        norm_num [abs_lt]
    rw [e1, e2, sixth, e3]
    norm_num

/-- Five tiny draws, then one close to 1. -/
noncomputable def tinyBeta : Beta ℕ ℝ := fun k _ _ =>
  (if k < 5 then 2 ^ (-54 : ℤ) else 1 - 2 ^ (-53 : ℤ), k + 1)

theorem tiny_double : double (2 ^ (-54 : ℤ)) = 2 ^ (-54 : ℤ) := by
  rw [double_near (y := 2 ^ 52) (2 ^ 52) (-106)] <;> norm_num

theorem one_sub_tiny : double (1 - 2 ^ (-54 : ℤ)) = 1 := by
  have hr : roundEven (2 ^ 53 - 1 / 2) = 2 ^ 53 := by
    have h := roundEven_tie (n := -2 ^ 53) (by decide)
    have := roundEven_neg ((-2 ^ 53 : ℤ) + 1 / 2)
    rw [h] at this
    rw [show (2 ^ 53 - 1 / 2 : ℝ) = -(((-2 ^ 53 : ℤ) : ℝ) + 1 / 2) by push_cast; ring, this]
    norm_num
  have h := double_scale (y := 2 ^ 53 - 1 / 2) (by norm_num) (by norm_num) (-53)
  rw [hr] at h
  rw [show (1 - 2 ^ (-54 : ℤ) : ℝ) = (2 ^ 53 - 1 / 2) * 2 ^ (-53 : ℤ) by norm_num, h]
  norm_num

/-- **C84**: in doubles the last fraction of a random composition can be negative. -/
theorem C84_random_negative (junk : Vec 7 ℝ) :
    (∀ g a b, 0 ≤ (tinyBeta g a b).1 ∧ (tinyBeta g a b).1 ≤ 1) ∧
    ∃ v g, uniformRandomCompositionF Fp.double tinyBeta 0 7 junk = .ok (v, g) ∧
      v 6 = -2 ^ (-52 : ℤ) := by
  refine ⟨fun k _ _ => ?_, _, _, rfl, ?_⟩
  · unfold tinyBeta; dsimp only; split_ifs <;> norm_num
  have inv := forRange_inv (n := 6) (s := (junk, (1 : ℝ), (0 : ℕ)))
    (body := fun d s => let (b, g) := tinyBeta s.2.2 1 (6 + 1 - d.1 - 1)
      let x := Fp.double.rnd (b * s.2.1)
      (setAt s.1 d.castSucc x, Fp.double.rnd (s.2.1 - x), g))
    (P := fun k s => s.2.2 = k ∧ (k ≤ 5 → s.2.1 = 1) ∧
      ∀ d : Fin 6, d.1 < k → s.1 d.castSucc = if d.1 < 5 then 2 ^ (-54 : ℤ) else 1 - 2 ^ (-53 : ℤ))
    ⟨rfl, fun _ => rfl, fun d hd => absurd hd (Nat.not_lt_zero _)⟩ (by
      intro d s ⟨hg, hp, hx⟩
      have hp := hp (by omega)
      have hxd : Fp.double.rnd ((tinyBeta s.2.2 1 (6 + 1 - d.1 - 1)).1 * s.2.1) =
          if d.1 < 5 then 2 ^ (-54 : ℤ) else 1 - 2 ^ (-53 : ℤ) := by
        rw [hp, mul_one, hg]
        show double (if d.1 < 5 then 2 ^ (-54 : ℤ) else 1 - 2 ^ (-53 : ℤ)) = _
        split_ifs
        · rw [tiny_double]
        · rw [double_near (y := 2 ^ 53 - 1) (2 ^ 53 - 1) (-53)] <;> norm_num
      refine ⟨by show s.2.2 + 1 = _; rw [hg], fun hd => ?_, fun e he => ?_⟩
      · show Fp.double.rnd (s.2.1 - Fp.double.rnd ((tinyBeta s.2.2 1 (6 + 1 - d.1 - 1)).1 * s.2.1)) = 1
        rw [hxd, hp, if_pos (by omega)]
        exact one_sub_tiny
      · show setAt s.1 d.castSucc (Fp.double.rnd ((tinyBeta s.2.2 1 (6 + 1 - d.1 - 1)).1 * s.2.1))
          e.castSucc = _
        by_cases hed : e = d
        · subst hed; rw [setAt_same, hxd]
        · rw [setAt_ne _ _ fun hc => hed (Fin.castSucc_injective _ hc)]
          refine hx e ?_
          have : e.1 ≠ d.1 := fun hc => hed (Fin.ext hc)
          omega)
  obtain ⟨-, -, hx⟩ := inv
  refine (setAt_same _ _ _).trans ?_
  have hx' : ∀ d : Fin 6, _ := fun d => hx d d.2
  rw [show (List.ofFn fun d : Fin 6 => _) = _ from congrArg List.ofFn (funext hx')]
  show double (1 - double (double (double (double (double (double (0 + 2 ^ (-54 : ℤ)) + 2 ^ (-54 : ℤ)) +
    2 ^ (-54 : ℤ)) + 2 ^ (-54 : ℤ)) + 2 ^ (-54 : ℤ)) + (1 - 2 ^ (-53 : ℤ)))) = _
  have s2 : double (2 ^ (-54 : ℤ) + 2 ^ (-54 : ℤ)) = 2 * 2 ^ (-54 : ℤ) := by
    rw [double_near (y := 2 ^ 52) (2 ^ 52) (-105)] <;> norm_num
  have s3 : double (2 * 2 ^ (-54 : ℤ) + 2 ^ (-54 : ℤ)) = 3 * 2 ^ (-54 : ℤ) := by
    rw [double_near (y := 3 * 2 ^ 51) (3 * 2 ^ 51) (-105)] <;> norm_num
  have s4 : double (3 * 2 ^ (-54 : ℤ) + 2 ^ (-54 : ℤ)) = 4 * 2 ^ (-54 : ℤ) := by
    rw [double_near (y := 2 ^ 52) (2 ^ 52) (-104)] <;> norm_num
  have s5 : double (4 * 2 ^ (-54 : ℤ) + 2 ^ (-54 : ℤ)) = 5 * 2 ^ (-54 : ℤ) := by
    rw [double_near (y := 5 * 2 ^ 50) (5 * 2 ^ 50) (-104)] <;> norm_num
  have s6 : double (5 * 2 ^ (-54 : ℤ) + (1 - 2 ^ (-53 : ℤ))) = 1 + 2 ^ (-52 : ℤ) := by
    rw [double_near (y := 2 ^ 52 + 3 / 4) (2 ^ 52 + 1) (-52)] <;> norm_num [abs_lt]
  have s7 : double (1 - (1 + 2 ^ (-52 : ℤ))) = -2 ^ (-52 : ℤ) := by
    rw [show (1 : ℝ) - (1 + 2 ^ (-52 : ℤ)) = -(2 ^ (-52 : ℤ)) by ring, double_neg,
      double_near (y := 2 ^ 52) (2 ^ 52) (-104)] <;> norm_num
  rw [zero_add, tiny_double, s2, s3, s4, s5, s6, s7]

/-! ## Size of the errors, and examples -/

/-- **C84**: what being within `n` roundings means, as a relative error. -/
theorem C84_relative {rnd : ℝ → ℝ} (h : Rounds rnd u) {n : ℕ} (hn : n * u ≤ 1 / 2) {x y : ℝ} (hy : 0 ≤ y)
    (w : UpTo u n x y) : |x - y| ≤ 2 * n * u * y := by
  have hu := h.nonneg
  have hb : 1 - n * u ≤ (1 - u) ^ n := by
    have := one_add_mul_le_pow (a := -u) (by linarith [h.lt_one]) n
    rw [← sub_eq_add_neg] at this
    linarith
  have hx := w.nonneg_left h hy
  obtain ⟨w1, w2⟩ := w
  have m1 := mul_le_mul_of_nonneg_left hb hx
  have m2 := mul_le_mul_of_nonneg_left hb hy
  set t := n * u with ht
  have t0 : 0 ≤ t := by positivity
  have e : 2 * n * u * y = 2 * t * y := by rw [ht]; ring
  rw [e]
  clear_value t
  have hx2 : x ≤ 2 * y := by nlinarith
  refine abs_le.mpr ⟨?_, ?_⟩ <;> nlinarith

example : FpOk Fp.double (2⁻¹ ^ 53) ∧ (∀ p, 0 ≤ volumes141.volumes p) ∧ (0 < ∑ p, volumes141.volumes p) ∧
    (∀ p i, 0 ≤ volumes141.fractions p i) ∧ ∃ r, volumes141.getClustersF Fp.double ![1, 2, 1] = .ok r := by
  have hv : ∀ p, 0 ≤ volumes141.volumes p := by
    intro p; fin_cases p <;> norm_num [volumes141]
  have hx : ∀ p i, 0 ≤ volumes141.fractions p i := fun _ _ => zero_le_one
  refine ⟨double_ok, hv, by rw [Fin.sum_univ_three]; show (0 : ℝ) < 1 + 4 + 1; norm_num, hx, ?_⟩
  obtain ⟨r', h', -⟩ := C05_clusters_inside volumes141 ![1, 2, 1] (by norm_num) (by
    intro p; fin_cases p <;> norm_num [volumes141])
  rcases C84_clusters double_ok volumes141 hv ![1, 2, 1] hx with ⟨e, -, h2⟩ | ⟨r, -, h1, -⟩
  · rw [h'] at h2; cases h2
  · exact ⟨r, h1⟩

example : |∑ p, (volumes141.normalizeF Fp.double).volumes p - 1| ≤ 2⁻¹ ^ 50 := by
  have hv : ∀ p, 0 ≤ volumes141.volumes p := by
    intro p; fin_cases p <;> norm_num [volumes141]
  have := C84_relative double_ok.rounds (n := 3 + 1) (by norm_num) zero_le_one
    (C84_normalize double_ok volumes141 hv (by rw [Fin.sum_univ_three]; show (0 : ℝ) < 1 + 4 + 1; norm_num)).1
  refine this.trans (by norm_num)

end Flory
