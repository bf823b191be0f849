import Verif.Lemmas.IterationFacts

/-! # Closed forms of the constraint methods -/

set_option linter.unusedSectionVars false

namespace Flory

variable {K G : Type} [Field K] [LinearOrder K] [IsStrictOrderedRing K]
variable {C A S M : ℕ}

theorem residue_eq (Cs : Mat A S K) (Ts : Vec A K) (phi : Mat S M K) (a : Fin A) (m : Fin M) :
    (forRange A (fun a m => ∑ r, Cs a r * phi r m) fun a res => setAt res a fun m =>
      res a m - Ts a) a m = (∑ r, Cs a r * phi r m) - Ts a := by
  rw [forRange_setAt (fun a m => ∑ r, Cs a r * phi r m) (fun a row m => row m - Ts a)]

variable (c : LocalC A S M K) (g : GlobalC A S M K) (phi : Mat S M K) (J mk : Vec M K)

theorem LocalC.prepare_residue (a : Fin A) (m : Fin M) :
    (c.prepare phi J mk).residue a m = ((∑ r, c.Cs a r * phi r m) - c.Ts a) * mk m := by
  simp only [LocalC.prepare]
  rw [residue_eq]

theorem LocalC.prepare_potential (r : Fin S) (m : Fin M) :
    (c.prepare phi J mk).potential r m = (∑ a, c.Cs a r * (c.multiplier a m +
      2 * c.elasticity * ((∑ r, c.Cs a r * phi r m) - c.Ts a))) * mk m := by
  simp only [LocalC.prepare]
  simp only [residue_eq]

theorem LocalC.prepare_volumeDerivative (m : Fin M) :
    (c.prepare phi J mk).volumeDerivative m = (∑ a, ((∑ r, c.Cs a r * phi r m) - c.Ts a) *
      (c.multiplier a m + ((∑ r, c.Cs a r * phi r m) - c.Ts a) * c.elasticity)) * mk m := by
  simp only [LocalC.prepare]
  simp only [residue_eq]
  rw [forRange_add_vec (fun _ => 0) (fun a m => ((∑ r, c.Cs a r * phi r m) - c.Ts a) *
      (c.multiplier a m + ((∑ r, c.Cs a r * phi r m) - c.Ts a) * c.elasticity)), zero_add]

theorem GlobalC.prepare_residue (a : Fin A) :
    (g.prepare phi J mk).residue a =
      (∑ m, ((∑ r, g.Cs a r * phi r m) - g.Ts a) * J m) / ∑ m, J m := by
  simp only [GlobalC.prepare]
  simp only [residue_eq]

theorem GlobalC.prepare_potential (r : Fin S) (m : Fin M) :
    (g.prepare phi J mk).potential r m = (∑ a, g.Cs a r * (g.multiplier a +
      2 * g.elasticity * ∑ m, ((∑ r, g.Cs a r * phi r m) - g.Ts a) * J m)) * mk m := by
  simp only [GlobalC.prepare]
  simp only [residue_eq, mul_one]

theorem GlobalC.prepare_volumeDerivative (m : Fin M) :
    (g.prepare phi J mk).volumeDerivative m = (∑ a, ((∑ r, g.Cs a r * phi r m) - g.Ts a) *
      (g.multiplier a + 2 * (∑ m, ((∑ r, g.Cs a r * phi r m) - g.Ts a) * J m) * g.elasticity))
        * mk m := by
  simp only [GlobalC.prepare]
  simp only [residue_eq]
  rw [forRange_add_vec (fun _ => 0) (fun a m => ((∑ r, g.Cs a r * phi r m) - g.Ts a) *
      (g.multiplier a + 2 * (∑ m, ((∑ r, g.Cs a r * phi r m) - g.Ts a) * J m) * g.elasticity)),
    zero_add]

theorem npMaxPy_spec {n : ℕ} {v : Vec n K} {x : K} (h : npMaxPy v = .ok x) :
    (∀ i, v i ≤ x) ∧ ∃ i, x = v i := by
  cases n with
  | zero => cases h
  | succ n =>
    have : npMax v = x := Except.ok.inj h
    rw [← this]
    exact npMax_spec v

/-- The residue numbers a constraint object holds after `prepare` are bounded by `x`. -/
def Cons.ResidueLe (x : K) : Cons S M K → Prop
  | no _ => True
  | loc _ c => ∀ a m, |c.residue a m| ≤ x
  | glob _ c => ∀ a, |c.residue a| ≤ x

variable [NeZero M]

theorem Cons.evolve_spec {k k' : Cons S M K} {step res : K} {mk : Vec M K}
    (h : k.evolve step mk = .ok (res, k')) :
    0 ≤ res ∧ ∀ x, 0 ≤ x → (res ≤ x ↔ k.ResidueLe x) := by
  cases k with
  | no c =>
    simp only [Cons.evolve, NoC.evolve, bind_ok, pure_eq_ok] at h
    obtain ⟨rfl, -⟩ := Prod.mk.inj (Except.ok.inj h)
    exact ⟨le_rfl, fun x hx => by simp [Cons.ResidueLe, hx]⟩
  | loc A c =>
    obtain ⟨⟨r, c'⟩, h1, h2⟩ := bind_eq_ok.mp h
    obtain ⟨rfl, -⟩ := Prod.mk.inj (Except.ok.inj h2)
    obtain ⟨y, h3, h4⟩ := bind_eq_ok.mp h1
    obtain ⟨rfl, -⟩ := Prod.mk.inj (Except.ok.inj h4)
    obtain ⟨h5, a0, h6⟩ := npMaxPy_spec h3
    obtain ⟨m0, h7⟩ := npMax_mem fun m => |c.residue a0 m|
    refine ⟨by rw [h6, h7]; exact abs_nonneg _, fun x _ => ⟨fun hx a m => ?_, fun hx => ?_⟩⟩
    · exact (le_npMax (fun m => |c.residue a m|) m).trans ((h5 a).trans hx)
    · rw [h6, h7]; exact hx a0 m0
  | glob A c =>
    obtain ⟨⟨r, c'⟩, h1, h2⟩ := bind_eq_ok.mp h
    obtain ⟨rfl, -⟩ := Prod.mk.inj (Except.ok.inj h2)
    obtain ⟨y, h3, h4⟩ := bind_eq_ok.mp h1
    obtain ⟨rfl, -⟩ := Prod.mk.inj (Except.ok.inj h4)
    obtain ⟨h5, a0, h6⟩ := npMaxPy_spec h3
    refine ⟨by rw [h6]; exact abs_nonneg _, fun x _ => ⟨fun hx a => (h5 a).trans hx, fun hx => ?_⟩⟩
    rw [h6]; exact hx a0

theorem evolveCons_spec {cs cs' : List (Cons S M K)} {step acc res : K} {mk : Vec M K}
    (h : evolveCons step mk cs acc = .ok (res, cs')) :
    acc ≤ res ∧ ∀ x, 0 ≤ x → (res ≤ x ↔ acc ≤ x ∧ ∀ k ∈ cs, k.ResidueLe x) := by
  induction cs generalizing acc cs' with
  | nil =>
    obtain ⟨rfl, -⟩ := Prod.mk.inj (Except.ok.inj h)
    simp
  | cons k ks ih =>
    obtain ⟨⟨r, k'⟩, h1, h2⟩ := bind_eq_ok.mp h
    obtain ⟨⟨r2, ks'⟩, h3, h4⟩ := bind_eq_ok.mp h2
    obtain ⟨rfl, -⟩ := Prod.mk.inj (Except.ok.inj h4)
    obtain ⟨h5, h6⟩ := ih h3
    refine ⟨(le_max_left _ _).trans h5, fun x hx => ?_⟩
    rw [h6 x hx, max_le_iff, (Cons.evolve_spec h1).2 x hx]
    simp [and_assoc]

/-- Evolving keeps the kind, coefficients, targets and numerical parameters of the constraints. -/
def Cons.SameSetup : Cons S M K → Cons S M K → Prop
  | no _, no _ => True
  | loc A c, loc A' c' => ∃ h : A = A', h ▸ c.Cs = c'.Cs ∧ h ▸ c.Ts = c'.Ts ∧
      c.elasticity = c'.elasticity ∧ c.acceptanceRatio = c'.acceptanceRatio
  | glob A c, glob A' c' => ∃ h : A = A', h ▸ c.Cs = c'.Cs ∧ h ▸ c.Ts = c'.Ts ∧
      c.elasticity = c'.elasticity ∧ c.acceptanceRatio = c'.acceptanceRatio
  | _, _ => False

end Flory
