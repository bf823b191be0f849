import Verif.Lemmas.UnitsRun
import Verif.Lemmas.ShortcutEq
import Verif.Props.Stability

/-!
# C96: the unit of molecular size is arbitrary
-/

set_option linter.unusedSectionVars false

namespace Flory

open XReal SizeUnit Spec

section Pass

variable {K G : Type} [Field K] [LinearOrder K] [IsStrictOrderedRing K] {C S M : ℕ} [NeZero M] {k : K}

/-- **C96**, one pass of the iteration, with constraints, deaths and revivals: in another unit the
fractions, volumes, masks and residues are the same, and fields and energies are multiplied by `k`.
If the pass raises, it raises the same exception. -/
theorem C96_pass (hk : 0 < k) {e e' : RunEnv C S M K G} (h : InUnit k e e') (tries : ℤ) (count : ℕ)
    (s : State C S M K G) :
    iterate e'.ia e'.en e'.es e'.rng e'.params tries count (s.inUnit k) =
      (iterate e.ia e.en e.es e.rng e.params tries count s).map (Trace.inUnit k) :=
  iterate_inUnit hk h tries count s

/-- **C96**, whole runs: if a run returns phases after `n` metasteps of `inner` passes, then the run of
as many passes in another unit returns the same phases. -/
theorem C96_run (hk : 0 < k) {e e' : RunEnv C S M K G} (h : InUnit k e e') {maxSteps : ℚ} {tol : K}
    {interval : ℤ} {st : State C S M K G} {left : ℤ} {f : RunState C S M K G} {ph : Phases M C K}
    {d : Diagnostics K} (hr : runImpl e maxSteps tol interval st left = (f, .ok (ph, d))) :
    ∃ n inner : ℕ, 0 < n ∧ 0 < inner ∧ d.steps = n * inner ∧
      runImpl e' (n * inner : ℕ) 0 inner (st.inUnit k) left = (f.inUnit k, .ok (ph, d.inUnit k)) :=
  run_inUnit hk h hr

end Pass

section Systems

variable {G : Type} {C S M : ℕ} [NeZero M] {k : ℝ}

theorem fhCompiled_inUnit (k : ℝ) (chis : Mat S S ℝ) (shift : ℝ) :
    FHCompiled.new (fun r s => k * chis r s) (k * shift) =
      ⟨fun r s => k * chis r s, k * (FHCompiled.new chis shift).coef⟩ := by
  unfold FHCompiled.new
  congr 1
  simp only [← Finset.mul_sum]
  ring

theorem fhPotential_inUnit (k : ℝ) (chis : Mat S S ℝ) (c c' : ℝ) (ph : Mat S M ℝ) (r : Fin S)
    (m : Fin M) : (FHCompiled.mk (fun r s => k * chis r s) c').potential ph r m =
      k * (FHCompiled.mk chis c).potential ph r m := by
  unfold FHCompiled.potential
  rw [Finset.mul_sum]
  exact Finset.sum_congr rfl fun s _ => by ring

theorem fhVd_inUnit (k : ℝ) (c c' : FHCompiled S ℝ) (p ph : Mat S M ℝ) (m : Fin M) :
    c'.volumeDerivative (fun r m => k * p r m) ph m = k * c.volumeDerivative p ph m := by
  unfold FHCompiled.volumeDerivative
  simp only [forRange_add_vec, zero_add, mul_assoc]
  rw [← mul_assoc, Finset.mul_sum]

theorem exp_inUnit (hk : 0 < k) (w x : ℝ) : Real.exp (-(k * w) * (x / k)) = Real.exp (-w * x) := by
  congr 1
  field_simp

theorem ideal_partition (hk : 0 < k) (l : Vec C ℝ) (ph om : Mat C M ℝ) (Js : Vec M ℝ) :
    (⟨fun i => l i / k⟩ : IdealC C).partition ph (fun r m => k * om r m) Js =
      (⟨l⟩ : IdealC C).partition ph om Js := by
  unfold IdealC.partition
  simp only [exp_inUnit hk]

theorem gas_vd (l : Vec C ℝ) (ph : Mat C M ℝ) (m : Fin M) :
    (forRange C (fun _ => 0) fun i (ans : Vec M ℝ) m => ans m - ph i m / (l i / k)) m =
      k * (forRange C (fun _ => 0) fun i (ans : Vec M ℝ) m => ans m - ph i m / l i) m := by
  rw [forRange_sub_vec (fun _ => 0) (fun i m => ph i m / (l i / k)),
    forRange_sub_vec (fun _ => 0) (fun i m => ph i m / l i)]
  rw [zero_sub, zero_sub, mul_neg, Finset.mul_sum]
  congr 1
  exact Finset.sum_congr rfl fun i _ => by rw [div_div_eq_mul_div, mul_comm, mul_div_assoc]

theorem poly_partition (hk : 0 < k) (l : Vec C ℝ) (n : Vec S ℕ) (ph : Mat C M ℝ) (om : Mat S M ℝ)
    (Js : Vec M ℝ) :
    (⟨fun i => l i / k, n⟩ : PolyC C S).partition ph (fun r m => k * om r m) Js =
      (⟨l, n⟩ : PolyC C S).partition ph om Js := by
  have hread : ∀ i, readAt (fun i => l i / k) i = readAt l i >>= fun x => .ok (x / k) := by
    intro i
    unfold readAt
    split <;> rfl
  unfold PolyC.partition
  simp only [hread, bind_assoc, bind_ok, exp_inUnit hk]

/-- **C96**, the systems: Flory-Huggins interactions with ideal gas or polydisperse entropy in any
ensemble. The interaction and its shift are multiplied by `k`, the sizes and the acceptance of the
volumes are divided by `k`. -/
theorem C96_systems (hk : 0 < k) (chis : Mat S S ℝ) (shift : ℝ) (es : EnsembleI C M ℝ) (rng : Rng G ℝ)
    (p : Params ℝ) (criterion : String) (crash crash' : State C S M ℝ G → State C S M ℝ G) :
    (∀ (l : Vec C ℝ) (n : Vec S ℕ),
      InUnit k ⟨(FHCompiled.new chis shift).toI M, (⟨l, n⟩ : PolyC C S).toI M, es, rng, p, criterion, crash⟩
        ⟨(FHCompiled.new (fun r s => k * chis r s) (k * shift)).toI M,
          (⟨fun i => l i / k, n⟩ : PolyC C S).toI M, es, rng,
          { p with acceptanceJs := p.acceptanceJs / k }, criterion, crash'⟩) ∧
    (∀ (l : Vec S ℝ) (es : EnsembleI S M ℝ) (crash crash' : State S S M ℝ G → State S S M ℝ G),
      InUnit k ⟨(FHCompiled.new chis shift).toI M, (⟨l⟩ : IdealC S).toI M, es, rng, p, criterion, crash⟩
        ⟨(FHCompiled.new (fun r s => k * chis r s) (k * shift)).toI M,
          (⟨fun i => l i / k⟩ : IdealC S).toI M, es, rng,
          { p with acceptanceJs := p.acceptanceJs / k }, criterion, crash'⟩) := by
  rw [fhCompiled_inUnit]
  refine ⟨fun l n => ⟨fun ph r m => fhPotential_inUnit k chis _ _ ph r m,
      fun q ph m => fhVd_inUnit k (FHCompiled.new chis shift) (FHCompiled.new chis shift) q ph m, fun _ => rfl, poly_partition hk l n, rfl,
      fun ph m => gas_vd l ph m, rfl, rfl, rfl, rfl, rfl, rfl, rfl, rfl⟩,
    fun l es _ _ => ⟨fun ph r m => fhPotential_inUnit k chis _ _ ph r m,
      fun q ph m => fhVd_inUnit k (FHCompiled.new chis shift) (FHCompiled.new chis shift) q ph m, fun _ => rfl, ideal_partition hk l, rfl,
      fun ph m => gas_vd l ph m, rfl, rfl, rfl, rfl, rfl, rfl, rfl, rfl⟩⟩

end Systems

section FreeEnergy

variable {C : ℕ} {k : ℝ}

theorem mulR_add (hk : 0 < k) (a b : XReal) : (a + b).mulR k = a.mulR k + b.mulR k := by
  cases a <;> cases b <;> simp [HAdd.hAdd, Add.add, XReal.add, mulR, hk]
  exact add_mul _ _ _

theorem mulR_neg (hk : 0 < k) (a : XReal) : (-a).mulR k = -(a.mulR k) := by
  cases a <;> simp [Neg.neg, XReal.neg, mulR, hk]
  exact neg_mul _ _

theorem mulR_sub (hk : 0 < k) (a b : XReal) : (a - b).mulR k = a.mulR k - b.mulR k := by
  show (a.add b.neg).mulR k = (a.mulR k).add (b.mulR k).neg
  rw [show a.add b.neg = a + -b from rfl, mulR_add hk, mulR_neg hk]
  rfl

theorem mulR_divR (hk : 0 < k) (a : XReal) (l : ℝ) : a.divR (l / k) = (a.divR l).mulR k := by
  have h0 : l / k = 0 ↔ l = 0 := by simp [hk.ne']
  have h1 : l / k < 0 ↔ l < 0 := by rw [div_lt_iff₀ hk, zero_mul]
  cases a with
  | fin x =>
    simp only [divR, h0]
    split_ifs <;> simp [mulR, hk]
    field_simp
  | pinf => simp only [divR, h1]; split_ifs <;> simp [mulR, hk]
  | ninf => simp only [divR, h1]; split_ifs <;> simp [mulR, hk]
  | nan => rfl

theorem mulR_sum (hk : 0 < k) {n : ℕ} (v : Vec n XReal) :
    XReal.sum (fun i => (v i).mulR k) = (XReal.sum v).mulR k := by
  unfold XReal.sum
  rw [show (fin 0 : XReal) = (fin 0).mulR k by simp [mulR]]
  conv_rhs => rw [show ((fin 0).mulR k : XReal) = fin 0 by simp [mulR]]
  exact forRange_hom (φ := fun x : XReal => x.mulR k) fun i x => (mulR_add hk x (v i)).symm

theorem fhFree_energy_inUnit (hk : 0 < k) (chis : Mat C C ℝ) (l x : Vec C ℝ) :
    (fhFree (fun i j => k * chis i j) fun i => l i / k).energyImpl x =
      ((fhFree chis l).energyImpl x).mulR k := by
  show fin (fhEnergy (fun i j => k * chis i j) x) + gasEnergy (fun i => l i / k) x =
    (fin (fhEnergy chis x) + gasEnergy l x).mulR k
  rw [mulR_add hk]
  congr 1
  · show fin _ = fin _
    congr 1
    unfold fhEnergy
    rw [mul_assoc, Finset.sum_mul]
    congr 1
    refine Finset.sum_congr rfl fun i _ => ?_
    rw [Finset.sum_mul]
    exact Finset.sum_congr rfl fun j _ => by ring
  · unfold gasEnergy
    rw [← mulR_sum hk]
    simp only [mulR_divR hk]

theorem fhFree_jacobian_inUnit (hk : 0 < k) (chis : Mat C C ℝ) (l x : Vec C ℝ) (i : Fin C) :
    (fhFree (fun i j => k * chis i j) fun i => l i / k).jacobianImpl x i =
      ((fhFree chis l).jacobianImpl x i).mulR k := by
  show fin (fhJacobian (fun i j => k * chis i j) x i) + gasJacobian (fun i => l i / k) x i =
    (fin (fhJacobian chis x i) + gasJacobian l x i).mulR k
  rw [mulR_add hk]
  congr 1
  · show fin _ = fin _
    congr 1
    unfold fhJacobian
    rw [Finset.sum_mul]
    exact Finset.sum_congr rfl fun j _ => by ring
  · unfold gasJacobian
    rw [mulR_add hk, mulR_divR hk, mulR_divR hk]

theorem fhFree_fractions_inUnit (hk : 0 < k) (chis : Mat C C ℝ) (l x : Vec C ℝ) (i : Fin C) :
    (fhFree (fun i j => k * chis i j) fun i => l i / k).jacobianFractionsImpl x i =
      ((fhFree chis l).jacobianFractionsImpl x i).mulR k := by
  show (fin (fhJacobian (fun i j => k * chis i j) x i)).mulR (x i) +
      gasJacobianFractions (fun i => l i / k) x i =
    ((fin (fhJacobian chis x i)).mulR (x i) + gasJacobianFractions l x i).mulR k
  rw [mulR_add hk]
  congr 1
  · show fin _ = fin _
    congr 1
    unfold fhJacobian
    rw [Finset.sum_mul, Finset.sum_mul, Finset.sum_mul]
    exact Finset.sum_congr rfl fun j _ => by ring
  · unfold gasJacobianFractions
    rw [mulR_add hk, mulR_divR hk, mulR_divR hk]

/-- **C96**, the free energy: its density and derivatives, the chemical potentials and the pressure are
multiplied by `k`, for every array of compositions; also where they are infinite. -/
theorem C96_free_energy (hk : 0 < k) (chis : Mat C C ℝ) (l : Vec C ℝ) (phis : NDArr ℝ) (index : ℤ) :
    let fe := fhFree chis l
    let fe' := fhFree (fun i j => k * chis i j) fun i => l i / k
    let scale := fun (v : Vec C XReal) i => (v i).mulR k
    fe'.freeEnergyDensity phis = (fe.freeEnergyDensity phis).map (Rows.map fun x => x.mulR k) ∧
    fe'.jacobian phis = (fe.jacobian phis).map (Rows.map scale) ∧
    fe'.jacobianAt phis index = (fe.jacobianAt phis index).map (Rows.map fun v i => (v i).mulR k) ∧
    fe'.chemicalPotentials phis = (fe.chemicalPotentials phis).map (Rows.map scale) ∧
    fe'.exchangeChemicalPotentials phis index =
      (fe.exchangeChemicalPotentials phis index).map (Rows.map scale) ∧
    fe'.pressure phis index = (fe.pressure phis index).map (Rows.map fun x => x.mulR k) := by
  intro fe fe' scale
  have hc : fe'.checkVolumeFractions phis = fe.checkVolumeFractions phis := rfl
  have hE : fe'.energyImpl = fun x => (fe.energyImpl x).mulR k :=
    funext fun x => fhFree_energy_inUnit hk chis l x
  have hJ : fe'.jacobianImpl = fun x i => (fe.jacobianImpl x i).mulR k :=
    funext fun x => funext fun i => fhFree_jacobian_inUnit hk chis l x i
  have hF : fe'.jacobianFractionsImpl = fun x i => (fe.jacobianFractionsImpl x i).mulR k :=
    funext fun x => funext fun i => fhFree_fractions_inUnit hk chis l x i
  have h1 : fe'.freeEnergyDensity phis = (fe.freeEnergyDensity phis).map (Rows.map fun x => x.mulR k) := by
    unfold FreeEnergy.freeEnergyDensity
    rw [hc, hE]
    cases fe.checkVolumeFractions phis <;> rfl
  have h2 : fe'.jacobian phis = (fe.jacobian phis).map (Rows.map scale) := by
    unfold FreeEnergy.jacobian
    rw [hc, hJ]
    cases fe.checkVolumeFractions phis <;> rfl
  have h4 : fe'.chemicalPotentials phis = (fe.chemicalPotentials phis).map (Rows.map scale) := by
    unfold FreeEnergy.chemicalPotentials
    rw [h1, h2, hc, hF]
    cases hp : fe.checkVolumeFractions phis with
    | error e => rfl
    | ok p =>
      have e1 : fe.freeEnergyDensity phis = .ok (p.map fe.energyImpl) := by
        unfold FreeEnergy.freeEnergyDensity; rw [hp]; rfl
      have e2 : fe.jacobian phis = .ok (p.map fe.jacobianImpl) := by
        unfold FreeEnergy.jacobian; rw [hp]; rfl
      rw [e1, e2]
      simp only [Except.map, bind_ok, pure, Except.pure]
      congr 1
      simp only [Rows.map, mulR_sum hk, scale, mulR_add hk, mulR_sub hk]
      rfl
  refine ⟨h1, h2, ?_, h4, ?_, ?_⟩
  · unfold FreeEnergy.jacobianAt
    rw [hc, hJ]
    cases fe.checkVolumeFractions phis with
    | error e => rfl
    | ok p =>
      simp only [bind_ok]
      cases normIndex C index with
      | error e => rfl
      | ok j => simp only [bind_ok, Rows.map, Except.map, pure, Except.pure, mulR_sub hk]
  · unfold FreeEnergy.exchangeChemicalPotentials
    rw [h2]
    cases fe.jacobian phis with
    | error e => rfl
    | ok p =>
      simp only [Except.map, bind_ok]
      cases normIndex C index with
      | error e => rfl
      | ok j => simp only [bind_ok, Rows.map, pure, Except.pure, scale, mulR_sub hk]
  · unfold FreeEnergy.pressure
    rw [h4]
    cases fe.chemicalPotentials phis with
    | error e => rfl
    | ok p =>
      simp only [Except.map, bind_ok]
      cases normIndex C index with
      | error e => rfl
      | ok j => simp only [bind_ok, Rows.map, pure, Except.pure, scale, mulR_neg hk]

/-- **C55 fails**, again: `is_stable` depends on the unit of molecular size. A symmetric binary mixture
is reported stable if its molecules have size two, and unstable if the same molecules are described as
having size one. -/
theorem C55_depends_on_unit :
    ∃ r r', (fhFree (C := 2) ![![0, 2], ![2, 0]] fun _ => 2).isStable
        (NDArr.ofVec (n := 2) fun _ => 1 / 2) = .ok r ∧ r.row [] = true ∧
      (fhFree (C := 2) (fun i j => 2 * (![![0, 2], ![2, 0]] : Mat 2 2 ℝ) i j) fun _ => 2 / 2).isStable
        (NDArr.ofVec (n := 2) fun _ => 1 / 2) = .ok r' ∧ r'.row [] = false := by
  obtain ⟨r, h1, h2, -⟩ := C55_stability_wrong
  set X : Mat 2 2 ℝ := fun i j => 2 * (![![0, 2], ![2, 0]] : Mat 2 2 ℝ) i j with hX
  have hs : ∀ i j, X i j = X j i := by
    intro i j; fin_cases i <;> fin_cases j <;> rfl
  have hcomp : composition 2 (NDArr.ofVec (fun _ : Fin 2 => (1 / 2 : ℝ))) [] = fun _ => 1 / 2 :=
    funext fun i => ofVec_get _ i
  have hpos : ∀ idx, ValidIndex idx [] → ∀ i, 0 < composition 2
      (NDArr.ofVec (fun _ : Fin 2 => (1 / 2 : ℝ))) idx i := by
    intro idx hi i
    cases hi
    rw [hcomp]
    norm_num
  obtain ⟨⟨full, hf, -, hH⟩, -, r', hr', -⟩ := isStable_ok (n := 1) (chis := X)
    (l := fun _ => 2 / 2) (phis := NDArr.ofVec (n := 2) fun _ => 1 / 2) (lead := []) rfl hpos
  have hH := hH [] .nil
  rw [hcomp] at hH
  refine ⟨r, r', h1, h2, hr', ?_⟩
  have key := (C53_is_stable hf hH (reported_symm hs _ _)).1 r' hr'
  rw [← Bool.not_eq_true, key]
  intro hc
  have h3 := hc (exchange 0 1) (by simp [Conserving, exchange])
  have e := quad_diag X
    (fun i => (fun _ : Fin 2 => (2 / 2 : ℝ)) i / (fun _ : Fin 2 => (1 / 2 : ℝ)) i) (exchange 0 1)
  have e' : quad (reportedHessian X (fun _ => 2 / 2) fun _ => 1 / 2) (exchange 0 1) = _ := e
  rw [e'] at h3
  unfold quad exchange at h3
  simp only [hX, Fin.sum_univ_two, Matrix.cons_val_zero, Matrix.cons_val_one, Pi.sub_apply,
    Pi.single_apply] at h3
  norm_num at h3

end FreeEnergy

section Search

variable {G : Type} {C : ℕ} {k : ℝ}

/-- A constraint as compiled, in another unit. -/
noncomputable def ConsNew.inUnit {S : ℕ} (k : ℝ) : ConsNew S → ConsNew S
  | .no => .no
  | .loc A Cs Ts a e => .loc A Cs Ts (k * a) (k * e)
  | .glob A Cs Ts a e => .glob A Cs Ts (k * a) (k * e)

theorem start_inUnit (k : ℝ) (M : ℕ) (n : ConsNew C) :
    ((n.inUnit k).start M).reset = ((n.start M).reset).inUnit k := by
  cases n with
  | no =>
    simp only [ConsNew.inUnit, ConsNew.start, Cons.reset, Cons.inUnit, NoC.reset, NoC.new, mul_zero]
  | loc A Cs Ts a e =>
    simp only [ConsNew.inUnit, ConsNew.start, Cons.reset, Cons.inUnit, LocalC.reset, LocalC.new, mul_zero]
  | glob A Cs Ts a e =>
    simp only [ConsNew.inUnit, ConsNew.start, Cons.reset, Cons.inUnit, GlobalC.reset, GlobalC.new, mul_zero]

/-- The compiled form of a linear constraint. -/
noncomputable def linearNew (kw : Dict ℝ) (o : LinearConstraint C) : ConsNew C :=
  if o.isGlobal then .glob o.numCons o.Cs o.Ts ((kw.get? "constraint_acceptance_ratio").getD 1)
    ((kw.get? "constraint_elasticity").getD 1)
  else .loc o.numCons o.Cs o.Ts ((kw.get? "constraint_acceptance_ratio").getD 1)
    ((kw.get? "constraint_elasticity").getD 1)

theorem linearNew_inUnit {kw kw' : Dict ℝ}
    (h : ∀ name ∈ ["additional_chis_shift", "constraint_acceptance_ratio", "constraint_elasticity"],
      (kw'.get? name).getD 1 = k * (kw.get? name).getD 1) (o : LinearConstraint C) :
    linearNew kw' o = (linearNew kw o).inUnit k := by
  unfold linearNew
  rw [h "constraint_acceptance_ratio" (by simp), h "constraint_elasticity" (by simp)]
  split <;> rfl

theorem compileAll_linear (M : ℕ) (kw : Dict ℝ) (cs : List (LinearConstraint C)) :
    compileAll (M := M) ((cs.map LinearConstraint.obj).map fun c => (c, kw)) =
      (cs.map fun c => .ofNew ⟨C, linearNew kw c⟩, none) := by
  induction cs with
  | nil => rfl
  | cons c cs ih =>
    simp only [List.map_cons, compileAll, ih]
    rw [InstObj.compiled_eq]
    simp only [LinearConstraint.obj]
    rfl

/-- The compiled constraints of a finder. -/
noncomputable def newCons (kw : Dict ℝ) : List (LinearConstraint C) → List (ConsNew C)
  | [] => [.no]
  | c :: cs => (c :: cs).map (linearNew kw)

theorem initConstraints_linear (M : ℕ) (kw : Dict ℝ) (cs : List (LinearConstraint C)) :
    initConstraints M C kw (.many (cs.map LinearConstraint.obj)) =
      ((newCons kw cs).map fun n => .ofNew ⟨C, n⟩, none) := by
  cases cs with
  | nil => rfl
  | cons c cs =>
    have := compileAll_linear M kw (c :: cs)
    simp only [List.map_cons] at this ⊢
    simp only [initConstraints, newCons, List.map_cons, List.map_map]
    rw [← List.map_map]
    exact this.trans (by simp [Function.comp_def])

theorem newCons_inUnit {kw kw' : Dict ℝ}
    (h : ∀ name ∈ ["additional_chis_shift", "constraint_acceptance_ratio", "constraint_elasticity"],
      (kw'.get? name).getD 1 = k * (kw.get? name).getD 1) (cs : List (LinearConstraint C)) :
    newCons kw' cs = (newCons kw cs).map (ConsNew.inUnit k) := by
  cases cs with
  | nil => rfl
  | cons c cs =>
    unfold newCons
    rw [List.map_map]
    exact List.map_congr_left fun o _ => linearNew_inUnit h o

theorem compile_inUnit [NeZero C] (hk : 0 < k) (chis : Mat C C ℝ) (shift : ℝ) :
    (⟨fun i j => k * chis i j, false⟩ : FHInteraction C ℝ).compile (k * shift) =
      FHCompiled.new (fun i j => k * chis i j) (k * (-matMin chis + shift)) := by
  unfold FHInteraction.compile
  have : matMin (fun i j => k * chis i j) = k * matMin chis := by
    unfold matMin
    rw [← npMin_mul hk]
    congr 1
    funext r
    exact npMin_mul hk _
  simp only [this]
  congr 1
  ring

/-- **C96**, the whole search with any linear constraints: if `find_coexisting_phases` returns phases,
then the search in another unit, with the same random numbers and as many steps, returns the same
phases. -/
theorem C96_search [NeZero C] (hk : 0 < k) {env : FinderEnv G} {ext : PhasesExt} {g : G}
    {chis : Mat C C ℝ} {l phi : Vec C ℝ} {cs : List (LinearConstraint C)} {a : FinderArgs}
    {r : ShortcutResult}
    (h : findCoexistingPhases env ext g C (NDArr.ofMat chis) (some (NDArr.ofVec phi))
      (some (NDArr.ofVec l)) (.many (cs.map LinearConstraint.obj)) a = .ok r) :
    ∃ n inner : ℕ, 0 < n ∧ 0 < inner ∧ r.info.steps = n * inner ∧ ∀ a' : FinderArgs, a.InUnit k a' →
      a'.maxSteps = (n * inner : ℕ) → a'.interval = inner → a'.tolerance = 0 →
      findCoexistingPhases env ext g C (NDArr.ofMat fun i j => k * chis i j) (some (NDArr.ofVec phi))
        (some (NDArr.ofVec fun i => l i / k)) (.many (cs.map LinearConstraint.obj)) a' =
          .ok { r with info := r.info.inUnit k } := by
  have hC : 0 < C := Nat.pos_of_ne_zero (NeZero.ne C)
  set M := Finder.partNumber a.numPart C with hM
  have hM0 : NeZero M := ⟨by
    rw [hM]
    unfold Finder.partNumber
    split
    · omega
    · split <;> omega⟩
  have hstd : 0 ≤ a.randomStd := by
    unfold findCoexistingPhases at h
    obtain ⟨_, -, h⟩ := bind_eq_ok.mp h
    obtain ⟨_, -, h⟩ := bind_eq_ok.mp h
    obtain ⟨_, -, h⟩ := bind_eq_ok.mp h
    obtain ⟨_, -, h⟩ := bind_eq_ok.mp h
    obtain ⟨_, h, -⟩ := bind_eq_ok.mp h
    obtain ⟨_, _, _, -, -, -, h, -⟩ := create_ok h
    exact h
  rw [shortcut_eq ext g chis l phi hM.symm (initConstraints_linear M a.kwargs cs) hstd] at h
  obtain ⟨⟨ph, d⟩, h1, h2⟩ := bind_eq_ok.mp h
  dsimp only at h2
  set e : RunEnv C C M ℝ G := ⟨((⟨fun i j => 1 / 2 * (chis i j + chis j i), false⟩ :
      FHInteraction C ℝ).compile ((a.kwargs.get? "additional_chis_shift").getD 1)).toI M,
    (⟨l⟩ : IdealC C).toI M, (⟨phi⟩ : CanonicalC C ℝ).toI M, env.rng, ⟨a.acceptanceJs,
      a.JsStepUpperBound, a.acceptanceOmega, a.killThreshold, a.reviveScaler⟩, a.criterion,
    env.crash C C M⟩ with he
  set st : State C C M ℝ G := ⟨(Finder.drawNormal env.rng a.randomStd C M g).1, fun _ => 1,
    fun _ _ => 0, fun _ _ => 0, (newCons a.kwargs cs).map fun n => (n.start M).reset,
    (Finder.drawNormal env.rng a.randomStd C M g).2⟩ with hst
  rcases hrun : runImpl e a.maxSteps a.tolerance a.interval st (a.maxRevive * M) with ⟨f, res⟩
  rw [hrun] at h1
  dsimp only at h1
  subst h1
  have hsys := (C96_systems (G := G) (M := M) hk (fun i j => 1 / 2 * (chis i j + chis j i))
    (-matMin (fun i j => 1 / 2 * (chis i j + chis j i)) +
      (a.kwargs.get? "additional_chis_shift").getD 1) ((⟨phi⟩ : CanonicalC C ℝ).toI M) env.rng
    ⟨a.acceptanceJs, a.JsStepUpperBound, a.acceptanceOmega, a.killThreshold, a.reviveScaler⟩ a.criterion
    (env.crash C C M) (env.crash C C M)).2 l ((⟨phi⟩ : CanonicalC C ℝ).toI M) (env.crash C C M)
    (env.crash C C M)
  obtain ⟨n, inner, hn, hi, hd, hr⟩ := C96_run hk (e := e) hsys hrun
  have hinfo : r.info = d := by
    unfold clustered at h2
    obtain ⟨_, -, h2⟩ := bind_eq_ok.mp h2
    obtain ⟨_, -, h2⟩ := bind_eq_ok.mp h2
    rw [← Except.ok.inj h2]
  refine ⟨n, inner, hn, hi, hinfo ▸ hd, fun a' ha hsteps hint htol => ?_⟩
  have hM' : Finder.partNumber a'.numPart C = M := by rw [ha.numPart]
  rw [shortcut_eq ext g _ _ phi hM' (initConstraints_linear M a'.kwargs cs)
    (by rw [ha.randomStd]; positivity)]
  have e1 : (fun i j => 1 / 2 * (k * chis i j + k * chis j i)) =
      fun i j => k * (1 / 2 * (chis i j + chis j i)) := by
    funext i j; ring
  rw [e1, ha.kwargs "additional_chis_shift" (by simp), compile_inUnit hk, hsteps, hint, htol,
    ha.criterion, ha.randomStd, ha.acceptanceJs, ha.acceptanceOmega, ha.bound, ha.kill, ha.scaler,
    ha.maxRevive, drawNormal_mul, newCons_inUnit ha.kwargs, List.map_map]
  have e2 : (fun n : ConsNew C => (n.start M).reset) ∘ ConsNew.inUnit k =
      Cons.inUnit k ∘ fun n : ConsNew C => (n.start M).reset :=
    funext fun n => start_inUnit k M n
  rw [e2, ← List.map_map]
  have hr' := congrArg Prod.snd hr
  dsimp only at hr'
  refine (congrArg (fun x => x >>= fun out => clustered ext out.1 out.2) hr').trans ?_
  rw [bind_ok]
  unfold clustered at h2 ⊢
  obtain ⟨x, hx, h2⟩ := bind_eq_ok.mp h2
  obtain ⟨y, hy, h2⟩ := bind_eq_ok.mp h2
  rw [hx, bind_ok, hy, bind_ok, ← Except.ok.inj h2]
  rfl

theorem newCons_proper {M : ℕ} (kw : Dict ℝ) {cs : List (LinearConstraint C)}
    (hcs : ∀ c ∈ cs, c.numCons ≠ 0) : ∀ c ∈ (newCons kw cs).map fun n => (n.start M).reset, c.Proper := by
  intro c hc
  obtain ⟨n, hn, rfl⟩ := List.mem_map.mp hc
  cases cs with
  | nil =>
    rw [List.mem_singleton.mp hn]
    trivial
  | cons c₀ cs =>
    obtain ⟨o, ho, rfl⟩ := List.mem_map.mp hn
    unfold linearNew
    split
    · exact hcs o ho
    · exact hcs o ho

/-- **C59**, the shortcut also returns a result with any linear constraints. -/
theorem C59_returns_constrained [NeZero C] {env : FinderEnv G} (hrng : env.rng.Ok) (ext : PhasesExt) (g : G)
    (chis : Mat C C ℝ) (l phi : Vec C ℝ) {cs : List (LinearConstraint C)}
    (hcs : ∀ c ∈ cs, c.numCons ≠ 0) {a : FinderArgs} (hstd : 0 ≤ a.randomStd)
    (hthr : 0 ≤ a.killThreshold) (hthr1 : a.killThreshold < 1)
    (hthr2 : 2 * a.killThreshold * ((Finder.partNumber a.numPart C : ℝ) - 1) < 1)
    (hb : 0 < a.JsStepUpperBound) (hcrit : a.criterion = "standard") (h1 : 0 < a.maxSteps)
    (h2 : 0 < a.interval) :
    ∃ r, findCoexistingPhases env ext g C (NDArr.ofMat chis) (some (NDArr.ofVec phi))
      (some (NDArr.ofVec l)) (.many (cs.map LinearConstraint.obj)) a = .ok r := by
  have hC : 0 < C := Nat.pos_of_ne_zero (NeZero.ne C)
  set M := Finder.partNumber a.numPart C with hM
  have hM0 : NeZero M := ⟨by
    rw [hM]
    unfold Finder.partNumber
    split
    · omega
    · split <;> omega⟩
  rw [shortcut_eq ext g chis l phi hM.symm (initConstraints_linear M a.kwargs cs) hstd]
  obtain ⟨s', ph, d, hrun⟩ := run_ok (e := ⟨((⟨fun i j => 1 / 2 * (chis i j + chis j i), false⟩ :
      FHInteraction C ℝ).compile ((a.kwargs.get? "additional_chis_shift").getD 1)).toI M,
    (⟨l⟩ : IdealC C).toI M, (⟨phi⟩ : CanonicalC C ℝ).toI M, env.rng, ⟨a.acceptanceJs,
      a.JsStepUpperBound, a.acceptanceOmega, a.killThreshold, a.reviveScaler⟩, a.criterion,
    env.crash C C M⟩) (tol := a.tolerance) hrng (IdealC.isIdealGas _) (CanonicalC.total _) hthr hthr1 hthr2 hb hcrit h1 h2
    ⟨(Finder.drawNormal env.rng a.randomStd C M g).1, fun _ => 1, fun _ _ => 0, fun _ _ => 0,
      (newCons a.kwargs cs).map fun n => (n.start M).reset, (Finder.drawNormal env.rng a.randomStd C M g).2⟩
    (a.maxRevive * M) (newCons_proper a.kwargs hcs) (Or.inl ⟨0, hthr1⟩)
  rw [hrun]
  dsimp only
  rw [bind_ok]
  obtain ⟨_, _, _, _, hs⟩ := run_source hrng hthr hrun
  have hvol : ∀ p, 0 < ph.volumes p := fun p => lt_of_le_of_lt hthr (hs.volumes p)
  have hcl : ∃ c, ph.getClusters (ext.labels ph) = .ok c := by
    by_cases hP : 2 ≤ M
    · obtain ⟨c, hc, -⟩ := C05_clusters_inside ph (ext.labels ph) hP hvol
      exact ⟨c, hc⟩
    · unfold Phases.getClusters
      rw [if_pos (not_le.mp hP)]
      exact ⟨_, rfl⟩
  obtain ⟨c, hc⟩ := hcl
  obtain ⟨s, hs⟩ := C02_sort_succeeds ext.argsort c.2 hC.ne'
  refine ⟨⟨s.1, C, s.2.normalize, d⟩, ?_⟩
  unfold clustered
  simp only [bind_ok, hc, hs]
  rfl

/-- The hypotheses of C96 are met by the default search for a ternary mixture with a local and a global
constraint, here in a unit that is a hundred times larger. -/
example {env : FinderEnv G} (hrng : env.rng.Ok) (ext : PhasesExt) (g : G) (chis : Mat 3 3 ℝ)
    (cs : List (LinearConstraint 3)) (hcs : cs = [⟨false, 1, ![![1, -1, 0]], ![0]⟩, ⟨true, 1, ![![0, 0, 1]], ![1 / 6]⟩]) :
    ∃ (r : ShortcutResult) (a' : FinderArgs), FinderArgs.InUnit 100 {} a' ∧
      findCoexistingPhases env ext g 3 (NDArr.ofMat chis) (some (NDArr.ofVec ![1 / 2, 1 / 3, 1 / 6]))
        (some (NDArr.ofVec ![1, 20, 300])) (.many (cs.map LinearConstraint.obj)) {} = .ok r ∧
      findCoexistingPhases env ext g 3 (NDArr.ofMat fun i j => 100 * chis i j)
        (some (NDArr.ofVec ![1 / 2, 1 / 3, 1 / 6])) (some (NDArr.ofVec fun i => ![1, 20, 300] i / 100))
        (.many (cs.map LinearConstraint.obj)) a' = .ok { r with info := r.info.inUnit 100 } := by
  obtain ⟨r, hr⟩ := C59_returns_constrained hrng ext g (C := 3) chis ![1, 20, 300] ![1 / 2, 1 / 3, 1 / 6]
    (cs := cs) (by subst hcs; simp) (a := {}) (by norm_num) (by norm_num) (by norm_num) (by norm_num)
    (by norm_num) rfl (by norm_num) (by norm_num)
  obtain ⟨n, inner, -, -, -, h⟩ := C96_search (k := 100) (by norm_num) hr
  set a' : FinderArgs :=
    { maxSteps := (n * inner : ℕ)
      interval := inner
      tolerance := 0
      randomStd := 100 * 5
      acceptanceJs := 2 / 10000 / 100
      kwargs := [("additional_chis_shift", 100), ("constraint_acceptance_ratio", 100),
        ("constraint_elasticity", 100)] } with ha
  have hin : FinderArgs.InUnit 100 {} a' := by
    refine ⟨rfl, rfl, rfl, rfl, rfl, rfl, rfl, rfl, rfl, fun name hname => ?_⟩
    simp only [List.mem_cons, List.not_mem_nil, or_false] at hname
    rcases hname with rfl | rfl | rfl <;> simp [ha, Dict.get?, List.lookup]
  exact ⟨r, a', hin, hr, h a' hin rfl rfl rfl⟩

end Search

end Flory
