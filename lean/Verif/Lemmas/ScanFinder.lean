import Verif.Spec.Scan
import Verif.Lemmas.Finder

/-! # Scans with a finder -/

set_option linter.unusedSectionVars false

namespace Flory

open Spec

variable {G : Type} {C S M : ℕ}

/-- Setters keep all arrays. -/
theorem setters_keep {env : FinderEnv G} (ops : List FinderOp) (h : ∀ op ∈ ops, IsSetter op) (f : Finder G) :
    ∃ ia es b, (f.steps env ops).1 = { f with interaction := ia, ensemble := es, reviveLeft := b } := by
  induction ops generalizing f with
  | nil => exact ⟨_, _, _, rfl⟩
  | cons op ops ih =>
    have ih := ih fun op h' => h op (List.mem_cons_of_mem _ h')
    have key : ∃ ia es b, (f.step env op).1 = { f with interaction := ia, ensemble := es, reviveLeft := b } := by
      have hop := h op List.mem_cons_self
      cases op with
      | setInteraction o r kw =>
        show ∃ ia es b, (f.setInteraction o r kw).1 = { f with interaction := ia, ensemble := es, reviveLeft := b }
        unfold Finder.setInteraction
        cases hc : o.compiled (f.kwargs.merge kw) with
        | error e => exact ⟨_, _, _, rfl⟩
        | ok x =>
          dsimp only
          cases hs : Finder.checkSizes f.numComp f.numFeat none (some x.1) with
          | error e => exact ⟨_, _, _, rfl⟩
          | ok u =>
            cases r
            · exact ⟨_, _, _, rfl⟩
            · exact ⟨_, _, _, rfl⟩
      | setEnsemble o r kw =>
        show ∃ ia es b, (f.setEnsemble o r kw).1 = { f with interaction := ia, ensemble := es, reviveLeft := b }
        unfold Finder.setEnsemble
        cases hc : o.compiled (f.kwargs.merge kw) with
        | error e => exact ⟨_, _, _, rfl⟩
        | ok x =>
          dsimp only
          cases hs : Finder.checkSizes f.numComp f.numFeat (some x.1) none with
          | error e => exact ⟨_, _, _, rfl⟩
          | ok u =>
            cases r
            · exact ⟨_, _, _, rfl⟩
            · exact ⟨_, _, _, rfl⟩
      | _ => exact hop.elim
    obtain ⟨ia, es, b, e⟩ := key
    obtain ⟨ia', es', b', e'⟩ := ih (f.step env op).1
    refine ⟨ia', es', b', ?_⟩
    show ((f.step env op).1.steps env ops).1 = _
    rw [e', e]

/-- The finder with the arrays of a state. -/
abbrev putState (f : Finder G) (ia : AnyInteraction) (es : AnyEnsemble) (b : ℤ) (d : Option (Diagnostics ℝ))
    (st : State f.numComp f.numFeat f.numPart ℝ G) : Finder G :=
  { f.storeArrays st with
    constraints := st.cons.map fun c => ⟨f.numFeat, true, c⟩
    interaction := ia
    ensemble := es
    reviveLeft := b
    diagnostics := d }

theorem putState_self (f : Finder G) (cons : List (Cons f.numFeat f.numPart ℝ))
    (h : f.constraints = cons.map fun c => ⟨f.numFeat, true, c⟩) :
    putState f f.interaction f.ensemble f.reviveLeft f.diagnostics (f.state cons) = f := by
  show { f with constraints := cons.map fun c => ⟨f.numFeat, true, c⟩ } = f
  rw [← h]

theorem finder_follows [NeZero M] {T : Type} [PseudoMetricSpace T] {feat : Fin C → Fin S} {l : Vec C ℝ}
    {chis : T → Mat S S ℝ} {x : T → Vec C ℝ} {J : T → Vec M ℝ} {phi : T → Mat C M ℝ} {shift : T → ℝ}
    {p : Params ℝ} (h : FollowsBranch G feat l chis x J phi shift p) :
    FinderFollows G feat l chis x J phi shift p := by
  obtain ⟨h, hh, η, hη, τ, hτ, B, hB, H⟩ := h
  refine ⟨h, hh, η, hη, τ, hτ, B, hB, fun offset => ?_⟩
  obtain ⟨K, hK, H⟩ := H offset
  refine ⟨K, hK, fun tol htol htolτ => ?_⟩
  obtain ⟨N, hN, H⟩ := H tol htol htolτ
  refine ⟨N, hN, fun ts hts env hrng f hf calls hcalls maxSteps interval hmax hint hia hes => ?_⟩
  obtain ⟨rfl, rfl, rfl, hp, hcr, ⟨en, hen, hgas⟩, hcons, hvol, hnear, hfield⟩ := hf
  obtain ⟨cons, hcs, htr⟩ : ∃ cs : List (Cons f.numFeat f.numPart ℝ),
      (f.constraints = cs.map fun c => ⟨f.numFeat, true, c⟩) ∧ ∀ c ∈ cs, c.Trivial := by
    generalize f.constraints = l at hcons
    induction l with
    | nil => exact ⟨[], rfl, by simp⟩
    | cons c l ih =>
      obtain ⟨cs, hcs, htr⟩ := ih fun c hc => hcons c (List.mem_cons_of_mem _ hc)
      obtain ⟨n, r, y⟩ := c
      obtain ⟨e1, e2, e3⟩ := hcons ⟨n, r, y⟩ List.mem_cons_self
      simp only at e1 e2
      subst e1 e2
      exact ⟨y :: cs, by rw [hcs]; rfl, by simpa using ⟨e3, htr⟩⟩
  set F := scanFinder env calls maxSteps tol interval f with hF
  set e : ℕ → RunEnv f.numComp f.numFeat f.numPart ℝ G := fun k =>
    { ia := (FHCompiled.new (chis (ts k)) (shift (ts k))).toI f.numPart
      en := en.toI f.numPart
      es := (EnsembleInst.canonical ⟨x (ts k)⟩).toI f.numPart
      rng := env.rng
      params := f.params
      criterion := f.criterion
      crash := env.crash f.numComp f.numFeat f.numPart } with he
  set b : ℕ → ℤ := fun k => (F k).reviveLeft with hb
  have H := H ts hts (fun k => ⟨x (ts k)⟩) (fun k => rfl) e (fun k => ⟨hrng, hcr, rfl, hgas, rfl, hp⟩) (f.state cons)
    hvol (fun m => hnear m m rfl) (fun r m => hfield r r m m rfl rfl) htr maxSteps interval b hmax hint
  set st := scanState e maxSteps tol interval b (f.state cons) with hst
  have hrun : ∀ k ia es d, F k = putState f ia es (b k) d (st k) → ∀ rs ph dg,
      runImpl (e k) (maxSteps k) tol (interval k) (st k) (b k) = (rs, .ok (ph, dg)) →
      (F k).run env (some (maxSteps k)) (some tol) (some (interval k)) =
        (putState f ⟨_, FHCompiled.new (chis (ts k)) (shift (ts k))⟩ ⟨_, .canonical ⟨x (ts k)⟩⟩ rs.reviveLeft
          (some dg) rs.st, .ok ⟨f.numPart, f.numComp, ph, dg⟩) := fun k ia es d hk rs ph dg hr => by
    have h1 := hia k
    have h2 := hes k
    rw [hk] at h1 h2 ⊢
    have h1 : ia = _ := h1
    have h2 : es = _ := h2
    subst h1 h2
    have : NeZero (putState f ⟨_, FHCompiled.new (chis (ts k)) (shift (ts k))⟩
      ⟨_, .canonical ⟨x (ts k)⟩⟩ (b k) d (st k)).numPart := inferInstanceAs (NeZero f.numPart)
    have := run_some (env := env) (f := putState f ⟨_, FHCompiled.new (chis (ts k)) (shift (ts k))⟩
      ⟨_, .canonical ⟨x (ts k)⟩⟩ (b k) d (st k)) (p := ⟨FHCompiled.new (chis (ts k)) (shift (ts k)), en,
        .canonical ⟨x (ts k)⟩, (st k).cons⟩) (parts_eq.mpr ⟨rfl, hen, rfl, rfl⟩)
        (some (maxSteps k)) (some tol) (some (interval k))
    exact this.trans (congrArg (Finder.finish (putState f ⟨_, FHCompiled.new (chis (ts k)) (shift (ts k))⟩
      ⟨_, .canonical ⟨x (ts k)⟩⟩ (b k) d (st k))) hr)
  have hinv : ∀ k, ∃ ia es d, F k = putState f ia es (b k) d (st k) := fun k => by
    induction k with
    | zero =>
      obtain ⟨ia, es, b', h1⟩ := setters_keep (env := env) (calls 0) (hcalls 0) f
      have h2 : F 0 = _ := h1
      have hb0 : b 0 = b' := by rw [hb]; dsimp only; rw [h2]
      refine ⟨ia, es, f.diagnostics, ?_⟩
      rw [h2, hb0]
      conv_lhs => rw [← putState_self f cons hcs]
      rfl
    | succ k ih =>
      obtain ⟨ia, es, d, hk⟩ := ih
      obtain ⟨ph, dg, h2, -⟩ := H k
      obtain ⟨ia', es', b', h3⟩ := setters_keep (env := env) (calls (k + 1)) (hcalls (k + 1))
        ((F k).run env (some (maxSteps k)) (some tol) (some (interval k))).1
      have h4 : F (k + 1) = _ := h3
      rcases hr : runImpl (e k) (maxSteps k) tol (interval k) (st k) (b k) with ⟨rs, res⟩
      have hs : st (k + 1) = rs.st := by
        show (runImpl (e k) (maxSteps k) tol (interval k) (st k) (b k)).1.st = _
        rw [hr]
      rw [hr] at h2
      have h2 : res = _ := h2
      subst h2
      rw [hrun k ia es d hk _ _ _ hr] at h4
      have hb1 : b (k + 1) = b' := by rw [hb]; dsimp only; rw [h4]
      refine ⟨ia', es', some dg, ?_⟩
      rw [h4, hb1, hs]
  intro k
  obtain ⟨ia, es, d, hk⟩ := hinv k
  obtain ⟨ph, dg, h2, h3⟩ := H k
  refine ⟨ph, dg, ?_, h3⟩
  rcases hr : runImpl (e k) (maxSteps k) tol (interval k) (st k) (b k) with ⟨rs, res⟩
  rw [hr] at h2
  have h2 : res = _ := h2
  subst h2
  rw [hrun k ia es d hk _ _ _ hr]

end Flory
