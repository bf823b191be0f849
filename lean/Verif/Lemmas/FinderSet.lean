import Verif.Lemmas.FinderHistory

/-! # Lemmas about keyword arguments, `set_*` methods and the constructor of the finder -/

set_option linter.unusedSectionVars false

namespace Flory

open Spec

/-! ### Dictionaries -/

section Dictionaries

variable {V : Type}

theorem Dict.get?_cons (d : Dict V) (a k : String) (v : V) :
    Dict.get? ((a, v) :: d) k = if k = a then some v else Dict.get? d k := by
  unfold Dict.get?
  rw [List.lookup_cons]
  by_cases h : k = a
  · subst h; simp
  · have : (k == a) = false := by simpa using h
    rw [this, if_neg h]

theorem Dict.get?_insert (d : Dict V) (k k' : String) (v : V) :
    (d.insert k v).get? k' = if k' = k then some v else d.get? k' := by
  induction d with
  | nil => simp only [Dict.insert, Dict.get?_cons]
  | cons p d ih =>
    obtain ⟨a, b⟩ := p
    unfold Dict.insert
    by_cases h : a = k
    · subst h
      by_cases h' : k' = a <;> simp [Dict.get?_cons, h']
    · by_cases h' : k' = a
      · subst h'
        simp [Dict.get?_cons, h]
      · simp [Dict.get?_cons, h, h', ih]

theorem Dict.get?_merge (a b : Dict V) (hb : (b.map Prod.fst).Nodup) (k : String) :
    (a.merge b).get? k = (b.get? k).or (a.get? k) := by
  induction b generalizing a with
  | nil => simp [Dict.merge, Dict.get?]
  | cons p b ih =>
    obtain ⟨x, v⟩ := p
    simp only [List.map_cons, List.nodup_cons] at hb
    have := ih (a.insert x v) hb.2
    simp only [Dict.merge, List.foldl_cons] at this ⊢
    rw [this, Dict.get?_insert, Dict.get?_cons]
    by_cases h : k = x
    · subst h
      have hn : Dict.get? b k = none := by
        simp only [Dict.get?, List.lookup_eq_none_iff]
        intro q hq
        simp only [bne_iff_ne, ne_eq]
        rintro rfl
        exact hb.1 (List.mem_map.mpr ⟨q, hq, rfl⟩)
      rw [hn]
      simp
    · simp [h]

theorem get?_filterKwargs (kw : Dict V) (params : List String) (k : String) :
    (filterKwargs kw params).get? k = if k ∈ params then kw.get? k else none := by
  unfold filterKwargs
  induction params with
  | nil => simp [Dict.get?]
  | cons p params ih =>
    simp only [List.filterMap_cons]
    cases hp : Dict.get? kw p with
    | none =>
      simp only [Option.map_none, ih, List.mem_cons]
      by_cases h : k = p
      · subst h; simp [hp]
      · simp [h]
    | some v =>
      simp only [Option.map_some, List.mem_cons]
      by_cases h : k = p
      · subst h; simp [Dict.get?_cons, hp]
      · simp [Dict.get?_cons, h, ih]

theorem callCompiled_eq {α : Type} (params : List String) (kw : Dict V)
    (f : (String → Option V) → Py α) :
    callCompiled params kw f = f fun p => if p ∈ params then kw.get? p else none := by
  unfold callCompiled callKwargs
  rw [if_pos]
  · congr 1
    funext k
    exact get?_filterKwargs kw params k
  · rw [List.all_eq_true]
    intro q hq
    obtain ⟨p, hp, h⟩ := List.mem_filterMap.mp hq
    cases hg : Dict.get? kw p with
    | none => rw [hg] at h; simp at h
    | some v =>
      rw [hg] at h
      simp only [Option.map_some, Option.some.injEq] at h
      rw [← h]
      simpa using hp

theorem InstObj.compiled_eq {α : Type} (o : InstObj α) (kw : Dict ℝ) :
    o.compiled kw = o.impl fun p => if p ∈ o.params then kw.get? p else none :=
  callCompiled_eq _ _ _

end Dictionaries

/-! ### Lists of constraints -/

section Lists

variable {M : ℕ}

theorem compileAll_ok {l : List (InstObj AnyConsNew × Dict ℝ)} (h : (compileAll (M := M) l).2 = none) :
    List.Forall₂ (fun q c => ∃ x, q.1.compiled q.2 = .ok x ∧ c = PackedCons.ofNew x) l
      (compileAll (M := M) l).1 := by
  induction l with
  | nil => exact .nil
  | cons q l ih =>
    obtain ⟨o, kw⟩ := q
    unfold compileAll at h ⊢
    cases hc : o.compiled kw with
    | error e => rw [hc] at h; simp at h
    | ok x =>
      rw [hc] at h
      exact .cons ⟨x, hc, rfl⟩ (ih h)

theorem compileAll_of_ok {l : List (InstObj AnyConsNew × Dict ℝ)}
    (h : ∀ q ∈ l, ∃ x, q.1.compiled q.2 = .ok x) : (compileAll (M := M) l).2 = none := by
  induction l with
  | nil => rfl
  | cons q l ih =>
    obtain ⟨o, kw⟩ := q
    obtain ⟨x, hx⟩ := h (o, kw) List.mem_cons_self
    unfold compileAll
    simp only at hx
    rw [hx]
    exact ih fun q hq => h q (List.mem_cons_of_mem _ hq)

theorem checkAll_ok {C S : ℕ} {cs : List (PackedCons M)} :
    Finder.checkAll C S cs = .ok () ↔ ∀ c ∈ cs, c.numFeat = S := by
  induction cs with
  | nil => simp [Finder.checkAll]
  | cons c cs ih =>
    unfold Finder.checkAll Finder.checkSizes
    by_cases h : c.numFeat = S
    · simp [h, bind_ok, ih]
    · simp [h, bind, Except.bind]

theorem checkAll_error {C S : ℕ} {cs : List (PackedCons M)} (h : ¬ ∀ c ∈ cs, c.numFeat = S) :
    Finder.checkAll C S cs = .error .featureNumberError := by
  induction cs with
  | nil => simp at h
  | cons c cs ih =>
    unfold Finder.checkAll Finder.checkSizes
    by_cases hc : c.numFeat = S
    · have : ¬ ∀ c ∈ cs, c.numFeat = S := fun h' => h fun d hd => by
        rcases List.mem_cons.mp hd with rfl | hd
        · exact hc
        · exact h' d hd
      simp [hc, bind_ok, ih this]
    · simp [hc, bind, Except.bind]

theorem PackedCons.ofNew_enforces (x : AnyConsNew) :
    PackedCons.enforces (PackedCons.ofNew x : PackedCons M) = x := by
  simp [PackedCons.enforces, PackedCons.ofNew, consParams_start]

end Lists

/-! ### Well-made finders -/

section GoodFinders

variable {G : Type}

/-- What every history with accepted, well-made instances keeps. -/
structure Good (f : Finder G) : Prop where
  fits : Fits f
  entropy : GoodEntropy f.entropy
  cons : ∀ c ∈ f.constraints, c.cons.Proper
  alive : ∃ m, f.params.killThreshold < f.Js m

theorem Cons.proper_reset {S M : ℕ} {c : Cons S M ℝ} (h : c.Proper) : c.reset.Proper := by
  rw [proper_iff, consParams_reset, ← proper_iff]; exact h

theorem fits_resetCons {f : Finder G} (h : Fits f) :
    ∀ c ∈ f.constraints.map PackedCons.reset, c.numFeat = f.numFeat ∧ c.ready = true := by
  intro c hc
  obtain ⟨d, hd, rfl⟩ := List.mem_map.mp hc
  exact ⟨(h.constraints d hd).1, rfl⟩

theorem proper_resetCons {M : ℕ} {cs : List (PackedCons M)} (h : ∀ c ∈ cs, c.cons.Proper) :
    ∀ c ∈ cs.map PackedCons.reset, c.cons.Proper := by
  intro c hc
  obtain ⟨d, hd, rfl⟩ := List.mem_map.mp hc
  exact Cons.proper_reset (h d hd)

/-- The hypotheses on the numerical parameters. -/
structure ParamsOk (f : Finder G) : Prop where
  thr : 0 ≤ f.params.killThreshold
  thr1 : f.params.killThreshold < 1
  bound : 0 < f.params.JsStepUpperBound

theorem ParamsOk.of_same {f f' : Finder G} (h : ParamsOk f) (h' : SameSetup f f') : ParamsOk f' := by
  obtain ⟨h1, h2, h3⟩ := h
  exact ⟨by rw [h'.params]; exact h1, by rw [h'.params]; exact h2, by rw [h'.params]; exact h3⟩

theorem Good.numPart_ne_zero {f : Finder G} (h : Good f) : f.numPart ≠ 0 := by
  obtain ⟨m, -⟩ := h.alive
  intro h0
  exact absurd m.2 (by omega)

theorem Good.parts {f : Finder G} (h : Good f) : ∃ p, f.parts = some p ∧
    (∃ sizes feat, IsIdealGas (p.en.toI f.numPart) sizes feat) ∧ ∀ c ∈ p.cons, c.Proper := by
  obtain ⟨p, hp⟩ := fits_iff.mp h.fits
  obtain ⟨-, h2, -, h4⟩ := parts_eq.mp hp
  refine ⟨p, hp, ?_, fun c hc => ?_⟩
  · have := h.entropy
    rw [h2] at this
    exact p.en.isIdealGas this.1 this.2 _
  · have := h.cons ⟨f.numFeat, true, c⟩ (by rw [h4]; exact List.mem_map_of_mem hc)
    exact this

theorem good_run {env : FinderEnv G} {f : Finder G} (hrng : env.rng.Ok) (hpar : ParamsOk f)
    (h : Good f) (ms : Option ℚ) (tol : Option ℝ) (int : Option ℤ) : Good (f.run env ms tol int).1 := by
  obtain ⟨p, hp, ⟨sizes, feat, hen⟩, hcons⟩ := h.parts
  have hM := h.numPart_ne_zero
  have : NeZero f.numPart := ⟨hM⟩
  obtain ⟨k1, k2⟩ := run_keeps (e := f.runEnv env p) hrng hen (p.es.total _) hpar.thr hpar.thr1
    hpar.bound (tol.getD f.tolerance) (ms.getD f.maxSteps) (int.getD f.interval) (f.state p.cons)
    f.reviveLeft hcons h.alive
  have key : Good (f.store (runImpl (f.runEnv env p) (ms.getD f.maxSteps) (tol.getD f.tolerance)
      (int.getD f.interval) (f.state p.cons) f.reviveLeft).1) := by
    refine ⟨⟨h.fits.1, h.fits.2, h.fits.3, h.fits.4, fun c hc => ?_⟩, h.entropy, fun c hc => ?_, k2⟩
    · obtain ⟨d, hd, rfl⟩ := List.mem_map.mp hc
      exact ⟨rfl, rfl⟩
    · obtain ⟨d, hd, rfl⟩ := List.mem_map.mp hc
      exact k1 d hd
  unfold Finder.run
  simp only [hp, hM, dite_false]
  split
  · exact key
  · exact ⟨⟨key.fits.1, key.fits.2, key.fits.3, key.fits.4, key.fits.5⟩, key.entropy, key.cons,
      key.alive⟩

theorem good_run_ok {env : FinderEnv G} {f : Finder G} (hrng : env.rng.Ok) (hpar : ParamsOk f)
    (hthr : 2 * f.params.killThreshold * ((f.numPart : ℝ) - 1) < 1) (hcrit : f.criterion = "standard")
    (h : Good f) {ms : Option ℚ} {tol : Option ℝ} {int : Option ℤ} (h1 : 0 < ms.getD f.maxSteps)
    (h2 : 0 < int.getD f.interval) : ∃ out, (f.run env ms tol int).2 = .ok out := by
  obtain ⟨p, hp, ⟨sizes, feat, hen⟩, hcons⟩ := h.parts
  have hM := h.numPart_ne_zero
  have : NeZero f.numPart := ⟨hM⟩
  obtain ⟨s', ph, d, hr⟩ := run_ok (e := f.runEnv env p) (tol := tol.getD f.tolerance) hrng hen
    (p.es.total _) hpar.thr hpar.thr1 hthr hpar.bound hcrit h1 h2 (f.state p.cons) f.reviveLeft hcons
    (Or.inl h.alive)
  unfold Finder.run
  simp only [hp, hM, dite_false, hr]
  exact ⟨_, rfl⟩

theorem newConstraints_mem {M S : ℕ} {base : Dict ℝ} {arg : ConsArg} {ind : IndArg}
    (h : (newConstraints M S base arg ind).2 = none) {c : PackedCons M}
    (hc : c ∈ (newConstraints M S base arg ind).1) :
    c = PackedCons.ofNew ⟨S, .no⟩ ∨
      ∃ o ∈ consObjs arg, ∃ kw x, o.impl kw = .ok x ∧ c = PackedCons.ofNew x := by
  have aux : ∀ l : List (InstObj AnyConsNew × Dict ℝ), (∀ q ∈ l, q.1 ∈ consObjs arg) →
      (compileAll (M := M) l).2 = none → c ∈ (compileAll (M := M) l).1 →
      ∃ o ∈ consObjs arg, ∃ kw x, o.impl kw = .ok x ∧ c = PackedCons.ofNew x := by
    intro l hl h hc
    have h2 := compileAll_ok h
    clear h
    generalize (compileAll (M := M) l).1 = r at hc h2
    induction h2 with
    | nil => simp at hc
    | @cons q d l ds hq _ ih =>
      rcases List.mem_cons.mp hc with rfl | hc
      · obtain ⟨x, hx, rfl⟩ := hq
        rw [InstObj.compiled_eq] at hx
        exact ⟨q.1, hl q List.mem_cons_self, _, x, hx, rfl⟩
      · exact ih (fun q hq => hl q (List.mem_cons_of_mem _ hq)) hc
  unfold newConstraints at h hc
  cases arg with
  | none => left; simpa using hc
  | other => simp at hc
  | single o =>
    right
    cases ind with
    | none => exact aux _ (by simp [consObjs]) h hc
    | dict d => exact aux _ (by simp [consObjs]) h hc
    | dicts ds => simp at hc
  | many cs =>
    cases cs with
    | nil => left; simpa using hc
    | cons o cs =>
      right
      have hz : ∀ (l : List (Dict ℝ)), ∀ q ∈ (o :: cs).zip l, q.1 ∈ consObjs (.many (o :: cs)) :=
        fun l q hq => (List.of_mem_zip (a := q.1) (b := q.2) hq).1
      cases ind with
      | none => exact aux _ (hz _) h hc
      | dict d =>
        cases d with
        | nil => simp at hc
        | cons a d => simp at hc
      | dicts ds => exact aux _ (hz _) h hc

theorem good_step {env : FinderEnv G} {f : Finder G} (hrng : env.rng.Ok) (hpar : ParamsOk f)
    (h : Good f) {op : FinderOp} (hop : WellMade op)
    (hset : IsSet op → (f.step env op).2 = .ok none) : Good (f.step env op).1 := by
  have hM := h.numPart_ne_zero
  have h0 : f.params.killThreshold < 1 := hpar.thr1
  have mr : ∀ (f : Finder G) (b : Bool), Good f → Good (f.maybeReset b) := by
    intro f b hf
    cases b
    · exact hf
    · exact ⟨⟨hf.1.1, hf.1.2, hf.1.3, hf.1.4, hf.1.5⟩, hf.2, hf.3, hf.4⟩
  cases op with
  | setInteraction o reset kw =>
    have hs := hset trivial
    simp only [Finder.step, Finder.setInteraction] at hs ⊢
    split at hs
    · simp [Except.map] at hs
    · rename_i x hx
      split at hs
      · simp [Except.map] at hs
      · rename_i hc
        dsimp only
        refine mr _ _ ⟨⟨?_, h.1.2, h.1.3, h.1.4, h.1.5⟩, h.2, h.3, h.4⟩
        by_contra hne
        simp only [Finder.checkSizes] at hc
        simp [hne] at hc
  | setEntropy o reset kw =>
    have hs := hset trivial
    simp only [Finder.step, Finder.setEntropy] at hs ⊢
    split at hs
    · simp [Except.map] at hs
    · rename_i x hx
      split at hs
      · simp [Except.map] at hs
      · rename_i hc
        dsimp only
        have hxx : x.numComp = f.numComp ∧ x.numFeat = f.numFeat := by
          simp only [Finder.checkSizes] at hc
          by_cases h1 : x.numComp = f.numComp
          · by_cases h2 : x.numFeat = f.numFeat
            · exact ⟨h1, h2⟩
            · simp [h1, h2] at hc
          · simp [h1] at hc
        rw [InstObj.compiled_eq] at hx
        exact mr _ _ ⟨⟨h.1.1, hxx.1, hxx.2, h.1.4, h.1.5⟩, hop _ _ hx, h.3, h.4⟩
  | setEnsemble o reset kw =>
    have hs := hset trivial
    simp only [Finder.step, Finder.setEnsemble] at hs ⊢
    split at hs
    · simp [Except.map] at hs
    · rename_i x hx
      split at hs
      · simp [Except.map] at hs
      · rename_i hc
        dsimp only
        refine mr _ _ ⟨⟨h.1.1, h.1.2, h.1.3, ?_, h.1.5⟩, h.2, h.3, h.4⟩
        by_contra hne
        simp only [Finder.checkSizes] at hc
        simp [hne] at hc
  | setConstraints c reset ind kw =>
    have hs := hset trivial
    simp only [Finder.step, Finder.setConstraints] at hs ⊢
    split at hs
    · simp [Except.map] at hs
    · rename_i hn
      split at hs
      · simp [Except.map] at hs
      · rename_i hc
        have hall := checkAll_ok.mp hc
        refine mr _ _ ⟨⟨h.1.1, h.1.2, h.1.3, h.1.4, ?_⟩, h.2, ?_, h.4⟩
        · intro d hd
          obtain ⟨d', hd', rfl⟩ := List.mem_map.mp hd
          exact ⟨hall d' hd', rfl⟩
        · refine proper_resetCons fun d hd => ?_
          rcases newConstraints_mem hn hd with rfl | ⟨o, ho, kw', x, hx, rfl⟩
          · exact trivial
          · show Cons.Proper (ConsNew.start _ x.2)
            rw [proper_iff, consParams_start]
            exact hop o ho kw' x hx
  | resetRevive => exact mr f true h
  | reinitConstraint =>
    exact ⟨⟨h.1.1, h.1.2, h.1.3, h.1.4, fits_resetCons h.1⟩, h.2, proper_resetCons h.3, h.4⟩
  | reinitRandom =>
    simp only [Finder.step, Finder.reinitRandom]
    split
    · exact h
    · exact ⟨⟨h.1.1, h.1.2, h.1.3, h.1.4, fits_resetCons h.1⟩, h.2, proper_resetCons h.3,
        ⟨⟨0, Nat.pos_of_ne_zero hM⟩, h0⟩⟩
  | reinitOmegas w =>
    simp only [Finder.step, Finder.reinitOmegas]
    split
    · exact h
    · exact ⟨⟨h.1.1, h.1.2, h.1.3, h.1.4, fits_resetCons h.1⟩, h.2, proper_resetCons h.3,
        ⟨⟨0, Nat.pos_of_ne_zero hM⟩, h0⟩⟩
  | reinitPhis w =>
    simp only [Finder.step, Finder.reinitPhis]
    split
    · exact h
    · split
      · exact h
      · exact ⟨⟨h.1.1, h.1.2, h.1.3, h.1.4, fits_resetCons h.1⟩, h.2, proper_resetCons h.3,
          ⟨⟨0, Nat.pos_of_ne_zero hM⟩, h0⟩⟩
  | run ms tol int => exact good_run hrng hpar h ms tol int

theorem good_steps {env : FinderEnv G} (hrng : env.rng.Ok) (ops : List FinderOp) (f : Finder G)
    (hpar : ParamsOk f) (h : Good f) (hops : ∀ op ∈ ops, WellMade op) (hacc : SetsAccepted env ops f) :
    Good (Finder.steps env ops f).1 ∧ ParamsOk (Finder.steps env ops f).1 := by
  induction ops generalizing f with
  | nil => exact ⟨h, hpar⟩
  | cons op ops ih =>
    refine ih _ (hpar.of_same (sameSetup_step env f op))
      (good_step hrng hpar h (hops op List.mem_cons_self) fun hs => hacc [] op ops rfl hs)
      (fun o ho => hops o (List.mem_cons_of_mem _ ho)) ?_
    intro pre op' post he hs
    have := hacc (op :: pre) op' post (by rw [he]; rfl) hs
    simpa only [Finder.steps] using this

end GoodFinders

/-! ### Constructor -/

section Constructor

variable {G : Type}

theorem initConstraints_mem {M S : ℕ} {kw : Dict ℝ} {arg : ConsArg}
    (h : (initConstraints M S kw arg).2 = none) {c : PackedCons M}
    (hc : c ∈ (initConstraints M S kw arg).1) :
    c = PackedCons.ofNew ⟨S, .no⟩ ∨
      ∃ o ∈ consObjs arg, ∃ x, o.compiled kw = .ok x ∧ c = PackedCons.ofNew x := by
  have aux : ∀ l : List (InstObj AnyConsNew × Dict ℝ), (∀ q ∈ l, q.1 ∈ consObjs arg ∧ q.2 = kw) →
      (compileAll (M := M) l).2 = none → c ∈ (compileAll (M := M) l).1 →
      ∃ o ∈ consObjs arg, ∃ x, o.compiled kw = .ok x ∧ c = PackedCons.ofNew x := by
    intro l hl h hc
    have h2 := compileAll_ok h
    clear h
    generalize (compileAll (M := M) l).1 = r at hc h2
    induction h2 with
    | nil => simp at hc
    | @cons q d l ds hq _ ih =>
      rcases List.mem_cons.mp hc with rfl | hc
      · obtain ⟨x, hx, rfl⟩ := hq
        obtain ⟨h1, h2⟩ := hl q List.mem_cons_self
        exact ⟨q.1, h1, x, h2 ▸ hx, rfl⟩
      · exact ih (fun q hq => hl q (List.mem_cons_of_mem _ hq)) hc
  unfold initConstraints at h hc
  cases arg with
  | none => left; simpa using hc
  | other => simp at hc
  | single o => right; exact aux _ (by simp [consObjs]) h hc
  | many cs =>
    cases cs with
    | nil => left; simpa using hc
    | cons o cs => right; exact aux _ (by simp [consObjs]; tauto) h hc

/-- The constructor, once everything has been compiled. -/
theorem create_of_compiled {env : FinderEnv G} {g : G} {interaction : InstObj AnyInteraction}
    {entropy : InstObj AnyEntropy} {ensemble : InstObj AnyEnsemble} {constraints : ConsArg}
    {a : FinderArgs} {ia : AnyInteraction} {en : AnyEntropy} {es : AnyEnsemble}
    (h1 : interaction.compiled a.kwargs = .ok ia) (h2 : entropy.compiled a.kwargs = .ok en)
    (h3 : ensemble.compiled a.kwargs = .ok es)
    (h4 : (initConstraints (Finder.partNumber a.numPart en.numComp)
      en.numFeat a.kwargs constraints).2 = none) (hstd : 0 ≤ a.randomStd) :
    let cs := (initConstraints (Finder.partNumber a.numPart en.numComp)
      en.numFeat a.kwargs constraints).1
    (ia.1 ≠ en.numFeat → Finder.create env g interaction entropy ensemble constraints a =
      .error .featureNumberError) ∧
    (ia.1 = en.numFeat → es.1 ≠ en.numComp →
      Finder.create env g interaction entropy ensemble constraints a =
        .error .componentNumberError) ∧
    (ia.1 = en.numFeat → es.1 = en.numComp → ¬ (∀ c ∈ cs, c.numFeat = en.numFeat) →
      Finder.create env g interaction entropy ensemble constraints a = .error .featureNumberError) ∧
    (ia.1 = en.numFeat → es.1 = en.numComp → (∀ c ∈ cs, c.numFeat = en.numFeat) →
      ∃ f, Finder.create env g interaction entropy ensemble constraints a = .ok f ∧
        Created a ia en es (cs.map PackedCons.enforces) f) := by
  intro cs
  have hM : Finder.partNumber a.numPart en.numComp =
      if a.numPart.getD 0 = 0 then en.numComp * 8 else a.numPart.getD 0 := by
    cases a.numPart <;> rfl
  unfold Finder.create
  simp only [h1, h2, h3, h4, bind_ok]
  have e0 : Finder.checkSizes en.numComp en.numFeat (some en.numComp) (some en.numFeat) = .ok () := by
    simp [Finder.checkSizes]
  rw [e0]
  refine ⟨fun n1 => ?_, fun e1 n2 => ?_, fun e1 e2 n3 => ?_, fun e1 e2 e3 => ?_⟩
  · have : Finder.checkSizes en.numComp en.numFeat none (some ia.1) = .error .featureNumberError := by
      simp [Finder.checkSizes, n1]
    rw [this]; rfl
  · have e1' : Finder.checkSizes en.numComp en.numFeat none (some ia.1) = .ok () := by
      simp [Finder.checkSizes, e1]
    have : Finder.checkSizes en.numComp en.numFeat (some es.1) none = .error .componentNumberError := by
      simp [Finder.checkSizes, n2]
    rw [e1', this]; rfl
  · have e1' : Finder.checkSizes en.numComp en.numFeat none (some ia.1) = .ok () := by
      simp [Finder.checkSizes, e1]
    have e2' : Finder.checkSizes en.numComp en.numFeat (some es.1) none = .ok () := by
      simp [Finder.checkSizes, e2]
    rw [e1', e2', checkAll_error n3]; rfl
  · have e1' : Finder.checkSizes en.numComp en.numFeat none (some ia.1) = .ok () := by
      simp [Finder.checkSizes, e1]
    have e2' : Finder.checkSizes en.numComp en.numFeat (some es.1) none = .ok () := by
      simp [Finder.checkSizes, e2]
    rw [e1', e2', checkAll_ok.mpr e3]
    have hns : ¬ a.randomStd < 0 := not_lt.mpr hstd
    have hr : ∀ f : Finder G, f.randomStd = a.randomStd → f.reinitRandom env =
        (((({ f with omegas := (Finder.drawNormal env.rng f.randomStd f.numFeat f.numPart f.g).1,
                     g := (Finder.drawNormal env.rng f.randomStd f.numFeat f.numPart f.g).2,
                     Js := fun _ => 1 } : Finder G).resetRevive).reinitConstraint), .ok ()) := by
      intro f hf
      unfold Finder.reinitRandom
      rw [if_neg (by rw [hf]; exact hns)]
    rw [hr _ rfl]
    refine ⟨_, rfl, rfl, rfl, hM, rfl, rfl, rfl, rfl, rfl, rfl, rfl, rfl, rfl, rfl, rfl, ?_, fun _ => rfl,
      rfl, rfl, ⟨e1, rfl, rfl, e2, ?_⟩⟩
    · exact enforces_map_reset _
    · intro c hc
      obtain ⟨d, hd, rfl⟩ := List.mem_map.mp hc
      exact ⟨e3 d hd, rfl⟩

/-- What a successful constructor call shows about its arguments. -/
theorem create_ok {env : FinderEnv G} {g : G} {interaction : InstObj AnyInteraction}
    {entropy : InstObj AnyEntropy} {ensemble : InstObj AnyEnsemble} {constraints : ConsArg}
    {a : FinderArgs} {f : Finder G}
    (h : Finder.create env g interaction entropy ensemble constraints a = .ok f) :
    ∃ ia en es, interaction.compiled a.kwargs = .ok ia ∧ entropy.compiled a.kwargs = .ok en ∧
      ensemble.compiled a.kwargs = .ok es ∧ 0 ≤ a.randomStd ∧
      (initConstraints (Finder.partNumber a.numPart en.numComp) en.numFeat a.kwargs
        constraints).2 = none ∧
      Created a ia en es ((initConstraints (Finder.partNumber a.numPart en.numComp) en.numFeat a.kwargs
        constraints).1.map PackedCons.enforces) f := by
  have h0 := h
  unfold Finder.create at h
  obtain ⟨ia, h1, h⟩ := bind_eq_ok.mp h
  obtain ⟨en, h2, h⟩ := bind_eq_ok.mp h
  obtain ⟨es, h3, h⟩ := bind_eq_ok.mp h
  dsimp only at h
  split at h
  · simp at h
  · rename_i hn
    obtain ⟨_, c1, h⟩ := bind_eq_ok.mp h
    obtain ⟨_, c2, h⟩ := bind_eq_ok.mp h
    obtain ⟨_, c3, h⟩ := bind_eq_ok.mp h
    obtain ⟨_, c4, h⟩ := bind_eq_ok.mp h
    obtain ⟨_, c5, h⟩ := bind_eq_ok.mp h
    have hstd : 0 ≤ a.randomStd := by
      by_contra hneg
      unfold Finder.reinitRandom at c5
      rw [if_pos (show (Finder.blank a ia en es _ _ g).randomStd < 0 from not_le.mp hneg)] at c5
      simp at c5
    obtain ⟨k1, k2, k3, k4⟩ := create_of_compiled (env := env) (g := g) h1 h2 h3 hn hstd
    have e1 : ia.1 = en.numFeat := by
      by_contra hne; rw [k1 hne] at h0; simp at h0
    have e2 : es.1 = en.numComp := by
      by_contra hne; rw [k2 e1 hne] at h0; simp at h0
    obtain ⟨f', hf', hc⟩ := k4 e1 e2 (checkAll_ok.mp c4)
    rw [h0] at hf'
    cases hf'
    exact ⟨ia, en, es, h1, h2, h3, hstd, hn, hc⟩

/-- A new finder with well-made entropy and constraints. -/
theorem good_created {a : FinderArgs} {ia : AnyInteraction} {en : AnyEntropy} {es : AnyEnsemble}
    {cs : List AnyConsNew} {f : Finder G} (h : Created a ia en es cs f) (hthr : a.killThreshold < 1)
    (hen : GoodEntropy en) (hcs : ∀ c ∈ cs, NonEmpty c.2) (hM : f.numPart ≠ 0) : Good f := by
  refine ⟨h.fits, h.entropy ▸ hen, fun c hc => ?_, ⟨0, Nat.pos_of_ne_zero hM⟩, ?_⟩
  · rw [proper_iff]
    have := hcs (PackedCons.enforces c) (by rw [← h.enforced]; exact List.mem_map_of_mem hc)
    exact this
  · rw [h.params, h.Js]; exact hthr

end Constructor

end Flory
