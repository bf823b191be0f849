import Verif.Model.Floats

/-! # With exact operations the float model is the exact model -/

set_option linter.unusedSectionVars false

namespace Flory

variable {K G : Type} [Field K] [LinearOrder K] {C S M : ℕ} [NeZero M] (ex : K → K)

theorem maxPy_exact {n : ℕ} (v : Vec n K) : (Floats.exact K ex).maxPy v = npMaxPy v := by
  cases n <;> rfl

theorem local_prepare_exact {A : ℕ} (c : LocalC A S M K) (x : Mat S M K) (J m : Vec M K) :
    c.prepareF (Floats.exact K ex) x J m = c.prepare x J m := by
  unfold LocalC.prepareF LocalC.prepare
  simp only [Floats.exact, Nat.cast_ofNat, Nat.cast_zero]

theorem global_prepare_exact {A : ℕ} (c : GlobalC A S M K) (x : Mat S M K) (J m : Vec M K) :
    c.prepareF (Floats.exact K ex) x J m = c.prepare x J m := by
  unfold GlobalC.prepareF GlobalC.prepare
  simp only [Floats.exact, Nat.cast_ofNat, Nat.cast_zero, Nat.cast_one]

theorem prepare_exact (x : Mat S M K) (J m : Vec M K) :
    Cons.prepareF (Floats.exact K ex) x J m = Cons.prepare x J m := by
  funext c
  cases c with
  | no c => rfl
  | loc A c => exact congrArg _ (local_prepare_exact ex c x J m)
  | glob A c => exact congrArg _ (global_prepare_exact ex c x J m)

theorem evolve_exact (c : Cons S M K) (step : K) (m : Vec M K) :
    c.evolveF (Floats.exact K ex) step m = c.evolve step m := by
  cases c with
  | no c =>
    show Except.ok (((0 : ℕ) : K), Cons.no c) = Except.ok (0, Cons.no c)
    rw [Nat.cast_zero]
  | loc A c =>
    unfold Cons.evolveF Cons.evolve LocalC.evolveF LocalC.evolve
    simp only [maxPy_exact]; rfl
  | glob A c =>
    unfold Cons.evolveF Cons.evolve GlobalC.evolveF GlobalC.evolve
    simp only [maxPy_exact]; rfl

theorem evolveCons_exact (step : K) (m : Vec M K) (cs : List (Cons S M K)) (acc : K) :
    evolveConsF (Floats.exact K ex) step m cs acc = evolveCons step m cs acc := by
  induction cs generalizing acc with
  | nil => rfl
  | cons c cs ih =>
    unfold evolveConsF evolveCons
    simp only [evolve_exact, ih]; rfl

theorem pyDiv_exact (a b : K) : (Floats.exact K ex).pyDiv a b = pyDiv a b := by
  show (if b = ((0 : ℕ) : K) then _ else _) = if b = 0 then _ else _
  simp only [Nat.cast_zero]; rfl

theorem canonical_exact (e : CanonicalC C K) : e.normalizeF (M := M) (Floats.exact K ex) = e.normalize := by
  funext x Q m
  unfold CanonicalC.normalizeF CanonicalC.normalize
  simp only [pyDiv_exact]
  simp only [Floats.exact, Nat.cast_one]

theorem grand_exact (e : GrandC C K) : e.normalizeF (M := M) (Floats.exact K ex) = e.normalize := by
  funext x Q m
  unfold GrandC.normalizeF GrandC.normalize
  simp only [Floats.exact, Nat.cast_one]

theorem reviveByRandom_exact {R : ℕ} (rng : Rng G K) (Js : Vec M K) (t : Mat R M K) (th sc : K) (g : G) :
    reviveByRandomF (Floats.exact K ex) rng Js t th sc g = reviveByRandom rng Js t th sc g := by
  unfold reviveByRandomF reviveByRandom
  simp only [Floats.exact, Nat.cast_one]

theorem reviveBlock_exact (rng : Rng G K) (p : Params K) (tr : ℤ) (Js : Vec M K) (w : Mat S M K) (g : G)
    (k : ℕ) : reviveBlockF (Floats.exact K ex) rng p tr Js w g k = reviveBlock rng p tr Js w g k := by
  unfold reviveBlockF reviveBlock
  simp only [reviveByRandom_exact]; rfl

theorem makeMasks_exact (J : Vec M K) (t : K) : makeMasksF (Floats.exact K ex) J t = makeMasks J t := rfl

theorem countValid_exact (J : Vec M K) (t : K) :
    countValidF (Floats.exact K ex) J t = countValid J t := rfl

theorem computeXi_exact (c : K) (i : Vec M K) (w q : Mat S M K) (cs : List (Cons S M K)) (m : Vec M K) :
    computeXiF (Floats.exact K ex) c i w q cs m = computeXi c i w q cs m := rfl

theorem computeLocal_exact (a b x i : Vec M K) (q f : Mat S M K) (cs : List (Cons S M K)) :
    computeLocalF (Floats.exact K ex) a b x i q f cs = computeLocal a b x i q f cs := rfl

theorem updateJs_exact (a b : K) (d m : Vec M K) (n : K) (J : Vec M K) :
    updateJsF (Floats.exact K ex) a b d m n J = updateJs a b d m n J := by
  unfold updateJsF updateJs
  simp only [pyDiv_exact]
  simp only [Floats.exact, Nat.cast_one]

theorem updateOmegas_exact (a : K) (m : Vec M K) (x y : Mat S M K) :
    updateOmegasF (Floats.exact K ex) a m x y = updateOmegas a m x y := by
  unfold updateOmegasF updateOmegas
  simp only [Floats.exact, Nat.cast_zero]

variable (ia : InteractionI S M K) (en : EntropyI C S M K) (es : EnsembleI C M K) (rng : Rng G K)
    (p : Params K)

theorem iterate_exact (tr : ℤ) (k : ℕ) (s : State C S M K G) :
    iterateF (Floats.exact K ex) ia en es rng p tr k s = iterate ia en es rng p tr k s := by
  unfold iterateF iterate
  simp only [reviveBlock_exact, computeXi_exact, computeLocal_exact, updateJs_exact, updateOmegas_exact,
    evolveCons_exact, prepare_exact, pyDiv_exact, makeMasks_exact]
  simp only [Floats.exact, Nat.cast_zero]

theorem iterateMore_exact (tr : ℤ) (n : ℕ) (t : Trace C S M K G) :
    iterateMoreF (Floats.exact K ex) ia en es rng p tr n t = iterateMore ia en es rng p tr n t := by
  induction n generalizing t with
  | zero => rfl
  | succ n ih =>
    unfold iterateMoreF iterateMore
    simp only [iterate_exact, ih]

theorem metastep_exact (tr : ℤ) (n : ℕ) (s : State C S M K G) :
    metastepF (Floats.exact K ex) ia en es rng p tr n s = metastep ia en es rng p tr n s := by
  cases n with
  | zero => rfl
  | succ n =>
    unfold metastepF metastep
    simp only [iterate_exact, iterateMore_exact]
    rfl

theorem runLoop_exact (e : RunEnv C S M K G) (tol : K) (inner n : ℕ) (s : RunState C S M K G) :
    runLoopF (Floats.exact K ex) e tol inner n s = runLoop e tol inner n s := by
  induction n generalizing s with
  | zero => rfl
  | succ n ih =>
    unfold runLoopF runLoop
    simp only [metastep_exact, ih]
    rfl

theorem classify_exact (Js : Vec M K) (th : K) : classifyF (Floats.exact K ex) Js th = classify Js th := by
  unfold classifyF classify
  simp only [Floats.exact, Nat.cast_ofNat]
  rfl

theorem copyLoop_exact {R : ℕ} (th : K) (d : Fin M) (n : ℕ) (Js : Vec M K) (t : Mat R M K)
    (l : Vec M (Option (Fin M))) (g : G) (k : ℕ) :
    copyLoopF (Floats.exact K ex) rng th d n Js t l g k = copyLoop rng th d n Js t l g k := by
  induction n generalizing Js t l g k with
  | zero => rfl
  | succ n ih =>
    unfold copyLoopF copyLoop
    simp only [ih]
    simp only [Floats.exact, Nat.cast_ofNat]
    rfl

theorem copyDead_exact {R : ℕ} (th : K) (l : List (Option (Fin M))) (s : CopyState R M K G) :
    copyDeadF (Floats.exact K ex) rng th l s = copyDead rng th l s := by
  induction l generalizing s with
  | nil => rfl
  | cons d l ih =>
    cases d with
    | none => rfl
    | some d =>
      unfold copyDeadF copyDead
      simp only [copyLoop_exact, ih]

theorem reviveByCopy_exact {R : ℕ} (Js : Vec M K) (t : Mat R M K) (th : K) (g : G) :
    reviveByCopyF (Floats.exact K ex) rng Js t th g = reviveByCopy rng Js t th g := by
  unfold reviveByCopyF reviveByCopy
  simp only [classify_exact, copyDead_exact]

theorem runFinal_exact (e : RunEnv C S M K G) (s : RunState C S M K G) :
    runFinalF (Floats.exact K ex) e s = runFinal e s := by
  unfold runFinalF runFinal
  simp only [reviveByCopy_exact]
  rfl

theorem runImpl_exact (e : RunEnv C S M K G) (ms : ℚ) (tol : K) (iv : ℤ) (st : State C S M K G) (l : ℤ) :
    runImplF (Floats.exact K ex) e ms tol iv st l = runImpl e ms tol iv st l := by
  unfold runImplF runImpl
  simp only [runLoop_exact, runFinal_exact]
  rfl

end Flory
