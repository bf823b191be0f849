import Verif.Model.Objects

/-!
# Which arrays are shared between the user's objects and compiled instances

The rest of the model treats arrays as values.  Here arrays have addresses, so that in-place changes
are visible through every reference.  An array is a flat sequence of numbers (C order); its length is
fixed by the class of its owner.  Constructors and property setters always make new arrays
(`flory/interaction/flory_huggins.py:103-110`, `226-233`; `flory_huggins_block.py:60-71`;
`flory/entropy/ideal_gas.py:116-123`, `242-246`; `flory/ensemble/canonical.py:97-105`;
`grandcanonical.py:83-88`, `95-99`; `flory/constraint/linear_local.py:162-166`, `173-188`;
`linear_global.py:168-172`, `180-195`), so the caller's arrays are not shared and only their content
matters.  `_num_comp_per_feat` (an integer array, copied by `astype` in
`ideal_gas_polydispersed.py:165-167`) is treated as a value.
-/

namespace Flory

/-- Memory: the content of the array at each address. Numpy arrays as created at
`flory/interaction/flory_huggins.py:103-110`, `flory/ensemble/canonical.py:97-105`,
`flory/constraint/linear_local.py:162-166`; addresses abstract from strides and dtypes. -/
structure Mem where
  cell : ℕ → ℕ → ℝ
  next : ℕ

/-- A new array. Models `np.array`, `astype` at `flory/interaction/flory_huggins.py:103-110`,
`flory/ensemble/canonical.py:97-105`, `flory/constraint/linear_local.py:162-166`. -/
def Mem.alloc (m : Mem) (content : ℕ → ℝ) : Mem × ℕ :=
  (⟨fun a => if a = m.next then content else m.cell a, m.next + 1⟩, m.next)

/-- `array[idx] = x`. Item assignment by users, and `flory/interaction/flory_huggins.py:352-353`. -/
def Mem.write (m : Mem) (a idx : ℕ) (x : ℝ) : Mem :=
  { m with cell := fun b => if b = a then fun i => if i = idx then x else m.cell a i else m.cell b }

/-- New arrays with the given contents. One `np.array` or `astype` per attribute,
`flory/interaction/flory_huggins.py:103-110`, `flory/ensemble/canonical.py:97-105`,
`flory/constraint/linear_local.py:162-166`. -/
def Mem.allocAll (m : Mem) : List (ℕ → ℝ) → Mem × List ℕ
  | [] => (m, [])
  | c :: cs =>
    let (m, a) := m.alloc c
    let (m, as) := m.allocAll cs
    (m, a :: as)

/-- The classes users instantiate, with their sizes. Models `flory/interaction/flory_huggins.py:74`,
`flory/interaction/flory_huggins_block.py:20`, `flory/entropy/ideal_gas.py:85`,
`flory/entropy/ideal_gas_polydispersed.py:100`, `flory/ensemble/canonical.py:66`,
`flory/ensemble/grandcanonical.py:67`, `flory/constraint/linear_local.py:125`,
`flory/constraint/linear_global.py:131`. -/
inductive Cls where
  | fh (C : ℕ)
  | block (S : ℕ)
  | gas (C : ℕ)
  | poly {S : ℕ} (perFeat : Vec S ℕ)
  | canonical (C : ℕ)
  | grand (C : ℕ)
  | linear (isGlobal : Bool) (A S : ℕ)

/-- Whether `_compiled_impl` hands a copy to the compiled instance: `astype` copies
(`flory/interaction/flory_huggins.py:377-380`, `ideal_gas.py:259`, `ideal_gas_polydispersed.py:165-167`); the others pass
the array itself (`flory_huggins_block.py:126-128`, `canonical.py:117`, `grandcanonical.py:142`,
`linear_local.py:212-214`, `linear_global.py:219-221`). -/
def Cls.copies : Cls → Bool
  | .fh _ | .gas _ | .poly _ => true
  | .block _ | .canonical _ | .grand _ | .linear .. => false

/-- Whether users can write to the exposed arrays: `np.broadcast_to` returns a read-only array
(`canonical.py:99-100`), all others are ordinary arrays. -/
def Cls.writable : Cls → Bool
  | .canonical _ => false
  | _ => true

/-- A Python object: its class and the addresses of its arrays (`_chis`, `_chis_feat`, `_sizes`,
`_phi_means`, `_scaled_activity`, or `_Cs` and `_Ts`). Attributes set at
`flory/interaction/flory_huggins.py:103-110`, `flory/ensemble/canonical.py:97-105`,
`flory/constraint/linear_local.py:162-166`, `flory/entropy/ideal_gas.py:116-123`,
`flory/ensemble/grandcanonical.py:83-88`. -/
structure ObjRef where
  cls : Cls
  arr : List ℕ

/-- A compiled instance: arrays it refers to, and its numbers (the incompressibility coefficient,
which is computed on creation, or acceptance ratio and elasticity). Attributes set in the compiled
classes, `flory/interaction/flory_huggins.py:37-50`, `flory/ensemble/canonical.py:39-48`,
`flory/constraint/linear_local.py:57-85`. -/
structure InstRef where
  cls : Cls
  arr : List ℕ
  scalars : List ℝ

/-- Value of a compiled instance, as the finder model uses it. The attributes `_interaction`,
`_entropy`, `_ensemble`, `_constraints` of `flory/mcmp/finder.py:178-202`. -/
inductive InstVal where
  | interaction (x : AnyInteraction)
  | entropy (x : AnyEntropy)
  | ensemble (x : AnyEnsemble)
  | cons (x : AnyConsNew)

/-- One-dimensional content. Reading arrays such as `flory/ensemble/canonical.py:58-63`. -/
def asVec (n : ℕ) (c : ℕ → ℝ) : Vec n ℝ := fun i => c i

/-- Two-dimensional content in C order. Reading arrays such as
`flory/interaction/flory_huggins.py:67-68`. -/
def asMat (r n : ℕ) (c : ℕ → ℝ) : Mat r n ℝ := fun i j => c (i * n + j)

/-- The value compiled code finds when it looks at an instance. Attribute access in the compiled
methods, `flory/interaction/flory_huggins.py:52-71`, `flory/ensemble/canonical.py:54-63`,
`flory/constraint/linear_local.py:102-122`. -/
def InstRef.read (x : InstRef) (m : Mem) : InstVal :=
  let c := fun k => m.cell (x.arr.getD k 0)
  let s := fun k => x.scalars.getD k 0
  match x.cls with
  | .fh C => .interaction ⟨C, ⟨asMat C C (c 0), s 0⟩⟩
  | .block S => .interaction ⟨S, ⟨asMat S S (c 0), s 0⟩⟩
  | .gas C => .entropy ⟨C, C, .ideal ⟨asVec C (c 0)⟩⟩
  | .poly (S := S) per => .entropy ⟨∑ r, per r, S, .poly ⟨asVec _ (c 0), per⟩⟩
  | .canonical C => .ensemble ⟨C, .canonical ⟨asVec C (c 0)⟩⟩
  | .grand C => .ensemble ⟨C, .grand ⟨asVec C (c 0)⟩⟩
  | .linear g A S => .cons ⟨S, if g then .glob A (asMat A S (c 0)) (asVec A (c 1)) (s 0) (s 1)
      else .loc A (asMat A S (c 0)) (asVec A (c 1)) (s 0) (s 1)⟩

/-- Memory, the user's objects and the compiled instances inside finders. Objects and instances at
`flory/mcmp/finder.py:178-202`. -/
structure World where
  mem : Mem
  objs : List ObjRef
  insts : List InstRef

/-- What can happen: an object is created; an element of an exposed array is overwritten (also by
`set_random_chis`, `flory/interaction/flory_huggins.py:350-353`); a property is assigned; an instance is compiled for a
finder. -/
inductive UserOp where
  | create (cls : Cls) (contents : List (ℕ → ℝ))
  | poke (obj array idx : ℕ) (x : ℝ)
  | assign (obj array : ℕ) (content : ℕ → ℝ)
  | compile (obj : ℕ) (scalars : List ℝ)

/-- `_compiled_impl` (lines at `Cls.copies`). Models `flory/interaction/flory_huggins.py:355-380`,
`flory/ensemble/canonical.py:107-117`. -/
def ObjRef.compile (o : ObjRef) (m : Mem) (scalars : List ℝ) : Mem × InstRef :=
  if o.cls.copies then
    let (m, arr) := m.allocAll (o.arr.map m.cell)
    (m, ⟨o.cls, arr, scalars⟩)
  else (m, ⟨o.cls, o.arr, scalars⟩)

/-- One event. Writing to a read-only array raises and changes nothing; so does anything on objects
or arrays that do not exist. Constructors and setters at
`flory/interaction/flory_huggins.py:103-110`, `flory/ensemble/canonical.py:97-105`,
`flory/constraint/linear_local.py:162-166`; compilation at `flory/mcmp/finder.py:178-202`,
`311-431`. -/
def World.step (w : World) : UserOp → World
  | .create cls contents =>
    let (m, arr) := w.mem.allocAll contents
    { w with mem := m, objs := w.objs ++ [⟨cls, arr⟩] }
  | .poke k j idx x =>
    match w.objs[k]? with
    | none => w
    | some o =>
      if o.cls.writable then
        match o.arr[j]? with
        | none => w
        | some a => { w with mem := w.mem.write a idx x }
      else w
  | .assign k j content =>
    match w.objs[k]? with
    | none => w
    | some o =>
      let (m, a) := w.mem.alloc content
      { w with mem := m, objs := w.objs.set k { o with arr := o.arr.set j a } }
  | .compile k scalars =>
    match w.objs[k]? with
    | none => w
    | some o =>
      let (m, x) := o.compile w.mem scalars
      { w with mem := m, insts := w.insts ++ [x] }

/-- A history of events. User code; the single events are those of `World.step`,
`flory/mcmp/finder.py:178-202`, `311-431`. -/
def World.steps (w : World) (ops : List UserOp) : World := ops.foldl World.step w

/-- Nothing has been created. The state before any constructor
(`flory/interaction/flory_huggins.py:87-110`) is called. -/
def World.start : World := ⟨⟨fun _ _ => 0, 0⟩, [], []⟩

end Flory
