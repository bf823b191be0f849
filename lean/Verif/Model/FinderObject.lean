import Verif.Model.FinderAttrs
import Verif.Model.TranscriptObjects

/-!
# Methods of a finder that change it: primitives for the transcription

`Verif/Gen/FinderObject.lean` contains the constructor and the methods of `CoexistingPhasesFinder` as
translated by `tools/transcribe_finder.py`.  A method changes the attributes of the object step by step,
and the changes made before an exception stay.
-/

namespace Flory

/-- A piece of a method: the object afterwards, also if an exception was raised, and the result. Methods
of `flory/mcmp/finder.py:178-488`. -/
def Act (σ α : Type) := σ → σ × Py α

namespace Act

variable {σ α β : Type}

/-- One statement after the other (`flory/mcmp/finder.py:178-488`). -/
instance : Monad (Act σ) where
  pure x := fun s => (s, .ok x)
  bind a f := fun s =>
    match a s with
    | (s, .error e) => (s, .error e)
    | (s, .ok x) => f x s

/-- `raise`. Models `flory/mcmp/finder.py:275`, `284`, `307`. -/
def raise (e : PyErr) : Act σ α := fun s => (s, .error e)

/-- A computation that does not change the object but may raise. Models `flory/mcmp/finder.py:180-182`. -/
def lift (x : Py α) : Act σ α := fun s => (s, x)

/-- `self.x`; an attribute that was never assigned raises `AttributeError`. Models
`flory/mcmp/finder.py:184-186`. -/
def read (p : σ → Option α) : Act σ α := fun s =>
  match p s with
  | none => (s, .error .attributeError)
  | some x => (s, .ok x)

/-- `self.x = …`. Models `flory/mcmp/finder.py:178-238`. -/
def write (u : σ → σ) : Act σ Unit := fun s => (u s, .ok ())

/-- `for x in l`. Models `flory/mcmp/finder.py:193-194`, `201-202`, `413-421`, `425-426`. -/
def forEach (l : List α) (f : α → Act σ Unit) : Act σ Unit :=
  match l with
  | [] => pure ()
  | x :: xs => do
    f x
    forEach xs f

/-- `for x in l` when the body changes the object `x`: the list afterwards. Models
`flory/mcmp/finder.py:441-442`. -/
def mapEach (l : List α) (f : α → Act σ β) : Act σ (List β) :=
  match l with
  | [] => pure []
  | x :: xs => do
    let y ← f x
    let ys ← mapEach xs f
    pure (y :: ys)

end Act

/-- `d[k]` (`flory/common/utilities.py:25`); `KeyError` is represented by `indexError`. -/
def Dict.item {V : Type} (d : Dict V) (k : String) : Py V :=
  match d.get? k with
  | none => .error .indexError
  | some v => .ok v

/-- What `check_instance` sees of a compiled instance: the attributes that exist. Models `hasattr` at
`flory/mcmp/finder.py:265-284`. -/
structure InstAttrs where
  num_comp : Option ℕ
  num_feat : Option ℕ

/-- `rng.normal(loc, scale, (rows, cols))`: filled row by row; numpy rejects a negative scale. Models
`flory/mcmp/finder.py:449-453`. -/
noncomputable def rngNormal {G : Type} (rng : Rng G ℝ) (loc scale : ℝ) (rows cols : ℕ) (g : G) :
    Py (NDArr ℝ × G) :=
  if scale < 0 then .error .valueError
  else
    let d : Mat rows cols ℝ × G := forRange rows (fun _ _ => 0, g) fun r s => forRange cols s fun c s =>
      let (x, g) := rng.normal s.2
      (setAt2 s.1 r c (loc + scale * x), g)
    .ok (NDArr.ofMat d.1, d.2)

/-- `interaction.potential(phis)` for a compiled interaction and any array
(`flory/interaction/flory_huggins.py:67-68`); only arrays with two dimensions are modelled further than as
an exception, and `check_field` (`flory/mcmp/finder.py:286-309`) lets no other pass. -/
noncomputable def potentialND (x : AnyInteraction) (phis : NDArr ℝ) : Py (NDArr ℝ) :=
  match phis.shape with
  | [r, c] => if r = x.1 then .ok (NDArr.ofMat (x.2.potential (phis.toMat x.1 c))) else .error .valueError
  | _ => .error .valueError

/-- `if constraints:` (`flory/mcmp/finder.py:189`, `404`). -/
def ConsArg.truthy : ConsArg → Bool
  | .none => false
  | .single _ => true
  | .many cs => !cs.isEmpty
  | .other => true

/-- `isinstance(constraints, ConstraintBase)` (`flory/mcmp/finder.py:190`, `405`). -/
def ConsArg.asBase : ConsArg → Option (InstObj AnyConsNew)
  | .single c => some c
  | _ => Option.none

/-- `isinstance(constraints, Iterable)` (`flory/mcmp/finder.py:192`, `412`). -/
def ConsArg.asIterable : ConsArg → Option (List (InstObj AnyConsNew))
  | .many cs => some cs
  | _ => Option.none

/-- `kwargs_individual is None` (`flory/mcmp/finder.py:406`, `413`). -/
def IndArg.isNone : IndArg → Bool
  | .none => true
  | _ => false

/-- `**kwargs_individual` (`flory/mcmp/finder.py:410`): only a dictionary can be unpacked. -/
def IndArg.mapping : IndArg → Py (Dict ℝ)
  | .dict d => .ok d
  | _ => .error .typeError

/-- Iterating over `kwargs_individual` (`flory/mcmp/finder.py:415`): a list of dictionaries, or the keys of a
dictionary, which are strings (`none`). -/
def IndArg.items : IndArg → Py (List (Option (Dict ℝ)))
  | .none => .error .typeError
  | .dict d => .ok (d.map fun _ => Option.none)
  | .dicts ds => .ok (ds.map some)

/-- `**current_args` (`flory/mcmp/finder.py:419`). -/
def itemMapping : Option (Dict ℝ) → Py (Dict ℝ)
  | Option.none => .error .typeError
  | some d => .ok d

/-- `cons.initialize(num_part)` (`flory/mcmp/finder.py:442`).  `other` is the constraint for another number
of compartments than `M`, which the type does not represent. -/
noncomputable def PackedCons.initialize {M : ℕ} (other : ℕ → PackedCons M → PackedCons M) (n : ℕ)
    (c : PackedCons M) : PackedCons M := if n = M then c.reset else other n c

end Flory
