import Verif.Model.Machine

/-!
# Model of `freegs/optimise.py` (measures and coil position controls)

The equilibrium is represented by its machine; nothing else of it is touched by the controls.
-/

namespace FreeGS.Optimise

variable {K : Type*} [Field K] [LinearOrder K]

/-- An argument of `weighted_sum`: a callable or a pair `(callable, weight)`. -/
inductive Arg (E K : Type*) where
  | bare (f : E → K)
  | pair (f : E → K) (w : K)

/-- The list `args_pairs` built by `weighted_sum` (optimise.py:67-75). -/
def pairs {E : Type*} (args : List (Arg E K)) : List ((E → K) × K) :=
  args.map fun a => match a with
    | .bare f => (f, 1)
    | .pair f w => (f, w)

/-- `weighted_sum(*args)` (optimise.py:58-79), applied to an equilibrium. -/
def weightedSum {E : Type*} (args : List (Arg E K)) (eq : E) : K :=
  (pairs args).foldl (fun acc p => acc + p.1 eq * p.2) 0

/-- The truth value of an optional number as in `if self.minimum and ...`: `None` and `0.0` are false. -/
def truthy (x : Option K) : Bool :=
  match x with
  | none => false
  | some v => decide (v ≠ 0)

/-- The limiting part of `CoilRadius.set` and `CoilHeight.set` (optimise.py:97-103, 121-127). -/
def limit (minimum maximum : Option K) (v : K) : K :=
  let v := match minimum with
    | none => v
    | some a => if truthy (some a) && decide (v < a) then a else v
  match maximum with
  | none => v
  | some b => if truthy (some b) && decide (v > b) then b else v

/-- `eq.tokamak[label].R = v` / `.Z = v` on a machine entry: circuits and solenoids have no such
property, Python just creates a stray attribute on them, which changes nothing modelled. -/
def assign (f : K → AnyCoil K → AnyCoil K) (v : K) : Entry K → Entry K
  | .coil c => .coil (f v c)
  | x => x

/-- Position of the first entry with a given label. -/
def indexOf (m : Machine K) (label : String) : Option ℕ := m.coils.findIdx? fun x => x.1 == label

/-- `CoilRadius(name, minimum, maximum).set(eq, R)` (optimise.py:85-106). -/
def setRadius (label : String) (minimum maximum : Option K) (m : Machine K) (R : K) :
    Except Err (Machine K) :=
  match indexOf m label with
  | none => .error .key
  | some i => .ok ⟨m.coils.modify i fun x => (x.1, assign AnyCoil.setR (limit minimum maximum R) x.2)⟩

/-- `CoilHeight(name, minimum, maximum).set(eq, Z)` (optimise.py:109-130). -/
def setHeight (label : String) (minimum maximum : Option K) (m : Machine K) (Z : K) :
    Except Err (Machine K) :=
  match indexOf m label with
  | none => .error .key
  | some i => .ok ⟨m.coils.modify i fun x => (x.1, assign AnyCoil.setZ (limit minimum maximum Z) x.2)⟩

/-- `CoilRadius.get(eq)` and `CoilHeight.get(eq)` (optimise.py:105-106, 129-130): circuits and solenoids have
no such attribute. -/
def getAttr (f : AnyCoil K → K) (label : String) (m : Machine K) : Except Err K :=
  match m.getItem label with
  | .error e => .error e
  | .ok (.coil c) => .ok (f c)
  | .ok _ => .error .attribute

/-- The last value stored under each label of a list of pairs, as in a Python dictionary; the order of
`dict.values()` does not matter below. -/
def dictValues {β : Type*} : List (String × β) → List β
  | [] => []
  | (k, v) :: rest => if rest.any fun x => x.1 == k then dictValues rest else v :: dictValues rest

/-- `max` of an iterable: `ValueError` when it is empty. -/
def pyMax (l : List K) : Except Err K :=
  match l.max? with
  | some v => .ok v
  | none => .error .value

/-- `max_abs_coil_current(eq)` (optimise.py:35-40). -/
def maxAbsCurrent (m : Machine K) : Except Err K :=
  pyMax ((dictValues m.getCurrents).map fun I => |I|)

/-- `max_coil_force(eq)` (optimise.py:43-45). `eq.tokamak.getForces()` is called without the equilibrium, so
the plasma field is zero. The value stored for a circuit is a dictionary of labels and for a solenoid the empty
dictionary: indexing it with `0` raises `KeyError`. Labels are taken to be distinct here. -/
def maxCoilForce (e : Env K) (m : Machine K) : Except Err K :=
  if m.coils.all fun x => match x.2 with | .coil _ => true | _ => false then
    pyMax ((m.getForces e fun _ _ _ => 0).1.map fun f => e.sqrt (f.1 ^ 2 + f.2 ^ 2))
  else .error .key

end FreeGS.Optimise
