import Verif.Model.Dump

/-!
# Comparison with `==`

The `__eq__` methods of coils, circuits, solenoids, walls and machines. `a == b` is `.ok true`, `.ok false` or an exception. `a != b` is
`not a == b` everywhere (coil.py:230, machine.py:237, 440, 483, 671, shaped_coil.py:250). Python compares two objects that are the
same object in memory without calling `__eq__` when they are inside lists or tuples; the result is the same here because every coil is
equal to itself.
-/

namespace FreeGS.Equality

open FreeGS.Dump (Mach)

universe u
variable {S K : Type u} [Field K] [LinearOrder K]

/-- `a and b`. -/
def both (a b : Except Err Bool) : Except Err Bool :=
  match a with
  | .ok true => b
  | r => r

/-- `a != b` from `a == b`. -/
def neOf (r : Except Err Bool) : Except Err Bool := r.map not

/-- `numpy.isclose(a, b)` with the default `rtol = 1e-5`, `atol = 1e-8`. -/
def isclose (a b : K) : Bool := decide (|a - b| ≤ 1 / 100000000 + 1 / 100000 * |b|)

/-- `numpy.allclose(a, b)` for lists of numbers: a list of length one is compared with every element of the other, other lists of
different lengths raise `ValueError`. -/
def allclose : List K → List K → Except Err Bool
  | [x], b => .ok (b.all fun y => isclose x y)
  | a, [y] => .ok (a.all fun x => isclose x y)
  | a, b => if a.length = b.length then .ok ((a.zip b).all fun p => isclose p.1 p.2) else .error .value

/-- `numpy.allclose(a, b)` for two outlines. An outline has more than two points, so that outlines of different lengths raise
`ValueError`. -/
def allcloseShape (a b : List (K × K)) : Except Err Bool :=
  if a.length = b.length then .ok ((a.zip b).all fun p => isclose p.1.1 p.2.1 && isclose p.1.2 p.2.2) else .error .value

/-- `Coil.__eq__` (coil.py:221-228) and `MultiCoil.__eq__` (multi_coil.py:199-206), inherited by `FilamentCoil` and `PreCalcCoil`. -/
def plainEq (a b : AnyCoil K) : Bool :=
  decide (a.R = b.R) && decide (a.Z = b.Z) && decide (a.current = b.current) && decide (a.turns = b.turns) && a.control == b.control

/-- `ShapedCoil.__eq__` (shaped_coil.py:241-248). `Coil` and `MultiCoil` have no `shape`, `FilamentCoil` and `PreCalcCoil` have no
`npoints_per_triangle`. -/
def shapedEq (a : ShapedCoil K) : AnyCoil K → Except Err Bool
  | .shaped b =>
    both (allcloseShape a.shape b.shape)
      (.ok (decide (a.current = b.current) && decide (a.turns = b.turns) && a.control == b.control && decide (a.npoints = b.npoints)))
  | .filament b => other b.shape b.current b.turns b.control
  | .precalc b => other b.shape b.current b.turns b.control
  | .point _ => .error .attribute
  | .multi _ => .error .attribute
where
  other (shape : List (K × K)) (current turns : K) (control : Bool) : Except Err Bool :=
    both (allcloseShape a.shape shape)
      (if a.current = current ∧ a.turns = turns ∧ a.control = control then .error .attribute else .ok false)

/-- `a == b` for two coils. Python calls the method of `b` first when the class of `b` is derived from that of `a`; all coil classes are
derived from `Coil`. -/
def coilEq : AnyCoil K → AnyCoil K → Except Err Bool
  | .shaped a, b => shapedEq a b
  | .point a, .shaped b => shapedEq b (.point a)
  | a, b => .ok (plainEq a b)

/-- `self.coils == other.coils` for the coils of two circuits, once the lengths are known to be equal. -/
def rowsEq : List (String × AnyCoil K × K) → List (String × AnyCoil K × K) → Except Err Bool
  | [], [] => .ok true
  | a :: as, b :: bs =>
    both (.ok (decide (a.1 = b.1))) (both (coilEq a.2.1 b.2.1) (both (.ok (decide (a.2.2 = b.2.2))) (rowsEq as bs)))
  | _, _ => .ok false

/-- `Circuit.__eq__` (machine.py:230-235). -/
def circuitEq (a b : Circuit K) : Except Err Bool :=
  both (if a.coils.length = b.coils.length then rowsEq a.coils b.coils else .ok false)
    (.ok (decide (a.current = b.current) && a.control == b.control))

/-- `Solenoid.__eq__` (machine.py:430-438). -/
def solenoidEq (a b : Solenoid K) : Bool :=
  decide (a.Rs = b.Rs) && decide (a.Zsmin = b.Zsmin) && decide (a.Zsmax = b.Zsmax) && decide (a.Ns = b.Ns) &&
    decide (a.current = b.current) && a.control == b.control

/-- `a == b` for two elements of a machine. Elements of different kinds lack the attributes of each other. -/
def entryEq : Entry K → Entry K → Except Err Bool
  | .coil a, .coil b => coilEq a b
  | .circuit a, .circuit b => circuitEq a b
  | .solenoid a, .solenoid b => .ok (solenoidEq a b)
  | _, _ => .error .attribute

/-- `a < b` for two tuples `(label, coil)`: the coils are compared if the labels are equal, and have no order (`TypeError`). -/
def itemLt (a b : String × Entry K) : Except Err Bool :=
  if a.1 = b.1 then
    match entryEq a.2 b.2 with
    | .error err => .error err
    | .ok true => .ok false
    | .ok false => .error .type
  else .ok (decide (a.1 < b.1))

/-- Insertion before the first element that is not smaller. -/
def insertItem (x : String × Entry K) : List (String × Entry K) → Except Err (List (String × Entry K))
  | [] => .ok [x]
  | y :: ys =>
    match itemLt y x with
    | .error err => .error err
    | .ok false => .ok (x :: y :: ys)
    | .ok true =>
      match insertItem x ys with
      | .error err => .error err
      | .ok zs => .ok (y :: zs)

/-- `sorted(coils)`. Python's sort makes other comparisons; which pairs are compared matters only if labels are repeated. -/
def sortItems : List (String × Entry K) → Except Err (List (String × Entry K))
  | [] => .ok []
  | x :: xs =>
    match sortItems xs with
    | .error err => .error err
    | .ok ys => insertItem x ys

/-- Equality of two lists of tuples `(label, coil)` of the same length. -/
def itemsEq : List (String × Entry K) → List (String × Entry K) → Except Err Bool
  | [], [] => .ok true
  | a :: as, b :: bs => both (.ok (decide (a.1 = b.1))) (both (entryEq a.2 b.2) (itemsEq as bs))
  | _, _ => .ok false

/-- `Wall.__eq__` (machine.py:480-481); `None` has no attribute `R`. -/
def wallEq : Option (List (K × K)) → Option (List (K × K)) → Except Err Bool
  | none, none => .ok true
  | some a, some b => both (allclose (a.map Prod.fst) (b.map Prod.fst)) (allclose (a.map Prod.snd) (b.map Prod.snd))
  | _, _ => .error .attribute

/-- `Machine.__eq__` (machine.py:666-669). -/
def machineEq (a b : Mach S K) : Except Err Bool :=
  match sortItems a.coils with
  | .error err => .error err
  | .ok as =>
    match sortItems b.coils with
    | .error err => .error err
    | .ok bs => both (if as.length = bs.length then itemsEq as bs else .ok false) (wallEq a.walled.wall b.walled.wall)

end FreeGS.Equality
