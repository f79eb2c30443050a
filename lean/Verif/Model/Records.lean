import Verif.Model.Dump

/-!
# Coils as NumPy records: `to_numpy_array` and `from_numpy_array` of every coil class

Structured NumPy scalars with named fields. 64-bit reals are elements of `K`. The class of a coil decides which methods it uses;
`FilamentCoil` and `PreCalcCoil` inherit some of theirs from `Coil`.
-/

namespace FreeGS.Records

universe u
variable {K : Type u} [Field K] [LinearOrder K]

/-- The types of fields that occur: `int`, `np.float64`, `bool`, and `"nf8"`, an array of `n` reals. -/
inductive Kind where
  | int
  | real
  | bool
  | reals (n : ℕ)
  deriving DecidableEq

/-- `np.dtype([(name, type), …])`. -/
abbrev DType := List (String × Kind)

/-- The value of a field. -/
inductive Val (K : Type u) where
  | int (n : ℤ)
  | real (x : K)
  | bool (b : Bool)
  | reals (l : List K)
  deriving DecidableEq

/-- A structured scalar: `value.dtype` and `value[()]`. -/
structure Rec (K : Type u) where
  dtype : DType
  vals : List (Val K)
  deriving DecidableEq

/-- What is put in a tuple for `np.array(tuple, dtype=…)`. -/
inductive Arg (K : Type u) where
  | num (x : K)
  | bool (b : Bool)
  | arr (l : List K)

/-- Conversion to the type of the field. `toInt` is NumPy's conversion of a number to an integer. A number for an array field is
repeated; an array of another length does not fit. -/
def convert (toInt : K → ℤ) : Kind → Arg K → Except Err (Val K)
  | .int, .num x => .ok (.int (toInt x))
  | .int, .bool b => .ok (.int (if b then 1 else 0))
  | .real, .num x => .ok (.real x)
  | .real, .bool b => .ok (.real (if b then 1 else 0))
  | .bool, .num x => .ok (.bool (x ≠ 0))
  | .bool, .bool b => .ok (.bool b)
  | .reals n, .num x => .ok (.reals (List.replicate n x))
  | .reals n, .bool b => .ok (.reals (List.replicate n (if b then 1 else 0)))
  | .reals n, .arr l => if l.length = n then .ok (.reals l) else .error .value
  | _, .arr _ => .error .value

/-- The fields of `np.array(tuple, dtype=…)`; `ValueError` if the tuple has not one value for each field. -/
def fill (toInt : K → ℤ) : DType → List (Arg K) → Except Err (List (Val K))
  | [], [] => .ok []
  | f :: fs, a :: as =>
    match fill toInt fs as with
    | .error err => .error err
    | .ok vs =>
      match convert toInt f.2 a with
      | .error err => .error err
      | .ok v => .ok (v :: vs)
  | _, _ => .error .value

/-- `np.array(tuple, dtype=…)`. -/
def array (toInt : K → ℤ) (dt : DType) (args : List (Arg K)) : Except Err (Rec K) :=
  match fill toInt dt args with
  | .error err => .error err
  | .ok vs => .ok ⟨dt, vs⟩

/-- `value[name]`: `ValueError` if there is no such field. -/
def Rec.field (r : Rec K) (name : String) : Except Err (Val K) :=
  match (r.dtype.zip r.vals).find? fun x => x.1.1 == name with
  | none => .error .value
  | some x => .ok x.2

/-- The coil classes. -/
inductive Cls where
  | coil
  | shaped
  | filament
  | multi
  | precalc
  deriving DecidableEq

/-- The class of a coil. -/
def clsOf : AnyCoil K → Cls
  | .point _ => .coil
  | .shaped _ => .shaped
  | .filament _ => .filament
  | .multi _ => .multi
  | .precalc _ => .precalc

/-- `cls.dtype` (coil.py:74-82, shaped_coil.py:53-63, filament_coil.py:182-192, multi_coil.py:68-79, pre_calc_coil.py:56-65). -/
def dtypeOf : Cls → DType
  | .coil => [("R", .real), ("Z", .real), ("current", .real), ("turns", .int), ("control", .bool)]
  | .shaped => [("RZlen", .int), ("R", .reals 10), ("Z", .reals 10), ("current", .real), ("turns", .int), ("control", .bool), ("npoints", .int)]
  | .filament => [("RZlen", .int), ("R", .reals 500), ("Z", .reals 500), ("current", .real), ("turns", .int), ("control", .bool), ("npoints", .int)]
  | .multi => [("RZlen", .int), ("R", .reals 500), ("Z", .reals 500), ("current", .real), ("turns", .int), ("control", .bool), ("mirror", .bool),
      ("polarity", .reals 2)]
  | .precalc => [("RZlen", .int), ("R", .reals 10), ("Z", .reals 10), ("current", .real), ("turns", .int), ("control", .bool)]

/-- `a = np.zeros(size); a[:len] = l` (shaped_coil.py:199-202, multi_coil.py:218-221, pre_calc_coil.py:225-228): the slice is cut off at
`size`, and `ValueError` if it has not the length of `l`. A list of length one, which NumPy would repeat, does not occur with another
`len`. -/
def padTo (size len : ℕ) (l : List K) : Except Err (List K) :=
  if l.length = min len size then .ok (l ++ List.replicate (size - l.length) 0) else .error .value

/-- `to_numpy_array()` (coil.py:233-239, shaped_coil.py:194-215, multi_coil.py:211-236, pre_calc_coil.py:220-233). `FilamentCoil` has no
method of its own and uses that of `Coil` with its own dtype. -/
def toNumpy (toInt : K → ℤ) : AnyCoil K → Except Err (Rec K)
  | .point c => array toInt (dtypeOf .coil) [.num c.R, .num c.Z, .num c.current, .num c.turns, .bool c.control]
  | .shaped c =>
    match padTo 10 c.shape.length (c.shape.map Prod.fst), padTo 10 c.shape.length (c.shape.map Prod.snd) with
    | .ok R, .ok Z => array toInt (dtypeOf .shaped)
        [.num c.shape.length, .arr R, .arr Z, .num c.current, .num c.turns, .bool c.control, .num c.npoints]
    | .error err, _ => .error err
    | _, .error err => .error err
  | .filament c => array toInt (dtypeOf .filament) [.num c.rCentre, .num c.zCentre, .num c.current, .num c.turns, .bool c.control]
  | .multi c =>
    if c.Rfil.length ≤ 500 then
      match padTo 500 c.Rfil.length c.Rfil, padTo 500 c.Rfil.length c.Zfil with
      | .ok R, .ok Z => array toInt (dtypeOf .multi)
          [.num c.Rfil.length, .arr R, .arr Z, .num c.current, .num c.turns, .bool c.control, .bool c.mirror, .arr [c.polarity.1, c.polarity.2]]
      | .error err, _ => .error err
      | _, .error err => .error err
    else .error .assertion
  | .precalc c =>
    match padTo 10 c.shape.length (c.shape.map Prod.fst), padTo 10 c.shape.length (c.shape.map Prod.snd) with
    | .ok R, .ok Z => array toInt (dtypeOf .precalc) [.num c.shape.length, .arr R, .arr Z, .num c.current, .num c.turns, .bool c.control]
    | .error err, _ => .error err
    | _, .error err => .error err

/-- What `from_numpy_array` returns: a coil; or an object of class `Coil` with attributes of the wrong types; or nothing, because the
triangulation of the outline does not return. -/
inductive Made (K : Type u) where
  | coil (c : AnyCoil K)
  | odd (R Z current turns control : Val K) (area : Option (Val K))
  | never

/-- `Coil(*values)` (coil.py:84-113), with five or six values; with more there are too many arguments (`TypeError`). Fewer do not occur. -/
def callCoil : List (Val K) → Except Err (Made K)
  | [.real R, .real Z, .real current, .int turns, .bool control] => .ok (.coil (.point (PointCoil.make R Z current turns control)))
  | [R, Z, current, turns, control] => .ok (.odd R Z current turns control none)
  | [R, Z, current, turns, control, area] => .ok (.odd R Z current turns control (some area))
  | _ => .error .type

/-- The body of `ShapedCoil.from_numpy_array` after the check of the dtype (shaped_coil.py:225-239). Fields of other types do not
occur with that dtype. -/
def readShaped (r : Rec K) : Except Err (Made K) :=
  match r.field "RZlen", r.field "R", r.field "Z", r.field "current", r.field "turns", r.field "control", r.field "npoints" with
  | .ok (.int len), .ok (.reals R), .ok (.reals Z), .ok (.real current), .ok (.int turns), .ok (.bool control), .ok (.int npoints) =>
    match ShapedCoil.make ((R.take len.toNat).zip (Z.take len.toNat)) current turns control npoints.toNat with
    | .error err => .error err
    | .ok none => .ok .never
    | .ok (some c) => .ok (.coil (.shaped c))
  | _, _, _, _, _, _, _ => .error .value

/-- The body of `MultiCoil.from_numpy_array` after the check of the dtype (multi_coil.py:246-262): the flag `mirror` is taken from a
field called `npoints`. The constructor sets the turns to the number of filaments, whatever is passed. -/
def readMulti (r : Rec K) : Except Err (Made K) :=
  match r.field "RZlen", r.field "R", r.field "Z", r.field "current", r.field "turns", r.field "control", r.field "npoints", r.field "polarity" with
  | .ok (.int len), .ok (.reals R), .ok (.reals Z), .ok (.real current), .ok (.int _), .ok (.bool control), .ok (.int mirror), .ok (.reals [p, q]) =>
    match MultiCoil.makeList (R.take len.toNat) (Z.take len.toNat) current control (mirror ≠ 0) (p, q) with
    | .error err => .error err
    | .ok c => .ok (.coil (.multi c))
  | _, _, _, _, _, _, _, _ => .error .value

/-- `cls.from_numpy_array(value)` (coil.py:242-249, shaped_coil.py:218-239, multi_coil.py:238-262). `FilamentCoil` and `PreCalcCoil` use
the method of `Coil`, which checks the dtype of the class it is called for and then makes a `Coil`. -/
def fromNumpy (k : Cls) (r : Rec K) : Except Err (Made K) :=
  if r.dtype ≠ dtypeOf k then .error .value
  else
    match k with
    | .shaped => readShaped r
    | .multi => readMulti r
    | _ => callCoil r.vals

/-- `type(c).from_numpy_array(c.to_numpy_array())`. -/
def roundtrip (toInt : K → ℤ) (c : AnyCoil K) : Except Err (Made K) :=
  match toNumpy toInt c with
  | .error err => .error err
  | .ok r => fromNumpy (clsOf c) r

end FreeGS.Records
