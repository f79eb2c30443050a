import Mathlib.Data.List.Sort
import Verif.Model.Limits
import Verif.Model.Machine
import Verif.Model.Resolution

/-!
# Saving and restoring an equilibrium: `freegs/dump.py`

A file is what h5py keeps: the numbers of each dataset, with 64-bit reals taken as elements of `K`. A dataset of coils is a `Record`,
one constructor for each class name that can be stored in the attribute `freegs type`. The file is new and empty before writing.
-/

namespace FreeGS.Dump

open FreeGS.Resolution
open FreeGS.Critical (Domain)
open FreeGS.Limits (Walled)
open FreeGS.GS (Arr)

universe u
variable {S P Q K : Type u} [Field K] [LinearOrder K]

/-- `Machine` (machine.py:640-659): coils, wall with its limiter points, sensors and `R0`. -/
structure Mach (S K : Type u) where
  coils : List (String × Entry K)
  walled : Walled K
  sensors : Option S
  R0 : K

/-- `Machine(coils, wall, sensors, nlimit, R0)` with the default arguments (machine.py:640-659). -/
def Mach.make (sqrt : K → K) (coils : List (String × Entry K)) (wall : Option (List (K × K)) := none) (sensors : Option S := none)
    (nlimit : ℕ := 500) (R0 : K := 1) : Except Err (Mach S K) :=
  match Walled.make sqrt wall nlimit with
  | .error err => .error err
  | .ok w => .ok ⟨coils, w, sensors, R0⟩

/-! ## Coils as records -/

/-- One value of `Coil.dtype` (coil.py:74-82). The turns are an integer. -/
structure Row (K : Type*) where
  R : K
  Z : K
  current : K
  turns : ℤ
  control : Bool
  deriving DecidableEq

/-- The dataset of one label, with its class name (dump.py:177-182): `Coil.dtype`, `ShapedCoil.dtype` (shaped_coil.py:53-63),
`Circuit.dtype` (machine.py:77-83), `Solenoid.dtype` (machine.py:330-339). -/
inductive Record (K : Type*) where
  | coil (r : Row K)
  | shaped (len : ℕ) (R Z : List K) (current : K) (turns : ℤ) (control : Bool) (npoints : ℕ)
  | circuit (rows : List (String × Row K × K))
  | solenoid (Rs Zsmin Zsmax Ns current : K) (control : Bool)
  deriving DecidableEq

/-- `Coil.to_numpy_array` (coil.py:233-239). `toInt` is the conversion of a number to an integer by NumPy. -/
def rowOf (toInt : K → ℤ) (c : PointCoil K) : Row K := ⟨c.R, c.Z, c.current, toInt c.turns, c.control⟩

/-- `a = zeros(10); a[:len] = l` (shaped_coil.py:199-202): `ValueError` if the list is longer than the array. -/
def pad (l : List K) : Except Err (List K) :=
  if l.length ≤ 10 then .ok (l ++ List.replicate (10 - l.length) 0) else .error .value

/-- The rows of `Circuit.to_numpy_array` (machine.py:240-250). A coil of another class has a record with other fields, which NumPy
does not convert to `Coil.dtype`; which exception it raises is not modelled. -/
def rowsOf (toInt : K → ℤ) : List (String × AnyCoil K × K) → Except Err (List (String × Row K × K))
  | [] => .ok []
  | (l, .point c, m) :: rest =>
    match rowsOf toInt rest with
    | .error err => .error err
    | .ok rows => .ok ((l, rowOf toInt c, m) :: rows)
  | _ :: _ => .error .value

/-- The look-up of the dtype and `to_numpy_array()` (dump.py:173-178). The dtype of a `MultiCoil` or `PreCalcCoil` is not in the table
(`ValueError`, dump.py:176). That of a `FilamentCoil` is, but `FilamentCoil` inherits `Coil.to_numpy_array`, whose five values do not
fit its seven fields (filament_coil.py:182-192; `ValueError` of NumPy). -/
def toRecord (toInt : K → ℤ) : Entry K → Except Err (Record K)
  | .coil (.point c) => .ok (.coil (rowOf toInt c))
  | .coil (.shaped c) =>
    match pad (c.shape.map Prod.fst), pad (c.shape.map Prod.snd) with
    | .ok R, .ok Z => .ok (.shaped c.shape.length R Z c.current (toInt c.turns) c.control c.npoints)
    | .error err, _ => .error err
    | _, .error err => .error err
  | .coil (.filament _) => .error .value
  | .coil (.multi _) => .error .value
  | .coil (.precalc _) => .error .value
  | .circuit c =>
    match rowsOf toInt c.coils with
    | .error err => .error err
    | .ok rows => .ok (.circuit rows)
  | .solenoid s => .ok (.solenoid s.Rs s.Zsmin s.Zsmax s.Ns s.current s.control)

/-- `Coil(*value)` (coil.py:242-249): the area is the default one. -/
def coilOf (r : Row K) : PointCoil K := PointCoil.make r.R r.Z r.current r.turns r.control

/-- `from_numpy_array` (coil.py:242-249, shaped_coil.py:218-239, machine.py:253-277, 453-460). `.ok none`: the constructor of the
shaped coil does not return. For a circuit, `value[0]` raises `IndexError` when there are no coils, and division by a zero multiplier
gives `inf` or `nan`. -/
def fromRecord (toInt : K → ℤ) : Record K → Except Err (Option (Entry K))
  | .coil r => .ok (some (.coil (.point (coilOf r))))
  | .shaped len R Z current turns control npoints =>
    match ShapedCoil.make ((R.take len).zip (Z.take len)) current turns control npoints with
    | .error err => .error err
    | .ok none => .ok none
    | .ok (some c) => .ok (some (.coil (.shaped c)))
  | .circuit rows =>
    match rows with
    | [] => .error .index
    | first :: _ =>
      if first.2.2 = 0 then .error .nonfinite
      else
        .ok (some (.circuit (Circuit.make (rows.map fun x => (x.1, .point (coilOf x.2.1), x.2.2)) (first.2.1.current / first.2.2)
          first.2.1.control)))
  | .solenoid Rs Zsmin Zsmax Ns current control => .ok (some (.solenoid ⟨Rs, Zsmin, Zsmax, (toInt Ns).toNat, current, control⟩))

/-! ## Files -/

/-- What is stored (dump.py:130-182), except the total flux and the grids `R_1D`, `Z_1D`, `Z`, which are not read back. Of `R` only the
shape is read. -/
structure File (K : Type u) where
  dom : Domain K
  nx : ℕ
  ny : ℕ
  current : K
  plasmaPsi : Arr K
  boundary : String
  wall : Option (List (K × K))
  coils : List (String × Record K)

/-- A label that HDF5 takes as a plain name and not as a path. -/
def plainLabel (l : String) : Bool := l ≠ "" && l ≠ "." && !l.toList.contains '/'

/-- The loop over the coils (dump.py:172-182). Creating a dataset whose name exists is an error. Labels that HDF5 would take as a path
are outside the model: the error `runtime` stands for whatever happens with them. -/
def writeCoils (toInt : K → ℤ) : List (String × Entry K) → List (String × Record K) → Except Err (List (String × Record K))
  | [], acc => .ok acc
  | (l, x) :: rest, acc =>
    match toRecord toInt x with
    | .error err => .error err
    | .ok r =>
      if !plainLabel l then .error .runtime
      else if l ∈ acc.map Prod.fst then .error .value
      else writeCoils toInt rest (acc ++ [(l, r)])

/-- The `__name__` of the boundary function (dump.py:161-163; boundary.py:29, 50, 102). -/
def boundaryName : Boundary → String
  | .free => "freeBoundary"
  | .fixed => "fixedBoundary"
  | .hagenow => "freeBoundaryHagenow"
  | .user name => name

/-- `boundary.__dict__[name]` (dump.py:239) for the functions of that module. The other names in the module (`Greens`, `romb`, …) are
not boundary functions; looking one of them up is not modelled and counts as a missing key. -/
def boundaryOf (name : String) : Except Err Boundary :=
  if name = "freeBoundary" then .ok .free
  else if name = "fixedBoundary" then .ok .fixed
  else if name = "freeBoundaryHagenow" then .ok .hagenow
  else .error .key

/-- `write_equilibrium` (dump.py:111-182). `greens` is the table `_pgreen` at one grid point: `equilibrium.psi()` evaluates the coils
from it, which writes the currents of the coils in circuits. Result: the file, and the equilibrium as it is left. -/
def write (toInt : K → ℤ) (greens : String → Option (Entry.Greens K)) (eq : Eqm (Mach S K) P Q K) :
    Except Err (File K × Eqm (Mach S K) P Q K) :=
  match Machine.calcFromGreens greens ⟨eq.tokamak.coils⟩ with
  | .error err => .error err
  | .ok r =>
    let tok := { eq.tokamak with coils := r.2.coils }
    match writeCoils toInt tok.coils [] with
    | .error err => .error err
    | .ok coils =>
      .ok (⟨eq.dom, eq.nx, eq.ny, eq.current, eq.plasmaPsi, boundaryName eq.boundary, tok.walled.wall, coils⟩, { eq with tokamak := tok })

/-- The list of coils (dump.py:203-210). -/
def readCoils (toInt : K → ℤ) : List (String × Record K) → Except Err (Option (List (String × Entry K)))
  | [] => .ok (some [])
  | (l, r) :: rest =>
    match fromRecord toInt r with
    | .error err => .error err
    | .ok none => .ok none
    | .ok (some x) =>
      match readCoils toInt rest with
      | .error err => .error err
      | .ok none => .ok none
      | .ok (some xs) => .ok (some ((l, x) :: xs))

/-- The order in which h5py lists the coils: by name. -/
def byLabel (coils : List (String × Record K)) : List (String × Record K) := coils.insertionSort fun a b => a.1 ≤ b.1

/-- `read_equilibrium` (dump.py:184-254). `.ok none`: the constructor of a shaped coil does not return. -/
def read (toInt : K → ℤ) (sqrt : K → K) (e : Ext (Mach S K) P Q K) (f : File K) : Except Err (Option (Eqm (Mach S K) P Q K)) :=
  match readCoils toInt (byLabel f.coils) with
  | .error err => .error err
  | .ok none => .ok none
  | .ok (some coils) =>
    match Mach.make sqrt coils f.wall with
    | .error err => .error err
    | .ok tok =>
      match boundaryOf f.boundary with
      | .error err => .error err
      | .ok b =>
        match make e tok f.dom f.nx f.ny (boundary := b) (psi := some f.plasmaPsi) (current := f.current) with
        | .error err => .error err
        | .ok eq => .ok (some eq)

end FreeGS.Dump
