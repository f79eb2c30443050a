import Verif.Model.Machine
import Verif.Model.Equality

/-!
# Model of the sensors of a machine (machine.py:487-623, 809-833)

The measurement of one sensor is in `Model/Machine.lean`. Here are the sensor objects with their attributes, `Machine.takeMeasurements`,
`Machine.printMeasurements` and the comparison of sensors.
-/

namespace FreeGS.Measure

variable {K : Type*} [Field K] [LinearOrder K]

/-- What a sensor is: a polygon, a point with the cosine and sine of an angle, or a point (machine.py:516-531, 565-575, 597-607). The
coordinates `Rs`, `Zs` of the polygon are used for the comparison, `region` for the measurement. -/
inductive Kind (K : Type*) where
  | rogowski (Rs Zs : List K) (region : AnyCoil.Region K)
  | poloidal (R Z cosT sinT : K)
  | fluxLoop (R Z : K)

/-- A sensor object. `measurement` is `none` as long as the attribute does not exist, and `some none` if it is `None`. The weight is used
nowhere and left out. -/
structure Probe (K : Type*) where
  kind : Kind K
  name : Option String
  status : Bool
  measurement : Option (Option K)

/-- `Sensor.__init__` (machine.py:492-501), called by the constructors of the three classes: the attribute `measurement` is made only
for a sensor that is on. -/
def make (kind : Kind K) (name : Option String := none) (status : Bool := true) (measurement : Option K := none) : Probe K :=
  { kind, name, status, measurement := if status then some measurement else none }

/-- The plasma of an equilibrium whose `tokamak` is the machine that is measured: its flux and field, and for a polygon the current density of
each grid point with the area of its cell that is inside. -/
structure Plasma (K : Type*) where
  field : Quantity → K → K → K
  cells : AnyCoil.Region K → List (K × K)

/-- `sensor.get_measure(tokamak, eq)`, by the class of the sensor: the sensor and the machine afterwards. -/
def getMeasure (e : Env K) (plasma : Option (Plasma K)) (m : Machine K) (x : Probe K) : Except Err (Probe K × Machine K) :=
  let s : Sensor K := ⟨x.status, x.measurement.join⟩
  let store (s' : Sensor K) : Probe K := { x with measurement := if x.status then some s'.measurement else x.measurement }
  match x.kind with
  | .rogowski _ _ region =>
    match s.rogowski region m (plasma.map fun p => p.cells region) with
    | .error err => .error err
    | .ok s' => .ok (store s', m)
  | .poloidal R Z cosT sinT =>
    let r := s.poloidal e R Z cosT sinT m (plasma.map Plasma.field)
    .ok (store r.1, r.2)
  | .fluxLoop R Z =>
    let r := s.fluxLoop e R Z m (plasma.map Plasma.field)
    .ok (store r.1, r.2)

/-- The loop of `takeMeasurements` (machine.py:813-814): the sensors and the machine as they are left behind, and the exception, if any. -/
def takeLoop (e : Env K) (plasma : Option (Plasma K)) : Machine K → List (Probe K) → List (Probe K) × Machine K × Option Err
  | m, [] => ([], m, none)
  | m, x :: rest =>
    match getMeasure e plasma m x with
    | .error err => (x :: rest, m, some err)
    | .ok (x', m') =>
      let r := takeLoop e plasma m' rest
      (x' :: r.1, r.2)

/-- `machine.takeMeasurements(eq)` (machine.py:809-814). `sensors` is what was given to the constructor, `None` by default
(machine.py:636, 647); a loop over `None` raises `TypeError`. -/
def takeMeasurements (e : Env K) (plasma : Option (Plasma K)) (m : Machine K) :
    Option (List (Probe K)) → Option (List (Probe K)) × Machine K × Option Err
  | none => (none, m, some .type)
  | some l => let r := takeLoop e plasma m l; (some r.1, r.2)

/-- The lines that are printed (machine.py:822-829): for each sensor its name, if it has one, and the measurement, until an attribute is
missing. -/
def printLoop : List (Probe K) → List (Option String × Option K) × Option Err
  | [] => ([], none)
  | x :: rest =>
    match x.measurement with
    | none => ([], some .attribute)
    | some v => let r := printLoop rest; ((x.name, v) :: r.1, r.2)

/-- `machine.printMeasurements(eq)` (machine.py:816-831): the sensors, the machine, the lines printed and the exception. -/
def printMeasurements (e : Env K) (plasma : Option (Plasma K)) (m : Machine K) (sensors : Option (List (Probe K))) :
    Option (List (Probe K)) × Machine K × List (Option String × Option K) × Option Err :=
  match takeMeasurements e plasma m sensors with
  | (s, m', some err) => (s, m', [], some err)
  | (s, m', none) => let r := printLoop (s.getD []); (s, m', r.1, r.2)

/-- The attributes `R` and `Z` as lists. -/
def Kind.coords : Kind K → List K × List K
  | .rogowski Rs Zs _ => (Rs, Zs)
  | .poloidal R Z _ _ => ([R], [Z])
  | .fluxLoop R Z => ([R], [Z])

/-- `sensor == other` (machine.py:507-508), inherited by the three classes. -/
def sensorEq (a b : Probe K) : Except Err Bool :=
  Equality.both (Equality.allclose a.kind.coords.1 b.kind.coords.1) (Equality.allclose a.kind.coords.2 b.kind.coords.2)

end FreeGS.Measure
