import Verif.Model.Coil

/-!
# Model of `freegs/machine.py` (coils, circuits, solenoids, sensors, machine)

Reading a field from a circuit writes the currents of its coils, so the field methods are state
transformers: they return the value and the object after the call.

`Machine.field`, `Machine.forces` etc. are written as the loops of the code.
-/

namespace FreeGS

variable {K : Type*} [Field K] [LinearOrder K]

/-! ## Circuits -/

/-- `Circuit` (machine.py:85-92): a list of `(label, coil, multiplier)`, a current and a control flag. -/
structure Circuit (K : Type*) where
  coils : List (String × AnyCoil K × K)
  current : K
  control : Bool

namespace Circuit

/-- The `current` setter (machine.py:106-113). -/
def setCurrent (v : K) (c : Circuit K) : Circuit K :=
  { c with current := v, coils := c.coils.map fun x => (x.1, x.2.1.setCurrent (x.2.2 * v), x.2.2) }

/-- The `control` setter (machine.py:119-126). -/
def setControl (b : Bool) (c : Circuit K) : Circuit K :=
  { c with control := b, coils := c.coils.map fun x => (x.1, x.2.1.setControl b, x.2.2) }

/-- `Circuit.__init__` (machine.py:85-92): both assignments go through the setters. -/
def make (coils : List (String × AnyCoil K × K)) (current : K := 0) (control : Bool := true) :
    Circuit K :=
  ({ coils, current, control } : Circuit K).setCurrent current |>.setControl control

/-- The loop of `psi`, `Br`, `Bz` (machine.py:128-136, 158-176): for each coil first
`coil.current = self.current * multiplier`, then add the coil's field. The arguments are the circuit
current, the accumulated result and the coils still to visit; the coils are returned as left behind. -/
def fieldLoop (e : Env K) (q : Quantity) (R Z I : K) :
    K → List (String × AnyCoil K × K) → K × List (String × AnyCoil K × K)
  | acc, [] => (acc, [])
  | acc, (l, c, m) :: rest =>
    let c' := c.setCurrent (I * m)
    let r := fieldLoop e q R Z I (acc + c'.field e q R Z) rest
    (r.1, (l, c', m) :: r.2)

/-- `psi`, `Br`, `Bz` of a circuit: value and circuit afterwards. -/
def field (e : Env K) (q : Quantity) (R Z : K) (c : Circuit K) : K × Circuit K :=
  let r := fieldLoop e q R Z c.current 0 c.coils
  (r.1, { c with coils := r.2 })

/-- `controlPsi`, `controlBr`, `controlBz` (machine.py:178-203). -/
def response (e : Env K) (q : Quantity) (R Z : K) (c : Circuit K) : K :=
  c.coils.foldl (fun acc x => acc + x.2.2 * x.2.1.response e q R Z) 0

/-- `createPsiGreens` (machine.py:138-145): a dictionary keyed by label; storing a label again
replaces the earlier value. The dictionary is a function from labels. -/
def createGreens (e : Env K) (R Z : K) (c : Circuit K) : String → Option K :=
  c.coils.foldl (fun d x => Function.update d x.1 (some (x.2.1.response e .psi R Z))) fun _ => none

/-- The loop of `calcPsiFromGreens` (machine.py:147-156). -/
def calcLoop (d : String → Option K) (I : K) :
    K → List (String × AnyCoil K × K) → Except Err (K × List (String × AnyCoil K × K))
  | acc, [] => .ok (acc, [])
  | acc, (l, c, m) :: rest =>
    let c' := c.setCurrent (I * m)
    match d l with
    | none => .error .key
    | some g =>
      match calcLoop d I (acc + c'.calcFromGreens g) rest with
      | .error err => .error err
      | .ok r => .ok (r.1, (l, c', m) :: r.2)

/-- `calcPsiFromGreens` of a circuit. -/
def calcFromGreens (d : String → Option K) (c : Circuit K) : Except Err (K × Circuit K) :=
  match calcLoop d c.current 0 c.coils with
  | .error err => .error err
  | .ok r => .ok (r.1, { c with coils := r.2 })

/-- `inShape` (machine.py:216-217). -/
def inShape (p : AnyCoil.Region K) (c : Circuit K) : K :=
  (c.coils.map fun x => x.2.1.inShape p * x.2.2).sum

end Circuit

/-- `MirroredCoil(...)` (machine.py:293-314). -/
def mirroredCoil (R Z : K) (current : K := 0) (turns : K := 1) (control : Bool := true)
    (area : AreaSpec K := defaultArea) (symmetric : Bool := true) : Circuit K :=
  Circuit.make [
    ("U", .point (PointCoil.make R Z current turns control area), 1),
    ("L", .point (PointCoil.make R Z current turns control area), if symmetric then 1 else -1)]

/-! ## Solenoid -/

/-- `Solenoid` (machine.py:341-356). -/
structure Solenoid (K : Type*) where
  Rs : K
  Zsmin : K
  Zsmax : K
  Ns : ℕ
  current : K
  control : Bool

/-- `numpy.linspace(start, stop, num)`: `start + i * (stop - start)/(num - 1)`; a single point is `start`. -/
def linspace (a b : K) (n : ℕ) : List K :=
  if n = 1 then [a] else (List.range n).map fun i : ℕ => a + (i : K) * ((b - a) / ((n : K) - 1))

namespace Solenoid

/-- `controlPsi`, `controlBr`, `controlBz` (machine.py:388-416). -/
def response (e : Env K) (q : Quantity) (R Z : K) (s : Solenoid K) : K :=
  (linspace s.Zsmin s.Zsmax s.Ns).foldl (fun acc Zs => acc + e.G q s.Rs Zs R Z) 0

/-- `psi`, `Br`, `Bz` (machine.py:358-386). -/
def field (e : Env K) (q : Quantity) (R Z : K) (s : Solenoid K) : K := s.response e q R Z * s.current

end Solenoid

/-! ## Machine -/

/-- An element of the coil list of a machine: `Coil | Circuit | Solenoid`. -/
inductive Entry (K : Type*) where
  | coil (c : AnyCoil K)
  | circuit (c : Circuit K)
  | solenoid (s : Solenoid K)

namespace Entry

/-- The attribute `current`. -/
def current : Entry K → K
  | coil c => c.current
  | circuit c => c.current
  | solenoid s => s.current

/-- Assignment to `current`; the circuit setter also writes the coils. -/
def setCurrent (v : K) : Entry K → Entry K
  | coil c => coil (c.setCurrent v)
  | circuit c => circuit (c.setCurrent v)
  | solenoid s => solenoid { s with current := v }

/-- The attribute `control`. -/
def control : Entry K → Bool
  | coil c => c.control
  | circuit c => c.control
  | solenoid s => s.control

/-- Assignment to `control`. -/
def setControl (b : Bool) : Entry K → Entry K
  | coil c => coil (c.setControl b)
  | circuit c => circuit (c.setControl b)
  | solenoid s => solenoid { s with control := b }

/-- `psi`, `Br`, `Bz`: value and entry afterwards. -/
def field (e : Env K) (q : Quantity) (R Z : K) : Entry K → K × Entry K
  | coil c => (c.field e q R Z, coil c)
  | circuit c => let r := c.field e q R Z; (r.1, circuit r.2)
  | solenoid s => (s.field e q R Z, solenoid s)

/-- `controlPsi`, `controlBr`, `controlBz`. -/
def response (e : Env K) (q : Quantity) (R Z : K) : Entry K → K
  | coil c => c.response e q R Z
  | circuit c => c.response e q R Z
  | solenoid s => s.response e q R Z

/-- What `createPsiGreens` returns: a number, or for circuits a dictionary. -/
inductive Greens (K : Type*) where
  | val (g : K)
  | dict (d : String → Option K)

/-- `createPsiGreens` (coil.py:121-127, machine.py:138-145, 364-368). -/
def createGreens (e : Env K) (R Z : K) : Entry K → Greens K
  | coil c => .val (c.response e .psi R Z)
  | circuit c => .dict (c.createGreens e R Z)
  | solenoid s => .val (s.response e .psi R Z)

/-- `calcPsiFromGreens` (coil.py:129-133, machine.py:147-156, 370-374). A value of the wrong kind
raises `TypeError`. -/
def calcFromGreens : Greens K → Entry K → Except Err (K × Entry K)
  | .val g, coil c => .ok (c.calcFromGreens g, coil c)
  | .val g, solenoid s => .ok (s.current * g, solenoid s)
  | .dict d, circuit c =>
    match c.calcFromGreens d with
    | .error err => .error err
    | .ok r => .ok (r.1, circuit r.2)
  | .val _, circuit _ => .error .type
  | .dict _, _ => .error .type

/-- `inShape`; a `Solenoid` has no such method. -/
def inShape (p : AnyCoil.Region K) : Entry K → Except Err K
  | coil c => .ok (c.inShape p)
  | circuit c => .ok (c.inShape p)
  | solenoid _ => .error .attribute

end Entry

/-- The part of `Machine` (machine.py:640-659) used by the field and control methods: the coil list. -/
structure Machine (K : Type*) where
  coils : List (String × Entry K)

namespace Machine

/-- `machine[name]` (machine.py:674-678): the first entry with that label. -/
def getItem (m : Machine K) (name : String) : Except Err (Entry K) :=
  match m.coils.find? fun x => x.1 == name with
  | some x => .ok x.2
  | none => .error .key

/-- The loop of `psi`, `Br`, `Bz` (machine.py:702-709, 733-751). -/
def fieldLoop (e : Env K) (q : Quantity) (R Z : K) :
    K → List (String × Entry K) → K × List (String × Entry K)
  | acc, [] => (acc, [])
  | acc, (l, x) :: rest =>
    let r := x.field e q R Z
    let t := fieldLoop e q R Z (acc + r.1) rest
    (t.1, (l, r.2) :: t.2)

/-- `psi`, `Br`, `Bz` of the machine: value and machine afterwards. -/
def field (e : Env K) (q : Quantity) (R Z : K) (m : Machine K) : K × Machine K :=
  let r := fieldLoop e q R Z 0 m.coils
  (r.1, ⟨r.2⟩)

/-- `createPsiGreens` (machine.py:711-720): dictionary keyed by label. -/
def createGreens (e : Env K) (R Z : K) (m : Machine K) : String → Option (Entry.Greens K) :=
  m.coils.foldl (fun d x => Function.update d x.1 (some (x.2.createGreens e R Z))) fun _ => none

/-- The loop of `calcPsiFromGreens` (machine.py:722-731). -/
def calcLoop (d : String → Option (Entry.Greens K)) :
    K → List (String × Entry K) → Except Err (K × List (String × Entry K))
  | acc, [] => .ok (acc, [])
  | acc, (l, x) :: rest =>
    match d l with
    | none => .error .key
    | some g =>
      match x.calcFromGreens g with
      | .error err => .error err
      | .ok r =>
        match calcLoop d (acc + r.1) rest with
        | .error err => .error err
        | .ok t => .ok (t.1, (l, r.2) :: t.2)

/-- `calcPsiFromGreens` of the machine. -/
def calcFromGreens (d : String → Option (Entry.Greens K)) (m : Machine K) :
    Except Err (K × Machine K) :=
  match calcLoop d 0 m.coils with
  | .error err => .error err
  | .ok r => .ok (r.1, ⟨r.2⟩)

/-- `controlPsi`, `controlBr`, `controlBz` (machine.py:753-772). -/
def controlResponse (e : Env K) (q : Quantity) (R Z : K) (m : Machine K) : List K :=
  (m.coils.filter fun x => x.2.control).map fun x => x.2.response e q R Z

/-- `controlCurrents` (machine.py:787-791). -/
def controlCurrents (m : Machine K) : List K :=
  (m.coils.filter fun x => x.2.control).map fun x => x.2.current

/-- The `zip` loops of `controlAdjust` and `setControlCurrents`: the controlled entries are paired with the
values in order, left-over entries or values are ignored. -/
def zipControl (f : K → K → K) : List (String × Entry K) → List K → List (String × Entry K)
  | [], _ => []
  | (l, x) :: rest, vs =>
    match x.control, vs with
    | true, [] => (l, x) :: rest
    | true, v :: vs => (l, x.setCurrent (f x.current v)) :: zipControl f rest vs
    | false, vs => (l, x) :: zipControl f rest vs

/-- `controlAdjust(current_change)` (machine.py:774-785). -/
def controlAdjust (d : List K) (m : Machine K) : Machine K := ⟨zipControl (fun I x => I + x) m.coils d⟩

/-- `setControlCurrents(currents)` (machine.py:793-801). -/
def setControlCurrents (v : List K) (m : Machine K) : Machine K := ⟨zipControl (fun _ x => x) m.coils v⟩

/-- `getCurrents()` (machine.py:849-856) as the list of pairs written to the dictionary. -/
def getCurrents (m : Machine K) : List (String × K) := m.coils.map fun x => (x.1, x.2.current)

end Machine

/-! ## Forces -/

/-- The force formula at the end of `Coil.getForces` (coil.py:187-208), given the saved current and the field
at the coil: `self_inductance = 0.5`. Area zero is in `Machine.coilForcesChecked`. -/
def coilForce (e : Env K) (c : AnyCoil K) (current Br Bz : K) : K × K :=
  let total := current * c.turns
  let minorRadius := e.sqrt (c.area / e.pi)
  let selfFr := (e.mu0 * total ^ 2 / (4 * e.pi * c.R)) *
    (e.log (8 * c.R / minorRadius) - 1 + (1 / 2) / 2)
  let Ltor := 2 * e.pi * c.R
  ((total * Bz + selfFr) * Ltor, -total * Br * Ltor)

namespace Machine

/-- Where a coil object sits in the machine: directly in the coil list, or inside a circuit. -/
inductive Loc where
  | direct (i : ℕ)
  | inCircuit (i j : ℕ)
  deriving DecidableEq, Repr

/-- The coil object at a location. -/
def coilAt (m : Machine K) : Loc → Option (AnyCoil K)
  | .direct i =>
    match m.coils[i]? with
    | some (_, .coil c) => some c
    | _ => none
  | .inCircuit i j =>
    match m.coils[i]? with
    | some (_, .circuit c) => (c.coils[j]?).map fun x => x.2.1
    | _ => none

/-- Assignment to `current` of an entry that is itself a coil object (other entries: no such object). -/
def setOwn (I : K) : Entry K → Entry K
  | .coil c => .coil (c.setCurrent I)
  | x => x

/-- Assignment to `current` of the `j`-th coil object of a circuit. -/
def setInner (j : ℕ) (I : K) : Entry K → Entry K
  | .circuit c => .circuit { c with
      coils := c.coils.modify j fun y => (y.1, y.2.1.setCurrent I, y.2.2) }
  | x => x

/-- Assignment to `current` of one coil object, without going through a circuit. -/
def setCoilCurrent (I : K) (m : Machine K) : Loc → Machine K
  | .direct i => ⟨m.coils.modify i fun x => (x.1, setOwn I x.2)⟩
  | .inCircuit i j => ⟨m.coils.modify i fun x => (x.1, setInner j I x.2)⟩

/-- `Coil.getForces(equilibrium)` (coil.py:165-208) for the coil at a location. `plasma q R Z` is the
plasma field of the equilibrium whose machine this is (zero if the machine itself is passed,
machine.py:841-842; equilibrium.py:249-259 adds the plasma and the machine). Returns the force and the machine
afterwards; `none` if there is no coil at that place. -/
def coilForces (e : Env K) (plasma : Quantity → K → K → K) (m : Machine K) (loc : Loc) :
    Option ((K × K) × Machine K) :=
  match m.coilAt loc with
  | none => none
  | some c =>
    let saved := c.current
    let m1 := m.setCoilCurrent 0 loc
    let rBr := m1.field e .br c.R c.Z
    let rBz := rBr.2.field e .bz c.R c.Z
    let m2 := rBz.2.setCoilCurrent saved loc
    let c' := c.setCurrent saved
    some (coilForce e c' saved (plasma .br c.R c.Z + rBr.1) (plasma .bz c.R c.Z + rBz.1), m2)

/-- The locations of the coils of the entry at index `i` of the machine, in the order of `Circuit.getForces`
(machine.py:205-214); solenoids contribute none (machine.py:418-423). -/
def entryLocs : Entry K → ℕ → List Loc
  | .coil _, i => [Loc.direct i]
  | .circuit c, i => (List.range c.coils.length).map (Loc.inCircuit i)
  | .solenoid _, _ => []

/-- The locations of all coils in the order in which `Machine.getForces` visits them (machine.py:832-847). -/
def locs (m : Machine K) : List Loc :=
  (m.coils.zipIdx.map fun p => entryLocs p.1.2 p.2).flatten

/-- `Machine.getForces` (machine.py:832-847, 205-214): the forces of all coils in order, with the machine
passed from one call to the next. The result dictionary is modelled by the list of its values in order of
evaluation, so equal labels do not hide one another here. -/
def forcesLoop (e : Env K) (plasma : Quantity → K → K → K) :
    List Loc → Machine K → List (K × K) × Machine K
  | [], m => ([], m)
  | l :: ls, m =>
    match m.coilForces e plasma l with
    | none => forcesLoop e plasma ls m
    | some (f, m') =>
      let r := forcesLoop e plasma ls m'
      (f :: r.1, r.2)

/-- `Machine.getForces`. -/
def getForces (e : Env K) (plasma : Quantity → K → K → K) (m : Machine K) :
    List (K × K) × Machine K := forcesLoop e plasma m.locs m

/-- `Coil.getForces` with the cases in which numpy does not return numbers (coil.py:187-208): with area zero `8 * R / minor_radius` is
infinite, so the radial force is infinite, or `nan` if there is no current; a negative area or radius gives `nan`. -/
def coilForcesChecked (e : Env K) (plasma : Quantity → K → K → K) (m : Machine K) (loc : Loc) : Option (Except Err (K × K) × Machine K) :=
  match m.coilAt loc, m.coilForces e plasma loc with
  | some c, some r => some (if 0 < c.area ∧ 0 < c.R then .ok r.1 else .error .nonfinite, r.2)
  | _, _ => none

end Machine

/-! ## Sensors -/

/-- The common part of a sensor (machine.py:487-502): `measurement` exists only after it has been set. -/
structure Sensor (K : Type*) where
  status : Bool
  measurement : Option K

namespace Sensor

/-- `Sensor.__init__` (machine.py:492-501). `measurement=None` by default; with `status=False` the attribute
is not created at all, here also `none`. -/
def make (status : Bool := true) (measurement : Option K := none) : Sensor K :=
  { status, measurement := if status then measurement else none }

/-- The coil loop of `RogowskiSensor.get_measure` (machine.py:538-541). -/
def rogowskiCoils (p : AnyCoil.Region K) : K → List (String × Entry K) → Except Err K
  | acc, [] => .ok acc
  | acc, (_, x) :: rest =>
    match x.inShape p with
    | .error err => .error err
    | .ok f => rogowskiCoils p (acc + f * x.current) rest

/-- `RogowskiSensor.get_measure(tokamak, eq)` (machine.py:529-559). `plasma` is the list of pairs
(current density, area of the cell inside the polygon) over the grid, `none` if `eq is None`. -/
def rogowski (p : AnyCoil.Region K) (m : Machine K) (plasma : Option (List (K × K)))
    (s : Sensor K) : Except Err (Sensor K) :=
  if s.status then
    match rogowskiCoils p 0 m.coils with
    | .error err => .error err
    | .ok coilCurrent =>
      let plasmaCurrent := match plasma with
        | none => 0
        | some l => l.foldl (fun acc x => acc + x.1 * x.2) 0
      .ok { s with measurement := some (plasmaCurrent + coilCurrent) }
  else .ok s

/-- `PoloidalFieldSensor.get_measure` (machine.py:579-592); `cosT`, `sinT` are `cos theta`, `sin theta` and
`plasma` the plasma field of the equilibrium, if one is given. The machine is read (and thereby its circuits
synchronised) twice. -/
def poloidal (e : Env K) (R Z cosT sinT : K) (m : Machine K) (plasma : Option (Quantity → K → K → K))
    (s : Sensor K) : Sensor K × Machine K :=
  if s.status then
    let r1 := m.field e .br R Z
    let r2 := r1.2.field e .bz R Z
    let f := r1.1 * cosT + r2.1 * sinT
    let f := match plasma with
      | none => f
      | some p => f + (p .br R Z * cosT + p .bz R Z * sinT)
    ({ s with measurement := some f }, r2.2)
  else (s, m)

/-- `FluxLoopSensor.get_measure` (machine.py:609-621); `eq.psiRZ` is plasma plus machine
(equilibrium.py:313-317). -/
def fluxLoop (e : Env K) (R Z : K) (m : Machine K) (plasma : Option (Quantity → K → K → K))
    (s : Sensor K) : Sensor K × Machine K :=
  if s.status then
    let r := m.field e .psi R Z
    let v := match plasma with
      | none => r.1
      | some p => p .psi R Z + r.1
    ({ s with measurement := some v }, r.2)
  else (s, m)

end Sensor

end FreeGS
