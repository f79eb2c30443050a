import Verif.Model.Predefined

/-!
# Circuits of anything

The methods of `Circuit` (machine.py:52-217) only use the common interface of their members, so a circuit may contain solenoids and other
circuits. `TCV` (machine.py:1079-1127) does: its ohmic circuit contains a `Solenoid`. `Verif/Model/Machine.lean` has circuits of coils only;
here the members are arbitrary, to any depth.
-/

namespace FreeGS.Nested

universe u

mutual

/-- A source of field: a coil, a solenoid (machine.py:317-356) or a circuit with its current and control flag (machine.py:85-92). -/
inductive Source (K : Type u) where
  | coil (c : AnyCoil K)
  | solenoid (s : Solenoid K)
  | circuit (current : K) (control : Bool) (members : Members K)

/-- The list `[(label, coil, multiplier)]` of a circuit. -/
inductive Members (K : Type u) where
  | nil
  | cons (label : String) (s : Source K) (multiplier : K) (rest : Members K)

end

variable {K : Type u} [Field K]

/-- The attribute `current`. -/
def Source.current : Source K → K
  | .coil c => c.current
  | .solenoid s => s.current
  | .circuit I _ _ => I

/-- The attribute `control`. -/
def Source.control : Source K → Bool
  | .coil c => c.control
  | .solenoid s => s.control
  | .circuit _ b _ => b

mutual

/-- Assignment to `current`; for a circuit the setter also assigns to the members (machine.py:106-113). -/
def Source.setCurrent (v : K) : Source K → Source K
  | .coil c => .coil (c.setCurrent v)
  | .solenoid s => .solenoid { s with current := v }
  | .circuit _ b ms => .circuit v b (ms.setCurrent v)

/-- The loop of the setter. -/
def Members.setCurrent (v : K) : Members K → Members K
  | .nil => .nil
  | .cons l s m rest => .cons l (s.setCurrent (m * v)) m (rest.setCurrent v)

end

mutual

/-- Assignment to `control` (machine.py:119-126). -/
def Source.setControl (b : Bool) : Source K → Source K
  | .coil c => .coil (c.setControl b)
  | .solenoid s => .solenoid { s with control := b }
  | .circuit I _ ms => .circuit I b (ms.setControl b)

/-- The loop of the setter. -/
def Members.setControl (b : Bool) : Members K → Members K
  | .nil => .nil
  | .cons l s m rest => .cons l (s.setControl b) m (rest.setControl b)

end

/-- `Circuit.__init__` (machine.py:85-92): both assignments go through the setters. -/
def Source.make (members : Members K) (current : K := 0) (control : Bool := true) : Source K :=
  ((Source.circuit current control members).setCurrent current).setControl control

/-- `Circuit.__getitem__` (machine.py:94-100): the first member with that label. -/
def Members.getItem (name : String) : Members K → Except Err (Source K)
  | .nil => .error .key
  | .cons l s _ rest => if l = name then .ok s else rest.getItem name

mutual

/-- The number of sources, used as a measure. -/
def Source.size : Source K → ℕ
  | .coil _ => 1
  | .solenoid _ => 1
  | .circuit _ _ ms => ms.size + 1

/-- See `Source.size`. -/
def Members.size : Members K → ℕ
  | .nil => 0
  | .cons _ s _ rest => s.size + rest.size + 1

end

mutual

theorem Source.size_setCurrent (v : K) : (s : Source K) → (s.setCurrent v).size = s.size
  | .coil _ => rfl
  | .solenoid _ => rfl
  | .circuit _ _ ms => by simp only [Source.setCurrent, Source.size, Members.size_setCurrent v ms]

theorem Members.size_setCurrent (v : K) : (ms : Members K) → (ms.setCurrent v).size = ms.size
  | .nil => rfl
  | .cons _ s m rest => by
    simp only [Members.setCurrent, Members.size, Source.size_setCurrent (m * v) s, Members.size_setCurrent v rest]

end

variable [LinearOrder K]

mutual

/-- `psi`, `Br`, `Bz` (machine.py:128-136, 158-176): the value and the source afterwards. -/
def Source.field (e : Env K) (q : Quantity) (R Z : K) : Source K → K × Source K
  | .coil c => (c.field e q R Z, .coil c)
  | .solenoid s => (s.field e q R Z, .solenoid s)
  | .circuit I b ms =>
    let r := ms.fieldLoop e q R Z I 0
    (r.1, .circuit I b r.2)
  termination_by s => s.size
  decreasing_by simp only [Source.size]; omega

/-- The loop over the members: first `coil.current = self.current * multiplier`, then the field is added. -/
def Members.fieldLoop (e : Env K) (q : Quantity) (R Z I acc : K) : Members K → K × Members K
  | .nil => (acc, .nil)
  | .cons l s m rest =>
    let r := (s.setCurrent (I * m)).field e q R Z
    let t := rest.fieldLoop e q R Z I (acc + r.1)
    (t.1, .cons l r.2 m t.2)
  termination_by ms => ms.size
  decreasing_by
    · simp only [Members.size, Source.size_setCurrent]; omega
    · simp only [Members.size]; omega

end

mutual

/-- `controlPsi`, `controlBr`, `controlBz` (machine.py:178-203). -/
def Source.response (e : Env K) (q : Quantity) (R Z : K) : Source K → K
  | .coil c => c.response e q R Z
  | .solenoid s => s.response e q R Z
  | .circuit _ _ ms => ms.responseLoop e q R Z 0

/-- The loop over the members. -/
def Members.responseLoop (e : Env K) (q : Quantity) (R Z acc : K) : Members K → K
  | .nil => acc
  | .cons _ s m rest => rest.responseLoop e q R Z (acc + m * s.response e q R Z)

end

/-- What `createPsiGreens` returns: a number, or a dictionary of such values. A dictionary is the list of its assignments, the last one
first, so that a lookup finds the last assignment. -/
inductive Table (K : Type u) where
  | val (g : K)
  | dict (d : List (String × Table K))

mutual

/-- `createPsiGreens` (coil.py:121-127, machine.py:138-145, 364-368). -/
def Source.createGreens (e : Env K) (R Z : K) : Source K → Table K
  | .coil c => .val (c.response e .psi R Z)
  | .solenoid s => .val (s.response e .psi R Z)
  | .circuit _ _ ms => .dict (ms.greensLoop e R Z [])

/-- The loop over the members. -/
def Members.greensLoop (e : Env K) (R Z : K) (d : List (String × Table K)) : Members K → List (String × Table K)
  | .nil => d
  | .cons l s _ rest => rest.greensLoop e R Z ((l, s.createGreens e R Z) :: d)

end

mutual

/-- `calcPsiFromGreens` (coil.py:129-133, machine.py:147-156, 370-374); a value of the wrong kind raises `TypeError`. -/
def Source.calcFromGreens : Table K → Source K → Except Err (K × Source K)
  | .val g, .coil c => .ok (c.calcFromGreens g, .coil c)
  | .val g, .solenoid s => .ok (s.current * g, .solenoid s)
  | .dict d, .circuit I b ms =>
    match ms.calcLoop d I 0 with
    | .error err => .error err
    | .ok r => .ok (r.1, .circuit I b r.2)
  | _, _ => .error .type
  termination_by _ s => s.size
  decreasing_by simp only [Source.size]; omega

/-- The loop over the members. -/
def Members.calcLoop (d : List (String × Table K)) (I acc : K) : Members K → Except Err (K × Members K)
  | .nil => .ok (acc, .nil)
  | .cons l s m rest =>
    match d.lookup l with
    | none => .error .key
    | some g =>
      match (s.setCurrent (I * m)).calcFromGreens g with
      | .error err => .error err
      | .ok r =>
        match rest.calcLoop d I (acc + r.1) with
        | .error err => .error err
        | .ok t => .ok (t.1, .cons l r.2 m t.2)
  termination_by ms => ms.size
  decreasing_by
    · simp only [Members.size, Source.size_setCurrent]; omega
    · simp only [Members.size]; omega

end

mutual

/-- `inShape` (machine.py:216-217); a `Solenoid` has no such method. -/
def Source.inShape (p : AnyCoil.Region K) : Source K → Except Err K
  | .coil c => .ok (c.inShape p)
  | .solenoid _ => .error .attribute
  | .circuit _ _ ms => ms.inShapeLoop p 0

/-- The sum over the members. -/
def Members.inShapeLoop (p : AnyCoil.Region K) (acc : K) : Members K → Except Err K
  | .nil => .ok acc
  | .cons _ s m rest =>
    match s.inShape p with
    | .error err => .error err
    | .ok v => rest.inShapeLoop p (acc + v * m)

end

/-! ## Machines -/

/-- The coil list of a machine. -/
structure Machine (K : Type u) where
  coils : List (String × Source K)

/-- The loop of `Machine.psi`, `Br`, `Bz` (machine.py:702-709, 733-751). -/
def Machine.fieldLoop (e : Env K) (q : Quantity) (R Z : K) : K → List (String × Source K) → K × List (String × Source K)
  | acc, [] => (acc, [])
  | acc, (l, x) :: rest =>
    let r := x.field e q R Z
    let t := fieldLoop e q R Z (acc + r.1) rest
    (t.1, (l, r.2) :: t.2)

/-- `psi`, `Br`, `Bz` of the machine: value and machine afterwards. -/
def Machine.field (e : Env K) (q : Quantity) (R Z : K) (m : Machine K) : K × Machine K :=
  let r := Machine.fieldLoop e q R Z 0 m.coils
  (r.1, ⟨r.2⟩)

/-- The coil loop of `RogowskiSensor.get_measure` (machine.py:538-541). -/
def Machine.rogowskiCoils (p : AnyCoil.Region K) : K → List (String × Source K) → Except Err K
  | acc, [] => .ok acc
  | acc, (_, x) :: rest =>
    match x.inShape p with
    | .error err => .error err
    | .ok f => rogowskiCoils p (acc + f * x.current) rest

/-- `Coil(R, Z)` as an entry of a machine. -/
def point (R Z : ℚ) : Source K := .coil (Predefined.coil R Z)

/-- The members of the ohmic circuit of `TCV` (machine.py:1114-1121). -/
def tcvOhmic : Members K :=
  .cons "OH1" (.solenoid ⟨((0.43 : ℚ) : K), ((-0.93 : ℚ) : K), ((0.93 : ℚ) : K), 100, 0, true⟩) ((0.01 : ℚ) : K) <|
  .cons "C1" (point 0.6215 (-1.11)) 1 <|
  .cons "C2" (point 0.6215 1.11) 1 <|
  .cons "D1" (point 1.1765 (-1.17)) 1 <|
  .cons "D2" (point 1.1765 1.17) 1 .nil

/-- `TCV()` (machine.py:1079-1127). -/
def tcv : Machine K :=
  ⟨[("E1", point 0.505 (-0.7)), ("E2", point 0.505 (-0.5)), ("E3", point 0.505 (-0.3)), ("E4", point 0.505 (-0.1)),
    ("E5", point 0.505 0.1), ("E6", point 0.505 0.3), ("E7", point 0.505 0.5), ("E8", point 0.505 0.7),
    ("F1", point 1.3095 (-0.77)), ("F2", point 1.3095 (-0.61)), ("F3", point 1.3095 (-0.31)), ("F4", point 1.3095 (-0.15)),
    ("F5", point 1.3095 0.15), ("F6", point 1.3095 0.31), ("F7", point 1.3095 0.61), ("F8", point 1.3095 0.77),
    ("T1", point 1.554 (-0.78)), ("T2", point 1.717 (-0.78)), ("T3", point 1.754 (-0.78)),
    ("OH", Source.make tcvOhmic)]⟩

end FreeGS.Nested
