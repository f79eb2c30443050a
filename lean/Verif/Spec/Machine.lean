import Verif.Model.Machine

/-!
# Specification vocabulary for machines

* `Machine.elements`: the machine as a plain list of (coil or solenoid, current it should carry).
* `Machine.Synced`: every coil of a circuit carries multiplier times circuit current.
* `Op`, `run`: the operations a user can apply to a machine, and histories of them.
-/

namespace FreeGS

variable {K : Type*} [Field K] [LinearOrder K]

/-- Every coil of the circuit carries its multiplier times the circuit current. -/
def Circuit.Synced (c : Circuit K) : Prop := ∀ x ∈ c.coils, x.2.1.current = x.2.2 * c.current

/-- All circuits of the machine are synchronised. -/
def Machine.Synced (m : Machine K) : Prop := ∀ l c, (l, Entry.circuit c) ∈ m.coils → c.Synced

/-- The contributions of an entry to a field: current times response, coil by coil. The response of a
solenoid is the sum over its turns. -/
def Entry.contributions (e : Env K) (q : Quantity) (R Z : K) : Entry K → List K
  | .coil c => [c.current * c.response e q R Z]
  | .circuit c => c.coils.map fun x => (x.2.2 * c.current) * x.2.1.response e q R Z
  | .solenoid s => (linspace s.Zsmin s.Zsmax s.Ns).map fun Zs => s.current * e.G q s.Rs Zs R Z

/-- The labels of the machine, and those within each circuit, are pairwise different. -/
def Machine.LabelsDistinct (m : Machine K) : Prop :=
  (m.coils.map Prod.fst).Nodup ∧
    ∀ l c, (l, Entry.circuit c) ∈ m.coils → (c.coils.map Prod.fst).Nodup

/-- The operations on a machine that do not move or replace coils. `i` is a position in the coil list. -/
inductive Op (K : Type*) where
  /-- read `psi`, `Br` or `Bz` at a point -/
  | read (q : Quantity) (R Z : K)
  /-- `machine.coils[i].current = v` -/
  | setCurrent (i : ℕ) (v : K)
  /-- `machine.coils[i].control = b` -/
  | setControl (i : ℕ) (b : Bool)
  /-- `machine.controlAdjust(d)` -/
  | adjust (d : List K)
  /-- `machine.setControlCurrents(v)` -/
  | setControls (v : List K)
  /-- `coil.getForces(eq)` for one coil -/
  | force (plasma : Quantity → K → K → K) (loc : Machine.Loc)
  /-- `machine.getForces(eq)` -/
  | forces (plasma : Quantity → K → K → K)

/-- The machine after one operation. -/
def Op.run (e : Env K) (m : Machine K) : Op K → Machine K
  | .read q R Z => (m.field e q R Z).2
  | .setCurrent i v => ⟨m.coils.modify i fun x => (x.1, x.2.setCurrent v)⟩
  | .setControl i b => ⟨m.coils.modify i fun x => (x.1, x.2.setControl b)⟩
  | .adjust d => m.controlAdjust d
  | .setControls v => m.setControlCurrents v
  | .force plasma loc => match m.coilForces e plasma loc with
    | none => m
    | some r => r.2
  | .forces plasma => (m.getForces e plasma).2

/-- The machine after a history of operations. -/
def runAll (e : Env K) (m : Machine K) (ops : List (Op K)) : Machine K := ops.foldl (Op.run e) m

end FreeGS

namespace FreeGS

variable {K : Type*} [Field K] [LinearOrder K]

/-- All coils, directly in the machine or in circuits, are plain `Coil`s off the axis; no solenoids. -/
def Machine.AllPoint (m : Machine K) : Prop :=
  ∀ x ∈ m.coils, match x.2 with
    | .coil c => ∃ p, c = .point p ∧ p.R ≠ 0
    | .circuit k => ∀ y ∈ k.coils, ∃ p, y.2.1 = .point p ∧ p.R ≠ 0
    | .solenoid _ => False

/-- The machine without the entry at position `i`. -/
def Machine.without (m : Machine K) (i : ℕ) : Machine K := ⟨m.coils.eraseIdx i⟩

/-- Hoop force per unit length of a coil carrying `total` (Garren & Chen, SI units, internal inductance 1/2):
`mu0 I^2 / (4 pi R) (ln(8 R / a) - 1 + 1/4)` with `pi a^2` the coil area. -/
def hoopForce (e : Env K) (R area total : K) : K :=
  e.mu0 * total ^ 2 / (4 * e.pi * R) * (e.log (8 * R / e.sqrt (area / e.pi)) - 1 + 1 / 4)

end FreeGS
