import Verif.Model.Dump
import Verif.Spec.Machine

/-!
# Specification vocabulary for saved equilibria
-/

namespace FreeGS.Dump

universe u
variable {S P Q K : Type u} [Field K] [LinearOrder K]

/-- The kinds of coil that can be saved: point coils, shaped coils with at most ten outline points, circuits of point coils, solenoids. -/
def Supported : Entry K → Prop
  | .coil (.point _) => True
  | .coil (.shaped c) => c.shape.length ≤ 10
  | .coil _ => False
  | .circuit c => ∀ x ∈ c.coils, ∃ p, x.2.1 = .point p
  | .solenoid _ => True

/-- A whole number of turns. -/
def Whole (t : K) : Prop := ∃ n : ℤ, t = n

/-- `toInt` gives whole numbers unchanged. -/
def Exact (toInt : K → ℤ) : Prop := ∀ n : ℤ, toInt n = n

/-- The coil is as its constructor makes it from its outline: it has not been moved afterwards. -/
def Unmoved (c : ShapedCoil K) : Prop := ShapedCoil.make c.shape c.current c.turns c.control c.npoints = .ok (some c)

/-- What is needed to get an entry back: whole turns, shaped coils not moved, circuits with at least one coil, the first multiplier not
zero, and all coils with the control flag of the circuit. -/
def Restorable : Entry K → Prop
  | .coil (.point c) => Whole c.turns
  | .coil (.shaped c) => Whole c.turns ∧ Unmoved c
  | .coil _ => False
  | .circuit c => (∀ x ∈ c.coils, Whole x.2.1.turns ∧ x.2.1.control = c.control) ∧ ∃ x, c.coils.head? = some x ∧ x.2.2 ≠ 0
  | .solenoid _ => True

/-- The same entry with the area of every point coil replaced by the default one. -/
def defaultAreas : Entry K → Entry K
  | .coil (.point c) => .coil (.point { c with area := defaultArea })
  | .circuit c => .circuit { c with coils := c.coils.map fun x =>
      (x.1, match x.2.1 with | .point p => .point { p with area := defaultArea } | y => y, x.2.2) }
  | x => x

/-- The entry with the coils of a circuit carrying multiplier times circuit current, as after any field evaluation. -/
def evaluated : Entry K → Entry K
  | .circuit c => .circuit (c.setCurrent c.current)
  | x => x

end FreeGS.Dump
