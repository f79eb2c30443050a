import Verif.Model.Nested

/-!
# Specification: what a circuit of anything is

A circuit is a weighted list of coils and solenoids: the weight of one of them is the product of the multipliers on the way to it.
-/

namespace FreeGS.Nested

universe u
variable {K : Type u} [Field K] [LinearOrder K]

/-- A coil or a solenoid. -/
inductive Leaf (K : Type u) where
  | coil (c : AnyCoil K)
  | solenoid (s : Solenoid K)

/-- The current in it. -/
def Leaf.current : Leaf K → K
  | .coil c => c.current
  | .solenoid s => s.current

/-- Whether it may be used for control. -/
def Leaf.control : Leaf K → Bool
  | .coil c => c.control
  | .solenoid s => s.control

/-- Its field at unit current. -/
def Leaf.response (e : Env K) (q : Quantity) (R Z : K) : Leaf K → K
  | .coil c => c.response e q R Z
  | .solenoid s => s.response e q R Z

mutual

/-- The coils and solenoids of a source with their weights. -/
def Source.leaves : Source K → List (K × Leaf K)
  | .coil c => [(1, .coil c)]
  | .solenoid s => [(1, .solenoid s)]
  | .circuit _ _ ms => ms.leaves

/-- See `Source.leaves`. -/
def Members.leaves : Members K → List (K × Leaf K)
  | .nil => []
  | .cons _ s m rest => (s.leaves.map fun p => (m * p.1, p.2)) ++ rest.leaves

end

/-- The weighted sum of the fields at unit current. -/
def Source.unitField (e : Env K) (q : Quantity) (R Z : K) (s : Source K) : K :=
  (s.leaves.map fun p => p.1 * p.2.response e q R Z).sum

mutual

/-- Every member of every circuit, at any depth, carries its multiplier times the current of its circuit. -/
def Source.Proportional : Source K → Prop
  | .coil _ => True
  | .solenoid _ => True
  | .circuit I _ ms => ms.Proportional I

/-- See `Source.Proportional`. -/
def Members.Proportional (I : K) : Members K → Prop
  | .nil => True
  | .cons _ s m rest => s.current = m * I ∧ s.Proportional ∧ rest.Proportional I

end

/-- The labels of the members. -/
def Members.labels : Members K → List String
  | .nil => []
  | .cons l _ _ rest => l :: rest.labels

mutual

/-- The labels within each circuit are distinct. -/
def Source.Distinct : Source K → Prop
  | .coil _ => True
  | .solenoid _ => True
  | .circuit _ _ ms => ms.Distinct

/-- See `Source.Distinct`. -/
def Members.Distinct : Members K → Prop
  | .nil => True
  | .cons l s _ rest => l ∉ rest.labels ∧ s.Distinct ∧ rest.Distinct

end

/-- The machine after `machine[label].current = I(label)` for every label. -/
def Machine.withCurrents (I : String → K) (m : Machine K) : Machine K := ⟨m.coils.map fun x => (x.1, x.2.setCurrent (I x.1))⟩

end FreeGS.Nested
