import Verif.Spec.Dump

/-!
# Specification: machines that are the same up to the order of coils and the areas of point coils
-/

namespace FreeGS.Equality

open FreeGS.Dump (Mach defaultAreas)

universe u
variable {S K : Type u} [Field K] [LinearOrder K]

/-- Point coils, circuits of point coils and solenoids. -/
def Simple : Entry K → Prop
  | .coil (.point _) => True
  | .coil _ => False
  | .circuit c => ∀ x ∈ c.coils, ∃ p, x.2.1 = .point p
  | .solenoid _ => True

/-- The same coils in some order, apart from areas. -/
def SameCoils (a b : Mach S K) : Prop :=
  List.Perm (a.coils.map fun x => (x.1, defaultAreas x.2)) (b.coils.map fun x => (x.1, defaultAreas x.2))

/-- No label occurs twice. -/
def Distinct (a : Mach S K) : Prop := (a.coils.map Prod.fst).Nodup

/-- `x` is within the tolerance of `numpy.isclose(x, y)`. -/
def Near (x y : K) : Prop := |x - y| ≤ 1 / 10 ^ 8 + 1 / 10 ^ 5 * |y|

/-- Two walls with the same number of points, each within the tolerance of the other; or none. -/
def NearWalls : Option (List (K × K)) → Option (List (K × K)) → Prop
  | none, none => True
  | some a, some b => a.length = b.length ∧ ∀ p ∈ a.zip b, Near p.1.1 p.2.1 ∧ Near p.1.2 p.2.2
  | _, _ => False

end FreeGS.Equality
