import Verif.Model.Machine

/-!
# Specification: symmetry of machines
-/

namespace FreeGS

variable {K : Type*} [Field K] [LinearOrder K]

/-- The Green's function of the flux does not change if source and point are mirrored at the midplane. -/
def Env.Mirror (e : Env K) : Prop := ∀ Rc Zc R Z, e.G .psi Rc (-Zc) R (-Z) = e.G .psi Rc Zc R Z

/-- The machine after `machine[label].current = I(label)` for every label. -/
def Machine.withCurrents (I : String → K) (m : Machine K) : Machine K := ⟨m.coils.map fun x => (x.1, x.2.setCurrent (I x.1))⟩

/-- The flux of the coils is the same above and below the midplane. -/
def Machine.EvenFlux (e : Env K) (m : Machine K) : Prop := ∀ R Z, (m.field e .psi R (-Z)).1 = (m.field e .psi R Z).1

/-- The flux of the coils has opposite signs above and below the midplane. -/
def Machine.OddFlux (e : Env K) (m : Machine K) : Prop := ∀ R Z, (m.field e .psi R (-Z)).1 = -(m.field e .psi R Z).1

end FreeGS
