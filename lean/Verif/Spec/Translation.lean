import Verif.Spec.Control
import Verif.Model.Equilibrium

/-!
# Specification: the whole arrangement at another height
-/

namespace FreeGS

variable {K : Type*} [Field K] [LinearOrder K]

/-- The function of two points depends on the difference of the heights only. -/
def SameAtAllHeights (G : K → K → K → K → K) : Prop := ∀ R Z R' Z' d, G R (Z + d) R' (Z' + d) = G R Z R' Z'

/-- The coil is neither mirrored at `Z = 0` nor given by a table of its field. -/
def AnyCoil.Movable : AnyCoil K → Prop
  | .multi c => c.mirror = false
  | .precalc _ => False
  | _ => True

/-- All coils can be moved. -/
def Machine.Movable (m : Machine K) : Prop :=
  ∀ x ∈ m.coils, match x.2 with
    | .coil c => c.Movable
    | .circuit k => ∀ y ∈ k.coils, y.2.1.Movable
    | .solenoid _ => True

/-- The user raises a coil with `coil.Z = coil.Z + d`. -/
def AnyCoil.raise (d : K) (c : AnyCoil K) : AnyCoil K := c.setZ (c.Z + d)

/-- The user raises a coil, all coils of a circuit, or both ends of a solenoid. -/
def Entry.raise (d : K) : Entry K → Entry K
  | .coil c => .coil (c.raise d)
  | .circuit k => .circuit { k with coils := k.coils.map fun y => (y.1, y.2.1.raise d, y.2.2) }
  | .solenoid s => .solenoid { s with Zsmin := s.Zsmin + d, Zsmax := s.Zsmax + d }

/-- The machine with everything raised by `d`. -/
def Machine.raise (d : K) (m : Machine K) : Machine K := ⟨m.coils.map fun x => (x.1, x.2.raise d)⟩

/-- The machine and the field of the plasma raised by `d`. -/
def Control.Eq.raise (d : K) (eq : Control.Eq K) : Control.Eq K := ⟨eq.machine.raise d, fun q R Z => eq.plasma q R (Z - d)⟩

/-- The same request at the other height. -/
def Control.Constrain.raise (d : K) (c : Control.Constrain K) : Control.Constrain K :=
  { c with
    xpoints := c.xpoints.map fun p => (p.1, p.2 + d)
    isoflux := c.isoflux.map fun p => (p.1, p.2.1 + d, p.2.2.1, p.2.2.2 + d)
    psivals := c.psivals.map fun p => (p.1, p.2.1 + d, p.2.2) }

end FreeGS

namespace FreeGS.Equil

open FreeGS.GS FreeGS.Critical FreeGS.Jtor

universe u
variable {K : Type u} [Field K] [LinearOrder K] {C : Type u}

/-- A critical point raised by `d`. -/
def raisePoint (d : K) (p : Point K) : Point K := (p.1, p.2.1 + d, p.2.2)

/-- The equilibrium at another height: the machine raised by `tok`, the contact point raised, everything else, given on the grid, the same. -/
def raised (d : K) (tok : C → C) (s : State C K) : State C K :=
  { s with tokamak := tok s.tokamak, contact := s.contact.map fun q => (q.1, q.2 + d) }

/-- The second environment is the first with everything raised by `d`: the grid, the coils, the wall and the places given to or returned
by the library routines. -/
structure Raises (d : K) (tok : C → C) (e e' : Env C K) : Prop where
  mu0 : e'.mu0 = e.mu0
  nx : e'.nx = e.nx
  ny : e'.ny = e.ny
  R : e'.R = e.R
  Z : ∀ j, e'.Z j = e.Z j + d
  fixed : e'.fixed = e.fixed
  coils : ∀ t, e'.coilPsi (tok t) = e.coilPsi t
  limits : ∀ t, e'.limits (tok t) = (e.limits t).map fun l => l.map fun q => (q.1, q.2 + d)
  find : ∀ P, e'.find P = (e.find P).map fun r => (r.1.map (raisePoint d), r.2.map (raisePoint d))
  core : ∀ P o x b, e'.core P (o.map (raisePoint d)) (x.map (raisePoint d)) b = e.core P o x b
  interp : ∀ P R Z, e'.interp P R (Z + d) = e.interp P R Z
  boundary : ∀ J P, e'.boundary J P = e.boundary J P
  solver : ∀ x b, e'.solver x b = e.solver x b

/-- The limiter is not looked at, there is none, or no flux has an X-point. -/
def NoHeight (e : Env C K) (checkLimited : Bool) : Prop :=
  checkLimited = false ∨ (∀ t, e.limits t = none) ∨ ∀ P o x, e.find P = .ok (o, x) → x = []

/-- The second profiles do to the raised equilibrium what the first do to the other. -/
def ProfilesRaise (d : K) (tok : C → C) (e : Env C K) (profiles profiles' : Profiles C K) : Prop :=
  ∀ s P b, NoHeight e s.checkLimited → profiles' (raised d tok s) P b = (profiles s P b).map (fun r => (raised d tok r.1, r.2)) ∧
    ∀ s' J, profiles s P b = .ok (s', J) → s'.checkLimited = s.checkLimited

/-- The second control system, or its absence, does to the raised equilibrium what the first does to the other. -/
def ControlRaises (d : K) (tok : C → C) (f f' : Option (State C K → Except Err (State C K))) : Prop :=
  (f = none ∧ f' = none) ∨ ∃ g g', f = some g ∧ f' = some g' ∧ ∀ s s', g s = .ok s' → g' (raised d tok s) = .ok (raised d tok s')

end FreeGS.Equil
