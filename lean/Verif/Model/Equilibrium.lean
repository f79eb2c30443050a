import Verif.Model.Jtor
import Verif.Model.Picard

/-!
# The equilibrium: boundary flux, limiter, linear solve (equilibrium.py)

The tokamak is an arbitrary type `C`; what the equilibrium asks of it is in `Env`, together with the library routines.
-/

namespace FreeGS.Equil

open FreeGS.GS FreeGS.Critical

universe u
variable {K : Type u} [Field K] [LinearOrder K] {C : Type u}

/-- What `Equilibrium` uses and does not change: the grid (`R[:, 0]`, `Z[0, :]`), the flux of the coils on the grid, the limiter
points of the tokamak (`none`: no wall), `critical.find_critical`, `critical.core_mask`, the interpolation
`RectBivariateSpline(R, Z, a)`, the boundary function (`fixed`: it is `fixedBoundary`) and the solver. -/
structure Env (C K : Type u) where
  mu0 : K
  nx : ℕ
  ny : ℕ
  R : ℕ → K
  Z : ℕ → K
  coilPsi : C → Arr K
  limits : C → Option (List (K × K))
  find : Arr K → Except Err (List (Point K) × List (Point K))
  core : Arr K → List (Point K) → List (Point K) → Option K → Except Err (Arr K)
  interp : Arr K → K → K → K
  fixed : Bool
  boundary : Arr K → Arr K → Except Err (Arr K)
  solver : Arr K → Arr K → Arr K

/-- The attributes of an `Equilibrium` (equilibrium.py:56-153). `spline` is the array that `psi_func` interpolates; `contact` are
`Rlim`, `Zlim`. Attributes that do not exist before the first assignment are `none`. -/
structure State (C K : Type u) where
  tokamak : C
  plasmaPsi : Arr K
  spline : Arr K
  current : K
  jtor : Option (Arr K)
  checkLimited : Bool
  psiAxis : Option K
  psiBndry : Option K
  psiXpt : Option K
  psiLimit : Option K
  contact : Option (K × K)
  isLimited : Bool
  mask : Option (Arr K)

/-- `eq.psi()` (equilibrium.py:296-302); the table of Green's functions it uses is taken to be up to date (see C07). -/
def psi (e : Env C K) (s : State C K) : Arr K := fun c => s.plasmaPsi c + e.coilPsi s.tokamak c

/-- `psi.T`. -/
def transpose (a : Arr K) : Arr K := fun c => a (c.2, c.1)

/-- The limiter points that are looked at (equilibrium.py:550-555). -/
def keptPoints (xpt : List (Point K)) (pts : List (K × K)) : List (K × K) :=
  match xpt with
  | [] => pts
  | x :: _ => pts.filter fun q => decide (|q.2| < |3 / 4 * x.2.1|)

/-- `np.argmax` with the value: the first of the points with the largest flux. -/
def argmaxLoop (f : K × K → K) : List (K × K) → K × K → K × K
  | [], best => best
  | q :: rest, best => argmaxLoop f rest (if f best < f q then q else best)

/-- The contact point (equilibrium.py:557-577). `RectBivariateSpline(x=R, y=Z, z=psi.T)` raises `ValueError` unless the grid is square;
`np.argmax` of an empty array raises `ValueError`. -/
def limiterContact (e : Env C K) (psi : Arr K) (pts : List (K × K)) : Except Err ((K × K) × K) :=
  if e.nx ≠ e.ny then .error .value
  else
    let flux := fun q : K × K => e.interp (transpose psi) q.1 q.2
    match pts with
    | [] => .error .value
    | q :: rest => .ok (argmaxLoop flux rest q, flux (argmaxLoop flux rest q))

/-- `_updateBoundaryPsi(psi)` (equilibrium.py:507-629). After an exception the attributes assigned so far are kept, which is
modelled in `Store.refresh`. -/
def updateBoundary (e : Env C K) (s : State C K) (psi : Arr K) : Except Err (State C K) := do
  let (opt, xpt) ← e.find psi
  match opt with
  | [] => .ok s
  | o :: _ =>
    let s := { s with psiAxis := some o.2.2 }
    match (if s.checkLimited then e.limits s.tokamak else none) with
    | some pts => do
      let (q, psiLimit) ← limiterContact e psi (keptPoints xpt pts)
      let s := { s with contact := some q, psiLimit := some psiLimit }
      match xpt with
      | x :: _ => do
        let psiBndry := max x.2.2 psiLimit
        let m ← e.core psi opt xpt (some psiBndry)
        .ok { s with psiXpt := some x.2.2, psiBndry := some psiBndry, isLimited := decide (psiBndry = psiLimit), mask := some m }
      | [] => .ok { s with psiBndry := some psiLimit, isLimited := true, mask := none }
    | none =>
      match xpt with
      | x :: _ => do
        let m ← e.core psi opt xpt none
        .ok { s with psiXpt := some x.2.2, psiBndry := some x.2.2, isLimited := false, mask := some m }
      | [] => .ok { s with psiBndry := if e.fixed then some (psi (0, 0)) else none, isLimited := false, mask := none }

/-- `profiles.Jtor(R, Z, psi, psi_bndry)`: the current density, and the equilibrium, which the constrained profiles change by
calling `eq._updateBoundaryPsi(psi)`. -/
abbrev Profiles (C K : Type u) := State C K → Arr K → Option K → Except Err (State C K × Arr K)

/-- `_updatePlasmaPsi(plasma_psi)` (equilibrium.py:631-648). -/
def updatePlasmaPsi (e : Env C K) (s : State C K) (plasmaPsi : Arr K) : Except Err (State C K) :=
  let s := { s with plasmaPsi := plasmaPsi, spline := plasmaPsi }
  updateBoundary e s (psi e s)

/-- The current density (equilibrium.py:476-480). -/
def density (e : Env C K) (profiles : Profiles C K) (s : State C K) (given : Option (Arr K)) (psi0 : Option (Arr K))
    (psiBndry : Option K) : Except Err (State C K × Arr K) :=
  match given with
  | some J => .ok (s, J)
  | none => profiles s (psi0.getD (psi e s)) psiBndry

/-- `solve(profiles, Jtor=given, psi=psi0, psi_bndry=psiBndry)` (equilibrium.py:445-505). The boundary function changes `plasma_psi` in
place. -/
def solve (e : Env C K) (profiles : Profiles C K) (s : State C K) (given : Option (Arr K)) (psi0 : Option (Arr K))
    (psiBndry : Option K) : Except Err (State C K) := do
  let s ← updateBoundary e s (psi e s)
  let (s, J) ← density e profiles s given psi0 psiBndry
  let edge ← e.boundary J s.plasmaPsi
  let s := { s with plasmaPsi := edge }
  let rhs : Arr K := fun c => -e.mu0 * e.R c.1 * J c
  let s ← updatePlasmaPsi e s (e.solver s.plasmaPsi (setEdge e.nx e.ny rhs s.plasmaPsi))
  let I ← Jtor.integrate e.nx e.ny e.R e.Z J
  .ok { s with current := I, jtor := some J }

/-- `ConstrainPaxisIp.Jtor` (jtor.py:334-418) with the equilibrium it was made with. -/
def paxisProfiles (quad : (K → K) → K → K → K) (pow : K → K → K) (e : Env C K) (p : Jtor.Params K) (paxis : K) : Profiles C K :=
  fun s psi psiBndry => do
    let s ← updateBoundary e s psi
    let (opt, xpt) ← e.find psi
    let (J, _) ← Jtor.paxisJtor quad pow e.nx e.ny e.R e.Z p paxis opt xpt (e.core psi opt xpt) s.psiBndry psi psiBndry
    .ok (s, J)

/-- `ConstrainBetapIp.Jtor` (jtor.py:172-281); `field` gives `eq.Br(R, Z)`, `eq.Bz(R, Z)`. -/
def betapProfiles (quad : (K → K) → K → K → K) (pow : K → K → K) (e : Env C K) (field : State C K → Arr K × Arr K) (p : Jtor.Params K)
    (betap : K) : Profiles C K :=
  fun s psi psiBndry => do
    let s ← updateBoundary e s psi
    let (opt, xpt) ← e.find psi
    let (J, _) ← Jtor.betapJtor quad pow e.mu0 e.nx e.ny e.R e.Z p betap opt xpt (e.core psi opt xpt) s.psiBndry (field s).1 (field s).2
      psi psiBndry
    .ok (s, J)

/-- `ProfilesPprimeFfprime.Jtor` (jtor.py:463-499), which does not use the equilibrium. -/
def givenProfiles (e : Env C K) (g : Jtor.Given K) : Profiles C K :=
  fun s psi psiBndry => do
    let (opt, xpt) ← e.find psi
    let (J, _) ← Jtor.givenJtor e.mu0 e.nx e.R g opt xpt (e.core psi opt xpt) psi psiBndry
    .ok (s, J)

/-- The values of a flux array in the order of the grid. -/
def values (nx ny : ℕ) (a : Arr K) : List K := (List.range (nx * ny)).map (flat ny a)

/-- The array with these values. -/
def ofValues (ny : ℕ) (l : List K) : Arr K := unflat ny fun r => l.getD r 0

/-- The equilibrium as `picard.solve` uses it. -/
def picardEnv (e : Env C K) (profiles : Profiles C K) (constrain : Option (State C K → Except Err (State C K))) :
    Picard.Env (State C K) K :=
  { constrain := constrain
    psi := fun s => values e.nx e.ny (psi e s)
    solve := fun s cl p b => solve e profiles { s with checkLimited := cl } none (some (ofValues e.ny p)) b
    bndry := State.psiBndry
    limited := State.isLimited }

end FreeGS.Equil
