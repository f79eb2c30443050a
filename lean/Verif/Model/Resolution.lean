import Verif.Model.Multigrid

/-!
# Changing resolution and domain: `refine`, `coarsen`, `newDomain` (equilibrium.py:1271-1390)

Library routines and the parts of `Equilibrium` that are modelled elsewhere are in `Ext`.
-/

namespace FreeGS.Resolution

open FreeGS.GS FreeGS.MG
open FreeGS.Critical (Domain linspaceAt)

universe u
variable {M P Q K : Type u} [Field K] [LinearOrder K]

/-- The boundary function of an equilibrium: one of boundary.py, or a function of the user with the given `__name__`. -/
inductive Boundary where
  | free
  | fixed
  | hagenow
  | user (name : String)
  deriving DecidableEq

/-- The settings and the plasma flux of an `Equilibrium` (equilibrium.py:98-153), with `_profiles` and `control` where they exist. What
`_updateBoundaryPsi` computes from them is not kept here (see `FreeGS.Equil`). -/
structure Eqm (M P Q K : Type u) where
  tokamak : M
  dom : Domain K
  nx : ℕ
  ny : ℕ
  boundary : Boundary
  order : ℕ
  checkLimited : Bool
  current : K
  plasmaPsi : Arr K
  profiles : Option P
  control : Option Q

/-- What is used: the starting guess (equilibrium.py:121-129), `_updatePlasmaPsi` as far as it can raise, the making of the solver
(equilibrium.py:140-153), the interpolation `psi_func` of the plasma flux, and the current, linear solves and final `solve` of
`newDomain` (equilibrium.py:1363-1388), which give the plasma flux and current. -/
structure Ext (M P Q K : Type u) where
  start : ℕ → ℕ → Arr K
  update : Eqm M P Q K → Except Err Unit
  solver : ℕ → Domain K → ℕ → ℕ → Except Err Unit
  spline : Domain K → ℕ → ℕ → Arr K → K → K → K
  resolve : Eqm M P Q K → Eqm M P Q K → P → Except Err (Arr K × K)

/-- `Equilibrium(tokamak, Rmin, Rmax, Zmin, Zmax, nx, ny, boundary, psi, current, order, check_limited)` with the default arguments
(equilibrium.py:56-153). `R[1, 0]` raises `IndexError` with fewer than two points. -/
def make (e : Ext M P Q K) (tokamak : M) (dom : Domain K) (nx ny : ℕ) (boundary : Boundary := .free) (psi : Option (Arr K) := none)
    (current : K := 0) (order : ℕ := 4) (checkLimited : Bool := false) : Except Err (Eqm M P Q K) :=
  let s : Eqm M P Q K := ⟨tokamak, dom, nx, ny, boundary, order, checkLimited, current, psi.getD (e.start nx ny), none, none⟩
  if nx < 2 ∨ ny < 2 then .error .index
  else
    match e.update s with
    | .error err => .error err
    | .ok _ =>
      if order = 2 ∨ order = 4 then
        match e.solver order dom nx ny with
        | .error err => .error err
        | .ok _ => .ok s
      else .error .value

/-- `_updatePlasmaPsi(plasma_psi)` (equilibrium.py:631-648). -/
def setPsi (e : Ext M P Q K) (s : Eqm M P Q K) (psi : Arr K) : Except Err (Eqm M P Q K) :=
  match e.update { s with plasmaPsi := psi } with
  | .error err => .error err
  | .ok _ => .ok { s with plasmaPsi := psi }

/-- `if not n: n = 2 * (m - 1) + 1` (equilibrium.py:1282-1285). -/
def doubled (n : Option ℕ) (m : ℕ) : ℕ :=
  match n with
  | none => 2 * (m - 1) + 1
  | some 0 => 2 * (m - 1) + 1
  | some k => k

/-- `refine(eq, nx, ny)` (equilibrium.py:1271-1309). -/
def refine (e : Ext M P Q K) (eq : Eqm M P Q K) (nx ny : Option ℕ := none) : Except Err (Eqm M P Q K) :=
  match make e eq.tokamak eq.dom (doubled nx eq.nx) (doubled ny eq.ny) (boundary := eq.boundary) (order := eq.order) with
  | .error err => .error err
  | .ok result =>
    let psi : Arr K := fun c => e.spline eq.dom eq.nx eq.ny eq.plasmaPsi (linspaceAt result.dom.Rmin result.dom.Rmax result.nx c.1)
      (linspaceAt result.dom.Zmin result.dom.Zmax result.ny c.2)
    match setPsi e result psi with
    | .error err => .error err
    | .ok r => .ok { r with profiles := eq.profiles, control := eq.control }

/-- `coarsen(eq)` (equilibrium.py:1312-1337). -/
def coarsen (e : Ext M P Q K) (eq : Eqm M P Q K) : Except Err (Eqm M P Q K) :=
  let g := restrict ⟨eq.nx, eq.ny, eq.plasmaPsi⟩
  match make e eq.tokamak eq.dom g.nx g.ny with
  | .error err => .error err
  | .ok result =>
    match setPsi e result g.val with
    | .error err => .error err
    | .ok r => .ok { r with profiles := eq.profiles, control := eq.control }

/-- `newDomain(eq, Rmin, Rmax, Zmin, Zmax, nx, ny)` (equilibrium.py:1340-1390). Both sizes default to `eq.R.shape[0]`. Without `_profiles`
an `AttributeError` is raised. The result gets no `control`; `solve` sets `_profiles` and `_current`. -/
def newDomain (e : Ext M P Q K) (eq : Eqm M P Q K) (Rmin Rmax Zmin Zmax : Option K := none) (nx ny : Option ℕ := none) :
    Except Err (Eqm M P Q K) :=
  let dom : Domain K := ⟨Rmin.getD eq.dom.Rmin, Rmax.getD eq.dom.Rmax, Zmin.getD eq.dom.Zmin, Zmax.getD eq.dom.Zmax⟩
  match make e eq.tokamak dom (nx.getD eq.nx) (ny.getD eq.nx) with
  | .error err => .error err
  | .ok result =>
    match eq.profiles with
    | none => .error .attribute
    | some p =>
      match e.resolve eq result p with
      | .error err => .error err
      | .ok (psi, current) => .ok { result with plasmaPsi := psi, current := current, profiles := some p }

end FreeGS.Resolution
