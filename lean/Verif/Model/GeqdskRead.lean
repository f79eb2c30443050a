import Verif.Model.Geqdsk
import Verif.Model.NormFit

/-!
# The whole of `geqdsk.read` (geqdsk.py:164-534)

What is taken from the file is in `Geqdsk.read`; here follow the making of the equilibrium, the first linear solve, the fit of the coil
currents, the Picard iteration and the control system that is left in the equilibrium. Plots and printed lines are left out, except where
what is printed can raise.
-/

namespace FreeGS.Geqdsk

open FreeGS.GS (Arr)
open FreeGS.Equil
open FreeGS.Critical (Domain linspaceAt Point)

universe u
variable {K : Type u} [Field K] [LinearOrder K] {C : Type u}

/-- A machine as `read` uses it: coils, wall, limiter points and reference radius (machine.py:640-659). A machine made without wall has no
limiter points (`None`). -/
structure Reactor (C K : Type u) where
  coils : C
  wall : Option (List (K × K))
  points : Option (List (K × K))
  R0 : K

/-- The library routines and parts of the equilibrium used by `read`, for a domain and a grid of the given sizes: Green's functions of the
coils, `find_critical`, `core_mask`, `RectBivariateSpline`, `freeBoundary`, the solver of fourth order; then `InterpolatedUnivariateSpline`
with its derivative for values at the knots `linspace(0, 1, n)`, the starting guess of an equilibrium (equilibrium.py:121-129),
`find_separatrix`, the control of the coil currents and the optimisers `leastsq` and `minimize(method="L-BFGS-B")`. -/
structure Lib (C K : Type u) where
  mu0 : K
  coilPsi : Domain K → ℕ → ℕ → C → Arr K
  find : Domain K → ℕ → ℕ → Arr K → Except Err (List (Point K) × List (Point K))
  core : Domain K → ℕ → ℕ → Arr K → List (Point K) → List (Point K) → Option K → Except Err (Arr K)
  interp : Domain K → ℕ → ℕ → Arr K → K → K → K
  boundary : Domain K → ℕ → ℕ → Arr K → Arr K → Except Err (Arr K)
  solver : Domain K → ℕ → ℕ → Arr K → Arr K → Arr K
  spline : ℕ → (ℕ → K) → K → K
  dspline : ℕ → (ℕ → K) → K → K
  guess : ℕ → ℕ → Arr K
  separatrix : Domain K → ℕ → ℕ → State (Reactor C K) K → List (Point K) → List (Point K) → ℕ → Except Err (List (K × K × K × K))
  get : C → List K
  set : C → List K → C
  lsq : List K → Search K (List K)
  lsqNorm : List K → Search K (List K)
  lbfgs : List K → List (K × K) → Search K K
  lbfgsNorm : List K → List (K × K) → Search K K

/-- The equilibrium with free boundary on a domain (equilibrium.py:98-153). A machine with a wall is asked for its limiter points. -/
def Lib.env (l : Lib C K) (dom : Domain K) (nx ny : ℕ) : Equil.Env (Reactor C K) K :=
  { mu0 := l.mu0, nx := nx, ny := ny
    R := linspaceAt dom.Rmin dom.Rmax nx
    Z := linspaceAt dom.Zmin dom.Zmax ny
    coilPsi := fun t => l.coilPsi dom nx ny t.coils
    limits := fun t => if t.wall.isSome then t.points else none
    find := l.find dom nx ny
    core := l.core dom nx ny
    interp := l.interp dom nx ny
    fixed := false
    boundary := l.boundary dom nx ny
    solver := l.solver dom nx ny }

/-- `controlCurrents()` and `setControlCurrents(currents)` of the machine. -/
def Lib.controls (l : Lib C K) : Controls (Reactor C K) K :=
  ⟨fun t => l.get t.coils, fun t x => { t with coils := l.set t.coils x }⟩

/-- `Equilibrium(tokamak=machine, ..., check_limited=True, psi=psi)` (equilibrium.py:98-153). `R[1, 0]` raises `IndexError` with fewer than
two points. If the machine has a wall but no limiter points, `abs(None)` or `len(None)` raises `TypeError` once an O-point is found
(equilibrium.py:540-563). -/
def makeEq (l : Lib C K) (t : Reactor C K) (dom : Domain K) (nx ny : ℕ) (psi : Arr K) : Except Err (State (Reactor C K) K) :=
  if nx < 2 ∨ ny < 2 then .error .index
  else
    let e := l.env dom nx ny
    let s : State (Reactor C K) K := ⟨t, psi, psi, 0, none, true, none, none, none, none, none, false, none⟩
    match e.find (Equil.psi e s) with
    | .error err => .error err
    | .ok (opt, _) =>
      if t.wall.isSome ∧ t.points = none ∧ opt ≠ [] then .error .type
      else updatePlasmaPsi e s psi

/-- The profiles made from the file (geqdsk.py:286-335). The cubic splines need at least four values. -/
def fileProfiles (l : Lib C K) (d : Data K) : Jtor.Given K :=
  let range := d.sibdry - d.simagx
  { pprime := l.dspline d.nx fun k => d.pres k / range
    ffprime := l.dspline d.nx fun k => 1 / 2 * d.fpol k ^ 2 / range
    fvac := d.rcentr * d.bcentr
    pFunc := some (l.spline d.nx d.pres)
    fFunc := some (l.spline d.nx d.fpol) }

/-- `ConstrainPsi2D.psi_difference` (control.py:253-263) on an equilibrium. -/
def fluxDifference (e : Equil.Env C K) (ctl : Controls C K) (c : Control.Psi2D K) (s : State C K) (currents : List K) :
    Except Err (State C K × List K) :=
  let s1 := { s with tokamak := ctl.set s.tokamak currents }
  let flux := values e.nx e.ny (Equil.psi e s1)
  match Control.average flux c.weights with
  | .error err => .error err
  | .ok av => .ok (s1, c.weights.apply (List.zipWith (fun p t => p - av - t) flux c.target))

/-- `ConstrainPsi2D.__call__(eq)` (control.py:236-251). -/
def fluxFit (e : Equil.Env C K) (ctl : Controls C K) (c : Control.Psi2D K) (lsq : List K → Search K (List K)) (s : State C K) :
    Except Err (State C K) :=
  match (lsq (ctl.get s.tokamak)).run (fluxDifference e ctl c) s with
  | .error err => .error err
  | .ok (s', x) => .ok { s' with tokamak := ctl.set s'.tokamak x }

/-- `ConstrainPsi2DAdvanced.psi_difference` (control.py:406-419) on an equilibrium. -/
def fluxSquares (e : Equil.Env C K) (ctl : Controls C K) (c : Control.Psi2DAdvanced K) (s : State C K) (currents : List K) :
    Except Err (State C K × K) :=
  let s1 := { s with tokamak := ctl.set s.tokamak currents }
  match updateBoundary e s1 (Equil.psi e s1) with
  | .error err => .error err
  | .ok s2 =>
    let flux := values e.nx e.ny (Equil.psi e s1)
    match Control.average flux c.weights with
    | .error err => .error err
    | .ok av => .ok (s2, ((c.weights.apply (List.zipWith (fun p t => p - av - t) flux c.target)).map fun x => x * x).sum)

/-- `ConstrainPsi2DAdvanced.__call__(eq)` (control.py:357-404). -/
def fluxFitAdvanced (e : Equil.Env C K) (ctl : Controls C K) (c : Control.Psi2DAdvanced K) (lbfgs : List K → List (K × K) → Search K K)
    (s : State C K) : Except Err (State C K) :=
  match Control.advancedStart c.currentLims (ctl.get s.tokamak) 0 with
  | .error err => .error err
  | .ok st =>
    match (lbfgs (st.map Prod.fst) (st.map Prod.snd)).run (fluxSquares e ctl c) s with
    | .error err => .error err
    | .ok (s', x) => .ok { s' with tokamak := ctl.set s'.tokamak x }

/-- The arguments of `read` (geqdsk.py:164-178) without those for plots; `cocos` is an argument of the `freeqdsk` package. -/
structure ReadOpts (K : Type u) where
  rtol : K
  ntheta : ℕ
  blend : K
  fitSol : Bool
  maxits : Option ℤ
  bounds : Option (List (K × K))

/-- The arguments given to `picard.solve` (geqdsk.py:488-506): with bounds on the currents `maxits` is replaced. -/
def picardOpts (o : ReadOpts K) : Picard.Opts K :=
  { rtol := o.rtol, atol := 1 / 10 ^ 10, blend := o.blend, psiBndry := none
    maxits := if o.bounds.isSome then some 1000 else o.maxits
    checkLimited := true, waitForLimited := false, limitIt := 0 }

/-- The first fit of the coil currents (geqdsk.py:455-475). With `fit_sol` and bounds the weights are left at their default 1.0; a mask that is
`None` is the default of `ConstrainPsi2D`, for `ConstrainPsi2DAdvanced` the product `diff * None` raises `TypeError`. -/
def firstFit (l : Lib C K) (e : Equil.Env (Reactor C K) K) (o : ReadOpts K) (psi : Arr K) (mask : Option (Arr K)) (s : State (Reactor C K) K) :
    Except Err (State (Reactor C K) K) :=
  let target := values e.nx e.ny psi
  let weights := if o.fitSol then none else mask.map fun m => Control.Weights.array (values e.nx e.ny m)
  match o.bounds with
  | some b =>
    if o.fitSol then fluxFitAdvanced e l.controls (Control.Psi2DAdvanced.make target (currentLims := some b)) l.lbfgs s
    else
      match weights with
      | some w => fluxFitAdvanced e l.controls (Control.Psi2DAdvanced.make target w (some b)) l.lbfgs s
      | none => .error .type
  | none =>
    match Control.Psi2D.make target weights with
    | .error err => .error err
    | .ok c => fluxFit e l.controls c l.lsq s

/-- The control system of the iteration (geqdsk.py:485-492). -/
def iterationFit (l : Lib C K) (e : Equil.Env (Reactor C K) K) (o : ReadOpts K) (f : NormFit K) :
    State (Reactor C K) K → Except Err (State (Reactor C K) K) :=
  match o.bounds with
  | some b => normFitAdvanced e l.controls f (some b) l.lbfgsNorm
  | none => normFit e l.controls f l.lsqNorm

/-- The equilibrium that is returned: its domain and sizes, its state, `_profiles` and `control` (X-points and flux pairs; `none`: no such
attribute). -/
structure Reading (C K : Type u) where
  dom : Domain K
  nx : ℕ
  ny : ℕ
  eq : State (Reactor C K) K
  profiles : Jtor.Given K
  control : Option (List (Point K) × List (K × K × K × K))

/-- `read` from the first linear solve on (geqdsk.py:410-534). `J` is the current density, `psi` the flux to be fitted, `psiNorm` its
normalised value, `mask` the weights. A mask that is `None` raises `TypeError` when the normalised flux is first fitted. -/
def reconstruct (l : Lib C K) (o : ReadOpts K) (dom : Domain K) (nx ny : ℕ) (given : Jtor.Given K) (s : State (Reactor C K) K)
    (J psi psiNorm : Arr K) (mask : Option (Arr K)) (fuel : ℕ) : Except Err (Option (Reading C K)) :=
  let e := l.env dom nx ny
  let profiles := givenProfiles e given
  match Equil.solve e profiles { s with checkLimited := true } (some J) none none with
  | .error err => .error err
  | .ok s =>
    match firstFit l e o psi mask s with
    | .error err => .error err
    | .ok s =>
      match mask with
      | none => .error .type
      | some m =>
        match Picard.picard (picardEnv e profiles (some (iterationFit l e o ⟨psiNorm, m⟩))) (picardOpts o) fuel s with
        | .error err => .error err
        | .ok none => .ok none
        | .ok (some (s, _)) =>
          match e.find (Equil.psi e s) with
          | .error err => .error err
          | .ok (_, []) => .ok (some ⟨dom, nx, ny, s, given, none⟩)
          | .ok (opt, x :: xs) =>
            match l.separatrix dom nx ny s opt (x :: xs) o.ntheta with
            | .error err => .error err
            | .ok iso => .ok (some ⟨dom, nx, ny, s, given, some (x :: xs, iso)⟩)

/-- The machine after `read` has set wall and reference radius (geqdsk.py:248-254, 343). -/
def fileMachine (t : Reactor C K) (tg : Target K) : Reactor C K := { t with wall := tg.wall, R0 := tg.R0 }

/-- What is there before the fit (geqdsk.py:286-368), for the values `tg` taken from the file: the equilibrium on the domain of the file, the
current density, the mask. The attributes read from an equilibrium in which no O-point was found do not exist (`AttributeError`);
`Jtor *= None` raises `TypeError`; `R = 0` gives infinite values. -/
def prepareFrom (l : Lib C K) (d : Data K) (t : Reactor C K) (tg : Target K) : Except Err (State (Reactor C K) K × Arr K × Arr K) :=
  if d.nx < 4 then .error .value
  else
    match makeEq l (fileMachine t tg) tg.dom tg.nx tg.ny tg.psi with
    | .error err => .error err
    | .ok s =>
      let e := l.env tg.dom tg.nx tg.ny
      let g := fileProfiles l d
      match s.psiAxis, s.mask with
      | none, _ => .error .attribute
      | some _, none => .error .type
      | some _, some m =>
        if (List.range tg.nx).all (fun i => decide (e.R i ≠ 0)) then
          let J : Arr K := fun c => (e.R c.1 * g.pprime (tg.psiNorm c) + g.ffprime (tg.psiNorm c) / (e.R c.1 * l.mu0)) * m c
          match Jtor.integrate tg.nx tg.ny e.R e.Z J with
          | .error err => .error err
          | .ok _ => .ok (s, J, m)
        else .error .nonfinite

/-- `read` for the values taken from the file, without the `domain` keyword. -/
def readFrom (l : Lib C K) (o : ReadOpts K) (d : Data K) (t : Reactor C K) (tg : Target K) (fuel : ℕ) :
    Except Err (Option (Reading C K)) :=
  match prepareFrom l d t tg with
  | .error err => .error err
  | .ok (s, J, m) => reconstruct l o tg.dom tg.nx tg.ny (fileProfiles l d) s J tg.psi tg.psiNorm (some m) fuel

/-- `read(fh, machine, ...)` without the `domain` keyword, for the dictionary `d`, within `fuel` passes of the iteration. -/
noncomputable def readFile (l : Lib C K) (o : ReadOpts K) (d : Data K) (t : Reactor C K) (fuel : ℕ) : Except Err (Option (Reading C K)) :=
  match read d t.wall with
  | .error err => .error err
  | .ok tg => readFrom l o d t tg fuel

/-- `read(fh, machine, domain=..., ...)` (geqdsk.py:237-238, 371-408): a second equilibrium is made, with the starting guess as its flux, on
the new domain; the mask and the range of the flux are taken from it. -/
noncomputable def readDomain {C : Type} (l : Lib C ℝ) (o : ReadOpts ℝ) (d : Data ℝ) (dom : Domain ℝ) (t : Reactor C ℝ) (fuel : ℕ) :
    Except Err (Option (Reading C ℝ)) :=
  if o.fitSol then .error .value
  else
    match read d t.wall with
    | .error err => .error err
    | .ok tg =>
    match prepareFrom l d t tg with
    | .error err => .error err
    | .ok (s, J, _) =>
      let e := l.env tg.dom tg.nx tg.ny
      match newDomain tg.nx tg.ny (e.R 1 - e.R 0) (e.Z 1 - e.Z 0) dom with
      | .error err => .error err
      | .ok (dom, nx, ny) =>
        match makeEq l s.tokamak dom nx ny (l.guess nx ny) with
        | .error err => .error err
        | .ok s2 =>
          let e2 := l.env dom nx ny
          let J2 : Arr ℝ := fun c => e.interp J (e2.R c.1) (e2.Z c.2)
          let psi2 : Arr ℝ := fun c => e.interp tg.psi (e2.R c.1) (e2.Z c.2)
          match s2.psiAxis, s2.psiBndry with
          | none, _ => .error .attribute
          | some _, none => .error .type
          | some a, some b =>
            if b - a = 0 then .error .nonfinite
            else reconstruct l o dom nx ny (fileProfiles l d) s2 J2 psi2 (fun c => clip ((psi2 c - a) / (b - a)) 0 1) s2.mask fuel

end FreeGS.Geqdsk
