import Verif.Model.Equilibrium

/-!
# Arrays, objects and exceptions: what calls change in place and what is left after an exception

The other models return the new state of an equilibrium, or the exception. Here arrays, machines and equilibria live in a `World` and are
referred to by number, so that two names can refer to the same array, and a call that raises leaves the changes made so far.

Simplifications: arrays hold floating point numbers in C order (`reshape` of another array is a copy, and `+=` on an integer array
raises); an array of current density given by the caller is not the flux array of an equilibrium that is being solved for; the attributes
of the profile object (`L`, `Beta0`, ...) and `_profiles`, `control` of the equilibrium are left out.
-/

namespace FreeGS.Store

open FreeGS.GS FreeGS.Critical FreeGS.Equil

universe u
variable {K : Type u} [Field K] [LinearOrder K] {C : Type u}

/-- A reference to an array: its number. -/
scoped notation "Ref" => ℕ

/-- The attributes of an `Equilibrium` (equilibrium.py:98-153, 507-648) that are not references; see `Equil.State`. -/
structure Attrs (K : Type u) where
  spline : Arr K
  current : K
  checkLimited : Bool
  psiAxis : Option K
  psiBndry : Option K
  psiXpt : Option K
  psiLimit : Option K
  contact : Option (K × K)
  isLimited : Bool
  mask : Option (Arr K)

/-- An `Equilibrium`: the number of its machine (`tokamak`), the references `plasma_psi` and `Jtor`, the other attributes. -/
structure Obj (K : Type u) where
  machine : ℕ
  psi : Ref
  jtor : Option Ref
  attrs : Attrs K

/-- All arrays (those with numbers from `next` on do not exist yet), machines and equilibria (those from `count` on do not exist yet). -/
structure World (C K : Type u) where
  arrays : Ref → Arr K
  next : Ref
  machines : ℕ → C
  eqs : ℕ → Obj K
  count : ℕ

/-- What a call leaves: the exception, if it raised one, and the world. -/
abbrev Out (C K : Type u) := Option Err × World C K

/-- `a[...] = v`: the array is changed in place. -/
def World.write (w : World C K) (r : Ref) (v : Arr K) : World C K := { w with arrays := Function.update w.arrays r v }

/-- A new array; its number is `w.next`. -/
def World.alloc (w : World C K) (v : Arr K) : World C K :=
  { w with arrays := Function.update w.arrays w.next v, next := w.next + 1 }

/-- Assignment of attributes. -/
def World.setEq (w : World C K) (i : ℕ) (o : Obj K) : World C K := { w with eqs := Function.update w.eqs i o }

/-- Assignment of the attributes that are not references. -/
def World.setAttrs (w : World C K) (i : ℕ) (a : Attrs K) : World C K := w.setEq i { w.eqs i with attrs := a }

/-- Changing the currents of a machine. -/
def World.setMachine (w : World C K) (m : ℕ) (c : C) : World C K := { w with machines := Function.update w.machines m c }

/-- What a caller sees of an equilibrium. -/
def World.view (w : World C K) (i : ℕ) : State C K :=
  let o := w.eqs i
  { tokamak := w.machines o.machine, plasmaPsi := w.arrays o.psi, spline := o.attrs.spline, current := o.attrs.current,
    jtor := o.jtor.map w.arrays, checkLimited := o.attrs.checkLimited, psiAxis := o.attrs.psiAxis, psiBndry := o.attrs.psiBndry,
    psiXpt := o.attrs.psiXpt, psiLimit := o.attrs.psiLimit, contact := o.attrs.contact, isLimited := o.attrs.isLimited,
    mask := o.attrs.mask }

/-- The boundary function: one of boundary.py, or one of the user that changes the flux array it is given. -/
inductive Boundary (K : Type u) where
  | fixed
  | free
  | hagenow
  | user (f : Arr K → Arr K → Option Err × Arr K)

/-- The parts of an equilibrium that no call changes, and the library routines; see `Equil.Env`. `solver` gives the values that the solver
returns, `inPlace` says that it writes them into the array of the starting guess and returns that array: `MGJacobi.__call__` does
(multigrid.py:63-102: `reshape` gives a view, `x += ...`), `MGDirect.__call__` does not (multigrid.py:39-44). -/
structure Setup (C K : Type u) where
  mu0 : K
  nx : ℕ
  ny : ℕ
  R : ℕ → K
  Z : ℕ → K
  coilPsi : C → Arr K
  limits : C → Option (List (K × K))
  find : Arr K → Except Err (List (Point K) × List (Point K))
  core : Arr K → List (Point K) → List (Point K) → Option K → Except Err (Arr K)
  interp : Arr K → K → K → K
  sqrt : K → K
  green : K → K → K → K → K
  boundary : Boundary K
  solver : Arr K → Arr K → Arr K
  inPlace : Bool

/-- The values that the boundary function gives, without regard to where they are kept. -/
def Setup.boundaryValues (s : Setup C K) (J psi : Arr K) : Except Err (Arr K) :=
  match s.boundary with
  | .fixed => .ok (fixedBoundary s.nx s.ny psi)
  | .free => freeBoundary s.green s.nx s.ny s.R s.Z J psi
  | .hagenow => freeBoundaryHagenow s.sqrt s.green s.solver s.nx s.ny s.R s.Z J psi
  | .user f => match f J psi with
    | (some x, _) => .error x
    | (none, v) => .ok v

/-- The same equilibrium in the model of values, `Equil`. -/
def Setup.env (s : Setup C K) : Env C K :=
  { mu0 := s.mu0, nx := s.nx, ny := s.ny, R := s.R, Z := s.Z, coilPsi := s.coilPsi, limits := s.limits, find := s.find, core := s.core,
    interp := s.interp, fixed := match s.boundary with | .fixed => true | _ => false, boundary := s.boundaryValues, solver := s.solver }

/-- `_updateBoundaryPsi(psi)` (equilibrium.py:507-629), assignment by assignment. -/
def refresh (e : Env C K) (c : C) (a : Attrs K) (psi : Arr K) : Option Err × Attrs K :=
  match e.find psi with
  | .error x => (some x, a)
  | .ok (opt, xpt) =>
    match opt with
    | [] => (none, a)
    | o :: _ =>
      let a := { a with psiAxis := some o.2.2 }
      match (if a.checkLimited then e.limits c else none) with
      | some pts =>
        match limiterContact e psi (keptPoints xpt pts) with
        | .error x => (some x, a)
        | .ok (q, lim) =>
          let a := { a with contact := some q, psiLimit := some lim }
          match xpt with
          | x :: _ =>
            let b := max x.2.2 lim
            let a := { a with psiXpt := some x.2.2, psiBndry := some b, isLimited := decide (b = lim) }
            match e.core psi opt xpt (some b) with
            | .error x => (some x, a)
            | .ok m => (none, { a with mask := some m })
          | [] => (none, { a with psiBndry := some lim, isLimited := true, mask := none })
      | none =>
        match xpt with
        | x :: _ =>
          let a := { a with psiXpt := some x.2.2, psiBndry := some x.2.2 }
          match e.core psi opt xpt none with
          | .error x => (some x, a)
          | .ok m => (none, { a with mask := some m, isLimited := false })
        | [] => (none, { a with psiBndry := if e.fixed then some (psi (0, 0)) else none, mask := none, isLimited := false })

/-- `eq._updateBoundaryPsi(psi)` on an equilibrium of the world. -/
def updateBoundary (s : Setup C K) (i : ℕ) (psi : Arr K) (w : World C K) : Out C K :=
  let o := w.eqs i
  let r := refresh s.env (w.machines o.machine) o.attrs psi
  (r.1, w.setAttrs i r.2)

/-- `profiles.Jtor(R, Z, psi, psi_bndry)`: the current density or an exception, and the attributes of the equilibrium, which the constrained
profiles change. -/
abbrev Profile (C K : Type u) := World C K → ℕ → Arr K → Option K → Except Err (Arr K) × Attrs K

/-- A profile object that first calls `eq._updateBoundaryPsi(psi)` and then computes without changing the equilibrium: `ConstrainPaxisIp`
(jtor.py:334-418) and `ConstrainBetapIp` (jtor.py:172-281), with `f` from `Equil.paxisProfiles`, `Equil.betapProfiles`. -/
def constrained (s : Setup C K) (f : State C K → Arr K → Option K → Except Err (Arr K)) : Profile C K := fun w i psi b =>
  match updateBoundary s i psi w with
  | (some x, w) => (.error x, (w.eqs i).attrs)
  | (none, w) => (f (w.view i) psi b, (w.eqs i).attrs)

/-- A profile object that does not use the equilibrium: `ProfilesPprimeFfprime` (jtor.py:463-499). -/
def unconstrained (f : Arr K → Option K → Except Err (Arr K)) : Profile C K := fun w i psi b => (f psi b, (w.eqs i).attrs)

/-- `ConstrainPaxisIp.Jtor` (jtor.py:334-418). -/
def paxis (quad : (K → K) → K → K → K) (pow : K → K → K) (s : Setup C K) (p : Jtor.Params K) (paxis : K) : Profile C K :=
  constrained s fun st psi b => do
    let (opt, xpt) ← s.find psi
    let (J, _) ← Jtor.paxisJtor quad pow s.nx s.ny s.R s.Z p paxis opt xpt (s.core psi opt xpt) st.psiBndry psi b
    .ok J

/-- `ConstrainBetapIp.Jtor` (jtor.py:172-281); `field` gives `eq.Br(R, Z)`, `eq.Bz(R, Z)`. -/
def betap (quad : (K → K) → K → K → K) (pow : K → K → K) (s : Setup C K) (field : State C K → Arr K × Arr K) (p : Jtor.Params K)
    (betap : K) : Profile C K :=
  constrained s fun st psi b => do
    let (opt, xpt) ← s.find psi
    let (J, _) ← Jtor.betapJtor quad pow s.mu0 s.nx s.ny s.R s.Z p betap opt xpt (s.core psi opt xpt) st.psiBndry (field st).1 (field st).2
      psi b
    .ok J

/-- `ProfilesPprimeFfprime.Jtor` (jtor.py:463-499). -/
def givenFunctions (s : Setup C K) (g : Jtor.Given K) : Profile C K :=
  unconstrained fun psi b => do
    let (opt, xpt) ← s.find psi
    let (J, _) ← Jtor.givenJtor s.mu0 s.nx s.R g opt xpt (s.core psi opt xpt) psi b
    .ok J

/-- `eq.callSolver(x, rhs)` or `self._solver(x, rhs)` (equilibrium.py:190-206, 497): the array it returns and the world. -/
def callSolver (s : Setup C K) (x : Ref) (rhs : Arr K) (w : World C K) : Ref × World C K :=
  if s.inPlace then (x, w.write x (s.solver (w.arrays x) rhs)) else (w.next, w.alloc (s.solver (w.arrays x) rhs))

/-- `for x, y in indices: psi[x, y] = value(x, y)` (boundary.py:90-99), keeping what was assigned before an exception. -/
def assignRun (value : ℕ × ℕ → Except Err K) : List (ℕ × ℕ) → Arr K → Option Err × Arr K
  | [], psi => (none, psi)
  | c :: rest, psi =>
    match value c with
    | .error x => (some x, psi)
    | .ok v => assignRun value rest (psi.set c v)

/-- The loop of `freeBoundaryHagenow` (boundary.py:206-231), keeping what was assigned before an exception. -/
def hagenowRun (value : K → K → Except Err K) (R Z : ℕ → K) : List ((ℕ × ℕ) × K × K) → Arr K → Option Err × Arr K
  | [], psi => (none, psi)
  | (c, er, ez) :: rest, psi =>
    match value (R c.1 + er) (Z c.2 + ez) with
    | .error x => (some x, psi)
    | .ok v => hagenowRun value R Z rest (psi.set c v)

/-- `self._applyBoundary(self, Jtor, self.plasma_psi)` (equilibrium.py:485, boundary.py): `J` is `Jtor`, `x` is `plasma_psi`. -/
def applyBoundary (s : Setup C K) (J : Arr K) (x : Ref) (w : World C K) : Out C K :=
  match s.boundary with
  | .fixed => (none, w.write x (fixedBoundary s.nx s.ny (w.arrays x)))
  | .free =>
    let r := assignRun (edgeFlux s.green s.nx s.ny s.R s.Z J) (edgeIndices s.nx s.ny) (w.arrays x)
    (r.1, w.write x r.2)
  | .hagenow =>
    let dR := s.R 1 - s.R 0
    let dZ := s.Z 1 - s.Z 0
    let r := callSolver s x (setEdge s.nx s.ny (fun c => s.R c.1 * J c) fun _ => 0) w
    if s.nx < 5 ∨ s.ny < 5 then (some .index, r.2)
    else
      let n := hagenowNormal s.nx s.ny dR dZ (s.sqrt (dR ^ 2 + dZ ^ 2)) (r.2.arrays r.1)
      let q := hagenowRun (hagenowIntegral s.green s.nx s.ny s.R s.Z n) s.R s.Z (hagenowPoints s.nx s.ny) (r.2.arrays x)
      (q.1, r.2.write x q.2)
  | .user f =>
    let r := f J (w.arrays x)
    (r.1, w.write x r.2)

/-- The current density (equilibrium.py:476-480): the array given by the caller, or a new one. -/
def density (s : Setup C K) (p : Profile C K) (i : ℕ) (given psi0 : Option Ref) (psiBndry : Option K) (w : World C K) :
    Except Err Ref × World C K :=
  match given with
  | some J => (.ok J, w)
  | none =>
    let psi := match psi0 with
      | some r => w.arrays r
      | none => psi s.env (w.view i)
    let r := p w i psi psiBndry
    let w := w.setAttrs i r.2
    match r.1 with
    | .error x => (.error x, w)
    | .ok J => (.ok w.next, w.alloc J)

/-- The second half of `solve` (equilibrium.py:482-505), with the current density in array `J`. -/
def finish (s : Setup C K) (i : ℕ) (J : Ref) (w : World C K) : Out C K :=
  match applyBoundary s (w.arrays J) (w.eqs i).psi w with
  | (some x, w) => (some x, w)
  | (none, w) =>
    let x := (w.eqs i).psi
    let r := callSolver s x (setEdge s.nx s.ny (fun c => -s.mu0 * s.R c.1 * w.arrays J c) (w.arrays x)) w
    let w := r.2
    let o := w.eqs i
    let w := w.setEq i { o with psi := r.1, attrs := { o.attrs with spline := w.arrays r.1 } }
    match updateBoundary s i (psi s.env (w.view i)) w with
    | (some x, w) => (some x, w)
    | (none, w) =>
      match Jtor.integrate s.nx s.ny s.R s.Z (w.arrays J) with
      | .error x => (some x, w)
      | .ok I =>
        let o := w.eqs i
        (none, w.setEq i { o with jtor := some J, attrs := { o.attrs with current := I } })

/-- `eq.solve(profiles, Jtor=given, psi=psi0, psi_bndry=psiBndry)` (equilibrium.py:445-505). -/
def solve (s : Setup C K) (p : Profile C K) (i : ℕ) (given psi0 : Option Ref) (psiBndry : Option K) (w : World C K) : Out C K :=
  match updateBoundary s i (psi s.env (w.view i)) w with
  | (some x, w) => (some x, w)
  | (none, w) =>
    match density s p i given psi0 psiBndry w with
    | (.error x, w) => (some x, w)
    | (.ok J, w) => finish s i J w

/-- `if psi is None: psi = ...` (equilibrium.py:120-129): the array of the flux of a new equilibrium. -/
def startArray (psi0 : Option Ref) (start : Arr K) (w : World C K) : Ref × World C K :=
  match psi0 with
  | some r => (r, w)
  | none => (w.next, w.alloc start)

/-- `Equilibrium(tokamak, ..., psi, current, check_limited)` (equilibrium.py:98-153); `start` is the starting guess, for `psi=None`. The array
given by the caller is kept, not copied. An equilibrium whose making raised is not returned. -/
def create (s : Setup C K) (m : ℕ) (psi0 : Option Ref) (start : Arr K) (current : K) (checkLimited : Bool) (w : World C K) : Out C K :=
  let r := startArray psi0 start w
  let w := r.2
  let i := w.count
  let w := w.setEq i
    ⟨m, r.1, none, ⟨w.arrays r.1, current, checkLimited, none, none, none, none, none, false, none⟩⟩
  match updateBoundary s i (psi s.env (w.view i)) w with
  | (some x, w) => (some x, w)
  | (none, w) => (none, { w with count := i + 1 })

/-! ## Picard iteration -/

/-- `constrain(eq)`: it changes the currents of the machine of the equilibrium, and may raise. -/
abbrev Constrain (C K : Type u) := State C K → Option Err × C

/-- `constrain(eq)` on an equilibrium of the world (control.py:44-160). -/
def adjust (constrain : Option (Constrain C K)) (i : ℕ) (w : World C K) : Out C K :=
  match constrain with
  | none => (none, w)
  | some f =>
    let r := f (w.view i)
    (r.1, w.setMachine (w.eqs i).machine r.2)

/-- `eq.check_limited = cl; eq.solve(profiles, psi=psi, psi_bndry=b)` (picard.py:153-163); `psi` is a new array. -/
def picardSolve (s : Setup C K) (p : Profile C K) (i : ℕ) (cl : Bool) (psi : List K) (b : Option K) (w : World C K) : Out C K :=
  let w := w.setAttrs i { (w.eqs i).attrs with checkLimited := cl }
  let r := w.next
  solve s p i none (some r) b (w.alloc (ofValues s.ny psi))

/-- The total flux as a list of values. -/
def fluxValues (s : Setup C K) (i : ℕ) (w : World C K) : List K := values s.nx s.ny (psi s.env (w.view i))

/-- The local variables of `picard.solve` other than the equilibrium; see `Picard.Vars`. -/
structure Vars (K : Type u) where
  psi : List K
  iteration : ℤ
  bndry : K
  bndryChange : Option K
  hasBeenLimited : Bool

/-- One pass of the loop (picard.py:142-234): it raises or returns (`stop`), or goes on. -/
inductive Pass (C K : Type u) where
  | stop (o : Out C K)
  | more (w : World C K) (v : Vars K)

/-- The test of convergence (picard.py:165-217) after the linear solve, as in `Picard.body`. -/
def converged (o : Picard.Opts K) (v : Vars K) (a : Attrs K) (psi : List K) : Bool :=
  let bndryRelOk : Bool := match a.psiBndry with
    | some b => decide (b ≠ 0 ∧ |(v.bndry - b) / b| < o.rtol)
    | none => decide (2 * o.rtol < o.rtol)
  let bndryChange := match a.psiBndry with
    | some b => some (v.bndry - b)
    | none => v.bndryChange
  let bndryAbsOk : Bool := match bndryChange with
    | some c => decide (|c| < o.atol)
    | none => false
  let change := Picard.maxChange v.psi psi
  (decide (change < o.atol) || Picard.relOk change psi o.rtol) && (bndryRelOk || bndryAbsOk) && (!o.waitForLimited || a.isLimited)

/-- `if maxits and iteration > maxits` (picard.py:231). -/
def exceeded (o : Picard.Opts K) (iteration : ℤ) : Bool :=
  match o.maxits with
  | some m => decide (m ≠ 0 ∧ m < iteration)
  | none => false

/-- The body of the loop (picard.py:142-234). -/
def pass (s : Setup C K) (p : Profile C K) (constrain : Option (Constrain C K)) (o : Picard.Opts K) (i : ℕ) (w : World C K) (v : Vars K) :
    Pass C K :=
  let check : Bool := (decide (o.limitIt ≤ v.iteration) || v.hasBeenLimited) && o.checkLimited
  match picardSolve s p i check v.psi (if check then (w.eqs i).attrs.psiBndry else o.psiBndry) w with
  | (some x, w) => .stop (some x, w)
  | (none, w) =>
    let a := (w.eqs i).attrs
    if converged o v a (fluxValues s i w) then .stop (none, w)
    else
      match adjust constrain i w with
      | (some x, w) => .stop (some x, w)
      | (none, w) =>
        let psi := List.zipWith (fun x y => (1 - o.blend) * x + o.blend * y) (fluxValues s i w) v.psi
        let iteration := v.iteration + 1
        if exceeded o iteration then .stop (some .runtime, w)
        else .more w ⟨psi, iteration, a.psiBndry.getD v.bndry,
          (match a.psiBndry with | some b => some (v.bndry - b) | none => v.bndryChange), v.hasBeenLimited || a.isLimited⟩

/-- `while True:`, at most `fuel` passes; `none` if it is still going on. -/
def picardLoop (s : Setup C K) (p : Profile C K) (constrain : Option (Constrain C K)) (o : Picard.Opts K) (i : ℕ) :
    ℕ → World C K → Vars K → Option (Out C K)
  | 0, _, _ => none
  | fuel + 1, w, v =>
    match pass s p constrain o i w v with
    | .stop r => some r
    | .more w v => picardLoop s p constrain o i fuel w v

/-- `picard.solve(eq, profiles, constrain, ...)` (picard.py:84-236) within `fuel` passes. -/
def picard (s : Setup C K) (p : Profile C K) (constrain : Option (Constrain C K)) (o : Picard.Opts K) (i fuel : ℕ) (w : World C K) :
    Option (Out C K) :=
  match adjust constrain i w with
  | (some x, w) => some (some x, w)
  | (none, w) => picardLoop s p constrain o i fuel w ⟨fluxValues s i w, 0, 0, none, false⟩

/-! ## Histories -/

/-- What a caller can do: make an array, change one in place (`a[...] = v`), set the currents of a machine, make an equilibrium, solve. -/
inductive Call (C K : Type u) where
  | array (v : Arr K)
  | assign (r : Ref) (v : Arr K)
  | machine (m : ℕ) (c : C)
  | create (s : Setup C K) (m : ℕ) (psi0 : Option Ref) (start : Arr K) (current : K) (checkLimited : Bool)
  | solve (s : Setup C K) (p : Profile C K) (i : ℕ) (given psi0 : Option Ref) (psiBndry : Option K)
  | picard (s : Setup C K) (p : Profile C K) (constrain : Option (Constrain C K)) (o : Picard.Opts K) (i fuel : ℕ)

/-- The world after a call; an iteration that does not end is not followed by anything, and is left out. -/
def Call.run (w : World C K) : Call C K → World C K
  | .array v => w.alloc v
  | .assign r v => w.write r v
  | .machine m c => w.setMachine m c
  | .create s m psi0 start current cl => (Store.create s m psi0 start current cl w).2
  | .solve s p i given psi0 b => (Store.solve s p i given psi0 b w).2
  | .picard s p f o i fuel => ((Store.picard s p f o i fuel w).map Prod.snd).getD w

/-- The world after a sequence of calls, whether or not they raised. -/
def runAll (w : World C K) (l : List (Call C K)) : World C K := l.foldl Call.run w

end FreeGS.Store
