import Verif.Spec.Control
import Verif.Spec.Scaling
import Verif.Model.Equilibrium

/-!
# Specification: the whole arrangement in another size

All lengths are multiplied by `l`, all currents are the same. Then fluxes are multiplied by `l`, fields divided by `l`, current densities and
pressures divided by `l ^ 2`.
-/

namespace FreeGS

variable {K : Type*} [Field K] [LinearOrder K]

/-- With all lengths multiplied by `l` the function of two points is multiplied by `c`. -/
def ScalesBy (l c : K) (G : K → K → K → K → K) : Prop := ∀ R Z R' Z', G (l * R) (l * Z) (l * R') (l * Z') = c * G R Z R' Z'

/-- The coil is not given by a table of its field. -/
def AnyCoil.Resizable : AnyCoil K → Prop
  | .precalc _ => False
  | _ => True

/-- All coils can be resized. -/
def Machine.Resizable (m : Machine K) : Prop :=
  ∀ x ∈ m.coils, match x.2 with
    | .coil c => c.Resizable
    | .circuit k => ∀ y ∈ k.coils, y.2.1.Resizable
    | .solenoid _ => True

/-- The coil with all its coordinates multiplied by `l`; areas, which only the forces use, by `l ^ 2`. -/
def AnyCoil.resize (l : K) : AnyCoil K → AnyCoil K
  | .point c => .point { c with R := l * c.R, Z := l * c.Z }
  | .shaped c => .shaped { c with
      rCentre := l * c.rCentre
      zCentre := l * c.zCentre
      area := l ^ 2 * c.area
      shape := c.shape.map fun p => (l * p.1, l * p.2)
      points := c.points.map fun q => (l * q.1, l * q.2.1, q.2.2) }
  | .filament c => .filament { c with
      rCentre := l * c.rCentre
      zCentre := l * c.zCentre
      area := l ^ 2 * c.area
      shape := c.shape.map fun p => (l * p.1, l * p.2)
      points := c.points.map fun p => (l * p.1, l * p.2) }
  | .multi c => .multi { c with Rfil := c.Rfil.map (l * ·), Zfil := c.Zfil.map (l * ·), rCentre := l * c.rCentre, zCentre := l * c.zCentre }
  | .precalc c => .precalc c

/-- A coil, all coils of a circuit, or a solenoid, in the other size. -/
def Entry.resize (l : K) : Entry K → Entry K
  | .coil c => .coil (c.resize l)
  | .circuit k => .circuit { k with coils := k.coils.map fun y => (y.1, y.2.1.resize l, y.2.2) }
  | .solenoid s => .solenoid { s with Rs := l * s.Rs, Zsmin := l * s.Zsmin, Zsmax := l * s.Zsmax }

/-- The machine in the other size, with the same currents. -/
def Machine.resize (l : K) (m : Machine K) : Machine K := ⟨m.coils.map fun x => (x.1, x.2.resize l)⟩

/-- The machine and the plasma in the other size: flux `l` times, field `1 / l` times. -/
def Control.Eq.resize (l : K) (eq : Control.Eq K) : Control.Eq K :=
  ⟨eq.machine.resize l, fun q R Z => match q with
    | .psi => l * eq.plasma .psi (R / l) (Z / l)
    | .br => eq.plasma .br (R / l) (Z / l) / l
    | .bz => eq.plasma .bz (R / l) (Z / l) / l⟩

/-- The same request in the other size: places multiplied by `l`, flux values by `l`, the regularisation by `g`. -/
def Control.Constrain.resize (l g : K) (c : Control.Constrain K) : Control.Constrain K :=
  { c with
    xpoints := c.xpoints.map fun p => (l * p.1, l * p.2)
    isoflux := c.isoflux.map fun p => (l * p.1, l * p.2.1, l * p.2.2.1, l * p.2.2.2)
    psivals := c.psivals.map fun p => (l * p.1, l * p.2.1, l * p.2.2)
    gamma := g * c.gamma }

end FreeGS

namespace FreeGS.Critical

variable {K : Type*} [Field K] [LinearOrder K]

/-- The absolute numbers in `find_critical`: a squared field (critical.py:117), and two squared lengths (critical.py:170, 221). -/
structure Tolerances (K : Type*) where
  field : K
  duplicate : K
  line : K

/-- The numbers in the code. -/
def codeTolerances : Tolerances K := ⟨1 / 1000000, 1 / 100000, 1 / 10000⟩

/-- The same tolerances relative to the size of the machine. -/
def Tolerances.resize (l : K) (t : Tolerances K) : Tolerances K := ⟨t.field / l ^ 2, l ^ 2 * t.duplicate, l ^ 2 * t.line⟩

/-- `newton` with another tolerance of the squared field. -/
def newtonWith (tol : K) (f : Spline K) (radiusSq R0 Z0 : K) : ℕ → K → K → Except Err (Option (K × K))
  | k, R1, Z1 =>
    if R1 = 0 then .ok none
    else if f.Br R1 Z1 ^ 2 + f.Bz R1 Z1 ^ 2 < tol then .ok (some (R1, Z1))
    else match k with
      | 0 => .ok none
      | k + 1 => match newtonStep f R1 Z1 with
        | .error err => .error err
        | .ok (R2, Z2) =>
          if (R2 - R0) ^ 2 + (Z2 - Z0) ^ 2 > radiusSq ∨ k = 0 then .ok none
          else newtonWith tol f radiusSq R0 Z0 k R2 Z2

/-- `candidate` with another tolerance. -/
def candidateWith (tol : K) (g : Mesh K) (f : Spline K) (psi : ℕ × ℕ → K) (i j : ℕ) : Except Err (Option (Bool × Point K)) :=
  let radiusSq := 9 * ((g.R 1 - g.R 0) ^ 2 + (g.Z 1 - g.Z 0) ^ 2)
  if isLocalMin (fun i j => f.Bp2 (g.R i) (g.Z j)) i j then
    match newtonWith tol f radiusSq (g.R i) (g.Z j) 101 (g.R i) (g.Z j) with
    | .error err => .error err
    | .ok none => .ok none
    | .ok (some (R1, Z1)) => .ok (some (decide (discriminant g psi i j < 0), R1, Z1, f.f R1 Z1))
  else .ok none

/-- `candidates` with another tolerance. -/
def candidatesWith (tol : K) (g : Mesh K) (f : Spline K) (psi : ℕ × ℕ → K) : List (ℕ × ℕ) → Except Err (List (Bool × Point K))
  | [] => .ok []
  | (i, j) :: rest =>
    match candidateWith tol g f psi i j with
    | .error err => .error err
    | .ok c => match candidatesWith tol g f psi rest with
      | .error err => .error err
      | .ok l => .ok (match c with
        | none => l
        | some p => p :: l)

/-- `removeDupLoop` with another distance. -/
def removeDupLoopWith (tol : K) : List (Point K) → List (Point K) → List (Point K)
  | result, [] => result
  | result, p :: ps =>
    if result.any fun p2 => decide (dist2 p p2 < tol) then removeDupLoopWith tol result ps
    else removeDupLoopWith tol (result ++ [p]) ps

/-- `keepX` with another distance. -/
def keepXWith (tol : K) (f : Spline K) (o x : Point K) : Bool :=
  let r := linspaceAt o.1 x.1 50
  let z := linspaceAt o.2.1 x.2.1 50
  let p0 : ℕ → K := fun k => f.f (r k) (z k)
  let p : ℕ → K := if x.2.2 < o.2.2 then fun k => p0 k * -1 else p0
  let maxp := maxLoop p 49
  let num := maxp - p 49
  let den := maxp - p 0
  let drop := if den = 0 then decide (num > 0) else decide (num / den > 1 / 1000)
  let ind := argmin p 50
  !drop && !decide ((r ind - o.1) ^ 2 + (z ind - o.2.1) ^ 2 > tol)

/-- `find_critical` with other numbers in place of its three tolerances. With `codeTolerances` it is `findCritical`
(`findCriticalWith_code`). -/
def findCriticalWith (t : Tolerances K) (g : Mesh K) (f : Spline K) (psi : ℕ × ℕ → K) (discard : Bool := true) :
    Except Err (List (Point K) × List (Point K)) :=
  match candidatesWith t.field g f psi (interior g.nx g.ny) with
  | .error err => .error err
  | .ok cs =>
    let xpoint := removeDupLoopWith t.duplicate [] ((cs.filter fun c => c.1).map Prod.snd)
    let opoint := removeDupLoopWith t.duplicate [] ((cs.filter fun c => !c.1).map Prod.snd)
    match opoint with
    | [] => .ok ([], xpoint)
    | o :: os =>
      let Rmid := 1 / 2 * (g.R (g.nx - 1) + g.R 0)
      let Zmid := 1 / 2 * (g.Z (g.ny - 1) + g.Z 0)
      match sortBy (fun p => (p.1 - Rmid) ^ 2 + (p.2.1 - Zmid) ^ 2) (o :: os) with
      | [] => .error .index
      | o :: os =>
        let xpoint := if discard then xpoint.filter (keepXWith t.line f o) else xpoint
        .ok (o :: os, sortBy (fun p => (p.2.2 - o.2.2) ^ 2) xpoint)

/-- The second spline is that of the flux in the other size. -/
structure Spline.Resized (l : K) (f f' : Spline K) : Prop where
  flux : ∀ R Z, f'.f (l * R) (l * Z) = l * f.f R Z
  dR : ∀ R Z, f'.dR (l * R) (l * Z) = f.dR R Z
  dZ : ∀ R Z, f'.dZ (l * R) (l * Z) = f.dZ R Z
  dRR : ∀ R Z, f'.dRR (l * R) (l * Z) = f.dRR R Z / l
  dRZ : ∀ R Z, f'.dRZ (l * R) (l * Z) = f.dRZ R Z / l
  dZZ : ∀ R Z, f'.dZZ (l * R) (l * Z) = f.dZZ R Z / l

end FreeGS.Critical

namespace FreeGS.Equil

open FreeGS.GS FreeGS.Critical FreeGS.Jtor

universe u
variable {K : Type u} [Field K] [LinearOrder K] {C : Type u}

/-- A critical point in the other size. -/
def resizePoint (l : K) (p : Point K) : Point K := (l * p.1, l * p.2.1, l * p.2.2)

/-- The equilibrium in the other size: `l` times the flux, the same plasma current, the current density divided by `l ^ 2`. -/
def resized (l : K) (tok : C → C) (s : State C K) : State C K :=
  { tokamak := tok s.tokamak
    plasmaPsi := times l s.plasmaPsi
    spline := times l s.spline
    current := s.current
    jtor := s.jtor.map (times (1 / l ^ 2))
    checkLimited := s.checkLimited
    psiAxis := s.psiAxis.map (l * ·)
    psiBndry := s.psiBndry.map (l * ·)
    psiXpt := s.psiXpt.map (l * ·)
    psiLimit := s.psiLimit.map (l * ·)
    contact := s.contact.map fun q => (l * q.1, l * q.2)
    isLimited := s.isLimited
    mask := s.mask }

/-- The second environment is the first in another size. -/
structure Resizes (l : K) (tok : C → C) (e e' : Env C K) : Prop where
  mu0 : e'.mu0 = e.mu0
  nx : e'.nx = e.nx
  ny : e'.ny = e.ny
  R : ∀ i, e'.R i = l * e.R i
  Z : ∀ j, e'.Z j = l * e.Z j
  fixed : e'.fixed = e.fixed
  coils : ∀ t, e'.coilPsi (tok t) = times l (e.coilPsi t)
  limits : ∀ t, e'.limits (tok t) = (e.limits t).map fun w => w.map fun q => (l * q.1, l * q.2)
  find : ∀ P o x, e.find P = .ok (o, x) → e'.find (times l P) = .ok (o.map (resizePoint l), x.map (resizePoint l))
  core : ∀ P o x b m, e.core P o x b = .ok m →
    e'.core (times l P) (o.map (resizePoint l)) (x.map (resizePoint l)) (b.map (l * ·)) = .ok m
  interp : ∀ P R Z, e'.interp (times l P) (l * R) (l * Z) = l * e.interp P R Z
  boundary : ∀ J P Q, e.boundary J P = .ok Q → e'.boundary (times (1 / l ^ 2) J) (times l P) = .ok (times l Q)
  solver : ∀ x r b, e'.solver (times l x) (setEdge e.nx e.ny (times (1 / l) r) (times l b)) = times l (e.solver x (setEdge e.nx e.ny r b))

/-- The second profiles do to the resized equilibrium what the first do to the other. -/
def ProfilesResize (l : K) (tok : C → C) (profiles profiles' : Profiles C K) : Prop :=
  ∀ s P b s' J, profiles s P b = .ok (s', J) →
    profiles' (resized l tok s) (times l P) (b.map (l * ·)) = .ok (resized l tok s', times (1 / l ^ 2) J)

/-- The second control system, or its absence, does to the resized equilibrium what the first does to the other. -/
def ControlResizes (l : K) (tok : C → C) (f f' : Option (State C K → Except Err (State C K))) : Prop :=
  (f = none ∧ f' = none) ∨ ∃ g g', f = some g ∧ f' = some g' ∧ ∀ s s', g s = .ok s' → g' (resized l tok s) = .ok (resized l tok s')

/-- The same plasma current, vacuum value of `f` and shape; the reference radius multiplied by `l`. -/
def resizedParams (l : K) (p : Params K) : Params K := { p with Raxis := l * p.Raxis }

/-- `p'` divided by `l ^ 3`, `f f'` by `l`, the pressure by `l ^ 2`; `f` is the same. -/
def resizedGiven (l : K) (g : Given K) : Given K :=
  { pprime := fun x => g.pprime x / l ^ 3
    ffprime := fun x => g.ffprime x / l
    fvac := g.fvac
    pFunc := g.pFunc.map fun f x => f x / l ^ 2
    fFunc := g.fFunc }

end FreeGS.Equil
