import Verif.Model.Equilibrium

/-!
# Specification: an equilibrium with all currents multiplied by a number
-/

namespace FreeGS.Equil

open FreeGS.GS FreeGS.Critical FreeGS.Jtor

universe u
variable {K : Type u} [Field K] [LinearOrder K] {C : Type u}

/-- The array multiplied by `k`. -/
def times (k : K) (a : Arr K) : Arr K := fun c => k * a c

/-- A critical point at the same place, with `k` times the flux. -/
def timesPoint (k : K) (p : Point K) : Point K := (p.1, p.2.1, k * p.2.2)

/-- The equilibrium with `k` times the flux and current: every flux, current and current density is multiplied by `k`, positions,
mask and flags are the same. `tok` multiplies the currents of the machine. -/
def scaled (k : K) (tok : C → C) (s : State C K) : State C K :=
  { tokamak := tok s.tokamak
    plasmaPsi := times k s.plasmaPsi
    spline := times k s.spline
    current := k * s.current
    jtor := s.jtor.map (times k)
    checkLimited := s.checkLimited
    psiAxis := s.psiAxis.map (k * ·)
    psiBndry := s.psiBndry.map (k * ·)
    psiXpt := s.psiXpt.map (k * ·)
    psiLimit := s.psiLimit.map (k * ·)
    contact := s.contact
    isLimited := s.isLimited
    mask := s.mask }

/-- The second environment is the first with `k` times the flux: same grid, `k` times the flux of the coils, and library routines that
scale. Only searches for critical points that succeed have to scale. -/
structure Scales (k : K) (tok : C → C) (e e' : Env C K) : Prop where
  mu0 : e'.mu0 = e.mu0
  nx : e'.nx = e.nx
  ny : e'.ny = e.ny
  R : e'.R = e.R
  Z : e'.Z = e.Z
  fixed : e'.fixed = e.fixed
  coils : ∀ t, e'.coilPsi (tok t) = times k (e.coilPsi t)
  limits : ∀ t, e'.limits (tok t) = e.limits t
  find : ∀ P o x, e.find P = .ok (o, x) → e'.find (times k P) = .ok (o.map (timesPoint k), x.map (timesPoint k))
  core : ∀ P o x b m, e.core P o x b = .ok m →
    e'.core (times k P) (o.map (timesPoint k)) (x.map (timesPoint k)) (b.map (k * ·)) = .ok m
  interp : ∀ P R Z, e'.interp (times k P) R Z = k * e.interp P R Z
  boundary : ∀ J P Q, e.boundary J P = .ok Q → e'.boundary (times k J) (times k P) = .ok (times k Q)
  solver : ∀ x b, e'.solver (times k x) (times k b) = times k (e.solver x b)

/-- The second profiles give `k` times the current density for `k` times the flux. For negative `k` only without looking at the limiter. -/
def ProfilesScale (k : K) (tok : C → C) (profiles profiles' : Profiles C K) : Prop :=
  ∀ s P b s' J, 0 < k ∨ s.checkLimited = false → profiles s P b = .ok (s', J) →
    s'.checkLimited = s.checkLimited ∧ profiles' (scaled k tok s) (times k P) (b.map (k * ·)) = .ok (scaled k tok s', times k J)

/-- The second control system, or its absence, does to the scaled equilibrium what the first does to the other. -/
def ControlScales (k : K) (tok : C → C) (f f' : Option (State C K → Except Err (State C K))) : Prop :=
  (f = none ∧ f' = none) ∨ ∃ g g', f = some g ∧ f' = some g' ∧ ∀ s s', g s = .ok s' → g' (scaled k tok s) = .ok (scaled k tok s')

/-- The options of the iteration with the absolute tolerance and the boundary flux scaled. -/
def scaledOpts (k : K) (o : Picard.Opts K) : Picard.Opts K := { o with atol := |k| * o.atol, psiBndry := o.psiBndry.map (k * ·) }

/-- The list of changes of the scaled iteration. -/
def scaledHist (k : K) (h : List (K × Option K)) : List (K × Option K) := h.map fun p => (|k| * p.1, p.2)

/-- `k` times the plasma current. The vacuum value of `f` does not influence the flux. -/
def scaledParams (k : K) (p : Params K) : Params K := { p with Ip := k * p.Ip, fvac := k * p.fvac }

/-- `k` times the given functions. -/
def scaledGiven (k : K) (g : Given K) : Given K :=
  { pprime := fun x => k * g.pprime x
    ffprime := fun x => k * g.ffprime x
    fvac := k * g.fvac
    pFunc := g.pFunc.map fun f x => k ^ 2 * f x
    fFunc := g.fFunc.map fun f x => k * f x }

end FreeGS.Equil
