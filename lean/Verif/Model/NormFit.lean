import Verif.Model.Equilibrium
import Verif.Model.Control

/-!
# Fits of the coil currents to a normalised flux map (`ConstrainPsiNorm2D`, `ConstrainPsiNorm2DAdvanced`, control.py:266-325, 422-520)

The optimisers of `scipy` call back: which currents they try next depends on the answers so far. They are modelled as trees, so that every
terminating optimiser is covered.
-/

namespace FreeGS.Equil

open FreeGS.GS

universe u
variable {K : Type u} [Field K] [LinearOrder K] {C : Type u}

/-- A terminating optimiser of functions of the currents with values in `A`: it stops with a result, or asks for the value at some
currents and goes on as the answer suggests. -/
inductive Search (K A : Type u) where
  | stop (x : List K)
  | ask (x : List K) (next : A → Search K A)

/-- An optimiser at work on a function that changes the equilibrium; exceptions pass through. -/
def Search.run {A : Type u} (f : State C K → List K → Except Err (State C K × A)) :
    Search K A → State C K → Except Err (State C K × List K)
  | .stop x, s => .ok (s, x)
  | .ask x next, s =>
    match f s x with
    | .error err => .error err
    | .ok (s', r) => (next r).run f s'

/-- How the equilibrium's machine is controlled: `controlCurrents()` and `setControlCurrents(currents)` (machine.py:787-801). -/
structure Controls (C K : Type u) where
  get : C → List K
  set : C → List K → C

/-- The attributes of both classes (control.py:284-285, 448-450). `weights` is an array on the grid; a number, as the default 1.0, stands
for the constant array. Target and weights are taken to have the shape of the grid. -/
structure NormFit (K : Type u) where
  target : Arr K
  weights : Arr K

/-- The common part of both `psinorm_difference` methods (control.py:310-325, 506-518): the currents are set, axis and boundary flux updated;
the weighted differences in the order of the grid. Without O-point so far the attributes do not exist (`AttributeError`), a boundary
flux that is `None` cannot be subtracted from (`TypeError`). After an exception the state is lost, which is a simplification. -/
def normDifference (e : Env C K) (ctl : Controls C K) (f : NormFit K) (s : State C K) (currents : List K) :
    Except Err (State C K × List K) :=
  let s1 := { s with tokamak := ctl.set s.tokamak currents }
  let flux := psi e s1
  match updateBoundary e s1 flux with
  | .error err => .error err
  | .ok s2 =>
    match s2.psiAxis, s2.psiBndry with
    | none, _ => .error .attribute
    | some _, none => .error .type
    | some a, some b =>
      if b - a = 0 then .error .nonfinite
      else .ok (s2, values e.nx e.ny fun c => ((flux c - a) / (b - a) - f.target c) * f.weights c)

/-- `ConstrainPsiNorm2D.__call__(eq)` (control.py:287-303); `lsq` is `leastsq` from its start values. -/
def normFit (e : Env C K) (ctl : Controls C K) (f : NormFit K) (lsq : List K → Search K (List K)) (s : State C K) :
    Except Err (State C K) :=
  match (lsq (ctl.get s.tokamak)).run (normDifference e ctl f) s with
  | .error err => .error err
  | .ok (s', x) => .ok { s' with tokamak := ctl.set s'.tokamak x }

/-- `ConstrainPsiNorm2DAdvanced.psinorm_difference` (control.py:501-520): the sum of squares. -/
def normSquares (e : Env C K) (ctl : Controls C K) (f : NormFit K) (s : State C K) (currents : List K) : Except Err (State C K × K) :=
  match normDifference e ctl f s currents with
  | .error err => .error err
  | .ok (s', d) => .ok (s', (d.map fun x => x * x).sum)

/-- `ConstrainPsiNorm2DAdvanced.__call__(eq)` (control.py:452-499); `lbfgs` is L-BFGS-B from its start values and bounds. -/
def normFitAdvanced (e : Env C K) (ctl : Controls C K) (f : NormFit K) (lims : Option (List (K × K)))
    (lbfgs : List K → List (K × K) → Search K K) (s : State C K) : Except Err (State C K) :=
  match Control.advancedStart lims (ctl.get s.tokamak) 0 with
  | .error err => .error err
  | .ok st =>
    match (lbfgs (st.map Prod.fst) (st.map Prod.snd)).run (normSquares e ctl f) s with
    | .error err => .error err
    | .ok (s', x) => .ok { s' with tokamak := ctl.set s'.tokamak x }

end FreeGS.Equil
