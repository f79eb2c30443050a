import Verif.Model.Critical

/-!
# Field line tracing: `freegs/fieldtracer.py`

A line is followed by `scipy.integrate.odeint`, which calls `fieldDirection` at positions of its own choice. The integrator is not
modelled: a trace is any sequence of evaluations. The array `evolving` is shared between them.
-/

namespace FreeGS.Tracer

open FreeGS.Critical (Domain linspaceAt)

variable {K : Type*} [Field K] [LinearOrder K]

/-- What the tracer reads from the equilibrium: the field components at a point, the domain and the wall; `sqrt` is `numpy.sqrt`. -/
structure Eq (K : Type*) where
  Br : K → K → K
  Bz : K → K → K
  Btor : K → K → K
  dom : Domain K
  wall : Option (List (K × K))
  sqrt : K → K

/-- `eqDomain` at one point (fieldtracer.py:28-41). -/
def eqDomain (d : Domain K) (R Z ev : K) : K :=
  if R < d.Rmin + 1 / 100 ∨ R > d.Rmax - 1 / 100 ∨ Z < d.Zmin + 1 / 100 ∨ Z > d.Zmax - 1 / 100 then 0 else ev

/-- The test for one side of the wall, from `p` to `q` (fieldtracer.py:65-88). With `det = 0` the quotients are not numbers, but the
first test fails already. -/
def crosses (mid x p q : K × K) : Bool :=
  let a := x.1 - mid.1
  let b := q.1 - p.1
  let c := x.2 - mid.2
  let d := q.2 - p.2
  let dr := q.1 - mid.1
  let dz := q.2 - mid.2
  let det := a * d - b * c
  let alpha := (d * dr - b * dz) / det
  let beta := (a * dz - c * dr) / det
  decide (|det| > 1 / 1000000) && decide (alpha > 0) && decide (alpha < 1) && decide (beta > 0) && decide (beta < 1)

/-- The middle of the domain (fieldtracer.py:53-54). -/
def middle (d : Domain K) : K × K := (1 / 2 * (d.Rmin + d.Rmax), 1 / 2 * (d.Zmin + d.Zmax))

/-- The loop over the sides of the wall (fieldtracer.py:57-88). -/
def outside (wall : List (K × K)) (mid x : K × K) : Bool :=
  (List.range wall.length).foldl
    (fun o i => xor o (crosses mid x (wall.getD i (0, 0)) (wall.getD ((i + 1) % wall.length) (0, 0)))) false

/-- `wallDomain` at one point (fieldtracer.py:43-89). -/
def wallDomain (d : Domain K) (wall : List (K × K)) (R Z ev : K) : K := if outside wall (middle d) (R, Z) then 0 else ev

/-- `updateEvolving`, chosen in `__init__` (fieldtracer.py:21-26). A `Wall` object is always true, also without points. -/
def updateEvolving (eq : Eq K) (R Z ev : K) : K :=
  match eq.wall with
  | some w => wallDomain eq.dom w R Z ev
  | none => eqDomain eq.dom R Z ev

/-- The rates of change of one line (fieldtracer.py:100-123), with the flag already updated. `Btor = 0` gives `inf` or `nan`. -/
def rates (eq : Eq K) (backward : Bool) (R Z ev : K) : Except Err (K × K × K) :=
  let Br := eq.Br R Z
  let Bz := eq.Bz R Z
  let Btor := eq.Btor R Z
  let B := eq.sqrt (Br ^ 2 + Bz ^ 2 + Btor ^ 2)
  if Btor = 0 then .error .nonfinite
  else
    let f := ev * R / Btor
    if backward then .ok (f * Br * -1, f * Bz * -1, f * B) else .ok (f * Br, f * Bz, f * B)

/-- `fieldDirection` (fieldtracer.py:91-123) for all lines: positions `(R, Z)` and flags in, rates and flags out. The lengths are not
used. -/
def fieldDirection (eq : Eq K) (backward : Bool) (pos : List (K × K)) (evolving : List K) : List (Except Err (K × K × K)) × List K :=
  let ev := List.zipWith (fun p e => updateEvolving eq p.1 p.2 e) pos evolving
  (List.zipWith (fun p e => rates eq backward p.1 p.2 e) pos ev, ev)

/-- The flags after a sequence of evaluations, starting as in `follow` (fieldtracer.py:137) or from any flags. -/
def flags (eq : Eq K) (backward : Bool) (evolving : List K) (evals : List (List (K × K))) : List K :=
  evals.foldl (fun ev pos => (fieldDirection eq backward pos ev).2) evolving

/-- The starting radii of `traceFieldLines` (fieldtracer.py:221): `solwidth / 0` raises `ZeroDivisionError`. -/
def startRadii (rmid solwidth : K) (nlines : ℕ) : Except Err (List K) :=
  if nlines = 0 then .error .zeroDivision
  else .ok ((List.range nlines).map (linspaceAt (rmid + solwidth / nlines) (rmid + solwidth) nlines))

end FreeGS.Tracer
