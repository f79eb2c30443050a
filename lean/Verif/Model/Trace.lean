import Verif.Model.FieldTracer

/-!
# Following many field lines: `follow` and `traceFieldLines` of `freegs/fieldtracer.py`

The integrator `scipy.integrate.odeint` is a parameter. It works on one flat vector with radius, height and length of every line.
-/

namespace FreeGS.Tracer

open FreeGS.Critical (Domain linspaceAt findPsiSurface)

variable {K : Type*} [Field K] [LinearOrder K]

/-- A NumPy array: its shape, and its numbers in row-major order. -/
structure Nd (K : Type*) where
  shape : List ℕ
  data : List K

/-- `column_stack(…).flatten()` (fieldtracer.py:123, 140) of one-dimensional arrays: the three numbers of the first line, of the second,
and so on. -/
def flatten3 (l : List (K × K × K)) : List K := l.flatMap fun p => [p.1, p.2.1, p.2.2]

/-- `pos.reshape((-1, 3))` (fieldtracer.py:95). -/
def chunk3 : List K → List (K × K × K)
  | a :: b :: c :: rest => (a, b, c) :: chunk3 rest
  | _ => []

/-- The rates of all lines; the model does not go on if one of them is not a number. -/
def gather : List (Except Err (K × K × K)) → Except Err (List (K × K × K))
  | [] => .ok []
  | x :: xs =>
    match x, gather xs with
    | .ok v, .ok vs => .ok (v :: vs)
    | .error err, _ => .error err
    | _, .error err => .error err

/-- `fieldDirection` as `odeint` calls it (fieldtracer.py:91-123), with the flat vector of positions and the array `evolving`, which has
the shape of the array of starts. The mask of `updateEvolving` has one dimension: it is an index into `evolving` only if the first
dimension of `evolving` is the number of lines (`IndexError` otherwise). If `evolving` has further dimensions, `evolving * R` has the
square of that number of entries, and `odeint` refuses the vector returned (`RuntimeError`), unless there is one line only. -/
def callback (eq : Eq K) (backward : Bool) (shape : List ℕ) (y : List K) (evolving : List K) : Except Err (List K × List K) :=
  let pos := chunk3 y
  if shape.head? ≠ some pos.length then .error .index
  else if shape.length ≠ 1 ∧ pos.length ^ 2 ≠ pos.length then .error .runtime
  else
    let r := fieldDirection eq backward (pos.map fun p => (p.1, p.2.1)) evolving
    match gather r.1 with
    | .error err => .error err
    | .ok v => .ok (flatten3 v, r.2)

/-- `odeint(f, y0, angles, args=(evolving, …))`: the positions at the angles, or an exception. The array `evolving` is changed by every
evaluation of `f`. -/
abbrev Ode (K : Type*) :=
  (List K → List K → Except Err (List K × List K)) → (y0 evolving angles : List K) → Except Err (List (List K))

/-- The vector handed to `odeint` (fieldtracer.py:139-140). For starts in more than one dimension the order of the numbers is another
one, but the first evaluation fails whatever they are. -/
def startVector (R Z : List K) : List K := flatten3 (List.zipWith (fun r z => (r, z, 0)) R Z)

/-- `follow(Rstart, Zstart, angles, backward=…)` (fieldtracer.py:125-147): for each angle, for each line, radius, height and length.
`odeint` evaluates the function at the start before anything else. -/
def follow (ode : Ode K) (eq : Eq K) (R Z : Nd K) (angles : List K) (backward : Bool) : Except Err (List (List (K × K × K))) :=
  if Z.shape ≠ R.shape then .error .assertion
  else
    let y0 := startVector R.data Z.data
    let f := callback eq backward R.shape
    let evolving := List.replicate R.data.length (1 : K)
    match f y0 evolving with
    | .error err => .error err
    | .ok _ =>
      match ode f y0 evolving angles with
      | .error err => .error err
      | .ok rows => .ok (rows.map chunk3)

/-- `LineCoordinates` (fieldtracer.py:150-167): one row for each angle. -/
structure Lines (K : Type*) where
  R : List (List K)
  Z : List (List K)
  length : List (List K)
  deriving DecidableEq

/-- `line[:, :, 0]`, `line[:, :, 1]`, `line[:, :, 2]` (fieldtracer.py:230-236). -/
def toLines (l : List (List (K × K × K))) : Lines K :=
  ⟨l.map fun row => row.map fun p => p.1, l.map fun row => row.map fun p => p.2.1, l.map fun row => row.map fun p => p.2.2⟩

/-- A one-dimensional array. -/
def vector (l : List K) : Nd K := ⟨[l.length], l⟩

/-- `traceFieldLines` without plotting (fieldtracer.py:198-246). `opoints` are the O-points that `find_critical` finds, `psiBndry` the
attribute `psi_bndry` of the equilibrium, `norm a b` the spline through the flux normalised with axis value `a` and boundary value `b`
(`nan` if these are equal), `pi` the number π. -/
def traceFieldLines (ode : Ode K) (eq : Eq K) (opoints : List (K × K × K)) (psiBndry : Option K) (norm : K → K → K → K → K) (pi : K)
    (solwidth : K := 3 / 100) (nlines : ℕ := 10) (nturns : K := 50) (npoints : ℕ := 200) : Except Err (Lines K × Lines K) :=
  match opoints with
  | [] => .error .index
  | (r0, z0, psiAxis) :: _ =>
    match psiBndry with
    | none => .error .type
    | some pb =>
      if pb = psiAxis then .error .nonfinite
      else
        match findPsiSurface eq.dom (norm psiAxis pb) r0 z0 (r0 + 10) z0 1 100 with
        | .error err => .error err
        | .ok mid =>
          match startRadii mid.1 solwidth nlines with
          | .error err => .error err
          | .ok rstart =>
            let zstart := List.replicate nlines mid.2
            let angles := (List.range npoints).map (linspaceAt 0 (nturns * 2 * pi) npoints)
            match follow ode eq (vector rstart) (vector zstart) angles false with
            | .error err => .error err
            | .ok f =>
              match follow ode eq (vector rstart) (vector zstart) angles true with
              | .error err => .error err
              | .ok b => .ok (toLines f, toLines b)

end FreeGS.Tracer
