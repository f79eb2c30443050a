import Verif.Model.Machine
import Mathlib.LinearAlgebra.Matrix.Adjugate

/-!
# Model of `freegs/control.py`

The equilibrium is represented by its machine and its plasma field.  The optimisers of `scipy` are
arguments: arbitrary functions of the problem that is handed to them.
-/

namespace FreeGS.Control

variable {K : Type*} [Field K] [LinearOrder K]

/-- The part of an `Equilibrium` that the control system sees: the machine, and the plasma contribution to flux
and field (`psi_func`, `plasmaBr`, `plasmaBz`, equilibrium.py:233-247, 313-317). -/
structure Eq (K : Type*) where
  machine : Machine K
  plasma : Quantity → K → K → K

/-- `eq.Br`, `eq.Bz`, `eq.psiRZ` (equilibrium.py:249-259, 313-317): plasma plus machine; reading
synchronises the circuits. -/
def Eq.field (e : Env K) (q : Quantity) (R Z : K) (eq : Eq K) : K × Eq K :=
  let r := eq.machine.field e q R Z
  (eq.plasma q R Z + r.1, { eq with machine := r.2 })

/-- The arguments of `constrain(...)` (control.py:49-66). -/
structure Constrain (K : Type*) where
  xpoints : List (K × K) := []
  gamma : K
  isoflux : List (K × K × K × K) := []
  psivals : List (K × K × K) := []
  currentLims : Option (List (K × K)) := none
  maxTotal : Option K := none

/-- A row of the linear system: coefficients and right-hand side. -/
abbrev Row (K : Type*) := List K × K

/-- The loop over X-points (control.py:77-93): two rows each. -/
def xpointRows (e : Env K) : List (K × K) → Eq K → List (Row K) × Eq K
  | [], eq => ([], eq)
  | xpt :: rest, eq =>
    let br := eq.field e .br xpt.1 xpt.2
    let row1 : Row K := (br.2.machine.controlResponse e .br xpt.1 xpt.2, -br.1)
    let bz := br.2.field e .bz xpt.1 xpt.2
    let row2 : Row K := (bz.2.machine.controlResponse e .bz xpt.1 xpt.2, -bz.1)
    let r := xpointRows e rest bz.2
    (row1 :: row2 :: r.1, r.2)

/-- The loop over isoflux pairs `(r1, z1, r2, z2)` (control.py:96-107). -/
def isofluxRows (e : Env K) : List (K × K × K × K) → Eq K → List (Row K) × Eq K
  | [], eq => ([], eq)
  | (r1, z1, r2, z2) :: rest, eq =>
    let p1 := eq.field e .psi r1 z1
    let p2 := p1.2.field e .psi r2 z2
    let c := List.zipWith (fun a b => a - b) (p2.2.machine.controlResponse e .psi r1 z1)
      (p2.2.machine.controlResponse e .psi r2 z2)
    let r := isofluxRows e rest p2.2
    ((c, p2.1 - p1.1) :: r.1, r.2)

/-- The loop over flux values `(r, z, psi)` (control.py:110-116). -/
def psivalRows (e : Env K) : List (K × K × K) → Eq K → List (Row K) × Eq K
  | [], eq => ([], eq)
  | (r, z, psi) :: rest, eq =>
    let p1 := eq.field e .psi r z
    let t := psivalRows e rest p1.2
    ((p1.2.machine.controlResponse e .psi r z, psi - p1.1) :: t.1, t.2)

/-- All rows, in order (control.py:75-116). -/
def rows (e : Env K) (c : Constrain K) (eq : Eq K) : List (Row K) × Eq K :=
  let r1 := xpointRows e c.xpoints eq
  let r2 := isofluxRows e c.isoflux r1.2
  let r3 := psivalRows e c.psivals r2.2
  (r1.1 ++ r2.1 ++ r3.1, r3.2)

/-- `A.T A + gamma**2 * eye(n)` (control.py:133) from the rows of `A`. -/
def normalMatrix (rs : List (Row K)) (n : ℕ) (gamma : K) : Matrix (Fin n) (Fin n) K := fun i j =>
  (rs.map fun r => r.1.getD i 0 * r.1.getD j 0).sum + gamma ^ 2 * if i = j then 1 else 0

/-- `A.T b` (control.py:134). -/
def normalRhs (rs : List (Row K)) (n : ℕ) : Fin n → K := fun i =>
  (rs.map fun r => r.1.getD i 0 * r.2).sum

/-- `numpy.linalg.inv` in exact arithmetic: `LinAlgError` for a singular matrix, otherwise the inverse
(adjugate divided by determinant). -/
def inv {n : ℕ} (M : Matrix (Fin n) (Fin n) K) : Except Err (Matrix (Fin n) (Fin n) K) :=
  if M.det = 0 then .error .linalg else .ok (M.det⁻¹ • M.adjugate)

/-- The Tikhonov solution (control.py:132-135). -/
def tikhonov (rs : List (Row K)) (n : ℕ) (gamma : K) : Except Err (List K) :=
  match inv (normalMatrix rs n gamma) with
  | .error err => .error err
  | .ok M => .ok (List.ofFn (M.mulVec (normalRhs rs n)))

/-- The bounds on the current changes (control.py:142-156); `none` stands for `(-inf, inf)`. -/
def bounds (lims : Option (List (K × K))) (n : ℕ) (m : Machine K) : Except Err (List (Option (K × K))) :=
  match lims with
  | none => .ok (List.replicate n none)
  | some ls =>
    if ls.length = m.coils.length then
      .ok ((m.coils.zip ls).filterMap fun p =>
        if p.1.2.control then some (some (p.2.1 - p.1.2.current, p.2.2 - p.1.2.current)) else none)
    else .error .assertion

/-- A dot product as in `A2 @ x` (control.py:165). -/
def dot (a x : List K) : K := (List.zipWith (· * ·) a x).sum

/-- `|| A2 x - b2 ||^2` with the regularisation rows `gamma * eye` appended (control.py:159-165): the
square of the norm is the sum of squares. -/
def objective (rs : List (Row K)) (gamma : K) (x : List K) : K :=
  (rs.map fun r => (dot r.1 x - r.2) ^ 2).sum + (x.map fun v => (gamma * v - 0) ^ 2).sum

/-- `max_total_currents(x)` (control.py:170-174). -/
def totalSlack (current : List K) (maxTotal : K) (x : List K) : K :=
  -((List.zipWith (fun d i => |d + i|) x current).sum - maxTotal)

/-- The problem handed to `scipy.optimize.minimize` (control.py:181-185). -/
structure Problem (K : Type*) where
  objective : List K → K
  x0 : List K
  bounds : List (Option (K × K))
  ineq : List (List K → K)

/-- Everything up to the optimiser call: the problem, and the equilibrium after the field has been read
(control.py:68-178). -/
def problem (e : Env K) (c : Constrain K) (eq : Eq K) : Except Err (Problem K × Eq K) :=
  let rs := rows e c eq
  let n := (rs.2.machine.controlCurrents).length
  if rs.1.isEmpty then .error .value
  else
    match tikhonov rs.1 n c.gamma with
    | .error err => .error err
    | .ok x0 =>
      match bounds c.currentLims n rs.2.machine with
      | .error err => .error err
      | .ok bs => .ok (
        { objective := objective rs.1 c.gamma
          x0
          bounds := bs
          ineq := match c.maxTotal with
            | none => []
            | some t => [totalSlack rs.2.machine.controlCurrents t] }, rs.2)

/-- `constrain.__call__(eq)` (control.py:68-194): the current changes stored for the user and the
equilibrium afterwards. `opt` is SLSQP. -/
def call (e : Env K) (opt : Problem K → List K) (c : Constrain K) (eq : Eq K) :
    Except Err (List K × Eq K) :=
  match problem e c eq with
  | .error err => .error err
  | .ok (p, eq') =>
    if p.x0.length > 0 then
      let x := opt p
      .ok (x, { eq' with machine := eq'.machine.controlAdjust x })
    else .ok (p.x0, eq')

/-! ## Fits to a flux map -/

/-- The `weights` argument: a number or an array (flattened). -/
inductive Weights (K : Type*) where
  | scalar (w : K)
  | array (ws : List K)

/-- `numpy.average(a, weights=w)`: a scalar weight, or an array of another shape, raises `TypeError`; weights that
add to zero raise `ZeroDivisionError`. -/
def average (a : List K) : Weights K → Except Err K
  | .scalar _ => .error .type
  | .array ws =>
    if ws.length = a.length then
      if ws.sum = 0 then .error .zeroDivision else .ok ((List.zipWith (· * ·) a ws).sum / ws.sum)
    else .error .type

/-- Multiplication by the weights, with broadcasting of a scalar. -/
def Weights.apply (l : List K) : Weights K → List K
  | .scalar w => l.map (· * w)
  | .array ws => List.zipWith (· * ·) l ws

/-- `ConstrainPsi2D` (control.py:217-234). -/
structure Psi2D (K : Type*) where
  target : List K
  weights : Weights K

/-- `ConstrainPsi2D.__init__` (control.py:217-234). -/
def Psi2D.make (target : List K) (weights : Option (Weights K) := none) : Except Err (Psi2D K) :=
  let w := weights.getD (.array (List.replicate target.length 1))
  match average target w with
  | .error err => .error err
  | .ok av => .ok ⟨target.map (· - av), w⟩

/-- The grid data of an equilibrium: the tables of Green's functions (one per grid point) and the plasma flux
(equilibrium.py:296-302). -/
structure Grid (K : Type*) where
  tables : List (String → Option (Entry.Greens K))
  plasma : List K

/-- The loop over the grid points in `eq.psi()`: plasma flux plus `calcPsiFromGreens` (equilibrium.py:296-302). The
code evaluates whole arrays, here one point after the other. -/
def psiLoop (m : Machine K) : List (String → Option (Entry.Greens K)) → List K → Except Err (List K)
  | t :: ts, p :: ps =>
    match m.calcFromGreens t with
    | .error err => .error err
    | .ok v =>
      match psiLoop m ts ps with
      | .error err => .error err
      | .ok rest => .ok ((p + v.1) :: rest)
  | _, _ => .ok []

/-- `eq.psi()`. -/
def Grid.psi (g : Grid K) (m : Machine K) : Except Err (List K) := psiLoop m g.tables g.plasma

/-- The common part of both `psi_difference` methods: `(psi - average - target) * weights`
(control.py:258-263, 411-416). The machine is left with the given currents. -/
def difference (target : List K) (w : Weights K) (g : Grid K) (m : Machine K) (currents : List K) :
    Except Err (List K) :=
  match g.psi (m.setControlCurrents currents) with
  | .error err => .error err
  | .ok psi =>
    match average psi w with
    | .error err => .error err
    | .ok av => .ok (w.apply (List.zipWith (fun p t => p - av - t) psi target))

/-- `ConstrainPsi2D.psi_difference` (control.py:253-263). -/
def Psi2D.difference (c : Psi2D K) (g : Grid K) (m : Machine K) (currents : List K) :
    Except Err (List K) := Control.difference c.target c.weights g m currents

/-- `ConstrainPsi2D.__call__` (control.py:236-251); `lsq` is `scipy.optimize.leastsq`. -/
def Psi2D.call (lsq : (List K → Except Err (List K)) → List K → Except Err (List K)) (c : Psi2D K)
    (g : Grid K) (m : Machine K) : Except Err (Machine K) :=
  match lsq (c.difference g m) m.controlCurrents with
  | .error err => .error err
  | .ok x => .ok (m.setControlCurrents x)

/-- `ConstrainPsi2DAdvanced` (control.py:333-355); the argument `max_total_current` is not stored. -/
structure Psi2DAdvanced (K : Type*) where
  target : List K
  weights : Weights K
  currentLims : Option (List (K × K))

/-- `ConstrainPsi2DAdvanced.__init__` with its default arguments (control.py:333-355). -/
def Psi2DAdvanced.make (target : List K) (weights : Weights K := .scalar 1)
    (currentLims : Option (List (K × K)) := none) : Psi2DAdvanced K := ⟨target, weights, currentLims⟩

/-- `ConstrainPsi2DAdvanced.psi_difference` (control.py:406-419): the sum of squares. The update of the boundary flux
inside it (line 413) does not influence the result and is not modelled. -/
def Psi2DAdvanced.difference (c : Psi2DAdvanced K) (g : Grid K) (m : Machine K) (currents : List K) :
    Except Err K :=
  match Control.difference c.target c.weights g m currents with
  | .error err => .error err
  | .ok d => .ok (d.map fun x => x * x).sum

/-- Moving a start value into its bounds (control.py:369-376). -/
def clampStart (lim : K × K) (sc : K) : K :=
  let hi := max lim.1 lim.2
  let lo := min lim.1 lim.2
  if lo ≤ sc ∧ sc ≤ hi then sc else if sc < lo then lo else hi

/-- The loops over `range(ncontrols)` that clip the start values and build the bounds (control.py:368-388): pairs of
start value and bounds. `None` is not subscriptable (`TypeError`), a list that is too short raises
`IndexError`; limits beyond the number of controlled coils are ignored. Simplified: an array of integer currents cuts a limit
written into it to an integer, which is not modelled. -/
def advancedStart (lims : Option (List (K × K))) : List K → ℕ → Except Err (List (K × (K × K)))
  | [], _ => .ok []
  | sc :: rest, i =>
    match lims with
    | none => .error .type
    | some ls =>
      match ls[i]? with
      | none => .error .index
      | some lim =>
        match advancedStart (some ls) rest (i + 1) with
        | .error err => .error err
        | .ok r => .ok ((clampStart lim sc, (min lim.1 lim.2, max lim.1 lim.2)) :: r)

/-- `ConstrainPsi2DAdvanced.__call__` (control.py:357-404); `lbfgs` is `scipy.optimize.minimize` with method
L-BFGS-B, given objective, start values and bounds. With `difference` the normalised one this is also
`ConstrainPsiNorm2DAdvanced.__call__` (control.py:452-499), whose text is the same. -/
def advancedCall (lbfgs : (List K → Except Err K) → List K → List (K × K) → Except Err (List K))
    (difference : List K → Except Err K) (lims : Option (List (K × K))) (m : Machine K) :
    Except Err (Machine K) :=
  match advancedStart lims m.controlCurrents 0 with
  | .error err => .error err
  | .ok st =>
    match lbfgs difference (st.map Prod.fst) (st.map Prod.snd) with
    | .error err => .error err
    | .ok x => .ok (m.setControlCurrents x)

end FreeGS.Control
