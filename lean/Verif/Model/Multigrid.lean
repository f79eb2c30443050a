import Verif.Model.GradShafranov

/-!
# Model of the multigrid solver in `freegs/multigrid.py`

A two-dimensional array with its shape is a `Grid`; the reshaped one-dimensional arrays are functions of the index. The solver changes
the array of the starting guess in place (multigrid.py:76, 87); the model returns the new values only. Numpy's broadcasting of arrays of
size one to other sizes is not followed: any two sizes that differ are a `ValueError`.
-/

namespace FreeGS.MG

open FreeGS.GS

variable {K : Type*} [Field K] [LinearOrder K]

/-- A two-dimensional array with its shape; only the values at indices below the sizes matter. -/
structure Grid (K : Type*) where
  nx : ℕ
  ny : ℕ
  val : Arr K

/-- A square sparse matrix of size `N`. -/
structure Mat (K : Type*) where
  N : ℕ
  e : ℕ → ℕ → K

/-- `zeros([nx, ny])`. -/
def zeros (nx ny : ℕ) : Grid K := ⟨nx, ny, fun _ => 0⟩

/-- `(nx - 1) % 2 == 1 or (ny - 1) % 2 == 1` (multigrid.py:125, 185): `nx - 1` is odd if `nx` is even. -/
def odd (nx ny : ℕ) : Bool := decide ((nx + 1) % 2 = 1 ∨ (ny + 1) % 2 = 1)

/-- `(n - 1) // 2 + 1` for a positive `n` (multigrid.py:132, 194). -/
def half (n : ℕ) : ℕ := (n - 1) / 2 + 1

/-- `restrict(orig, avg=avg)` without an output array (multigrid.py:166-222). The lines beginning with `+(` are statements of their own
and change nothing. -/
def restrict (orig : Grid K) (avg : Bool := false) : Grid K :=
  if odd orig.nx orig.ny then orig
  else
    let nx := half orig.nx
    let ny := half orig.ny
    let out : Arr K := fun c => if isInterior nx ny c then orig.val (2 * c.1, 2 * c.2) / 4 else 0
    ⟨nx, ny, if avg then out else fun c => out c * 4⟩

/-- `a[c] += v`. -/
def addAt (a : Arr K) (c : ℕ × ℕ) (v : K) : Arr K := a.set c (a c + v)

/-- The body of the loops of `interpolate` (multigrid.py:242-255). -/
def interpStep (orig : Arr K) (out : Arr K) (p : ℕ × ℕ) : Arr K :=
  let x0 := 2 * p.1
  let y0 := 2 * p.2
  let out := addAt out (x0 - 1, y0 - 1) (1 / 4 * orig p)
  let out := addAt out (x0 - 1, y0) (1 / 2 * orig p)
  let out := addAt out (x0 - 1, y0 + 1) (1 / 4 * orig p)
  let out := addAt out (x0, y0 - 1) (1 / 2 * orig p)
  let out := out.set (x0, y0) (orig p)
  let out := addAt out (x0, y0 + 1) (1 / 2 * orig p)
  let out := addAt out (x0 + 1, y0 - 1) (1 / 4 * orig p)
  let out := addAt out (x0 + 1, y0) (1 / 2 * orig p)
  addAt out (x0 + 1, y0 + 1) (1 / 4 * orig p)

/-- `interpolate(orig)` without an output array (multigrid.py:225-257). -/
def interpolate (orig : Grid K) : Grid K :=
  ⟨2 * (orig.nx - 1) + 1, 2 * (orig.ny - 1) + 1,
    (interiorCells orig.nx orig.ny).foldl (interpStep orig.val) fun _ => 0⟩

/-- A loop `for i in range(n): x = f(x)`. -/
def repeatE {α : Type*} (f : α → Except Err α) : ℕ → α → Except Err α
  | 0, x => .ok x
  | n + 1, x =>
    match f x with
    | .error err => .error err
    | .ok y => repeatE f n y

/-- `x += (b - self.A.dot(x)) / self.diag` (multigrid.py:87, 107). A zero on the diagonal gives inf or nan. -/
def jacobiStep (A : Mat K) (b x : ℕ → K) : Except Err (ℕ → K) :=
  if (List.range A.N).any fun i => decide (A.e i i = 0) then .error .nonfinite
  else .ok fun i => x i + (b i - matVec A.N A.e x i) / A.e i i

/-- The objects returned by `createVcycle`: `MGDirect` with the result of `factorized(A)` (multigrid.py:35-37), `MGJacobi` without and
with a `subsolver` (multigrid.py:47-65). -/
inductive Solver (K : Type*) where
  | direct (N : ℕ) (solve : (ℕ → K) → ℕ → K)
  | smooth (A : Mat K) (ncycle niter : ℕ)
  | cycle (A : Mat K) (ncycle niter : ℕ) (sub : Solver K)

/-- `reshape(x, -1)`. -/
def Grid.flat (g : Grid K) : ℕ → K := GS.flat g.ny g.val

/-- The coarse correction (multigrid.py:89-103) to the one-dimensional `x` of an array with the shape `nx`, `ny`; `sub` is the call of
`self.subsolver`. -/
def correction (A : Mat K) (nx ny : ℕ) (b : ℕ → K) (sub : Grid K → Grid K → Except Err (Grid K)) (x : ℕ → K) :
    Except Err (ℕ → K) :=
  let error : ℕ → K := fun i => b i - matVec A.N A.e x i
  let subB := restrict ⟨nx, ny, unflat ny error⟩
  match sub (zeros subB.nx subB.ny) subB with
  | .error err => .error err
  | .ok subX =>
    let xupdate := interpolate subX
    if xupdate.nx * xupdate.ny = nx * ny then .ok fun i => x i + xupdate.flat i
    else .error .value

/-- One round of the loop over cycles (multigrid.py:85-107). -/
def oneCycle (A : Mat K) (niter : ℕ) (b : ℕ → K) (middle : (ℕ → K) → Except Err (ℕ → K)) (x : ℕ → K) : Except Err (ℕ → K) :=
  match repeatE (jacobiStep A b) niter x with
  | .error err => .error err
  | .ok x1 =>
    match middle x1 with
    | .error err => .error err
    | .ok x2 => repeatE (jacobiStep A b) niter x2

/-- The loop over cycles, and the shape of the result (multigrid.py:75-84, 109); the checks of the sizes are those made by numpy in the
arithmetic. -/
def cycles (A : Mat K) (ncycle niter : ℕ) (middle : (ℕ → K) → (ℕ → K) → Except Err (ℕ → K)) (x b : Grid K) : Except Err (Grid K) :=
  if x.nx * x.ny = A.N ∧ b.nx * b.ny = A.N then
    match repeatE (oneCycle A niter b.flat (middle b.flat)) ncycle x.flat with
    | .error err => .error err
    | .ok v => .ok ⟨x.nx, x.ny, unflat x.ny v⟩
  else .error .value

/-- `solver(x, b)`: `MGDirect.__call__` (multigrid.py:39-44) and `MGJacobi.__call__` without optional arguments
(multigrid.py:67-109). -/
def run : Solver K → Grid K → Grid K → Except Err (Grid K)
  | .direct N solve, _, b =>
    if b.nx * b.ny = N then .ok ⟨b.nx, b.ny, unflat b.ny (solve b.flat)⟩ else .error .value
  | .smooth A ncycle niter, x, b => cycles A ncycle niter (fun _ v => .ok v) x b
  | .cycle A ncycle niter sub, x, b => cycles A ncycle niter (fun bv => correction A x.nx x.ny bv (run sub)) x b

/-- The lowest level of `createVcycle` (multigrid.py:147-150); `factor` is `scipy.sparse.linalg.factorized`. -/
def lowest (factor : Mat K → Except Err ((ℕ → K) → ℕ → K)) (direct : Bool) (A : Mat K) (ncycle niter : ℕ) : Except Err (Solver K) :=
  if direct then
    match factor A with
    | .error err => .error err
    | .ok solve => .ok (.direct A.N solve)
  else .ok (.smooth A ncycle niter)

/-- `createVcycle(nx, ny, generator, nlevels, ncycle, niter, direct)` (multigrid.py:112-150). The levels below the first are made with the
default `ncycle = 1`. -/
def createVcycle (gen : ℕ → ℕ → Except Err (Mat K)) (factor : Mat K → Except Err ((ℕ → K) → ℕ → K)) (niter : ℕ) (direct : Bool) :
    (nlevels nx ny ncycle : ℕ) → Except Err (Solver K)
  | 0, nx, ny, ncycle | 1, nx, ny, ncycle =>
    match gen nx ny with
    | .error err => .error err
    | .ok A => lowest factor direct A ncycle niter
  | nlevels + 2, nx, ny, ncycle =>
    if odd nx ny then
      match gen nx ny with
      | .error err => .error err
      | .ok A => lowest factor direct A ncycle niter
    else
      match createVcycle gen factor niter direct (nlevels + 1) (half nx) (half ny) 1 with
      | .error err => .error err
      | .ok sub =>
        match gen nx ny with
        | .error err => .error err
        | .ok A => .ok (.cycle A ncycle niter sub)

/-- `GSsparse(Rmin, Rmax, Zmin, Zmax)` as a generator: `nx = 1` or `ny = 1` raises `ZeroDivisionError` (gradshafranov.py:116-117). -/
def gsGen (d : FreeGS.Critical.Domain K) (nx ny : ℕ) : Except Err (Mat K) :=
  if nx = 1 ∨ ny = 1 then .error .zeroDivision else .ok ⟨nx * ny, gsSparse d nx ny⟩

/-- `Equilibrium.setSolverVcycle(nlevels, ncycle, niter, direct)` (equilibrium.py:155-176). -/
def setSolverVcycle (d : FreeGS.Critical.Domain K) (factor : Mat K → Except Err ((ℕ → K) → ℕ → K)) (nx ny nlevels ncycle niter : ℕ)
    (direct : Bool) : Except Err (Solver K) :=
  createVcycle (gsGen d) factor niter direct nlevels nx ny ncycle

/-! ## The functions that use an operator instead of a matrix -/

/-- An operator as `LaplacianOp` or `GSElliptic`: its action on an array with given spacing, and its diagonal. -/
structure Op (K : Type*) where
  apply : K → K → Grid K → Arr K
  diag : K → K → ℕ × ℕ → K

/-- `LaplacianOp` (multigrid.py:312-335). -/
def laplacianOp : Op K where
  apply := fun dx dy f c =>
    if isInterior f.nx f.ny c then
      (f.val (c.1 - 1, c.2) - 2 * f.val c + f.val (c.1 + 1, c.2)) / dx ^ 2
        + (f.val (c.1, c.2 - 1) - 2 * f.val c + f.val (c.1, c.2 + 1)) / dy ^ 2
    else 0
  diag := fun dx dy _ => -2 / dx ^ 2 - 2 / dy ^ 2

/-- `smoothJacobi(A, x, b, dx, dy)` (multigrid.py:153-163). -/
def smoothJacobi (A : Op K) (dx dy : K) (b x : Grid K) : Except Err (Grid K) :=
  if b.nx ≠ x.nx ∨ b.ny ≠ x.ny then .error .value
  else if (List.range x.nx).any fun i => (List.range x.ny).any fun j => decide (A.diag dx dy (i, j) = 0) then .error .nonfinite
  else .ok ⟨x.nx, x.ny, fun c => x.val c + (b.val c - A.apply dx dy x c) / A.diag dx dy c⟩

/-- `smoothVcycle(A, x, b, dx, dy, niter, sublevels)` (multigrid.py:260-291). -/
def smoothVcycle (A : Op K) (niter : ℕ) : (sublevels : ℕ) → K → K → Grid K → Grid K → Except Err (Grid K)
  | 0, dx, dy, x, b =>
    match repeatE (smoothJacobi A dx dy b) niter x with
    | .error err => .error err
    | .ok x => repeatE (smoothJacobi A dx dy b) niter x
  | sublevels + 1, dx, dy, x, b =>
    match repeatE (smoothJacobi A dx dy b) niter x with
    | .error err => .error err
    | .ok x =>
      if b.nx ≠ x.nx ∨ b.ny ≠ x.ny then .error .value
      else
        let cerror := restrict ⟨x.nx, x.ny, fun c => b.val c - A.apply dx dy x c⟩
        match smoothVcycle A niter sublevels (dx * 2) (dy * 2) (zeros cerror.nx cerror.ny) cerror with
        | .error err => .error err
        | .ok cx =>
          let xupdate := interpolate cx
          if xupdate.nx = x.nx ∧ xupdate.ny = x.ny then
            repeatE (smoothJacobi A dx dy b) niter ⟨x.nx, x.ny, fun c => x.val c + xupdate.val c⟩
          else .error .value

/-- `smoothMG(A, x, b, dx, dy, niter, sublevels, ncycle)` (multigrid.py:294-309), without the printed residuals. -/
def smoothMG (A : Op K) (niter sublevels ncycle : ℕ) (dx dy : K) (x b : Grid K) : Except Err (Grid K) :=
  repeatE (fun x => smoothVcycle A niter sublevels dx dy x b) ncycle x

/-- The row of the interior point `(x, y)` in `LaplaceSparse` (multigrid.py:352-365), in order of assignment. -/
def laplaceRow (dx dy : K) (ny x y : ℕ) : ℕ → K :=
  let row := x * ny + y
  let A := eyeRow row
  let A := Function.update A row (-2 / dx ^ 2 - 2 / dy ^ 2)
  let A := Function.update A (row - 1) (1 / dy ^ 2)
  let A := Function.update A (row + 1) (1 / dy ^ 2)
  let A := Function.update A (row - ny) (1 / dx ^ 2)
  Function.update A (row + ny) (1 / dx ^ 2)

/-- `LaplaceSparse(Lx, Ly)(nx, ny)` (multigrid.py:338-367), row by row; `nx = 1` or `ny = 1` raises `ZeroDivisionError`. -/
def laplaceSparse (Lx Ly : K) (nx ny : ℕ) : Except Err (Mat K) :=
  if nx = 1 ∨ ny = 1 then .error .zeroDivision
  else
    let dx := Lx / ((nx : K) - 1)
    let dy := Ly / ((ny : K) - 1)
    .ok ⟨nx * ny, fun row => if isInterior nx ny (row / ny, row % ny) then laplaceRow dx dy ny (row / ny) (row % ny) else eyeRow row⟩

end FreeGS.MG
