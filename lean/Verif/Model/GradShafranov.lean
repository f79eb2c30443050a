import Verif.Model.Critical
import Mathlib.Algebra.BigOperators.Group.Finset.Basic

/-!
# Model of the Grad-Shafranov operators in `freegs/gradshafranov.py`, of the direct solver and of the
boundary conditions

A two-dimensional array is a function of the index pair; only indices below the sizes matter.  A matrix is
a function of row and column.
-/

namespace FreeGS.GS

open FreeGS.Critical (Domain linspaceAt)

variable {K : Type*} [Field K] [LinearOrder K]

/-- A two-dimensional array `a[x, y]`. -/
abbrev Arr (K : Type*) := ℕ × ℕ → K

/-- Assignment to one element. -/
def Arr.set (a : Arr K) (c : ℕ × ℕ) (v : K) : Arr K := Function.update a c v

/-- `reshape(a, -1)` of an array with `ny` columns (multigrid.py:40). -/
def flat (ny : ℕ) (a : Arr K) : ℕ → K := fun r => a (r / ny, r % ny)

/-- `reshape(v, (nx, ny))` (multigrid.py:44). -/
def unflat (ny : ℕ) (v : ℕ → K) : Arr K := fun c => v (c.1 * ny + c.2)

/-- The points visited by `for x in range(1, nx - 1): for y in range(1, ny - 1)`. -/
def isInterior (nx ny : ℕ) (c : ℕ × ℕ) : Bool :=
  decide (1 ≤ c.1 ∧ c.1 + 1 < nx ∧ 1 ≤ c.2 ∧ c.2 + 1 < ny)

/-- `GSElliptic(Rmin)(psi, dR, dZ)` (gradshafranov.py:57-88). -/
def elliptic (Rmin dR dZ : K) (nx ny : ℕ) (psi : Arr K) : Arr K := fun c =>
  if isInterior nx ny c then
    let invdR2 := 1 / dR ^ 2
    let invdZ2 := 1 / dZ ^ 2
    let R := Rmin + dR * c.1
    psi (c.1, c.2 - 1) * invdZ2 + (invdR2 + 1 / (2 * R * dR)) * psi (c.1 - 1, c.2)
      - 2 * (invdR2 + invdZ2) * psi c + (invdR2 - 1 / (2 * R * dR)) * psi (c.1 + 1, c.2)
      + psi (c.1, c.2 + 1) * invdZ2
  else 0

/-- Grid spacing in `R` (gradshafranov.py:116, 204); `nx = 1` raises `ZeroDivisionError` in Python, the model is meant
for `nx ≥ 2`. -/
def spacingR (d : Domain K) (nx : ℕ) : K := (d.Rmax - d.Rmin) / ((nx : K) - 1)
/-- Grid spacing in `Z` (gradshafranov.py:117, 205). -/
def spacingZ (d : Domain K) (ny : ℕ) : K := (d.Zmax - d.Zmin) / ((ny : K) - 1)

/-- A row of `eye(N)`. -/
def eyeRow (row : ℕ) : ℕ → K := fun c => if c = row then 1 else 0

/-- The row written for the interior point `(x, y)` (gradshafranov.py:129-147), in order of assignment. -/
def gsRow (d : Domain K) (nx ny x y : ℕ) : ℕ → K :=
  let dR := spacingR d nx
  let dZ := spacingZ d ny
  let invdR2 := 1 / dR ^ 2
  let invdZ2 := 1 / dZ ^ 2
  let R := d.Rmin + dR * x
  let row := x * ny + y
  let A := eyeRow row
  let A := Function.update A (row - 1) invdZ2
  let A := Function.update A (row - ny) (invdR2 + 1 / (2 * R * dR))
  let A := Function.update A row (-2 * (invdR2 + invdZ2))
  let A := Function.update A (row + ny) (invdR2 - 1 / (2 * R * dR))
  Function.update A (row + 1) invdZ2

/-- `GSsparse(Rmin, Rmax, Zmin, Zmax)(nx, ny)` (gradshafranov.py:98-150). Each row is written in one round of the loop, so
the matrix is given row by row. -/
def gsSparse (d : Domain K) (nx ny : ℕ) : ℕ → ℕ → K := fun row =>
  if isInterior nx ny (row / ny, row % ny) then gsRow d nx ny (row / ny) (row % ny) else eyeRow row

/-- Matrix times vector. -/
def matVec (N : ℕ) (A : ℕ → ℕ → K) (v : ℕ → K) : ℕ → K := fun r => ∑ c ∈ Finset.range N, A r c * v c

/-! ## Fourth-order matrix -/

/-- `centred_1st` (gradshafranov.py:162). -/
def centred1 : List (ℤ × K) := [(-2, 1 / 12), (-1, -8 / 12), (1, 8 / 12), (2, -1 / 12)]
/-- `offset_1st` (gradshafranov.py:164-170). -/
def offset1 : List (ℤ × K) := [(-1, -3 / 12), (0, -10 / 12), (1, 18 / 12), (2, -6 / 12), (3, 1 / 12)]
/-- `centred_2nd` (gradshafranov.py:174-180). -/
def centred2 : List (ℤ × K) := [(-2, -1 / 12), (-1, 16 / 12), (0, -30 / 12), (1, 16 / 12), (2, -1 / 12)]
/-- `offset_2nd` (gradshafranov.py:182-189). -/
def offset2 : List (ℤ × K) :=
  [(-1, 10 / 12), (0, -15 / 12), (1, -4 / 12), (2, 14 / 12), (3, -6 / 12), (4, 1 / 12)]

/-- The entries `A[row, column] += value` of the Z derivative (gradshafranov.py:221-234): columns and values. -/
def zOps (ny y : ℕ) (row : ℤ) (invdZ2 : K) : List (ℤ × K) :=
  if y = 1 then offset2.map fun p => (row + p.1, p.2 * invdZ2)
  else if y + 2 = ny then offset2.map fun p => (row - p.1, p.2 * invdZ2)
  else centred2.map fun p => (row + p.1, p.2 * invdZ2)

/-- The entries of the R derivatives (gradshafranov.py:236-256). -/
def rOps (nx ny x : ℕ) (row : ℤ) (R dR invdR2 : K) : List (ℤ × K) :=
  if x = 1 then
    (offset2.map fun p => (row + p.1 * ny, p.2 * invdR2)) ++
      offset1.map fun p => (row + p.1 * ny, -(p.2 / (R * dR)))
  else if x + 2 = nx then
    (offset2.map fun p => (row - p.1 * ny, p.2 * invdR2)) ++
      offset1.map fun p => (row - p.1 * ny, p.2 / (R * dR))
  else
    (centred2.map fun p => (row + p.1 * ny, p.2 * invdR2)) ++
      centred1.map fun p => (row + p.1 * ny, -(p.2 / (R * dR)))

/-- All entries of the row of `(x, y)` in order. -/
def gs4Ops (d : Domain K) (nx ny : ℕ) (c : ℕ × ℕ) : List (ℤ × K) :=
  let dR := spacingR d nx
  let dZ := spacingZ d ny
  let row : ℤ := c.1 * ny + c.2
  zOps ny c.2 row (1 / dZ ^ 2) ++ rOps nx ny c.1 row (d.Rmin + dR * c.1) dR (1 / dR ^ 2)

/-- A column index that scipy accepts: `-N ≤ c < N`; others raise `IndexError`. -/
def inRange (N : ℕ) (c : ℤ) : Bool := decide (-(N : ℤ) ≤ c ∧ c < N)

/-- Negative column indices count from the end. -/
def wrap (N : ℕ) (c : ℤ) : ℕ := (if c < 0 then c + N else c).toNat

/-- `A[row, column] += value` on one row. -/
def addEntry (N : ℕ) (A : ℕ → K) (p : ℤ × K) : ℕ → K :=
  Function.update A (wrap N p.1) (A (wrap N p.1) + p.2)

/-- The interior points in loop order. -/
def interiorCells (nx ny : ℕ) : List (ℕ × ℕ) :=
  (List.range' 1 (nx - 2)).flatMap fun x => (List.range' 1 (ny - 2)).map fun y => (x, y)

/-- `GSsparse4thOrder(Rmin, Rmax, Zmin, Zmax)(nx, ny)` (gradshafranov.py:197-269), row by row: `IndexError` if any
column is out of range. -/
def gs4Sparse (d : Domain K) (nx ny : ℕ) : Except Err (ℕ → ℕ → K) :=
  if (interiorCells nx ny).all fun c => (gs4Ops d nx ny c).all fun p => inRange (nx * ny) p.1 then
    .ok fun row =>
      if isInterior nx ny (row / ny, row % ny) then
        (gs4Ops d nx ny (row / ny, row % ny)).foldl (addEntry (nx * ny)) fun _ => 0
      else eyeRow row
  else .error .index

/-! ## Direct solver and linear solve -/

/-- `MGDirect.__call__` (multigrid.py:39-44); `solve` is the function returned by `scipy.sparse.linalg.factorized`. -/
def mgDirect (solve : (ℕ → K) → ℕ → K) (ny : ℕ) (b : Arr K) : Arr K := unflat ny (solve (flat ny b))

/-- `a[0, :] = f; a[:, 0] = f; a[-1, :] = f; a[:, -1] = f` with the values of another array at the same places
(equilibrium.py:491-494, boundary.py:44-47, 132-135). The slices are assigned one after the other, but the values do
not depend on `a`. -/
def setEdge (nx ny : ℕ) (a f : Arr K) : Arr K :=
  let a : Arr K := fun c => if c.1 = 0 then f c else a c
  let a : Arr K := fun c => if c.2 = 0 then f c else a c
  let a : Arr K := fun c => if c.1 = nx - 1 then f c else a c
  fun c => if c.2 = ny - 1 then f c else a c

/-- The linear part of `Equilibrium.solve` (equilibrium.py:482-499): apply the boundary function, form the right-hand side, call the
solver. `R` is the array of major radii. -/
def solve (mu0 : K) (nx ny : ℕ) (R : ℕ → K) (boundary : Arr K → Arr K → Arr K) (solver : Arr K → Arr K → Arr K)
    (Jtor plasmaPsi : Arr K) : Arr K :=
  let plasmaPsi := boundary Jtor plasmaPsi
  let rhs : Arr K := fun c => -mu0 * R c.1 * Jtor c
  solver plasmaPsi (setEdge nx ny rhs plasmaPsi)

/-! ## Boundary conditions -/

/-- `fixedBoundary` (boundary.py:29-47). -/
def fixedBoundary (nx ny : ℕ) (psi : Arr K) : Arr K := setEdge nx ny psi fun _ => 0

/-- The list of boundary indices, corners twice (boundary.py:81-88). -/
def edgeIndices (nx ny : ℕ) : List (ℕ × ℕ) :=
  (List.range nx).map (fun x => (x, 0)) ++ (List.range nx).map (fun x => (x, ny - 1)) ++
    (List.range ny).map (fun y => (0, y)) ++ (List.range ny).map (fun y => (nx - 1, y))

/-- The first column of the Romberg table of `scipy.integrate.romb(y)` with unit spacing: `N` intervals, `i` halvings of the
trapezium rule, the sum over `y[start:N:step]` with `start = N >> i`, `step = N >> (i - 1)`. -/
def rombTrap (y : ℕ → K) (N : ℕ) : ℕ → K
  | 0 => (y 0 + y N) / 2 * N
  | i + 1 => 1 / 2 * (rombTrap y N i +
      (N : K) / 2 ^ i * ((List.range (2 ^ i)).map fun m => y (N / 2 ^ (i + 1) + m * (N / 2 ^ i))).sum)

/-- Column `j` of the Romberg table, row `i`. -/
def rombTable (y : ℕ → K) (N : ℕ) : ℕ → ℕ → K
  | 0, i => rombTrap y N i
  | j + 1, i => rombTable y N j i + (rombTable y N j i - rombTable y N j (i - 1)) / (4 ^ (j + 1) - 1)

/-- The loop `while n < Ninterv: n <<= 1; k += 1` of scipy's `romb`; the first argument bounds the number of
rounds (`Ninterv` are enough). -/
def rombLevels (N : ℕ) : ℕ → ℕ → ℕ → ℕ × ℕ
  | 0, n, k => (n, k)
  | fuel + 1, n, k => if n < N then rombLevels N fuel (2 * n) (k + 1) else (n, k)

/-- `scipy.integrate.romb(y)` for `n` samples: `ValueError` unless `n - 1` is a power of two. The library is outside the
repository; this follows its published algorithm. -/
def romb (y : ℕ → K) (n : ℕ) : Except Err K :=
  let (m, k) := rombLevels (n - 1) (n - 1) 1 0
  if m = n - 1 then .ok (rombTable y (n - 1) k k) else .error .value

/-- `romb(romb(a))` (boundary.py:99, equilibrium.py:504, jtor.py): first along the rows, then over the results. -/
def romb2 (nx ny : ℕ) (a : Arr K) : Except Err K :=
  match romb (fun _ => (0 : K)) ny with
  | .error err => .error err
  | .ok _ => romb (fun x => ((romb (fun y => a (x, y)) ny).toOption).getD 0) nx

/-- The value given to the boundary point `c` (boundary.py:90-99): `G` is `Greens`, its value at the point itself is
replaced by zero. -/
def edgeFlux (G : K → K → K → K → K) (nx ny : ℕ) (R Z : ℕ → K) (Jtor : Arr K) (c : ℕ × ℕ) : Except Err K :=
  let green : Arr K := fun p => G (R p.1) (Z p.2) (R c.1) (Z c.2)
  let green := green.set c 0
  match romb2 nx ny fun p => green p * Jtor p with
  | .error err => .error err
  | .ok v => .ok (v * (R 1 - R 0) * (Z 1 - Z 0))

/-- A loop `for x, y in indices: psi[x, y] = value(x, y)`. -/
def assignLoop (value : ℕ × ℕ → Except Err K) : List (ℕ × ℕ) → Arr K → Except Err (Arr K)
  | [], psi => .ok psi
  | c :: rest, psi =>
    match value c with
    | .error err => .error err
    | .ok v => assignLoop value rest (psi.set c v)

/-- `freeBoundary(eq, Jtor, psi)` (boundary.py:50-99). The model returns the changed array instead of changing it in
place; with an error the array keeps the values assigned so far, which is not modelled. -/
def freeBoundary (G : K → K → K → K → K) (nx ny : ℕ) (R Z : ℕ → K) (Jtor psi : Arr K) : Except Err (Arr K) :=
  assignLoop (edgeFlux G nx ny R Z Jtor) (edgeIndices nx ny) psi

/-! ## von Hagenow's method -/

/-- `coeffs` (boundary.py:144). -/
def hagenowCoeffs : List (ℕ × K) := [(0, 25 / 12), (1, -4), (2, 3), (3, -16 / 12), (4, 1 / 4)]

/-- `sum([weight * u(index) for index, weight in coeffs])` (boundary.py:146-185). -/
def hagenowSum (u : ℕ → K) : K := (hagenowCoeffs.map fun p => p.2 * u p.1).sum

/-- The four arrays of normal derivatives `dUdn_L`, `dUdn_R` (indexed by `y`), `dUdn_D`, `dUdn_U` (indexed by
`x`). -/
structure Normal (K : Type*) where
  L : ℕ → K
  R : ℕ → K
  D : ℕ → K
  U : ℕ → K

/-- Differentiation at the boundary (boundary.py:146-185); index `-(1 + i)` of an array of length `n` is
`n - 1 - i` (for `n ≥ 5`; smaller arrays raise `IndexError`). `dd` is the diagonal spacing. The corner values are assigned in the order
of the code, both names at once. -/
def hagenowNormal (nx ny : ℕ) (dR dZ dd : K) (u : Arr K) : Normal K :=
  let L : ℕ → K := fun y => hagenowSum (fun i => u (i, y)) / dR
  let R : ℕ → K := fun y => hagenowSum (fun i => u (nx - 1 - i, y)) / dR
  let D : ℕ → K := fun x => hagenowSum (fun i => u (x, i)) / dZ
  let U : ℕ → K := fun x => hagenowSum (fun i => u (x, ny - 1 - i)) / dZ
  let ld := hagenowSum (fun i => u (i, i)) / dd
  let lu := hagenowSum (fun i => u (i, ny - 1 - i)) / dd
  let rd := hagenowSum (fun i => u (nx - 1 - i, i)) / dd
  let ru := hagenowSum (fun i => u (nx - 1 - i, ny - 1 - i)) / dd
  { L := Function.update (Function.update L 0 ld) (ny - 1) lu
    R := Function.update (Function.update R 0 rd) (ny - 1) ru
    D := Function.update (Function.update D 0 ld) (nx - 1) rd
    U := Function.update (Function.update U 0 lu) (nx - 1) ru }

/-- The four loop integrals for one observation point (boundary.py:214-229). -/
def hagenowIntegral (G : K → K → K → K → K) (nx ny : ℕ) (R Z : ℕ → K) (n : Normal K) (Rpos Zpos : K) :
    Except Err K :=
  let dR := R 1 - R 0
  let dZ := Z 1 - Z 0
  match romb (fun y => G (R 0) (Z y) Rpos Zpos * n.L y / R 0) ny,
    romb (fun y => G (R (nx - 1)) (Z y) Rpos Zpos * n.R y / R (nx - 1)) ny,
    romb (fun x => G (R x) (Z 0) Rpos Zpos * n.D x / R x) nx,
    romb (fun x => G (R x) (Z (ny - 1)) Rpos Zpos * n.U x / R x) nx with
  | .ok l, .ok r, .ok d, .ok u => .ok (l * dZ + r * dZ + d * dR + u * dR)
  | .error err, _, _, _ => .error err
  | _, .error err, _, _ => .error err
  | _, _, .error err, _ => .error err
  | _, _, _, .error err => .error err

/-- The boundary indices with the displacement of the observation point (boundary.py:189-203). -/
def hagenowPoints (nx ny : ℕ) : List ((ℕ × ℕ) × K × K) :=
  (List.range nx).map (fun x => ((x, 0), 0, -(1 / 100))) ++
    (List.range nx).map (fun x => ((x, ny - 1), 0, 1 / 100)) ++
    (List.range ny).map (fun y => ((0, y), -(1 / 100), 0)) ++
    (List.range ny).map (fun y => ((nx - 1, y), 1 / 100, 0))

/-- The loop over boundary points (boundary.py:206-231). -/
def hagenowLoop (value : K → K → Except Err K) (R Z : ℕ → K) : List ((ℕ × ℕ) × K × K) → Arr K → Except Err (Arr K)
  | [], psi => .ok psi
  | (c, er, ez) :: rest, psi =>
    match value (R c.1 + er) (Z c.2 + ez) with
    | .error err => .error err
    | .ok v => hagenowLoop value R Z rest (psi.set c v)

/-- `freeBoundaryHagenow(eq, Jtor, psi)` (boundary.py:102-231); `solver` is `eq.callSolver`. Grids with fewer than five points
in a direction raise `IndexError` in the differences. -/
def freeBoundaryHagenow (sqrt : K → K) (G : K → K → K → K → K) (solver : Arr K → Arr K → Arr K) (nx ny : ℕ)
    (R Z : ℕ → K) (Jtor psi : Arr K) : Except Err (Arr K) :=
  let dR := R 1 - R 0
  let dZ := Z 1 - Z 0
  let rhs : Arr K := fun c => R c.1 * Jtor c
  let u := solver psi (setEdge nx ny rhs fun _ => 0)
  if nx < 5 ∨ ny < 5 then .error .index
  else
    let n := hagenowNormal nx ny dR dZ (sqrt (dR ^ 2 + dZ ^ 2)) u
    hagenowLoop (hagenowIntegral G nx ny R Z n) R Z (hagenowPoints nx ny) psi

end FreeGS.GS
