import Verif.Model.Critical
import Mathlib.Analysis.SpecialFunctions.Complex.Arg

/-!
# Flux surfaces and safety factor: `find_separatrix`, `find_safety` (critical.py:384-545), `Equilibrium.q`, `Equilibrium.separatrix`
(equilibrium.py:338-376, 436-443)

Numbers are real. `RectBivariateSpline` is a parameter that turns the values on the grid into a function. Where numpy would go on with
infinite values the model returns `nonfinite`.
-/

namespace FreeGS.Separatrix

open FreeGS.Critical (Domain Point findPsiSurface)
open Real (pi)

/-- What the two functions read from the equilibrium: limits of the domain, flux on the grid, `psi_bndry` (`None` before the first
solve), the spline, the field on the domain, `fpol`, and the extents `np.ptp(R)`, `np.ptp(Z)` of the grid. -/
structure Eq where
  dom : Domain ℝ
  psi : ℕ × ℕ → ℝ
  bndry : Option ℝ
  spline : (ℕ × ℕ → ℝ) → ℝ → ℝ → ℝ
  Br : ℝ → ℝ → ℝ
  Bz : ℝ → ℝ → ℝ
  fpol : ℝ → ℝ
  ptpR : ℝ
  ptpZ : ℝ

/-- `linspace(0, 2 * pi, ntheta, endpoint=False)[j]` (critical.py:413, 479). -/
noncomputable def theta0 (ntheta j : ℕ) : ℝ := j * (2 * pi / ntheta)

/-- `arctan2(xpoint[0][0] - r0, xpoint[0][1] - z0)`, moved to `[0, 2 pi)` (critical.py:417-420, 483-486). -/
noncomputable def xpointTheta (o x : Point ℝ) : ℝ :=
  let t := Complex.arg ⟨x.2.1 - o.2.1, x.1 - o.1⟩
  if 0 ≤ t then t else t + 2 * pi

/-- `any(abs(theta_grid - xpoint_theta) < TOLERANCE)` (critical.py:423, 490). -/
def tooClose (ntheta : ℕ) (xt : ℝ) : Prop := ∃ j < ntheta, |theta0 ntheta j - xt| < 1 / 1000

open Classical in
/-- The grid of angles, shifted by half a step if it comes close to the X-point (critical.py:413-425, 479-492). -/
noncomputable def thetaGrid (ntheta : ℕ) (xt : ℝ) (j : ℕ) : ℝ :=
  if tooClose ntheta xt then theta0 ntheta j + 2 * pi / ntheta / 2 else theta0 ntheta j

/-- `(psi - psi_axis) / (other - psi_axis)` on the grid. -/
noncomputable def normalise (psi : ℕ × ℕ → ℝ) (axis other : ℝ) : ℕ × ℕ → ℝ := fun c => (psi c - axis) / (other - axis)

/-- The loop over the angles: the points found by `search`, or the first exception. -/
def collect {α : Type} (search : ℕ → Except Err α) : ℕ → Except Err (List α)
  | 0 => .ok []
  | k + 1 =>
    match collect search k with
    | .error err => .error err
    | .ok l =>
      match search k with
      | .error err => .error err
      | .ok p => .ok (l ++ [p])

/-- One point of the loop in `find_separatrix` (critical.py:428-440): position found on the ray, position of the X-point. -/
noncomputable def rayPoint (d : Domain ℝ) (f : ℝ → ℝ → ℝ) (o x : Point ℝ) (psival t : ℝ) : Except Err (ℝ × ℝ × ℝ × ℝ) :=
  match findPsiSurface d f o.1 o.2.1 (o.1 + 10 * Real.sin t) (o.2.1 + 10 * Real.cos t) psival 1000 with
  | .error err => .error err
  | .ok p => .ok (p.1, p.2, x.1, x.2.1)

/-- `find_separatrix(eq, opoint, xpoint, ntheta, psi, psival)` (critical.py:384-442), with the flux and the critical points given or
computed. `psi - None` raises `TypeError`, an empty list of points and `theta_grid[1]` of a shorter grid raise `IndexError`. -/
noncomputable def findSeparatrix (eq : Eq) (opoint xpoint : List (Point ℝ)) (ntheta : ℕ) (psival : ℝ := 1) :
    Except Err (List (ℝ × ℝ × ℝ × ℝ)) :=
  match opoint, eq.bndry with
  | [], _ => .error .index
  | _ :: _, none => .error .type
  | o :: _, some b =>
    if b - o.2.2 = 0 then .error .nonfinite
    else if ntheta < 2 then .error .index
    else
      match xpoint with
      | [] => .error .index
      | x :: _ =>
        collect (fun j => rayPoint eq.dom (eq.spline (normalise eq.psi o.2.2 b)) o x psival (thetaGrid ntheta (xpointTheta o x) j)) ntheta

/-- `eq.separatrix(npoints)` (equilibrium.py:436-443); `opoint`, `xpoint` are the result of `find_critical` on `eq.psi()`. -/
noncomputable def separatrix (eq : Eq) (opoint xpoint : List (Point ℝ)) (npoints : ℕ) : Except Err (List (ℝ × ℝ)) :=
  match findSeparatrix eq opoint xpoint npoints with
  | .error err => .error err
  | .ok l => .ok (l.map fun p => (p.1, p.2.1))

/-- The point at angle index `j` of the surface `psin` in `find_safety` (critical.py:508-522). -/
noncomputable def surfacePoint (eq : Eq) (f : ℝ → ℝ → ℝ) (o : Point ℝ) (theta : ℕ → ℝ) (psin : ℝ) (j : ℕ) : Except Err (ℝ × ℝ) :=
  findPsiSurface eq.dom f o.1 o.2.1 (o.1 + eq.ptpR * Real.sin (theta j)) (o.2.1 + eq.ptpZ * Real.cos (theta j)) psin 100

/-- `np.roll(a, 1)[j]` for an array of length `n`. -/
def prev (n j : ℕ) : ℕ := (j + n - 1) % n

/-- `np.roll(a, -1)[j]` for an array of length `n`. -/
def next (n j : ℕ) : ℕ := (j + 1) % n

/-- The distance between points, `dl` (critical.py:532-537). -/
noncomputable def dl (pts : ℕ → ℝ × ℝ) (n j : ℕ) : ℝ :=
  √((((pts (prev n j)).1 - (pts (next n j)).1) / 2) ^ 2 + (((pts (prev n j)).2 - (pts (next n j)).2) / 2) ^ 2)

/-- `Bthe` (critical.py:528-530). -/
noncomputable def bpol (eq : Eq) (p : ℝ × ℝ) : ℝ := √(eq.Br p.1 p.2 ^ 2 + eq.Bz p.1 p.2 ^ 2)

open Classical in
/-- `q` of one surface (critical.py:524-543). -/
noncomputable def qSurface (eq : Eq) (psin : ℝ) (pts : ℕ → ℝ × ℝ) (n : ℕ) : Except Err ℝ :=
  if ∃ j < n, (pts j).1 ^ 2 * bpol eq (pts j) = 0 then .error .nonfinite
  else .ok ((∑ j ∈ Finset.range n, eq.fpol psin / ((pts j).1 ^ 2 * bpol eq (pts j)) * dl pts n j) / (2 * pi))

/-- The loop over the surfaces. In numpy all surfaces are found before the first integral; this matters only for which of two exceptions
is raised. -/
noncomputable def safetyLoop (eq : Eq) (f : ℝ → ℝ → ℝ) (o : Point ℝ) (theta : ℕ → ℝ) (ntheta : ℕ) : List ℝ → Except Err (List ℝ)
  | [] => .ok []
  | psin :: rest =>
    match collect (surfacePoint eq f o theta psin) ntheta with
    | .error err => .error err
    | .ok pts =>
      match qSurface eq psin (fun j => pts.getD j (0, 0)) ntheta with
      | .error err => .error err
      | .ok q =>
        match safetyLoop eq f o theta ntheta rest with
        | .error err => .error err
        | .ok qs => .ok (q :: qs)

/-- `find_safety(eq, psinorm=psirange, ntheta, opoint, xpoint)` (critical.py:445-545) for a list of values. -/
noncomputable def findSafety (eq : Eq) (opoint xpoint : List (Point ℝ)) (psirange : List ℝ) (ntheta : ℕ := 128) : Except Err (List ℝ) :=
  match xpoint, opoint with
  | [], _ => .error .value
  | _ :: _, [] => .error .index
  | x :: _, o :: _ =>
    if x.2.2 - o.2.2 = 0 then .error .nonfinite
    else if ntheta < 2 then .error .index
    else
      safetyLoop eq (eq.spline (normalise eq.psi o.2.2 x.2.2)) o (thetaGrid ntheta (xpointTheta o x)) ntheta psirange

/-- The values of normalised flux that `q()` uses (equilibrium.py:357-360; critical.py:494-496 with 100 values):
`linspace(1/(npsi+1), 1, npsi, endpoint=False)`. -/
noncomputable def innerValues (npsi : ℕ) : List ℝ :=
  (List.range npsi).map fun k : ℕ => 1 / (npsi + 1) + k * ((1 - 1 / (npsi + 1)) / npsi)

/-- The argument `psinorm` of `q`: absent, a number, a Python list, an array. -/
inductive Arg where
  | absent
  | number (x : ℝ)
  | list (l : List ℝ)
  | array (l : List ℝ)

/-- The values used for extrapolation: `np.linspace(0.01, 0.99, num=npsi)` (equilibrium.py:363). -/
noncomputable def extrapolationNodes (npsi : ℕ) : List ℝ :=
  (List.range npsi).map (Critical.linspaceAt (1 / 100) (99 / 100) npsi)

open Classical in
/-- `eq.q(psinorm, npsi)` with the given critical points (equilibrium.py:338-376): the values of normalised flux, and q. `interp` is
`interp1d(x, q, kind="quadratic", fill_value="extrapolate")`, which raises `ValueError` for fewer than three values. Comparing a Python
list with a number raises `TypeError`. The returned list stands for a number if it has one element. -/
noncomputable def q (eq : Eq) (interp : List ℝ → List ℝ → ℝ → ℝ) (opoint xpoint : List (Point ℝ)) (psinorm : Arg) (npsi : ℕ := 100) :
    Except Err (List ℝ) :=
  match psinorm with
  | .absent => findSafety eq opoint xpoint (innerValues npsi)
  | .list _ => .error .type
  | .number x => values [x]
  | .array l => values l
where
  /-- The two branches for given values. -/
  values (l : List ℝ) : Except Err (List ℝ) :=
    if ∃ x ∈ l, x < 1 / 100 ∨ x > 99 / 100 then
      match findSafety eq opoint xpoint (extrapolationNodes npsi) with
      | .error err => .error err
      | .ok qs => if npsi < 3 then .error .value else .ok (l.map (interp (extrapolationNodes npsi) qs))
    else findSafety eq opoint xpoint l

end FreeGS.Separatrix
