import Verif.Model.Limits
import Verif.Model.GradShafranov
import Mathlib.Data.Int.Bitwise
import Mathlib.Analysis.SpecialFunctions.Log.Base

/-!
# Reading and writing G-EQDSK files (geqdsk.py) and writing DivGeo files (_divgeo.py, divgeo.py)

The text format itself is the `freeqdsk` package and is not modelled: what is written is the dictionary, what is read is a dictionary.
-/

namespace FreeGS.Geqdsk

open FreeGS.GS
open FreeGS.Critical (Domain linspaceAt Point)

variable {K : Type*} [Field K] [LinearOrder K]

/-! ## Powers of two -/

/-- `isPow2(val)` for a Python integer (geqdsk.py:149-154). -/
def isPow2 (val : ℤ) : Bool := decide (Int.land val (val - 1) = 0)

/-- `ceilPow2(val)` (geqdsk.py:157-161) without rounding; `math.log2` of a number that is not positive raises `ValueError`. -/
noncomputable def ceilPow2 (val : ℝ) : Except Err ℝ :=
  if val ≤ 0 then .error .value else .ok ((2 : ℝ) ^ ⌈Real.logb 2 val⌉)

/-- `ceilPow2(val)` of an integer that is not negative: an integer. -/
noncomputable def ceilPow2Int (val : ℕ) : Except Err ℕ :=
  if val = 0 then .error .value else .ok (2 ^ ⌈Real.logb 2 (val : ℝ)⌉.toNat)

/-! ## write -/

/-- What `write` asks of the equilibrium: domain, sizes, total flux, `psi_bndry`, `fvac()`, `tokamak.R0`, `plasmaCurrent()`, the profiles
`fpol`, `pressure`, `ffprime`, `pprime`, the safety factor `q`, and the wall. -/
structure Source (K : Type*) where
  dom : Domain K
  nx : ℕ
  ny : ℕ
  psi : Arr K
  psiBndry : Option K
  fvac : K
  R0 : K
  current : K
  fpol : K → K
  pressure : K → K
  ffprime : K → K
  pprime : K → K
  q : K → K
  wall : Option (List (K × K))

/-- The dictionary (geqdsk.py:90-143). Arrays over the flux are functions of the index below `nx`; `lim` holds `rlim`, `zlim`. -/
structure Data (K : Type*) where
  nx : ℕ
  ny : ℕ
  rdim : K
  zdim : K
  rcentr : K
  bcentr : K
  rleft : K
  zmid : K
  rmagx : K
  zmagx : K
  simagx : K
  sibdry : K
  cpasma : K
  fpol : ℕ → K
  pres : ℕ → K
  ffprime : ℕ → K
  pprime : ℕ → K
  psi : Arr K
  qpsi : ℕ → K
  lim : Option (List (K × K))
  rbdry : List K
  zbdry : List K

/-- `linspace(0.0, 1.0, n, endpoint=False)[k]`. -/
def openKnot (n k : ℕ) : K := (k : K) * (1 / (n : K))

/-- `numpy.argmin`: the first index of the least value. -/
def argminLoop : List K → ℕ → ℕ → K → ℕ
  | [], _, best, _ => best
  | z :: rest, i, best, m => if z < m then argminLoop rest (i + 1) i z else argminLoop rest (i + 1) best m

/-- `numpy.argmin` of a list; `ValueError` for an empty one. -/
def argmin : List K → Except Err ℕ
  | [] => .error .value
  | z :: rest => .ok (argminLoop rest 1 0 z)

/-- `x = numpy.roll(v[::-1], -ind); x = numpy.append(x, x[0])` (geqdsk.py:139-143). -/
def rollClose (v : List K) (ind : ℕ) : List K :=
  let x := v.reverse.rotate ind
  x ++ x.take 1

/-- The boundary that is written (geqdsk.py:138-143) for the points of `find_separatrix`. -/
def boundary (iso : List (K × K)) : Except Err (List K × List K) :=
  match argmin (iso.map Prod.snd) with
  | .error err => .error err
  | .ok ind => .ok (rollClose (iso.map Prod.fst) ind, rollClose (iso.map Prod.snd) ind)

/-- `write(eq, fh, oxpoints)` up to the call of `fileformat` (geqdsk.py:70-143). `opoint` are the O-points found or given, `iso` the points
of `find_separatrix`. Without O-points `opoint[0]` raises `IndexError`; without boundary flux (`None`) the subtraction raises
`TypeError`; `R0 = 0` raises `ZeroDivisionError`. `psinorm[1:]` is empty for `nx = 1`, and `qpsi[1]` raises `IndexError`. -/
def write (s : Source K) (opoint : List (Point K)) (iso : List (K × K)) : Except Err (Data K) :=
  if s.R0 = 0 then .error .zeroDivision
  else
    match opoint with
    | [] => .error .index
    | o :: _ =>
      match s.psiBndry with
      | none => .error .type
      | some psiBndry =>
        if s.nx < 2 then .error .index
        else
          match boundary iso with
          | .error err => .error err
          | .ok (rbdry, zbdry) => .ok
            { nx := s.nx, ny := s.ny, rdim := s.dom.Rmax - s.dom.Rmin, zdim := s.dom.Zmax - s.dom.Zmin, rcentr := s.R0
              bcentr := s.fvac / s.R0, rleft := s.dom.Rmin, zmid := 1 / 2 * (s.dom.Zmin + s.dom.Zmax), rmagx := o.1, zmagx := o.2.1
              simagx := 0, sibdry := psiBndry - o.2.2, cpasma := s.current
              fpol := fun k => s.fpol (openKnot s.nx k), pres := fun k => s.pressure (openKnot s.nx k)
              ffprime := fun k => s.ffprime (openKnot s.nx k), pprime := fun k => s.pprime (openKnot s.nx k)
              psi := fun c => s.psi c - o.2.2
              qpsi := fun k => if k = 0 then s.q (openKnot s.nx 1) else s.q (openKnot s.nx k)
              lim := s.wall, rbdry := rbdry, zbdry := zbdry }

/-! ## read, up to the making of the equilibrium -/

/-- The last of the first `i + 1` knots of `linspace(0, 1, n)` that is not above `x`. -/
def cellFrom (n : ℕ) (x : K) : ℕ → ℕ
  | 0 => 0
  | i + 1 => if linspaceAt (0 : K) 1 n (i + 1) ≤ x then i + 1 else cellFrom n x i

/-- The interval between knots that holds `x`. -/
def cell (n : ℕ) (x : K) : ℕ := cellFrom n x (n - 2)

/-- Position between two knots. -/
def fraction (n : ℕ) (x : K) : K := (x - linspaceAt 0 1 n (cell n x)) * ((n : K) - 1)

/-- `RectBivariateSpline(linspace(0, 1, nx), linspace(0, 1, ny), a, kx=1, ky=1)`: bilinear interpolation, for `x`, `y` in `[0, 1]`. -/
def bilinear (nx ny : ℕ) (a : Arr K) (x y : K) : K :=
  let i := cell nx x
  let j := cell ny y
  let s := fraction nx x
  let t := fraction ny y
  (1 - s) * (1 - t) * a (i, j) + s * (1 - t) * a (i + 1, j) + (1 - s) * t * a (i, j + 1) + s * t * a (i + 1, j + 1)

/-- The sizes and flux used by `read` (geqdsk.py:256-278). The interpolation needs two points in each direction
(otherwise `RectBivariateSpline` raises `ValueError`). -/
noncomputable def resized (nx ny : ℕ) (psi : Arr K) : Except Err (ℕ × ℕ × Arr K) :=
  if isPow2 ((nx : ℤ) - 1) && isPow2 ((ny : ℤ) - 1) then .ok (nx, ny, psi)
  else if nx < 2 ∨ ny < 2 then .error .value
  else
    match ceilPow2Int (nx - 1), ceilPow2Int (ny - 1) with
    | .ok a, .ok b => .ok (a + 1, b + 1, fun c => bilinear nx ny psi (linspaceAt 0 1 (a + 1) c.1) (linspaceAt 0 1 (b + 1) c.2))
    | .error err, _ => .error err
    | _, .error err => .error err

/-- `numpy.clip(v, lo, hi)`. -/
def clip (v lo hi : K) : K := min (max v lo) hi

/-- What `read` takes from the file before it solves (geqdsk.py:249-354): the sizes, the flux, its normalised value `psi_norm`, the knots
of the profile splines and their values, `R0` and vacuum `f`, the domain, the wall. -/
structure Target (K : Type*) where
  nx : ℕ
  ny : ℕ
  psi : Arr K
  psiNorm : Arr K
  knot : ℕ → K
  pres : ℕ → K
  fpol : ℕ → K
  R0 : K
  fvac : K
  dom : Domain K
  wall : Option (List (K × K))

/-- `read` (geqdsk.py:249-354) for a machine with the given wall. A limiter of three points or fewer is ignored. Equal flux on axis
and boundary makes numpy go on with infinite values. -/
noncomputable def read (d : Data K) (wall : Option (List (K × K))) : Except Err (Target K) :=
  match resized d.nx d.ny d.psi with
  | .error err => .error err
  | .ok (nx, ny, psi) =>
    if d.sibdry - d.simagx = 0 then .error .nonfinite
    else .ok
      { nx := nx, ny := ny, psi := psi
        psiNorm := fun c => clip ((psi c - d.simagx) / (d.sibdry - d.simagx)) 0 (11 / 10)
        knot := linspaceAt 0 1 d.nx, pres := d.pres, fpol := d.fpol, R0 := d.rcentr, fvac := d.rcentr * d.bcentr
        dom := ⟨d.rleft, d.rleft + d.rdim, d.zmid - 1 / 2 * d.zdim, d.zmid + 1 / 2 * d.zdim⟩
        wall := match d.lim with
          | some l => if 3 < l.length then some l else wall
          | none => wall }

/-! ## read with the `domain` keyword -/

/-- One new size (geqdsk.py:375-380): `none` if the variable is not assigned. -/
noncomputable def newSize (lo hi step : ℝ) (n : ℕ) : Except Err (Option ℕ) :=
  let fnew := (hi - lo) / step + 1
  if (n : ℝ) < fnew then
    match ceilPow2 (fnew - 1) with
    | .error err => .error err
    | .ok v => .ok (some (⌊v⌋₊ + 1))
  else .ok none

/-- The domain and sizes of the equilibrium made for the `domain` keyword (geqdsk.py:370-400), with the variables `newnx`, `newny`. Reading
an unassigned variable raises `UnboundLocalError`: `newnx` in the comparison, `newny` in the comparison or in the message. -/
noncomputable def newDomain (nx ny : ℕ) (dR dZ : ℝ) (dom : Domain ℝ) : Except Err (Domain ℝ × ℕ × ℕ) :=
  match newSize dom.Rmin dom.Rmax dR nx, newSize dom.Zmin dom.Zmax dZ ny with
  | .error err, _ => .error err
  | _, .error err => .error err
  | .ok none, _ => .error .unbound
  | .ok (some _), .ok none => .error .unbound
  | .ok (some _), .ok (some _) => .ok (dom, nx, ny)

/-! ## DivGeo -/

/-- What a DivGeo file holds (_divgeo.py:51-113). -/
structure DivGeo (K : Type*) where
  jm : ℕ
  km : ℕ
  psib : K
  btf : K
  rtf : K
  r : ℕ → K
  z : ℕ → K
  psi : Arr K

/-- `numpy.arange(n)[k] * ((hi - lo) / (n - 1)) + lo` (_divgeo.py:84-85, 97-98). -/
def arangeAt (lo hi : K) (n k : ℕ) : K := (k : K) * ((hi - lo) / ((n : K) - 1)) + lo

/-- `_divgeo.write(data, fh)` for a dictionary without the keys `r`, `z` (_divgeo.py:27-113). One point in a direction raises
`ZeroDivisionError`. -/
def divgeo (d : Data K) : Except Err (DivGeo K) :=
  if d.nx = 1 ∨ d.ny = 1 then .error .zeroDivision
  else .ok
    { jm := d.nx, km := d.ny, psib := d.sibdry, btf := d.bcentr, rtf := d.rcentr
      r := arangeAt d.rleft (d.rleft + d.rdim) d.nx
      z := arangeAt (d.zmid - 1 / 2 * d.zdim) (d.zmid + 1 / 2 * d.zdim) d.ny
      psi := fun c => d.psi c - d.sibdry }

/-- `divgeo.write(eq, fh, oxpoints)` (divgeo.py:5-13). -/
def writeDivgeo (s : Source K) (opoint : List (Point K)) (iso : List (K × K)) : Except Err (DivGeo K) :=
  match write s opoint iso with
  | .error err => .error err
  | .ok d => divgeo d

end FreeGS.Geqdsk
