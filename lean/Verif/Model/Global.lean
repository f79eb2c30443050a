import Verif.Model.Equilibrium

/-!
# Shape parameters and global figures of merit of an equilibrium (equilibrium.py:214-233, 378-416, 756-1268)

Where numpy would divide by zero and go on with infinite values the model returns `nonfinite`.
-/

namespace FreeGS.Global

open FreeGS.GS FreeGS.Equil

variable {K : Type*} [Field K] [LinearOrder K]

/-- What the figures of merit are computed from: the grid, the core mask if there is one, the field and the pressure (`pressure(psiN())`)
on the grid, `_current`, the separatrix with the given number of points (`separatrix(npoints)`), the magnetic axis, `Btor` at any point,
`fvac()`, and the constants `pi`, `mu0`. -/
structure Plasma (K : Type*) where
  pi : K
  mu0 : K
  nx : ℕ
  ny : ℕ
  R : ℕ → K
  Z : ℕ → K
  mask : Option (Arr K)
  Br : Arr K
  Bz : Arr K
  Btor : Arr K
  pressure : Arr K
  current : K
  sep : ℕ → List (K × K)
  axis : K × K
  btorAt : K → K → K
  fvac : K

/-- Division as numpy does it, without following infinite values. -/
def quotient (a b : K) : Except Err K := if b = 0 then .error .nonfinite else .ok (a / b)

/-! ## Shape -/

/-- The first point of a list with the largest value of `f` (`np.argmax`); `ValueError` for an empty list. -/
def first (f : K × K → K) : List (K × K) → Except Err (K × K)
  | [] => .error .value
  | q :: rest => .ok (argmaxLoop f rest q)

/-- The outermost, uppermost, innermost and lowest points (`P1`, `P2`, `P3`, `P4`). `np.argmin(x)` is `np.argmax(-x)`. -/
def outermost (l : List (K × K)) : Except Err (K × K) := first (fun q => q.1) l
def uppermost (l : List (K × K)) : Except Err (K × K) := first (fun q => q.2) l
def innermost (l : List (K × K)) : Except Err (K × K) := first (fun q => -q.1) l
def lowest (l : List (K × K)) : Except Err (K × K) := first (fun q => -q.2) l

/-- `geometricAxis(npoints)` (equilibrium.py:769-795). -/
def geometricAxis (p : Plasma K) (n : ℕ) : Except Err (K × K) := do
  let P1 ← outermost (p.sep n)
  let P3 ← innermost (p.sep n)
  .ok (P3.1 + 1 / 2 * (P1.1 - P3.1), 1 / 2 * (P1.2 + P3.2))

/-- `Rgeometric(npoints)` (equilibrium.py:797-799). -/
def Rgeometric (p : Plasma K) (n : ℕ) : Except Err K := do
  let C ← geometricAxis p n
  .ok C.1

/-- `Zgeometric(npoints)` (equilibrium.py:801-803). -/
def Zgeometric (p : Plasma K) (n : ℕ) : Except Err K := do
  let C ← geometricAxis p n
  .ok C.2

/-- `minorRadius(npoints)` (equilibrium.py:805-821). -/
def minorRadius (p : Plasma K) (n : ℕ) : Except Err K := do
  let P1 ← outermost (p.sep n)
  let P3 ← innermost (p.sep n)
  .ok (1 / 2 * (P1.1 - P3.1))

/-- `aspectRatio(npoints)` (equilibrium.py:823-828). -/
def aspectRatio (p : Plasma K) (n : ℕ) : Except Err K := do
  let R0 ← Rgeometric p n
  let a ← minorRadius p n
  quotient R0 a

/-- `inverseAspectRatio(npoints)` (equilibrium.py:830-836). -/
def inverseAspectRatio (p : Plasma K) (n : ℕ) : Except Err K := do
  let a ← minorRadius p n
  let R0 ← Rgeometric p n
  quotient a R0

/-- `elongation(npoints)` (equilibrium.py:838-859). -/
def elongation (p : Plasma K) (n : ℕ) : Except Err K := do
  let P2 ← uppermost (p.sep n)
  let P4 ← lowest (p.sep n)
  let a ← minorRadius p n
  quotient (1 / 2 * (P2.2 - P4.2)) a

/-- `elongationUpper(npoints)` (equilibrium.py:861-881). -/
def elongationUpper (p : Plasma K) (n : ℕ) : Except Err K := do
  let P2 ← uppermost (p.sep n)
  let z0 ← Zgeometric p n
  let a ← minorRadius p n
  quotient (P2.2 - z0) a

/-- `elongationLower(npoints)` (equilibrium.py:883-903). -/
def elongationLower (p : Plasma K) (n : ℕ) : Except Err K := do
  let P4 ← lowest (p.sep n)
  let z0 ← Zgeometric p n
  let a ← minorRadius p n
  quotient (z0 - P4.2) a

/-- `triangularityUpper(npoints)` (equilibrium.py:915-934). -/
def triangularityUpper (p : Plasma K) (n : ℕ) : Except Err K := do
  let P2 ← uppermost (p.sep n)
  let R0 ← Rgeometric p n
  let a ← minorRadius p n
  quotient (R0 - P2.1) a

/-- `triangularityLower(npoints)` (equilibrium.py:936-955). -/
def triangularityLower (p : Plasma K) (n : ℕ) : Except Err K := do
  let P4 ← lowest (p.sep n)
  let R0 ← Rgeometric p n
  let a ← minorRadius p n
  quotient (R0 - P4.1) a

/-- `triangularity(npoints)` (equilibrium.py:957-967). -/
def triangularity (p : Plasma K) (n : ℕ) : Except Err K := do
  let u ← triangularityUpper p n
  let l ← triangularityLower p n
  .ok (1 / 2 * (u + l))

/-- `shafranovShift(npoints)` (equilibrium.py:969-983), which always uses 360 points. -/
def shafranovShift (p : Plasma K) (_n : ℕ) : Except Err (K × K) := do
  let Rgeo ← Rgeometric p 360
  let z0 ← Zgeometric p 360
  .ok (p.axis.1 - Rgeo, p.axis.2 - z0)

/-! ## Integrals over the plasma -/

/-- The volume element (equilibrium.py:223-230 and the same lines in the other methods). -/
def dV (p : Plasma K) : Arr K := fun c =>
  let v := 2 * p.pi * p.R c.1 * (p.R 1 - p.R 0) * (p.Z 1 - p.Z 0)
  match p.mask with
  | none => v
  | some m => v * m c

/-- `romb(romb(a * dV))`. -/
def overVolume (p : Plasma K) (a : Arr K) : Except Err K := romb2 p.nx p.ny fun c => a c * dV p c

/-- `plasmaVolume()` (equilibrium.py:220-233). -/
def plasmaVolume (p : Plasma K) : Except Err K := romb2 p.nx p.ny (dV p)

/-- `B_polvals_2`. -/
def bpol2 (p : Plasma K) : Arr K := fun c => p.Br c ^ 2 + p.Bz c ^ 2

/-- `effectiveElongation(npoints)` (equilibrium.py:905-913). -/
def effectiveElongation (p : Plasma K) (n : ℕ) : Except Err K := do
  let V ← plasmaVolume p
  let R0 ← Rgeometric p n
  let a ← minorRadius p n
  quotient V (2 * p.pi * R0 * p.pi * a ^ 2)

/-- `internalInductance1(npoints)` (equilibrium.py:985-1008). -/
def li1 (p : Plasma K) (n : ℕ) : Except Err K := do
  let Rgeo ← Rgeometric p n
  let elon ← elongation p n
  let eff ← effectiveElongation p n
  let integral ← overVolume p (bpol2 p)
  let a ← quotient (2 * integral) ((p.mu0 * p.current) ^ 2 * Rgeo)
  let b ← quotient (1 + elon * elon) (2 * eff)
  .ok (a * b)

/-- `internalInductance2()` (equilibrium.py:1010-1028). -/
def li2 (p : Plasma K) : Except Err K := do
  let integral ← overVolume p (bpol2 p)
  quotient (2 * integral) ((p.mu0 * p.current) ^ 2 * p.axis.1)

/-- `internalInductance3(npoints)` (equilibrium.py:1030-1049). -/
def li3 (p : Plasma K) (n : ℕ) : Except Err K := do
  let Rgeo ← Rgeometric p n
  let integral ← overVolume p (bpol2 p)
  quotient (2 * integral) ((p.mu0 * p.current) ^ 2 * Rgeo)

/-- `internalInductance(npoints)` (equilibrium.py:1051-1074). -/
def li (p : Plasma K) (n : ℕ) : Except Err K := do
  let Rgeo ← Rgeometric p n
  let integral ← overVolume p (bpol2 p)
  quotient (2 * integral) (p.mu0 * p.mu0 * Rgeo * p.current * p.current)

/-- `poloidalBeta()` (equilibrium.py:1076-1101). -/
def poloidalBeta (p : Plasma K) : Except Err K := do
  let pint ← overVolume p p.pressure
  let field ← overVolume p (bpol2 p)
  quotient (2 * p.mu0 * pint) field

/-- `pressure *= mask` (equilibrium.py:1118-1119), which changes a fresh array. -/
def maskedPressure (p : Plasma K) : Arr K := fun c =>
  match p.mask with
  | none => p.pressure c
  | some m => p.pressure c * m c

/-- `poloidalBeta2()` (equilibrium.py:1103-1127). -/
def poloidalBeta2 (p : Plasma K) : Except Err K := do
  let v ← romb2 p.nx p.ny (maskedPressure p)
  let k ← quotient (8 * p.pi) p.mu0
  quotient (k * v * (p.R 1 - p.R 0) * (p.Z 1 - p.Z 0)) (p.current ^ 2)

/-- `poloidalBeta3()` (equilibrium.py:1129-1152). -/
def poloidalBeta3 (p : Plasma K) : Except Err K := do
  let pint ← overVolume p p.pressure
  let vol ← plasmaVolume p
  let r0 ← Rgeometric p 360
  quotient (4 * vol * pint) (p.mu0 * p.current * p.current * r0)

/-- `toroidalBeta()` (equilibrium.py:1154-1183). `nan_to_num` leaves finite values as they are. -/
def toroidalBeta (p : Plasma K) : Except Err K := do
  let pint ← overVolume p p.pressure
  let field ← overVolume p fun c => p.Btor c ^ 2
  quotient (2 * p.mu0 * pint) field

/-- `totalBeta()` (equilibrium.py:1185-1187). -/
def totalBeta (p : Plasma K) : Except Err K := do
  let bp ← poloidalBeta p
  let bt ← toroidalBeta p
  let x ← quotient 1 bp
  let y ← quotient 1 bt
  quotient 1 (x + y)

/-- `betaN(npoints)` (equilibrium.py:1189-1198), which always uses 360 points. -/
def betaN (p : Plasma K) (_n : ℕ) : Except Err K := do
  let geo ← geometricAxis p 360
  let bt ← toroidalBeta p
  let a ← minorRadius p 360
  let x ← quotient (a * p.btorAt geo.1 geo.2) p.current
  .ok (100 * 1000000 * bt * x)

/-- `pressure_ave()` (equilibrium.py:1200-1225). -/
def pressureAve (p : Plasma K) : Except Err K := do
  let pint ← overVolume p p.pressure
  let vol ← romb2 p.nx p.ny (dV p)
  quotient pint vol

/-- `w_th()` (equilibrium.py:1227-1251). -/
def thermalEnergy (p : Plasma K) : Except Err K := do
  let pint ← overVolume p p.pressure
  .ok (3 / 2 * pint)

/-- `qcyl()` (equilibrium.py:1253-1268). -/
def qcyl (p : Plasma K) : Except Err K := do
  let eps ← inverseAspectRatio p 360
  let a ← minorRadius p 360
  let R0 ← Rgeometric p 360
  let btor ← quotient p.fvac R0
  let kappa ← elongation p 360
  let x ← quotient (2 * p.pi * a * eps * btor) (p.mu0 * p.current)
  .ok (1 / 2 * (1 + kappa * kappa) * x)

/-! ## Toroidal flux -/

/-- `scipy.integrate.cumulative_trapezoid(y, x, initial=0.0)` for lists of the same length: value so far, last point. -/
def cumTrapLoop : K → K → K → List (K × K) → List K
  | acc, x0, y0, (x, y) :: rest =>
    (acc + (x - x0) * (y0 + y) / 2) :: cumTrapLoop (acc + (x - x0) * (y0 + y) / 2) x y rest
  | _, _, _, [] => []

/-- `tor_flux(psi)` (equilibrium.py:378-393) for a list of flux values, `q` being `eq.q` of the normalised flux. An empty list makes
`cumulative_trapezoid` raise `ValueError`. A single result is returned as a number, here as a list of one. -/
def torFlux (pi psiAxis psiBndry : K) (q : K → K) (psi : List K) : Except Err (List K) :=
  if psiBndry - psiAxis = 0 then .error .nonfinite
  else
    match psi.map fun v => (v, q ((v - psiAxis) / (psiBndry - psiAxis))) with
    | [] => .error .value
    | (x0, y0) :: rest => .ok ((0 :: cumTrapLoop 0 x0 y0 rest).map fun v => v * (-1 / (2 * pi)))

/-- The largest value of a list (`np.max`). -/
def maxOf : List K → Except Err K
  | [] => .error .value
  | a :: rest => .ok (rest.foldl max a)

/-- `np.sqrt(x / m)` for each value; a division by zero or the root of a negative number is not followed. -/
def rootRatios (sqrt : K → K) (m : K) : List K → Except Err (List K)
  | [] => .ok []
  | x :: rest => do
    let r ← quotient x m
    if r < 0 then .error .nonfinite
    else do
      let l ← rootRatios sqrt m rest
      .ok (sqrt r :: l)

/-- `rhotor(psi)` (equilibrium.py:395-416). `tor_flux` returns a number, not an array, for a single value, and `len` of it raises
`TypeError`. -/
def rhotor (sqrt : K → K) (pi psiAxis psiBndry : K) (q : K → K) (psi : List K) : Except Err (List K) := do
  let torflux ← torFlux pi psiAxis psiBndry q psi
  let lcfs ← torFlux pi psiAxis psiBndry q ((List.range 101).map fun k : ℕ => psiAxis + (k : K) * ((psiBndry - psiAxis) / 100))
  let m ← maxOf lcfs
  let result ← rootRatios sqrt m torflux
  if psi.length = 1 then .error .type else .ok result

end FreeGS.Global
