import Verif.Model.Basic
import Mathlib.Algebra.Order.Field.Basic
import Mathlib.Data.List.Sort

/-!
# Model of `freegs/critical.py` and of the separatrix search in `freegs/equilibrium.py`

A grid is given by its sizes and the coordinates `R[:, 0]`, `Z[0, :]`.
-/

namespace FreeGS.Critical

variable {K : Type*} [Field K] [LinearOrder K]

/-- The grid of an equilibrium: `R[i, j] = R i`, `Z[i, j] = Z j`. -/
structure Mesh (K : Type*) where
  nx : ℕ
  ny : ℕ
  R : ℕ → K
  Z : ℕ → K

/-- The scan of `numpy.argmin` over the indices `i, i+1, ...` (`k` of them), keeping the first smallest. -/
def argminLoop (f : ℕ → K) : ℕ → ℕ → ℕ → ℕ
  | 0, _, best => best
  | k + 1, i, best => argminLoop f k (i + 1) (if f i < f best then i else best)

/-- `numpy.argmin` of `f 0, ..., f (n-1)`: index of the first smallest value. An empty array raises `ValueError` in
numpy; callers here have `n > 0`. -/
def argmin (f : ℕ → K) (n : ℕ) : ℕ := argminLoop f (n - 1) 1 0

/-- `argmin(abs(R[:, 0] - rx))` (critical.py:278-279, 287-288). -/
def nearest (x : ℕ → K) (n : ℕ) (v : K) : ℕ := argmin (fun i => |x i - v|) n

/-! ## core_mask -/

/-- `numpy.clip([ix - 1, ix, ix + 1], 0, n - 1)` (critical.py:282-283). -/
def clip3 (ix n : ℕ) : List ℕ := [min (ix - 1) (n - 1), min ix (n - 1), min (ix + 1) (n - 1)]

/-- The cells of an X-point neighbourhood in the order in which they are visited. -/
def block (nx ny : ℕ) (p : ℕ × ℕ) : List (ℕ × ℕ) :=
  (clip3 p.1 nx).flatMap fun i => (clip3 p.2 ny).map fun j => (i, j)

/-- A mask: the values 0, 1 and 2 of the array (`< 0.5` is `= 0`, `> 0.5` is `≠ 0`). -/
abbrev Mask := ℕ × ℕ → ℕ

/-- Assignment to one element. -/
def Mask.set (m : Mask) (c : ℕ × ℕ) (v : ℕ) : Mask := Function.update m c v

/-- Mask and stack (the head of the list is the top of the stack). -/
structure Fill where
  mask : Mask
  stack : List (ℕ × ℕ)

/-- `if guard and psin[c] < 1.0 and mask[c] < 0.5: stack.append(c)` (critical.py:296-297, 303-306). -/
def Fill.push (inside : ℕ × ℕ → Bool) (guard : Bool) (c : ℕ × ℕ) (s : Fill) : Fill :=
  if guard && inside c && (s.mask c == 0) then { s with stack := c :: s.stack } else s

/-- The `while True` loop that scans along a row (critical.py:300-312) from `(i, j)`; `k` is the number
of grid points to the right, `ny - 1 - j`, so that `k = 0` is the test `j == ny - 1`. -/
def scan (inside : ℕ × ℕ → Bool) (nx i : ℕ) : ℕ → ℕ → Fill → Fill
  | k, j, s =>
    let s := { s with mask := s.mask.set (i, j) 1 }
    let s := s.push inside (decide (i < nx - 1)) (i + 1, j)
    let s := s.push inside (decide (i > 0)) (i - 1, j)
    match k with
    | 0 => s
    | k + 1 => if !inside (i, j + 1) || s.mask (i, j + 1) != 0 then s else scan inside nx i k (j + 1) s

/-- The `while stack` loop (critical.py:292-312); `none` if it is still running after `fuel` rounds. -/
def fill (inside : ℕ × ℕ → Bool) (nx ny : ℕ) : ℕ → Fill → Option Mask
  | 0, s => match s.stack with
    | [] => some s.mask
    | _ :: _ => none
  | fuel + 1, s => match s.stack with
    | [] => some s.mask
    | (i, j) :: rest =>
      let s := { s with stack := rest }
      let s := s.push inside (decide (j > 0)) (i, j - 1)
      fill inside nx ny fuel (scan inside nx i (ny - 1 - j) j s)

/-- The first loop over X-points: their neighbourhoods are set to 2 (critical.py:275-284). -/
def blockMask (nx ny : ℕ) (inds : List (ℕ × ℕ)) (m : Mask) : Mask :=
  inds.foldl (fun m p => (block nx ny p).foldl (fun m c => m.set c 2) m) m

/-- The last loop over X-points (critical.py:314-321). -/
def unblockMask (inside : ℕ × ℕ → Bool) (nx ny : ℕ) (inds : List (ℕ × ℕ)) (m : Mask) : Mask :=
  inds.foldl (fun m p => (block nx ny p).foldl (fun m c => m.set c (if inside c then 1 else 0)) m) m

/-- A critical point `(R, Z, psi)`. -/
abbrev Point (K : Type*) := K × K × K

/-- `core_mask(R, Z, psi, opoint, xpoint, psi_bndry)` (critical.py:234-323). The result is `none` while the loop has not
ended within `fuel` rounds. The normalisation divides by `psi_bndry - psi_axis`; numpy returns nan or inf if
that is zero, the model is meant for the non-zero case. -/
def coreMask (g : Mesh K) (psi : ℕ × ℕ → K) (opoint xpoint : List (Point K)) (psiBndry : Option K) (fuel : ℕ) :
    Except Err (Option Mask) :=
  match opoint with
  | [] => .error .index
  | (Ro, Zo, psiAxis) :: _ =>
    match psiBndry, xpoint with
    | none, [] => .error .index
    | pb, xs =>
      let psib := match pb, xs with
        | some p, _ => p
        | none, x :: _ => x.2.2
        | none, [] => 0
      let psin : ℕ × ℕ → K := fun c => (psi c - psiAxis) / (psib - psiAxis)
      let inside : ℕ × ℕ → Bool := fun c => decide (psin c < 1)
      let inds := xs.map fun x => (nearest g.R g.nx x.1, nearest g.Z g.ny x.2.1)
      let m := blockMask g.nx g.ny inds fun _ => 0
      let start := (nearest g.R g.nx Ro, nearest g.Z g.ny Zo)
      .ok ((fill inside g.nx g.ny fuel ⟨m, [start]⟩).map (unblockMask inside g.nx g.ny inds))

/-! ## find_critical -/

/-- The spline through the flux and its derivatives, as arbitrary functions. -/
structure Spline (K : Type*) where
  f : K → K → K
  dR : K → K → K
  dZ : K → K → K
  dRR : K → K → K
  dRZ : K → K → K
  dZZ : K → K → K

/-- `Bp2` (critical.py:72). On the axis `R = 0` numpy gives inf or nan, the model 0; the model is meant for grids that do not
touch the axis. -/
def Spline.Bp2 (f : Spline K) (R Z : K) : K := (f.dR R Z ^ 2 + f.dZ R Z ^ 2) / R ^ 2

/-- `Br` and `Bz` in the Newton iteration (critical.py:114-115). -/
def Spline.Br (f : Spline K) (R Z : K) : K := -f.dZ R Z / R
/-- See `Spline.Br`. -/
def Spline.Bz (f : Spline K) (R Z : K) : K := f.dR R Z / R

/-- Strict local minimum among the eight neighbours (critical.py:90-99). -/
def isLocalMin (b : ℕ → ℕ → K) (i j : ℕ) : Bool :=
  decide (b i j < b (i + 1) (j + 1)) && decide (b i j < b (i + 1) j) && decide (b i j < b (i + 1) (j - 1)) &&
  decide (b i j < b (i - 1) (j + 1)) && decide (b i j < b (i - 1) j) && decide (b i j < b (i - 1) (j - 1)) &&
  decide (b i j < b i (j + 1)) && decide (b i j < b i (j - 1))

/-- One Newton step: `d = inv(J) [Br, Bz]` (critical.py:147-155), with the inverse of a 2x2 matrix written out; a
singular matrix raises `LinAlgError`. -/
def newtonStep (f : Spline K) (R1 Z1 : K) : Except Err (K × K) :=
  let Br := f.Br R1 Z1
  let Bz := f.Bz R1 Z1
  let J00 := -Br / R1 - f.dRZ R1 Z1 / R1
  let J01 := -f.dZZ R1 Z1 / R1
  let J10 := -Bz / R1 + f.dRR R1 Z1 / R1
  let J11 := f.dRZ R1 Z1 / R1
  let det := J00 * J11 - J01 * J10
  if det = 0 then .error .linalg
  else .ok (R1 - (J11 * Br - J01 * Bz) / det, Z1 - (-J10 * Br + J00 * Bz) / det)

/-- The `while True` loop of the Newton iteration (critical.py:112-162); `k` is the number of steps left
(`count > 100` stops after step 101). `some` is the accepted position, `none` a discarded one. On the axis `R1 = 0` the
field is inf or nan in numpy, the test fails and the point ends up discarded. -/
def newton (f : Spline K) (radiusSq R0 Z0 : K) : ℕ → K → K → Except Err (Option (K × K))
  | k, R1, Z1 =>
    if R1 = 0 then .ok none
    else if f.Br R1 Z1 ^ 2 + f.Bz R1 Z1 ^ 2 < 1 / 1000000 then .ok (some (R1, Z1))
    else match k with
      | 0 => .ok none
      | k + 1 => match newtonStep f R1 Z1 with
        | .error err => .error err
        | .ok (R2, Z2) =>
          if (R2 - R0) ^ 2 + (Z2 - Z0) ^ 2 > radiusSq ∨ k = 0 then .ok none
          else newton f radiusSq R0 Z0 k R2 Z2

/-- The discriminant used for classification (critical.py:121-133). -/
def discriminant (g : Mesh K) (psi : ℕ × ℕ → K) (i j : ℕ) : K :=
  let dR := g.R 1 - g.R 0
  let dZ := g.Z 1 - g.Z 0
  let d2dr2 := (psi (i + 2, j) - 2 * psi (i, j) + psi (i - 2, j)) / (2 * dR) ^ 2
  let d2dz2 := (psi (i, j + 2) - 2 * psi (i, j) + psi (i, j - 2)) / (2 * dZ) ^ 2
  let d2drdz := ((psi (i + 2, j + 2) - psi (i + 2, j - 2)) / (4 * dZ)
    - (psi (i - 2, j + 2) - psi (i - 2, j - 2)) / (4 * dZ)) / (4 * dR)
  d2dr2 * d2dz2 - d2drdz ^ 2

/-- What is found at one grid point: nothing, an O-point (`false`) or an X-point (`true`) (critical.py:90-162). -/
def candidate (g : Mesh K) (f : Spline K) (psi : ℕ × ℕ → K) (i j : ℕ) : Except Err (Option (Bool × Point K)) :=
  let radiusSq := 9 * ((g.R 1 - g.R 0) ^ 2 + (g.Z 1 - g.Z 0) ^ 2)
  if isLocalMin (fun i j => f.Bp2 (g.R i) (g.Z j)) i j then
    match newton f radiusSq (g.R i) (g.Z j) 101 (g.R i) (g.Z j) with
    | .error err => .error err
    | .ok none => .ok none
    | .ok (some (R1, Z1)) => .ok (some (decide (discriminant g psi i j < 0), R1, Z1, f.f R1 Z1))
  else .ok none

/-- The cells visited by the double loop `range(2, nx - 2)`, `range(2, ny - 2)` (critical.py:88-89). -/
def interior (nx ny : ℕ) : List (ℕ × ℕ) :=
  (List.range' 2 (nx - 4)).flatMap fun i => (List.range' 2 (ny - 4)).map fun j => (i, j)

/-- The search over all cells: O- or X-points in order of discovery (critical.py:84-162). -/
def candidates (g : Mesh K) (f : Spline K) (psi : ℕ × ℕ → K) : List (ℕ × ℕ) → Except Err (List (Bool × Point K))
  | [] => .ok []
  | (i, j) :: rest =>
    match candidate g f psi i j with
    | .error err => .error err
    | .ok c => match candidates g f psi rest with
      | .error err => .error err
      | .ok l => .ok (match c with
        | none => l
        | some p => p :: l)

/-- Squared distance used by `remove_dup` (critical.py:170). -/
def dist2 (p q : Point K) : K := (p.1 - q.1) ^ 2 + (p.2.1 - q.2.1) ^ 2

/-- The loop of `remove_dup` (critical.py:165-175). -/
def removeDupLoop : List (Point K) → List (Point K) → List (Point K)
  | result, [] => result
  | result, p :: ps =>
    if result.any fun p2 => decide (dist2 p p2 < 1 / 100000) then removeDupLoop result ps
    else removeDupLoop (result ++ [p]) ps

/-- `remove_dup(points)` (critical.py:165-175). -/
def removeDup (points : List (Point K)) : List (Point K) := removeDupLoop [] points

/-- `list.sort(key=...)`: stable sort by key. -/
def sortBy (key : Point K → K) (l : List (Point K)) : List (Point K) :=
  l.insertionSort fun a b => key a ≤ key b

/-- `numpy.linspace(a, b, n)[k]`. -/
def linspaceAt (a b : K) (n k : ℕ) : K := if n ≤ 1 then a else a + (k : K) * ((b - a) / ((n : K) - 1))

/-- `amax` of the first `n` values. -/
def maxLoop (f : ℕ → K) : ℕ → K
  | 0 => f 0
  | k + 1 => max (maxLoop f k) (f (k + 1))

/-- The test in the loop over X-points (critical.py:196-224): keep the X-point or not. Division by zero follows numpy: `0/0` is
not greater than anything, a positive number over zero is. -/
def keepX (f : Spline K) (o x : Point K) : Bool :=
  let r := linspaceAt o.1 x.1 50
  let z := linspaceAt o.2.1 x.2.1 50
  let p0 : ℕ → K := fun k => f.f (r k) (z k)
  let p : ℕ → K := if x.2.2 < o.2.2 then fun k => p0 k * -1 else p0
  let maxp := maxLoop p 49
  let num := maxp - p 49
  let den := maxp - p 0
  let drop := if den = 0 then decide (num > 0) else decide (num / den > 1 / 1000)
  let ind := argmin p 50
  !drop && !decide ((r ind - o.1) ^ 2 + (z ind - o.2.1) ^ 2 > 1 / 10000)

/-- `find_critical(R, Z, psi, discard_xpoints)` (critical.py:46-231); the spline `f` is an argument. -/
def findCritical (g : Mesh K) (f : Spline K) (psi : ℕ × ℕ → K) (discard : Bool := true) :
    Except Err (List (Point K) × List (Point K)) :=
  match candidates g f psi (interior g.nx g.ny) with
  | .error err => .error err
  | .ok cs =>
    let xpoint := removeDup ((cs.filter fun c => c.1).map Prod.snd)
    let opoint := removeDup ((cs.filter fun c => !c.1).map Prod.snd)
    match opoint with
    | [] => .ok ([], xpoint)
    | o :: os =>
      let Rmid := 1 / 2 * (g.R (g.nx - 1) + g.R 0)
      let Zmid := 1 / 2 * (g.Z (g.ny - 1) + g.Z 0)
      match sortBy (fun p => (p.1 - Rmid) ^ 2 + (p.2.1 - Zmid) ^ 2) (o :: os) with
      | [] => .error .index
      | o :: os =>
        let xpoint := if discard then xpoint.filter (keepX f o) else xpoint
        .ok (o :: os, sortBy (fun p => (p.2.2 - o.2.2) ^ 2) xpoint)

/-! ## find_psisurface -/

/-- `numpy.clip(v, lo, hi)`. -/
def clip (v lo hi : K) : K := min (max v lo) hi

/-- The domain limits of an equilibrium. -/
structure Domain (K : Type*) where
  Rmin : K
  Rmax : K
  Zmin : K
  Zmax : K

/-- Clipping of the end point (critical.py:334-344). -/
def clipEnd (d : Domain K) (r0 z0 r1 z1 : K) : K × K :=
  let p := if |r1 - r0| > 1 / 1000000 then
      let rclip := clip r1 d.Rmin d.Rmax
      (rclip, z0 + (z1 - z0) * |(rclip - r0) / (r1 - r0)|)
    else (r1, z1)
  if |p.2 - z0| > 1 / 1000000 then
    let zclip := clip p.2 d.Zmin d.Zmax
    (r0 + (p.1 - r0) * |(zclip - z0) / (p.2 - z0)|, zclip)
  else p

/-- `argmax` of a boolean array: the first `True` among the indices `i, i+1, ...` (`k` of them). -/
def firstTrue (b : ℕ → Bool) : ℕ → ℕ → Option ℕ
  | 0, _ => none
  | k + 1, i => if b i then some i else firstTrue b k (i + 1)

/-- `find_psisurface(eq, psifunc, r0, z0, r1, z1, psival, n)` for a single value (critical.py:326-381); an
empty line (`n = 0`) raises `ValueError`. -/
def findPsiSurface (d : Domain K) (psifunc : K → K → K) (r0 z0 r1 z1 psival : K) (n : ℕ) :
    Except Err (K × K) :=
  if n = 0 then .error .value
  else
    let e := clipEnd d r0 z0 r1 z1
    let r := linspaceAt r0 e.1 n
    let z := linspaceAt z0 e.2 n
    let pnorm : ℕ → K := fun k => psifunc (r k) (z k)
    match (firstTrue (fun k => decide (pnorm k > psival)) n 0).getD 0 with
    | 0 => .ok (r 0, z 0)
    | ind + 1 =>
      let f := (pnorm (ind + 1) - psival) / (pnorm (ind + 1) - pnorm ind)
      .ok ((1 - f) * r (ind + 1) + f * r ind, (1 - f) * z (ind + 1) + f * z ind)

/-! ## innerOuterSeparatrix -/

/-- The largest index below `n` with the property. -/
def lastTrue (b : ℕ → Bool) : ℕ → Option ℕ
  | 0 => none
  | n + 1 => if b n then some n else lastTrue b n

/-- Index `i - 1` into an array of length `n`, where `-1` is the last element. -/
def prevIndex (i n : ℕ) : ℕ := if i = 0 then n - 1 else i - 1

/-- `innerOuterSeparatrix(Z)` (equilibrium.py:698-745), given the normalised flux on the row `Zindex` and the major radius
of the magnetic axis. -/
def innerOuter (g : Mesh K) (d : Domain K) (psinorm : ℕ → K) (Raxis : K) : K × K :=
  let ia := nearest g.R g.nx Raxis
  let Rin := match lastTrue (fun i => decide (psinorm i > 1)) ia with
    | none => d.Rmin
    | some i => (g.R i * (1 - psinorm (i + 1)) + g.R (i + 1) * (psinorm i - 1)) / (psinorm i - psinorm (i + 1))
  let Rout := match firstTrue (fun i => decide (psinorm i > 1)) (g.nx - ia) ia with
    | none => d.Rmax
    | some i =>
      let p := prevIndex i g.nx
      (g.R i * (1 - psinorm p) + g.R p * (psinorm i - 1)) / (psinorm i - psinorm p)
  (Rin, Rout)

end FreeGS.Critical
