import Verif.Model.Basic
import Verif.Model.Critical

/-!
# Limiter points along the wall (machine.py)
-/

namespace FreeGS.Limits

open FreeGS.Critical

variable {K : Type*} [Field K] [LinearOrder K]

/-- The wall point `i`. -/
def pt (wall : List (K × K)) (i : ℕ) : K × K := wall.getD i (0, 0)

/-- `np.insert(np.cumsum(np.sqrt(np.sum(np.diff(points, axis=0) ** 2, axis=1))), 0, 0)` at `i` (machine.py:690-691). -/
def cumulated (sqrt : K → K) (wall : List (K × K)) : ℕ → K
  | 0 => 0
  | i + 1 => cumulated sqrt wall i +
      sqrt (((pt wall (i + 1)).1 - (pt wall i).1) ^ 2 + ((pt wall (i + 1)).2 - (pt wall i).2) ^ 2)

/-- `scipy.interpolate.interp1d(x, y, kind="linear")(v)` for `n` points with increasing `x`: `searchsorted` from the left, the index clipped
to `1 .. n - 1`, then the straight line. A value outside the range is a `ValueError`. The library is outside the repository; this
follows its published source. -/
def interp1d (n : ℕ) (x : ℕ → K) (y : ℕ → K × K) (v : K) : Except Err (K × K) :=
  if v < x 0 ∨ x (n - 1) < v then .error .value
  else
    let hi := min (max ((firstTrue (fun i => decide (v ≤ x i)) n 0).getD n) 1) (n - 1)
    let lo := hi - 1
    if x hi - x lo = 0 then .error .nonfinite
    else .ok ((y lo).1 + ((y hi).1 - (y lo).1) / (x hi - x lo) * (v - x lo), (y lo).2 + ((y hi).2 - (y lo).2) / (x hi - x lo) * (v - x lo))

/-- A loop that collects results. -/
def collect (f : K → Except Err (K × K)) : List K → Except Err (List (K × K))
  | [] => .ok []
  | v :: rest =>
    match f v with
    | .error err => .error err
    | .ok q =>
      match collect f rest with
      | .error err => .error err
      | .ok qs => .ok (q :: qs)

/-- `generate_limit_points(nlimit)` (machine.py:680-700): `distance[-1]` of a wall with one point is an `IndexError`; a wall of length
zero gives nan. -/
def limitPoints (sqrt : K → K) (wall : List (K × K)) (nlimit : ℕ) : Except Err (List (K × K)) :=
  let n := wall.length
  if n ≤ 1 then .error .index
  else
    let total := cumulated sqrt wall (n - 1)
    if total = 0 then .error .nonfinite
    else collect (interp1d n (fun i => cumulated sqrt wall i / total) (pt wall)) ((List.range nlimit).map (linspaceAt 0 1 nlimit))

/-- The wall of a machine and its limiter points; `points = none`: the attributes `limit_points_R` and `limit_points_Z` are `None`. -/
structure Walled (K : Type*) where
  wall : Option (List (K × K))
  points : Option (List (K × K))

/-- The constructor of `Machine` (machine.py:648-659). -/
def Walled.make (sqrt : K → K) (wall : Option (List (K × K))) (nlimit : ℕ) : Except Err (Walled K) :=
  match wall with
  | none => .ok ⟨none, none⟩
  | some w =>
    match limitPoints sqrt w nlimit with
    | .error err => .error err
    | .ok pts => .ok ⟨some w, some pts⟩

/-- `geqdsk.read` with a limiter in the file (geqdsk.py:249-254). -/
def Walled.readLimiter (m : Walled K) (lim : List (K × K)) : Walled K :=
  if 3 < lim.length then { m with wall := some lim } else m

end FreeGS.Limits
