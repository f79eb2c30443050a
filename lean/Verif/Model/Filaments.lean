import Verif.Model.Polygons
import Mathlib.Analysis.Real.Sqrt
import Mathlib.Algebra.Order.Floor.Semiring

/-!
# Filling a coil cross section with filaments (`populate_with_fils`, filament_coil.py:32-158)

`my_polygon.contains` and `np.interp` are arguments. `np.interp` is called with a list and returns an array with one element; so do the sums
with it in the staggered rows of the last pass. A list of plain numbers and such arrays cannot be made an array: `np.asarray` raises
`ValueError` (numpy 1.24 or later; the project asks for 1.25). With shapely 2 `geometry.Point` raises `ValueError` for such a mixture
already; the model follows shapely 1, where it does not.
-/

namespace FreeGS.Filaments

/-- `np.arange(a, b, d)` for `d > 0`. -/
noncomputable def arange (a b d : ℝ) : List ℝ := (List.range ⌈(b - a) / d⌉₊).map fun i : ℕ => a + i * d

/-- The bounding box (filament_coil.py:38-45); `ValueError` for an empty list is not reached, since `FilamentCoil` asks for three points. -/
noncomputable def lowest (l : List ℝ) : ℝ := l.foldr min (l.headD 0)
noncomputable def highest (l : List ℝ) : ℝ := l.foldr max (l.headD 0)

/-- The points of row `i` at height `z` (filament_coil.py:84-101, 133-149): every other row is shifted by half the spacing. -/
noncomputable def row (Rgrid : List ℝ) (d : ℝ) (i : ℕ) (z : ℝ) : List (ℕ × ℝ × ℝ) :=
  Rgrid.map fun r => (i, r + (if i % 2 = 1 then 1 / 2 * d else 0), z)

/-- The points of a pass with spacing `d` that are inside, with the numbers of their rows (filament_coil.py:73-101, 125-153). -/
noncomputable def inside (contains : ℝ × ℝ → Bool) (shape : List (ℝ × ℝ)) (d : ℝ) : List (ℕ × ℝ × ℝ) :=
  let Rgrid := arange (lowest (shape.map Prod.fst)) (highest (shape.map Prod.fst)) d
  let Zgrid := arange (lowest (shape.map Prod.snd)) (highest (shape.map Prod.snd)) d
  ((List.range Zgrid.length).flatMap fun i => row Rgrid d i (Zgrid.getD i 0)).filter fun p => contains p.2

/-- The loop `while nInside < Nfils` (filament_coil.py:71-108): the numbers of points inside and the spacings so far. `none`: not finished
after the given number of rounds. -/
noncomputable def scan (count : ℝ → ℕ) (N : ℕ) : ℕ → ℝ → ℕ → List (ℕ × ℝ) → Option (List (ℕ × ℝ))
  | fuel, d, n, data =>
    if n < N then
      match fuel with
      | 0 => none
      | fuel + 1 => scan count N fuel (d * (995 / 1000)) (count d) (data ++ [(count d, d)])
    else some data

/-- `populate_with_fils(shape, Nfils)`. A spacing of zero raises `ValueError` in `np.arange`, and so does `np.interp` without data. -/
noncomputable def populate (contains : ℝ × ℝ → Bool) (interp : ℝ → List (ℕ × ℝ) → ℝ) (shape : List (ℝ × ℝ)) (N : ℕ) (fuel : ℕ) :
    Option (Except Err (List (ℝ × ℝ))) :=
  let d := Real.sqrt (|Polygons.area shape| / N)
  if d = 0 then some (.error .value)
  else
    match scan (fun d => (inside contains shape d).length) N fuel d 0 [] with
    | none => none
    | some [] => some (.error .value)
    | some (x :: xs) =>
      let pts := inside contains shape (interp (N * (11 / 10)) (x :: xs))
      if (pts.any fun p => p.1 % 2 = 0) && (pts.any fun p => p.1 % 2 = 1) then some (.error .value) else some (.ok (pts.map Prod.snd))

end FreeGS.Filaments
