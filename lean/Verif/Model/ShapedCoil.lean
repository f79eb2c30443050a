import Verif.Model.Quadrature

/-!
# Model of `freegs/shaped_coil.py`
-/

namespace FreeGS

open Polygons Quadrature

variable {K : Type*} [Field K] [LinearOrder K]

/-- The fields of a `ShapedCoil` (shaped_coil.py:84-97). -/
structure ShapedCoil (K : Type*) where
  rCentre : K
  zCentre : K
  current : K
  turns : K
  control : Bool
  area : K
  shape : List (Pt K)
  npoints : ℕ
  points : List (QPt K)

namespace ShapedCoil

/-- `ShapedCoil.__init__` (shaped_coil.py:65-97). `.ok none`: the constructor never returns, because the
triangulation does not. -/
def make (shape : List (Pt K)) (current : K := 0) (turns : K := 1) (control : Bool := true)
    (npoints : ℕ := 6) : Except Err (Option (ShapedCoil K)) :=
  if shape.length > 2 then
    match polygonQuad shape npoints with
    | .error e => .error e
    | .ok none => .ok none
    | .ok (some pts) =>
      .ok (some {
        rCentre := (shape.map Prod.fst).sum / shape.length
        zCentre := (shape.map Prod.snd).sum / shape.length
        current, turns, control
        area := |Polygons.area shape|
        shape, npoints, points := pts })
  else .error .assertion

/-- `controlPsi`, `controlBr`, `controlBz` (shaped_coil.py:99-125): the three methods differ only in the
Green's function, which is the argument `G Rc Zc R Z`. -/
def response (c : ShapedCoil K) (G : K → K → K → K → K) (R Z : K) : K :=
  (c.points.map fun q => G q.1 q.2.1 R Z * q.2.2).sum * c.turns

/-- The `R` setter (shaped_coil.py:143-148). -/
def setR (c : ShapedCoil K) (Rnew : K) : ShapedCoil K :=
  let s := Rnew - c.rCentre
  { c with points := c.points.map fun q => (q.1 + s, q.2.1, q.2.2), rCentre := Rnew }

/-- The `Z` setter (shaped_coil.py:157-162). -/
def setZ (c : ShapedCoil K) (Znew : K) : ShapedCoil K :=
  let s := Znew - c.zCentre
  { c with points := c.points.map fun q => (q.1, q.2.1 + s, q.2.2), zCentre := Znew }

/-- `inShape(polygon)` (shaped_coil.py:127-129); `overlap` is the area of the intersection of the coil
outline with the polygon, computed by `shapely` in the code. -/
def inShape (c : ShapedCoil K) (overlap : List (Pt K) → K) : K := overlap c.shape / c.area

end ShapedCoil
end FreeGS
