import Verif.Model.Polygons

/-!
# Model of `freegs/quadrature.py`

Decimal constants are exact rationals.
-/

namespace FreeGS.Quadrature

open FreeGS.Polygons

variable {K : Type*} [Field K] [LinearOrder K]

/-- A quadrature point `(r, z, weight)`. -/
abbrev QPt (K : Type*) := K × K × K

/-- The point with barycentric coordinates `(a, b, c)` (the coordinate expressions of
quadrature.py:51-73). -/
def bary (P1 P2 P3 : Pt K) (a b c : K) : Pt K :=
  (a * P1.1 + b * P2.1 + c * P3.1, a * P1.2 + b * P2.2 + c * P3.2)

/-- The constant `a` of the six-point rule (quadrature.py:61). -/
def qa : K := 816847572980459 / 10 ^ 15
/-- The constant `c` of the six-point rule (quadrature.py:64). -/
def qc : K := 108103018168070 / 10 ^ 15
/-- `b = 0.5 * (1.0 - a)` (quadrature.py:62). -/
def qb : K := 1 / 2 * (1 - qa)
/-- `d = 0.5 * (1.0 - c)` (quadrature.py:65). -/
def qd : K := 1 / 2 * (1 - qc)
/-- Weight of the first three points (quadrature.py:68-70). -/
def qw1 : K := 109951743655322 / 10 ^ 15
/-- Weight of the last three points (quadrature.py:71-73). -/
def qw2 : K := 223381589678011 / 10 ^ 15

/-- `triangle_quad(triangle, n)` (quadrature.py:31-76). A list that does not have three entries raises
`AssertionError` (line 43). -/
def triangleQuad (t : List (Pt K)) (n : ℕ) : Except Err (List (QPt K)) :=
  match t with
  | [P1, P2, P3] =>
    if n = 1 then
      .ok [((P1.1 + P2.1 + P3.1) / 3, (P1.2 + P2.2 + P3.2) / 3, 1)]
    else if n = 3 then
      .ok [((4 * P1.1 + P2.1 + P3.1) / 6, (4 * P1.2 + P2.2 + P3.2) / 6, 1 / 3),
        ((P1.1 + 4 * P2.1 + P3.1) / 6, (P1.2 + 4 * P2.2 + P3.2) / 6, 1 / 3),
        ((P1.1 + P2.1 + 4 * P3.1) / 6, (P1.2 + P2.2 + 4 * P3.2) / 6, 1 / 3)]
    else if n = 6 then
      .ok [((bary P1 P2 P3 qa qb qb).1, (bary P1 P2 P3 qa qb qb).2, qw1),
        ((bary P1 P2 P3 qb qa qb).1, (bary P1 P2 P3 qb qa qb).2, qw1),
        ((bary P1 P2 P3 qb qb qa).1, (bary P1 P2 P3 qb qb qa).2, qw1),
        ((bary P1 P2 P3 qc qd qd).1, (bary P1 P2 P3 qc qd qd).2, qw2),
        ((bary P1 P2 P3 qd qc qd).1, (bary P1 P2 P3 qd qc qd).2, qw2),
        ((bary P1 P2 P3 qd qd qc).1, (bary P1 P2 P3 qd qd qc).2, qw2)]
    else .error .value
  | _ => .error .assertion

/-- The loop over the triangles in `polygon_quad` (quadrature.py:100-107). Division by a zero total area raises
`ZeroDivisionError` (Python floats); the points of the triangle are computed before the division. -/
def quadLoop (total : K) (n : ℕ) : List (List (Pt K)) → Except Err (List (QPt K))
  | [] => .ok []
  | t :: ts =>
    match triangleQuad t n with
    | .error e => .error e
    | .ok pts =>
      if total = 0 then .error .zeroDivision
      else
        match quadLoop total n ts with
        | .error e => .error e
        | .ok rest => .ok (pts.map (fun q => (q.1, q.2.1, q.2.2 * area t / total)) ++ rest)

/-- `polygon_quad(polygon, n)` (quadrature.py:79-107). `.ok none`: the triangulation never returns. -/
def polygonQuad (p : List (Pt K)) (n : ℕ) : Except Err (Option (List (QPt K))) :=
  match triangulate p with
  | .error e => .error e
  | .ok none => .ok none
  | .ok (some T) =>
    match quadLoop (T.map area).sum n T with
    | .error e => .error e
    | .ok q => .ok (some q)

/-- `average(func, quad)` (quadrature.py:110-114). -/
def average (f : K → K → K) (q : List (QPt K)) : K := (q.map fun x => f x.1 x.2.1 * x.2.2).sum

end FreeGS.Quadrature
