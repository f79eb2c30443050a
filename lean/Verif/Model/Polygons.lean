import Verif.Model.Basic

/-!
# Model of `freegs/polygons.py`

A vertex is a pair `(r, z)` over an ordered field `K`.  `intersect` takes the coordinate lists apart from
each other in Python; after the two length assertions they are zipped into vertex lists here.
The tolerance `1e-6` is the exact rational `1/10^6`.
-/

namespace FreeGS.Polygons

variable {K : Type*} [Field K] [LinearOrder K]

/-- A point `(r, z)`. -/
abbrev Pt (K : Type*) := K × K

/-- The pairs of vertices visited by the loops of `intersect` (polygons.py:37-47) and `area`
(polygons.py:84-87): `n` is `len` for a closed polygon and `len - 1` for an open one; the second index
is `(i + 1) % n`. All indices are below `len`, so the default of `getD` is never used. -/
def edges (p : List (Pt K)) (closed : Bool) : List (Pt K × Pt K) :=
  let n := if closed then p.length else p.length - 1
  (List.range n).map fun i => (p.getD i (0, 0), p.getD ((i + 1) % n) (0, 0))

/-- The test of one pair of segments `P1--P2`, `Q1--Q2` (polygons.py:49-66). -/
def segCross (P1 P2 Q1 Q2 : Pt K) : Bool :=
  let a := P2.1 - P1.1
  let b := Q2.1 - Q1.1
  let c := P2.2 - P1.2
  let d := Q2.2 - Q1.2
  let dr := Q2.1 - P1.1
  let dz := Q2.2 - P1.2
  let det := a * d - b * c
  if |det| < 1 / 10 ^ 6 then false
  else
    let alpha := (d * dr - b * dz) / det
    let beta := (a * dz - c * dr) / det
    decide (alpha > 0) && decide (alpha < 1) && decide (beta > 0) && decide (beta < 1)

/-- The double loop of `intersect` (polygons.py:40-68) on vertex lists. -/
def intersectPts (p1 p2 : List (Pt K)) (closed1 closed2 : Bool) : Bool :=
  (edges p1 closed1).any fun e => (edges p2 closed2).any fun f => segCross e.1 e.2 f.1 f.2

/-- `intersect(r1, z1, r2, z2, closed1, closed2)` (polygons.py:27-68). -/
def intersect (r1 z1 r2 z2 : List K) (closed1 closed2 : Bool := true) : Except Err Bool :=
  if r1.length = z1.length then
    if r2.length = z2.length then
      .ok (intersectPts (r1.zip z1) (r2.zip z2) closed1 closed2)
    else .error .assertion
  else .error .assertion

/-- `area(polygon)` (polygons.py:71-88). -/
def area (p : List (Pt K)) : K :=
  (1 / 2) * ((edges p true).map fun e => (e.2.1 - e.1.1) * (e.1.2 + e.2.2)).sum

/-- `clockwise(polygon)` (polygons.py:91-102). -/
def clockwise (p : List (Pt K)) : Bool := decide (area p > 0)

/-- The cross product of the two edges at a vertex (polygons.py:134-136). -/
def cross (prev vert next : Pt K) : K :=
  (vert.2 - prev.2) * (next.1 - vert.1) - (vert.1 - prev.1) * (next.2 - vert.2)

/-- `polygon[i - 1]`: Python index `-1` is the last vertex (polygons.py:130). -/
def prevVert (p : List (Pt K)) (i : ℕ) : Pt K :=
  if i = 0 then p.getD (p.length - 1) (0, 0) else p.getD (i - 1) (0, 0)

/-- `polygon[(i + 1) % nvert]` (polygons.py:129). -/
def nextVert (p : List (Pt K)) (i : ℕ) : Pt K := p.getD ((i + 1) % p.length) (0, 0)

/-- The rest of the polygon `polygon[i+1:] + polygon[:i]` (polygons.py:144-151). -/
def restOf (p : List (Pt K)) (i : ℕ) : List (Pt K) := p.drop (i + 1) ++ p.take i

/-- Whether vertex `i` is accepted as an ear (polygons.py:128-156). -/
def isEar (p : List (Pt K)) (i : ℕ) : Bool :=
  let vert := p.getD i (0, 0)
  if cross (prevVert p i) vert (nextVert p i) < 0 then false
  else !intersectPts [prevVert p i, vert, nextVert p i] (restOf p i) false false

/-- The `for i in range(nvert)` search for an ear (polygons.py:127-163). -/
def findEar (p : List (Pt K)) : Option ℕ := (List.range p.length).find? (isEar p)

/-- State of the `while` loop: the remaining polygon and the triangles found. -/
structure TState (K : Type*) where
  poly : List (Pt K)
  tris : List (List (Pt K))

/-- One execution of the body of `while nvert > 3` (polygons.py:125-163). If no ear is found the state
does not change. -/
def body (s : TState K) : TState K :=
  match findEar s.poly with
  | some i =>
    ⟨s.poly.eraseIdx i,
      s.tris ++ [[prevVert s.poly i, s.poly.getD i (0, 0), nextVert s.poly i]]⟩
  | none => s

/-- The orientation step (polygons.py:114-118). -/
def orient (p : List (Pt K)) : List (Pt K) := if clockwise p then p else p.reverse

/-- The `while` loop with a bound on the number of executions of the body; `none` if the bound
is exhausted. -/
def loop : ℕ → TState K → Option (List (List (Pt K)))
  | 0, s => if s.poly.length > 3 then none else some (s.tris ++ [s.poly])
  | n + 1, s => if s.poly.length > 3 then loop n (body s) else some (s.tris ++ [s.poly])

/-- `triangulate(polygon)` (polygons.py:105-167): `.ok (some T)` is a normal return of `T`, `.ok none` means
that the call never returns. Each productive execution of the loop body removes a vertex, so `len` executions
decide the matter; `Verif/Lemmas/Polygons.lean` proves this (`triangulate_none_iff`, `triangulate_some_iff`). -/
def triangulate (p : List (Pt K)) : Except Err (Option (List (List (Pt K)))) :=
  if p.length > 2 then .ok (loop p.length ⟨orient p, []⟩) else .error .assertion

end FreeGS.Polygons
