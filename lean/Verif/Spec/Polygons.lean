import Mathlib.Algebra.Order.Field.Basic
import Mathlib.Analysis.Convex.Segment

/-!
# Specification vocabulary for plane polygons

Independent of the model: edges of a closed polygon and of an open polyline, proper crossings,
twice the signed area of a triangle, convex and simple polygons, translations.
-/

namespace FreeGS.Spec

variable {K : Type*}

/-- `A → B` is an edge of the closed polygon `p`: consecutive vertices, the last joined to the first. -/
def ClosedEdge (p : List (K × K)) (A B : K × K) : Prop :=
  ∃ i, ∃ h : i < p.length, A = p[i] ∧
    B = p[(i + 1) % p.length]'(Nat.mod_lt _ (Nat.lt_of_le_of_lt (Nat.zero_le _) h))

/-- `A → B` is a segment of the open polyline `p`: consecutive vertices. -/
def OpenEdge (p : List (K × K)) (A B : K × K) : Prop :=
  ∃ i, ∃ h : i + 1 < p.length, A = p[i] ∧ B = p[i + 1]

variable [Field K] [LinearOrder K]

/-- The segments `A B` and `C D` have a point strictly inside both. -/
def CrossInside (A B C D : K × K) : Prop := (openSegment K A B ∩ openSegment K C D).Nonempty

/-- Cross product of the directions of two segments. -/
def dirCross (A B C D : K × K) : K := (B.1 - A.1) * (D.2 - C.2) - (D.1 - C.1) * (B.2 - A.2)

/-- Twice the area of the triangle `A B C`, positive if it is run through clockwise. -/
def turn (A B C : K × K) : K := (B.2 - A.2) * (C.1 - A.1) - (B.1 - A.1) * (C.2 - A.2)

/-- Every three vertices, in list order, turn clockwise (or are collinear): a convex polygon listed
clockwise. -/
def ConvexCW (p : List (K × K)) : Prop :=
  ∀ A B C, List.Sublist [A, B, C] p → 0 ≤ turn A B C

/-- No two different edges of the closed polygon meet, except at the vertex shared by neighbouring edges;
written for the points of the closed segments. -/
def SimplePolygon (p : List (K × K)) : Prop :=
  p.Nodup ∧ ∀ i j, ∀ hi : i < p.length, ∀ hj : j < p.length, i < j →
    ∀ X, X ∈ segment K p[i] (p[(i + 1) % p.length]'(Nat.mod_lt _ (Nat.lt_of_le_of_lt (Nat.zero_le _) hi))) →
      X ∈ segment K p[j] (p[(j + 1) % p.length]'(Nat.mod_lt _ (Nat.lt_of_le_of_lt (Nat.zero_le _) hj))) →
      (j = i + 1 ∧ X = p[j]) ∨ (i = 0 ∧ j + 1 = p.length ∧ X = p[i])

/-- Translate a polygon. -/
def shift (v : K × K) (p : List (K × K)) : List (K × K) := p.map fun q => (q.1 + v.1, q.2 + v.2)

end FreeGS.Spec
