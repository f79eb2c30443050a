import Mathlib.Algebra.Order.Field.Basic
import Mathlib.Analysis.Convex.Segment
import Mathlib.Data.List.Rotate
import Mathlib.Algebra.Ring.Parity

/-!
# Specification: the inside of a polygon by the even-odd rule

The polygon is arbitrary: it need not be convex, nor free of self-intersections.
-/

namespace FreeGS.Spec

variable {K : Type*}

/-- The sides of the closed polygon, as pairs of corners: each corner with the next, the last with the first. -/
def sides (w : List (K × K)) : List ((K × K) × (K × K)) := w.zip (w.rotate 1)

variable [Field K] [LinearOrder K]

/-- The horizontal ray from `x` to the right meets the side: one end is above the height of `x` and the other is not, and the point of the
side at that height is right of `x`. -/
def RayMeets (x : K × K) (s : (K × K) × (K × K)) : Prop :=
  (x.2 < s.1.2 ↔ ¬ x.2 < s.2.2) ∧ x.1 < s.1.1 + (x.2 - s.1.2) * ((s.2.1 - s.1.1) / (s.2.2 - s.1.2))

instance (x : K × K) (s : (K × K) × (K × K)) : Decidable (RayMeets x s) := by unfold RayMeets; infer_instance

/-- `x` is inside the polygon by the even-odd rule: the ray meets an odd number of sides. -/
def Within (w : List (K × K)) (x : K × K) : Prop := Odd ((sides w).countP fun s => RayMeets x s)

instance (w : List (K × K)) (x : K × K) : Decidable (Within w x) := by unfold Within; infer_instance

/-- The segment from `x` to `y` is in general position: its ends are on no side of the polygon, and no corner of the polygon is on it. -/
def General (w : List (K × K)) (x y : K × K) : Prop :=
  ∀ s ∈ sides w, x ∉ segment K s.1 s.2 ∧ y ∉ segment K s.1 s.2 ∧ s.1 ∉ segment K x y

end FreeGS.Spec
