import Verif.Model.Polygons
import Verif.Model.Separatrix
import Mathlib.Order.WithBot

/-!
# Does the plasma touch the wall: `Equilibrium.intersectsWall`, `optimise.no_wall_intersection`
-/

namespace FreeGS.WallTest

open FreeGS.Polygons

variable {K : Type*} [Field K] [LinearOrder K]

/-- `eq.intersectsWall()` (equilibrium.py:747-754), given the outcome of `self.separatrix()` and the coordinate lists of the wall of the
machine, which may be `None`. -/
def intersectsWall (separatrix : Except Err (List (K × K))) (wall : Option (List K × List K)) : Except Err Bool :=
  match separatrix with
  | .error err => .error err
  | .ok s =>
    match wall with
    | none => .error .attribute
    | some w => intersect (s.map Prod.fst) (s.map Prod.snd) w.1 w.2

/-- `no_wall_intersection(eq)` (optimise.py:48-52); `⊤` is `float("inf")`. -/
def noWallIntersection (separatrix : Except Err (List (K × K))) (wall : Option (List K × List K)) : Except Err (WithTop K) :=
  match intersectsWall separatrix wall with
  | .error err => .error err
  | .ok true => .ok ⊤
  | .ok false => .ok (0 : K)

/-- The call for an equilibrium with its own separatrix of 360 points (equilibrium.py:436, 751). -/
noncomputable def ofEquilibrium (eq : Separatrix.Eq) (opoint xpoint : List (Critical.Point ℝ)) (wall : Option (List ℝ × List ℝ)) :
    Except Err Bool := intersectsWall (Separatrix.separatrix eq opoint xpoint 360) wall

end FreeGS.WallTest
