import Verif.Model.Optimiser
import Verif.Model.Picard

/-!
# Optimisation of an equilibrium (optimise.py:157-214)

The equilibrium is an arbitrary type `O` of states with the operations that `picard.solve` uses. Its random stream, control objects and
scores are those of `Model/Optimiser.lean`; `inf` is the largest score. Scores that are `nan` are not modelled.
-/

namespace FreeGS.Optimiser

variable {O S K : Type*} [Field K] [LinearOrder K] [LinearOrder S] [OrderTop S]

/-- The arguments that `picard.solve(eq, eq._profiles, eq._constraints)` leaves at their defaults (picard.py:27-43). -/
def picardDefaults : Picard.Opts K :=
  { rtol := 1 / 10 ^ 3
    atol := 1 / 10 ^ 10
    blend := 0
    psiBndry := none
    maxits := some 50
    checkLimited := false
    waitForLimited := false
    limitIt := 0 }

/-- What the optimiser needs to know of an equilibrium: `refresh` is `eq._pgreen = eq.tokamak.createPsiGreens(eq.R, eq.Z)`, `picard` the
operations of the iteration with `eq._profiles` and `eq._constraints`, `broken` what an iteration that ends with an exception leaves
behind, `measure` the function given by the user. -/
structure Problem (O S K : Type*) where
  refresh : O → O
  picard : Picard.Env O K
  broken : O → O
  measure : O → Except Err S

/-- `solve_and_measure(eq)` (optimise.py:199-210): the score and the equilibrium as it is afterwards. Every exception gives `inf`. The
iteration ends within `maxits + 1 = 51` passes (`C39_terminates`), so the case of no result does not occur. -/
def solveAndMeasure (p : Problem O S K) (eq : O) : S × O :=
  let eq := p.refresh eq
  match Picard.picard p.picard picardDefaults 51 eq with
  | .ok (some (eq', _)) =>
    match p.measure eq' with
    | .ok s => (s, eq')
    | .error _ => (⊤, eq')
  | _ => (⊤, p.broken eq)

/-- `optimise(eq, controls, measure, maxgen, N, CR, F, monitor)` (optimise.py:157-214). -/
def optimiseEq (p : Problem O S K) (eq : O) (controls : List (Control O K)) (maxgen N : ℕ) (CR F : K) (r : Rng K) :
    Except Err (Run S O) :=
  optimise eq controls (solveAndMeasure p) maxgen N CR F r

end FreeGS.Optimiser
