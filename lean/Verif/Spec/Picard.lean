import Verif.Model.Picard

/-!
# Specification: the sequence of Picard steps
-/

namespace FreeGS.Picard

variable {K : Type*} [Field K] [LinearOrder K] {S : Type*}

/-- The largest value of a non-empty list: it is attained and not exceeded. -/
def IsMax (l : List K) (m : K) : Prop := m ∈ l ∧ ∀ x ∈ l, x ≤ m
/-- The smallest value. -/
def IsMin (l : List K) (m : K) : Prop := m ∈ l ∧ ∀ x ∈ l, m ≤ x

/-- Whether the limiter is looked at in step `n`, given that an earlier step found a limited plasma or not. -/
def Checks (o : Opts K) (n : ℕ) (wasLimited : Bool) : Bool :=
  o.checkLimited && (decide (o.limitIt ≤ n) || wasLimited)

/-- The linear solve of step `n`, starting from the equilibrium `s` with the flux `p`. -/
def step (e : Env S K) (o : Opts K) (n : ℕ) (wasLimited : Bool) (s : S) (p : List K) : Except Err S :=
  if Checks o n wasLimited then e.solve s true p (e.bndry s) else e.solve s false p o.psiBndry

/-- `Run e o eq0 n s p l b`: after `n` steps from `eq0` the equilibrium is `s` with its coil currents adjusted, the next linear solve
is to be given the flux `p`, `l` says whether a step found a limited plasma, and `b` is the last boundary flux found by a step. -/
inductive Run (e : Env S K) (o : Opts K) (eq0 : S) : ℕ → S → List K → Bool → Option K → Prop
  | start {s} (h : e.adjust eq0 = .ok s) : Run e o eq0 0 s (e.psi s) false none
  | next {n s p l b s' s''} (r : Run e o eq0 n s p l b) (hs : step e o n l s p = .ok s') (ha : e.adjust s' = .ok s'') :
      Run e o eq0 (n + 1) s'' (List.zipWith (fun x y => (1 - o.blend) * x + o.blend * y) (e.psi s'') p)
        (l || e.limited s') ((e.bndry s').or b)

/-- The flux map after a linear solve is close to the one it was calculated from: the largest difference is below `atol`, or below
`rtol` times the range of the flux. -/
def FluxConverged (o : Opts K) (before after : List K) : Prop :=
  ∃ m lo hi, IsMax (List.zipWith (fun x y => |x - y|) before after) m ∧ IsMin after lo ∧ IsMax after hi ∧
    (m < o.atol ∨ (lo < hi ∧ m < o.rtol * (hi - lo)))

/-- The boundary flux is close to the previous one, or to zero if there was none: the difference is below `atol`, or below `rtol` times
the flux. -/
def BoundaryConverged (o : Opts K) (before : Option K) (after : K) : Prop :=
  |before.getD 0 - after| < o.atol ∨ (after ≠ 0 ∧ |before.getD 0 - after| < o.rtol * |after|)

end FreeGS.Picard
