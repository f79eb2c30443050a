import Verif.Model.Basic

/-!
# Picard iteration (picard.py)

The equilibrium is an arbitrary type `S` of states with the operations the loop uses. The flux array is a list of its
values.
-/

namespace FreeGS.Picard

variable {K : Type*} [Field K] [LinearOrder K] {S : Type*}

/-- The operations of the equilibrium that `picard.solve` uses: `constrain(eq)`, `eq.psi()`, `eq.solve(profiles, psi=.., psi_bndry=..)`
after setting `eq.check_limited`, `eq.psi_bndry`, `eq.is_limited`. -/
structure Env (S K : Type*) where
  constrain : Option (S → Except Err S)
  psi : S → List K
  solve : S → Bool → List K → Option K → Except Err S
  bndry : S → Option K
  limited : S → Bool

/-- The arguments of `picard.solve` (picard.py:27-43), without those for plotting; `maxits = none` is Python's `None`. -/
structure Opts (K : Type*) where
  rtol : K
  atol : K
  blend : K
  psiBndry : Option K
  maxits : Option ℤ
  checkLimited : Bool
  waitForLimited : Bool
  limitIt : ℤ

/-- `if constrain is not None: constrain(eq)`. -/
def Env.adjust (e : Env S K) (s : S) : Except Err S :=
  match e.constrain with
  | none => .ok s
  | some f => f s

/-- `amax(a)`; numpy raises `ValueError` for an empty array, which an equilibrium never has. -/
def amax : List K → K
  | [] => 0
  | x :: xs => xs.foldl max x

/-- `amin(a)`. -/
def amin : List K → K
  | [] => 0
  | x :: xs => xs.foldl min x

/-- `amax(abs(psi_last - psi))` (picard.py:189-190). -/
def maxChange (a b : List K) : K := amax (List.zipWith (fun x y => |x - y|) a b)

/-- `psi_relchange < rtol` (picard.py:191, 217). If the flux is uniform the division gives nan or inf, and the comparison is
false. -/
def relOk (change : K) (psi : List K) (rtol : K) : Bool :=
  decide (amax psi - amin psi ≠ 0 ∧ change / (amax psi - amin psi) < rtol)

/-- The entry of the list of relative changes (picard.py:190, 193), `none` over a uniform flux. -/
def relChange (change : K) (psi : List K) : Option K :=
  if amax psi - amin psi = 0 then none else some (change / (amax psi - amin psi))

/-- The local variables of the loop. `bndryChange = none` stands for the initial `inf`. `hist` are the two lists of changes; a
relative change over a uniform flux is entered as `none`. -/
structure Vars (S K : Type*) where
  eq : S
  psi : List K
  iteration : ℤ
  bndry : K
  bndryChange : Option K
  hasBeenLimited : Bool
  hist : List (K × Option K)

/-- One pass of the loop: leave it, or go on. -/
inductive Outcome (S K : Type*) where
  | done (eq : S) (hist : List (K × Option K))
  | more (v : Vars S K)

/-- The body of the loop (picard.py:142-234). -/
def body (e : Env S K) (o : Opts K) (v : Vars S K) : Except Err (Outcome S K) :=
  let psiLast := v.psi
  let bndryLast := v.bndry
  let check : Bool := (decide (o.limitIt ≤ v.iteration) || v.hasBeenLimited) && o.checkLimited
  match (if check then e.solve v.eq true v.psi (e.bndry v.eq) else e.solve v.eq false v.psi o.psiBndry) with
  | .error err => .error err
  | .ok eq =>
    let hasBeenLimited := v.hasBeenLimited || e.limited eq
    let bndry := match e.bndry eq with
      | some b => b
      | none => v.bndry
    let bndryChange := match e.bndry eq with
      | some b => some (bndryLast - b)
      | none => v.bndryChange
    let bndryRelOk : Bool := match e.bndry eq with
      | some b => decide (b ≠ 0 ∧ |(bndryLast - b) / b| < o.rtol)
      | none => decide (2 * o.rtol < o.rtol)
    let bndryAbsOk : Bool := match bndryChange with
      | some c => decide (|c| < o.atol)
      | none => false
    let psi := e.psi eq
    let change := maxChange psiLast psi
    let hist := v.hist ++ [(change, relChange change psi)]
    let okToBreak := !o.waitForLimited || e.limited eq
    if (decide (change < o.atol) || relOk change psi o.rtol) && (bndryRelOk || bndryAbsOk) && okToBreak then
      .ok (.done eq hist)
    else
      match e.adjust eq with
      | .error err => .error err
      | .ok eq =>
        let psi := List.zipWith (fun x y => (1 - o.blend) * x + o.blend * y) (e.psi eq) psiLast
        let iteration := v.iteration + 1
        match o.maxits with
        | some m =>
          if m ≠ 0 ∧ m < iteration then .error .runtime
          else .ok (.more ⟨eq, psi, iteration, bndry, bndryChange, hasBeenLimited, hist⟩)
        | none => .ok (.more ⟨eq, psi, iteration, bndry, bndryChange, hasBeenLimited, hist⟩)

/-- `while True:` with at most `fuel` passes; `none` if it is still going on. -/
def loop (e : Env S K) (o : Opts K) : ℕ → Vars S K → Except Err (Option (S × List (K × Option K)))
  | 0, _ => .ok none
  | fuel + 1, v =>
    match body e o v with
    | .error err => .error err
    | .ok (.done eq hist) => .ok (some (eq, hist))
    | .ok (.more v) => loop e o fuel v

/-- `picard.solve(eq, profiles, ...)` (picard.py:84-236) within `fuel` passes of the loop. The second component of the result is
what is returned with `convergenceInfo`. -/
def picard (e : Env S K) (o : Opts K) (fuel : ℕ) (eq : S) : Except Err (Option (S × List (K × Option K))) :=
  match e.adjust eq with
  | .error err => .error err
  | .ok eq => loop e o fuel ⟨eq, e.psi eq, 0, 0, none, false, []⟩

end FreeGS.Picard
