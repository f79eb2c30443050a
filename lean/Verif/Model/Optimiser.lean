import Verif.Model.Basic
import Mathlib.Data.List.Sort

/-!
# Model of `freegs/optimiser.py`

Objects are an arbitrary type `O` with value semantics: `copy.deepcopy` is the identity on values,
so no object is shared between population slots.  Scores are an arbitrary linear order `S`
(floats without NaN, infinities included).  Control values live in an ordered field `K`.
The numpy random generator is an arbitrary stream (`Rng`); the only facts used are the ranges
documented by numpy (`randint(0, h)` returns `0 ≤ x < h` and raises `ValueError` when `h ≤ 0`).
Not modelled: `_set_random_seed_if_called_in_pytest` (it only selects one of the streams).
The `measure` callback may change the object it is given (that of `optimise.optimise` solves the equilibrium): it gives the score and
the object as it is afterwards.
-/

namespace FreeGS.Optimiser

variable {O S K : Type*}

/-- The random streams consumed through `numpy.random`: raw integers for `randint`, values of
`random()`, and values of `normal(loc=0, scale=1)`. -/
structure Rng (K : Type*) where
  ints : ℕ → ℕ
  unif : ℕ → K
  norm : ℕ → K

/-- `random.randint(0, high)` of numpy (`from numpy import random`, optimiser.py:27): the upper bound is
exclusive and `high ≤ 0` raises `ValueError`. Every value below `high` is produced by some stream. -/
def randint (high : ℤ) (r : Rng K) : Except Err (ℕ × Rng K) :=
  if high ≤ 0 then .error .value
  else .ok (r.ints 0 % high.toNat, { r with ints := fun n => r.ints (n + 1) })

/-- `random.random()`. -/
def rand (r : Rng K) : K × Rng K := (r.unif 0, { r with unif := fun n => r.unif (n + 1) })

/-- `random.normal(loc=0.0, scale=1.0)`. -/
def normal (r : Rng K) : K × Rng K := (r.norm 0, { r with norm := fun n => r.norm (n + 1) })

/-- A control object with `.get(obj)` and `.set(obj, value)` (docstring optimiser.py:89-93).
`set` returns the modified object (the code modifies it in place). -/
structure Control (O K : Type*) where
  get : O → K
  set : O → K → O

section Mutate
variable [Field K] [LinearOrder K]

/-- The loop of `mutate` (optimiser.py:49-55). The value is read from the original `obj` (line 51)
and written to the copy. -/
def mutateLoop (obj : O) : List (Control O K) → O → Rng K → O × Rng K
  | [], new, r => (new, r)
  | c :: cs, new, r =>
    let (u, r) := rand r
    let v := c.get obj * (1 + (1 / 10) * (u - 1 / 2))
    if |v| < 1 / 10 ^ 10 then
      let (g, r) := normal r
      mutateLoop obj cs (c.set new (v + g)) r
    else
      mutateLoop obj cs (c.set new v) r

/-- `mutate(obj, controls)` (optimiser.py:40-56). -/
def mutate (obj : O) (controls : List (Control O K)) (r : Rng K) : O × Rng K :=
  mutateLoop obj controls obj r

end Mutate

/-- `bisect.insort` into a sorted list (optimiser.py:74): insert after entries that are equal. -/
def insort (x : ℕ) : List ℕ → List ℕ
  | [] => [x]
  | y :: ys => if x < y then x :: y :: ys else y :: insort x ys

/-- The skip loop `for ind in inds: if newind == ind: newind += 1` (optimiser.py:71-73). -/
def skip (newind : ℕ) (inds : List ℕ) : ℕ :=
  inds.foldl (fun n ind => if n = ind then n + 1 else n) newind

/-- The loop of `pickUnique` (optimiser.py:67-75), for the counter values `i, i+1, ..., i+k-1`;
`ne` is `len(e)`. -/
def pickLoop (N ne : ℕ) : ℕ → ℕ → List ℕ → List ℕ → Rng K → Except Err (List ℕ × Rng K)
  | 0, _, _, others, r => .ok (others, r)
  | k + 1, i, inds, others, r =>
    let high : ℤ := (N : ℤ) - 1 - i - ne
    let draw : Except Err (ℕ × Rng K) := if high > 0 then randint high r else .ok (0, r)
    match draw with
    | .error e => .error e
    | .ok (newind, r) =>
      let newind := skip newind inds
      pickLoop N ne k (i + 1) (insort newind inds) (others ++ [newind]) r

/-- `pickUnique(N, m, e)` (optimiser.py:59-76). Indices are natural numbers; the assertion
`m <= N - len(e)` (line 63) is evaluated in the integers, as in Python. -/
def pickUnique (N m : ℕ) (e : List ℕ) (r : Rng K) : Except Err (List ℕ × Rng K) :=
  if (m : ℤ) ≤ (N : ℤ) - e.length then
    pickLoop N e.length m 0 (e.insertionSort (· ≤ ·)) [] r
  else .error .assertion

section Optimise
variable [Field K] [LinearOrder K] [LinearOrder S]

/-- The inner loop over controls that builds a trial object (optimiser.py:143-149). Python's `or` is
short-circuiting: no random number is drawn for the forced control `R`. -/
def crossover (R : ℕ) (CR F : K) (o0 o1 o2 : O) :
    ℕ → List (Control O K) → O → Rng K → O × Rng K
  | _, [], x, r => (x, r)
  | i, c :: cs, x, r =>
    if i = R then
      crossover R CR F o0 o1 o2 (i + 1) cs (c.set x (c.get o0 + F * (c.get o1 - c.get o2))) r
    else
      let (u, r) := rand r
      if u < CR then
        crossover R CR F o0 o1 o2 (i + 1) cs (c.set x (c.get o0 + F * (c.get o1 - c.get o2))) r
      else crossover R CR F o0 o1 o2 (i + 1) cs x r

/-- One trial object for agent number `ai` (optimiser.py:138-149): three other agents, a forced control and
the crossover. `population[index]` and `others[k]` raise `IndexError` when out of range. -/
def trial (N : ℕ) (controls : List (Control O K)) (CR F : K) (population : List (S × O))
    (ai : ℕ) (agent : S × O) (r : Rng K) : Except Err (O × Rng K) :=
  match pickUnique N 3 [ai] r with
  | .error e => .error e
  | .ok (idx, r) =>
    match idx with
    | [i0, i1, i2] =>
      match population[i0]?, population[i1]?, population[i2]? with
      | some p0, some p1, some p2 =>
        match randint ((controls.length : ℤ) - 1) r with
        | .error e => .error e
        | .ok (R, r) => .ok (crossover R CR F p0.2 p1.2 p2.2 0 controls agent.2 r)
      | _, _, _ => .error .index
    | _ => .error .index

/-- The loop over agents of one generation (optimiser.py:137-159). Carries the rest of the
population, the next population so far and the best candidate. -/
def agentLoop (N : ℕ) (controls : List (Control O K)) (measure : O → S × O) (CR F : K)
    (population : List (S × O)) :
    ℕ → List (S × O) → List (S × O) → (S × O) → Rng K →
      Except Err (List (S × O) × (S × O) × Rng K)
  | _, [], next, best, r => .ok (next, best, r)
  | ai, agent :: rest, next, best, r =>
    match trial N controls CR F population ai agent r with
    | .error e => .error e
    | .ok (newObj, r) =>
      let new := measure newObj
      if new.1 < agent.1 then
        agentLoop N controls measure CR F population (ai + 1) rest (next ++ [new])
          (if new.1 < best.1 then new else best) r
      else
        agentLoop N controls measure CR F population (ai + 1) rest (next ++ [agent]) best r

/-- The initial population (optimiser.py:125-133). Line 132 compares with `>`. -/
def initLoop (obj : O) (controls : List (Control O K)) (measure : O → S × O) :
    ℕ → List (S × O) → (S × O) → Rng K → List (S × O) × (S × O) × Rng K
  | 0, pop, best, r => (pop, best, r)
  | k + 1, pop, best, r =>
    let (agent, r) := mutate obj controls r
    let sa := measure agent
    initLoop obj controls measure k (pop ++ [sa]) (if sa.1 > best.1 then sa else best) r

/-- The generation loop (optimiser.py:135-164). The list of `(best, population)` pairs is what the monitor sees
(line 162). -/
def genLoop (N : ℕ) (controls : List (Control O K)) (measure : O → S × O) (CR F : K) :
    ℕ → List (S × O) → (S × O) → List ((S × O) × List (S × O)) → Rng K →
      Except Err ((S × O) × List ((S × O) × List (S × O)))
  | 0, _, best, seen, _ => .ok (best, seen)
  | g + 1, pop, best, seen, r =>
    match agentLoop N controls measure CR F pop 0 pop [] best r with
    | .error e => .error e
    | .ok (next, best, r) => genLoop N controls measure CR F g next best (seen ++ [(best, next)]) r

/-- What a run of `optimise` makes observable: the returned object, the initial population, and the
arguments of the monitor calls. -/
structure Run (S O : Type*) where
  result : O
  initBest : S × O
  initPop : List (S × O)
  monitored : List ((S × O) × List (S × O))

/-- `optimise(obj, controls, measure, maxgen, N, CR, F, monitor)` (optimiser.py:79-166). The object that is given is itself measured and is
the first of the population; the others are made from it as it is afterwards. -/
def optimise (obj : O) (controls : List (Control O K)) (measure : O → S × O) (maxgen N : ℕ) (CR F : K)
    (r : Rng K) : Except Err (Run S O) :=
  if N ≥ 4 then
    let b0 := measure obj
    let (pop, best, r) := initLoop b0.2 controls measure (N - 1) [b0] b0 r
    match genLoop N controls measure CR F maxgen pop best [] r with
    | .error e => .error e
    | .ok (b, seen) => .ok ⟨b.2, best, pop, seen⟩
  else .error .assertion

end Optimise

end FreeGS.Optimiser
