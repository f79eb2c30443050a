import Verif.Model.Store

/-!
# What calls may change: specifications for C120 and C121
-/

namespace FreeGS.Store

open FreeGS.GS FreeGS.Equil

universe u
variable {K : Type u} [Field K] [LinearOrder K] {C : Type u}

/-- From `w` to `w'` nothing changed but equilibrium `i`, its flux array, its machine, and arrays that did not exist before. -/
structure Only (i : ℕ) (w w' : World C K) : Prop where
  arrays : ∀ r, r < w.next → r ≠ (w.eqs i).psi → w'.arrays r = w.arrays r
  next : w.next ≤ w'.next
  machines : ∀ m, m ≠ (w.eqs i).machine → w'.machines m = w.machines m
  count : w'.count = w.count
  others : ∀ j, j ≠ i → w'.eqs j = w.eqs j
  machine : (w'.eqs i).machine = (w.eqs i).machine
  psi : (w'.eqs i).psi = (w.eqs i).psi ∨ (w.next ≤ (w'.eqs i).psi ∧ (w'.eqs i).psi < w'.next)

/-- Every equilibrium has a flux array of its own, which is not the current density of any equilibrium. -/
structure Separate (w : World C K) : Prop where
  psi_lt : ∀ i, i < w.count → (w.eqs i).psi < w.next
  jtor_lt : ∀ i, i < w.count → ∀ r, (w.eqs i).jtor = some r → r < w.next
  psi_ne : ∀ i j, i < w.count → j < w.count → i ≠ j → (w.eqs i).psi ≠ (w.eqs j).psi
  jtor_ne : ∀ i j, i < w.count → j < w.count → (w.eqs i).jtor ≠ some (w.eqs j).psi

/-- A call that is not addressed to equilibrium `j`, its machine or its arrays, and is given no array that an equilibrium holds as its flux
(for a new equilibrium: holds at all). -/
def Careful (j : ℕ) (w : World C K) : Call C K → Prop
  | .array _ => True
  | .assign r _ => (w.eqs j).psi ≠ r ∧ (w.eqs j).jtor ≠ some r
  | .machine m _ => m ≠ (w.eqs j).machine
  | .create _ _ psi0 _ _ _ =>
    ∀ r, psi0 = some r → r < w.next ∧ ∀ k, k < w.count → (w.eqs k).psi ≠ r ∧ (w.eqs k).jtor ≠ some r
  | .solve _ _ i given _ _ =>
    i ≠ j ∧ i < w.count ∧ ∀ r, given = some r → r < w.next ∧ ∀ k, k < w.count → (w.eqs k).psi ≠ r
  | .picard _ _ constrain _ i _ => i ≠ j ∧ i < w.count ∧ (constrain ≠ none → (w.eqs i).machine ≠ (w.eqs j).machine)

/-- Every call of the history is careful when it is made. -/
def CarefulAll (j : ℕ) : World C K → List (Call C K) → Prop
  | _, [] => True
  | w, c :: l => Careful j w c ∧ CarefulAll j (c.run w) l

/-- The outcome of a call as seen by someone who only looks at equilibrium `i`, and not after an exception. -/
def seen (i : ℕ) : Out C K → Except Err (State C K)
  | (some x, _) => .error x
  | (none, w) => .ok (w.view i)

/-- The state with other attributes. -/
def put (st : State C K) (a : Attrs K) : State C K :=
  { tokamak := st.tokamak, plasmaPsi := st.plasmaPsi, spline := a.spline, current := a.current, jtor := st.jtor,
    checkLimited := a.checkLimited, psiAxis := a.psiAxis, psiBndry := a.psiBndry, psiXpt := a.psiXpt, psiLimit := a.psiLimit,
    contact := a.contact, isLimited := a.isLimited, mask := a.mask }

/-- A profile object does the same in the world as in the model of values, and leaves `spline`, `current`, `check_limited` alone. -/
structure Matches (p : Profile C K) (q : Profiles C K) : Prop where
  value : ∀ w i psi b, (match p w i psi b with
    | (.error x, _) => .error x
    | (.ok J, a) => .ok (put (w.view i) a, J)) = q (w.view i) psi b
  keeps : ∀ w i psi b, (p w i psi b).2.spline = (w.eqs i).attrs.spline ∧ (p w i psi b).2.current = (w.eqs i).attrs.current ∧
    (p w i psi b).2.checkLimited = (w.eqs i).attrs.checkLimited

/-- The boundary function and the solver do not share the flux array: von Hagenow's boundary with a solver that works in place does. -/
def NotShared (s : Setup C K) : Prop := s.inPlace = true → (match s.boundary with | .hagenow => False | _ => True)

/-- Nothing of the plasma is changed: neither flux nor interpolation nor current nor current density. -/
structure Untouched (i : ℕ) (w w' : World C K) : Prop where
  psi : (w'.eqs i).psi = (w.eqs i).psi
  flux : w'.arrays (w.eqs i).psi = w.arrays (w.eqs i).psi
  spline : (w'.eqs i).attrs.spline = (w.eqs i).attrs.spline
  current : (w'.eqs i).attrs.current = (w.eqs i).attrs.current
  checkLimited : (w'.eqs i).attrs.checkLimited = (w.eqs i).attrs.checkLimited
  jtor : (w'.eqs i).jtor = (w.eqs i).jtor

/-- The flux is that of a complete solve, but the current and the current density are the old ones. -/
structure Renewed (s : Setup C K) (i : ℕ) (J : Arr K) (w w' : World C K) : Prop where
  spline : (w'.eqs i).attrs.spline = w'.arrays (w'.eqs i).psi
  flux : ∃ edge, s.boundaryValues J (w.arrays (w.eqs i).psi) = .ok edge ∧
    w'.arrays (w'.eqs i).psi = s.solver edge (setEdge s.nx s.ny (fun c => -s.mu0 * s.R c.1 * J c) edge)
  current : (w'.eqs i).attrs.current = (w.eqs i).attrs.current
  checkLimited : (w'.eqs i).attrs.checkLimited = (w.eqs i).attrs.checkLimited
  jtor : (w'.eqs i).jtor = (w.eqs i).jtor

/-- Two states agree in everything that a linear solve starts from: all but the attributes that `_updateBoundaryPsi` computes. -/
structure SameFlux (st st' : State C K) : Prop where
  tokamak : st'.tokamak = st.tokamak
  plasmaPsi : st'.plasmaPsi = st.plasmaPsi
  spline : st'.spline = st.spline
  current : st'.current = st.current
  jtor : st'.jtor = st.jtor
  checkLimited : st'.checkLimited = st.checkLimited

/-- The same exception, or the same flux, current density, current and machine. -/
def SameResult : Except Err (State C K) → Except Err (State C K) → Prop
  | .error x, .error y => x = y
  | .ok st, .ok st' => SameFlux st st'
  | _, _ => False

/-- The profile object does not use what `_updateBoundaryPsi` left before. -/
def Respects (q : Profiles C K) : Prop :=
  ∀ st st' psi b, SameFlux st st' →
    (match q st psi b, q st' psi b with
      | .error x, .error y => x = y
      | .ok (t, J), .ok (t', J') => SameFlux t t' ∧ J = J'
      | _, _ => False)

/-- The interpolation is that of the flux array, and the current is the integral of the current density. -/
structure Sound (s : Setup C K) (w : World C K) (i : ℕ) : Prop where
  spline : (w.eqs i).attrs.spline = w.arrays (w.eqs i).psi
  current : ∀ J, (w.eqs i).jtor = some J → Jtor.integrate s.nx s.ny s.R s.Z (w.arrays J) = .ok (w.eqs i).attrs.current

/-- Axis, boundary flux, limiter contact and core mask are those of the total flux: to compute them again changes nothing. -/
def Fresh (s : Setup C K) (w : World C K) (i : ℕ) : Prop :=
  Equil.updateBoundary s.env (w.view i) (psi s.env (w.view i)) = .ok (w.view i)

/-- The equilibrium has a flux array and a current density array of its own. -/
structure Good (w : World C K) (i : ℕ) : Prop where
  psi : (w.eqs i).psi < w.next
  jtor : ∀ r, (w.eqs i).jtor = some r → r < w.next ∧ r ≠ (w.eqs i).psi

/-- `constrain(eq)` in the model of values. -/
def constrainValues (f : Constrain C K) (st : State C K) : Except Err (State C K) :=
  match f st with
  | (some x, _) => .error x
  | (none, c) => .ok { st with tokamak := c }

/-- The outcome of the iteration is that of the model of values. -/
def SameOutcome (i : ℕ) : Option (Out C K) → Except Err (Option (State C K × List (K × Option K))) → Prop
  | none, .ok none => True
  | some (some x, _), .error y => x = y
  | some (none, w), .ok (some (st, _)) => w.view i = st
  | _, _ => False

end FreeGS.Store
