import Verif.Lemmas.Translation
import Verif.Props.Scaling
import Verif.Props.Greens

/-!
# C102: the whole arrangement at another height
-/

set_option linter.unusedSectionVars false

namespace FreeGS

/-! ## The machine -/

/-- **C102 (Green's functions).** The Green's functions of the code depend on the difference of the heights only. -/
theorem C102_greens (ek ee : ℝ → ℝ) (q : Quantity) : SameAtAllHeights ((realEnv ek ee).G q) := by
  intro R Z R' Z' d
  cases q with
  | psi => exact (C15_greens_symmetries ek ee R Z R' Z').2.1 d
  | br => simp only [realEnv, greensBr, greens]; ring_nf
  | bz => simp only [realEnv, greensBz, greens]; ring_nf

variable {K : Type*} [Field K] [LinearOrder K]

/-- **C102 (machine).** Raise every coil of a machine by `d` (`coil.Z += d`, for solenoids both ends). Then flux and field at a point raised by
`d`, and the control responses there, are those of the original machine at the original point. Mirrored `MultiCoil`s and coils given
by a table are excluded. -/
theorem C102_machine {e : Env K} (hG : ∀ q, SameAtAllHeights (e.G q)) (m : Machine K) (hm : m.Movable) (d : K) (q : Quantity) (R Z : K) :
    ((m.raise d).field e q R (Z + d)).1 = (m.field e q R Z).1 ∧
    (m.raise d).controlResponse e q R (Z + d) = m.controlResponse e q R Z ∧ (m.raise d).controlCurrents = m.controlCurrents := by
  refine ⟨?_, Machine.controlResponse_raise hG d q R Z m hm, Machine.controlCurrents_raise d m⟩
  rw [Machine.field_raise hG d q R Z m hm]

/-- A kernel for examples. -/
def slopeEnv : Env ℚ := ⟨fun _ Rc Zc R Z => Rc * (R + (Z - Zc) ^ 2), 3, 1, id, id⟩

theorem slopeEnv_same (q : Quantity) : SameAtAllHeights (slopeEnv.G q) := by
  intro R Z R' Z' d
  simp only [slopeEnv]
  ring

/-- A point coil, a circuit of a coil of two filaments, a solenoid. -/
def tallMachine : Machine ℚ := ⟨[("P", .coil (.point ⟨1, 2, 3, 1, true, defaultArea⟩)),
  ("C", .circuit ⟨[("F", .filament ⟨2, 1, 0, 2, true, 1, [], [(2, 1), (2, 3)], 2⟩, -1)], 2, true⟩),
  ("S", .solenoid ⟨1, -1, 1, 3, 1, false⟩)]⟩

theorem tallMachine_movable : tallMachine.Movable := by
  intro x hx
  simp only [tallMachine, List.mem_cons, List.not_mem_nil, or_false] at hx
  rcases hx with rfl | rfl | rfl
  · trivial
  · intro y hy
    simp only [List.mem_cons, List.not_mem_nil, or_false] at hy
    subst hy
    trivial
  · trivial

example : ((tallMachine.raise 7).field slopeEnv .psi 1 (0 + 7)).1 = (tallMachine.field slopeEnv .psi 1 0).1 ∧
    (tallMachine.field slopeEnv .psi 1 0).1 = -28 ∧ ((tallMachine.raise 7).field slopeEnv .psi 1 0).1 ≠ -28 :=
  ⟨(C102_machine slopeEnv_same tallMachine tallMachine_movable 7 .psi 1 0).1, by decide +kernel, by decide +kernel⟩

/-- **C102 (mirrored coils).** The mirror image of a `MultiCoil` is at `-Z`: raising the coil by `d` lowers the image by `d`. -/
theorem C102_mirrored_fails : ∃ (c : MultiCoil ℚ) (d R Z : ℚ), c.mirror = true ∧
    ((AnyCoil.multi c).raise d).response slopeEnv .psi R (Z + d) ≠ (AnyCoil.multi c).response slopeEnv .psi R Z :=
  ⟨MultiCoil.makePoint 1 2 (mirror := true), 1, 1, 0, rfl, by decide +kernel⟩

/-! ## The control system -/

/-- **C102 (control).** Everything raised (machine, plasma field, X-points, isoflux and flux requests): the control system sets up the same
problem, or fails with the same error, and, for any optimiser, makes the same current changes. -/
theorem C102_control {e : Env K} (hG : ∀ q, SameAtAllHeights (e.G q)) (c : Control.Constrain K) (eq : Control.Eq K) (hm : eq.machine.Movable)
    (d : K) (opt : Control.Problem K → List K) :
    Control.problem e (c.raise d) (eq.raise d) = (Control.problem e c eq).map (fun r => (r.1, r.2.raise d)) ∧
    Control.call e opt (c.raise d) (eq.raise d) = (Control.call e opt c eq).map fun r => (r.1, r.2.raise d) := by
  have h := Control.problem_raise hG d c eq hm
  refine ⟨h, ?_⟩
  simp only [Control.call, h]
  cases Control.problem e c eq with
  | error err => rfl
  | ok r =>
    obtain ⟨p, eq'⟩ := r
    simp only [Except.map]
    by_cases hl : p.x0.length > 0
    · rw [if_pos hl, if_pos hl]
      simp only [Control.Eq.raise, Machine.controlAdjust, Machine.raise, Machine.zipControl_raise]
    · rw [if_neg hl, if_neg hl]

example : ((Control.problem slopeEnv (({ xpoints := [(1, 0)], gamma := 1, psivals := [(2, 1, 5)] } : Control.Constrain ℚ).raise 7)
    ((⟨tallMachine, fun _ R Z => R + Z⟩ : Control.Eq ℚ).raise 7)).map fun r => r.1.x0.length) = .ok 2 := by
  rw [(C102_control slopeEnv_same _ _ tallMachine_movable 7 fun p => p.x0).1]
  decide +kernel

theorem Machine.movable_zipControl (f : K → K → K) : ∀ (l : List (String × Entry K)) (v : List K), (Machine.mk l).Movable →
    (Machine.mk (zipControl f l v)).Movable
  | [], _, h => h
  | (s, x) :: l, v, h => by
    have hl : (Machine.mk l).Movable := fun y hy => h y (by simp_all)
    have hx := h (s, x) (by simp)
    have hc : ∀ (y : Entry K) (m : List (String × Entry K)), (match y with
        | .coil c => c.Movable
        | .circuit k => ∀ z ∈ k.coils, z.2.1.Movable
        | .solenoid _ => True) → (Machine.mk m).Movable → (Machine.mk ((s, y) :: m)).Movable := by
      intro y m h1 h2 z hz
      rcases List.mem_cons.1 hz with rfl | hz
      · exact h1
      · exact h2 z hz
    simp only [zipControl]
    split
    · exact h
    · refine hc _ _ ?_ (movable_zipControl f l _ hl)
      cases x with
      | coil c => exact (AnyCoil.movable_setCurrent _ _).2 hx
      | solenoid s => trivial
      | circuit k =>
        intro z hz
        simp only [Circuit.setCurrent, List.mem_map] at hz
        obtain ⟨w, hw, rfl⟩ := hz
        exact (AnyCoil.movable_setCurrent _ _).2 (hx w hw)
    · exact hc _ _ hx (movable_zipControl f l _ hl)

theorem Control.movable_call {e : Env K} {opt : Problem K → List K} {c : Constrain K} {eq eq' : Control.Eq K} {x : List K}
    (hm : eq.machine.Movable) (h : call e opt c eq = .ok (x, eq')) : eq'.machine.Movable := by
  have hr : (rows e c eq).2.machine.Movable := by
    rcases (rows_eq e c eq).2 with h | h <;> rw [h]
    · exact hm
    · exact Machine.movable_sync hm
  simp only [call] at h
  split at h
  · cases h
  · rename_i p eq1 hp
    have h1 : eq1 = (rows e c eq).2 := by
      simp only [problem] at hp
      split at hp
      · cases hp
      · split at hp
        · cases hp
        · split at hp
          · cases hp
          · cases hp; rfl
    subst h1
    split at h
    · cases h
      exact Machine.movable_zipControl _ _ _ hr
    · cases h
      exact hr

theorem AnyCoil.movable_raise (d : K) (c : AnyCoil K) (h : c.Movable) : (c.raise d).Movable := by
  cases c <;> exact h

theorem Machine.movable_raise (d : K) (m : Machine K) (h : m.Movable) : (m.raise d).Movable := by
  intro x hx
  simp only [Machine.raise, List.mem_map] at hx
  obtain ⟨y, hy, rfl⟩ := hx
  have := h y hy
  obtain ⟨s, y⟩ := y
  cases y with
  | coil c => exact AnyCoil.movable_raise d c this
  | solenoid s => trivial
  | circuit k =>
    simp only at this
    intro z hz
    simp only [List.mem_map] at hz
    obtain ⟨w, hw, rfl⟩ := hz
    exact AnyCoil.movable_raise d _ (this w hw)

end FreeGS

namespace FreeGS.GS

variable {K : Type*} [Field K] [LinearOrder K]

/-! ## Operator and boundary -/

/-- **C102 (operator).** The matrices of both orders do not depend on the height of the grid. -/
theorem C102_matrix (Rmin Rmax Zmin Zmax d : K) (nx ny : ℕ) :
    gsSparse (⟨Rmin, Rmax, Zmin + d, Zmax + d⟩ : Critical.Domain K) nx ny = gsSparse ⟨Rmin, Rmax, Zmin, Zmax⟩ nx ny ∧
    gs4Sparse (⟨Rmin, Rmax, Zmin + d, Zmax + d⟩ : Critical.Domain K) nx ny = gs4Sparse ⟨Rmin, Rmax, Zmin, Zmax⟩ nx ny := by
  have h : spacingZ (⟨Rmin, Rmax, Zmin + d, Zmax + d⟩ : Critical.Domain K) ny = spacingZ ⟨Rmin, Rmax, Zmin, Zmax⟩ ny := by
    simp only [spacingZ, add_sub_add_right_eq_sub]
  have h' : ∀ n, spacingR (⟨Rmin, Rmax, Zmin + d, Zmax + d⟩ : Critical.Domain K) n = spacingR ⟨Rmin, Rmax, Zmin, Zmax⟩ n := fun _ => rfl
  have h1 : ∀ x y, gsRow (⟨Rmin, Rmax, Zmin + d, Zmax + d⟩ : Critical.Domain K) nx ny x y = gsRow ⟨Rmin, Rmax, Zmin, Zmax⟩ nx ny x y := by
    intro x y; simp only [gsRow, h, h']
  have h2 : ∀ c, gs4Ops (⟨Rmin, Rmax, Zmin + d, Zmax + d⟩ : Critical.Domain K) nx ny c = gs4Ops ⟨Rmin, Rmax, Zmin, Zmax⟩ nx ny c := by
    intro c; simp only [gs4Ops, h, h']
  exact ⟨by funext r; simp only [gsSparse, h1], by simp only [gs4Sparse, h2]⟩

/-- **C102 (boundary).** The free boundary and von Hagenow's boundary do not depend on the height of the grid. -/
theorem C102_boundary {G : K → K → K → K → K} (hG : SameAtAllHeights G) (sqrt : K → K) (solver : Arr K → Arr K → Arr K) (nx ny : ℕ)
    (R Z Z' : ℕ → K) (d : K) (hZ : ∀ j, Z' j = Z j + d) (J P : Arr K) :
    freeBoundary G nx ny R Z' J P = freeBoundary G nx ny R Z J P ∧
    freeBoundaryHagenow sqrt G solver nx ny R Z' J P = freeBoundaryHagenow sqrt G solver nx ny R Z J P := by
  constructor
  · have : edgeFlux G nx ny R Z' J = edgeFlux G nx ny R Z J := by
      funext c
      simp only [edgeFlux, hZ, hG _ _ _ _ d, add_sub_add_right_eq_sub]
    simp only [freeBoundary, this]
  · simp only [freeBoundaryHagenow, hZ, add_sub_add_right_eq_sub]
    split
    · rfl
    · generalize hagenowNormal (K := K) nx ny _ _ _ _ = n
      have hv : ∀ r z, hagenowIntegral G nx ny R Z' n r (z + d) = hagenowIntegral G nx ny R Z n r z := by
        intro r z
        simp only [hagenowIntegral, hZ, hG _ _ _ _ d, add_sub_add_right_eq_sub]
      generalize hagenowPoints (K := K) nx ny = l
      induction l generalizing P with
      | nil => rfl
      | cons q l ih =>
        obtain ⟨c, er, ez⟩ := q
        have : Z' c.2 + ez = Z c.2 + ez + d := by rw [hZ]; ring
        simp only [hagenowLoop, this, hv]
        cases hagenowIntegral G nx ny R Z n (R c.1 + er) (Z c.2 + ez) with
        | error err => rfl
        | ok v => exact ih _

end FreeGS.GS

namespace FreeGS.Equil

open FreeGS.GS FreeGS.Critical FreeGS.Jtor

universe u
variable {K : Type u} [Field K] [LinearOrder K] [IsStrictOrderedRing K] {C : Type u}

/-! ## Critical points, core mask, profiles -/

/-- **C102 (core mask).** The same mask, round by round. -/
theorem C102_core_mask (nx ny : ℕ) (R Z Z' : ℕ → K) (d : K) (hZ : ∀ j, Z' j = Z j + d) (P : Arr K) (o x : List (Point K)) (b : Option K)
    (fuel : ℕ) : coreMask ⟨nx, ny, R, Z'⟩ P (o.map (raisePoint d)) (x.map (raisePoint d)) b fuel = coreMask ⟨nx, ny, R, Z⟩ P o x b fuel := by
  have hn : ∀ v, nearest Z' ny (v + d) = nearest Z ny v := by
    intro v; simp only [nearest, hZ, add_sub_add_right_eq_sub]
  have hm : ((x.map (raisePoint d)).map fun x => (nearest R nx x.1, nearest Z' ny x.2.1)) =
      x.map fun x => (nearest R nx x.1, nearest Z ny x.2.1) := by
    rw [List.map_map]
    refine List.map_congr_left fun p _ => ?_
    simp only [Function.comp_def, raisePoint, hn]
  cases o with
  | nil => rfl
  | cons o os =>
    obtain ⟨Ro, Zo, po⟩ := o
    cases b with
    | some v => simp only [coreMask, List.map_cons, hm]; simp only [raisePoint, hn]; rfl
    | none =>
      cases x with
      | nil => rfl
      | cons y ys =>
        simp only [List.map_cons, raisePoint, hn] at hm
        simp only [coreMask, List.map_cons, raisePoint, hn]
        have := (List.cons.inj hm).2
        rw [this]

/-- **C102 (profiles).** All three kinds of profiles give the same current density. -/
theorem C102_profiles {d : K} {tok : C → C} {e e' : Env C K} (hs : Raises d tok e e') (quad : (K → K) → K → K → K) (pow : K → K → K)
    (field field' : State C K → Arr K × Arr K) (hf : ∀ s, field' (raised d tok s) = field s) (q : Kind K) :
    ProfilesRaise d tok e (q.make quad pow field e) (q.make quad pow field' e') := by
  intro s P b hn
  obtain ⟨u1, c1⟩ := updateBoundary_raise hs s P hn
  have loc : ∀ (r : List (Point K) × List (Point K)) (b : Option K),
      locate (r.1.map (raisePoint d)) (r.2.map (raisePoint d)) (e'.core P (r.1.map (raisePoint d)) (r.2.map (raisePoint d))) (P (0, 0)) b =
        locate r.1 r.2 (e.core P r.1 r.2) (P (0, 0)) b := fun r b => locate_raise (fun b => hs.core P r.1 r.2 b) _ b
  cases q with
  | paxis p t =>
    simp only [Kind.make, paxisProfiles, u1, hs.find]
    cases h1 : updateBoundary e s P with
    | error err => exact ⟨rfl, fun _ _ h => by cases h⟩
    | ok s1 =>
      cases e.find P with
      | error err => exact ⟨rfl, fun _ _ h => by cases h⟩
      | ok r =>
        have hj : paxisJtor quad pow e'.nx e'.ny e'.R e'.Z p t (r.1.map (raisePoint d)) (r.2.map (raisePoint d))
            (e'.core P (r.1.map (raisePoint d)) (r.2.map (raisePoint d))) (raised d tok s1).psiBndry P b =
            paxisJtor quad pow e.nx e.ny e.R e.Z p t r.1 r.2 (e.core P r.1 r.2) s1.psiBndry P b := by
          simp only [paxisJtor, loc, hs.nx, hs.ny, hs.R, jtorPaxis_raise hs.Z]
          rfl
        simp only [Except.map, bind, Except.bind, hj]
        generalize paxisJtor (K := K) _ _ _ _ _ _ _ _ _ _ _ _ _ _ = x
        cases x with
        | error err => exact ⟨rfl, fun _ _ h => by cases h⟩
        | ok v => exact ⟨rfl, fun _ _ h => by cases h; exact c1 _ h1⟩
  | betap p t =>
    simp only [Kind.make, betapProfiles, u1, hs.find]
    cases h1 : updateBoundary e s P with
    | error err => exact ⟨rfl, fun _ _ h => by cases h⟩
    | ok s1 =>
      cases e.find P with
      | error err => exact ⟨rfl, fun _ _ h => by cases h⟩
      | ok r =>
        have hj : betapJtor quad pow e'.mu0 e'.nx e'.ny e'.R e'.Z p t (r.1.map (raisePoint d)) (r.2.map (raisePoint d))
            (e'.core P (r.1.map (raisePoint d)) (r.2.map (raisePoint d))) (raised d tok s1).psiBndry (field' (raised d tok s1)).1
            (field' (raised d tok s1)).2 P b =
            betapJtor quad pow e.mu0 e.nx e.ny e.R e.Z p t r.1 r.2 (e.core P r.1 r.2) s1.psiBndry (field s1).1 (field s1).2 P b := by
          simp only [betapJtor, loc, hf, hs.nx, hs.ny, hs.R, hs.mu0, jtorBetap_raise hs.Z]
          rfl
        simp only [Except.map, bind, Except.bind, hj]
        generalize betapJtor (K := K) _ _ _ _ _ _ _ _ _ _ _ _ _ _ _ _ _ = x
        cases x with
        | error err => exact ⟨rfl, fun _ _ h => by cases h⟩
        | ok v => exact ⟨rfl, fun _ _ h => by cases h; exact c1 _ h1⟩
  | given g =>
    simp only [Kind.make, givenProfiles, hs.find]
    cases e.find P with
    | error err => exact ⟨rfl, fun _ _ h => by cases h⟩
    | ok r =>
      have hj : givenJtor e'.mu0 e'.nx e'.R g (r.1.map (raisePoint d)) (r.2.map (raisePoint d))
          (e'.core P (r.1.map (raisePoint d)) (r.2.map (raisePoint d))) P b = givenJtor e.mu0 e.nx e.R g r.1 r.2 (e.core P r.1 r.2) P b := by
        simp only [givenJtor, loc, hs.nx, hs.R, hs.mu0]
      simp only [Except.map, bind, Except.bind, hj]
      generalize givenJtor (K := K) _ _ _ _ _ _ _ _ _ = x
      cases x with
      | error err => exact ⟨rfl, fun _ _ h => by cases h⟩
      | ok v => exact ⟨rfl, fun _ _ h => by cases h; rfl⟩

/-! ## Solve and iteration -/

/-- **C102 (one linear solve).** Without limiter, or without X-points: the same outcome, raised. -/
theorem C102_solve_partial {d : K} {tok : C → C} {e e' : Env C K} (hs : Raises d tok e e') {profiles profiles' : Profiles C K}
    (hp : ProfilesRaise d tok e profiles profiles') (s : State C K) (given psi0 : Option (Arr K)) (b : Option K)
    (hn : NoHeight e s.checkLimited) :
    solve e' profiles' (raised d tok s) given psi0 b = (solve e profiles s given psi0 b).map (raised d tok) :=
  solve_raise hs hp s given psi0 b hn

/-- **C102 (Picard iteration).** Without limiter, or without X-points: if a calculation ends with an equilibrium, the calculation with everything
raised by `d` ends after the same number of steps, with the same changes of the flux on the way, with the raised equilibrium. Missing: a
limiter and X-points, where it is false (`C102_limiter_fails`). -/
theorem C102_picard_partial {d : K} {tok : C → C} {e e' : Env C K} (hs : Raises d tok e e') {profiles profiles' : Profiles C K}
    (hp : ProfilesRaise d tok e profiles profiles') {constrain constrain' : Option (State C K → Except Err (State C K))}
    (hc : ControlRaises d tok constrain constrain') (o : Picard.Opts K) (hn : NoHeight e o.checkLimited) (fuel : ℕ) (s s' : State C K)
    (hist : List (K × Option K)) (h : Picard.picard (picardEnv e profiles constrain) o fuel s = .ok (some (s', hist))) :
    Picard.picard (picardEnv e' profiles' constrain') o fuel (raised d tok s) = .ok (some (raised d tok s', hist)) := by
  have id1 : ((1 : K) * ·) = id := by funext x; simp
  have hl : ∀ l : List K, l.map ((1 : K) * ·) = l := fun l => by rw [id1, List.map_id]
  have ho : ∀ b : Option K, b.map ((1 : K) * ·) = b := fun b => by rw [id1, Option.map_id]; rfl
  have := Picard.picard_follows (k := 1) (T := raised d tok) (ok := NoHeight e) (e' := picardEnv e' profiles' constrain') one_ne_zero
    ⟨?_, ?_, ?_, ?_, ?_⟩ o ⟨Or.inl rfl, fun ht => by rw [← ht]; exact hn⟩ fuel s s' hist h
  · simpa only [abs_one, one_mul, Option.map_id', List.map_id'] using this
  · intro s s' h
    rcases hc with ⟨rfl, rfl⟩ | ⟨g, g', rfl, rfl, hg⟩
    · cases h; rfl
    · exact hg s s' h
  · intro s
    show values e'.nx e'.ny (psi e' (raised d tok s)) = _
    rw [psi_raise hs, hs.nx, hs.ny, hl]
    rfl
  · intro s cl p b s' hcl h
    have := solve_raise hs hp { s with checkLimited := cl } none (some (ofValues e.ny p)) b hcl
    rw [hl, ho]
    show solve e' profiles' { raised d tok s with checkLimited := cl } none (some (ofValues e'.ny p)) b = _
    rw [hs.ny]
    refine this.trans ?_
    have h : solve e profiles { s with checkLimited := cl } none (some (ofValues e.ny p)) b = .ok s' := h
    rw [h]
    rfl
  · intro s; rw [ho]; rfl
  · intro s; rfl

/-! ## A whole calculation -/

/-- The flux of the machine on the grid. -/
def machinePsi (g : FreeGS.Env K) (R Z : ℕ → K) (m : {m : Machine K // m.Movable}) : Arr K :=
  fun c => (m.1.field g .psi (R c.1) (Z c.2)).1

/-- `constrain(eq)` for an equilibrium whose plasma field is `plasma s`. -/
def controlStep (g : FreeGS.Env K) (opt : Control.Problem K → List K) (c : Control.Constrain K)
    (plasma : State {m : Machine K // m.Movable} K → Quantity → K → K → K) (s : State {m : Machine K // m.Movable} K) :
    Except Err (State {m : Machine K // m.Movable} K) :=
  match h : Control.call g opt c ⟨s.tokamak.1, plasma s⟩ with
  | .error err => .error err
  | .ok r => .ok { s with tokamak := ⟨r.2.machine, Control.movable_call s.tokamak.2 h⟩ }

/-- The raised machine. -/
def raiseTok (d : K) (m : {m : Machine K // m.Movable}) : {m : Machine K // m.Movable} := ⟨m.1.raise d, Machine.movable_raise d m.1 m.2⟩

theorem controlStep_raise {g : FreeGS.Env K} (hG : ∀ q, SameAtAllHeights (g.G q)) (opt : Control.Problem K → List K) (c : Control.Constrain K)
    (d : K) (plasma plasma' : State {m : Machine K // m.Movable} K → Quantity → K → K → K)
    (hpl : ∀ s q R Z, plasma' (raised d (raiseTok d) s) q R (Z + d) = plasma s q R Z) (s s' : State {m : Machine K // m.Movable} K)
    (h : controlStep g opt c plasma s = .ok s') :
    controlStep g opt (c.raise d) plasma' (raised d (raiseTok d) s) = .ok (raised d (raiseTok d) s') := by
  have hE : (⟨(raised d (raiseTok d) s).tokamak.1, plasma' (raised d (raiseTok d) s)⟩ : Control.Eq K) =
      (⟨s.tokamak.1, plasma s⟩ : Control.Eq K).raise d := by
    simp only [Control.Eq.raise, raised, raiseTok]
    congr 1
    funext q R Z
    have := hpl s q R (Z - d)
    rw [sub_add_cancel] at this
    exact this
  have hcall := (C102_control hG c (⟨s.tokamak.1, plasma s⟩ : Control.Eq K) s.tokamak.2 d opt).2
  rw [← hE] at hcall
  unfold controlStep at h ⊢
  split at h
  · cases h
  · rename_i r hr
    rw [hr] at hcall
    cases h
    split
    · rename_i err he
      rw [he] at hcall
      cases hcall
    · rename_i r' hr'
      rw [hr'] at hcall
      cases hcall
      rfl

/-- **C102 (whole calculation).** A machine that can be raised, free boundary, von Hagenow's or fixed boundary, the direct solver or any solver that
only sees the matrix, any of the three kinds of profiles, any control request and optimiser, without limiter or without X-points. If
the calculation ends with an equilibrium, the calculation with machine, grid, wall and requests raised by `d` ends after the same number
of steps with the same flux, current density, core mask, currents, and everything at the raised places. -/
theorem C102_equilibrium_partial (g : FreeGS.Env K) (hG : ∀ q, SameAtAllHeights (g.G q)) (d : K) (e e' : Env {m : Machine K // m.Movable} K)
    (hsame : e'.mu0 = e.mu0 ∧ e'.nx = e.nx ∧ e'.ny = e.ny ∧ e'.R = e.R ∧ e'.fixed = e.fixed ∧ e'.solver = e.solver)
    (hZ : ∀ j, e'.Z j = e.Z j + d) (hcoil : e.coilPsi = machinePsi g e.R e.Z ∧ e'.coilPsi = machinePsi g e.R e'.Z)
    (wall : Option (List (K × K))) (hwall : e.limits = (fun _ => wall) ∧ e'.limits = fun _ => wall.map fun l => l.map fun q => (q.1, q.2 + d))
    (spl spl' : Arr K → Spline K) (hspl : ∀ P, Moved 1 d 0 ⟨e.nx, e.ny, e.R, e.Z⟩ ⟨e.nx, e.ny, e.R, e'.Z⟩ (spl P) (spl' P) P P)
    (hfind : e.find = (fun P => findCritical ⟨e.nx, e.ny, e.R, e.Z⟩ (spl P) P true) ∧
      e'.find = fun P => findCritical ⟨e.nx, e.ny, e.R, e'.Z⟩ (spl' P) P true)
    (F : (ℕ → Except Err (Option Mask)) → Except Err (Arr K))
    (hcore : (∀ P o x b, e.core P o x b = F (coreMask ⟨e.nx, e.ny, e.R, e.Z⟩ P o x b)) ∧
      ∀ P o x b, e'.core P o x b = F (coreMask ⟨e.nx, e.ny, e.R, e'.Z⟩ P o x b))
    (hint : ∀ P R Z, e'.interp P R (Z + d) = e.interp P R Z) (sqrt : K → K)
    (hbnd : (e.boundary = freeBoundary (g.G .psi) e.nx e.ny e.R e.Z ∧ e'.boundary = freeBoundary (g.G .psi) e.nx e.ny e.R e'.Z) ∨
      (e.boundary = freeBoundaryHagenow sqrt (g.G .psi) e.solver e.nx e.ny e.R e.Z ∧
        e'.boundary = freeBoundaryHagenow sqrt (g.G .psi) e.solver e.nx e.ny e.R e'.Z) ∨
      (e.boundary = fun _ psi => .ok (fixedBoundary e.nx e.ny psi)) ∧ e'.boundary = fun _ psi => .ok (fixedBoundary e.nx e.ny psi))
    (quad : (K → K) → K → K → K) (pow : K → K → K) (field field' : State {m : Machine K // m.Movable} K → Arr K × Arr K)
    (hfield : ∀ s, field' (raised d (raiseTok d) s) = field s) (q : Kind K) (opt : Control.Problem K → List K)
    (request : Option (Control.Constrain K)) (plasma plasma' : State {m : Machine K // m.Movable} K → Quantity → K → K → K)
    (hpl : ∀ s q R Z, plasma' (raised d (raiseTok d) s) q R (Z + d) = plasma s q R Z)
    (o : Picard.Opts K) (hn : NoHeight e o.checkLimited) (fuel : ℕ) (s s' : State {m : Machine K // m.Movable} K) (hist : List (K × Option K))
    (h : Picard.picard (picardEnv e (q.make quad pow field e) (request.map fun c => controlStep g opt c plasma)) o fuel s =
      .ok (some (s', hist))) :
    Picard.picard (picardEnv e' (q.make quad pow field' e') (request.map fun c => controlStep g opt (c.raise d) plasma')) o fuel
      (raised d (raiseTok d) s) = .ok (some (raised d (raiseTok d) s', hist)) := by
  obtain ⟨h1, h2, h3, h4, h5, h6⟩ := hsame
  have hs : Raises d (raiseTok d) e e' := by
    refine ⟨h1, h2, h3, h4, hZ, h5, ?_, ?_, ?_, ?_, hint, ?_, fun x b => by rw [h6]⟩
    · intro t
      rw [hcoil.1, hcoil.2]
      funext c
      simp only [machinePsi, raiseTok, hZ]
      exact (C102_machine hG t.1 t.2 d .psi _ _).1
    · intro t; rw [hwall.1, hwall.2]
    · intro P
      rw [hfind.1, hfind.2]
      simp only [C90_offset_and_height (hspl P) true, add_zero]
      rfl
    · intro P op x b
      rw [hcore.1, hcore.2]
      congr 1
      funext fuel
      exact C102_core_mask e.nx e.ny e.R e.Z e'.Z d hZ P op x b fuel
    · intro J P
      rcases hbnd with hb | hb | hb <;> rw [hb.1, hb.2]
      · exact (C102_boundary (hG .psi) sqrt e.solver e.nx e.ny e.R e.Z e'.Z d hZ J P).1
      · exact (C102_boundary (hG .psi) sqrt e.solver e.nx e.ny e.R e.Z e'.Z d hZ J P).2
  refine C102_picard_partial hs (C102_profiles hs quad pow field field' hfield q) ?_ o hn fuel s s' hist h
  cases request with
  | none => exact Or.inl ⟨rfl, rfl⟩
  | some c => exact Or.inr ⟨_, _, rfl, rfl, fun s s' h => controlStep_raise hG opt c d plasma plasma' hpl s s' h⟩

/-! ## A case meeting the hypotheses -/

/-- A paraboloid through the value of the flux in the middle of a 5 × 5 grid raised by `d`. -/
def heightSpline (d : ℚ) (P : Arr ℚ) : Spline ℚ where
  f R Z := P (2, 2) * ((R - 3) ^ 2 + (Z - d - 2) ^ 2 + 1)
  dR R _ := P (2, 2) * (2 * (R - 3))
  dZ _ Z := P (2, 2) * (2 * (Z - d - 2))
  dRR _ _ := P (2, 2) * 2
  dRZ _ _ := 0
  dZZ _ _ := P (2, 2) * 2

/-- A 5 × 5 grid, fixed boundary, the identity as operator, at height `d`. -/
def heightEnv (d : ℚ) : Env {m : Machine ℚ // m.Movable} ℚ :=
  { mu0 := 1
    nx := 5
    ny := 5
    R := fun i => i + 1
    Z := fun j => j + d
    coilPsi := machinePsi slopeEnv (fun i => i + 1) fun j => j + d
    limits := fun _ => none
    find := fun P => findCritical ⟨5, 5, fun i => i + 1, fun j => j + d⟩ (heightSpline d P) P
    core := fun P o x b => match coreMask (⟨5, 5, fun i => i + 1, fun j => j + d⟩ : Mesh ℚ) P o x b 1000 with
      | .ok (some M) => .ok fun c => (M c : ℚ)
      | _ => .error .runtime
    interp := fun P _ _ => P (2, 2)
    fixed := true
    boundary := fun _ psi => .ok (fixedBoundary 5 5 psi)
    solver := fun _ b => mgDirect (fun v r => if r < 25 then v r else 0) 5 b }

/-- The start of the calculation. -/
def heightState : State {m : Machine ℚ // m.Movable} ℚ :=
  ⟨⟨tallMachine, tallMachine_movable⟩, fun c => if c = (2, 2) then 1 else 0, fun _ => 0, 0, none, false, none, none, none, none, none, false,
    none⟩

/-- A request for an X-point and a flux value. -/
def heightRequest : Control.Constrain ℚ := { xpoints := [(1, 0)], gamma := 1, psivals := [(2, 1, 5)] }

/-- The hypotheses of `C102_equilibrium_partial` are met by a calculation with control that ends. -/
example : ∃ s' hist,
    Picard.picard (picardEnv (heightEnv 0) (reversalKind.make (fun _ _ _ => 0) (fun x _ => x) (fun _ => (fun _ => 0, fun _ => 0))
      (heightEnv 0)) (some (controlStep slopeEnv (fun _ => [1, 2]) heightRequest fun _ _ _ _ => 0))) reversalOpts 1 heightState =
      .ok (some (s', hist)) ∧
    Picard.picard (picardEnv (heightEnv 7) (reversalKind.make (fun _ _ _ => 0) (fun x _ => x) (fun _ => (fun _ => 0, fun _ => 0))
      (heightEnv 7)) (some (controlStep slopeEnv (fun _ => [1, 2]) (heightRequest.raise 7) fun _ _ _ _ => 0))) reversalOpts 1
      (raised 7 (raiseTok 7) heightState) = .ok (some (raised 7 (raiseTok 7) s', hist)) := by
  have hrun : ((Picard.picard (picardEnv (heightEnv 0) (reversalKind.make (fun _ _ _ => 0) (fun x _ => x)
      (fun _ => (fun _ => 0, fun _ => 0)) (heightEnv 0)) (some (controlStep slopeEnv (fun _ => [1, 2]) heightRequest fun _ _ _ _ => 0)))
      reversalOpts 1 heightState).toOption.bind fun r => r).isSome = true := by decide +kernel
  cases hr : Picard.picard (picardEnv (heightEnv 0) (reversalKind.make (fun _ _ _ => 0) (fun x _ => x) (fun _ => (fun _ => 0, fun _ => 0))
      (heightEnv 0)) (some (controlStep slopeEnv (fun _ => [1, 2]) heightRequest fun _ _ _ _ => 0))) reversalOpts 1 heightState with
  | error err => rw [hr] at hrun; cases hrun
  | ok r =>
    cases r with
    | none => rw [hr] at hrun; cases hrun
    | some r =>
      obtain ⟨s', hist⟩ := r
      refine ⟨s', hist, rfl, C102_equilibrium_partial slopeEnv slopeEnv_same 7 (heightEnv 0) (heightEnv 7) ⟨rfl, rfl, rfl, rfl, rfl, rfl⟩
        (fun j => ?_) ⟨rfl, rfl⟩ none ⟨rfl, rfl⟩ (heightSpline 0) (heightSpline 7) (fun P => ?_) ⟨rfl, rfl⟩
        (fun f => match f 1000 with
          | .ok (some M) => .ok fun c => (M c : ℚ)
          | _ => .error .runtime) ⟨fun P o x b => rfl, fun P o x b => rfl⟩ (fun P R Z => rfl) id (Or.inr (Or.inr ⟨rfl, rfl⟩))
        (fun _ _ _ => 0) (fun x _ => x) (fun _ => (fun _ => 0, fun _ => 0)) (fun _ => (fun _ => 0, fun _ => 0)) (fun s => rfl) reversalKind
        (fun _ => [1, 2]) (some heightRequest) (fun _ _ _ _ => 0) (fun _ _ _ _ => 0) (fun s q R Z => rfl) reversalOpts (Or.inl rfl) 1 heightState
        s' hist hr⟩
      · simp only [heightEnv]; ring
      · refine ⟨rfl, rfl, fun _ => rfl, fun j => ?_, fun a => ?_, fun R Z => ?_, fun R Z => ?_, fun R Z => ?_, fun R Z => ?_,
          fun R Z => ?_, fun R Z => ?_⟩ <;> (try simp only [heightSpline, heightEnv]) <;> ring_nf

/-! ## With a limiter and an X-point -/

/-- A machine with a wall, a plasma with axis at `(3, 3)` and an X-point at `(6, 3)`, everything raised by `d`. -/
def limiterEnv (d : ℚ) : Env PUnit ℚ :=
  { mu0 := 1
    nx := 9
    ny := 9
    R := fun i => i + 1
    Z := fun j => j + d
    coilPsi := fun _ _ => 0
    limits := fun _ => some [(3, 1 + d), (3, 2 + d)]
    find := fun P => findCritical ⟨9, 9, fun i => i + 1, fun j => j + d⟩ (exMoved (-1) d 0) P
    core := fun P o x b => match coreMask (⟨9, 9, fun i => i + 1, fun j => j + d⟩ : Mesh ℚ) P o x b 1000 with
      | .ok (some M) => .ok fun c => (M c : ℚ)
      | _ => .error .runtime
    interp := fun _ R Z => (exMoved (-1) d 0).f R Z
    fixed := false
    boundary := fun _ psi => .ok psi
    solver := fun x _ => x }

/-- The flux on the grid. -/
def limiterPsi : Arr ℚ := fun c => -exSpline.f (c.1 + 1) c.2

/-- The equilibrium, with limiter. -/
def limiterState : State PUnit ℚ :=
  ⟨⟨⟩, limiterPsi, limiterPsi, 0, none, true, none, none, none, none, none, false, none⟩

/-- **C102 (limiter).** With a limiter and an X-point the height matters: only limiter points with `|Z| < 0.75 |Z of the X-point|` are looked
at. The same machine and flux at three heights: the plasma boundary is at a flux of 43/2; raised by 4 it is at 37/2; lowered by 3, so that
the X-point is at `Z = 0`, the calculation stops with `ValueError`. -/
theorem C102_limiter_fails : (∀ d, Raises d id (limiterEnv 0) (limiterEnv d)) ∧
    (updateBoundary (limiterEnv 0) limiterState limiterPsi).map (·.psiBndry) = .ok (some (43 / 2)) ∧
    (updateBoundary (limiterEnv 4) (raised 4 id limiterState) limiterPsi).map (·.psiBndry) = .ok (some (37 / 2)) ∧
    (updateBoundary (limiterEnv (-3)) (raised (-3) id limiterState) limiterPsi).map (·.psiBndry) = .error .value := by
  refine ⟨fun d => ?_, by decide +kernel, by decide +kernel, by decide +kernel⟩
  have hZ : ∀ j, (limiterEnv d).Z j = (limiterEnv 0).Z j + d := fun j => by simp [limiterEnv]
  refine ⟨rfl, rfl, rfl, rfl, hZ, rfl, fun _ => rfl, fun _ => by simp [limiterEnv], fun P => ?_, fun P o x b => ?_, fun P R Z => ?_,
    fun _ _ => rfl, fun _ _ => rfl⟩
  · have m : Moved 1 d 0 ⟨9, 9, fun i => (i : ℚ) + 1, fun j => (j : ℚ) + 0⟩ ⟨9, 9, fun i => (i : ℚ) + 1, fun j => (j : ℚ) + d⟩
        (exMoved (-1) 0 0) (exMoved (-1) d 0) P P := by
      constructor <;> intros <;> simp [exMoved]
    simp only [limiterEnv, C90_offset_and_height m, add_zero]
    rfl
  · simp only [limiterEnv]
    rw [C102_core_mask 9 9 (fun i => (i : ℚ) + 1) (fun j => (j : ℚ) + 0) (fun j => (j : ℚ) + d) d (fun j => by ring)]
  · simp [limiterEnv, exMoved]

/-- **C102 (limiter).** Whatever the machine: if the nearest X-point is exactly at `Z = 0`, a calculation with a limiter raises
`ValueError`. -/
theorem C102_limiter_level_fails (e : Env C K) (s : State C K) (P : Arr K) (o : Point K) (os : List (Point K)) (Rx px : K)
    (xs : List (Point K)) (pts : List (K × K)) (hf : e.find P = .ok (o :: os, (Rx, 0, px) :: xs)) (hl : s.checkLimited = true)
    (hw : e.limits s.tokamak = some pts) : updateBoundary e s P = .error .value := by
  have hk : keptPoints ((Rx, 0, px) :: xs) pts = [] := by
    simp only [keptPoints, mul_zero, abs_zero, List.filter_eq_nil_iff, decide_eq_true_eq, not_lt]
    intro q _
    exact abs_nonneg _
  simp only [updateBoundary, hf, bind, Except.bind, hl, if_true, hw, hk, limiterContact, ite_self]

example : updateBoundary (limiterEnv (-3)) limiterState limiterPsi = .error .value :=
  C102_limiter_level_fails (limiterEnv (-3)) limiterState limiterPsi (3, 0, 45 / 2) [] 6 18 [] [(3, 1 + -3), (3, 2 + -3)]
    (by decide +kernel) rfl rfl

end FreeGS.Equil
