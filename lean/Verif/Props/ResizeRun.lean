import Verif.Props.Resize

/-!
# C119: the search for critical points, the profiles and the whole calculation in another size
-/

set_option linter.unusedSectionVars false

namespace FreeGS.Equil

open FreeGS.GS FreeGS.Critical FreeGS.Jtor

universe u
variable {K : Type u} [Field K] [LinearOrder K] [IsStrictOrderedRing K] {C : Type u}

/-! ## Critical points and core mask -/

/-- **C119 (search for critical points).** With tolerances relative to the size, the search finds the same points in the other size: the flux
multiplied by `l`, the tolerance of the squared field divided by `l ^ 2`, the two squared distances multiplied by `l ^ 2`. The first search is
that of the code, with its fixed tolerances. -/
theorem C119_find {l : K} (hl : 0 < l) {f f' : Spline K} (h : Spline.Resized l f f') (nx ny : ℕ) (R Z R' Z' : ℕ → K) (hR : ∀ i, R' i = l * R i)
    (hZ : ∀ j, Z' j = l * Z j) (P : Arr K) (discard : Bool) :
    findCriticalWith (codeTolerances.resize l) ⟨nx, ny, R', Z'⟩ f' (times l P) discard =
      (findCritical ⟨nx, ny, R, Z⟩ f P discard).map fun r => (r.1.map (resizePoint l), r.2.map (resizePoint l)) := by
  rw [← findCriticalWith_code]
  exact findCritical_resize h hl (g := ⟨nx, ny, R, Z⟩) (g' := ⟨nx, ny, R', Z'⟩) rfl rfl hR hZ codeTolerances P discard

/-- A paraboloid with its lowest point a quarter of a cell away from a grid point, in size `l`. -/
def offSpline (l : ℚ) : Spline ℚ where
  f R Z := l * ((R / l - 13 / 4) ^ 2 + (Z / l - 2) ^ 2)
  dR R _ := 2 * (R / l - 13 / 4)
  dZ _ Z := 2 * (Z / l - 2)
  dRR _ _ := 2 / l
  dRZ _ _ := 0
  dZZ _ _ := 2 / l

theorem offSpline_resized (l : ℚ) (hl : 0 < l) : Spline.Resized l (offSpline 1) (offSpline l) := by
  have : ∀ x : ℚ, l * x / l = x := fun x => mul_div_cancel_left₀ x hl.ne'
  constructor <;> intro R Z <;> simp [offSpline, this]

/-- **C119 (fixed tolerance).** The tolerance of the code is a fixed field of 1 mT. A flux and the same flux in a thousand times the size, where the field is a
thousand times weaker. In the first size the axis is found to within a thousandth of a cell, in the other size the search stops at once, at the nearest
grid point, a quarter of a cell away. -/
theorem C119_find_fails :
    ((findCritical (K := ℚ) ⟨5, 5, fun i => i + 1, fun j => j⟩ (offSpline 1) (fun c => ((c.1 : ℚ) + 1 - 13 / 4) ^ 2 + ((c.2 : ℚ) - 2) ^ 2)).map fun r =>
      r.1.map fun p => decide (|p.1 - 13 / 4| < 1 / 1000)) = .ok [true] ∧
    ((findCritical (K := ℚ) ⟨5, 5, fun i => 1000 * (i + 1), fun j => 1000 * j⟩ (offSpline 1000)
      (times 1000 fun c => ((c.1 : ℚ) + 1 - 13 / 4) ^ 2 + ((c.2 : ℚ) - 2) ^ 2)).map fun r => r.1.map fun p => p.1) = .ok [1000 * 3] := by
  decide +kernel

/-- **C119 (core mask).** The same mask, round by round. -/
theorem C119_core_mask {l : K} (hl : 0 < l) (nx ny : ℕ) (R Z R' Z' : ℕ → K) (hR : ∀ i, R' i = l * R i) (hZ : ∀ j, Z' j = l * Z j) (P : Arr K)
    (o x : List (Point K)) (b : Option K) (fuel : ℕ) :
    coreMask ⟨nx, ny, R', Z'⟩ (times l P) (o.map (resizePoint l)) (x.map (resizePoint l)) (b.map (l * ·)) fuel =
      coreMask ⟨nx, ny, R, Z⟩ P o x b fuel := by
  have hn : ∀ (p a v : K), (l * p - l * a) / (l * v - l * a) = (p - a) / (v - a) := by
    intro p a v; rw [← mul_sub, ← mul_sub, mul_div_mul_left _ _ hl.ne']
  have hm : ∀ x : List (Point K), ((x.map (resizePoint l)).map fun x => (nearest R' nx x.1, nearest Z' ny x.2.1)) =
      x.map fun x => (nearest R nx x.1, nearest Z ny x.2.1) := by
    intro x
    rw [List.map_map]
    refine List.map_congr_left fun p _ => ?_
    simp only [Function.comp_def, resizePoint, nearest_pos hl R R' hR, nearest_pos hl Z Z' hZ]
  cases o with
  | nil => rfl
  | cons o os =>
    cases b with
    | some v => simp only [coreMask, List.map_cons, hm, Option.map_some]; simp only [resizePoint, times, hn, nearest_pos hl R R' hR, nearest_pos hl Z Z' hZ]
    | none =>
      cases x with
      | nil => rfl
      | cons x xs =>
        simp only [coreMask, List.map_cons, hm, Option.map_none]
        simp only [resizePoint, times, hn, nearest_pos hl R R' hR, nearest_pos hl Z Z' hZ]

/-! ## Profiles -/

/-- The parameters in the other size: the pressure on axis divided by `l ^ 2`, or the same poloidal beta, and the same plasma current; or the given
functions. -/
def Kind.resize (l : K) : Kind K → Kind K
  | .paxis p t => .paxis (resizedParams l p) (t / l ^ 2)
  | .betap p t => .betap (resizedParams l p) t
  | .given g => .given (resizedGiven l g)

/-- **C119 (profiles).** All three kinds of profiles give the current density divided by `l ^ 2`. -/
theorem C119_profiles {l : K} (hl : 0 < l) {tok : C → C} {e e' : Env C K} (hs : Resizes l tok e e') (quad : (K → K) → K → K → K)
    (pow : K → K → K) (field field' : State C K → Arr K × Arr K)
    (hf : ∀ s, field' (resized l tok s) = (times (1 / l) (field s).1, times (1 / l) (field s).2)) (q : Kind K) :
    ProfilesResize l tok (q.make quad pow field e) ((q.resize l).make quad pow field' e') := by
  have hl0 := hl.ne'
  cases q with
  | paxis p t =>
    intro s P b s' J h
    obtain ⟨s1, h1, h⟩ := bind_ok h
    obtain ⟨⟨opt, xpt⟩, hf, h⟩ := bind_ok h
    obtain ⟨⟨J', c⟩, hj, h⟩ := bind_ok h
    cases h
    obtain ⟨pl, hl', hj⟩ := bind_ok hj
    have u1 := updateBoundary_resize hl hs h1
    have u2 := locate_resize (core' := e'.core (times l P) (opt.map (resizePoint l)) (xpt.map (resizePoint l)))
      (fun b m h => hs.core _ _ _ b m h) hl'
    have u3 := jtorPaxis_resize hl0 hs.R hs.Z hj
    simp only [Kind.resize, Kind.make, paxisProfiles, u1, bind, Except.bind, hs.find _ _ _ hf, paxisJtor]
    rw [show times l P (0, 0) = l * P (0, 0) from rfl, show (resized l tok s').psiBndry = s'.psiBndry.map (l * ·) from rfl, u2]
    simp only [hs.nx, hs.ny, u3]
  | betap p t =>
    intro s P b s' J h
    obtain ⟨s1, h1, h⟩ := bind_ok h
    obtain ⟨⟨opt, xpt⟩, hf', h⟩ := bind_ok h
    obtain ⟨⟨J', c⟩, hj, h⟩ := bind_ok h
    cases h
    obtain ⟨pl, hl', hj⟩ := bind_ok hj
    have u1 := updateBoundary_resize hl hs h1
    have u2 := locate_resize (core' := e'.core (times l P) (opt.map (resizePoint l)) (xpt.map (resizePoint l)))
      (fun b m h => hs.core _ _ _ b m h) hl'
    have u3 := jtorBetap_resize hl0 hs.R hs.Z hj
    simp only [Kind.resize, Kind.make, betapProfiles, u1, bind, Except.bind, hs.find _ _ _ hf', betapJtor, hf]
    rw [show times l P (0, 0) = l * P (0, 0) from rfl, show (resized l tok s').psiBndry = s'.psiBndry.map (l * ·) from rfl, u2]
    simp only [hs.nx, hs.ny, hs.mu0, u3]
  | given g =>
    intro s P b s' J h
    obtain ⟨⟨opt, xpt⟩, hf', h⟩ := bind_ok h
    obtain ⟨⟨J', c⟩, hj, h⟩ := bind_ok h
    cases h
    have u3 := givenJtor_resize (core' := e'.core (times l P) (opt.map (resizePoint l)) (xpt.map (resizePoint l))) hl0 hs.R
      (fun b m h => hs.core _ _ _ b m h) hj
    simp only [Kind.resize, Kind.make, givenProfiles, bind, Except.bind, hs.find _ _ _ hf']
    simp only [hs.nx, hs.mu0, u3]

/-- **C119 (profile functions).** What the user reads from the constrained profiles: `pprime` divided by `l ^ 3`, `ffprime` by `l`, the pressure by `l ^ 2`, the
same `fpol`. The integrator is assumed to be homogeneous. -/
theorem C119_pressure {l : K} (hl : l ≠ 0) {quad : (K → K) → K → K → K} (hq : ∀ (c : K) f a b, quad (fun x => c * f x) a b = c * quad f a b)
    {sqrt : K → K} {pow : K → K → K} {mu0 : K} {nx ny : ℕ} {R Z R' Z' : ℕ → K} (hR : ∀ i, R' i = l * R i) (hZ : ∀ j, Z' j = l * Z j)
    (p : Params K) (target : K) (pl : Plasma K) (Br Bz P J : Arr K) (c : Consts K) :
    ∃ c', ((jtorPaxis quad pow nx ny R Z p target pl P = .ok (J, c) → jtorPaxis quad pow nx ny R' Z' (resizedParams l p) (target / l ^ 2)
        ⟨l * pl.psiAxis, l * pl.psiBndry, pl.mask⟩ (times l P) = .ok (times (1 / l ^ 2) J, c')) ∧
      (jtorBetap quad pow mu0 nx ny R Z p target pl Br Bz P = .ok (J, c) → jtorBetap quad pow mu0 nx ny R' Z' (resizedParams l p) target
        ⟨l * pl.psiAxis, l * pl.psiBndry, pl.mask⟩ (times (1 / l) Br) (times (1 / l) Bz) (times l P) = .ok (times (1 / l ^ 2) J, c'))) ∧
      ∀ x, (constrainedProfile pow mu0 (resizedParams l p) c').pprime x = (constrainedProfile pow mu0 p c).pprime x / l ^ 3 ∧
        (constrainedProfile pow mu0 (resizedParams l p) c').ffprime x = (constrainedProfile pow mu0 p c).ffprime x / l ∧
        (constrainedProfile pow mu0 (resizedParams l p) c').pressure quad x = (constrainedProfile pow mu0 p c).pressure quad x / l ^ 2 ∧
        (constrainedProfile pow mu0 (resizedParams l p) c').fpol quad sqrt x = (constrainedProfile pow mu0 p c).fpol quad sqrt x := by
  have key1 : ∀ L B s r : K, L / l ^ 2 * B / (l * r) * s = 1 / l ^ 3 * (L * B / r * s) := by
    intro L B s r
    rw [show L / l ^ 2 * B / (l * r) = L * B * (l⁻¹) ^ 2 * (l⁻¹ * r⁻¹) by rw [div_eq_mul_inv, div_eq_mul_inv, mul_inv, inv_pow]; ring, one_div, ← inv_pow,
      div_eq_mul_inv]
    ring
  have e1 : ∀ x, (constrainedProfile pow mu0 (resizedParams l p) ⟨c.L / l ^ 2, c.Beta0, l * c.psiBndry, l * c.psiAxis⟩).pprime x =
      1 / l ^ 3 * (constrainedProfile pow mu0 p c).pprime x := fun x => by
    simp only [constrainedProfile, resizedParams]
    first
    | exact key1 _ _ _ _
    | (field_simp)
  have e2 : ∀ x, (constrainedProfile pow mu0 (resizedParams l p) ⟨c.L / l ^ 2, c.Beta0, l * c.psiBndry, l * c.psiAxis⟩).ffprime x =
      1 / l * (constrainedProfile pow mu0 p c).ffprime x := fun x => by
    simp only [constrainedProfile, resizedParams]
    field_simp
  refine ⟨⟨c.L / l ^ 2, c.Beta0, l * c.psiBndry, l * c.psiAxis⟩, ⟨jtorPaxis_resize hl hR hZ, jtorBetap_resize hl hR hZ⟩,
    fun x => ⟨by rw [e1, one_div_mul_eq_div], by rw [e2, one_div_mul_eq_div], ?_, ?_⟩⟩
  · rw [Profile.pressure, Profile.pressure, funext e1, hq]
    show 1 / l ^ 3 * _ * (l * c.psiAxis - l * c.psiBndry) = _ * (c.psiAxis - c.psiBndry) / l ^ 2
    generalize quad _ _ _ = v
    field_simp
  · rw [Profile.fpol, Profile.fpol, funext e2, hq]
    generalize hv : quad (constrainedProfile pow mu0 p c).ffprime x 1 = v
    have key : ∀ a b : K, a = b → (if a < 0 then Except.error Err.nonfinite else Except.ok (sqrt a)) =
        (if b < 0 then Except.error Err.nonfinite else Except.ok (sqrt b)) := by
      rintro a b rfl
      rfl
    refine key _ _ ?_
    simp only [constrainedProfile, resizedParams]
    field_simp

/-! ## Linear solve and iteration -/

/-- **C119 (one linear solve).** -/
theorem C119_solve {l : K} (hl : 0 < l) {tok : C → C} {e e' : Env C K} (hs : Resizes l tok e e') {profiles profiles' : Profiles C K}
    (hp : ProfilesResize l tok profiles profiles') (s s' : State C K) (given psi0 : Option (Arr K)) (b : Option K)
    (h : solve e profiles s given psi0 b = .ok s') :
    solve e' profiles' (resized l tok s) (given.map (times (1 / l ^ 2))) (psi0.map (times l)) (b.map (l * ·)) = .ok (resized l tok s') :=
  solve_resize hl hs hp h

/-- **C119 (Picard iteration).** If a calculation ends with an equilibrium, the calculation in the other size ends after the same number of steps
with the resized equilibrium. The absolute tolerance has to be multiplied by `l`. -/
theorem C119_picard {l : K} (hl : 0 < l) {tok : C → C} {e e' : Env C K} (hs : Resizes l tok e e') {profiles profiles' : Profiles C K}
    (hp : ProfilesResize l tok profiles profiles') {constrain constrain' : Option (State C K → Except Err (State C K))}
    (hc : ControlResizes l tok constrain constrain') (o : Picard.Opts K) (fuel : ℕ) (s s' : State C K)
    (hist : List (K × Option K)) (h : Picard.picard (picardEnv e profiles constrain) o fuel s = .ok (some (s', hist))) :
    Picard.picard (picardEnv e' profiles' constrain') (scaledOpts l o) fuel (resized l tok s) =
      .ok (some (resized l tok s', scaledHist l hist)) := by
  refine Picard.picard_follows (T := resized l tok) (ok := fun _ => True) hl.ne' ⟨?_, ?_, ?_, ?_, ?_⟩ o ⟨trivial, fun _ => trivial⟩ fuel s s' hist h
  · intro s s' h
    rcases hc with ⟨rfl, rfl⟩ | ⟨g, g', rfl, rfl, hg⟩
    · cases h; rfl
    · exact hg s s' h
  · intro s
    show values e'.nx e'.ny (psi e' (resized l tok s)) = _
    rw [psi_resize hs, hs.nx, hs.ny, values_scaled]
    rfl
  · intro s cl p b s' _ h
    have := C119_solve hl hs hp { s with checkLimited := cl } s' none (some (ofValues e.ny p)) b h
    show solve e' profiles' { resized l tok s with checkLimited := cl } none (some (ofValues e'.ny (p.map (l * ·)))) (b.map (l * ·)) = _
    rw [hs.ny, ofValues_scaled]
    exact this
  · intro s; rfl
  · intro s; rfl

/-! ## A whole calculation -/

/-- The flux of the machine on the grid. -/
def sizePsi (g : FreeGS.Env K) (R Z : ℕ → K) (m : {m : Machine K // m.Resizable}) : Arr K :=
  fun c => (m.1.field g .psi (R c.1) (Z c.2)).1

/-- `constrain(eq)` for an equilibrium whose plasma field is `plasma s`. -/
def sizeStep (g : FreeGS.Env K) (opt : Control.Problem K → List K) (c : Control.Constrain K)
    (plasma : State {m : Machine K // m.Resizable} K → Quantity → K → K → K) (s : State {m : Machine K // m.Resizable} K) :
    Except Err (State {m : Machine K // m.Resizable} K) :=
  match h : Control.call g opt c ⟨s.tokamak.1, plasma s⟩ with
  | .error err => .error err
  | .ok r => .ok { s with tokamak := ⟨r.2.machine, Control.resizable_call s.tokamak.2 h⟩ }

/-- The resized machine. -/
def resizeTok (l : K) (m : {m : Machine K // m.Resizable}) : {m : Machine K // m.Resizable} := ⟨m.1.resize l, Machine.resizable_resize l m.1 m.2⟩

/-- The plasma field in the other size. -/
def PlasmaResizes (l : K) (plasma plasma' : State {m : Machine K // m.Resizable} K → Quantity → K → K → K) : Prop :=
  ∀ s R Z, plasma' (resized l (resizeTok l) s) .psi (l * R) (l * Z) = l * plasma s .psi R Z ∧
    plasma' (resized l (resizeTok l) s) .br (l * R) (l * Z) = plasma s .br R Z / l ∧
    plasma' (resized l (resizeTok l) s) .bz (l * R) (l * Z) = plasma s .bz R Z / l

/-- The optimiser solves every problem that the request leads to. -/
def Solves (g : FreeGS.Env K) (opt : Control.Problem K → List K) (c : Control.Constrain K) : Prop :=
  ∀ eq p eq1, Control.problem g c eq = .ok (p, eq1) → p.Minimises (opt p)

theorem sizeStep_resize {g : FreeGS.Env K} {l : K} (hG : ScalesBy l l (g.G .psi)) (hl : 0 < l) {opt opt' : Control.Problem K → List K}
    {c : Control.Constrain K} (hx : c.xpoints = []) (hg : c.gamma ≠ 0) (ho : Solves g opt c) (ho' : Solves g opt' (c.resize l l))
    {plasma plasma' : State {m : Machine K // m.Resizable} K → Quantity → K → K → K} (hpl : PlasmaResizes l plasma plasma')
    (s s' : State {m : Machine K // m.Resizable} K) (h : sizeStep g opt c plasma s = .ok s') :
    sizeStep g opt' (c.resize l l) plasma' (resized l (resizeTok l) s) = .ok (resized l (resizeTok l) s') := by
  have hE : (⟨(resized l (resizeTok l) s).tokamak.1, plasma' (resized l (resizeTok l) s)⟩ : Control.Eq K) =
      (⟨s.tokamak.1, plasma s⟩ : Control.Eq K).resize l := by
    simp only [Control.Eq.resize, resized, resizeTok]
    congr 1
    funext q R Z
    have := hpl s (R / l) (Z / l)
    rw [mul_div_cancel₀ _ hl.ne', mul_div_cancel₀ _ hl.ne'] at this
    cases q
    · exact this.1
    · exact this.2.1
    · exact this.2.2
  unfold sizeStep at h ⊢
  split at h
  · cases h
  · rename_i r hr
    cases h
    have hcall := Control.C119_control_partial hG hl hx hg (opt' := opt') s.tokamak.2 hr (fun p eq1 h => ho _ p eq1 h) fun p eq1 h => ho' _ p eq1 h
    rw [← hE] at hcall
    split
    · rename_i err he
      rw [he] at hcall
      cases hcall
    · rename_i r' hr'
      rw [hr'] at hcall
      cases hcall
      rfl

/-- The search for critical points in the other size gives the same with the tolerances of the code and with tolerances relative to the size. -/
def SameSearch (l : K) (g' : Mesh K) (spl' : Arr K → Spline K) (P : Arr K) : Prop :=
  findCriticalWith codeTolerances g' (spl' (times l P)) (times l P) = findCriticalWith (codeTolerances.resize l) g' (spl' (times l P)) (times l P)

/-- **C119 (whole calculation).** A machine without tables of fields, free or fixed boundary, the direct solver, any of the three kinds of profiles,
with or without limiter, requests for flux values and equal fluxes with an optimiser that solves its problem. If the calculation ends with an
equilibrium, and on its way meets no flux for which the fixed tolerances of the search matter, then the calculation with all lengths
multiplied by `l` and the same currents ends after the same number of steps with `l` times the flux, the current density divided by `l ^ 2`, the
same currents, the same core mask, and everything at the resized places. Missing: von Hagenow's boundary (`C119_hagenow_fails`), fluxes where the
tolerances matter (`C119_find_fails`), X-points in the request (`C119_control_fails`), other solvers. -/
theorem C119_equilibrium_partial (g : FreeGS.Env K) {l : K} (hl : 0 < l) (hG : ScalesBy l l (g.G .psi))
    (e e' : Env {m : Machine K // m.Resizable} K) (hsame : e'.mu0 = e.mu0 ∧ e'.nx = e.nx ∧ e'.ny = e.ny ∧ e'.fixed = e.fixed)
    (hR : ∀ i, e'.R i = l * e.R i) (hZ : ∀ j, e'.Z j = l * e.Z j)
    (hcoil : e.coilPsi = sizePsi g e.R e.Z ∧ e'.coilPsi = sizePsi g e'.R e'.Z) (wall : Option (List (K × K)))
    (hwall : e.limits = (fun _ => wall) ∧ e'.limits = fun _ => wall.map fun w => w.map fun q => (l * q.1, l * q.2)) (spl spl' : Arr K → Spline K)
    (hspl : ∀ P, Spline.Resized l (spl P) (spl' (times l P)))
    (hfind : e.find = (fun P => findCritical ⟨e.nx, e.ny, e.R, e.Z⟩ (spl P) P true) ∧
      e'.find = fun P => findCritical ⟨e.nx, e.ny, e'.R, e'.Z⟩ (spl' P) P true)
    (F : (ℕ → Except Err (Option Mask)) → Except Err (Arr K))
    (hcore : (∀ P o x b, e.core P o x b = F (coreMask ⟨e.nx, e.ny, e.R, e.Z⟩ P o x b)) ∧
      ∀ P o x b, e'.core P o x b = F (coreMask ⟨e.nx, e.ny, e'.R, e'.Z⟩ P o x b))
    (hint : ∀ P R Z, e'.interp (times l P) (l * R) (l * Z) = l * e.interp P R Z)
    (hbnd : (e.boundary = freeBoundary (g.G .psi) e.nx e.ny e.R e.Z ∧ e'.boundary = freeBoundary (g.G .psi) e.nx e.ny e'.R e'.Z) ∨
      (e.boundary = fun _ psi => .ok (fixedBoundary e.nx e.ny psi)) ∧ e'.boundary = fun _ psi => .ok (fixedBoundary e.nx e.ny psi))
    (A A' : ℕ → ℕ → K) (hA : ∀ r c, A' r c = if isInterior e.nx e.ny (r / e.ny, r % e.ny) then A r c / l ^ 2 else A r c)
    (fac fac' : (ℕ → K) → ℕ → K) (hfac : ∀ b, ∀ r < e.nx * e.ny, matVec (e.nx * e.ny) A (fac b) r = b r)
    (hfac' : ∀ b, ∀ r < e.nx * e.ny, matVec (e.nx * e.ny) A' (fac' b) r = b r) (hlen : ∀ b, ∀ r, e.nx * e.ny ≤ r → fac b r = 0)
    (hlen' : ∀ b, ∀ r, e.nx * e.ny ≤ r → fac' b r = 0)
    (hsol : e.solver = (fun _ b => mgDirect fac e.ny b) ∧ e'.solver = fun _ b => mgDirect fac' e.ny b)
    (quad : (K → K) → K → K → K) (pow : K → K → K) (field field' : State {m : Machine K // m.Resizable} K → Arr K × Arr K)
    (hfield : ∀ s, field' (resized l (resizeTok l) s) = (times (1 / l) (field s).1, times (1 / l) (field s).2)) (q : Kind K)
    (opt opt' : Control.Problem K → List K) (request : Option (Control.Constrain K))
    (hreq : ∀ c, request = some c → c.xpoints = [] ∧ c.gamma ≠ 0 ∧ Solves g opt c ∧ Solves g opt' (c.resize l l))
    (plasma plasma' : State {m : Machine K // m.Resizable} K → Quantity → K → K → K) (hpl : PlasmaResizes l plasma plasma')
    (o : Picard.Opts K) (fuel : ℕ) (s s' : State {m : Machine K // m.Resizable} K) (hist : List (K × Option K))
    (h : Picard.picard (picardEnv (cautious e fun P => ¬ SameSearch l ⟨e.nx, e.ny, e'.R, e'.Z⟩ spl' P)
      (q.make quad pow field (cautious e fun P => ¬ SameSearch l ⟨e.nx, e.ny, e'.R, e'.Z⟩ spl' P))
      (request.map fun c => sizeStep g opt c plasma)) o fuel s = .ok (some (s', hist))) :
    Picard.picard (picardEnv e (q.make quad pow field e) (request.map fun c => sizeStep g opt c plasma)) o fuel s = .ok (some (s', hist)) ∧
    Picard.picard (picardEnv e' ((q.resize l).make quad pow field' e') (request.map fun c => sizeStep g opt' (c.resize l l) plasma'))
      (scaledOpts l o) fuel (resized l (resizeTok l) s) = .ok (some (resized l (resizeTok l) s', scaledHist l hist)) := by
  obtain ⟨h1, h2, h3, h4⟩ := hsame
  have hs : Resizes l (resizeTok l) (cautious e fun P => ¬ SameSearch l ⟨e.nx, e.ny, e'.R, e'.Z⟩ spl' P) e' := by
    refine ⟨h1, h2, h3, hR, hZ, h4, ?_, ?_, ?_, ?_, hint, ?_, ?_⟩
    · intro t
      show e'.coilPsi _ = times l (e.coilPsi t)
      rw [hcoil.1, hcoil.2]
      funext c
      simp only [sizePsi, resizeTok, hR, hZ]
      exact (C119_machine hG t.1 t.2 _ _).1
    · intro t
      show e'.limits _ = (e.limits t).map _
      rw [hwall.1, hwall.2]
    · intro P op x h
      simp only [cautious] at h
      split at h
      · cases h
      · rename_i hb
        have hb := not_not.1 hb
        rw [SameSearch, findCriticalWith_code, C119_find hl (hspl P) e.nx e.ny e.R e.Z e'.R e'.Z hR hZ P true] at hb
        rw [hfind.1] at h
        rw [hfind.2]
        simp only at h ⊢
        rw [hb, h]
        rfl
    · intro P op x b m h
      rw [← h]
      show e'.core _ _ _ _ = e.core P op x b
      rw [hcore.1, hcore.2]
      congr 1
      funext fuel
      exact C119_core_mask hl e.nx e.ny e.R e.Z e'.R e'.Z hR hZ P op x b fuel
    · intro J P Q h
      have h : e.boundary J P = .ok Q := h
      rcases hbnd with hb | hb <;> rw [hb.1] at h <;> rw [hb.2]
      · rw [C119_free_boundary hG hl.ne' e.nx e.ny e.R e.Z e'.R e'.Z hR hZ, h]; rfl
      · cases h
        simp only [C99_fixed_boundary]
    · intro x r b
      show e'.solver _ (setEdge e.nx e.ny _ _) = times l (e.solver _ (setEdge e.nx e.ny r b))
      rw [hsol.1, hsol.2]
      exact C119_solver e.nx e.ny A A' l hl.ne' hA fac fac' hfac hfac' hlen hlen' r b
  refine ⟨?_, C119_picard hl hs (C119_profiles hl hs quad pow field field' hfield q) ?_ o fuel s s' hist h⟩
  · have hs1 := cautious_scales_one e fun P => ¬ SameSearch l ⟨e.nx, e.ny, e'.R, e'.Z⟩ spl' P
    have h1 := C99_picard one_ne_zero hs1 (kind_scales one_ne_zero hs1 quad pow field (fun s => by rw [scaled_one, times_one, times_one]) q)
      (constrain := request.map fun c => sizeStep g opt c plasma) (constrain' := request.map fun c => sizeStep g opt c plasma) (by
        cases request with
        | none => exact Or.inl ⟨rfl, rfl⟩
        | some c => exact Or.inr ⟨_, _, rfl, rfl, fun s s' h => by rw [scaled_one, scaled_one]; exact h⟩) o (Or.inl one_pos) fuel s s' hist h
    have e1 : scaledOpts 1 o = o := by
      simp only [scaledOpts, abs_one, one_mul, Option.map_id']
    have e2 : scaledHist 1 hist = hist := by
      simp only [scaledHist, abs_one, one_mul]
      exact List.map_id hist
    have e3 : q.times 1 = q := by
      cases q with
      | paxis p t => simp [Kind.times, scaledParams]
      | betap p t => simp [Kind.times, scaledParams]
      | given g =>
        obtain ⟨a, b, c, d, f⟩ := g
        simp only [Kind.times, scaledGiven, one_mul, one_pow]
        congr 2
        · cases d <;> rfl
        · cases f <;> rfl
    rwa [scaled_one, scaled_one, e1, e2, e3] at h1
  · cases request with
    | none => exact Or.inl ⟨rfl, rfl⟩
    | some c =>
      obtain ⟨hx, hg, ho, ho'⟩ := hreq c rfl
      exact Or.inr ⟨_, _, rfl, rfl, fun s s' h => sizeStep_resize hG hl hx hg ho ho' hpl s s' h⟩

/-! ## A case meeting the hypotheses -/

/-- A paraboloid through the value of the flux in the middle of a 5 × 5 grid, in size `l`. -/
def sizeSpline (l : ℚ) (P : Arr ℚ) : Spline ℚ where
  f R Z := P (2, 2) * ((R / l - 3) ^ 2 + (Z / l - 2) ^ 2 + 1)
  dR R _ := P (2, 2) * (2 * (R / l - 3)) / l
  dZ _ Z := P (2, 2) * (2 * (Z / l - 2)) / l
  dRR _ _ := P (2, 2) * 2 / l ^ 2
  dRZ _ _ := 0
  dZZ _ _ := P (2, 2) * 2 / l ^ 2

/-- A diagonal matrix, and its inverse: the identity in size 1. -/
def sizeWeight (l : ℚ) (r : ℕ) : ℚ := if isInterior 5 5 (r / 5, r % 5) then l ^ 2 else 1

/-- A 5 × 5 grid, fixed boundary, a diagonal matrix, in size `l`. -/
def sizeGrid (l : ℚ) : Env {m : Machine ℚ // m.Resizable} ℚ :=
  { mu0 := 1
    nx := 5
    ny := 5
    R := fun i => l * (i + 1)
    Z := fun j => l * j
    coilPsi := sizePsi sizeEnv (fun i => l * (i + 1)) fun j => l * j
    limits := fun _ => none
    find := fun P => findCritical ⟨5, 5, fun i => l * (i + 1), fun j => l * j⟩ (sizeSpline l P) P
    core := fun P o x b => match coreMask (⟨5, 5, fun i => l * (i + 1), fun j => l * j⟩ : Mesh ℚ) P o x b 1000 with
      | .ok (some M) => .ok fun c => (M c : ℚ)
      | _ => .error .runtime
    interp := fun P _ _ => P (2, 2)
    fixed := true
    boundary := fun _ psi => .ok (fixedBoundary 5 5 psi)
    solver := fun _ b => mgDirect (fun v r => if r < 25 then sizeWeight l r * v r else 0) 5 b }

/-- The start of the calculation. -/
def sizeState : State {m : Machine ℚ // m.Resizable} ℚ :=
  ⟨⟨sizeMachine, sizeMachine_resizable⟩, fun c => if c = (2, 2) then 1 else 0, fun _ => 0, 0, none, false, none, none, none, none, none, false,
    none⟩

/-- A request for a flux value. -/
def sizeRequest : Control.Constrain ℚ := { gamma := 1, psivals := [(2, 1, 5)] }

theorem sizeRequest_solves (g : FreeGS.Env ℚ) (l : ℚ) (hl : l ≠ 0) : Solves g (fun p => p.x0) sizeRequest ∧
    Solves g (fun p => p.x0) (sizeRequest.resize l l) := by
  constructor <;> intro eq p eq1 h
  · exact Control.C99_control_start (by simp [sizeRequest]) rfl rfl h
  · exact Control.C99_control_start (by simp [sizeRequest, Control.Constrain.resize, hl]) rfl rfl h

/-- On this grid one point is searched, and the field is exactly zero there, so that no tolerance matters. -/
theorem size_search (l : ℚ) (hl : 0 < l) (P : Arr ℚ) : SameSearch l ⟨5, 5, fun i => l * ((i : ℚ) + 1), fun j => l * (j : ℚ)⟩ (sizeSpline l) P := by
  have hi : interior 5 5 = [(2, 2)] := by decide
  have hd : ∀ x : ℚ, l * x / l = x := fun x => mul_div_cancel_left₀ x hl.ne'
  have hB : ∀ Q, (sizeSpline l Q).Br (l * (2 + 1)) (l * 2) = 0 ∧ (sizeSpline l Q).Bz (l * (2 + 1)) (l * 2) = 0 := by
    intro Q
    constructor <;> simp only [Spline.Br, Spline.Bz, sizeSpline, hd] <;> norm_num
  have hR : l * (2 + 1) ≠ 0 := by positivity
  have hc : ∀ t : ℚ, 0 < t → ∀ Q, candidateWith t ⟨5, 5, fun i => l * ((i : ℚ) + 1), fun j => l * (j : ℚ)⟩ (sizeSpline l Q) Q 2 2 =
      candidateWith 1 ⟨5, 5, fun i => l * ((i : ℚ) + 1), fun j => l * (j : ℚ)⟩ (sizeSpline l Q) Q 2 2 := by
    intro t ht Q
    have hn : ∀ t : ℚ, 0 < t → ∀ r, newtonWith t (sizeSpline l Q) r (l * (2 + 1)) (l * 2) 101 (l * (2 + 1)) (l * 2) =
        .ok (some (l * (2 + 1), l * 2)) := by
      intro t ht r
      rw [newtonWith, if_neg hR, (hB Q).1, (hB Q).2, if_pos (by simpa using ht)]
    simp only [candidateWith, Nat.cast_ofNat, hn t ht, hn 1 one_pos]
  have hs : ∀ (t t' : Tolerances ℚ), 0 < t.field → 0 < t'.field → ∀ Q,
      findCriticalWith t ⟨5, 5, fun i => l * ((i : ℚ) + 1), fun j => l * (j : ℚ)⟩ (sizeSpline l Q) Q =
        findCriticalWith t' ⟨5, 5, fun i => l * ((i : ℚ) + 1), fun j => l * (j : ℚ)⟩ (sizeSpline l Q) Q := by
    intro t t' h1 h2 Q
    simp only [findCriticalWith, hi, candidatesWith, hc _ h1, hc _ h2]
    cases candidateWith 1 ⟨5, 5, fun i => l * ((i : ℚ) + 1), fun j => l * (j : ℚ)⟩ (sizeSpline l Q) Q 2 2 with
    | error err => rfl
    | ok c =>
      cases c with
      | none => simp [removeDupLoopWith]
      | some q =>
        obtain ⟨b, q⟩ := q
        cases b <;> simp [removeDupLoopWith, sortBy]
  exact hs _ _ (by norm_num [codeTolerances]) (by simp only [codeTolerances, Tolerances.resize]; positivity) _

theorem sizeWeight_matVec (l : ℚ) (hl : l ≠ 0) (b : ℕ → ℚ) (r : ℕ) (hr : r < 25) :
    matVec 25 (fun r c => if r = c then 1 / sizeWeight l r else 0) (fun r => if r < 25 then sizeWeight l r * b r else 0) r = b r := by
  have hw : sizeWeight l r ≠ 0 := by
    simp only [sizeWeight]
    split
    · positivity
    · exact one_ne_zero
  simp only [matVec, ite_mul, zero_mul, Finset.sum_ite_eq, Finset.mem_range, hr, if_true]
  field_simp

/-- The hypotheses of `C119_equilibrium_partial` are met by a calculation with control that ends, in 7 times the size. -/
example : ∃ s' hist,
    Picard.picard (picardEnv (sizeGrid 1) (reversalKind.make (fun _ _ _ => 0) (fun x _ => x) (fun _ => (fun _ => 0, fun _ => 0))
      (sizeGrid 1)) (some (sizeStep sizeEnv (fun p => p.x0) sizeRequest fun _ _ _ _ => 0))) reversalOpts 1 sizeState =
      .ok (some (s', hist)) ∧
    Picard.picard (picardEnv (sizeGrid 7) ((reversalKind.resize 7).make (fun _ _ _ => 0) (fun x _ => x) (fun _ => (fun _ => 0, fun _ => 0))
      (sizeGrid 7)) (some (sizeStep sizeEnv (fun p => p.x0) (sizeRequest.resize 7 7) fun _ _ _ _ => 0))) (scaledOpts 7 reversalOpts) 1
      (resized 7 (resizeTok 7) sizeState) = .ok (some (resized 7 (resizeTok 7) s', scaledHist 7 hist)) := by
  have he : cautious (sizeGrid 1) (fun P => ¬ SameSearch 7 ⟨5, 5, (sizeGrid 7).R, (sizeGrid 7).Z⟩ (sizeSpline 7) P) = sizeGrid 1 := by
    have : ∀ P, ¬ ¬ SameSearch 7 ⟨5, 5, (sizeGrid 7).R, (sizeGrid 7).Z⟩ (sizeSpline 7) P := fun P => not_not.2 (size_search 7 (by norm_num) P)
    simp only [cautious, this, if_false]
  have hrun : ((Picard.picard (picardEnv (sizeGrid 1) (reversalKind.make (fun _ _ _ => 0) (fun x _ => x) (fun _ => (fun _ => 0, fun _ => 0))
      (sizeGrid 1)) (some (sizeStep sizeEnv (fun p => p.x0) sizeRequest fun _ _ _ _ => 0))) reversalOpts 1
      sizeState).toOption.bind fun r => r).isSome = true := by decide +kernel
  cases hr : Picard.picard (picardEnv (sizeGrid 1) (reversalKind.make (fun _ _ _ => 0) (fun x _ => x) (fun _ => (fun _ => 0, fun _ => 0))
      (sizeGrid 1)) (some (sizeStep sizeEnv (fun p => p.x0) sizeRequest fun _ _ _ _ => 0))) reversalOpts 1 sizeState with
  | error err => rw [hr] at hrun; cases hrun
  | ok r =>
    cases r with
    | none => rw [hr] at hrun; cases hrun
    | some r =>
      obtain ⟨s', hist⟩ := r
      refine ⟨s', hist, rfl, (C119_equilibrium_partial sizeEnv (by norm_num) (sizeEnv_scales 7).1 (sizeGrid 1) (sizeGrid 7) ⟨rfl, rfl, rfl, rfl⟩
        (fun i => ?_) (fun j => ?_) ⟨rfl, rfl⟩ none ⟨rfl, rfl⟩ (sizeSpline 1) (sizeSpline 7) (fun P => ?_) ⟨rfl, rfl⟩
        (fun f => match f 1000 with
          | .ok (some M) => .ok fun c => (M c : ℚ)
          | _ => .error .runtime) ⟨fun P o x b => rfl, fun P o x b => rfl⟩ (fun P R Z => rfl) (Or.inr ⟨rfl, rfl⟩)
        (fun r c => if r = c then 1 / sizeWeight 1 r else 0) (fun r c => if r = c then 1 / sizeWeight 7 r else 0) (fun r c => ?_)
        (fun v r => if r < 25 then sizeWeight 1 r * v r else 0) (fun v r => if r < 25 then sizeWeight 7 r * v r else 0)
        (fun b r hr => sizeWeight_matVec 1 one_ne_zero b r hr) (fun b r hr => sizeWeight_matVec 7 (by norm_num) b r hr)
        (fun b r hr => if_neg (not_lt.2 hr)) (fun b r hr => if_neg (not_lt.2 hr)) ⟨rfl, rfl⟩
        (fun _ _ _ => 0) (fun x _ => x) (fun _ => (fun _ => 0, fun _ => 0)) (fun _ => (fun _ => 0, fun _ => 0)) (fun s => ?_) reversalKind
        (fun p => p.x0) (fun p => p.x0) (some sizeRequest) (fun c hc => ?_) (fun _ _ _ _ => 0) (fun _ _ _ _ => 0) (fun s R Z => ?_)
        reversalOpts 1 sizeState s' hist (by
          have := he
          rw [show (sizeGrid 1).nx = 5 from rfl, show (sizeGrid 1).ny = 5 from rfl, this]
          exact hr)).2⟩
      · simp only [sizeGrid]; ring
      · simp only [sizeGrid]; ring
      · constructor <;> intro R Z <;> simp only [sizeSpline, Equil.times] <;> field_simp <;> ring
      · show (if r = c then 1 / sizeWeight 7 r else 0) = if isInterior 5 5 (r / 5, r % 5) then (if r = c then 1 / sizeWeight 1 r else 0) / 7 ^ 2 else
          if r = c then 1 / sizeWeight 1 r else 0
        simp only [sizeWeight]
        split_ifs <;> norm_num
      · simp only [Prod.mk.injEq]
        constructor <;> funext c <;> simp [times]
      · cases hc
        exact ⟨rfl, by simp [sizeRequest], (sizeRequest_solves sizeEnv 7 (by norm_num)).1, (sizeRequest_solves sizeEnv 7 (by norm_num)).2⟩
      · simp

end FreeGS.Equil
