import Verif.Lemmas.Scaling
import Verif.Lemmas.Symmetry
import Verif.Props.CriticalMore

/-!
# C99: all currents multiplied by a number
-/

set_option linter.unusedSectionVars false

namespace FreeGS.GS

variable {K : Type*} [Field K] [LinearOrder K] [IsStrictOrderedRing K]

theorem rombTrap_smul (k : K) (y : ℕ → K) (N : ℕ) : ∀ i, rombTrap (fun j => k * y j) N i = k * rombTrap y N i
  | 0 => by simp only [rombTrap]; ring
  | i + 1 => by
    simp only [rombTrap, rombTrap_smul k y N i, List.sum_map_mul_left]
    ring

theorem rombTable_smul (k : K) (y : ℕ → K) (N : ℕ) : ∀ j i, rombTable (fun j => k * y j) N j i = k * rombTable y N j i
  | 0, i => rombTrap_smul k y N i
  | j + 1, i => by
    simp only [rombTable, rombTable_smul k y N j]
    ring

theorem romb_smul (k : K) (y : ℕ → K) (n : ℕ) : romb (fun j => k * y j) n = (romb y n).map (k * ·) := by
  simp only [romb, rombTable_smul]
  split <;> rfl

end FreeGS.GS

namespace FreeGS.Equil

open FreeGS.GS FreeGS.Critical FreeGS.Jtor

universe u
variable {K : Type u} [Field K] [LinearOrder K] [IsStrictOrderedRing K] {C : Type u}

/-! ## The parts -/

/-- **C99 (core mask).** The same mask, round by round. -/
theorem C99_core_mask (g : Mesh K) (k : K) (hk : k ≠ 0) (P : Arr K) (o x : List (Point K)) (b : Option K) (fuel : ℕ) :
    coreMask g (times k P) (o.map (timesPoint k)) (x.map (timesPoint k)) (b.map (k * ·)) fuel = coreMask g P o x b fuel := by
  have hn : ∀ (p a v : K), (k * p - k * a) / (k * v - k * a) = (p - a) / (v - a) := by
    intro p a v; rw [← mul_sub, ← mul_sub, mul_div_mul_left _ _ hk]
  have hm : ∀ x : List (Point K), ((x.map (timesPoint k)).map fun x => (nearest g.R g.nx x.1, nearest g.Z g.ny x.2.1)) =
      x.map fun x => (nearest g.R g.nx x.1, nearest g.Z g.ny x.2.1) := by
    intro x; rw [List.map_map]; rfl
  cases o with
  | nil => rfl
  | cons o os =>
    cases b with
    | some v => simp only [coreMask, List.map_cons, timesPoint, Option.map_some, times, hn, hm]
    | none =>
      cases x with
      | nil => rfl
      | cons x xs => simp only [coreMask, List.map_cons, timesPoint, Option.map_none, times, hn, hm]

/-- **C99 (fixed boundary).** -/
theorem C99_fixed_boundary (k : K) (nx ny : ℕ) (P : Arr K) : fixedBoundary nx ny (times k P) = times k (fixedBoundary nx ny P) := by
  funext c
  simp only [fixedBoundary, setEdge, times]
  split_ifs <;> simp

theorem set_times (k : K) (P : Arr K) (c : ℕ × ℕ) (v : K) : (times k P).set c (k * v) = times k (P.set c v) := by
  funext d
  simp only [times, Arr.set, Function.update_apply]
  split_ifs <;> rfl

/-- **C99 (free boundary).** -/
theorem C99_free_boundary (G : K → K → K → K → K) (nx ny : ℕ) (R Z : ℕ → K) (k : K) (J P : Arr K) :
    freeBoundary G nx ny R Z (times k J) (times k P) = (freeBoundary G nx ny R Z J P).map (times k) := by
  have hv : ∀ c, edgeFlux G nx ny R Z (times k J) c = (edgeFlux G nx ny R Z J c).map (k * ·) := by
    intro c
    have : ∀ g : Arr K, (fun p => g p * times k J p) = fun p => k * (g p * J p) := by
      intro g; funext p; simp only [times]; ring
    simp only [edgeFlux, this, Global.romb2_smul]
    generalize romb2 (K := K) nx ny _ = I
    cases I with
    | error e => rfl
    | ok v => simp only [Except.map, Except.ok.injEq]; ring
  have : ∀ (l : List (ℕ × ℕ)) (P : Arr K), assignLoop (edgeFlux G nx ny R Z (times k J)) l (times k P) =
      (assignLoop (edgeFlux G nx ny R Z J) l P).map (times k) := by
    intro l
    induction l with
    | nil => intro P; rfl
    | cons c l ih =>
      intro P
      simp only [assignLoop, hv]
      cases edgeFlux G nx ny R Z J c with
      | error e => rfl
      | ok v =>
        simp only [Except.map]
        rw [set_times]
        exact ih _
  exact this _ _

theorem hagenowNormal_scaled (k : K) (nx ny : ℕ) (dR dZ dd : K) (u : Arr K) :
    hagenowNormal nx ny dR dZ dd (times k u) = ⟨fun y => k * (hagenowNormal nx ny dR dZ dd u).L y,
      fun y => k * (hagenowNormal nx ny dR dZ dd u).R y, fun y => k * (hagenowNormal nx ny dR dZ dd u).D y,
      fun y => k * (hagenowNormal nx ny dR dZ dd u).U y⟩ := by
  have hs : ∀ f : ℕ → ℕ × ℕ, hagenowSum (fun i => times k u (f i)) = k * hagenowSum fun i => u (f i) := by
    intro f
    simp only [hagenowSum, hagenowCoeffs, times, List.map_cons, List.map_nil, List.sum_cons, List.sum_nil]
    ring
  have hu : ∀ (f : ℕ → K) (i : ℕ) (v : K), (fun y => k * Function.update f i v y) = Function.update (fun y => k * f y) i (k * v) := by
    intro f i v; funext y
    by_cases h : y = i
    · subst h; simp
    · simp [Function.update_of_ne h]
  simp only [hagenowNormal, hs (fun i => (i, _)), hs (fun i => (nx - 1 - i, _)), hs (fun i => (_, i)), hs (fun i => (_, ny - 1 - i)),
    hu, mul_div_assoc]

/-- **C99 (von Hagenow's boundary).** -/
theorem C99_hagenow_boundary (sqrt : K → K) (G : K → K → K → K → K) (solver : Arr K → Arr K → Arr K) (nx ny : ℕ) (R Z : ℕ → K) (k : K)
    (hs : ∀ x b, solver (times k x) (times k b) = times k (solver x b)) (J P : Arr K) :
    freeBoundaryHagenow sqrt G solver nx ny R Z (times k J) (times k P) =
      (freeBoundaryHagenow sqrt G solver nx ny R Z J P).map (times k) := by
  have h1 : setEdge nx ny (fun c => R c.1 * times k J c) (fun _ => (0 : K)) = times k (setEdge nx ny (fun c => R c.1 * J c) fun _ => 0) := by
    rw [← setEdge_scaled]
    congr 1
    · funext c; simp only [times]; ring
    · funext c; simp only [times, mul_zero]
  simp only [freeBoundaryHagenow, h1, hs, hagenowNormal_scaled]
  split
  · rfl
  · generalize hagenowNormal (K := K) nx ny _ _ _ _ = n
    have hv : ∀ r z, hagenowIntegral G nx ny R Z ⟨fun y => k * n.L y, fun y => k * n.R y, fun y => k * n.D y, fun y => k * n.U y⟩ r z =
        (hagenowIntegral G nx ny R Z n r z).map (k * ·) := by
      intro r z
      have e : ∀ g y w : K, g * (k * y) / w = k * (g * y / w) := fun g y w => by ring
      simp only [hagenowIntegral, e, romb_smul]
      generalize romb (fun y => G (R 0) (Z y) r z * n.L y / R 0) ny = a1
      generalize romb (fun y => G (R (nx - 1)) (Z y) r z * n.R y / R (nx - 1)) ny = a2
      generalize romb (fun x => G (R x) (Z 0) r z * n.D x / R x) nx = a3
      generalize romb (fun x => G (R x) (Z (ny - 1)) r z * n.U x / R x) nx = a4
      cases a1 <;> cases a2 <;> cases a3 <;> cases a4 <;> simp only [Except.map, Except.ok.injEq]
      ring
    have : ∀ (l : List ((ℕ × ℕ) × K × K)) (P : Arr K),
        hagenowLoop (hagenowIntegral G nx ny R Z ⟨fun y => k * n.L y, fun y => k * n.R y, fun y => k * n.D y, fun y => k * n.U y⟩) R Z l
          (times k P) = (hagenowLoop (hagenowIntegral G nx ny R Z n) R Z l P).map (times k) := by
      intro l
      induction l with
      | nil => intro P; rfl
      | cons c l ih =>
        intro P
        obtain ⟨c, er, ez⟩ := c
        simp only [hagenowLoop, hv]
        cases hagenowIntegral G nx ny R Z n (R c.1 + er) (Z c.2 + ez) with
        | error e => rfl
        | ok v =>
          simp only [Except.map]
          rw [set_times]
          exact ih _
    exact this _ _

/-- **C99 (direct solver).** Any routine that solves the linear system, whatever the matrix. -/
theorem C99_solver (nx ny : ℕ) (A : ℕ → ℕ → K) (factorized : (ℕ → K) → ℕ → K)
    (hfac : ∀ b, ∀ r < nx * ny, matVec (nx * ny) A (factorized b) r = b r) (hlen : ∀ b, ∀ r, nx * ny ≤ r → factorized b r = 0) (k : K)
    (b : Arr K) : mgDirect factorized ny (times k b) = times k (mgDirect factorized ny b) := by
  have h : ∀ r < nx * ny, factorized (flat ny (times k b)) r = k * factorized (flat ny b) r := by
    refine matVec_unique hfac fun r hr => ?_
    rw [hfac _ r hr]
    have : matVec (nx * ny) A (fun r => k * factorized (flat ny b) r) r = k * matVec (nx * ny) A (factorized (flat ny b)) r := by
      simp only [matVec, Finset.mul_sum]
      exact Finset.sum_congr rfl fun c _ => by ring
    rw [this, hfac _ r hr]
    rfl
  funext c
  simp only [mgDirect, unflat, times]
  by_cases hr : c.1 * ny + c.2 < nx * ny
  · exact h _ hr
  · rw [hlen _ _ (not_lt.mp hr), hlen _ _ (not_lt.mp hr), mul_zero]

/-- **C99 (search for critical points, reversal).** -/
theorem C99_find_reversed (g : Mesh K) (spl : Arr K → Spline K) (hspl : ∀ P, Moved (-1) 0 0 g g (spl P) (spl (times (-1) P)) P (times (-1) P))
    (P : Arr K) (hne : ∀ o rest xs, findCritical g (spl P) P false = .ok (o :: rest, xs) → ∀ x ∈ xs, x.2.2 ≠ o.2.2) :
    findCritical g (spl (times (-1) P)) (times (-1) P) true =
      (findCritical g (spl P) P true).map fun r => (r.1.map (timesPoint (-1)), r.2.map (timesPoint (-1))) := by
  rw [C90_sign_partial (hspl P) true fun _ => hne]
  have : (fun p : Point K => (p.1, p.2.1, -p.2.2)) = timesPoint (-1) := by
    funext p; rw [timesPoint, neg_one_mul]
  rw [this]

/-- **C99 (profiles).** `k^2` times the pressure on axis, or the same poloidal beta, and `k` times the plasma current; or `k` times
`p'` and `f f'`. -/
theorem C99_profiles {k : K} (hk : k ≠ 0) {tok : C → C} {e e' : Env C K} (hs : Scales k tok e e') (quad : (K → K) → K → K → K)
    (pow : K → K → K) (field field' : State C K → Arr K × Arr K)
    (hf : ∀ s, field' (scaled k tok s) = (times k (field s).1, times k (field s).2)) (p : Params K) (target : K) (g : Given K) :
    ProfilesScale k tok (paxisProfiles quad pow e p target) (paxisProfiles quad pow e' (scaledParams k p) (k ^ 2 * target)) ∧
    ProfilesScale k tok (betapProfiles quad pow e field p target) (betapProfiles quad pow e' field' (scaledParams k p) target) ∧
    ProfilesScale k tok (givenProfiles e g) (givenProfiles e' (scaledGiven k g)) := by
  refine ⟨?_, ?_, ?_⟩
  · intro s P b s' J hl h
    obtain ⟨s1, h1, h⟩ := bind_ok h
    obtain ⟨⟨opt, xpt⟩, hf, h⟩ := bind_ok h
    obtain ⟨⟨J', c⟩, hj, h⟩ := bind_ok h
    cases h
    obtain ⟨pl, hl', hj⟩ := bind_ok hj
    obtain ⟨c1, u1⟩ := updateBoundary_scaled hk hs hl h1
    refine ⟨c1, ?_⟩
    have u2 := locate_scaled (core' := e'.core (times k P) (opt.map (timesPoint k)) (xpt.map (timesPoint k)))
      (fun b m h => hs.core _ _ _ b m h) hl'
    have u3 := jtorPaxis_scaled hk hj
    simp only [paxisProfiles, u1, bind, Except.bind, hs.find _ _ _ hf, paxisJtor]
    rw [show times k P (0, 0) = k * P (0, 0) from rfl, show (scaled k tok s').psiBndry = s'.psiBndry.map (k * ·) from rfl, u2]
    simp only [hs.nx, hs.ny, hs.R, hs.Z, u3]
  · intro s P b s' J hl h
    obtain ⟨s1, h1, h⟩ := bind_ok h
    obtain ⟨⟨opt, xpt⟩, hf', h⟩ := bind_ok h
    obtain ⟨⟨J', c⟩, hj, h⟩ := bind_ok h
    cases h
    obtain ⟨pl, hl', hj⟩ := bind_ok hj
    obtain ⟨c1, u1⟩ := updateBoundary_scaled hk hs hl h1
    refine ⟨c1, ?_⟩
    have u2 := locate_scaled (core' := e'.core (times k P) (opt.map (timesPoint k)) (xpt.map (timesPoint k)))
      (fun b m h => hs.core _ _ _ b m h) hl'
    have u3 := jtorBetap_scaled hk hj
    simp only [betapProfiles, u1, bind, Except.bind, hs.find _ _ _ hf', betapJtor, hf]
    rw [show times k P (0, 0) = k * P (0, 0) from rfl, show (scaled k tok s').psiBndry = s'.psiBndry.map (k * ·) from rfl, u2]
    simp only [hs.nx, hs.ny, hs.R, hs.Z, hs.mu0, u3]
  · intro s P b s' J hl h
    obtain ⟨⟨opt, xpt⟩, hf', h⟩ := bind_ok h
    obtain ⟨⟨J', c⟩, hj, h⟩ := bind_ok h
    cases h
    obtain ⟨pl, hl', hj⟩ := bind_ok hj
    refine ⟨rfl, ?_⟩
    have u2 := locate_scaled (core' := e'.core (times k P) (opt.map (timesPoint k)) (xpt.map (timesPoint k)))
      (fun b m h => hs.core _ _ _ b m h) hl'
    have hd : (decide ((scaledPlasma k pl).psiBndry - (scaledPlasma k pl).psiAxis ≠ 0)) = decide (pl.psiBndry - pl.psiAxis ≠ 0) := by
      simp only [scaledPlasma, ← mul_sub, ne_eq, mul_eq_zero, hk, false_or]
    simp only [givenProfiles, bind, Except.bind, hs.find _ _ _ hf', givenJtor]
    rw [show times k P (0, 0) = k * P (0, 0) from rfl, u2]
    simp only [hs.nx, hs.R, hs.mu0, hd, norm_scaled hk]
    split at hj
    · rename_i hc
      rw [if_pos hc]
      cases hj
      simp only [Except.ok.injEq, Prod.mk.injEq, true_and]
      rw [masked_scaled, ← masked_times]
      congr 1
      funext c
      simp only [times, scaledGiven]
      ring
    · cases hj

/-! ## What the user reads from the profiles -/

/-- **C99 (profile functions).** With a current of `k * Ip`, a vacuum value `k * fvac` and `k` times the flux, both constrained profiles give
`k` times the current density, and then `k` times `pprime` and `ffprime`, `k ^ 2` times the pressure and `|k|` times `fpol`. The integrator
is assumed to be homogeneous. -/
theorem C99_pressure {k : K} (hk : k ≠ 0) {quad : (K → K) → K → K → K} (hq : ∀ (c : K) f a b, quad (fun x => c * f x) a b = c * quad f a b)
    {sqrt : K → K} (hsq : ∀ y, 0 ≤ y → sqrt (k ^ 2 * y) = |k| * sqrt y) {pow : K → K → K} {mu0 : K} {nx ny : ℕ} {R Z : ℕ → K}
    {p : Params K} {target : K} {pl : Plasma K} {Br Bz P J : Arr K} {c : Consts K}
    (h : jtorPaxis quad pow nx ny R Z p target pl P = .ok (J, c) ∨
      jtorBetap quad pow mu0 nx ny R Z p target pl Br Bz P = .ok (J, c)) :
    ∃ c', ((jtorPaxis quad pow nx ny R Z p target pl P = .ok (J, c) → jtorPaxis quad pow nx ny R Z (scaledParams k p) (k ^ 2 * target)
        ⟨k * pl.psiAxis, k * pl.psiBndry, pl.mask⟩ (times k P) = .ok (times k J, c')) ∧
      (jtorBetap quad pow mu0 nx ny R Z p target pl Br Bz P = .ok (J, c) → jtorBetap quad pow mu0 nx ny R Z (scaledParams k p) target
        ⟨k * pl.psiAxis, k * pl.psiBndry, pl.mask⟩ (times k Br) (times k Bz) (times k P) = .ok (times k J, c'))) ∧
      ∀ x, (constrainedProfile pow mu0 (scaledParams k p) c').pprime x = k * (constrainedProfile pow mu0 p c).pprime x ∧
        (constrainedProfile pow mu0 (scaledParams k p) c').ffprime x = k * (constrainedProfile pow mu0 p c).ffprime x ∧
        (constrainedProfile pow mu0 (scaledParams k p) c').pressure quad x = k ^ 2 * (constrainedProfile pow mu0 p c).pressure quad x ∧
        (constrainedProfile pow mu0 (scaledParams k p) c').fpol quad sqrt x =
          ((constrainedProfile pow mu0 p c).fpol quad sqrt x).map (|k| * ·) := by
  have e1 : ∀ x, (constrainedProfile pow mu0 (scaledParams k p) ⟨k * c.L, c.Beta0, k * c.psiBndry, k * c.psiAxis⟩).pprime x =
      k * (constrainedProfile pow mu0 p c).pprime x := fun x => by simp only [constrainedProfile, scaledParams]; ring
  have e2 : ∀ x, (constrainedProfile pow mu0 (scaledParams k p) ⟨k * c.L, c.Beta0, k * c.psiBndry, k * c.psiAxis⟩).ffprime x =
      k * (constrainedProfile pow mu0 p c).ffprime x := fun x => by simp only [constrainedProfile, scaledParams]; ring
  refine ⟨⟨k * c.L, c.Beta0, k * c.psiBndry, k * c.psiAxis⟩, ⟨jtorPaxis_scaled hk, jtorBetap_scaled hk⟩,
    fun x => ⟨e1 x, e2 x, ?_, ?_⟩⟩
  · rw [Profile.pressure, Profile.pressure, funext e1, hq]
    show k * _ * (k * c.psiAxis - k * c.psiBndry) = k ^ 2 * (_ * (c.psiAxis - c.psiBndry))
    ring
  · rw [Profile.fpol, Profile.fpol, funext e2, hq]
    generalize hv : quad (constrainedProfile pow mu0 p c).ffprime x 1 = v
    have hk2 : 0 < k ^ 2 := by positivity
    have key : ∀ a b : K, a = k ^ 2 * b → (if a < 0 then Except.error Err.nonfinite else Except.ok (sqrt a)) =
        Except.map (|k| * ·) (if b < 0 then Except.error Err.nonfinite else Except.ok (sqrt b)) := by
      rintro a b rfl
      by_cases hn : b < 0
      · rw [if_pos hn, if_pos (mul_neg_of_pos_of_neg hk2 hn)]
        rfl
      · rw [if_neg hn, if_neg (not_lt.2 (mul_nonneg hk2.le (not_lt.1 hn))), hsq _ (not_lt.1 hn)]
        rfl
    refine key _ _ ?_
    simp only [constrainedProfile, scaledParams]
    ring

/-- A case meeting the hypotheses of `C99_pressure`: the midpoint rule, a plasma on a grid with 3 points in each direction. -/
example : (∀ (c : ℚ) f a b, (fun (f : ℚ → ℚ) a b => f ((a + b) / 2) * (b - a)) (fun x => c * f x) a b =
      c * (fun (f : ℚ → ℚ) a b => f ((a + b) / 2) * (b - a)) f a b) ∧
    ((jtorPaxis (K := ℚ) (fun f a b => f ((a + b) / 2) * (b - a)) (fun x _ => x) 3 3 (fun i => i + 1) (fun j => j)
      ⟨3, 1, 1, 1, 1⟩ 1 ⟨2, 0, none⟩ (fun c => if c = (1, 1) then 2 else 0)).toOption.map
        fun r => r.1 (1, 1)) ∉ [none, some 0] := by
  refine ⟨fun c f a b => by simp only; ring, ?_⟩
  decide +kernel

/-! ## Linear solve and iteration -/

/-- **C99 (one linear solve).** -/
theorem C99_solve {k : K} (hk0 : k ≠ 0) {tok : C → C} {e e' : Env C K} (hs : Scales k tok e e') {profiles profiles' : Profiles C K}
    (hp : ProfilesScale k tok profiles profiles') (s s' : State C K) (given psi0 : Option (Arr K)) (b : Option K)
    (hk : 0 < k ∨ s.checkLimited = false) (h : solve e profiles s given psi0 b = .ok s') :
    solve e' profiles' (scaled k tok s) (given.map (times k)) (psi0.map (times k)) (b.map (k * ·)) = .ok (scaled k tok s') :=
  (solve_scaled hk0 hs hp hk h).2

theorem values_scaled (k : K) (nx ny : ℕ) (a : Arr K) : values nx ny (times k a) = (values nx ny a).map (k * ·) := by
  rw [values, values, List.map_map]
  rfl

theorem ofValues_scaled (k : K) (ny : ℕ) (l : List K) : ofValues ny (l.map (k * ·)) = times k (ofValues ny l) := by
  funext c
  simp only [ofValues, unflat, times]
  rw [List.getD_eq_getElem?_getD, List.getD_eq_getElem?_getD, List.getElem?_map]
  cases l[c.1 * ny + c.2]? with
  | none => simp
  | some v => rfl

/-- **C99 (Picard iteration).** If a calculation ends with an equilibrium, the calculation with all currents multiplied by `k` ends after the same
number of steps with the equilibrium multiplied by `k`. The absolute tolerance has to be multiplied by `|k|`. For negative `k` the limiter must
not be looked at (see C40). -/
theorem C99_picard {k : K} (hk0 : k ≠ 0) {tok : C → C} {e e' : Env C K} (hs : Scales k tok e e') {profiles profiles' : Profiles C K}
    (hp : ProfilesScale k tok profiles profiles') {constrain constrain' : Option (State C K → Except Err (State C K))}
    (hc : ControlScales k tok constrain constrain') (o : Picard.Opts K) (hk : 0 < k ∨ o.checkLimited = false) (fuel : ℕ) (s s' : State C K)
    (hist : List (K × Option K)) (h : Picard.picard (picardEnv e profiles constrain) o fuel s = .ok (some (s', hist))) :
    Picard.picard (picardEnv e' profiles' constrain') (scaledOpts k o) fuel (scaled k tok s) =
      .ok (some (scaled k tok s', scaledHist k hist)) := by
  refine Picard.picard_follows (T := scaled k tok) (ok := fun cl => 0 < k ∨ cl = false) hk0 ⟨?_, ?_, ?_, ?_, ?_⟩ o
    ⟨Or.inr rfl, fun ht => ?_⟩ fuel s s' hist h
  · intro s s' h
    rcases hc with ⟨rfl, rfl⟩ | ⟨g, g', rfl, rfl, hg⟩
    · cases h; rfl
    · exact hg s s' h
  · intro s
    show values e'.nx e'.ny (psi e' (scaled k tok s)) = _
    rw [psi_scaled hs, hs.nx, hs.ny, values_scaled]
    rfl
  · intro s cl p b s' hcl h
    have := C99_solve hk0 hs hp { s with checkLimited := cl } s' none (some (ofValues e.ny p)) b hcl h
    show solve e' profiles' { scaled k tok s with checkLimited := cl } none (some (ofValues e'.ny (p.map (k * ·)))) (b.map (k * ·)) = _
    rw [hs.ny, ofValues_scaled]
    exact this
  · intro s; rfl
  · intro s; rfl
  · rcases hk with hk | hk
    · exact Or.inl hk
    · rw [ht] at hk; cases hk

/-! ## Reversal of all currents in a whole calculation -/

/-- The three kinds of profiles with their parameters. -/
inductive Kind (K : Type u) where
  | paxis (p : Params K) (paxis : K)
  | betap (p : Params K) (betap : K)
  | given (g : Given K)

/-- The profile object. -/
def Kind.make (quad : (K → K) → K → K → K) (pow : K → K → K) (field : State C K → Arr K × Arr K) (e : Env C K) : Kind K → Profiles C K
  | .paxis p t => paxisProfiles quad pow e p t
  | .betap p t => betapProfiles quad pow e field p t
  | .given g => givenProfiles e g

/-- The parameters for `k` times the current. -/
def Kind.times (k : K) : Kind K → Kind K
  | .paxis p t => .paxis (scaledParams k p) (k ^ 2 * t)
  | .betap p t => .betap (scaledParams k p) t
  | .given g => .given (scaledGiven k g)

theorem kind_scales {k : K} (hk : k ≠ 0) {tok : C → C} {e e' : Env C K} (hs : Scales k tok e e') (quad : (K → K) → K → K → K)
    (pow : K → K → K) (field : State C K → Arr K × Arr K)
    (hf : ∀ s, field (scaled k tok s) = (Equil.times k (field s).1, Equil.times k (field s).2)) (q : Kind K) :
    ProfilesScale k tok (q.make quad pow field e) ((q.times k).make quad pow field e') := by
  cases q with
  | paxis p t => exact (C99_profiles hk hs quad pow field field hf p t ⟨id, id, 0, none, none⟩).1
  | betap p t => exact (C99_profiles hk hs quad pow field field hf p t ⟨id, id, 0, none, none⟩).2.1
  | given g => exact (C99_profiles hk hs quad pow field field hf ⟨0, 0, 0, 0, 0⟩ 0 g).2.2

/-- The same equilibrium with a search for critical points that stops for some fluxes. -/
noncomputable def cautious (e : Env C K) (bad : Arr K → Prop) : Env C K :=
  { e with find := fun P => open Classical in if bad P then .error .value else e.find P }

/-- There is an X-point with exactly the flux of the magnetic axis. -/
def Ambiguous (g : Mesh K) (spl : Arr K → Spline K) (P : Arr K) : Prop :=
  ∃ o rest xs, findCritical g (spl P) P false = .ok (o :: rest, xs) ∧ ∃ x ∈ xs, x.2.2 = o.2.2

theorem times_one (a : Arr K) : times 1 a = a := by funext c; simp [times]

theorem timesPoint_one : (timesPoint 1 : Point K → Point K) = id := by funext p; simp [timesPoint]

theorem map_one_mul (b : Option K) : b.map ((1 : K) * ·) = b := by cases b <;> simp

theorem scaled_one (s : State C K) : scaled 1 id s = s := by
  obtain ⟨tok, pp, sp, cur, jt, cl, pa, pb, px, pl, ct, il, mk⟩ := s
  simp only [scaled, times_one, one_mul, id_eq, Option.map_id']
  congr 1
  cases jt <;> simp [times_one]

theorem cautious_scales_one (e : Env C K) (bad : Arr K → Prop) : Scales 1 id (cautious e bad) e := by
  refine ⟨rfl, rfl, rfl, rfl, rfl, rfl, fun t => (times_one _).symm, fun t => rfl, ?_, ?_, ?_, ?_, ?_⟩
  · intro P o x h
    simp only [cautious] at h
    split at h
    · cases h
    · rw [times_one, timesPoint_one, List.map_id, List.map_id]; exact h
  · intro P o x b m h
    rw [times_one, timesPoint_one, List.map_id, List.map_id, map_one_mul]; exact h
  · intro P R Z; rw [times_one, one_mul]; rfl
  · intro J P Q h; rw [times_one, times_one, times_one]; exact h
  · intro x b; rw [times_one, times_one, times_one]; rfl

/-- **C99 (reversal of all currents).** Free boundary, von Hagenow's or fixed boundary, direct solver, any of the three kinds of profiles, without
limiter. If a calculation ends with an equilibrium and meets no flux whose X-points are at the flux of the axis, then the
calculation with all currents reversed (coils, plasma, requested flux values, `f` and its derivative) ends after the same number of steps with the
flux and current density of opposite sign, the same positions of axis and X-points, the same core mask. -/
theorem C99_reversed_partial (e : Env C K) (tok : C → C) (hcoil : ∀ t, e.coilPsi (tok t) = times (-1) (e.coilPsi t))
    (hlimits : ∀ t, e.limits (tok t) = e.limits t) (spl : Arr K → Spline K)
    (hspl : ∀ P, Moved (-1) 0 0 ⟨e.nx, e.ny, e.R, e.Z⟩ ⟨e.nx, e.ny, e.R, e.Z⟩ (spl P) (spl (times (-1) P)) P (times (-1) P))
    (hfind : e.find = fun P => findCritical ⟨e.nx, e.ny, e.R, e.Z⟩ (spl P) P true)
    (hcore : ∀ P o x b P' o' x' b', (∀ fuel, coreMask ⟨e.nx, e.ny, e.R, e.Z⟩ P o x b fuel = coreMask ⟨e.nx, e.ny, e.R, e.Z⟩ P' o' x' b' fuel) →
      e.core P o x b = e.core P' o' x' b')
    (hint : ∀ P R Z, e.interp (times (-1) P) R Z = -e.interp P R Z) (sqrt : K → K) (G : K → K → K → K → K)
    (hbnd : e.boundary = freeBoundary G e.nx e.ny e.R e.Z ∨ e.boundary = freeBoundaryHagenow sqrt G e.solver e.nx e.ny e.R e.Z ∨
      e.boundary = fun _ psi => .ok (fixedBoundary e.nx e.ny psi))
    (A : ℕ → ℕ → K) (factorized : (ℕ → K) → ℕ → K) (hfac : ∀ b, ∀ r < e.nx * e.ny, matVec (e.nx * e.ny) A (factorized b) r = b r)
    (hlen : ∀ b, ∀ r, e.nx * e.ny ≤ r → factorized b r = 0) (hsol : e.solver = fun _ b => mgDirect factorized e.ny b)
    (quad : (K → K) → K → K → K) (pow : K → K → K) (field : State C K → Arr K × Arr K)
    (hfield : ∀ s, field (scaled (-1) tok s) = (times (-1) (field s).1, times (-1) (field s).2)) (q : Kind K)
    (constrain constrain' : Option (State C K → Except Err (State C K))) (hc : ControlScales (-1) tok constrain constrain')
    (o : Picard.Opts K) (ho : o.checkLimited = false) (fuel : ℕ) (s s' : State C K) (hist : List (K × Option K))
    (h : Picard.picard (picardEnv (cautious e (Ambiguous ⟨e.nx, e.ny, e.R, e.Z⟩ spl))
      (q.make quad pow field (cautious e (Ambiguous ⟨e.nx, e.ny, e.R, e.Z⟩ spl))) constrain) o fuel s = .ok (some (s', hist))) :
    Picard.picard (picardEnv e (q.make quad pow field e) constrain) o fuel s = .ok (some (s', hist)) ∧
    Picard.picard (picardEnv e ((q.times (-1)).make quad pow field e) constrain') (scaledOpts (-1) o) fuel (scaled (-1) tok s) =
      .ok (some (scaled (-1) tok s', scaledHist (-1) hist)) := by
  have hn : (-1 : K) ≠ 0 := by norm_num
  have hss : ∀ x b, e.solver (times (-1) x) (times (-1) b) = times (-1) (e.solver x b) := by
    intro x b
    rw [hsol]
    exact C99_solver e.nx e.ny A factorized hfac hlen (-1) b
  have hs : Scales (-1) tok (cautious e (Ambiguous ⟨e.nx, e.ny, e.R, e.Z⟩ spl)) e := by
    refine ⟨rfl, rfl, rfl, rfl, rfl, rfl, hcoil, hlimits, ?_, ?_, ?_, ?_, hss⟩
    · intro P op x h
      simp only [cautious] at h
      split at h
      · cases h
      · rename_i hb
        rw [hfind] at h ⊢
        simp only at h ⊢
        rw [C99_find_reversed _ spl hspl P fun o rest xs h1 x hx h2 => hb ⟨o, rest, xs, h1, x, hx, h2⟩, h]
        rfl
    · intro P op x b m h
      rw [← h]
      exact hcore _ _ _ _ _ _ _ _ fun fuel => C99_core_mask _ (-1) hn P op x b fuel
    · intro P R Z
      rw [neg_one_mul]
      exact hint P R Z
    · intro J P Q h
      have h : e.boundary J P = .ok Q := h
      rcases hbnd with hb | hb | hb <;> rw [hb] at h ⊢
      · rw [C99_free_boundary, h]; rfl
      · rw [C99_hagenow_boundary _ _ _ _ _ _ _ _ hss, h]; rfl
      · cases h
        simp only [C99_fixed_boundary]
  refine ⟨?_, C99_picard hn hs (kind_scales hn hs quad pow field hfield q) hc o (Or.inr ho) fuel s s' hist h⟩
  have h1 := C99_picard one_ne_zero (cautious_scales_one e (Ambiguous ⟨e.nx, e.ny, e.R, e.Z⟩ spl))
    (kind_scales one_ne_zero (cautious_scales_one e (Ambiguous ⟨e.nx, e.ny, e.R, e.Z⟩ spl)) quad pow field
      (fun s => by rw [scaled_one, times_one, times_one]) q) (constrain := constrain) (constrain' := constrain) (by
        cases constrain with
        | none => exact Or.inl ⟨rfl, rfl⟩
        | some f => exact Or.inr ⟨f, f, rfl, rfl, fun s s' h => by rw [scaled_one, scaled_one]; exact h⟩) o (Or.inl one_pos) fuel s s' hist h
  have e1 : scaledOpts 1 o = o := by
    simp only [scaledOpts, abs_one, one_mul, Option.map_id']
  have e2 : scaledHist 1 hist = hist := by
    simp only [scaledHist, abs_one, one_mul]
    exact List.map_id hist
  have e3 : q.times 1 = q := by
    cases q with
    | paxis p t => simp [Kind.times, scaledParams]
    | betap p t => simp [Kind.times, scaledParams]
    | given g =>
      obtain ⟨a, b, c, d, f⟩ := g
      simp only [Kind.times, scaledGiven, one_mul, one_pow]
      congr 2
      · cases d <;> rfl
      · cases f <;> rfl
  rwa [scaled_one, scaled_one, e1, e2, e3] at h1

/-! ## A case meeting the hypotheses -/

/-- A paraboloid through the value of the flux in the middle of a 5 × 5 grid. -/
def reversalSpline (P : Arr ℚ) : Spline ℚ where
  f R Z := P (2, 2) * ((R - 3) ^ 2 + (Z - 2) ^ 2 + 1)
  dR R _ := P (2, 2) * (2 * (R - 3))
  dZ _ Z := P (2, 2) * (2 * (Z - 2))
  dRR _ _ := P (2, 2) * 2
  dRZ _ _ := 0
  dZZ _ _ := P (2, 2) * 2

/-- A 5 × 5 grid with one coil, fixed boundary, the identity as operator. -/
def reversalEnv : Env ℚ ℚ :=
  { mu0 := 1
    nx := 5
    ny := 5
    R := fun i => i + 1
    Z := fun j => j
    coilPsi := fun t c => t * (c.1 + 1)
    limits := fun _ => none
    find := fun P => findCritical ⟨5, 5, fun i => i + 1, fun j => j⟩ (reversalSpline P) P
    core := fun P o x b => match coreMask (⟨5, 5, fun i => i + 1, fun j => j⟩ : Mesh ℚ) P o x b 1000 with
      | .ok (some M) => .ok fun c => (M c : ℚ)
      | _ => .error .runtime
    interp := fun P _ _ => P (2, 2)
    fixed := true
    boundary := fun _ psi => .ok (fixedBoundary 5 5 psi)
    solver := fun _ b => mgDirect (fun v r => if r < 25 then v r else 0) 5 b }

def reversalKind : Kind ℚ := .given ⟨fun x => 1 - x, fun x => x, 1, none, none⟩

def reversalState : State ℚ ℚ :=
  ⟨1, fun c => if c = (2, 2) then 1 else 0, fun _ => 0, 0, none, false, none, none, none, none, none, false, none⟩

def reversalOpts : Picard.Opts ℚ := ⟨1 / 1000, 100, 0, none, some 50, false, false, 0⟩

/-- On this grid only one point is searched, no flux is ambiguous. -/
theorem reversal_clear (P : Arr ℚ) : ¬ Ambiguous ⟨5, 5, fun i => (i : ℚ) + 1, fun j => (j : ℚ)⟩ reversalSpline P := by
  rintro ⟨o, rest, xs, h, x, hx, -⟩
  have hi : interior 5 5 = [(2, 2)] := by decide
  simp only [findCritical, hi, candidates] at h
  cases hc : candidate ⟨5, 5, fun i => (i : ℚ) + 1, fun j => (j : ℚ)⟩ (reversalSpline P) P 2 2 with
  | error e => simp only [hc] at h; cases h
  | ok c =>
    simp only [hc] at h
    cases c with
    | none => simp [removeDup, removeDupLoop] at h
    | some q =>
      obtain ⟨b, q⟩ := q
      cases b with
      | true => simp [removeDup, removeDupLoop] at h
      | false =>
        simp [removeDup, removeDupLoop, sortBy] at h
        rw [h.2] at hx
        cases hx

/-- The hypotheses of `C99_reversed_partial` are met by a calculation that ends. -/
example : ∃ s' hist,
    Picard.picard (picardEnv (cautious reversalEnv (Ambiguous ⟨5, 5, fun i => i + 1, fun j => j⟩ reversalSpline))
      (reversalKind.make (fun _ _ _ => 0) (fun x _ => x) (fun _ => (fun _ => 0, fun _ => 0))
        (cautious reversalEnv (Ambiguous ⟨5, 5, fun i => i + 1, fun j => j⟩ reversalSpline))) none) reversalOpts 1 reversalState =
      .ok (some (s', hist)) ∧
    Picard.picard (picardEnv reversalEnv ((reversalKind.times (-1)).make (fun _ _ _ => 0) (fun x _ => x)
        (fun _ => (fun _ => 0, fun _ => 0)) reversalEnv) none)
      (scaledOpts (-1) reversalOpts) 1 (scaled (-1) (fun t => -t) reversalState) =
        .ok (some (scaled (-1) (fun t => -t) s', scaledHist (-1) hist)) := by
  have he : cautious reversalEnv (Ambiguous ⟨5, 5, fun i => i + 1, fun j => j⟩ reversalSpline) = reversalEnv := by
    simp only [cautious, reversal_clear, if_false]
  have hrun : ((Picard.picard (picardEnv reversalEnv (reversalKind.make (fun _ _ _ => 0) (fun x _ => x) (fun _ => (fun _ => 0, fun _ => 0))
      reversalEnv) none) reversalOpts 1 reversalState).toOption.bind fun r => r).isSome = true := by decide +kernel
  cases hr : Picard.picard (picardEnv reversalEnv (reversalKind.make (fun _ _ _ => 0) (fun x _ => x) (fun _ => (fun _ => 0, fun _ => 0))
      reversalEnv) none) reversalOpts 1 reversalState with
  | error err => rw [hr] at hrun; cases hrun
  | ok r =>
    cases r with
    | none => rw [hr] at hrun; cases hrun
    | some r =>
      obtain ⟨s', hist⟩ := r
      rw [he]
      refine ⟨s', hist, hr, (C99_reversed_partial reversalEnv (fun t => -t) (fun t => ?_) (fun t => rfl) reversalSpline (fun P => ?_) rfl
        (fun P o x b P' o' x' b' h => ?_) (fun P R Z => ?_) id (fun _ _ _ _ => 0) (Or.inr (Or.inr rfl)) (fun r c => if r = c then 1 else 0)
        (fun v r => if r < 25 then v r else 0) (fun b r hr => ?_) (fun b r hr => ?_) rfl (fun _ _ _ => 0) (fun x _ => x)
        (fun _ => (fun _ => 0, fun _ => 0)) (fun s => ?_) reversalKind none none (Or.inl ⟨rfl, rfl⟩) reversalOpts rfl 1 reversalState s' hist
        ?_).2⟩
      · funext c; simp only [reversalEnv, times]; ring
      · refine ⟨rfl, rfl, fun _ => rfl, fun _ => (add_zero _).symm, fun a => ?_, fun R Z => ?_, fun R Z => ?_, fun R Z => ?_, fun R Z => ?_,
          fun R Z => ?_, fun R Z => ?_⟩ <;> simp only [times, reversalSpline] <;> ring_nf
      · simp only [reversalEnv] at h ⊢
        rw [h]
      · simp only [reversalEnv, times]; ring
      · have hr : r < 25 := hr
        show matVec 25 _ _ r = _
        simp only [matVec]
        rw [Finset.sum_eq_single r]
        · simp [hr]
        · intro c _ hc; simp [Ne.symm hc]
        · intro h; exact absurd (Finset.mem_range.mpr hr) h
      · have hr : ¬ r < 25 := not_lt.mpr hr
        simp only [hr, if_false]
      · have : times (-1) (fun _ => (0 : ℚ)) = fun _ => 0 := by funext c; simp [times]
        simp only [this]
      · have he' : cautious reversalEnv (Ambiguous ⟨reversalEnv.nx, reversalEnv.ny, reversalEnv.R, reversalEnv.Z⟩ reversalSpline) = reversalEnv := he
        rw [he']
        exact hr

end FreeGS.Equil
