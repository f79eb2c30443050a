import Verif.Props.Store

/-!
# C121: what is left after an exception
-/

set_option linter.unusedSectionVars false

namespace FreeGS.Store

open FreeGS.GS FreeGS.Critical FreeGS.Equil

universe u
variable {K : Type u} [Field K] [LinearOrder K] {C : Type u}

/-! ## A linear solve that raises -/

/-- **C121.** When `eq.solve` raises, wherever in it, either the plasma is as before — flux array, interpolation, current, current density — or
the flux is completely that of the new current density `J`, with its interpolation, and only the current and the current density are the
old ones. It is never half of one and half of the other: the boundary functions assign all edge values or none. -/
theorem C121_solve (s : Setup C K) (hs : NotShared s) (hu : ∀ f, s.boundary ≠ .user f) {p : Profile C K} {q : Profiles C K}
    (hp : Matches p q) (i : ℕ) (given psi0 : Option ℕ) (b : Option K) (w : World C K) (hx : (w.eqs i).psi < w.next)
    (hg : ∀ r, given = some r → r < w.next ∧ r ≠ (w.eqs i).psi) (y : Err) (h : (solve s p i given psi0 b w).1 = some y) :
    Untouched i w (solve s p i given psi0 b w).2 ∨ ∃ J : Arr K, (∀ r, given = some r → J = w.arrays r) ∧
      Renewed s i J w (solve s p i given psi0 b w).2 :=
  solve_failed s hs hu hp i given psi0 b w hx hg y h

/-- A profile object that raises. -/
def raising : Profile ℚ ℚ := unconstrained fun _ _ => .error .value

/-- A machine with a limiter point at height 2, and an X-point whose height is the flux at the corner: when that is small, no limiter point is
left between the X-points and `np.argmax` raises. -/
def walled : Setup ℚ ℚ :=
  { small .free false 3 with
    limits := fun _ => some [(1, 2)], find := fun a => .ok ([(0, 0, a (1, 1))], [(0, a (0, 0), a (0, 0))]), green := fun _ _ _ _ => 0 }

/-- One equilibrium in that machine. -/
def one : World ℚ ℚ := runAll empty [.create walled 0 none (fun _ => 3) 0 true]

/-- Both cases occur: the profile object raises, and the limiter test after the solve raises. -/
example : (solve (small .free false 3) raising 0 none none none two).1 = some .value ∧
    ((solve (small .free false 3) raising 0 none none none two).2.view 0).plasmaPsi (1, 1) = 3 ∧
    one.count = 1 ∧ (solve walled ones 0 none none none one).1 = some .value ∧
    ((solve walled ones 0 none none none one).2.view 0).plasmaPsi (0, 0) = 0 := by decide +kernel

/-- **C121.** After any solve, whether it returned or raised, the interpolation of the flux is that of the flux, and the current is the
integral of the current density, if so before; after one that returned, axis, boundary flux, limiter contact and core mask are those of
the total flux. -/
theorem C121_sound (s : Setup C K) (hs : NotShared s) (hu : ∀ f, s.boundary ≠ .user f) {p : Profile C K} {q : Profiles C K}
    (hp : Matches p q) (i : ℕ) (given psi0 : Option ℕ) (b : Option K) (w : World C K) (hw : Good w i)
    (hg : ∀ r, given = some r → r < w.next ∧ r ≠ (w.eqs i).psi) (h : Sound s w i) :
    Sound s (solve s p i given psi0 b w).2 i ∧
      ((solve s p i given psi0 b w).1 = none → Fresh s (solve s p i given psi0 b w).2 i) :=
  ⟨solve_sound s hs hu hp i given psi0 b w hw hg h, fun e => (solve_ends s hs hp i given psi0 b w hw hg e).2⟩

/-- **C121.** The same for Picard iteration: exceptions of a linear solve, of the control, and the `RuntimeError` at the limit of passes. -/
theorem C121_picard_sound (s : Setup C K) (hs : NotShared s) (hu : ∀ f, s.boundary ≠ .user f) {p : Profile C K} {q : Profiles C K}
    (hp : Matches p q) (f : Option (Constrain C K)) (o : Picard.Opts K) (i fuel : ℕ) (w : World C K) (hw : Good w i) (h : Sound s w i)
    (r : Out C K) (hr : picard s p f o i fuel w = some r) : Sound s r.2 i ∧ (r.1 = none → Fresh s r.2 i) :=
  picard_sound s hs hu hp f o i fuel w hw h r hr

/-- A new equilibrium meets the hypotheses. -/
theorem two_sound (s : Setup ℚ ℚ) : Sound s two 0 := by
  have j0 : (two.eqs 0).jtor = none := by decide +kernel
  refine ⟨?_, fun J hJ => ?_⟩
  · have h0 : (two.eqs 0).psi = 1 := by decide +kernel
    rw [h0]
    rfl
  · rw [j0] at hJ; cases hJ

example : Sound (small .free false 3) two 0 ∧ Good two 0 ∧
    ((picard (small .free false 3) ones (some seven) opts 0 5 two).map fun r => r.1.isSome) = some false :=
  ⟨two_sound _, two_good, by decide +kernel⟩

/-! ## Trying again -/

/-- **C121.** An exception that came before the flux was changed does no harm: any later solve — with other profiles, another array, another
boundary flux — raises the same exception or gives the same flux, current density, current and machine as if the failed call had never
been made. What `_updateBoundaryPsi` and the failed call left in the attributes does not matter. -/
theorem C121_retry (s : Setup C K) (hs : NotShared s) {p p' : Profile C K} {q q' : Profiles C K} (hp' : Matches p' q') (hq' : Respects q')
    (i : ℕ) (given psi0 given' psi0' : Option ℕ) (b b' : Option K) (w : World C K) (hw : Good w i)
    (h : Untouched i w (solve s p i given psi0 b w).2)
    (hg' : ∀ r, given' = some r → r < w.next ∧ r ≠ (w.eqs i).psi) (h0' : ∀ r, psi0' = some r → r < w.next) :
    SameResult (seen i (solve s p' i given' psi0' b' w)) (seen i (solve s p' i given' psi0' b' (solve s p i given psi0 b w).2)) := by
  have o := (solve_only s p i given psi0 b w).1
  have om := (solve_only s p i given psi0 b w).2.1
  set w1 := (solve s p i given psi0 b w).2 with hw1
  have hn := o.next
  have hpsi := hw.psi
  have same : ∀ r, r < w.next → w1.arrays r = w.arrays r := by
    intro r hr
    by_cases e : r = (w.eqs i).psi
    · rw [e]; exact h.flux
    · exact o.arrays r hr e
  have g1 : Good w1 i := by
    refine ⟨by rw [h.psi]; omega, fun r hr => ?_⟩
    rw [h.jtor] at hr
    obtain ⟨h1, h2⟩ := hw.jtor r hr
    exact ⟨by omega, by rw [h.psi]; exact h2⟩
  have sf : SameFlux (w.view i) (w1.view i) := by
    refine ⟨?_, ?_, h.spline, h.current, ?_, h.checkLimited⟩
    · simp only [World.view, o.machine, om]
    · simp only [World.view, h.psi, h.flux]
    · simp only [World.view, h.jtor]
      rcases hJ : (w.eqs i).jtor with _ | J
      · rfl
      · simp only [Option.map_some, same J (hw.jtor J hJ).1]
  have e1 : given'.map w1.arrays = given'.map w.arrays := by
    rcases given' with _ | r
    · rfl
    · simp only [Option.map_some, same r (hg' r rfl).1]
  have e2 : psi0'.map w1.arrays = psi0'.map w.arrays := by
    rcases psi0' with _ | r
    · rfl
    · simp only [Option.map_some, same r (h0' r rfl)]
  rw [solve_seen s hs hp' i given' psi0' b' w hw.psi hw.jtor hg',
    solve_seen s hs hp' i given' psi0' b' w1 g1.psi g1.jtor (fun r hr => ⟨by have := (hg' r hr).1; omega, by
      rw [h.psi]; exact (hg' r hr).2⟩), e1, e2]
  exact solve_same s.env hq' sf _ _ _

/-- **C121.** The profile objects of jtor.py are such: they do not use what was left in the attributes. For `ConstrainBetapIp` this holds for the
field of the equilibrium, which depends on the flux and the coils. -/
theorem C121_profiles (quad : (K → K) → K → K → K) (pow : K → K → K) (s : Setup C K) (field : State C K → Arr K × Arr K)
    (hfield : ∀ st st', SameFlux st st' → field st' = field st) (p : Jtor.Params K) (v : K) (g : Jtor.Given K) :
    Respects (paxisProfiles quad pow s.env p v) ∧ Respects (betapProfiles quad pow s.env field p v) ∧ Respects (givenProfiles s.env g) :=
  ⟨respects_paxis quad pow s.env p v, respects_betap quad pow s.env field hfield p v, respects_given s.env g⟩

example : Untouched 0 two (solve (small .free false 3) raising 0 none none none two).2 := by
  have e : two.eqs 0 = ⟨0, 1, none, (two.eqs 0).attrs⟩ := rfl
  refine ⟨by decide +kernel, ?_, ?_, by decide +kernel, by decide +kernel, by decide +kernel⟩ <;> rfl

/-! ## Picard iteration that raises -/

/-- **C121.** Picard iteration without control that raises has left the equilibrium as its last linear solve left it; at the limit of passes
(`RuntimeError`) that solve had returned, so that the equilibrium is consistent: interpolation, current, axis, boundary flux and core mask
are those of the flux and the current density. -/
theorem C121_maxits (s : Setup C K) (hs : NotShared s) {p : Profile C K} {q : Profiles C K} (hp : Matches p q) (o : Picard.Opts K)
    (i fuel : ℕ) (w : World C K) (hw : Good w i) (x : Err) (w' : World C K) (hr : picard s p none o i fuel w = some (some x, w')) :
    (∃ w0 cl v b, Good w0 i ∧ picardSolve s p i cl v b w0 = (some x, w')) ∨
      (x = .runtime ∧ (∃ m, o.maxits = some m ∧ m ≠ 0) ∧ Sound s w' i ∧ Fresh s w' i) := by
  obtain ⟨w0, cl, v, b, h1, h2⟩ := picard_last s p o i fuel w _ x w' hr
  have g0 := hw.own h1
  rcases h2 with h2 | ⟨h2, h3, m, n, h4, h5, -⟩
  · exact .inl ⟨w0, cl, v, b, g0, h2⟩
  · refine .inr ⟨h2, ⟨m, h4, h5⟩, ?_⟩
    unfold picardSolve at h3
    simp only at h3
    have o1 : Own i w0 ((w0.setAttrs i { (w0.eqs i).attrs with checkLimited := cl }).alloc (ofValues s.ny v)) :=
      (Own.of_only (Only.setAttrs i w0 _) (by rw [setAttrs_same])).trans (Own.of_only (Only.alloc i _ _) rfl)
    have := solve_ends s hs hp i none _ b _ (g0.own o1) (fun r h => by cases h) (congrArg Prod.fst h3)
    rw [h3] at this
    exact this

/-- Options that are never met. -/
def never : Picard.Opts ℚ := { opts with rtol := 0, maxits := some 1 }

example : ((picard (small .free false 3) ones none never 0 5 two).map fun r => r.1) = some (some .runtime) := by decide +kernel

/-! ## What fails -/

/-- **C121 fails** when the axis, boundary and limiter contact of the new flux cannot be found: the flux is new, the axis is new, the boundary flux,
the current and the current density are the old ones. -/
theorem C121_solve_fails :
    let r := solve walled ones 0 none none none one
    r.1 = some .value ∧ (r.2.view 0).plasmaPsi (1, 1) ≠ (one.view 0).plasmaPsi (1, 1) ∧ (r.2.view 0).psiAxis ≠ (one.view 0).psiAxis ∧
      (r.2.view 0).psiBndry = (one.view 0).psiBndry ∧ (r.2.view 0).current = (one.view 0).current ∧ (r.2.view 0).jtor.isNone = true := by
  decide +kernel

/-- **C121 fails** for von Hagenow's boundary with a solver that works in place, on a grid that is too small for it: `IndexError`, the flux is
overwritten by the auxiliary solution, and its interpolation is not. -/
theorem C121_hagenow_fails :
    let r := solve (small .hagenow true 3) ones 0 none none none two
    r.1 = some .index ∧ (r.2.view 0).plasmaPsi (1, 1) ≠ (two.view 0).plasmaPsi (1, 1) ∧
      (r.2.view 0).plasmaPsi (1, 1) ≠ (r.2.view 0).spline (1, 1) := by
  decide +kernel

/-- A control that raises the current of the machine by 1. -/
def raise : Constrain ℚ ℚ := fun st => (none, st.tokamak + 1)

/-- **C121 fails** for Picard iteration with a control at the limit of passes: the control has changed the coils after the last linear solve, and
the boundary flux kept by the equilibrium (at the X-point, which is the corner here) is not that of its total flux. -/
theorem C121_maxits_fails :
    ((picard (small .free false 3) ones (some raise) never 0 5 two).map fun r =>
      (r.1, decide ((r.2.view 0).psiBndry = some (psi (small .free false 3).env (r.2.view 0) (0, 0))))) =
      some (some .runtime, false) := by
  decide +kernel

end FreeGS.Store
