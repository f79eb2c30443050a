import Verif.Lemmas.Store

/-! # The model with arrays and exceptions gives the values of the model without -/

set_option linter.unusedSectionVars false

namespace FreeGS.Store

open FreeGS.GS FreeGS.Critical FreeGS.Equil

universe u
variable {K : Type u} [Field K] [LinearOrder K] {C : Type u}

/-- The attributes in a state. -/
def attrsOf (st : State C K) : Attrs K :=
  ⟨st.spline, st.current, st.checkLimited, st.psiAxis, st.psiBndry, st.psiXpt, st.psiLimit, st.contact, st.isLimited, st.mask⟩

theorem attrsOf_view (w : World C K) (i : ℕ) : attrsOf (w.view i) = (w.eqs i).attrs := rfl

theorem put_attrsOf (st : State C K) : put st (attrsOf st) = st := rfl

theorem refresh_values (e : Env C K) (st : State C K) (q : Arr K) :
    (match refresh e st.tokamak (attrsOf st) q with
      | (some x, _) => .error x
      | (none, a) => .ok (put st a)) = Equil.updateBoundary e st q := by
  unfold refresh Equil.updateBoundary
  rcases e.find q with x | ⟨opt, xpt⟩
  · rfl
  · rcases opt with _ | ⟨o, rest⟩
    · rfl
    · simp only [bind, Except.bind]
      have hc : (attrsOf st).checkLimited = st.checkLimited := rfl
      simp only [hc]
      rcases (if st.checkLimited = true then e.limits st.tokamak else none) with _ | pts
      · rcases xpt with _ | ⟨x, xs⟩
        · rfl
        · simp only
          rcases e.core q (o :: rest) (x :: xs) none with y | m <;> rfl
      · simp only
        rcases limiterContact e q (keptPoints xpt pts) with y | ⟨c, lim⟩
        · rfl
        · simp only
          rcases xpt with _ | ⟨x, xs⟩
          · rfl
          · simp only
            rcases e.core q (o :: rest) (x :: xs) (some (max x.2.2 lim)) with y | m <;> rfl

theorem updateBoundary_seen (s : Setup C K) (i : ℕ) (q : Arr K) (w : World C K) :
    seen i (updateBoundary s i q w) = Equil.updateBoundary s.env (w.view i) q := by
  rw [← refresh_values, attrsOf_view]
  show seen i (updateBoundary s i q w) = match refresh s.env (w.machines (w.eqs i).machine) (w.eqs i).attrs q with
      | (some x, _) => .error x
      | (none, a) => .ok (put (w.view i) a)
  unfold updateBoundary
  simp only
  rcases refresh s.env (w.machines (w.eqs i).machine) (w.eqs i).attrs q with ⟨_ | x, a⟩
  · simp only [seen, view_setAttrs]
  · rfl

theorem refresh_keeps (e : Env C K) (c : C) (a : Attrs K) (q : Arr K) :
    (refresh e c a q).2.spline = a.spline ∧ (refresh e c a q).2.current = a.current ∧
      (refresh e c a q).2.checkLimited = a.checkLimited := by
  unfold refresh
  rcases e.find q with x | ⟨opt, xpt⟩
  · exact ⟨rfl, rfl, rfl⟩
  · rcases opt with _ | ⟨o, rest⟩
    · exact ⟨rfl, rfl, rfl⟩
    · simp only
      rcases (if a.checkLimited = true then e.limits c else none) with _ | pts
      · rcases xpt with _ | ⟨x, xs⟩
        · exact ⟨rfl, rfl, rfl⟩
        · simp only
          rcases e.core q (o :: rest) (x :: xs) none with y | m <;> exact ⟨rfl, rfl, rfl⟩
      · simp only
        rcases limiterContact e q (keptPoints xpt pts) with y | ⟨c, lim⟩
        · exact ⟨rfl, rfl, rfl⟩
        · simp only
          rcases xpt with _ | ⟨x, xs⟩
          · exact ⟨rfl, rfl, rfl⟩
          · simp only
            rcases e.core q (o :: rest) (x :: xs) (some (max x.2.2 lim)) with y | m <;> exact ⟨rfl, rfl, rfl⟩

/-- The attributes after `_updateBoundaryPsi` in the world. -/
theorem updateBoundary_keeps (s : Setup C K) (i : ℕ) (q : Arr K) (w : World C K) :
    ∃ a, (updateBoundary s i q w).2 = w.setAttrs i a ∧ a.spline = (w.eqs i).attrs.spline ∧ a.current = (w.eqs i).attrs.current ∧
      a.checkLimited = (w.eqs i).attrs.checkLimited :=
  ⟨_, rfl, refresh_keeps s.env _ _ q⟩

/-! ## Profiles -/

theorem matches_constrained (s : Setup C K) (f : State C K → Arr K → Option K → Except Err (Arr K)) :
    Matches (constrained s f) (fun st q b => do
      let st ← Equil.updateBoundary s.env st q
      let J ← f st q b
      .ok (st, J)) := by
  refine ⟨fun w i q b => ?_, fun w i q b => ?_⟩
  · simp only [← updateBoundary_seen, constrained]
    obtain ⟨a, ha, -⟩ := updateBoundary_keeps s i q w
    rcases hu : updateBoundary s i q w with ⟨_ | x, w'⟩
    · rw [hu] at ha
      simp only at ha
      subst ha
      simp only [seen, bind, Except.bind, setAttrs_same, view_setAttrs]
      rcases f (put (w.view i) a) q b with x | J <;> rfl
    · rfl
  · unfold constrained
    obtain ⟨a, ha, h1⟩ := updateBoundary_keeps s i q w
    rcases hu : updateBoundary s i q w with ⟨_ | x, w'⟩ <;> rw [hu] at ha <;> simp only at ha ⊢ <;> subst ha <;> rw [setAttrs_same] <;>
      exact h1

theorem matches_unconstrained (f : Arr K → Option K → Except Err (Arr K)) :
    Matches (C := C) (unconstrained f) (fun st q b => do
      let J ← f q b
      .ok (st, J)) := by
  refine ⟨fun w i q b => ?_, fun w i q b => ⟨rfl, rfl, rfl⟩⟩
  simp only [unconstrained]
  rcases f q b with x | J <;> rfl

/-! ## Boundary functions -/

theorem assignRun_values (value : ℕ × ℕ → Except Err K) (l : List (ℕ × ℕ)) (q : Arr K) :
    (match assignRun value l q with
      | (some x, _) => .error x
      | (none, v) => .ok v) = assignLoop value l q := by
  induction l generalizing q with
  | nil => rfl
  | cons c rest ih =>
    rw [assignRun, assignLoop]
    rcases value c with x | v
    · rfl
    · exact ih _

theorem hagenowRun_values (value : K → K → Except Err K) (R Z : ℕ → K) (l : List ((ℕ × ℕ) × K × K)) (q : Arr K) :
    (match hagenowRun value R Z l q with
      | (some x, _) => .error x
      | (none, v) => .ok v) = hagenowLoop value R Z l q := by
  induction l generalizing q with
  | nil => rfl
  | cons c rest ih =>
    obtain ⟨c, er, ez⟩ := c
    rw [hagenowRun, hagenowLoop]
    rcases value (R c.1 + er) (Z c.2 + ez) with x | v
    · rfl
    · exact ih _

theorem applyBoundary_values (s : Setup C K) (hs : NotShared s) (J : Arr K) (x : Ref) (w : World C K) (hx : x < w.next) :
    (match applyBoundary s J x w with
      | (some y, _) => .error y
      | (none, w') => .ok (w'.arrays x)) = s.boundaryValues J (w.arrays x) := by
  unfold applyBoundary Setup.boundaryValues
  rw [NotShared] at hs
  cases hb : s.boundary with
  | fixed => simp
  | free =>
    simp only
    rw [freeBoundary, ← assignRun_values]
    rcases assignRun (edgeFlux s.green s.nx s.ny s.R s.Z J) (edgeIndices s.nx s.ny) (w.arrays x) with ⟨_ | y, v⟩ <;> simp
  | hagenow =>
    rw [hb] at hs
    have hi : s.inPlace = false := by
      cases h : s.inPlace with
      | false => rfl
      | true => exact (hs h).elim
    simp only [callSolver, hi, Bool.false_eq_true, if_false]
    rw [freeBoundaryHagenow]
    simp only
    by_cases h5 : s.nx < 5 ∨ s.ny < 5
    · simp only [h5, if_true]
    · simp only [h5, if_false]
      rw [← hagenowRun_values]
      simp only [alloc_same]
      rw [alloc_other w _ (show x ≠ w.next by omega)]
      rcases hagenowRun (hagenowIntegral s.green s.nx s.ny s.R s.Z (hagenowNormal s.nx s.ny (s.R 1 - s.R 0) (s.Z 1 - s.Z 0)
        (s.sqrt ((s.R 1 - s.R 0) ^ 2 + (s.Z 1 - s.Z 0) ^ 2)) (s.solver (w.arrays x) (setEdge s.nx s.ny (fun c => s.R c.1 * J c) fun _ => 0))))
        s.R s.Z (hagenowPoints s.nx s.ny) (w.arrays x) with ⟨_ | y, v⟩ <;> simp
  | user f =>
    simp only
    rcases f J (w.arrays x) with ⟨_ | y, v⟩ <;> simp

/-- After the boundary function: the world is the old one with the flux array replaced (and perhaps a new array). -/
theorem applyBoundary_world (s : Setup C K) (J : Arr K) (i : ℕ) (w : World C K) (st : State C K) (hi : w.view i = st)
    (hj : ∀ r, (w.eqs i).jtor = some r → r < w.next ∧ r ≠ (w.eqs i).psi) :
    (applyBoundary s J (w.eqs i).psi w).2.view i =
      { st with plasmaPsi := (applyBoundary s J (w.eqs i).psi w).2.arrays (w.eqs i).psi } := by
  obtain ⟨h1, h2, h3⟩ := applyBoundary_only s J i w
  set w' := (applyBoundary s J (w.eqs i).psi w).2
  clear_value w'
  subst hi
  simp only [World.view, h3, h2]
  congr 1
  rcases hJ : (w.eqs i).jtor with _ | r
  · rfl
  · obtain ⟨a, b⟩ := hj r hJ
    simp only [Option.map_some]
    rw [h1.arrays r a b]

theorem callSolver_values (s : Setup C K) (x : Ref) (rhs : Arr K) (w : World C K) :
    (callSolver s x rhs w).2.arrays (callSolver s x rhs w).1 = s.solver (w.arrays x) rhs := by
  rw [callSolver]; split <;> simp

/-! ## The solve -/

/-- The second half of `Equil.solve`. -/
def finishValues (e : Env C K) (st : State C K) (J : Arr K) : Except Err (State C K) := do
  let edge ← e.boundary J st.plasmaPsi
  let st := { st with plasmaPsi := edge }
  let rhs : Arr K := fun c => -e.mu0 * e.R c.1 * J c
  let st ← Equil.updatePlasmaPsi e st (e.solver st.plasmaPsi (setEdge e.nx e.ny rhs st.plasmaPsi))
  let I ← Jtor.integrate e.nx e.ny e.R e.Z J
  .ok { st with current := I, jtor := some J }

theorem solve_eq_finish (e : Env C K) (q : Profiles C K) (st : State C K) (given psi0 : Option (Arr K)) (b : Option K) :
    Equil.solve e q st given psi0 b = (do
      let st ← Equil.updateBoundary e st (psi e st)
      let (st, J) ← Equil.density e q st given psi0 b
      finishValues e st J) := rfl

theorem finish_seen (s : Setup C K) (hs : NotShared s) (i : ℕ) (J : Ref) (w : World C K) (hx : (w.eqs i).psi < w.next)
    (hj : ∀ r, (w.eqs i).jtor = some r → r < w.next ∧ r ≠ (w.eqs i).psi) (hJ : J < w.next ∧ J ≠ (w.eqs i).psi) :
    seen i (finish s i J w) = finishValues s.env (w.view i) (w.arrays J) := by
  have b1 := applyBoundary_values s hs (w.arrays J) (w.eqs i).psi w hx
  have b2 := applyBoundary_world s (w.arrays J) i w (w.view i) rfl hj
  obtain ⟨b3, b4, b5⟩ := applyBoundary_only s (w.arrays J) i w
  unfold finish finishValues
  have e0 : s.env.boundary (w.arrays J) (w.view i).plasmaPsi = s.boundaryValues (w.arrays J) (w.arrays (w.eqs i).psi) := rfl
  rw [e0, ← b1]
  clear b1 e0
  rcases hb : applyBoundary s (w.arrays J) (w.eqs i).psi w with ⟨_ | x, w1⟩
  · rw [hb] at b2 b3 b4 b5
    simp only [bind, Except.bind] at b2 b3 b4 b5 ⊢
    have hJ1 : w1.arrays J = w.arrays J := b3.arrays J hJ.1 hJ.2
    have hn1 := b3.next
    rw [b5]
    set rhs := setEdge s.nx s.ny (fun c => -s.mu0 * s.R c.1 * w1.arrays J c) (w1.arrays (w.eqs i).psi) with hrhs
    have c1 := callSolver_arrays s i rhs w1
    rw [b5] at c1
    obtain ⟨c1, c2, c3, c4⟩ := c1
    have c5 := callSolver_values s (w.eqs i).psi rhs w1
    have e1 : s.env.solver (w1.arrays (w.eqs i).psi) (setEdge s.env.nx s.env.ny (fun c => -s.env.mu0 * s.env.R c.1 * w.arrays J c)
        (w1.arrays (w.eqs i).psi)) = (callSolver s (w.eqs i).psi rhs w1).2.arrays (callSolver s (w.eqs i).psi rhs w1).1 := by
      rw [c5, hrhs, hJ1]; rfl
    rw [e1]
    set r := callSolver s (w.eqs i).psi rhs w1
    clear_value r rhs
    have hJ2 : r.2.arrays J = w.arrays J := by
      rw [c1.arrays J (by omega) (by rw [b5]; exact hJ.2), hJ1]
    rw [c3]
    set w2 := r.2.setEq i { (w.eqs i) with psi := r.1, attrs := { (w.eqs i).attrs with spline := r.2.arrays r.1 } } with hw2
    have v2 : w2.view i = { ({ w.view i with plasmaPsi := w1.arrays (w.eqs i).psi } : State C K) with
        plasmaPsi := r.2.arrays r.1, spline := r.2.arrays r.1 } := by
      simp only [World.view, hw2, setEq_same, setEq_machines, setEq_arrays, b5, c2, b4]
      congr 1
      rcases hJt : (w.eqs i).jtor with _ | t
      · rfl
      · obtain ⟨d1, d2⟩ := hj t hJt
        simp only [Option.map_some]
        rw [c1.arrays t (by omega) (by rw [b5]; exact d2), b3.arrays t d1 d2]
    have hJ3 : w2.arrays J = w.arrays J := hJ2
    clear_value w2
    unfold Equil.updatePlasmaPsi
    simp only
    rw [← v2, ← updateBoundary_seen]
    obtain ⟨a, ha, -⟩ := updateBoundary_keeps s i (psi s.env (w2.view i)) w2
    rcases hu : updateBoundary s i (psi s.env (w2.view i)) w2 with ⟨_ | x, w3⟩
    · rw [hu] at ha
      simp only at ha
      subst ha
      simp only [seen, setAttrs_arrays, hJ3, setAttrs_same]
      have e4 : Jtor.integrate s.env.nx s.env.ny s.env.R s.env.Z (w.arrays J) = Jtor.integrate s.nx s.ny s.R s.Z (w.arrays J) := rfl
      rw [e4]
      rcases Jtor.integrate s.nx s.ny s.R s.Z (w.arrays J) with x | I
      · rfl
      · simp only [World.view, setEq_same, setEq_machines, setEq_arrays, setAttrs_machines, setAttrs_arrays, setAttrs_same, Option.map_some,
          hJ3]
    · rfl
  · rfl

theorem density_seen (s : Setup C K) {p : Profile C K} {q : Profiles C K} (hp : Matches p q) (i : ℕ) (given psi0 : Option Ref) (b : Option K)
    (w : World C K) (hx : (w.eqs i).psi < w.next) (hj : ∀ r, (w.eqs i).jtor = some r → r < w.next ∧ r ≠ (w.eqs i).psi) :
    (match density s p i given psi0 b w with
      | (.error x, _) => .error x
      | (.ok J, w') => .ok (w'.view i, w'.arrays J)) =
      Equil.density s.env q (w.view i) (given.map w.arrays) (psi0.map w.arrays) b := by
  cases given with
  | some J => rfl
  | none =>
    unfold density Equil.density
    simp only [Option.map_none]
    have e : (psi0.map w.arrays).getD (psi s.env (w.view i)) =
        (match psi0 with | some r => w.arrays r | none => psi s.env (w.view i)) := by cases psi0 <;> rfl
    rw [← hp.value, e]
    set Q := (match psi0 with | some r => w.arrays r | none => psi s.env (w.view i))
    rcases p w i Q b with ⟨x | J, a⟩
    · rfl
    · simp only [setAttrs_next]
      have e1 : ((w.setAttrs i a).alloc J).view i = put (w.view i) a := by
        rw [← view_setAttrs]
        simp only [World.view, alloc_eqs, alloc_machines]
        rw [alloc_other _ _ (by simp only [setAttrs_same, setAttrs_next]; omega)]
        congr 1
        rcases hJt : ((w.setAttrs i a).eqs i).jtor with _ | t
        · rfl
        · simp only [Option.map_some]
          rw [setAttrs_same] at hJt
          rw [alloc_other _ _ (by have := (hj t hJt).1; simp only [setAttrs_next]; omega)]
      rw [e1]
      have e2 : ((w.setAttrs i a).alloc J).arrays w.next = J := alloc_same (w.setAttrs i a) J
      rw [e2]

/-- **The values.** -/
theorem solve_seen (s : Setup C K) (hs : NotShared s) {p : Profile C K} {q : Profiles C K} (hp : Matches p q) (i : ℕ)
    (given psi0 : Option Ref) (b : Option K) (w : World C K) (hx : (w.eqs i).psi < w.next)
    (hj : ∀ r, (w.eqs i).jtor = some r → r < w.next ∧ r ≠ (w.eqs i).psi)
    (hg : ∀ r, given = some r → r < w.next ∧ r ≠ (w.eqs i).psi) :
    seen i (solve s p i given psi0 b w) =
      Equil.solve s.env q (w.view i) (given.map w.arrays) (psi0.map w.arrays) b := by
  rw [solve_eq_finish]
  unfold solve
  rw [← updateBoundary_seen]
  obtain ⟨a, ha, -⟩ := updateBoundary_keeps s i (psi s.env (w.view i)) w
  rcases hu : updateBoundary s i (psi s.env (w.view i)) w with ⟨_ | x, w1⟩
  · rw [hu] at ha
    simp only at ha
    subst ha
    simp only [seen, bind, Except.bind]
    have hx1 : ((w.setAttrs i a).eqs i).psi < (w.setAttrs i a).next := by rw [setAttrs_same]; exact hx
    have hj1 : ∀ r, ((w.setAttrs i a).eqs i).jtor = some r → r < (w.setAttrs i a).next ∧ r ≠ ((w.setAttrs i a).eqs i).psi := by
      rw [setAttrs_same]; exact hj
    have d := density_seen s hp i given psi0 b (w.setAttrs i a) hx1 hj1
    simp only [setAttrs_arrays] at d
    rw [← d]
    obtain ⟨d1, d2, d3, d4, d5⟩ := density_only s p i given psi0 b (w.setAttrs i a)
    rcases hd : density s p i given psi0 b (w.setAttrs i a) with ⟨x | J, w2⟩
    · rfl
    · rw [hd] at d1 d3 d4 d5
      simp only at d1 d3 d4 d5 ⊢
      have hn := d1.next
      rw [setAttrs_next] at hn
      rw [setAttrs_same] at d3 d4
      simp only at d3 d4
      refine finish_seen s hs i J w2 (by rw [d3]; omega) (fun r hr => ?_) ?_
      · rw [d4] at hr
        obtain ⟨h1, h2⟩ := hj r hr
        exact ⟨by omega, by rw [d3]; exact h2⟩
      · rw [d3]
        rcases d5 J rfl with e | ⟨e1, e2⟩
        · obtain ⟨h1, h2⟩ := hg J e
          exact ⟨by omega, h2⟩
        · rw [setAttrs_next] at e1
          exact ⟨e2, by omega⟩
  · rfl

end FreeGS.Store
