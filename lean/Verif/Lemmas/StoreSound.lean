import Verif.Lemmas.StorePicard
import Verif.Props.Equilibrium

/-!
# Lemmas for C120 and C121: the profile objects, and what stays consistent
-/

set_option linter.unusedSectionVars false

namespace FreeGS.Store

open FreeGS.GS FreeGS.Critical FreeGS.Equil

universe u
variable {K : Type u} [Field K] [LinearOrder K] {C : Type u}

theorem matches_paxis (quad : (K → K) → K → K → K) (pow : K → K → K) (s : Setup C K) (p : Jtor.Params K) (v : K) :
    Matches (paxis quad pow s p v) (paxisProfiles quad pow s.env p v) := by
  have h := matches_constrained s fun st psi b => do
    let (opt, xpt) ← s.find psi
    let (J, _) ← Jtor.paxisJtor quad pow s.nx s.ny s.R s.Z p v opt xpt (s.core psi opt xpt) st.psiBndry psi b
    .ok J
  refine ⟨fun w i q b => (h.value w i q b).trans ?_, h.keeps⟩
  unfold paxisProfiles
  simp only [bind, Except.bind, Setup.env]
  rcases Equil.updateBoundary _ (w.view i) q with x | st
  · rfl
  · simp only
    rcases s.find q with x | ⟨opt, xpt⟩
    · rfl
    · simp only
      rcases Jtor.paxisJtor quad pow s.nx s.ny s.R s.Z p v opt xpt (s.core q opt xpt) st.psiBndry q b with x | ⟨J, k⟩ <;> rfl

theorem matches_betap (quad : (K → K) → K → K → K) (pow : K → K → K) (s : Setup C K) (field : State C K → Arr K × Arr K)
    (p : Jtor.Params K) (v : K) :
    Matches (betap quad pow s field p v) (betapProfiles quad pow s.env field p v) := by
  have h := matches_constrained s fun st psi b => do
    let (opt, xpt) ← s.find psi
    let (J, _) ← Jtor.betapJtor quad pow s.mu0 s.nx s.ny s.R s.Z p v opt xpt (s.core psi opt xpt) st.psiBndry (field st).1 (field st).2 psi b
    .ok J
  refine ⟨fun w i q b => (h.value w i q b).trans ?_, h.keeps⟩
  unfold betapProfiles
  simp only [bind, Except.bind, Setup.env]
  rcases Equil.updateBoundary _ (w.view i) q with x | st
  · rfl
  · simp only
    rcases s.find q with x | ⟨opt, xpt⟩
    · rfl
    · simp only
      rcases Jtor.betapJtor quad pow s.mu0 s.nx s.ny s.R s.Z p v opt xpt (s.core q opt xpt) st.psiBndry (field st).1 (field st).2 q b with
        x | ⟨J, k⟩ <;> rfl

theorem matches_given (s : Setup C K) (g : Jtor.Given K) : Matches (givenFunctions s g) (givenProfiles s.env g) := by
  have h := matches_unconstrained (C := C) fun psi b => do
    let (opt, xpt) ← s.find psi
    let (J, _) ← Jtor.givenJtor s.mu0 s.nx s.R g opt xpt (s.core psi opt xpt) psi b
    .ok J
  refine ⟨fun w i q b => (h.value w i q b).trans ?_, h.keeps⟩
  unfold givenProfiles
  simp only [bind, Except.bind, Setup.env]
  rcases s.find q with x | ⟨opt, xpt⟩
  · rfl
  · simp only
    rcases Jtor.givenJtor s.mu0 s.nx s.R g opt xpt (s.core q opt xpt) q b with x | ⟨J, k⟩ <;> rfl

/-- A linear solve that ends leaves a consistent equilibrium. -/
theorem solve_ends (s : Setup C K) (hs : NotShared s) {p : Profile C K} {q : Profiles C K} (hp : Matches p q) (i : ℕ)
    (given psi0 : Option Ref) (b : Option K) (w : World C K) (hw : Good w i)
    (hg : ∀ r, given = some r → r < w.next ∧ r ≠ (w.eqs i).psi) (h : (solve s p i given psi0 b w).1 = none) :
    Sound s (solve s p i given psi0 b w).2 i ∧ Fresh s (solve s p i given psi0 b w).2 i := by
  have e := solve_seen s hs hp i given psi0 b w hw.psi hw.jtor hg
  rcases hr : solve s p i given psi0 b w with ⟨x, w'⟩
  rw [hr] at h e
  simp only at h
  subst h
  simp only [seen] at e ⊢
  obtain ⟨s1, s2, J, edge, s3, I, h1, h2, h3, h4, h5, h6⟩ := solve_ok e.symm
  rw [updatePlasmaPsi] at h4
  simp only at h4
  obtain ⟨f1, f2, f3, f4, f5, f6⟩ := updateBoundary_frame h4
  simp only at f1 f2 f3
  refine ⟨⟨?_, ?_⟩, ?_⟩
  · have := congrArg State.spline h6
    have h7 := congrArg State.plasmaPsi h6
    simp only [World.view] at this h7
    rw [this, h7, f2, f3]
  · intro r hr
    have h7 := congrArg State.jtor h6
    have h8 := congrArg State.current h6
    simp only [World.view, hr, Option.map_some] at h7 h8
    rw [h8, Option.some.inj h7]
    exact h5
  · have hp : psi s.env (w'.view i) =
        psi s.env { s2 with plasmaPsi := s.env.solver edge (setEdge s.env.nx s.env.ny (fun c => -s.env.mu0 * s.env.R c.1 * J c) edge)
                            spline := s.env.solver edge (setEdge s.env.nx s.env.ny (fun c => -s.env.mu0 * s.env.R c.1 * J c) edge) } := by
      rw [h6]
      funext c
      rw [psi, psi]
      simp only [f1, f2]
    rw [Fresh, hp, h6]
    exact updateBoundary_again I (some J) h4

/-- The interpolation and the current stay consistent, even after an exception. -/
theorem solve_sound (s : Setup C K) (hs : NotShared s) (hu : ∀ f, s.boundary ≠ .user f) {p : Profile C K} {q : Profiles C K}
    (hp : Matches p q) (i : ℕ) (given psi0 : Option Ref) (b : Option K) (w : World C K) (hw : Good w i)
    (hg : ∀ r, given = some r → r < w.next ∧ r ≠ (w.eqs i).psi) (h : Sound s w i) : Sound s (solve s p i given psi0 b w).2 i := by
  rcases hr : (solve s p i given psi0 b w).1 with _ | x
  · exact (solve_ends s hs hp i given psi0 b w hw hg hr).1
  · have o := (solve_only s p i given psi0 b w).1
    have hJ : ∀ J, (w.eqs i).jtor = some J → (solve s p i given psi0 b w).2.arrays J = w.arrays J :=
      fun J hJ => o.arrays J (hw.jtor J hJ).1 (hw.jtor J hJ).2
    rcases solve_failed s hs hu hp i given psi0 b w hw.psi hg x hr with t | ⟨J, -, t⟩
    · refine ⟨by rw [t.spline, t.psi, t.flux, h.spline], fun J h1 => ?_⟩
      rw [t.jtor] at h1
      rw [hJ J h1, t.current]
      exact h.current J h1
    · refine ⟨t.spline, fun J h1 => ?_⟩
      rw [t.jtor] at h1
      rw [hJ J h1, t.current]
      exact h.current J h1

theorem picardSolve_sound (s : Setup C K) (hs : NotShared s) (hu : ∀ f, s.boundary ≠ .user f) {p : Profile C K} {q : Profiles C K}
    (hp : Matches p q) (i : ℕ) (cl : Bool) (v : List K) (b : Option K) (w : World C K) (hw : Good w i) (h : Sound s w i) :
    Sound s (picardSolve s p i cl v b w).2 i ∧
      ((picardSolve s p i cl v b w).1 = none → Fresh s (picardSolve s p i cl v b w).2 i) := by
  unfold picardSolve
  simp only
  set w1 := w.setAttrs i { (w.eqs i).attrs with checkLimited := cl } with hw1
  have o1 : Own i w (w1.alloc (ofValues s.ny v)) :=
    (Own.of_only (Only.setAttrs i w _) (by rw [setAttrs_same])).trans (Own.of_only (Only.alloc i _ _) rfl)
  have g1 := hw.own o1
  have hp1 := hw.psi
  have s1 : Sound s (w1.alloc (ofValues s.ny v)) i := by
    refine ⟨?_, fun J hJ => ?_⟩
    · rw [alloc_eqs, hw1, setAttrs_same, alloc_other _ _ (by simp only [setAttrs_next]; omega)]
      exact h.spline
    · rw [alloc_eqs, hw1, setAttrs_same] at hJ
      simp only at hJ
      have := (hw.jtor J hJ).1
      rw [alloc_eqs, hw1, setAttrs_same, alloc_other _ _ (by simp only [setAttrs_next]; omega)]
      exact h.current J hJ
  exact ⟨solve_sound s hs hu hp i none _ b _ g1 (fun r h => by cases h) s1,
    fun e => (solve_ends s hs hp i none _ b _ g1 (fun r h => by cases h) e).2⟩

theorem adjust_sound {s : Setup C K} (f : Option (Constrain C K)) (i : ℕ) {w : World C K} (h : Sound s w i) :
    Sound s (adjust f i w).2 i := by
  cases f with
  | none => exact h
  | some f => exact ⟨h.spline, h.current⟩

/-- How an iteration ends: by an exception of a linear solve or of the control, by convergence, or by the limit on the number of passes;
in the last two cases, without control, the equilibrium is consistent. -/
theorem pass_sound (s : Setup C K) (hs : NotShared s) (hu : ∀ f, s.boundary ≠ .user f) {p : Profile C K} {q : Profiles C K}
    (hp : Matches p q) (f : Option (Constrain C K)) (o : Picard.Opts K) (i : ℕ) (w : World C K) (hw : Good w i) (h : Sound s w i)
    (v : Vars K) :
    (∀ r, pass s p f o i w v = .stop r → Sound s r.2 i ∧ (r.1 = none → Fresh s r.2 i)) ∧
      ∀ w' v', pass s p f o i w v = .more w' v' → Sound s w' i := by
  unfold pass
  simp only
  generalize ((decide (o.limitIt ≤ v.iteration) || v.hasBeenLimited) && o.checkLimited) = check
  obtain ⟨h1, h2⟩ := picardSolve_sound s hs hu hp i check v.psi (if check = true then (w.eqs i).attrs.psiBndry else o.psiBndry) w hw h
  rcases hq : picardSolve s p i check v.psi (if check = true then (w.eqs i).attrs.psiBndry else o.psiBndry) w with ⟨_ | x, w1⟩ <;> rw [hq] at h1 h2
  · simp only at h1 h2 ⊢
    cases hc : converged o v (w1.eqs i).attrs (fluxValues s i w1)
    · simp only [Bool.false_eq_true, if_false]
      have ha := adjust_sound f i h1
      rcases hadj : adjust f i w1 with ⟨_ | x, w2⟩ <;> rw [hadj] at ha
      · simp only at ha ⊢
        cases hx : exceeded o (v.iteration + 1)
        · simp only [Bool.false_eq_true, if_false]
          refine ⟨fun r hr => (by cases hr), fun w' v' hr => ?_⟩
          cases hr
          exact ha
        · simp only [if_true]
          refine ⟨fun r hr => ?_, fun w' v' hr => by cases hr⟩
          cases hr
          exact ⟨ha, fun e => by cases e⟩
      · refine ⟨fun r hr => ?_, fun w' v' hr => by cases hr⟩
        cases hr
        exact ⟨ha, fun e => by cases e⟩
    · simp only [if_true]
      refine ⟨fun r hr => ?_, fun w' v' hr => by cases hr⟩
      cases hr
      exact ⟨h1, fun _ => h2 trivial⟩
  · refine ⟨fun r hr => ?_, fun w' v' hr => by cases hr⟩
    cases hr
    exact ⟨h1, fun e => by cases e⟩

theorem picardLoop_sound (s : Setup C K) (hs : NotShared s) (hu : ∀ f, s.boundary ≠ .user f) {p : Profile C K} {q : Profiles C K}
    (hp : Matches p q) (f : Option (Constrain C K)) (o : Picard.Opts K) (i : ℕ) (fuel : ℕ) :
    ∀ (w : World C K) (_ : Good w i) (_ : Sound s w i) (v : Vars K) (r : Out C K), picardLoop s p f o i fuel w v = some r →
      Sound s r.2 i ∧ (r.1 = none → Fresh s r.2 i) := by
  induction fuel with
  | zero => intro w _ _ v r hr; cases hr
  | succ n ih =>
    intro w hw h v r hr
    rw [picardLoop] at hr
    obtain ⟨h1, h2⟩ := pass_sound s hs hu hp f o i w hw h v
    have h' := (pass_own s p f o i w v).2
    rcases hpass : pass s p f o i w v with r' | ⟨w', v'⟩ <;> rw [hpass] at hr <;> simp only at hr
    · cases hr
      exact h1 _ hpass
    · exact ih w' (hw.own (h' w' v' hpass).1) (h2 w' v' hpass) v' r hr

theorem picard_sound (s : Setup C K) (hs : NotShared s) (hu : ∀ f, s.boundary ≠ .user f) {p : Profile C K} {q : Profiles C K}
    (hp : Matches p q) (f : Option (Constrain C K)) (o : Picard.Opts K) (i fuel : ℕ) (w : World C K) (hw : Good w i) (h : Sound s w i)
    (r : Out C K) (hr : picard s p f o i fuel w = some r) : Sound s r.2 i ∧ (r.1 = none → Fresh s r.2 i) := by
  unfold picard at hr
  have a1 := adjust_own f i w
  have a2 := adjust_sound f i h
  rcases ha : adjust f i w with ⟨_ | x, w1⟩ <;> rw [ha] at hr a1 a2 <;> simp only at hr a1 a2
  · exact picardLoop_sound s hs hu hp f o i fuel w1 (hw.own a1) a2 _ r hr
  · cases hr
    exact ⟨a2, fun e => by cases e⟩

/-- Without control the last pass is a linear solve. -/
theorem picard_last (s : Setup C K) (p : Profile C K) (o : Picard.Opts K) (i : ℕ) (fuel : ℕ) :
    ∀ (w : World C K) (v : Vars K) (x : Err) (w' : World C K), picardLoop s p none o i fuel w v = some (some x, w') →
      ∃ w0 cl q b, Own i w w0 ∧ (picardSolve s p i cl q b w0 = (some x, w') ∨
        x = .runtime ∧ picardSolve s p i cl q b w0 = (none, w') ∧ ∃ m n : ℤ, o.maxits = some m ∧ m ≠ 0 ∧ m < n) := by
  induction fuel with
  | zero => intro w v x w' hr; cases hr
  | succ n ih =>
    intro w v x w' hr
    rw [picardLoop] at hr
    have h' := (pass_own s p none o i w v).2
    rcases hpass : pass s p none o i w v with r' | ⟨w1, v1⟩ <;> rw [hpass] at hr <;> simp only at hr
    · cases hr
      unfold pass at hpass
      simp only at hpass
      generalize ((decide (o.limitIt ≤ v.iteration) || v.hasBeenLimited) && o.checkLimited) = check at hpass
      refine ⟨w, check, v.psi, (if check = true then (w.eqs i).attrs.psiBndry else o.psiBndry), Own.refl i w, ?_⟩
      rcases hq : picardSolve s p i check v.psi (if check = true then (w.eqs i).attrs.psiBndry else o.psiBndry) w with ⟨_ | y, w2⟩ <;> rw [hq] at hpass
      · simp only [adjust] at hpass
        cases hc : converged o v (w2.eqs i).attrs (fluxValues s i w2) <;> rw [hc] at hpass
        · simp only [Bool.false_eq_true, if_false] at hpass
          cases hx : exceeded o (v.iteration + 1) <;> rw [hx] at hpass
          · simp only [Bool.false_eq_true, if_false] at hpass
            cases hpass
          · simp only [if_true] at hpass
            cases hpass
            refine .inr ⟨rfl, rfl, ?_⟩
            unfold exceeded at hx
            rcases hm : o.maxits with _ | m <;> rw [hm] at hx <;> simp only at hx
            · cases hx
            · exact ⟨m, _, rfl, of_decide_eq_true hx⟩
        · simp only [if_true] at hpass
          cases hpass
      · simp only at hpass
        cases hpass
        exact .inl rfl
    · obtain ⟨w0, cl, q, b, h1, h2⟩ := ih w1 v1 x w' hr
      exact ⟨w0, cl, q, b, (h' w1 v1 hpass).1.trans h1, h2⟩

end FreeGS.Store
