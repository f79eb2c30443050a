import Verif.Lemmas.StoreCrash

/-! # Repeating a failed solve; Picard iteration with arrays and exceptions -/

set_option linter.unusedSectionVars false

namespace FreeGS.Store

open FreeGS.GS FreeGS.Critical FreeGS.Equil

universe u
variable {K : Type u} [Field K] [LinearOrder K] {C : Type u}

/-! ## Repeating -/

theorem SameFlux.refl (st : State C K) : SameFlux st st := ⟨rfl, rfl, rfl, rfl, rfl, rfl⟩

theorem SameFlux.psi {e : Env C K} {st st' : State C K} (h : SameFlux st st') : psi e st' = psi e st := by
  unfold Equil.psi; rw [h.plasmaPsi, h.tokamak]

/-- `_updateBoundaryPsi` of states that differ only in what it computes. -/
theorem updateBoundary_same (e : Env C K) {st st' : State C K} (q : Arr K) (h : SameFlux st st') :
    (∃ x, Equil.updateBoundary e st q = .error x ∧ Equil.updateBoundary e st' q = .error x) ∨
      ∃ t t', Equil.updateBoundary e st q = .ok t ∧ Equil.updateBoundary e st' q = .ok t' ∧ SameFlux t t' ∧
        (t'.psiBndry = t.psiBndry ∨ ∃ xpt, e.find q = .ok ([], xpt)) := by
  obtain ⟨h1, h2, h3, h4, h5, h6⟩ := h
  unfold Equil.updateBoundary
  rcases hf : e.find q with x | ⟨opt, xpt⟩
  · exact .inl ⟨x, rfl, rfl⟩
  · rcases opt with _ | ⟨o, rest⟩
    · exact .inr ⟨st, st', rfl, rfl, ⟨h1, h2, h3, h4, h5, h6⟩, .inr ⟨xpt, rfl⟩⟩
    · simp only [bind, Except.bind, h1, h6]
      rcases (if st.checkLimited = true then e.limits st.tokamak else none) with _ | pts
      · rcases xpt with _ | ⟨x, xs⟩
        · exact .inr ⟨_, _, rfl, rfl, ⟨rfl, h2, h3, h4, h5, rfl⟩, .inl rfl⟩
        · simp only
          rcases e.core q (o :: rest) (x :: xs) none with y | m
          · exact .inl ⟨_, rfl, rfl⟩
          · exact .inr ⟨_, _, rfl, rfl, ⟨rfl, h2, h3, h4, h5, rfl⟩, .inl rfl⟩
      · simp only
        rcases limiterContact e q (keptPoints xpt pts) with y | ⟨c, lim⟩
        · exact .inl ⟨_, rfl, rfl⟩
        · simp only
          rcases xpt with _ | ⟨x, xs⟩
          · exact .inr ⟨_, _, rfl, rfl, ⟨rfl, h2, h3, h4, h5, rfl⟩, .inl rfl⟩
          · simp only
            rcases e.core q (o :: rest) (x :: xs) (some (max x.2.2 lim)) with y | m
            · exact .inl ⟨_, rfl, rfl⟩
            · exact .inr ⟨_, _, rfl, rfl, ⟨rfl, h2, h3, h4, h5, rfl⟩, .inl rfl⟩

theorem finishValues_same (e : Env C K) {st st' : State C K} (J : Arr K) (h : SameFlux st st') :
    SameResult (finishValues e st J) (finishValues e st' J) := by
  obtain ⟨h1, h2, h3, h4, h5, h6⟩ := h
  unfold finishValues
  rw [h2]
  simp only [bind, Except.bind]
  rcases e.boundary J st.plasmaPsi with x | edge
  · rfl
  · simp only [Equil.updatePlasmaPsi]
    set S := e.solver edge (setEdge e.nx e.ny (fun c => -e.mu0 * e.R c.1 * J c) edge)
    have h' : SameFlux ({ st with plasmaPsi := S, spline := S } : State C K) { st' with plasmaPsi := S, spline := S } :=
      ⟨h1, rfl, rfl, h4, h5, h6⟩
    have hq : psi e ({ st' with plasmaPsi := S, spline := S } : State C K) = psi e ({ st with plasmaPsi := S, spline := S } : State C K) := h'.psi
    rw [hq]
    rcases updateBoundary_same e (psi e ({ st with plasmaPsi := S, spline := S } : State C K)) h' with
      ⟨x, e1, e2⟩ | ⟨t, t', e1, e2, e3, -⟩ <;> rw [e1, e2]
    · exact rfl
    · simp only
      rcases Jtor.integrate e.nx e.ny e.R e.Z J with x | I
      · exact rfl
      · exact ⟨e3.tokamak, e3.plasmaPsi, e3.spline, rfl, rfl, e3.checkLimited⟩

theorem solve_same (e : Env C K) {q : Profiles C K} (hq : Respects q) {st st' : State C K} (h : SameFlux st st')
    (given psi0 : Option (Arr K)) (b : Option K) :
    SameResult (Equil.solve e q st given psi0 b) (Equil.solve e q st' given psi0 b) := by
  rw [solve_eq_finish, solve_eq_finish, h.psi]
  simp only [bind, Except.bind]
  rcases updateBoundary_same e (psi e st) h with ⟨x, e1, e2⟩ | ⟨t, t', e1, e2, e3, -⟩ <;> rw [e1, e2]
  · exact rfl
  · simp only
    cases given with
    | some J => exact finishValues_same e J e3
    | none =>
      simp only [Equil.density]
      rw [e3.psi]
      have r := hq t t' (psi0.getD (psi e t)) b e3
      revert r
      rcases q t (psi0.getD (psi e t)) b with x | ⟨u, J⟩ <;> rcases q t' (psi0.getD (psi e t)) b with y | ⟨u', J'⟩ <;> intro r
      · exact r
      · exact r.elim
      · exact r.elim
      · obtain ⟨r1, rfl⟩ := r
        exact finishValues_same e J r1

theorem respects_paxis (quad : (K → K) → K → K → K) (pow : K → K → K) (e : Env C K) (p : Jtor.Params K) (paxis : K) :
    Respects (paxisProfiles quad pow e p paxis) := by
  intro st st' q b h
  unfold paxisProfiles
  simp only [bind, Except.bind]
  rcases updateBoundary_same e q h with ⟨x, e1, e2⟩ | ⟨t, t', e1, e2, e3, e4⟩ <;> rw [e1, e2]
  simp only
  rcases hf : e.find q with x | ⟨opt, xpt⟩
  · simp
  · simp only
    rcases e4 with e4 | ⟨xpt', e4⟩
    · rw [e4]
      rcases Jtor.paxisJtor quad pow e.nx e.ny e.R e.Z p paxis opt xpt (e.core q opt xpt) t.psiBndry q b with x | ⟨J, k⟩
      · simp
      · exact ⟨e3, rfl⟩
    · rw [hf] at e4
      cases e4
      simp [Jtor.paxisJtor, Jtor.locate, bind, Except.bind]

theorem respects_betap (quad : (K → K) → K → K → K) (pow : K → K → K) (e : Env C K) (field : State C K → Arr K × Arr K)
    (hfield : ∀ st st', SameFlux st st' → field st' = field st) (p : Jtor.Params K) (betap : K) :
    Respects (betapProfiles quad pow e field p betap) := by
  intro st st' q b h
  unfold betapProfiles
  simp only [bind, Except.bind]
  rcases updateBoundary_same e q h with ⟨x, e1, e2⟩ | ⟨t, t', e1, e2, e3, e4⟩ <;> rw [e1, e2]
  simp only
  rcases hf : e.find q with x | ⟨opt, xpt⟩
  · simp
  · simp only
    rcases e4 with e4 | ⟨xpt', e4⟩
    · rw [e4, hfield t t' e3]
      rcases Jtor.betapJtor quad pow e.mu0 e.nx e.ny e.R e.Z p betap opt xpt (e.core q opt xpt) t.psiBndry (field t).1 (field t).2 q b with
        x | ⟨J, k⟩
      · simp
      · exact ⟨e3, rfl⟩
    · rw [hf] at e4
      cases e4
      simp [Jtor.betapJtor, Jtor.locate, bind, Except.bind]

theorem respects_given (e : Env C K) (g : Jtor.Given K) : Respects (givenProfiles e g) := by
  intro st st' q b h
  unfold givenProfiles
  simp only [bind, Except.bind]
  rcases e.find q with x | ⟨opt, xpt⟩
  · simp
  · simp only
    rcases Jtor.givenJtor e.mu0 e.nx e.R g opt xpt (e.core q opt xpt) q b with x | ⟨J, k⟩
    · simp
    · exact ⟨h, rfl⟩

/-! ## Picard iteration -/

theorem Good.own {i : ℕ} {w w' : World C K} (g : Good w i) (h : Own i w w') : Good w' i := by
  have hn := h.only.next
  have hp := g.psi
  refine ⟨?_, fun r hr => ⟨?_, ?_⟩⟩
  · rcases h.only.psi with e | e
    · rw [e]; omega
    · exact e.2
  · rcases h.jtor with e | ⟨J, e1, e2, e3⟩
    · have := (g.jtor r (e ▸ hr)).1; omega
    · rw [e1] at hr; cases hr; exact e3
  · intro e
    refine h.ne hp (fun J hJ => (g.jtor J hJ).1) (fun hJ => (g.jtor _ hJ).2 rfl) (by rw [hr, e])

theorem picardSolve_seen (s : Setup C K) (hs : NotShared s) {p : Profile C K} {q : Profiles C K} (hp : Matches p q) (i : ℕ) (cl : Bool)
    (v : List K) (b : Option K) (w : World C K) (hw : Good w i) :
    seen i (picardSolve s p i cl v b w) =
      Equil.solve s.env q { w.view i with checkLimited := cl } none (some (ofValues s.ny v)) b := by
  unfold picardSolve
  simp only
  set w1 := w.setAttrs i { (w.eqs i).attrs with checkLimited := cl } with hw1
  have o1 : Own i w (w1.alloc (ofValues s.ny v)) :=
    (Own.of_only (Only.setAttrs i w _) (by rw [setAttrs_same])).trans (Own.of_only (Only.alloc i _ _) rfl)
  have g1 := hw.own o1
  rw [solve_seen s hs hp i none _ b _ g1.psi g1.jtor (fun r h => by cases h)]
  have e1 : (w1.alloc (ofValues s.ny v)).view i = { w.view i with checkLimited := cl } := by
    have : w1.view i = { w.view i with checkLimited := cl } := by rw [hw1, view_setAttrs]; rfl
    rw [← this]
    have hp := hw.psi
    simp only [World.view, alloc_eqs, alloc_machines, hw1, setAttrs_same]
    rw [alloc_other _ _ (by simp only [setAttrs_next]; omega)]
    congr 1
    rcases hJt : (w.eqs i).jtor with _ | t
    · rfl
    · simp only [Option.map_some]
      rw [alloc_other _ _ (by have := (hw.jtor t hJt).1; simp only [setAttrs_next]; omega)]
  rw [e1, Option.map_none, Option.map_some]
  have e2 : (w1.alloc (ofValues s.ny v)).arrays w1.next = ofValues s.ny v := alloc_same _ _
  rw [e2]

theorem adjust_seen (s : Setup C K) (q : Profiles C K) (f : Option (Constrain C K)) (i : ℕ) (w : World C K) :
    seen i (adjust f i w) = (picardEnv s.env q (f.map constrainValues)).adjust (w.view i) := by
  cases f with
  | none => rfl
  | some f =>
    simp only [adjust, Picard.Env.adjust, picardEnv, Option.map_some, constrainValues]
    rcases f (w.view i) with ⟨_ | x, c⟩
    · simp only [seen, World.view, World.setMachine, Function.update_self]
    · rfl

/-- The variables with the equilibrium. -/
def vars (i : ℕ) (w : World C K) (v : Vars K) (hist : List (K × Option K)) : Picard.Vars (State C K) K :=
  ⟨w.view i, v.psi, v.iteration, v.bndry, v.bndryChange, v.hasBeenLimited, hist⟩

theorem pass_seen (s : Setup C K) (hs : NotShared s) {p : Profile C K} {q : Profiles C K} (hp : Matches p q) (f : Option (Constrain C K))
    (o : Picard.Opts K) (i : ℕ) (w : World C K) (hw : Good w i) (v : Vars K) (hist : List (K × Option K)) :
    match pass s p f o i w v with
    | .stop (some x, _) => Picard.body (picardEnv s.env q (f.map constrainValues)) o (vars i w v hist) = .error x
    | .stop (none, w') =>
      ∃ h, Picard.body (picardEnv s.env q (f.map constrainValues)) o (vars i w v hist) = .ok (.done (w'.view i) h)
    | .more w' v' =>
      ∃ h, Picard.body (picardEnv s.env q (f.map constrainValues)) o (vars i w v hist) = .ok (.more (vars i w' v' h)) := by
  unfold pass Picard.body
  simp only
  set check : Bool := (decide (o.limitIt ≤ v.iteration) || v.hasBeenLimited) && o.checkLimited with hcheck
  have e0 : ((decide (o.limitIt ≤ (vars i w v hist).iteration) || (vars i w v hist).hasBeenLimited) && o.checkLimited) = check := rfl
  rw [e0]
  clear e0
  clear_value check
  have e1 : (if check = true then (picardEnv s.env q (f.map constrainValues)).solve (vars i w v hist).eq true (vars i w v hist).psi
        ((picardEnv s.env q (f.map constrainValues)).bndry (vars i w v hist).eq)
      else (picardEnv s.env q (f.map constrainValues)).solve (vars i w v hist).eq false (vars i w v hist).psi o.psiBndry) =
      seen i (picardSolve s p i check v.psi (if check = true then (w.eqs i).attrs.psiBndry else o.psiBndry) w) := by
    rw [picardSolve_seen s hs hp i _ _ _ w hw]
    cases check <;> rfl
  rw [e1]
  clear e1
  rcases picardSolve s p i check v.psi (if check = true then (w.eqs i).attrs.psiBndry else o.psiBndry) w with ⟨_ | x, w1⟩
  · simp only [seen]
    have e2 : (picardEnv s.env q (f.map constrainValues)).psi (w1.view i) = fluxValues s i w1 := rfl
    have e3 : (picardEnv s.env q (f.map constrainValues)).bndry (w1.view i) = (w1.eqs i).attrs.psiBndry := rfl
    have e4 : (picardEnv s.env q (f.map constrainValues)).limited (w1.view i) = (w1.eqs i).attrs.isLimited := rfl
    have e5 : (vars i w v hist).psi = v.psi := rfl
    have e6 : (vars i w v hist).bndry = v.bndry := rfl
    have e7 : (vars i w v hist).bndryChange = v.bndryChange := rfl
    have e8 : (vars i w v hist).hasBeenLimited = v.hasBeenLimited := rfl
    have e9 : (vars i w v hist).iteration = v.iteration := rfl
    simp only [e2, e3, e4, e5, e6, e7, e8, e9]
    have hadj := adjust_seen s q f i w1
    rw [← hadj]
    rw [converged]
    generalize (w1.eqs i).attrs.isLimited = lim
    generalize (w1.eqs i).attrs.psiBndry = bnd
    generalize fluxValues s i w1 = fl
    rcases bnd with _ | bb
    · rcases v.bndryChange with _ | bc
      · dsimp only [Option.getD_none]
        generalize ((decide (Picard.maxChange v.psi fl < o.atol) || Picard.relOk (Picard.maxChange v.psi fl) fl o.rtol) &&
          (decide (2 * o.rtol < o.rtol) || false) && (!o.waitForLimited || lim)) = c
        cases c
        · simp only [Bool.false_eq_true, if_false]
          rcases adjust f i w1 with ⟨_ | x, w2⟩
          · rcases hmx : o.maxits with _ | m
            · have hex : exceeded o (v.iteration + 1) = false := by simp [exceeded, hmx]
              simp only [seen, hex, Bool.false_eq_true, if_false]
              exact ⟨_, rfl⟩
            · by_cases hm : m ≠ 0 ∧ m < v.iteration + 1
              · have hex : exceeded o (v.iteration + 1) = true := by
                  simp only [exceeded, hmx, hm, ne_eq, not_false_eq_true, and_self, decide_true]
                simp only [seen, hex, if_true, if_pos hm]
              · have hex : exceeded o (v.iteration + 1) = false := by simp only [exceeded, hmx, hm, decide_false]
                simp only [seen, hex, Bool.false_eq_true, if_false, if_neg hm]
                exact ⟨_, rfl⟩
          · rfl
        · exact ⟨_, rfl⟩
      · dsimp only [Option.getD_none]
        generalize ((decide (Picard.maxChange v.psi fl < o.atol) || Picard.relOk (Picard.maxChange v.psi fl) fl o.rtol) &&
          (decide (2 * o.rtol < o.rtol) || decide (|bc| < o.atol)) && (!o.waitForLimited || lim)) = c
        cases c
        · simp only [Bool.false_eq_true, if_false]
          rcases adjust f i w1 with ⟨_ | x, w2⟩
          · rcases hmx : o.maxits with _ | m
            · have hex : exceeded o (v.iteration + 1) = false := by simp [exceeded, hmx]
              simp only [seen, hex, Bool.false_eq_true, if_false]
              exact ⟨_, rfl⟩
            · by_cases hm : m ≠ 0 ∧ m < v.iteration + 1
              · have hex : exceeded o (v.iteration + 1) = true := by
                  simp only [exceeded, hmx, hm, ne_eq, not_false_eq_true, and_self, decide_true]
                simp only [seen, hex, if_true, if_pos hm]
              · have hex : exceeded o (v.iteration + 1) = false := by simp only [exceeded, hmx, hm, decide_false]
                simp only [seen, hex, Bool.false_eq_true, if_false, if_neg hm]
                exact ⟨_, rfl⟩
          · rfl
        · exact ⟨_, rfl⟩
    · dsimp only [Option.getD_some]
      generalize ((decide (Picard.maxChange v.psi fl < o.atol) || Picard.relOk (Picard.maxChange v.psi fl) fl o.rtol) &&
        (decide (bb ≠ 0 ∧ |(v.bndry - bb) / bb| < o.rtol) || decide (|v.bndry - bb| < o.atol)) && (!o.waitForLimited || lim)) = c
      cases c
      · simp only [Bool.false_eq_true, if_false]
        rcases adjust f i w1 with ⟨_ | x, w2⟩
        · rcases hmx : o.maxits with _ | m
          · have hex : exceeded o (v.iteration + 1) = false := by simp [exceeded, hmx]
            simp only [seen, hex, Bool.false_eq_true, if_false]
            exact ⟨_, rfl⟩
          · by_cases hm : m ≠ 0 ∧ m < v.iteration + 1
            · have hex : exceeded o (v.iteration + 1) = true := by
                simp only [exceeded, hmx, hm, ne_eq, not_false_eq_true, and_self, decide_true]
              simp only [seen, hex, if_true, if_pos hm]
            · have hex : exceeded o (v.iteration + 1) = false := by simp only [exceeded, hmx, hm, decide_false]
              simp only [seen, hex, Bool.false_eq_true, if_false, if_neg hm]
              exact ⟨_, rfl⟩
        · rfl
      · exact ⟨_, rfl⟩
  · rfl

theorem picardLoop_seen (s : Setup C K) (hs : NotShared s) {p : Profile C K} {q : Profiles C K} (hp : Matches p q)
    (f : Option (Constrain C K)) (o : Picard.Opts K) (i : ℕ) (fuel : ℕ) :
    ∀ (w : World C K) (_ : Good w i) (v : Vars K) (hist : List (K × Option K)),
      SameOutcome i (picardLoop s p f o i fuel w v)
        (Picard.loop (picardEnv s.env q (f.map constrainValues)) o fuel (vars i w v hist)) := by
  induction fuel with
  | zero => intro w _ v hist; exact trivial
  | succ n ih =>
    intro w hw v hist
    rw [picardLoop, Picard.loop]
    have h := pass_seen s hs hp f o i w hw v hist
    have h' := (pass_own s p f o i w v).2
    rcases hpass : pass s p f o i w v with ⟨_ | x, w'⟩ | ⟨w', v'⟩ <;> rw [hpass] at h <;> simp only at h
    · obtain ⟨h1, h2⟩ := h
      rw [h2]; exact rfl
    · rw [h]; exact rfl
    · obtain ⟨h1, h2⟩ := h
      rw [h2]
      exact ih w' (hw.own (h' w' v' hpass).1) v' h1

theorem picard_seen (s : Setup C K) (hs : NotShared s) {p : Profile C K} {q : Profiles C K} (hp : Matches p q)
    (f : Option (Constrain C K)) (o : Picard.Opts K) (i fuel : ℕ) (w : World C K) (hw : Good w i) :
    SameOutcome i (picard s p f o i fuel w)
      (Picard.picard (picardEnv s.env q (f.map constrainValues)) o fuel (w.view i)) := by
  unfold picard Picard.picard
  rw [← adjust_seen]
  have a1 := adjust_own f i w
  rcases ha : adjust f i w with ⟨_ | x, w1⟩
  · rw [ha] at a1
    exact picardLoop_seen s hs hp f o i fuel w1 (hw.own a1) ⟨fluxValues s i w1, 0, 0, none, false⟩ []
  · exact rfl

end FreeGS.Store
