import Verif.Model.GeqdskRead
import Verif.Props.NormFit
import Verif.Props.Picard

/-!
# Lemmas on the whole of `geqdsk.read`
-/

set_option linter.unusedSectionVars false

namespace FreeGS.Geqdsk

open FreeGS.GS (Arr setEdge)
open FreeGS.Equil
open FreeGS.Critical (Domain linspaceAt Point)

universe u
variable {K : Type u} [Field K] [LinearOrder K] {C : Type u}

/-! ## What the fits and the iteration leave alone -/

/-- A property of equilibria that trying other coil currents and updating axis and boundary flux do not change. -/
structure Stable (e : Equil.Env C K) (ctl : Controls C K) (Q : State C K → Prop) : Prop where
  set : ∀ s x, Q s → Q { s with tokamak := ctl.set s.tokamak x }
  update : ∀ s s' P, Q s → updateBoundary e s P = .ok s' → Q s'

theorem run_stable {A : Type u} {Q : State C K → Prop} {f : State C K → List K → Except Err (State C K × A)}
    (hf : ∀ s x r, Q s → f s x = .ok r → Q r.1) (opt : Search K A) : ∀ s r, Q s → opt.run f s = .ok r → Q r.1 := by
  induction opt with
  | stop x => intro s r hs h; cases h; exact hs
  | ask x next ih =>
    intro s r hs h
    rw [Search.run] at h
    cases hd : f s x with
    | error err => rw [hd] at h; cases h
    | ok q => rw [hd] at h; exact ih q.2 q.1 r (hf s x q hs hd) h

theorem fluxDifference_ok {e : Equil.Env C K} {ctl : Controls C K} {c : Control.Psi2D K} {s : State C K} {x : List K} {r}
    (h : fluxDifference e ctl c s x = .ok r) : r.1 = { s with tokamak := ctl.set s.tokamak x } := by
  rw [fluxDifference] at h
  try simp only at h
  split at h
  · cases h
  · cases h; rfl

theorem fluxFit_stable {e : Equil.Env C K} {ctl : Controls C K} {Q : State C K → Prop} (hQ : Stable e ctl Q) {c : Control.Psi2D K}
    {lsq : List K → Search K (List K)} {s s' : State C K} (hs : Q s) (h : fluxFit e ctl c lsq s = .ok s') : Q s' := by
  rw [fluxFit] at h
  cases hr : (lsq (ctl.get s.tokamak)).run (fluxDifference e ctl c) s with
  | error err => rw [hr] at h; cases h
  | ok r =>
    rw [hr] at h
    cases h
    refine hQ.set _ _ (run_stable (fun s x r hs h => ?_) _ _ _ hs hr)
    rw [fluxDifference_ok h]
    exact hQ.set _ _ hs

theorem fluxSquares_stable {e : Equil.Env C K} {ctl : Controls C K} {Q : State C K → Prop} (hQ : Stable e ctl Q) {c : Control.Psi2DAdvanced K}
    {s : State C K} {x : List K} {r} (hs : Q s) (h : fluxSquares e ctl c s x = .ok r) : Q r.1 := by
  rw [fluxSquares] at h
  try simp only at h
  split at h
  · cases h
  rename_i s2 h2
  split at h
  · cases h
  · cases h
    exact hQ.update _ _ _ (hQ.set _ _ hs) h2

theorem fluxFitAdvanced_stable {e : Equil.Env C K} {ctl : Controls C K} {Q : State C K → Prop} (hQ : Stable e ctl Q)
    {c : Control.Psi2DAdvanced K} {lbfgs : List K → List (K × K) → Search K K} {s s' : State C K} (hs : Q s)
    (h : fluxFitAdvanced e ctl c lbfgs s = .ok s') : Q s' := by
  rw [fluxFitAdvanced] at h
  split at h
  · cases h
  split at h
  · cases h
  rename_i s2 x hr
  cases h
  exact hQ.set _ _ (run_stable (fun s x r hs h => fluxSquares_stable hQ hs h) _ _ _ hs hr)

theorem normDifference_stable {e : Equil.Env C K} {ctl : Controls C K} {Q : State C K → Prop} (hQ : Stable e ctl Q) {f : NormFit K}
    {s : State C K} {x : List K} {r} (hs : Q s) (h : normDifference e ctl f s x = .ok r) : Q r.1 := by
  obtain ⟨s', d⟩ := r
  exact hQ.update _ _ _ (hQ.set _ _ hs) (normDifference_ok h).1

theorem normFit_stable {e : Equil.Env C K} {ctl : Controls C K} {Q : State C K → Prop} (hQ : Stable e ctl Q) {f : NormFit K}
    {lsq : List K → Search K (List K)} {s s' : State C K} (hs : Q s) (h : normFit e ctl f lsq s = .ok s') : Q s' := by
  rw [normFit] at h
  split at h
  · cases h
  rename_i s2 x hr
  cases h
  exact hQ.set _ _ (run_stable (fun s x r hs h => normDifference_stable hQ hs h) _ _ _ hs hr)

theorem normFitAdvanced_stable {e : Equil.Env C K} {ctl : Controls C K} {Q : State C K → Prop} (hQ : Stable e ctl Q) {f : NormFit K}
    {lims : Option (List (K × K))} {lbfgs : List K → List (K × K) → Search K K} {s s' : State C K} (hs : Q s)
    (h : normFitAdvanced e ctl f lims lbfgs s = .ok s') : Q s' := by
  rw [normFitAdvanced] at h
  split at h
  · cases h
  split at h
  · cases h
  rename_i s2 x hr
  cases h
  refine hQ.set _ _ (run_stable (fun s x r hs h => ?_) _ _ _ hs hr)
  rw [normSquares] at h
  split at h
  · cases h
  rename_i s3 d hd
  cases h
  exact normDifference_stable hQ (r := (s3, d)) hs hd

theorem firstFit_stable {l : Lib C K} {e : Equil.Env (Reactor C K) K} {Q : State (Reactor C K) K → Prop} (hQ : Stable e l.controls Q)
    {o : ReadOpts K} {psi : Arr K} {mask : Option (Arr K)} {s s' : State (Reactor C K) K} (hs : Q s)
    (h : firstFit l e o psi mask s = .ok s') : Q s' := by
  rw [firstFit] at h
  try simp only at h
  split at h
  · split at h
    · exact fluxFitAdvanced_stable hQ hs h
    · split at h
      · exact fluxFitAdvanced_stable hQ hs h
      · cases h
  · split at h
    · cases h
    · exact fluxFit_stable hQ hs h

theorem iterationFit_stable {l : Lib C K} {e : Equil.Env (Reactor C K) K} {Q : State (Reactor C K) K → Prop} (hQ : Stable e l.controls Q)
    {o : ReadOpts K} {f : NormFit K} {s s' : State (Reactor C K) K} (hs : Q s) (h : iterationFit l e o f s = .ok s') : Q s' := by
  rw [iterationFit] at h
  cases hb : o.bounds with
  | some b => rw [hb] at h; exact normFitAdvanced_stable hQ hs h
  | none => rw [hb] at h; exact normFit_stable hQ hs h

/-- What a step of the iteration and the first solve do. -/
theorem solve_given {e : Equil.Env C K} {g : Jtor.Given K} {s s' : State C K} {J0 psi0 : Option (Arr K)} {b : Option K}
    (h : Equil.solve e (givenProfiles e g) s J0 psi0 b = .ok s') : s'.tokamak = s.tokamak ∧ s'.checkLimited = s.checkLimited := by
  obtain ⟨s1, s2, J, edge, s3, I, h1, h2, h3, h4, h5, rfl⟩ := solve_ok h
  obtain ⟨a1, -, -, -, -, a6⟩ := updateBoundary_frame h1
  obtain ⟨b1, -, -, -, -, b6⟩ := updateBoundary_frame h4
  have hs2 : s2 = s1 := by
    cases J0 with
    | some J0 => cases h2; rfl
    | none =>
      obtain ⟨r, _, h2⟩ := Jtor.bind_ok h2
      obtain ⟨q, _, h2⟩ := Jtor.bind_ok h2
      cases h2; rfl
  subst hs2
  exact ⟨b1.trans a1, b6.trans a6⟩

/-- A property that adjusting and solving keep holds in every step of an iteration. -/
theorem picard_keeps {S : Type*} {e : Picard.Env S K} {o : Picard.Opts K} {Q : S → Prop} (ha : ∀ s s', Q s → e.adjust s = .ok s' → Q s')
    (hs : ∀ s cl p b s', Q s → e.solve s cl p b = .ok s' → Q s') {eq0 : S} (h0 : Q eq0) {n s p l b} (hr : Picard.Run e o eq0 n s p l b) : Q s := by
  induction hr with
  | start h => exact ha _ _ h0 h
  | next r h1 h2 ih =>
    refine ha _ _ ?_ h2
    rw [Picard.step] at h1
    split at h1
    · exact hs _ _ _ _ _ ih h1
    · exact hs _ _ _ _ _ ih h1

/-! ## What a successful `read` did -/

theorem reconstruct_ok {l : Lib C K} {o : ReadOpts K} {dom : Domain K} {nx ny : ℕ} {g : Jtor.Given K} {s : State (Reactor C K) K}
    {J psi psiNorm : Arr K} {mask : Option (Arr K)} {fuel : ℕ} {r : Reading C K}
    (h : reconstruct l o dom nx ny g s J psi psiNorm mask fuel = .ok (some r)) :
    ∃ s1 s2 m hist opt xpt, Equil.solve (l.env dom nx ny) (givenProfiles (l.env dom nx ny) g) { s with checkLimited := true } (some J) none none = .ok s1 ∧
      firstFit l (l.env dom nx ny) o psi mask s1 = .ok s2 ∧ mask = some m ∧
      Picard.picard (picardEnv (l.env dom nx ny) (givenProfiles (l.env dom nx ny) g) (some (iterationFit l (l.env dom nx ny) o ⟨psiNorm, m⟩)))
        (picardOpts o) fuel s2 = .ok (some (r.eq, hist)) ∧
      r.dom = dom ∧ r.nx = nx ∧ r.ny = ny ∧ r.profiles = g ∧
      l.find dom nx ny (Equil.psi (l.env dom nx ny) r.eq) = .ok (opt, xpt) ∧ (xpt = [] → r.control = none) ∧
      (xpt ≠ [] → ∃ iso, l.separatrix dom nx ny r.eq opt xpt o.ntheta = .ok iso ∧ r.control = some (xpt, iso)) := by
  rw [reconstruct] at h
  try simp only at h
  split at h
  · cases h
  rename_i s1 h1
  split at h
  · cases h
  rename_i s2 h2
  split at h
  · cases h
  rename_i m
  split at h
  · cases h
  · cases h
  rename_i s3 hist h3
  split at h
  · cases h
  · rename_i opt h4
    cases h
    exact ⟨s1, s2, m, hist, opt, [], h1, h2, rfl, h3, rfl, rfl, rfl, rfl, h4, fun _ => rfl, fun h => absurd rfl h⟩
  · rename_i opt x xs h4
    split at h
    · cases h
    rename_i iso h5
    cases h
    exact ⟨s1, s2, m, hist, opt, x :: xs, h1, h2, rfl, h3, rfl, rfl, rfl, rfl, h4, fun h => absurd h (by simp), fun _ => ⟨iso, h5, rfl⟩⟩

theorem makeEq_ok {l : Lib C K} {t : Reactor C K} {dom : Domain K} {nx ny : ℕ} {psi : Arr K} {s : State (Reactor C K) K}
    (h : makeEq l t dom nx ny psi = .ok s) :
    2 ≤ nx ∧ 2 ≤ ny ∧ (∃ opt xpt, l.find dom nx ny (fun c => psi c + l.coilPsi dom nx ny t.coils c) = .ok (opt, xpt) ∧
      (t.wall.isSome → t.points = none → opt = [])) ∧
    updateBoundary (l.env dom nx ny) ⟨t, psi, psi, 0, none, true, none, none, none, none, none, false, none⟩
      (fun c => psi c + l.coilPsi dom nx ny t.coils c) = .ok s := by
  rw [makeEq] at h
  split at h
  · cases h
  rename_i hn
  try simp only at h
  split at h
  · cases h
  rename_i opt xpt hf
  split at h
  · cases h
  rename_i hw
  refine ⟨by omega, by omega, ⟨opt, xpt, hf, fun h1 h2 => ?_⟩, h⟩
  by_contra h3
  exact hw ⟨h1, h2, h3⟩

theorem prepareFrom_ok {l : Lib C K} {d : Data K} {t : Reactor C K} {tg : Target K} {s : State (Reactor C K) K} {J m : Arr K}
    (h : prepareFrom l d t tg = .ok (s, J, m)) :
    4 ≤ d.nx ∧ makeEq l (fileMachine t tg) tg.dom tg.nx tg.ny tg.psi = .ok s ∧ (∃ a, s.psiAxis = some a) ∧ s.mask = some m ∧
      (∀ i < tg.nx, (l.env tg.dom tg.nx tg.ny).R i ≠ 0) ∧
      J = fun c => ((l.env tg.dom tg.nx tg.ny).R c.1 * (fileProfiles l d).pprime (tg.psiNorm c) +
        (fileProfiles l d).ffprime (tg.psiNorm c) / ((l.env tg.dom tg.nx tg.ny).R c.1 * l.mu0)) * m c := by
  rw [prepareFrom] at h
  split at h
  · cases h
  rename_i hn
  split at h
  · cases h
  rename_i s1 h1
  try simp only at h
  split at h
  · cases h
  · cases h
  rename_i a m1 ha hm
  split at h
  · rename_i hR
    split at h
    · cases h
    cases h
    refine ⟨by omega, h1, ⟨a, ha⟩, hm, fun i hi => ?_, rfl⟩
    rw [List.all_eq_true] at hR
    simpa using hR i (List.mem_range.mpr hi)
  · cases h

theorem target_ok {d : Data K} {wall : Option (List (K × K))} {tg : Target K} (h : read d wall = .ok tg) :
    resized d.nx d.ny d.psi = .ok (tg.nx, tg.ny, tg.psi) ∧ d.sibdry - d.simagx ≠ 0 ∧
      tg.psiNorm = (fun c => clip ((tg.psi c - d.simagx) / (d.sibdry - d.simagx)) 0 (11 / 10)) ∧ tg.R0 = d.rcentr ∧
      tg.dom = ⟨d.rleft, d.rleft + d.rdim, d.zmid - 1 / 2 * d.zdim, d.zmid + 1 / 2 * d.zdim⟩ ∧
      (∀ w, d.lim = some w → 3 < w.length → tg.wall = some w) ∧ (∀ w, d.lim = some w → ¬ 3 < w.length → tg.wall = wall) ∧
      (d.lim = none → tg.wall = wall) := by
  rw [read] at h
  split at h
  · cases h
  rename_i nx ny psi hr
  split at h
  · cases h
  rename_i h0
  cases h
  refine ⟨hr, h0, rfl, rfl, rfl, fun w hw h3 => ?_, fun w hw h3 => ?_, fun hw => ?_⟩
  · simp only [hw, if_pos h3]
  · simp only [hw, if_neg h3]
  · simp only [hw]

end FreeGS.Geqdsk
