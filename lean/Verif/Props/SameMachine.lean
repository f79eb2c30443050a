import Verif.Props.Machine
import Verif.Props.Control
import Verif.Model.Equilibrium

/-!
# C137: machines that make the same field are interchangeable
-/

set_option linter.unusedSectionVars false

namespace FreeGS.Control

variable {K : Type*} [Field K] [LinearOrder K]

/-- Two machines seen from outside are the same: equal currents of the controlled entries in their order, equal response of these at every point, and equal flux and
field at every point. The entries themselves may differ. -/
structure Alike (e : Env K) (m m' : Machine K) : Prop where
  currents : m'.controlCurrents = m.controlCurrents
  response : ∀ q R Z, m'.controlResponse e q R Z = m.controlResponse e q R Z
  field : ∀ q R Z, (m'.field e q R Z).1 = (m.field e q R Z).1

theorem Alike.sync {e : Env K} {m m' : Machine K} (h : Alike e m m') : Alike e m.sync m'.sync :=
  ⟨by rw [Machine.controlCurrents_sync, Machine.controlCurrents_sync, h.currents],
    fun q R Z => by rw [Machine.controlResponse_sync, Machine.controlResponse_sync, h.response],
    fun q R Z => by rw [Machine.field_sync_fst, Machine.field_sync_fst, h.field]⟩

theorem Alike.sync_left {e : Env K} {m m' : Machine K} (h : Alike e m m') : Alike e m.sync m' :=
  ⟨by rw [Machine.controlCurrents_sync, h.currents], fun q R Z => by rw [Machine.controlResponse_sync, h.response],
    fun q R Z => by rw [Machine.field_sync_fst, h.field]⟩

theorem Alike.sync_right {e : Env K} {m m' : Machine K} (h : Alike e m m') : Alike e m m'.sync :=
  ⟨by rw [Machine.controlCurrents_sync, h.currents], fun q R Z => by rw [Machine.controlResponse_sync, h.response],
    fun q R Z => by rw [Machine.field_sync_fst, h.field]⟩

theorem controlResponse_adjust (e : Env K) (q : Quantity) (R Z : K) (x : List K) (m : Machine K) :
    (m.controlAdjust x).controlResponse e q R Z = m.controlResponse e q R Z := by
  have : ∀ (cs : List (String × Entry K)) (x : List K),
      ((Machine.zipControl (fun I x => I + x) cs x).filter fun y => y.2.control).map (fun y => y.2.response e q R Z) =
        (cs.filter fun y => y.2.control).map fun y => y.2.response e q R Z := by
    intro cs
    induction cs with
    | nil => intro x; rfl
    | cons y cs ih =>
      intro x
      obtain ⟨l, y⟩ := y
      cases hy : y.control with
      | true =>
        cases x with
        | nil => rw [Machine.zipControl_true_nil _ _ _ hy]
        | cons v vs =>
          rw [Machine.zipControl_true_cons _ _ _ _ _ hy]
          simp [hy, ih]
      | false =>
        rw [Machine.zipControl_false _ _ _ _ hy]
        simp [hy, ih]
  exact this m.coils x

theorem Alike.adjust {e : Env K} {m m' : Machine K} (h : Alike e m m') (x : List K) : Alike e (m.controlAdjust x) (m'.controlAdjust x) := by
  refine ⟨?_, fun q R Z => by rw [controlResponse_adjust, controlResponse_adjust, h.response],
    fun q R Z => by rw [Machine.controlAdjust_field_fst, Machine.controlAdjust_field_fst, h.field, h.response]⟩
  rw [Machine.controlAdjust, Machine.controlAdjust, Machine.zipControl_controlCurrents, Machine.zipControl_controlCurrents]
  have := h.currents
  cases m
  cases m'
  rw [this]

/-- The current limits of the controlled entries, in their order. -/
def limitsOfControlled (m : Machine K) (ls : List (K × K)) : List (K × K) := ((m.coils.zip ls).filter fun p => p.1.2.control).map Prod.snd

theorem bounds_controlled (ls : List (K × K)) (n : ℕ) (m : Machine K) (h : ls.length = m.coils.length) :
    bounds (some ls) n m = .ok (List.zipWith (fun lim I => some (lim.1 - I, lim.2 - I)) (limitsOfControlled m ls) m.controlCurrents) := by
  rw [bounds]
  simp only [h, if_true]
  congr 1
  obtain ⟨cs⟩ := m
  simp only [limitsOfControlled, Machine.controlCurrents] at h ⊢
  induction cs generalizing ls with
  | nil => simp
  | cons y cs ih =>
    cases ls with
    | nil => simp at h
    | cons l ls =>
      have := ih ls (by simpa using h)
      cases hy : y.2.control <;> simp [hy, this]

theorem flags_adjust (x : List K) (m : Machine K) : (m.controlAdjust x).coils.map (fun y => y.2.control) = m.coils.map fun y => y.2.control := by
  have : ∀ (cs : List (String × Entry K)) (x : List K), (Machine.zipControl (fun I x => I + x) cs x).map (fun y => y.2.control) = cs.map fun y => y.2.control := by
    intro cs
    induction cs with
    | nil => intro x; rfl
    | cons y cs ih =>
      intro x
      obtain ⟨l, y⟩ := y
      cases hy : y.control with
      | true =>
        cases x with
        | nil => rw [Machine.zipControl_true_nil _ _ _ hy]
        | cons v vs =>
          rw [Machine.zipControl_true_cons _ _ _ _ _ hy]
          simp [ih]
      | false =>
        rw [Machine.zipControl_false _ _ _ _ hy]
        simp [ih]
  exact this m.coils x

theorem limits_flags (m : Machine K) (ls : List (K × K)) :
    limitsOfControlled m ls = (((m.coils.map fun y => y.2.control).zip ls).filter fun p => p.1).map Prod.snd := by
  obtain ⟨cs⟩ := m
  simp only [limitsOfControlled]
  induction cs generalizing ls with
  | nil => simp
  | cons y cs ih =>
    cases ls with
    | nil => simp
    | cons l ls => cases hy : y.2.control <;> simp [hy, ih ls]

theorem flags_sync (m : Machine K) : m.sync.coils.map (fun y => y.2.control) = m.coils.map fun y => y.2.control := by
  simp only [Machine.sync, List.map_map]
  refine List.map_congr_left fun y _ => ?_
  simp only [Function.comp_apply]
  cases y.2 <;> rfl

/-- The same requests for two machines: without limits, or with one limit for each entry, equal for the controlled ones. -/
def SameLimits (m m' : Machine K) (l l' : Option (List (K × K))) : Prop :=
  (l = none ∧ l' = none) ∨ ∃ ls ls', l = some ls ∧ l' = some ls' ∧ ls.length = m.coils.length ∧ ls'.length = m'.coils.length ∧
    limitsOfControlled m' ls' = limitsOfControlled m ls

theorem SameLimits.flags {m m' n n' : Machine K} {l l' : Option (List (K × K))} (h : SameLimits m m' l l')
    (hn : n.coils.map (fun y => y.2.control) = m.coils.map fun y => y.2.control) (hn' : n'.coils.map (fun y => y.2.control) = m'.coils.map fun y => y.2.control) :
    SameLimits n n' l l' := by
  rcases h with h | ⟨ls, ls', h1, h2, h3, h4, h5⟩
  · exact .inl h
  · have e1 := congrArg List.length hn
    have e2 := congrArg List.length hn'
    simp only [List.length_map] at e1 e2
    exact .inr ⟨ls, ls', h1, h2, h3.trans e1.symm, h4.trans e2.symm, by rw [limits_flags, limits_flags, hn, hn', ← limits_flags, ← limits_flags, h5]⟩

/-- **C137 (control).** Coil control of two equilibria with the same plasma and machines that are alike: the same exception, or the same changes of the currents,
and machines that are alike again. -/
theorem C137_control (e : Env K) (opt : Problem K → List K) (c : Constrain K) (l' : Option (List (K × K))) (m m' : Machine K) (plasma : Quantity → K → K → K)
    (h : Alike e m m') (hl : SameLimits m m' c.currentLims l') :
    (∃ err, call e opt c ⟨m, plasma⟩ = .error err ∧ call e opt { c with currentLims := l' } ⟨m', plasma⟩ = .error err) ∨
      ∃ x m1 m1', call e opt c ⟨m, plasma⟩ = .ok (x, ⟨m1, plasma⟩) ∧ call e opt { c with currentLims := l' } ⟨m', plasma⟩ = .ok (x, ⟨m1', plasma⟩) ∧
        Alike e m1 m1' ∧ SameLimits m1 m1' c.currentLims l' := by
  have hr : specRows e { c with currentLims := l' } ⟨m', plasma⟩ = specRows e c ⟨m, plasma⟩ := by
    simp only [specRows, Eq.read, Eq.field, h.response, h.field]
  obtain ⟨r1, r2⟩ := rows_eq e c ⟨m, plasma⟩
  obtain ⟨r1', r2'⟩ := rows_eq e { c with currentLims := l' } ⟨m', plasma⟩
  obtain ⟨n1, hn1, hs⟩ : ∃ n1, (rows e c ⟨m, plasma⟩).2 = ⟨n1, plasma⟩ ∧ (n1 = m ∨ n1 = m.sync) := by
    rcases r2 with h | h <;> rw [h]
    · exact ⟨m, rfl, .inl rfl⟩
    · exact ⟨m.sync, rfl, .inr rfl⟩
  obtain ⟨n1', hn1', hs'⟩ : ∃ n1', (rows e { c with currentLims := l' } ⟨m', plasma⟩).2 = ⟨n1', plasma⟩ ∧ (n1' = m' ∨ n1' = m'.sync) := by
    rcases r2' with h | h <;> rw [h]
    · exact ⟨m', rfl, .inl rfl⟩
    · exact ⟨m'.sync, rfl, .inr rfl⟩
  have ha : Alike e n1 n1' := by
    rcases hs with rfl | rfl <;> rcases hs' with rfl | rfl
    · exact h
    · exact h.sync_right
    · exact h.sync_left
    · exact h.sync
  have hl1 : SameLimits n1 n1' c.currentLims l' := by
    refine hl.flags ?_ ?_
    · rcases hs with rfl | rfl
      · rfl
      · exact flags_sync m
    · rcases hs' with rfl | rfl
      · rfl
      · exact flags_sync m'
  have hb : ∀ n, bounds l' n n1' = bounds c.currentLims n n1 := by
    intro n
    rcases hl1 with ⟨h1, h2⟩ | ⟨ls, ls', h1, h2, h3, h4, h5⟩
    · rw [h1, h2]
      rfl
    · rw [h1, h2, bounds_controlled _ _ _ h3, bounds_controlled _ _ _ h4, h5, ha.currents]
  simp only [call, problem, hn1, hn1', r1, r1', hr, ha.currents, hb]
  split_ifs with h0
  · exact .inl ⟨_, rfl, rfl⟩
  · cases tikhonov (specRows e c ⟨m, plasma⟩) n1.controlCurrents.length c.gamma with
    | error err => exact .inl ⟨err, rfl, rfl⟩
    | ok x0 =>
      dsimp only
      cases bounds c.currentLims n1.controlCurrents.length n1 with
      | error err => exact .inl ⟨err, rfl, rfl⟩
      | ok bs =>
        dsimp only
        split_ifs with h1
        · exact .inr ⟨_, _, _, rfl, rfl, ha.adjust _, hl1.flags (flags_adjust _ _) (flags_adjust _ _)⟩
        · exact .inr ⟨_, _, _, rfl, rfl, ha, hl1⟩

/-! ## Machines that are alike -/

/-- **C137 (idle).** A coil, circuit or solenoid without current that is not controlled can be added anywhere in the list. -/
theorem C137_idle (e : Env K) (as bs : List (String × Entry K)) (l : String) (x : Entry K) (hx : x.control = false) (h0 : x.current = 0) :
    Alike e ⟨as ++ bs⟩ ⟨as ++ (l, x) :: bs⟩ := by
  refine ⟨?_, fun q R Z => ?_, fun q R Z => ?_⟩
  · simp [Machine.controlCurrents, hx]
  · simp [Machine.controlResponse, hx]
  · simp [Machine.field_fst, h0]

/-- **C137 (replaced).** An entry can be replaced by another of the same response, current and control, under another label. -/
theorem C137_replaced (e : Env K) (as bs : List (String × Entry K)) (l l' : String) (x x' : Entry K) (hc : x'.control = x.control) (hI : x'.current = x.current)
    (hr : ∀ q R Z, x'.response e q R Z = x.response e q R Z) : Alike e ⟨as ++ (l, x) :: bs⟩ ⟨as ++ (l', x') :: bs⟩ := by
  refine ⟨?_, fun q R Z => ?_, fun q R Z => ?_⟩
  · cases hx : x.control <;> simp [Machine.controlCurrents, hx, hc, hI]
  · cases hx : x.control <;> simp [Machine.controlResponse, hx, hc, hr]
  · simp [Machine.field_fst, hI, hr]

/-- **C137 (solenoid).** A solenoid is interchangeable with a circuit of coils of one turn at the places of its turns. -/
theorem C137_solenoid (e : Env K) (as bs : List (String × Entry K)) (l l' : String) (label : K → String) (s : Solenoid K) :
    Alike e ⟨as ++ (l, .solenoid s) :: bs⟩
      ⟨as ++ (l', .circuit ⟨(linspace s.Zsmin s.Zsmax s.Ns).map fun Zs => (label Zs, .point (PointCoil.make s.Rs Zs 0), 1), s.current, s.control⟩) :: bs⟩ := by
  refine C137_replaced e as bs l l' _ _ rfl rfl fun q R Z => ?_
  simp only [Entry.response, Circuit.response_eq, Solenoid.response_eq, List.map_map, Function.comp_def]
  congr 1
  exact List.map_congr_left fun Zs _ => by simp [AnyCoil.response, PointCoil.make, PointCoil.response]

end FreeGS.Control

/-! ## Whole calculations -/

namespace FreeGS

/-- Two results: the same exception, or values that are related. -/
inductive Matched {A : Type*} (r : A → A → Prop) : Except Err A → Except Err A → Prop
  | error (err : Err) : Matched r (.error err) (.error err)
  | ok (a b : A) : r a b → Matched r (.ok a) (.ok b)

end FreeGS

namespace FreeGS.Picard

variable {K : Type*} [Field K] [LinearOrder K] {S : Type*}

/-- Two equilibria that are the same to the iteration. -/
structure Simulates (r : S → S → Prop) (e e' : Env S K) : Prop where
  psi : ∀ s s', r s s' → e'.psi s' = e.psi s
  bndry : ∀ s s', r s s' → e'.bndry s' = e.bndry s
  limited : ∀ s s', r s s' → e'.limited s' = e.limited s
  solve : ∀ s s' cl p b, r s s' → Matched r (e.solve s cl p b) (e'.solve s' cl p b)
  adjust : ∀ s s', r s s' → Matched r (e.adjust s) (e'.adjust s')

/-- The same outcome of one pass, with related equilibria. -/
inductive SameOutcome (r : S → S → Prop) : Outcome S K → Outcome S K → Prop
  | done (s s' : S) (hist) : r s s' → SameOutcome r (.done s hist) (.done s' hist)
  | more (v : Vars S K) (s' : S) : r v.eq s' → SameOutcome r (.more v) (.more { v with eq := s' })

theorem body_simulates {r : S → S → Prop} {e e' : Env S K} (h : Simulates r e e') (o : Opts K) (v : Vars S K) (s' : S) (hv : r v.eq s') :
    Matched (SameOutcome r) (body e o v) (body e' o { v with eq := s' }) := by
  have hs : Matched r
      (if ((decide (o.limitIt ≤ v.iteration) || v.hasBeenLimited) && o.checkLimited) = true then e.solve v.eq true v.psi (e.bndry v.eq)
        else e.solve v.eq false v.psi o.psiBndry)
      (if ((decide (o.limitIt ≤ v.iteration) || v.hasBeenLimited) && o.checkLimited) = true then e'.solve s' true v.psi (e'.bndry s')
        else e'.solve s' false v.psi o.psiBndry) := by
    split_ifs
    · rw [h.bndry _ _ hv]
      exact h.solve _ _ _ _ _ hv
    · exact h.solve _ _ _ _ _ hv
  simp only [body]
  revert hs
  generalize (if ((decide (o.limitIt ≤ v.iteration) || v.hasBeenLimited) && o.checkLimited) = true then e.solve v.eq true v.psi (e.bndry v.eq)
        else e.solve v.eq false v.psi o.psiBndry) = x
  generalize (if ((decide (o.limitIt ≤ v.iteration) || v.hasBeenLimited) && o.checkLimited) = true then e'.solve s' true v.psi (e'.bndry s')
        else e'.solve s' false v.psi o.psiBndry) = y
  intro hs
  cases hs with
  | error err => exact .error err
  | ok a b hab =>
    simp only [h.bndry _ _ hab, h.limited _ _ hab, h.psi _ _ hab]
    split_ifs
    · exact .ok _ _ (.done _ _ _ hab)
    · have ha := h.adjust _ _ hab
      revert ha
      generalize e.adjust a = x
      generalize e'.adjust b = y
      intro ha
      cases ha with
      | error err => exact .error err
      | ok a1 b1 h1 =>
        simp only [h.psi _ _ h1]
        cases o.maxits with
        | none => exact .ok _ _ (.more _ _ h1)
        | some m =>
          dsimp only
          split_ifs
          · exact .error _
          · exact .ok _ _ (.more _ _ h1)

/-- The results of a run, with related equilibria and the same list of changes. -/
def SameRun (r : S → S → Prop) (x y : Option (S × List (K × Option K))) : Prop :=
  (x = none ∧ y = none) ∨ ∃ s s' hist, x = some (s, hist) ∧ y = some (s', hist) ∧ r s s'

theorem loop_simulates {r : S → S → Prop} {e e' : Env S K} (h : Simulates r e e') (o : Opts K) : ∀ (fuel : ℕ) (v : Vars S K) (s' : S), r v.eq s' →
    Matched (SameRun r) (loop e o fuel v) (loop e' o fuel { v with eq := s' })
  | 0, v, s', _ => .ok _ _ (.inl ⟨rfl, rfl⟩)
  | fuel + 1, v, s', hv => by
    have hb := body_simulates h o v s' hv
    simp only [loop]
    revert hb
    generalize body e o v = x
    generalize body e' o { v with eq := s' } = y
    intro hb
    cases hb with
    | error err => exact .error err
    | ok a b hab =>
      cases hab with
      | done s s' hist hr => exact .ok _ _ (.inr ⟨s, s', hist, rfl, rfl, hr⟩)
      | more w s1 hr => exact loop_simulates h o fuel w s1 hr

theorem picard_simulates {r : S → S → Prop} {e e' : Env S K} (h : Simulates r e e') (o : Opts K) (fuel : ℕ) (s s' : S) (hs : r s s') :
    Matched (SameRun r) (picard e o fuel s) (picard e' o fuel s') := by
  have ha := h.adjust _ _ hs
  simp only [picard]
  revert ha
  generalize e.adjust s = x
  generalize e'.adjust s' = y
  intro ha
  cases ha with
  | error err => exact .error err
  | ok a b hab =>
    dsimp only
    rw [h.psi _ _ hab]
    exact loop_simulates h o fuel ⟨a, e.psi a, 0, 0, none, false, []⟩ b hab

end FreeGS.Picard

namespace FreeGS.Equil

open FreeGS.GS
open FreeGS.Control (Alike SameLimits Constrain)

universe u
variable {K : Type u} [Field K] [LinearOrder K] {C : Type u}

/-- Equilibria that differ in the machine only. -/
def Apart (r : C → C → Prop) (s s' : State C K) : Prop := r s.tokamak s'.tokamak ∧ s' = { s with tokamak := s'.tokamak }

theorem boundary_apart (e : Env C K) (s : State C K) (t : C) (ht : e.limits t = e.limits s.tokamak) (P : Arr K) :
    (∃ err, updateBoundary e s P = .error err ∧ updateBoundary e { s with tokamak := t } P = .error err) ∨
      ∃ s1, updateBoundary e s P = .ok s1 ∧ updateBoundary e { s with tokamak := t } P = .ok { s1 with tokamak := t } ∧ s1.tokamak = s.tokamak := by
  simp only [updateBoundary, ht]
  cases e.find P with
  | error err => exact .inl ⟨err, rfl, rfl⟩
  | ok r =>
    obtain ⟨opt, xpt⟩ := r
    simp only [bind, Except.bind]
    cases opt with
    | nil => exact .inr ⟨s, rfl, rfl, rfl⟩
    | cons o os =>
      dsimp only
      cases (if s.checkLimited = true then e.limits s.tokamak else none) with
      | some pts =>
        dsimp only
        cases limiterContact e P (keptPoints xpt pts) with
        | error err => exact .inl ⟨err, rfl, rfl⟩
        | ok q =>
          dsimp only
          cases xpt with
          | nil => exact .inr ⟨_, rfl, rfl, rfl⟩
          | cons x xs =>
            dsimp only
            cases e.core P (o :: os) (x :: xs) (some (max x.2.2 q.2)) with
            | error err => exact .inl ⟨err, rfl, rfl⟩
            | ok m => exact .inr ⟨_, rfl, rfl, rfl⟩
      | none =>
        cases xpt with
        | nil => exact .inr ⟨_, rfl, rfl, rfl⟩
        | cons x xs =>
          dsimp only
          cases e.core P (o :: os) (x :: xs) none with
          | error err => exact .inl ⟨err, rfl, rfl⟩
          | ok m => exact .inr ⟨_, rfl, rfl, rfl⟩

/-- Profiles that do not see which of two machines it is. -/
def Blind (r : C → C → Prop) (profiles : Profiles C K) : Prop := ∀ s t P b, r s.tokamak t →
  (∃ err, profiles s P b = .error err ∧ profiles { s with tokamak := t } P b = .error err) ∨
    ∃ s1 J, profiles s P b = .ok (s1, J) ∧ profiles { s with tokamak := t } P b = .ok ({ s1 with tokamak := t }, J) ∧ s1.tokamak = s.tokamak

theorem paxis_blind (quad : (K → K) → K → K → K) (pow : K → K → K) (e : Env C K) (p : Jtor.Params K) (paxis : K) (r : C → C → Prop)
    (hr : ∀ t t', r t t' → e.limits t' = e.limits t) : Blind r (paxisProfiles quad pow e p paxis) := by
  intro s t P b h
  simp only [paxisProfiles]
  rcases boundary_apart e s t (hr _ _ h) P with ⟨err, h1, h2⟩ | ⟨s1, h1, h2, h3⟩
  · exact .inl ⟨err, by rw [h1]; rfl, by rw [h2]; rfl⟩
  · rw [h1, h2]
    simp only [bind, Except.bind]
    cases e.find P with
    | error err => exact .inl ⟨err, rfl, rfl⟩
    | ok q =>
      dsimp only
      cases Jtor.paxisJtor quad pow e.nx e.ny e.R e.Z p paxis q.1 q.2 (e.core P q.1 q.2) s1.psiBndry P b with
      | error err => exact .inl ⟨err, rfl, rfl⟩
      | ok w => exact .inr ⟨_, _, rfl, rfl, h3⟩

theorem betap_blind (quad : (K → K) → K → K → K) (pow : K → K → K) (e : Env C K) (field : State C K → Arr K × Arr K) (p : Jtor.Params K) (betap : K)
    (r : C → C → Prop) (hr : ∀ t t', r t t' → e.limits t' = e.limits t) (hf : ∀ s t, r s.tokamak t → field { s with tokamak := t } = field s) :
    Blind r (betapProfiles quad pow e field p betap) := by
  intro s t P b h
  simp only [betapProfiles]
  rcases boundary_apart e s t (hr _ _ h) P with ⟨err, h1, h2⟩ | ⟨s1, h1, h2, h3⟩
  · exact .inl ⟨err, by rw [h1]; rfl, by rw [h2]; rfl⟩
  · rw [h1, h2]
    simp only [bind, Except.bind, hf s1 t (h3 ▸ h)]
    cases e.find P with
    | error err => exact .inl ⟨err, rfl, rfl⟩
    | ok q =>
      dsimp only
      cases Jtor.betapJtor quad pow e.mu0 e.nx e.ny e.R e.Z p betap q.1 q.2 (e.core P q.1 q.2) s1.psiBndry (field s1).1 (field s1).2 P b with
      | error err => exact .inl ⟨err, rfl, rfl⟩
      | ok w => exact .inr ⟨_, _, rfl, rfl, h3⟩

theorem given_blind (e : Env C K) (g : Jtor.Given K) (r : C → C → Prop) : Blind r (givenProfiles e g) := by
  intro s t P b _
  simp only [givenProfiles, bind, Except.bind]
  cases e.find P with
  | error err => exact .inl ⟨err, rfl, rfl⟩
  | ok q =>
    dsimp only
    cases Jtor.givenJtor e.mu0 e.nx e.R g q.1 q.2 (e.core P q.1 q.2) P b with
    | error err => exact .inl ⟨err, rfl, rfl⟩
    | ok w => exact .inr ⟨_, _, rfl, rfl, rfl⟩

theorem solve_apart (e : Env C K) (profiles : Profiles C K) (r : C → C → Prop) (hr : ∀ t t', r t t' → e.limits t' = e.limits t ∧ e.coilPsi t' = e.coilPsi t)
    (hp : Blind r profiles) (s : State C K) (t : C) (h : r s.tokamak t) (psi0 : Option (Arr K)) (b : Option K) :
    Matched (Apart r) (solve e profiles s none psi0 b) (solve e profiles { s with tokamak := t } none psi0 b) := by
  have hpsi : ∀ s1 : State C K, s1.tokamak = s.tokamak → psi e { s1 with tokamak := t } = psi e s1 := by
    intro s1 h1
    funext c
    simp only [psi, (hr _ _ h).2, h1]
  simp only [solve, density, hpsi s rfl]
  rcases boundary_apart e s t (hr _ _ h).1 (psi e s) with ⟨err, h1, h2⟩ | ⟨s1, h1, h2, h3⟩
  · rw [h1, h2]
    exact .error err
  · rw [h1, h2]
    simp only [bind, Except.bind, hpsi s1 h3]
    rcases hp s1 t (psi0.getD (psi e s1)) b (h3 ▸ h) with ⟨err, h4, h5⟩ | ⟨s2, J, h4, h5, h6⟩
    · rw [h4, h5]
      exact .error err
    · rw [h4, h5]
      dsimp only
      cases e.boundary J s2.plasmaPsi with
      | error err => exact .error err
      | ok edge =>
        dsimp only
        have h7 : s2.tokamak = s.tokamak := h6.trans h3
        set sol := e.solver edge (setEdge e.nx e.ny (fun c => -e.mu0 * e.R c.1 * J c) edge) with hsol
        have key := boundary_apart e { s2 with plasmaPsi := sol, spline := sol } t (by rw [h7]; exact (hr _ _ h).1) (psi e { s2 with plasmaPsi := sol, spline := sol })
        have hq := hpsi { s2 with plasmaPsi := sol, spline := sol } h7
        dsimp only at key hq
        simp only [updatePlasmaPsi, hq]
        rcases key with ⟨err, k1, k2⟩ | ⟨s3, k1, k2, k3⟩
        · rw [k1, k2]
          exact .error err
        · rw [k1, k2]
          dsimp only
          cases Jtor.integrate e.nx e.ny e.R e.Z J with
          | error err => exact .error err
          | ok I => exact .ok _ _ ⟨by dsimp only at k3 ⊢; rw [k3, h7]; exact h, rfl⟩

/-- Coil control of an equilibrium with a machine: `constrain(eq)` with the field of the plasma from its flux (control.py:68-194). -/
def controlled (env : FreeGS.Env K) (opt : Control.Problem K → List K) (c : Constrain K) (plasma : Arr K → Quantity → K → K → K)
    (s : State (Machine K) K) : Except Err (State (Machine K) K) :=
  match Control.call env opt c ⟨s.tokamak, plasma s.spline⟩ with
  | .error err => .error err
  | .ok r => .ok { s with tokamak := r.2.machine }

/-- **C137 (run).** A calculation with a machine, and the same calculation with a machine that is alike, with or without coil control: the same exception, the same list
of changes, and equilibria that differ in the machine only; the machines are alike at the end. The flux of the coils on the grid is `psi` of the machine, the limiter
points are those of the wall, which both have. -/
theorem C137_run (env : FreeGS.Env K) (e : Env (Machine K) K) (hcoil : ∀ t c, e.coilPsi t c = (t.field env .psi (e.R c.1) (e.Z c.2)).1)
    (hwall : ∀ t t', e.limits t' = e.limits t) (quad : (K → K) → K → K → K) (pow : K → K → K) (field : State (Machine K) K → Arr K × Arr K)
    (hfield : ∀ s t, Alike env s.tokamak t → field { s with tokamak := t } = field s) (p : Jtor.Params K) (target : K) (g : Jtor.Given K)
    (profiles : Profiles (Machine K) K)
    (hp : profiles = paxisProfiles quad pow e p target ∨ profiles = betapProfiles quad pow e field p target ∨ profiles = givenProfiles e g)
    (opt : Control.Problem K → List K) (c : Option (Constrain K)) (l' : Option (List (K × K))) (plasma : Arr K → Quantity → K → K → K)
    (o : Picard.Opts K) (fuel : ℕ) (s : State (Machine K) K) (t : Machine K) (h : Alike env s.tokamak t)
    (hl : ∀ c', c = some c' → SameLimits s.tokamak t c'.currentLims l') :
    Matched (Picard.SameRun (Apart (Alike env)))
      (Picard.picard (picardEnv e profiles (c.map fun c => controlled env opt c plasma)) o fuel s)
      (Picard.picard (picardEnv e profiles (c.map fun c => controlled env opt { c with currentLims := l' } plasma)) o fuel { s with tokamak := t }) := by
  have hpsi : ∀ t t', Alike env t t' → e.coilPsi t' = e.coilPsi t := by
    intro t t' h
    funext x
    rw [hcoil, hcoil, h.field]
  let r : Machine K → Machine K → Prop := fun t t' => Alike env t t' ∧ ∀ c', c = some c' → SameLimits t t' c'.currentLims l'
  have hb : Blind r profiles := by
    rcases hp with rfl | rfl | rfl
    · exact paxis_blind quad pow e p target _ fun t t' _ => hwall t t'
    · exact betap_blind quad pow e field p target _ (fun t t' _ => hwall t t') fun s t h => hfield s t h.1
    · exact given_blind e g _
  have key : Picard.Simulates (Apart r) (picardEnv e profiles (c.map fun c => controlled env opt c plasma))
      (picardEnv e profiles (c.map fun c => controlled env opt { c with currentLims := l' } plasma)) := by
    refine ⟨?_, ?_, ?_, ?_, ?_⟩
    · rintro s s' ⟨h1, h2⟩
      rw [h2]
      simp only [picardEnv]
      congr 1
      funext x
      simp only [psi, hpsi _ _ h1.1]
    · rintro s s' ⟨h1, h2⟩
      rw [h2]
      rfl
    · rintro s s' ⟨h1, h2⟩
      rw [h2]
      rfl
    · rintro s s' cl q b ⟨h1, h2⟩
      rw [h2]
      exact solve_apart e profiles r (fun t t' h => ⟨hwall t t', hpsi t t' h.1⟩) hb { s with checkLimited := cl } s'.tokamak h1 _ b
    · rintro s s' ⟨h1, h2⟩
      rw [h2]
      cases c with
      | none => exact .ok _ _ ⟨h1, rfl⟩
      | some c =>
        simp only [picardEnv, Picard.Env.adjust, Option.map_some, controlled]
        rcases Control.C137_control env opt c l' s.tokamak s'.tokamak (plasma s.spline) h1.1 (h1.2 c rfl) with ⟨err, k1, k2⟩ | ⟨x, m1, m1', k1, k2, k3, k4⟩
        · rw [k1, k2]
          exact .error err
        · rw [k1, k2]
          exact .ok _ _ ⟨⟨k3, fun c' hc' => by cases hc'; exact k4⟩, rfl⟩
  have fin := Picard.picard_simulates key o fuel s { s with tokamak := t } ⟨⟨h, hl⟩, rfl⟩
  revert fin
  generalize Picard.picard (picardEnv e profiles (c.map fun c => controlled env opt c plasma)) o fuel s = x
  generalize Picard.picard (picardEnv e profiles (c.map fun c => controlled env opt { c with currentLims := l' } plasma)) o fuel { s with tokamak := t } = y
  intro fin
  cases fin with
  | error err => exact .error err
  | ok a b hab =>
    refine .ok a b ?_
    rcases hab with hab | ⟨s1, s2, hist, h1, h2, h3⟩
    · exact .inl hab
    · exact .inr ⟨s1, s2, hist, h1, h2, h3.1.1, h3.2⟩

/-- One controlled coil; and the same with a solenoid that is not used in front of it. -/
def plainMachine : Machine ℚ := ⟨[("A", .coil (.point (PointCoil.make 1 0 3)))]⟩

def idleMachine : Machine ℚ := ⟨("S", .solenoid ⟨2, -1, 1, 4, 0, false⟩) :: plainMachine.coils⟩

/-- A grid of 3 by 3 points with these machines. -/
def gridOf (env : FreeGS.Env ℚ) : Env (Machine ℚ) ℚ :=
  { mu0 := 1, nx := 3, ny := 3, R := fun i => i + 1, Z := fun j => j - 1, coilPsi := fun t c => (t.field env .psi (c.1 + 1) (c.2 - 1)).1, limits := fun _ => none,
    find := fun _ => .ok ([(2, 0, 50)], [(2, -1, 5)]), core := fun _ _ _ _ => .ok fun _ => 1, interp := fun a _ _ => a (1, 1), fixed := false,
    boundary := fun _ p => .ok p, solver := fun _ b => b }

/-- The runs with both machines and coil control converge: the limit for the solenoid is only in the second list. -/
example : Alike exEnv plainMachine idleMachine ∧ SameLimits plainMachine idleMachine (some [(-100, 100)]) (some [(0, 1), (-100, 100)]) ∧
    (∀ t c, (gridOf exEnv).coilPsi t c = (t.field exEnv .psi ((gridOf exEnv).R c.1) ((gridOf exEnv).Z c.2)).1) ∧
    ∃ opt : Control.Problem ℚ → List ℚ, [(plainMachine, [((-100 : ℚ), (100 : ℚ))]), (idleMachine, [(0, 1), (-100, 100)])].map (fun q =>
      ((Picard.picard (picardEnv (gridOf exEnv) (givenProfiles (gridOf exEnv) ⟨fun _ => 1, fun _ => 0, 1, none, none⟩)
        (some (controlled exEnv opt { gamma := 0, psivals := [(1, 0, 7)], currentLims := some q.2 } fun _ _ _ _ => 1))) ⟨1 / 10, 1 / 10, 0, none, none, false, false, 0⟩ 4
        ⟨q.1, fun _ => 0, fun _ => 0, 0, none, false, none, none, none, none, none, false, none⟩).toOption.map fun r => r.map fun r => r.1.tokamak.controlCurrents)) =
      [some (some [6 / exEnv.G .psi 1 0 1 0]), some (some [6 / exEnv.G .psi 1 0 1 0])] := by
  refine ⟨Control.C137_idle exEnv [] plainMachine.coils "S" _ rfl rfl, .inr ⟨_, _, rfl, rfl, rfl, rfl, rfl⟩, fun _ _ => rfl, fun p => p.x0, by decide +kernel⟩

end FreeGS.Equil
