import Verif.Spec.Translation
import Verif.Lemmas.Scaling
import Verif.Lemmas.Control

/-!
# Lemmas about raised equilibria
-/

set_option linter.unusedSectionVars false

namespace FreeGS

variable {K : Type*} [Field K] [LinearOrder K]

theorem AnyCoil.response_raise {e : Env K} (hG : ∀ q, SameAtAllHeights (e.G q)) (d : K) (q : Quantity) (R Z : K) (c : AnyCoil K)
    (hc : c.Movable) : (c.raise d).response e q R (Z + d) = c.response e q R Z := by
  cases c with
  | point c => simp only [raise, setZ, AnyCoil.Z, response, PointCoil.response, hG q _ _ _ _ d]
  | shaped c =>
    simp only [raise, setZ, AnyCoil.Z, response, ShapedCoil.setZ, ShapedCoil.response, List.map_map, Function.comp_def, add_sub_cancel_left,
      hG q _ _ _ _ d]
  | filament c =>
    simp only [raise, setZ, AnyCoil.Z, response, FilamentCoil.setZ, FilamentCoil.response, List.map_map, Function.comp_def,
      add_sub_cancel_left, hG q _ _ _ _ d]
  | multi c =>
    have hm : c.mirror = false := hc
    simp only [raise, setZ, AnyCoil.Z, response, MultiCoil.setZ, MultiCoil.response, add_sub_cancel_left, hm, List.zip_map_right, List.map_map,
      Function.comp_def, Bool.false_eq_true, if_false, Prod.map_fst, Prod.map_snd, id_eq, hG q _ _ _ _ d]
  | precalc c => exact hc.elim

theorem AnyCoil.setCurrent_raise (d v : K) (c : AnyCoil K) : (c.raise d).setCurrent v = (c.setCurrent v).raise d := by
  cases c <;> rfl

theorem AnyCoil.movable_setCurrent (v : K) (c : AnyCoil K) : (c.setCurrent v).Movable ↔ c.Movable := by
  cases c <;> rfl

theorem AnyCoil.current_raise (d : K) (c : AnyCoil K) : (c.raise d).current = c.current := by
  cases c <;> rfl

theorem Circuit.fieldLoop_raise {e : Env K} (hG : ∀ q, SameAtAllHeights (e.G q)) (d : K) (q : Quantity) (R Z I : K) :
    ∀ (l : List (String × AnyCoil K × K)) (acc : K), (∀ y ∈ l, y.2.1.Movable) →
      fieldLoop e q R (Z + d) I acc (l.map fun y => (y.1, y.2.1.raise d, y.2.2)) =
        ((fieldLoop e q R Z I acc l).1, (fieldLoop e q R Z I acc l).2.map fun y => (y.1, y.2.1.raise d, y.2.2))
  | [], _, _ => rfl
  | (s, c, m) :: l, acc, h => by
    have hc := (AnyCoil.movable_setCurrent (I * m) c).2 (h (s, c, m) (by simp))
    have hf : ((c.raise d).setCurrent (I * m)).field e q R (Z + d) = (c.setCurrent (I * m)).field e q R Z := by
      rw [AnyCoil.setCurrent_raise, AnyCoil.field, AnyCoil.response_raise hG _ _ _ _ _ hc, AnyCoil.current_raise]
      rfl
    simp only [List.map_cons, fieldLoop, hf]
    rw [fieldLoop_raise hG d q R Z I l _ fun y hy => h y (by simp [hy])]
    simp only [List.map_cons, AnyCoil.setCurrent_raise]

theorem linspace_raise (a b d : K) (n : ℕ) : linspace (a + d) (b + d) n = (linspace a b n).map (· + d) := by
  unfold linspace
  split
  · rfl
  · rw [List.map_map]
    refine List.map_congr_left fun i _ => ?_
    simp only [Function.comp_def]
    ring

theorem Solenoid.response_raise {e : Env K} (hG : ∀ q, SameAtAllHeights (e.G q)) (d : K) (q : Quantity) (R Z : K) (s : Solenoid K) :
    ({ s with Zsmin := s.Zsmin + d, Zsmax := s.Zsmax + d } : Solenoid K).response e q R (Z + d) = s.response e q R Z := by
  simp only [response, linspace_raise, List.foldl_map, hG q _ _ _ _ d]

theorem Entry.field_raise {e : Env K} (hG : ∀ q, SameAtAllHeights (e.G q)) (d : K) (q : Quantity) (R Z : K) (x : Entry K)
    (hx : match x with
      | .coil c => c.Movable
      | .circuit k => ∀ y ∈ k.coils, y.2.1.Movable
      | .solenoid _ => True) :
    (x.raise d).field e q R (Z + d) = ((x.field e q R Z).1, (x.field e q R Z).2.raise d) := by
  cases x with
  | coil c =>
    have hx : c.Movable := hx
    simp only [raise, field, AnyCoil.field, AnyCoil.response_raise hG _ _ _ _ _ hx, AnyCoil.current_raise]
  | circuit k =>
    simp only [raise, field, Circuit.field, Circuit.fieldLoop_raise hG d q R Z _ k.coils 0 hx]
  | solenoid s =>
    simp only [raise, field, Solenoid.field, Solenoid.response_raise hG]

theorem Entry.response_raise {e : Env K} (hG : ∀ q, SameAtAllHeights (e.G q)) (d : K) (q : Quantity) (R Z : K) (x : Entry K)
    (hx : match x with
      | .coil c => c.Movable
      | .circuit k => ∀ y ∈ k.coils, y.2.1.Movable
      | .solenoid _ => True) :
    (x.raise d).response e q R (Z + d) = x.response e q R Z := by
  cases x with
  | coil c => exact AnyCoil.response_raise hG d q R Z c hx
  | circuit k =>
    have : ∀ (l : List (String × AnyCoil K × K)) (acc : K), (∀ y ∈ l, y.2.1.Movable) →
        (l.map fun y => (y.1, y.2.1.raise d, y.2.2)).foldl (fun acc x => acc + x.2.2 * x.2.1.response e q R (Z + d)) acc =
          l.foldl (fun acc x => acc + x.2.2 * x.2.1.response e q R Z) acc := by
      intro l
      induction l with
      | nil => intro acc _; rfl
      | cons y l ih =>
        intro acc h
        simp only [List.map_cons, List.foldl_cons, AnyCoil.response_raise hG d q R Z y.2.1 (h y (by simp))]
        exact ih _ fun y hy => h y (by simp [hy])
    exact this k.coils 0 hx
  | solenoid s => exact Solenoid.response_raise hG d q R Z s

theorem Machine.fieldLoop_raise {e : Env K} (hG : ∀ q, SameAtAllHeights (e.G q)) (d : K) (q : Quantity) (R Z : K) :
    ∀ (l : List (String × Entry K)) (acc : K), (Machine.mk l).Movable →
      fieldLoop e q R (Z + d) acc (l.map fun x => (x.1, x.2.raise d)) =
        ((fieldLoop e q R Z acc l).1, (fieldLoop e q R Z acc l).2.map fun x => (x.1, x.2.raise d))
  | [], _, _ => rfl
  | (s, x) :: l, acc, h => by
    have hx := h (s, x) (by simp)
    simp only [List.map_cons, fieldLoop, Entry.field_raise hG d q R Z x hx]
    rw [fieldLoop_raise hG d q R Z l _ fun y hy => h y (by simp_all)]

theorem Machine.field_raise {e : Env K} (hG : ∀ q, SameAtAllHeights (e.G q)) (d : K) (q : Quantity) (R Z : K) (m : Machine K)
    (hm : m.Movable) : (m.raise d).field e q R (Z + d) = ((m.field e q R Z).1, (m.field e q R Z).2.raise d) := by
  obtain ⟨l⟩ := m
  simp only [field, raise, fieldLoop_raise hG d q R Z l 0 hm]

theorem Entry.control_raise (d : K) (x : Entry K) : (x.raise d).control = x.control := by
  cases x with
  | coil c => cases c <;> rfl
  | _ => rfl

theorem Entry.current_raise (d : K) (x : Entry K) : (x.raise d).current = x.current := by
  cases x with
  | coil c => cases c <;> rfl
  | _ => rfl

theorem Entry.setCurrent_raise (d v : K) (x : Entry K) : (x.raise d).setCurrent v = (x.setCurrent v).raise d := by
  cases x with
  | coil c => cases c <;> rfl
  | circuit k => simp only [raise, setCurrent, Circuit.setCurrent, List.map_map, Function.comp_def, AnyCoil.setCurrent_raise]
  | solenoid s => rfl

theorem Machine.controlResponse_raise {e : Env K} (hG : ∀ q, SameAtAllHeights (e.G q)) (d : K) (q : Quantity) (R Z : K) (m : Machine K)
    (hm : m.Movable) : (m.raise d).controlResponse e q R (Z + d) = m.controlResponse e q R Z := by
  simp only [controlResponse, raise, List.filter_map, Function.comp_def, Entry.control_raise, List.map_map]
  exact List.map_congr_left fun x hx => Entry.response_raise hG d q R Z x.2 (hm x (List.mem_of_mem_filter hx))

theorem Machine.controlCurrents_raise (d : K) (m : Machine K) : (m.raise d).controlCurrents = m.controlCurrents := by
  simp only [controlCurrents, raise, List.filter_map, Function.comp_def, Entry.control_raise, List.map_map, Entry.current_raise]

theorem Machine.zipControl_raise (f : K → K → K) (d : K) : ∀ (l : List (String × Entry K)) (v : List K),
    zipControl f (l.map fun x => (x.1, x.2.raise d)) v = (zipControl f l v).map fun x => (x.1, x.2.raise d)
  | [], _ => rfl
  | (s, x) :: l, v => by
    simp only [List.map_cons, zipControl, Entry.control_raise]
    cases x.control with
    | false => simp only [zipControl_raise f d l v, List.map_cons]
    | true =>
      cases v with
      | nil => rfl
      | cons a v => simp only [zipControl_raise f d l v, List.map_cons, Entry.current_raise, Entry.setCurrent_raise]

theorem Machine.movable_sync {m : Machine K} (hm : m.Movable) : m.sync.Movable := by
  intro x hx
  simp only [Machine.sync, List.mem_map] at hx
  obtain ⟨y, hy, rfl⟩ := hx
  have := hm y hy
  obtain ⟨s, y⟩ := y
  cases y with
  | coil c => exact this
  | solenoid s => trivial
  | circuit k =>
    simp only at this ⊢
    intro z hz
    simp only [Circuit.sync, List.mem_map] at hz
    obtain ⟨w, hw, rfl⟩ := hz
    exact (AnyCoil.movable_setCurrent _ _).2 (this w hw)

end FreeGS

namespace FreeGS.Control

variable {K : Type*} [Field K] [LinearOrder K]

theorem field_raise {e : Env K} (hG : ∀ q, SameAtAllHeights (e.G q)) (d : K) (q : Quantity) (R Z : K) (eq : Eq K) (hm : eq.machine.Movable) :
    (eq.raise d).field e q R (Z + d) = ((eq.field e q R Z).1, (eq.field e q R Z).2.raise d) := by
  simp only [Eq.field, Eq.raise, Machine.field_raise hG d q R Z _ hm, add_sub_cancel_right]

theorem movable_field {e : Env K} {q : Quantity} {R Z : K} {eq : Eq K} (hm : eq.machine.Movable) : (eq.field e q R Z).2.machine.Movable := by
  have : (eq.field e q R Z).2.machine = eq.machine.sync := Machine.field_snd e q R Z eq.machine
  rw [this]
  exact Machine.movable_sync hm

theorem xpointRows_raise {e : Env K} (hG : ∀ q, SameAtAllHeights (e.G q)) (d : K) : ∀ (l : List (K × K)) (eq : Eq K), eq.machine.Movable →
    xpointRows e (l.map fun p => (p.1, p.2 + d)) (eq.raise d) = ((xpointRows e l eq).1, (xpointRows e l eq).2.raise d) ∧
      (xpointRows e l eq).2.machine.Movable
  | [], eq, h => ⟨rfl, h⟩
  | p :: l, eq, h => by
    have h1 := movable_field (e := e) (q := .br) (R := p.1) (Z := p.2) h
    have h2 := movable_field (e := e) (q := .bz) (R := p.1) (Z := p.2) h1
    obtain ⟨h3, h4⟩ := xpointRows_raise hG d l _ h2
    have e1 : ∀ eq : Eq K, (eq.raise d).machine = eq.machine.raise d := fun _ => rfl
    simp only [List.map_cons, xpointRows, field_raise hG d _ _ _ _ h, field_raise hG d _ _ _ _ h1, h3, e1,
      Machine.controlResponse_raise hG d _ _ _ _ h1, Machine.controlResponse_raise hG d _ _ _ _ h2]
    exact ⟨trivial, h4⟩

theorem isofluxRows_raise {e : Env K} (hG : ∀ q, SameAtAllHeights (e.G q)) (d : K) : ∀ (l : List (K × K × K × K)) (eq : Eq K),
    eq.machine.Movable →
    isofluxRows e (l.map fun p => (p.1, p.2.1 + d, p.2.2.1, p.2.2.2 + d)) (eq.raise d) =
      ((isofluxRows e l eq).1, (isofluxRows e l eq).2.raise d) ∧ (isofluxRows e l eq).2.machine.Movable
  | [], eq, h => ⟨rfl, h⟩
  | (r1, z1, r2, z2) :: l, eq, h => by
    have h1 := movable_field (e := e) (q := .psi) (R := r1) (Z := z1) h
    have h2 := movable_field (e := e) (q := .psi) (R := r2) (Z := z2) h1
    obtain ⟨h3, h4⟩ := isofluxRows_raise hG d l _ h2
    have e1 : ∀ eq : Eq K, (eq.raise d).machine = eq.machine.raise d := fun _ => rfl
    simp only [List.map_cons, isofluxRows, field_raise hG d _ _ _ _ h, field_raise hG d _ _ _ _ h1, h3, e1,
      Machine.controlResponse_raise hG d _ _ _ _ h2]
    exact ⟨trivial, h4⟩

theorem psivalRows_raise {e : Env K} (hG : ∀ q, SameAtAllHeights (e.G q)) (d : K) : ∀ (l : List (K × K × K)) (eq : Eq K),
    eq.machine.Movable →
    psivalRows e (l.map fun p => (p.1, p.2.1 + d, p.2.2)) (eq.raise d) = ((psivalRows e l eq).1, (psivalRows e l eq).2.raise d) ∧
      (psivalRows e l eq).2.machine.Movable
  | [], eq, h => ⟨rfl, h⟩
  | (r, z, v) :: l, eq, h => by
    have h1 := movable_field (e := e) (q := .psi) (R := r) (Z := z) h
    obtain ⟨h3, h4⟩ := psivalRows_raise hG d l _ h1
    have e1 : ∀ eq : Eq K, (eq.raise d).machine = eq.machine.raise d := fun _ => rfl
    simp only [List.map_cons, psivalRows, field_raise hG d _ _ _ _ h, h3, e1, Machine.controlResponse_raise hG d _ _ _ _ h1]
    exact ⟨trivial, h4⟩

theorem rows_raise {e : Env K} (hG : ∀ q, SameAtAllHeights (e.G q)) (d : K) (c : Constrain K) (eq : Eq K) (h : eq.machine.Movable) :
    rows e (c.raise d) (eq.raise d) = ((rows e c eq).1, (rows e c eq).2.raise d) ∧ (rows e c eq).2.machine.Movable := by
  obtain ⟨h1, m1⟩ := xpointRows_raise hG d c.xpoints eq h
  obtain ⟨h2, m2⟩ := isofluxRows_raise hG d c.isoflux _ m1
  obtain ⟨h3, m3⟩ := psivalRows_raise hG d c.psivals _ m2
  refine ⟨?_, m3⟩
  simp only [rows, Constrain.raise, h1, h2, h3]

theorem bounds_raise (d : K) (lims : Option (List (K × K))) (n : ℕ) (m : Machine K) : bounds lims n (m.raise d) = bounds lims n m := by
  cases lims with
  | none => rfl
  | some ls =>
    simp only [bounds, Machine.raise, List.length_map, List.zip_map_left, List.filterMap_map, Function.comp_def, Prod.map_fst, Prod.map_snd,
      id_eq, Entry.control_raise, Entry.current_raise]

theorem problem_raise {e : Env K} (hG : ∀ q, SameAtAllHeights (e.G q)) (d : K) (c : Constrain K) (eq : Eq K) (h : eq.machine.Movable) :
    problem e (c.raise d) (eq.raise d) = (problem e c eq).map fun r => (r.1, r.2.raise d) := by
  obtain ⟨h1, -⟩ := rows_raise hG d c eq h
  have e1 : ∀ eq : Eq K, (eq.raise d).machine = eq.machine.raise d := fun _ => rfl
  simp only [problem, h1, e1, Machine.controlCurrents_raise, bounds_raise]
  split
  · rfl
  · show (match tikhonov _ _ c.gamma with | .error err => _ | .ok x0 => _) = _
    cases tikhonov (rows e c eq).1 (rows e c eq).2.machine.controlCurrents.length c.gamma with
    | error err => rfl
    | ok x0 =>
      show (match bounds c.currentLims _ _ with | .error err => _ | .ok bs => _) = _
      cases bounds c.currentLims (rows e c eq).2.machine.controlCurrents.length (rows e c eq).2.machine with
      | error err => rfl
      | ok bs => rfl

end FreeGS.Control

namespace FreeGS.Equil

open FreeGS.GS FreeGS.Critical FreeGS.Jtor

universe u
variable {K : Type u} [Field K] [LinearOrder K] [IsStrictOrderedRing K] {C : Type u}

theorem argmaxLoop_raise {d : K} {f g : K × K → K} (h : ∀ q, g (q.1, q.2 + d) = f q) : ∀ l b,
    argmaxLoop g (l.map fun q => (q.1, q.2 + d)) (b.1, b.2 + d) = ((argmaxLoop f l b).1, (argmaxLoop f l b).2 + d)
  | [], _ => rfl
  | q :: l, b => by
    simp only [List.map_cons, argmaxLoop, h]
    rw [← argmaxLoop_raise h l]
    split <;> rfl

theorem limiterContact_raise {d : K} {tok : C → C} {e e' : Env C K} (hs : Raises d tok e e') (P : Arr K) (pts : List (K × K)) :
    limiterContact e' P (pts.map fun q => (q.1, q.2 + d)) = (limiterContact e P pts).map fun r => ((r.1.1, r.1.2 + d), r.2) := by
  simp only [limiterContact, hs.nx, hs.ny]
  split
  · rfl
  · cases pts with
    | nil => rfl
    | cons q l =>
      have := argmaxLoop_raise (d := d) (f := fun q : K × K => e.interp (transpose P) q.1 q.2)
        (g := fun q : K × K => e'.interp (transpose P) q.1 q.2) (fun q => hs.interp _ _ _) l q
      simp only [List.map_cons, this, Except.map, hs.interp]

theorem updateBoundary_raise {d : K} {tok : C → C} {e e' : Env C K} (hs : Raises d tok e e') (s : State C K) (P : Arr K)
    (hn : NoHeight e s.checkLimited) :
    updateBoundary e' (raised d tok s) P = (updateBoundary e s P).map (raised d tok) ∧
      ∀ s', updateBoundary e s P = .ok s' → s'.checkLimited = s.checkLimited := by
  simp only [updateBoundary, hs.find]
  cases hf : e.find P with
  | error err => exact ⟨rfl, fun _ h => by cases h⟩
  | ok r =>
    obtain ⟨opt, xpt⟩ := r
    simp only [Except.map, bind, Except.bind]
    cases opt with
    | nil => exact ⟨rfl, fun _ h => by cases h; rfl⟩
    | cons o os =>
      have hl : (if (raised d tok s).checkLimited = true then e'.limits (raised d tok s).tokamak else none) =
          (if s.checkLimited = true then e.limits s.tokamak else none).map fun l => l.map fun q => (q.1, q.2 + d) := by
        simp only [raised, hs.limits]
        split <;> rfl
      simp only [List.map_cons, hl]
      cases hlim : (if s.checkLimited = true then e.limits s.tokamak else none) with
      | some pts =>
        have hx : xpt = [] := by
          rcases hn with h | h | h
          · simp [h] at hlim
          · simp [h] at hlim
          · exact h _ _ _ hf
        subst hx
        simp only [Option.map_some, List.map_nil, keptPoints, limiterContact_raise hs]
        cases limiterContact e P pts with
        | error err => exact ⟨rfl, fun _ h => by cases h⟩
        | ok r => exact ⟨rfl, fun _ h => by cases h; rfl⟩
      | none =>
        cases xpt with
        | nil =>
          simp only [Option.map_none, List.map_nil, hs.fixed]
          exact ⟨rfl, fun _ h => by cases h; rfl⟩
        | cons x xs =>
          have hc := hs.core P (o :: os) (x :: xs) none
          simp only [List.map_cons] at hc
          simp only [Option.map_none, List.map_cons, hc]
          cases e.core P (o :: os) (x :: xs) none with
          | error err => exact ⟨rfl, fun _ h => by cases h⟩
          | ok m => exact ⟨rfl, fun _ h => by cases h; rfl⟩

theorem psi_raise {d : K} {tok : C → C} {e e' : Env C K} (hs : Raises d tok e e') (s : State C K) : psi e' (raised d tok s) = psi e s := by
  funext c
  show s.plasmaPsi c + e'.coilPsi (tok s.tokamak) c = _
  rw [hs.coils]
  rfl

theorem integrate_raise {d : K} {nx ny : ℕ} {R Z Z' : ℕ → K} (hZ : ∀ j, Z' j = Z j + d) (a : Arr K) :
    integrate nx ny R Z' a = integrate nx ny R Z a := by
  simp only [integrate, hZ, add_sub_add_right_eq_sub]

theorem solve_raise {d : K} {tok : C → C} {e e' : Env C K} (hs : Raises d tok e e') {profiles profiles' : Profiles C K}
    (hp : ProfilesRaise d tok e profiles profiles') (s : State C K) (given psi0 : Option (Arr K)) (b : Option K)
    (hn : NoHeight e s.checkLimited) :
    solve e' profiles' (raised d tok s) given psi0 b = (solve e profiles s given psi0 b).map (raised d tok) := by
  obtain ⟨u1, c1⟩ := updateBoundary_raise hs s (psi e s) hn
  simp only [solve, psi_raise hs, u1]
  cases h1 : updateBoundary e s (psi e s) with
  | error err => rfl
  | ok s1 =>
    have hn1 : NoHeight e s1.checkLimited := by rw [c1 _ h1]; exact hn
    have hd : density e' profiles' (raised d tok s1) given psi0 b =
        (density e profiles s1 given psi0 b).map (fun r => (raised d tok r.1, r.2)) ∧
        ∀ s2 J, density e profiles s1 given psi0 b = .ok (s2, J) → s2.checkLimited = s1.checkLimited := by
      cases given with
      | some J => exact ⟨rfl, fun _ _ h => by cases h; rfl⟩
      | none =>
        simp only [density, psi_raise hs]
        exact hp s1 _ b hn1
    simp only [Except.map, bind, Except.bind, hd.1]
    cases h2 : density e profiles s1 given psi0 b with
    | error err => rfl
    | ok r =>
      obtain ⟨s2, J⟩ := r
      have hn2 : NoHeight e s2.checkLimited := by rw [hd.2 _ _ h2]; exact hn1
      have e1 : (raised d tok s2).plasmaPsi = s2.plasmaPsi := rfl
      simp only [Except.map, e1, hs.boundary]
      cases e.boundary J s2.plasmaPsi with
      | error err => rfl
      | ok edge =>
        simp only [hs.solver, hs.nx, hs.ny, hs.mu0, hs.R]
        generalize e.solver edge (setEdge e.nx e.ny (fun c => -e.mu0 * e.R c.1 * J c) edge) = Q
        have u3 := (updateBoundary_raise hs { s2 with plasmaPsi := Q, spline := Q } (psi e { s2 with plasmaPsi := Q, spline := Q }) hn2).1
        have u4 : updatePlasmaPsi e' { raised d tok s2 with plasmaPsi := edge } Q =
            (updatePlasmaPsi e { s2 with plasmaPsi := edge } Q).map (raised d tok) := by
          rw [← psi_raise hs] at u3
          rw [psi_raise hs] at u3
          simp only [updatePlasmaPsi]
          rw [← u3, ← psi_raise hs]
          rfl
        simp only [u4]
        cases updatePlasmaPsi e { s2 with plasmaPsi := edge } Q with
        | error err => rfl
        | ok s3 =>
          simp only [Except.map, integrate_raise hs.Z]
          cases integrate e.nx e.ny e.R e.Z J with
          | error err => rfl
          | ok I => rfl

theorem locate_raise {d : K} {opt xpt : List (Point K)} {core core' : Option K → Except Err (Arr K)} (hc : ∀ b, core' b = core b) (p00 : K)
    (b : Option K) : locate (opt.map (raisePoint d)) (xpt.map (raisePoint d)) core' p00 b = locate opt xpt core p00 b := by
  have : core' = core := funext hc
  subst this
  cases opt with
  | nil => rfl
  | cons o os =>
    cases b with
    | some v => rfl
    | none => cases xpt <;> rfl

theorem jtorPaxis_raise {d : K} {nx ny : ℕ} {R Z Z' : ℕ → K} (hZ : ∀ j, Z' j = Z j + d) (quad : (K → K) → K → K → K) (pow : K → K → K)
    (p : Params K) (paxis : K) (pl : Plasma K) (P : Arr K) :
    jtorPaxis quad pow nx ny R Z' p paxis pl P = jtorPaxis quad pow nx ny R Z p paxis pl P := by
  simp only [jtorPaxis, finish, integrate_raise hZ]

theorem jtorBetap_raise {d : K} {nx ny : ℕ} {R Z Z' : ℕ → K} (hZ : ∀ j, Z' j = Z j + d) (quad : (K → K) → K → K → K) (pow : K → K → K)
    (mu0 : K) (p : Params K) (betap : K) (pl : Plasma K) (Br Bz P : Arr K) :
    jtorBetap quad pow mu0 nx ny R Z' p betap pl Br Bz P = jtorBetap quad pow mu0 nx ny R Z p betap pl Br Bz P := by
  simp only [jtorBetap, finish, integrate_raise hZ]

end FreeGS.Equil
