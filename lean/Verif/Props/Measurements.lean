import Verif.Model.Measurements
import Verif.Props.Coils
import Verif.Lemmas.Control
import Verif.Props.Equality

/-!
# C106: the sensors of a machine

The specification is `reading`: what a sensor has to show, as a sum over the coils and the plasma.
-/

set_option linter.unusedSectionVars false

namespace FreeGS.Measure

variable {K : Type*} [Field K] [LinearOrder K]

/-- What a sensor has to show: a Rogowski loop the plasma current in its cells plus the enclosed fraction of the coil currents (turns not counted, see C51), a field probe
and a flux loop the sum of current times response over the coils, plus the plasma's share. -/
def reading (e : Env K) (plasma : Option (Plasma K)) (m : Machine K) : Kind K → K
  | .rogowski _ _ region =>
    (plasma.elim 0 fun p => ((p.cells region).map fun x => x.1 * x.2).sum) + (m.coils.map fun x => x.2.enclosed region * x.2.current).sum
  | .poloidal R Z cosT sinT =>
    (m.coils.map fun x => x.2.current * (x.2.response e .br R Z * cosT + x.2.response e .bz R Z * sinT)).sum +
      plasma.elim 0 fun p => p.field .br R Z * cosT + p.field .bz R Z * sinT
  | .fluxLoop R Z =>
    (plasma.elim 0 fun p => p.field .psi R Z) + (m.coils.map fun x => x.2.current * x.2.response e .psi R Z).sum

/-- The sensor after a measurement: one that is on shows its reading, one that is off is left alone. -/
def shown (e : Env K) (plasma : Option (Plasma K)) (m : Machine K) (x : Probe K) : Probe K :=
  if x.status then { x with measurement := some (some (reading e plasma m x.kind)) } else x

/-- A sensor that cannot be read: a Rogowski loop that is on, in a machine with a solenoid. -/
def Unreadable (m : Machine K) (x : Probe K) : Prop :=
  x.status = true ∧ (∃ Rs Zs region, x.kind = .rogowski Rs Zs region) ∧ ∃ l sol, (l, Entry.solenoid sol) ∈ m.coils

/-- Two machines with the same labels, currents, control flags and responses, entry by entry. -/
def SameMachine (m m' : Machine K) : Prop :=
  List.Forall₂ (fun x y : String × Entry K => x.1 = y.1 ∧ x.2.current = y.2.current ∧ x.2.control = y.2.control ∧
    ∀ (e : Env K) q R Z, x.2.response e q R Z = y.2.response e q R Z) m.coils m'.coils

theorem enclosed_sync (p : AnyCoil.Region K) (x : Entry K) : x.sync.enclosed p = x.enclosed p := by
  have h : ∀ (c : AnyCoil K) (v : K), (c.setCurrent v).inShape p = c.inShape p := by
    intro c v
    cases c <;> rfl
  cases x with
  | coil c => rfl
  | circuit c => simp [Entry.sync, Circuit.sync, Entry.enclosed, Function.comp_def, h]
  | solenoid s => rfl

theorem reading_sync (e : Env K) (plasma : Option (Plasma K)) (m : Machine K) (k : Kind K) :
    reading e plasma m.sync k = reading e plasma m k := by
  cases k <;> simp [reading, Machine.sync, Function.comp_def, enclosed_sync]

theorem unreadable_sync (m : Machine K) (x : Probe K) : Unreadable m.sync x ↔ Unreadable m x := by
  have h : (∃ l sol, (l, Entry.solenoid sol) ∈ m.sync.coils) ↔ ∃ l sol, (l, Entry.solenoid sol) ∈ m.coils := by
    simp only [Machine.sync, List.mem_map]
    constructor
    · rintro ⟨l, sol, ⟨l', y⟩, hy, he⟩
      cases y with
      | coil c => simp [Entry.sync] at he
      | circuit c => simp [Entry.sync] at he
      | solenoid s => exact ⟨l', s, hy⟩
    · rintro ⟨l, sol, hy⟩
      exact ⟨l, sol, ⟨(l, .solenoid sol), hy, rfl⟩⟩
  simp only [Unreadable, h]

theorem sameMachine_sync (m : Machine K) : SameMachine m m.sync := by
  simp only [SameMachine, Machine.sync, List.forall₂_map_right_iff]
  refine List.forall₂_same.mpr fun x _ => ⟨rfl, ?_, ?_, fun e q R Z => ?_⟩ <;> simp

theorem rogowski_value (p : AnyCoil.Region K) (m : Machine K) (cells : Option (List (K × K))) (s : Sensor K) (hs : s.status = true)
    (h : ¬ ∃ l sol, (l, Entry.solenoid sol) ∈ m.coils) :
    s.rogowski p m cells = .ok ⟨true, some ((cells.elim 0 fun l => (l.map fun x => x.1 * x.2).sum) +
      (m.coils.map fun x => x.2.enclosed p * x.2.current).sum)⟩ := by
  have hf : ∀ x ∈ m.coils, x.2.inShape p = .ok (x.2.enclosed p) := by
    rintro ⟨l, x⟩ hx
    cases x with
    | coil c => rfl
    | circuit k => rfl
    | solenoid sol => exact absurd ⟨l, sol, hx⟩ h
  have hl : ∀ (l : List (K × K)) (acc : K), l.foldl (fun acc x => acc + x.1 * x.2) acc =
      acc + (l.map fun x => x.1 * x.2).sum := by
    intro l
    induction l with
    | nil => simp
    | cons a l ih => intro acc; simp [ih, add_assoc]
  obtain ⟨st, me⟩ := s
  simp only at hs
  subst hs
  simp only [Sensor.rogowski, if_true, rogowskiCoils_eq p m.coils _ hf, zero_add]
  cases cells with
  | none => rfl
  | some l => simp [hl]

theorem getMeasure_ok (e : Env K) (plasma : Option (Plasma K)) (m : Machine K) (x : Probe K) (h : ¬ Unreadable m x) :
    ∃ m', getMeasure e plasma m x = .ok (shown e plasma m x, m') ∧ (m' = m ∨ m' = m.sync) := by
  obtain ⟨kind, name, status, me⟩ := x
  cases status with
  | false =>
    refine ⟨m, ?_, Or.inl rfl⟩
    cases kind <;> simp [getMeasure, shown, Sensor.rogowski, Sensor.poloidal, Sensor.fluxLoop]
  | true =>
    have hp : ∀ R Z cosT sinT : K, (m.field e .br R Z).1 * cosT + (m.field e .bz R Z).1 * sinT =
        (m.coils.map fun x => x.2.current * (x.2.response e .br R Z * cosT + x.2.response e .bz R Z * sinT)).sum := by
      intro R Z cosT sinT
      rw [Machine.field_fst, Machine.field_fst]
      generalize m.coils = cs
      induction cs with
      | nil => simp
      | cons x cs ih => simp only [List.map_cons, List.sum_cons]; rw [← ih]; ring
    cases kind with
    | rogowski Rs Zs region =>
      refine ⟨m, ?_, Or.inl rfl⟩
      have hv := rogowski_value region m (plasma.map fun p => p.cells region) ⟨true, me.join⟩ rfl
        (fun hs => h ⟨rfl, ⟨Rs, Zs, region, rfl⟩, hs⟩)
      simp only [getMeasure, hv, shown, if_true, reading]
      cases plasma <;> rfl
    | poloidal R Z cosT sinT =>
      refine ⟨m.sync, ?_, Or.inr rfl⟩
      simp only [getMeasure, Sensor.poloidal, if_true, Machine.field_snd, Machine.sync_sync, Machine.field_sync_fst, shown, reading, hp]
      cases plasma <;> simp
    | fluxLoop R Z =>
      refine ⟨m.sync, ?_, Or.inr rfl⟩
      simp only [getMeasure, Sensor.fluxLoop, if_true, Machine.field_snd, Machine.field_fst, shown, reading]
      cases plasma <;> simp

theorem getMeasure_error (e : Env K) (plasma : Option (Plasma K)) (m : Machine K) (x : Probe K) (h : Unreadable m x) :
    getMeasure e plasma m x = .error .attribute := by
  obtain ⟨hs, ⟨Rs, Zs, region, hk⟩, l, sol, hm⟩ := h
  obtain ⟨kind, name, status, me⟩ := x
  simp only at hs hk
  subst hs hk
  simp only [getMeasure, C51_solenoid_error region m l sol hm _ ⟨true, me.join⟩ rfl]

theorem takeLoop_spec (e : Env K) (plasma : Option (Plasma K)) (before : List (Probe K)) (rest : List (Probe K)) :
    ∀ m : Machine K, (∀ x ∈ before, ¬ Unreadable m x) →
      ∃ m', (m' = m ∨ m' = m.sync) ∧
        takeLoop e plasma m (before ++ rest) =
          (before.map (shown e plasma m) ++ (takeLoop e plasma m' rest).1, (takeLoop e plasma m' rest).2) := by
  induction before with
  | nil => intro m _; exact ⟨m, Or.inl rfl, rfl⟩
  | cons x before ih =>
    intro m h
    obtain ⟨m1, h1, h2⟩ := getMeasure_ok e plasma m x (h x List.mem_cons_self)
    have hsh : shown e plasma m1 = shown e plasma m := by
      funext y
      rcases h2 with rfl | rfl
      · rfl
      · simp only [shown, reading_sync]
    have hu : ∀ y ∈ before, ¬ Unreadable m1 y := by
      intro y hy
      rcases h2 with rfl | rfl
      · exact h y (List.mem_cons_of_mem _ hy)
      · rw [unreadable_sync]; exact h y (List.mem_cons_of_mem _ hy)
    obtain ⟨m', h3, h4⟩ := ih m1 hu
    refine ⟨m', ?_, ?_⟩
    · rcases h2 with rfl | rfl
      · exact h3
      · right; rcases h3 with rfl | rfl
        · rfl
        · exact Machine.sync_sync m
    · rw [List.cons_append, takeLoop, h1]
      simp only [h4, hsh, List.map_cons, List.cons_append]

theorem same_of {m m' : Machine K} (h : m' = m ∨ m' = m.sync) : SameMachine m m' := by
  rcases h with rfl | rfl
  · exact List.forall₂_same.mpr fun x _ => ⟨rfl, rfl, rfl, fun _ _ _ _ => rfl⟩
  · exact sameMachine_sync m

/-- **C106** (all sensors). If the machine has no solenoid or no Rogowski loop that is on, every sensor that is on shows its reading
afterwards, whatever the other sensors and their order, those that are off are left alone, and the machine has the same currents,
control flags and responses; measuring again changes nothing. -/
theorem C106_all_measured (e : Env K) (plasma : Option (Plasma K)) (m : Machine K) (l : List (Probe K))
    (h : ∀ x ∈ l, ¬ Unreadable m x) :
    ∃ m', takeMeasurements e plasma m (some l) = (some (l.map (shown e plasma m)), m', none) ∧ SameMachine m m' ∧
      ∃ m'', takeMeasurements e plasma m' (some (l.map (shown e plasma m))) = (some (l.map (shown e plasma m)), m'', none) := by
  obtain ⟨m', h1, h2⟩ := takeLoop_spec e plasma l [] m h
  rw [List.append_nil] at h2
  simp only [takeLoop, List.append_nil] at h2
  have hsh : ∀ y, shown e plasma m' (shown e plasma m y) = shown e plasma m y := by
    intro y
    have hr : reading e plasma m' y.kind = reading e plasma m y.kind := by
      rcases h1 with rfl | rfl
      · rfl
      · exact reading_sync e plasma m _
    by_cases hy : y.status <;> simp [shown, hy, hr]
  have hu : ∀ x ∈ l.map (shown e plasma m), ¬ Unreadable m' x := by
    intro x hx
    obtain ⟨y, hy, rfl⟩ := List.mem_map.mp hx
    have h3 : Unreadable m' (shown e plasma m y) ↔ Unreadable m y := by
      have h4 : Unreadable m' (shown e plasma m y) ↔ Unreadable m (shown e plasma m y) := by
        rcases h1 with rfl | rfl
        · exact Iff.rfl
        · exact unreadable_sync m _
      rw [h4]
      by_cases hs : y.status <;> simp [shown, hs, Unreadable]
    rw [h3]
    exact h y hy
  obtain ⟨m'', _, h5⟩ := takeLoop_spec e plasma (l.map (shown e plasma m)) [] m' hu
  rw [List.append_nil] at h5
  simp only [takeLoop, List.append_nil, List.map_map] at h5
  refine ⟨m', by simp only [takeMeasurements, h2], same_of h1, m'', ?_⟩
  simp only [takeMeasurements, h5]
  congr 2
  exact List.map_congr_left fun y _ => hsh y

/-- **C106** (finding). A Rogowski loop in a machine with a solenoid ends the measurements with `AttributeError`: the sensors before it have been
measured, this one and all after it have not. -/
theorem C106_solenoid_stops_fails (e : Env K) (plasma : Option (Plasma K)) (m : Machine K) (before after : List (Probe K)) (x : Probe K)
    (hb : ∀ y ∈ before, ¬ Unreadable m y) (hx : Unreadable m x) :
    ∃ m', takeMeasurements e plasma m (some (before ++ x :: after)) =
      (some (before.map (shown e plasma m) ++ x :: after), m', some .attribute) ∧ SameMachine m m' := by
  obtain ⟨m', h1, h2⟩ := takeLoop_spec e plasma before (x :: after) m hb
  have hx' : Unreadable m' x := by
    rcases h1 with rfl | rfl
    · exact hx
    · rw [unreadable_sync]; exact hx
  have h3 : takeLoop e plasma m' (x :: after) = (x :: after, m', some .attribute) := by
    simp only [takeLoop, getMeasure_error e plasma m' x hx']
  rw [h3] at h2
  exact ⟨m', by simp only [takeMeasurements, h2], same_of h1⟩

/-- **C106** (finding). A machine made without `sensors` cannot be measured: `TypeError`, also when printing. -/
theorem C106_no_sensors_fails (e : Env K) (plasma : Option (Plasma K)) (m : Machine K) :
    takeMeasurements e plasma m none = (none, m, some .type) ∧ printMeasurements e plasma m none = (none, m, [], some .type) :=
  ⟨rfl, rfl⟩

/-- **C106** (printing). If every sensor is on, all readings are printed in order with the names of the sensors. -/
theorem C106_printed_partial (e : Env K) (plasma : Option (Plasma K)) (m : Machine K) (l : List (Probe K))
    (h : ∀ x ∈ l, ¬ Unreadable m x) (hon : ∀ x ∈ l, x.status = true) :
    (printMeasurements e plasma m (some l)).2.2 = (l.map fun x => (x.name, some (reading e plasma m x.kind)), none) := by
  obtain ⟨m', h1, h0⟩ := C106_all_measured e plasma m l h
  simp only [printMeasurements, h1, Option.getD_some]
  clear h1 h0 h
  induction l with
  | nil => rfl
  | cons x l ih =>
    have hx := hon x List.mem_cons_self
    have ih := ih fun y hy => hon y (List.mem_cons_of_mem _ hy)
    simp only [List.map_cons, printLoop, shown, hx, if_true]
    rw [Prod.ext_iff] at ih ⊢
    exact ⟨congrArg (List.cons _) ih.1, ih.2⟩

/-- **C106** (finding). A sensor that was made with `status=False` ends the printing with `AttributeError`: only the sensors before it are
printed. -/
theorem C106_off_stops_printing_fails (e : Env K) (plasma : Option (Plasma K)) (m : Machine K) (before after : List (Probe K))
    (kind : Kind K) (name : Option String) (value : Option K) (h : ∀ x ∈ before ++ after, ¬ Unreadable m x)
    (hon : ∀ x ∈ before, x.status = true) :
    (printMeasurements e plasma m (some (before ++ make kind name false value :: after))).2.2 =
      (before.map fun x => (x.name, some (reading e plasma m x.kind)), some .attribute) := by
  have h' : ∀ x ∈ before ++ make kind name false value :: after, ¬ Unreadable m x := by
    intro x hx
    rcases List.mem_append.mp hx with hx | hx
    · exact h x (List.mem_append_left _ hx)
    · rcases List.mem_cons.mp hx with rfl | hx
      · rintro ⟨hs, _⟩
        exact absurd hs (by simp [make])
      · exact h x (List.mem_append_right _ hx)
  obtain ⟨m', h1, h0⟩ := C106_all_measured e plasma m _ h'
  simp only [printMeasurements, h1, Option.getD_some]
  clear h1 h0 h h'
  induction before with
  | nil => simp [printLoop, shown, make]
  | cons x l ih =>
    have hx := hon x List.mem_cons_self
    have ih := ih fun y hy => hon y (List.mem_cons_of_mem _ hy)
    simp only [List.cons_append, List.map_cons, printLoop, shown, hx, if_true]
    rw [Prod.ext_iff] at ih ⊢
    exact ⟨congrArg (List.cons _) ih.1, ih.2⟩

section
variable [IsStrictOrderedRing K]

theorem isclose_self (x : K) : Equality.isclose x x = true := by
  simp only [Equality.isclose, sub_self, abs_zero, decide_eq_true_eq]
  positivity

/-- **C106** (equality). Two sensors at points, of whatever class, are equal exactly when both their radii and their heights agree to
the tolerance of `numpy.allclose`. -/
theorem C106_equality (a b : Kind K) (R Z R' Z' : K) (ha : (∃ c s, a = .poloidal R Z c s) ∨ a = .fluxLoop R Z)
    (hb : (∃ c s, b = .poloidal R' Z' c s) ∨ b = .fluxLoop R' Z') (name name' : Option String) (status status' : Bool)
    (value value' : Option K) :
    (sensorEq (make a name status value) (make b name' status' value') = .ok true ↔
      |R - R'| ≤ 1 / 100000000 + 1 / 100000 * |R'| ∧ |Z - Z'| ≤ 1 / 100000000 + 1 / 100000 * |Z'|) ∧
    (sensorEq (make a name status value) (make b name' status' value') = .ok true ∨
      sensorEq (make a name status value) (make b name' status' value') = .ok false) := by
  rcases ha with ⟨c, s, rfl⟩ | rfl <;> rcases hb with ⟨c', s', rfl⟩ | rfl <;>
  · simp only [sensorEq, make, Kind.coords, Equality.both, Equality.allclose, Equality.isclose, List.all_cons, List.all_nil,
      Bool.and_true]
    by_cases h1 : |R - R'| ≤ 1 / 100000000 + 1 / 100000 * |R'| <;>
    by_cases h2 : |Z - Z'| ≤ 1 / 100000000 + 1 / 100000 * |Z'| <;>
    simp only [h1, h2, decide_true, decide_false, and_self, and_true, and_false, true_or, or_true, reduceCtorEq, Except.ok.injEq, Bool.false_eq_true]

/-- Two loops on one radius at heights 0 and 1 are different. -/
example : sensorEq (make (.fluxLoop (3/2 : ℚ) 0) none true none) (make (.fluxLoop (3/2 : ℚ) 1) none true none) = .ok false := by
  decide +kernel

/-- **C106** (finding). Sensors of different classes, with different angles, names and status are equal as soon as they are in the same
place. -/
theorem C106_equality_is_place_fails (R Z cosT sinT cosT' sinT' : K) (name name' : Option String) (status status' : Bool)
    (value value' : Option K) :
    sensorEq (make (.poloidal R Z cosT sinT) name status value) (make (.poloidal R Z cosT' sinT') name' status' value') = .ok true ∧
    sensorEq (make (.poloidal R Z cosT sinT) name status value) (make (.fluxLoop R Z) name' status' value') = .ok true := by
  simp [sensorEq, make, Kind.coords, Equality.both, Equality.allclose, isclose_self]

end

/-- **C106** (finding). Rogowski loops with different numbers of points, both more than one, cannot be compared: `ValueError`. -/
theorem C106_equality_of_loops_fails (Rs Zs Rs' Zs' : List K) (region region' : AnyCoil.Region K) (h : Rs.length ≠ Rs'.length)
    (h1 : 1 < Rs.length) (h2 : 1 < Rs'.length) (a b : Option String) :
    sensorEq (make (.rogowski Rs Zs region) a) (make (.rogowski Rs' Zs' region') b) = .error .value := by
  have : Equality.allclose Rs Rs' = .error .value := by
    match Rs, Rs', h, h1, h2 with
    | x :: y :: l, x' :: y' :: l', h, _, _ => simp only [Equality.allclose, if_neg h]
  simp only [sensorEq, make, Kind.coords, this, Equality.both]

/-! ## A case -/

/-- A machine with a coil and a circuit, and the four sensors: a Rogowski loop around the upper half plane, a probe, a probe that is off
and a flux loop. The Green's functions are the distances in height. -/
def caseMachine : Machine ℚ :=
  ⟨[("A", .coil (.point (PointCoil.make 1 2 3))), ("C", .circuit (Circuit.make
    [("U", .point (PointCoil.make 2 1), 1), ("L", .point (PointCoil.make 2 (-1)), -2)] 5 true))]⟩

def caseSensors : List (Probe ℚ) :=
  [make (.rogowski [0, 9, 9, 0] [0, 0, 9, 9] ⟨fun p => decide (p.2 > 0), fun _ => 0⟩) (some "loop"), make (.poloidal 1 0 (3 / 5) (4 / 5)),
    make (.poloidal 1 0 0 1) (some "off") false, make (.fluxLoop 2 0)]

def caseEnv : Env ℚ := { G := fun q _ Zs _ Z => match q with | .psi => Z - Zs | .br => 1 | .bz => Zs, sqrt := id, log := id, pi := 3, mu0 := 1 }

example : (∀ x ∈ caseSensors, ¬ Unreadable caseMachine x) ∧
    (caseSensors.map (shown caseEnv none caseMachine)).map (fun x => x.measurement) =
      [some (some 8), some (some (78 / 5)), none, some (some (-21))] := by
  refine ⟨?_, by decide +kernel⟩
  rintro x _ ⟨_, _, l, sol, h⟩
  simp [caseMachine] at h

/-- With a solenoid in the machine the loop cannot be read, and the others can: the hypotheses of `C106_solenoid_stops_fails`. -/
example : (∀ x ∈ caseSensors.tail, ¬ Unreadable (⟨[("P", .solenoid ⟨1, -1, 1, 10, 2, true⟩)]⟩ : Machine ℚ) x) ∧
    Unreadable (⟨[("P", .solenoid ⟨1, -1, 1, 10, 2, true⟩)]⟩ : Machine ℚ)
      (make (.rogowski [0, 9, 9, 0] [0, 0, 9, 9] ⟨fun p => decide (p.2 > 0), fun _ => 0⟩) (some "loop")) := by
  refine ⟨?_, rfl, ⟨_, _, _, rfl⟩, "P", _, List.mem_singleton.mpr rfl⟩
  rintro x hx ⟨_, ⟨Rs, Zs, region, hk⟩, _⟩
  simp [caseSensors, make] at hx
  rcases hx with rfl | rfl | rfl <;> simp at hk

end FreeGS.Measure
