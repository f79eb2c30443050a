import Verif.Props.Machine
import Verif.Model.Optimise
import Mathlib.Algebra.BigOperators.Group.List.Lemmas

/-!
# C05, C06, C51, C53, C54, C58, C59, C62, C63, C64: coil kinds, sensors, optimiser controls and measures
-/

set_option linter.unusedSectionVars false

namespace FreeGS

variable {K : Type*} [Field K] [LinearOrder K]

/-! ## C05: position controls -/

open Optimise

/-- `v` respects the limits that are given. -/
def Within (lo hi : Option K) (v : K) : Prop := (∀ a, lo = some a → a ≤ v) ∧ ∀ b, hi = some b → v ≤ b

theorem limit_spec (lo hi : Option K) (h0 : lo ≠ some 0) (h1 : hi ≠ some 0)
    (h : ∀ a b, lo = some a → hi = some b → a ≤ b) (v : K) :
    Within lo hi (limit lo hi v) ∧ (Within lo hi v → limit lo hi v = v) := by
  cases lo with
  | none =>
    cases hi with
    | none => simp [Within, limit]
    | some b =>
      have hb : b ≠ 0 := fun hb => h1 (by rw [hb])
      simp only [Within, limit, truthy, reduceCtorEq, false_implies, implies_true, Option.some.injEq,
        forall_eq', true_and, ne_eq, hb, not_false_eq_true, decide_true, Bool.true_and, decide_eq_true_eq]
      split <;> rename_i hv
      · exact ⟨le_refl _, fun hv' => absurd hv (not_lt.mpr hv')⟩
      · exact ⟨not_lt.mp hv, fun _ => rfl⟩
  | some a =>
    have ha : a ≠ 0 := fun ha => h0 (by rw [ha])
    cases hi with
    | none =>
      simp only [Within, limit, truthy, reduceCtorEq, false_implies, implies_true, Option.some.injEq,
        forall_eq', and_true, ne_eq, ha, not_false_eq_true, decide_true, Bool.true_and, decide_eq_true_eq]
      split <;> rename_i hv
      · exact ⟨le_refl _, fun hv' => absurd hv (not_lt.mpr hv')⟩
      · exact ⟨not_lt.mp hv, fun _ => rfl⟩
    | some b =>
      have hb : b ≠ 0 := fun hb => h1 (by rw [hb])
      have hab := h a b rfl rfl
      simp only [Within, limit, truthy, Option.some.injEq,
        forall_eq', ne_eq, ha, hb, not_false_eq_true, decide_true, Bool.true_and, decide_eq_true_eq]
      by_cases hv : v < a
      · simp only [hv, if_true, gt_iff_lt]
        rw [if_neg (not_lt.mpr hab)]
        exact ⟨⟨le_refl _, hab⟩, fun hv' => absurd hv (not_lt.mpr hv'.1)⟩
      · simp only [hv, if_false]
        split <;> rename_i hv2
        · exact ⟨⟨hab, le_refl _⟩, fun hv' => absurd hv2 (not_lt.mpr hv'.2)⟩
        · exact ⟨⟨not_lt.mp hv, not_lt.mp hv2⟩, fun _ => rfl⟩

theorem find_modify (cs : List (String × Entry K)) (f : Entry K → Entry K) (label other : String) :
    ∀ i, cs.findIdx? (fun x => x.1 == label) = some i →
      (cs.modify i fun x => (x.1, f x.2)).find? (fun x => x.1 == other) =
        if other = label then (cs.find? fun x => x.1 == other).map fun x => (x.1, f x.2)
        else cs.find? fun x => x.1 == other := by
  induction cs with
  | nil => intro i h; simp at h
  | cons a cs ih =>
    intro i h
    rw [List.findIdx?_cons] at h
    by_cases ha : a.1 = label
    · simp only [ha, beq_self_eq_true, if_true, Option.some.injEq] at h
      subst h
      by_cases ho : other = label
      · subst ho; simp [ha]
      · have : ¬ label = other := fun h => ho h.symm
        simp [ho, ha, this]
    · simp only [beq_iff_eq, ha, if_false, Option.map_eq_some_iff] at h
      obtain ⟨j, hj, rfl⟩ := h
      rw [List.modify_succ_cons, List.find?_cons, List.find?_cons, ih j hj]
      by_cases hao : a.1 = other
      · have : ¬ other = label := fun h => ha (hao.trans h)
        simp [hao, this]
      · have hf : (a.1 == other) = false := by simpa using hao
        simp only [hf]

theorem position_control (get other : AnyCoil K → K) (set : K → AnyCoil K → AnyCoil K)
    (hget : ∀ v c, get (set v c) = v) (hother : ∀ v c, other (set v c) = other c)
    (m : Machine K) (label : String) (c : AnyCoil K) (hc : m.getItem label = .ok (.coil c))
    (lo hi : Option K) (h0 : lo ≠ some 0) (h1 : hi ≠ some 0)
    (h : ∀ a b, lo = some a → hi = some b → a ≤ b) (v : K) :
    ∃ (i : ℕ) (c' : AnyCoil K), indexOf m label = some i ∧
      (⟨m.coils.modify i fun x => (x.1, assign set (limit lo hi v) x.2)⟩ : Machine K).getItem label =
        .ok (.coil c') ∧
      Within lo hi (get c') ∧ (Within lo hi v → get c' = v) ∧ other c' = other c ∧
      ∀ l', l' ≠ label →
        (⟨m.coils.modify i fun x => (x.1, assign set (limit lo hi v) x.2)⟩ : Machine K).getItem l' =
          m.getItem l' := by
  have hf : ∃ l, m.coils.find? (fun x => x.1 == label) = some (l, .coil c) := by
    simp only [Machine.getItem] at hc
    split at hc
    · rename_i x hx
      simp only [Except.ok.injEq] at hc
      exact ⟨x.1, by rw [hx, ← hc]⟩
    · simp at hc
  obtain ⟨l, hf⟩ := hf
  have hi' : ∃ i, m.coils.findIdx? (fun x => x.1 == label) = some i := by
    rcases hx : m.coils.findIdx? (fun x => x.1 == label) with _ | i
    · rw [List.findIdx?_eq_none_iff] at hx
      have := List.find?_some hf
      have h2 := hx _ (List.mem_of_find?_eq_some hf)
      rw [h2] at this
      exact absurd this (by simp)
    · exact ⟨i, hx⟩
  obtain ⟨i, hi'⟩ := hi'
  refine ⟨i, set (limit lo hi v) c, hi', ?_, ?_, ?_, hother _ _, ?_⟩
  · simp only [Machine.getItem]
    rw [find_modify m.coils (assign set (limit lo hi v)) label label i hi', if_pos rfl, hf]
    rfl
  · rw [hget]; exact (limit_spec lo hi h0 h1 h v).1
  · rw [hget]; exact (limit_spec lo hi h0 h1 h v).2
  · intro l' hl'
    simp only [Machine.getItem]
    rw [find_modify m.coils (assign set (limit lo hi v)) label l' i hi', if_neg hl']

/-- **C05 (partial: limits other than zero).** After `CoilRadius(label, lo, hi).set(eq, v)` the radius of the coil
is within the limits and equals `v` if `v` was; its height and every other coil are as before.
Missing: a limit equal to zero is ignored by the code, see `C05_zero_limit_ignored`. -/
theorem C05_radius_partial (m : Machine K) (label : String) (c : AnyCoil K)
    (hc : m.getItem label = .ok (.coil c)) (lo hi : Option K) (h0 : lo ≠ some 0) (h1 : hi ≠ some 0)
    (h : ∀ a b, lo = some a → hi = some b → a ≤ b) (v : K) :
    ∃ m' c', setRadius label lo hi m v = .ok m' ∧ m'.getItem label = .ok (.coil c') ∧
      Within lo hi c'.R ∧ (Within lo hi v → c'.R = v) ∧ c'.Z = c.Z ∧
      ∀ l', l' ≠ label → m'.getItem l' = m.getItem l' := by
  obtain ⟨i, c', hi', h2, h3, h4, h5, h6⟩ := position_control AnyCoil.R AnyCoil.Z AnyCoil.setR
    (fun v c => by cases c <;> rfl) (fun v c => by cases c <;> rfl) m label c hc lo hi h0 h1 h v
  exact ⟨_, c', by simp [setRadius, hi'], h2, h3, h4, h5, h6⟩

/-- **C05 (partial).** The same for `CoilHeight`. -/
theorem C05_height_partial (m : Machine K) (label : String) (c : AnyCoil K)
    (hc : m.getItem label = .ok (.coil c)) (lo hi : Option K) (h0 : lo ≠ some 0) (h1 : hi ≠ some 0)
    (h : ∀ a b, lo = some a → hi = some b → a ≤ b) (v : K) :
    ∃ m' c', setHeight label lo hi m v = .ok m' ∧ m'.getItem label = .ok (.coil c') ∧
      Within lo hi c'.Z ∧ (Within lo hi v → c'.Z = v) ∧ c'.R = c.R ∧
      ∀ l', l' ≠ label → m'.getItem l' = m.getItem l' := by
  obtain ⟨i, c', hi', h2, h3, h4, h5, h6⟩ := position_control AnyCoil.Z AnyCoil.R AnyCoil.setZ
    (fun v c => by cases c <;> rfl) (fun v c => by cases c <;> rfl) m label c hc lo hi h0 h1 h v
  exact ⟨_, c', by simp [setHeight, hi'], h2, h3, h4, h5, h6⟩

/-- **C05 (refuted for zero limits).** A limit equal to zero is never enforced: with `minimum=0.0` (the default of
`CoilRadius`) a negative value is stored as it is, for every coil; the same for a maximum of zero. -/
theorem C05_zero_limit_ignored (m : Machine K) (label : String) (c : AnyCoil K)
    (hc : m.getItem label = .ok (.coil c)) (v : K) :
    (∃ m' c', setRadius label (some 0) none m v = .ok m' ∧ m'.getItem label = .ok (.coil c') ∧
      c'.R = v) ∧
    (∃ m' c', setHeight label none (some 0) m v = .ok m' ∧ m'.getItem label = .ok (.coil c') ∧
      c'.Z = v) := by
  have e1 : limit (some (0 : K)) none v = limit none none v := by simp [limit, truthy]
  have e2 : limit none (some (0 : K)) v = limit none none v := by simp [limit, truthy]
  obtain ⟨m1, c1, a1, b1, _, d1, _⟩ := C05_radius_partial m label c hc none none (by simp) (by simp)
    (by simp) v
  obtain ⟨m2, c2, a2, b2, _, d2, _⟩ := C05_height_partial m label c hc none none (by simp) (by simp)
    (by simp) v
  refine ⟨⟨m1, c1, ?_, b1, d1 (by simp [Within])⟩, ⟨m2, c2, ?_, b2, d2 (by simp [Within])⟩⟩
  · rw [← a1]; simp only [setRadius, e1]
  · rw [← a2]; simp only [setHeight, e2]

/-- **C05 (error).** An unknown label raises `KeyError`. -/
theorem C05_unknown_label (m : Machine K) (label : String) (h : ∀ x ∈ m.coils, x.1 ≠ label)
    (lo hi : Option K) (v : K) :
    setRadius label lo hi m v = .error .key ∧ setHeight label lo hi m v = .error .key := by
  have : indexOf m label = none := by
    rw [indexOf, List.findIdx?_eq_none_iff]
    intro x hx
    simpa using h x hx
  simp [setRadius, setHeight, this]

example : (setRadius "P1" (some (1/2)) (some 2) exMachine 7).map
    (fun m => m.coils.map fun x => match x.2 with | .coil c => c.R | _ => 0) = .ok [2, 0, 0] := by
  decide +kernel

/-! ## C06: weighted sums of measures -/

/-- **C06.** `weighted_sum(*args)(eq)` is the sum of weight times measure, with weight one for a bare
callable, independent of the order of the arguments. -/
theorem C06_weighted_sum {E : Type*} (args : List (Arg E K)) (eq : E) :
    weightedSum args eq = (args.map fun a => match a with
      | .bare f => f eq
      | .pair f w => w * f eq).sum ∧
    ∀ args', args'.Perm args → weightedSum args' eq = weightedSum args eq := by
  have h : ∀ args : List (Arg E K), weightedSum args eq = (args.map fun a => match a with
      | .bare f => f eq
      | .pair f w => w * f eq).sum := by
    intro args
    have : ∀ (l : List ((E → K) × K)) (acc : K), l.foldl (fun acc p => acc + p.1 eq * p.2) acc =
        acc + (l.map fun p => p.1 eq * p.2).sum := by
      intro l
      induction l with
      | nil => simp
      | cons a l ih => intro acc; simp [ih, add_assoc]
    rw [weightedSum, this, zero_add, pairs, List.map_map]
    congr 1
    refine List.map_congr_left fun a _ => ?_
    cases a <;> simp [mul_comm]
  exact ⟨h args, fun args' hp => by rw [h, h]; exact (hp.map _).sum_eq⟩

example : weightedSum [.bare fun x : ℚ => x + 1, .pair (fun x => x * x) 3, .bare fun x => 2 * x] 5 =
    6 + 3 * 25 + 10 := by decide +kernel

/-! ## C51: sensors -/

theorem rogowskiCoils_eq (p : AnyCoil.Region K) (cs : List (String × Entry K))
    (f : Entry K → K) (h : ∀ x ∈ cs, x.2.inShape p = .ok (f x.2)) : ∀ acc,
    Sensor.rogowskiCoils p acc cs = .ok (acc + (cs.map fun x => f x.2 * x.2.current).sum) := by
  induction cs with
  | nil => intro acc; simp [Sensor.rogowskiCoils]
  | cons x cs ih =>
    intro acc
    obtain ⟨l, x⟩ := x
    have h1 := h _ List.mem_cons_self
    simp only at h1
    rw [Sensor.rogowskiCoils, h1]
    simp only
    rw [ih fun x hx => h x (List.mem_cons_of_mem _ hx)]
    simp [add_assoc]

/-- **C51 (status).** A sensor that is switched off keeps its measurement, and leaves the machine alone. -/
theorem C51_status_off (e : Env K) (p : AnyCoil.Region K) (m : Machine K) (R Z cosT sinT : K)
    (cells : Option (List (K × K))) (plasma : Option (Quantity → K → K → K)) (s : Sensor K)
    (h : s.status = false) :
    s.rogowski p m cells = .ok s ∧ s.poloidal e R Z cosT sinT m plasma = (s, m) ∧
      s.fluxLoop e R Z m plasma = (s, m) := by
  simp [Sensor.rogowski, Sensor.poloidal, Sensor.fluxLoop, h]

/-- The fraction of an entry's turns enclosed, times multiplier for coils in circuits. -/
def Entry.enclosed (p : AnyCoil.Region K) : Entry K → K
  | .coil c => c.inShape p
  | .circuit k => (k.coils.map fun y => y.2.1.inShape p * y.2.2).sum
  | .solenoid _ => 0

/-- The current a Rogowski loop should report: enclosed fraction times total current, turns included. -/
def Entry.enclosedCurrent (p : AnyCoil.Region K) : Entry K → K
  | .coil c => c.inShape p * (c.current * c.turns)
  | .circuit k => (k.coils.map fun y => y.2.1.inShape p * (y.2.2 * k.current * y.2.1.turns)).sum
  | .solenoid _ => 0

/-- Every coil has one turn. -/
def Machine.SingleTurn (m : Machine K) : Prop := ∀ x ∈ m.coils, match x.2 with
  | .coil c => c.turns = 1
  | .circuit k => ∀ y ∈ k.coils, y.2.1.turns = 1
  | .solenoid _ => False

/-- **C51 (partial: one turn per coil, no solenoid).** A Rogowski loop that is switched on reports plasma current
plus the enclosed fraction of the total current of every coil.
Missing: the number of turns is ignored (`C51_turns_ignored`) and a solenoid raises `AttributeError`
(`C51_solenoid_error`). -/
theorem C51_rogowski_partial (p : AnyCoil.Region K) (m : Machine K) (h1 : m.SingleTurn)
    (cells : Option (List (K × K))) (s : Sensor K) (h : s.status = true) :
    s.rogowski p m cells = .ok ⟨true, some ((cells.elim 0 fun l => (l.map fun x => x.1 * x.2).sum) +
        (m.coils.map fun x => x.2.enclosedCurrent p).sum)⟩ := by
  have hf : ∀ x ∈ m.coils, x.2.inShape p = .ok (x.2.enclosed p) := by
    intro x hx
    have := h1 x hx
    obtain ⟨l, x⟩ := x
    cases x with
    | coil c => rfl
    | circuit k => rfl
    | solenoid _ => exact absurd this id
  have hs : (m.coils.map fun x => x.2.enclosed p * x.2.current) =
      m.coils.map fun x => x.2.enclosedCurrent p := by
    refine List.map_congr_left fun x hx => ?_
    have := h1 x hx
    obtain ⟨l, x⟩ := x
    cases x with
    | coil c =>
      have : c.turns = 1 := this
      simp [Entry.enclosed, Entry.enclosedCurrent, Entry.current, this]
    | circuit k =>
      simp only [Entry.enclosed, Entry.enclosedCurrent, Entry.current]
      rw [← List.sum_map_mul_right]
      congr 1
      refine List.map_congr_left fun y hy => ?_
      have : y.2.1.turns = 1 := this y hy
      rw [this]; ring
    | solenoid _ => exact absurd this id
  have hl : ∀ (l : List (K × K)) (acc : K), l.foldl (fun acc x => acc + x.1 * x.2) acc =
      acc + (l.map fun x => x.1 * x.2).sum := by
    intro l
    induction l with
    | nil => simp
    | cons a l ih => intro acc; simp [ih, add_assoc]
  obtain ⟨st, me⟩ := s
  simp only at h
  subst h
  simp only [Sensor.rogowski, if_true, rogowskiCoils_eq p m.coils _ hf, hs, zero_add]
  cases cells with
  | none => rfl
  | some l => simp [hl]

/-- **C51 (refuted: turns).** A loop around one coil with `n ≠ 1` turns and current `I ≠ 0` reports `I`, which is not
the enclosed current `n * I`. -/
theorem C51_turns_ignored (I n : K) (c : PointCoil K) (p : AnyCoil.Region K)
    (hp : p.contains (c.R, c.Z) = true) (hI : c.current = I) (hn : c.turns = n) (hn1 : n ≠ 1) (hI0 : I ≠ 0)
    (l : String) :
    (Sensor.make true none).rogowski p ⟨[(l, .coil (.point c))]⟩ none = .ok ⟨true, some I⟩ ∧
      (Entry.coil (.point c)).enclosedCurrent p ≠ I := by
  refine ⟨?_, ?_⟩
  swap
  · simp only [Entry.enclosedCurrent, AnyCoil.inShape, hp, if_true, AnyCoil.current, AnyCoil.turns, hI, hn,
      one_mul]
    intro h
    exact hn1 (mul_left_cancel₀ hI0 (h.trans (mul_one I).symm))
  simp [Sensor.rogowski, Sensor.make, Sensor.rogowskiCoils, Entry.inShape, AnyCoil.inShape, hp,
    Entry.current, AnyCoil.current, hI]

/-- **C51 (refuted: solenoids).** A Rogowski loop on a machine with a solenoid raises `AttributeError`. -/
theorem C51_solenoid_error (p : AnyCoil.Region K) (m : Machine K) (l : String) (sol : Solenoid K)
    (h : (l, Entry.solenoid sol) ∈ m.coils) (cells : Option (List (K × K))) (s : Sensor K)
    (hs : s.status = true) : s.rogowski p m cells = .error .attribute := by
  have : ∀ (cs : List (String × Entry K)) (acc : K), (l, Entry.solenoid sol) ∈ cs →
      Sensor.rogowskiCoils p acc cs = .error .attribute := by
    intro cs
    induction cs with
    | nil => intro acc h; simp at h
    | cons x cs ih =>
      intro acc h
      obtain ⟨l', x⟩ := x
      rw [Sensor.rogowskiCoils]
      rcases List.mem_cons.mp h with h' | h'
      · simp only [Prod.mk.injEq] at h'
        rw [← h'.2]; rfl
      · cases x with
        | coil c => exact ih _ h'
        | circuit c => exact ih _ h'
        | solenoid c => rfl
  simp only [Sensor.rogowski, hs, if_true, this _ _ h]

/-- **C51 (linearity).** Flux loops and field probes without plasma report a linear combination of the currents, with
the control responses as coefficients; a plasma adds its own flux or field. -/
theorem C51_probes_linear (e : Env K) (m : Machine K) (R Z cosT sinT : K) (s : Sensor K)
    (h : s.status = true) (plasma : Quantity → K → K → K) :
    (s.fluxLoop e R Z m none).1.measurement =
      some (m.coils.map fun x => x.2.current * x.2.response e .psi R Z).sum ∧
    (s.poloidal e R Z cosT sinT m none).1.measurement =
      some (m.coils.map fun x => x.2.current *
        (x.2.response e .br R Z * cosT + x.2.response e .bz R Z * sinT)).sum ∧
    (s.fluxLoop e R Z m (some plasma)).1.measurement =
      some (plasma .psi R Z + (m.coils.map fun x => x.2.current * x.2.response e .psi R Z).sum) ∧
    (s.poloidal e R Z cosT sinT m (some plasma)).1.measurement =
      some ((m.coils.map fun x => x.2.current *
        (x.2.response e .br R Z * cosT + x.2.response e .bz R Z * sinT)).sum +
        (plasma .br R Z * cosT + plasma .bz R Z * sinT)) := by
  have hs : ∀ (n : Machine K) (q : Quantity) (R Z : K),
      (n.sync.field e q R Z).1 = (n.field e q R Z).1 := by
    intro n q R Z
    simp [Machine.field_fst, Machine.sync, Function.comp_def]
  have hp : (m.field e .br R Z).1 * cosT + (m.field e .bz R Z).1 * sinT =
      (m.coils.map fun x => x.2.current *
        (x.2.response e .br R Z * cosT + x.2.response e .bz R Z * sinT)).sum := by
    rw [Machine.field_fst, Machine.field_fst]
    generalize m.coils = cs
    induction cs with
    | nil => simp
    | cons x cs ih => simp only [List.map_cons, List.sum_cons]; rw [← ih]; ring
  refine ⟨?_, ?_, ?_, ?_⟩
  · simp [Sensor.fluxLoop, h, Machine.field_fst]
  · simp only [Sensor.poloidal, h, if_true, Machine.field_snd, hs, hp]
  · simp [Sensor.fluxLoop, h, Machine.field_fst]
  · simp only [Sensor.poloidal, h, if_true, Machine.field_snd, hs, hp]

example : ((Sensor.make true none).rogowski ⟨fun p => decide (p.2 > 0), fun _ => 0⟩
    (⟨[("A", .coil (.point (PointCoil.make 1 2 3))), ("C", .circuit (Circuit.make
      [("U", .point (PointCoil.make 2 1), 1), ("L", .point (PointCoil.make 2 (-1)), -2)] 5 true))]⟩ :
        Machine ℚ) (some [(2, 3), (1, 1)])).map (fun s => s.measurement) = .ok (some 15) := by
  decide +kernel

/-! ## C53: MirroredCoil -/

/-- **C53 (refuted).** Whatever is asked for, `MirroredCoil(R, Z, current, control=...)` puts both coils at `+Z`
(none at `-Z`), and its current is zero and its control flag on. -/
theorem C53_mirrored_wrong (R Z current turns : K) (control symmetric : Bool) (area : AreaSpec K) :
    let c := mirroredCoil R Z current turns control area symmetric
    (c.coils.map fun x => (x.2.1.R, x.2.1.Z)) = [(R, Z), (R, Z)] ∧ c.current = 0 ∧ c.control = true ∧
      (c.coils.map fun x => x.2.1.current) = [0, 0] := by
  cases symmetric <;>
    simp [mirroredCoil, Circuit.make, Circuit.setCurrent, Circuit.setControl, AnyCoil.setCurrent,
      AnyCoil.setControl, PointCoil.make, AnyCoil.R, AnyCoil.Z, AnyCoil.current]

/-- **C53 (partial).** What does hold: two coils labelled U and L, with the given radius, turns and area, and
after setting the circuit current to `I` they carry `I` and `I` (symmetric) or `-I` (antisymmetric); the pair is
placed as requested only if `Z = 0`. Missing: position `-Z`, initial current and control flag. -/
theorem C53_mirrored_partial (R Z current turns I : K) (control symmetric : Bool) (area : AreaSpec K) :
    let c := (mirroredCoil R Z current turns control area symmetric).setCurrent I
    c.coils = [("U", .point ⟨R, Z, I, turns, true, area⟩, 1),
      ("L", .point ⟨R, Z, if symmetric then I else -I, turns, true, area⟩, if symmetric then 1 else -1)] ∧
    c.current = I := by
  cases symmetric <;>
    simp [mirroredCoil, Circuit.make, Circuit.setCurrent, Circuit.setControl, AnyCoil.setCurrent,
      AnyCoil.setControl, PointCoil.make]

example : (mirroredCoil (1 : ℚ) 2 3).coils.map (fun x => x.2.1.Z) = [2, 2] := by decide +kernel

/-! ## C54: MultiCoil -/

theorem sum_zip_perm {f : K × K → K} (l : List (K × K)) :
    (((l.map Prod.fst).zip (l.map Prod.snd)).map f).sum = (l.map f).sum := by
  rw [List.zip_map', List.map_map]
  congr 1

/-- **C54 (sum over turns).** The response of a `MultiCoil` built from lists is the sum over its turns of the response
of a one-turn `Coil`, times the polarity, plus, if mirrored, the same at the mirrored positions with the second
polarity. -/
theorem C54_sum_over_turns (e : Env K) (turns : List (K × K)) (current : K) (control mirror : Bool)
    (pol : K × K) (area : AreaSpec K) (q : Quantity) (R Z : K) :
    ∃ c, MultiCoil.makeList (turns.map Prod.fst) (turns.map Prod.snd) current control mirror pol area = .ok c ∧
      c.response e q R Z =
        (turns.map fun t => pol.1 * (PointCoil.make t.1 t.2).response e q R Z).sum +
        if mirror then (turns.map fun t => pol.2 * (PointCoil.make t.1 (-t.2)).response e q R Z).sum else 0 := by
  refine ⟨⟨turns.map Prod.fst, turns.map Prod.snd, (turns.map Prod.fst).length, current, control, mirror, pol,
    area, (turns.map Prod.fst).sum / (turns.map Prod.fst).length,
    (turns.map Prod.snd).sum / (turns.map Prod.snd).length⟩, by simp [MultiCoil.makeList], ?_⟩
  cases mirror
  · simp only [MultiCoil.response, Bool.false_eq_true, if_false, add_zero]
    rw [sum_zip_perm (f := fun p => e.G q p.1 p.2 R Z * pol.1)]
    congr 1
    exact List.map_congr_left fun t _ => by simp [PointCoil.response, PointCoil.make, mul_comm]
  · simp only [MultiCoil.response, if_true]
    rw [sum_zip_perm (f := fun p => e.G q p.1 p.2 R Z * pol.1),
      sum_zip_perm (f := fun p => e.G q p.1 (-p.2) R Z * pol.2)]
    congr 2 <;>
      exact List.map_congr_left fun t _ => by simp [PointCoil.response, PointCoil.make, mul_comm]

/-- **C54 (refuted: turns of a single point).** A single-point `MultiCoil` with `n` turns responds like a coil with
one turn, so not like a `Coil` with `n` turns unless `n = 1` or the response vanishes. -/
theorem C54_single_point_turns_wrong (e : Env K) (Rc Zc n current : K) (q : Quantity) (R Z : K) :
    (MultiCoil.makePoint Rc Zc current n).response e q R Z = (PointCoil.make Rc Zc current 1).response e q R Z ∧
    ((MultiCoil.makePoint Rc Zc current n).response e q R Z =
      (PointCoil.make Rc Zc current n).response e q R Z ↔ n = 1 ∨ e.G q Rc Zc R Z = 0) := by
  have h : (MultiCoil.makePoint Rc Zc current n).response e q R Z = e.G q Rc Zc R Z := by
    simp [MultiCoil.makePoint, MultiCoil.response]
  refine ⟨by rw [h]; simp [PointCoil.make, PointCoil.response], ?_⟩
  rw [h]
  simp only [PointCoil.make, PointCoil.response]
  constructor
  · intro h2
    by_cases hg : e.G q Rc Zc R Z = 0
    · exact Or.inr hg
    · left
      have : e.G q Rc Zc R Z * 1 = e.G q Rc Zc R Z * n := by rw [mul_one]; exact h2
      exact (mul_left_cancel₀ hg this).symm
  · rintro (rfl | h2)
    · ring
    · rw [h2]; ring

/-- **C54 (mirror symmetry).** With `mirror=True` and polarity `(p, s p)`, `s = 1` or `s = -1`, flux and vertical field
are even (`s = 1`) or odd (`s = -1`) in `Z` and the radial field is odd or even. -/
theorem C54_mirror_symmetry (ek ee : ℝ → ℝ) (c : MultiCoil ℝ) (hm : c.mirror = true) (s : ℝ)
    (hs : s = 1 ∨ s = -1) (hpol : c.polarity.2 = s * c.polarity.1) (R Z : ℝ) :
    c.response (realEnv ek ee) .psi R (-Z) = s * c.response (realEnv ek ee) .psi R Z ∧
    c.response (realEnv ek ee) .bz R (-Z) = s * c.response (realEnv ek ee) .bz R Z ∧
    c.response (realEnv ek ee) .br R (-Z) = -s * c.response (realEnv ek ee) .br R Z := by
  have hs2 : s * s = 1 := by rcases hs with rfl | rfl <;> norm_num
  have key : ∀ (q : Quantity) (σ : ℝ), (∀ a b, (realEnv ek ee).G q a b R (-Z) =
      σ * (realEnv ek ee).G q a (-b) R Z) →
      c.response (realEnv ek ee) q R (-Z) = σ * s * c.response (realEnv ek ee) q R Z := by
    intro q σ h
    simp only [MultiCoil.response, hm, if_true, hpol]
    generalize c.Rfil.zip c.Zfil = l
    rw [mul_add, ← List.sum_map_mul_left, ← List.sum_map_mul_left, add_comm]
    congr 2
    · refine List.map_congr_left fun p _ => ?_
      rw [h p.1 (-p.2), neg_neg]; ring
    · refine List.map_congr_left fun p _ => ?_
      rw [h p.1 p.2]
      linear_combination (-σ * (realEnv ek ee).G q p.1 (-p.2) R Z * c.polarity.1) * hs2
  have hg : ∀ a b R Z, greens ek ee a b R (-Z) = greens ek ee a (-b) R Z := by
    intro a b R Z
    have := (C15_greens_symmetries ek ee a b R (-Z)).2.2.1
    rw [neg_neg] at this
    exact this.symm
  refine ⟨?_, ?_, ?_⟩
  · have := key .psi 1 fun a b => by simp only [realEnv, one_mul]; exact hg a b R Z
    rwa [one_mul] at this
  · have := key .bz 1 fun a b => by
      simp only [realEnv, one_mul, greensBz]
      rw [hg, hg]
    rwa [one_mul] at this
  · have := key .br (-1) fun a b => by
      simp only [realEnv, greensBr]
      rw [show -Z - 1e-3 = -(Z + 1e-3) by ring, show -Z + 1e-3 = -(Z - 1e-3) by ring, hg, hg]
      ring
    rw [this]; ring

example : (MultiCoil.makeList [1, 2] [3, 4] (current := (0:ℚ)) (mirror := true) (polarity := (1, -1))).map
    (fun c => c.response exEnv .psi 5 6) =
      .ok ((5 + (6-3)^2) + (10 + (6-4)^2) - (5 + (6+3)^2) - (10 + (6+4)^2)) := by decide +kernel

/-! ## C58: Solenoid -/

/-- **C58.** A solenoid with at least two turns responds as the sum of `Ns` one-turn coils at heights
`Zsmin + i (Zsmax - Zsmin)/(Ns - 1)`: the first at `Zsmin`, the last at `Zsmax`; its field is that of these coils all
carrying the solenoid current. -/
theorem C58_solenoid (e : Env K) [CharZero K] (s : Solenoid K) (h : 2 ≤ s.Ns) :
    ∃ z : ℕ → K, z 0 = s.Zsmin ∧ z (s.Ns - 1) = s.Zsmax ∧
      (∀ i, z (i + 1) - z i = (s.Zsmax - s.Zsmin) / (s.Ns - 1)) ∧
      ∀ q R Z,
        s.response e q R Z =
          ((List.range s.Ns).map fun i => (PointCoil.make s.Rs (z i)).response e q R Z).sum ∧
        s.field e q R Z =
          ((List.range s.Ns).map fun i =>
            (AnyCoil.point (PointCoil.make s.Rs (z i) s.current)).field e q R Z).sum := by
  have hne : ((s.Ns : K) - 1) ≠ 0 := by
    have : (s.Ns : K) ≠ ((1 : ℕ) : K) := by
      rw [Ne, Nat.cast_inj]; omega
    rw [Nat.cast_one] at this
    exact sub_ne_zero.mpr this
  refine ⟨fun i : ℕ => s.Zsmin + (i : K) * ((s.Zsmax - s.Zsmin) / ((s.Ns : K) - 1)), by simp, ?_, ?_, ?_⟩
  · show s.Zsmin + ((s.Ns - 1 : ℕ) : K) * _ = _
    rw [Nat.cast_sub (by omega), Nat.cast_one]
    field_simp
    ring
  · intro i
    push_cast
    ring
  · intro q R Z
    have h1 : s.response e q R Z = ((List.range s.Ns).map fun i : ℕ =>
        (PointCoil.make s.Rs (s.Zsmin + (i : K) * ((s.Zsmax - s.Zsmin) / ((s.Ns : K) - 1)))).response
          e q R Z).sum := by
      rw [Solenoid.response_eq, linspace, if_neg (by omega), List.map_map]
      congr 1
      exact List.map_congr_left fun i _ => by simp [PointCoil.response, PointCoil.make]
    refine ⟨h1, ?_⟩
    rw [Solenoid.field, h1, ← List.sum_map_mul_right]
    rfl

example : (⟨1, 0, 3, 4, 2, true⟩ : Solenoid ℚ).response exEnv .psi 5 6 =
    (5 + (6-0)^2) + (5 + (6-1)^2) + (5 + (6-2)^2) + (5 + (6-3)^2) := by decide +kernel

/-! ## C59: FilamentCoil -/

/-- **C59.** The response of a `FilamentCoil` is turns times the mean of the one-turn responses of its filaments, and
does not depend on the order of the filaments. -/
theorem C59_mean_of_filaments (e : Env K) (fils fils' : List (K × K)) (hp : fils'.Perm fils)
    (shape : Option (List (Polygons.Pt K))) (current turns : K) (control : Bool) (c c' : FilamentCoil K)
    (hc : FilamentCoil.make (fils.map Prod.fst) (fils.map Prod.snd) shape current turns control = .ok c)
    (hc' : FilamentCoil.make (fils'.map Prod.fst) (fils'.map Prod.snd) shape current turns control = .ok c')
    (q : Quantity) (R Z : K) :
    c.response e q R Z = turns *
      ((fils.map fun p => (PointCoil.make p.1 p.2).response e q R Z).sum / fils.length) ∧
    c'.response e q R Z = c.response e q R Z := by
  have key : ∀ (fils : List (K × K)) (c : FilamentCoil K),
      FilamentCoil.make (fils.map Prod.fst) (fils.map Prod.snd) shape current turns control = .ok c →
      c.response e q R Z = turns *
        ((fils.map fun p => (PointCoil.make p.1 p.2).response e q R Z).sum / fils.length) := by
    intro fils c hc
    have : c.points = (fils.map Prod.fst).zip (fils.map Prod.snd) ∧ c.turns = turns ∧
        c.npoints = fils.length := by
      simp only [FilamentCoil.make] at hc
      split at hc
      · simp at hc
      · split at hc
        · simp only [Except.ok.injEq] at hc
          subst hc
          simp
        · simp at hc
    rw [FilamentCoil.response, this.1, this.2.1, this.2.2, sum_zip_perm (f := fun p => e.G q p.1 p.2 R Z)]
    simp only [PointCoil.make, PointCoil.response, mul_one]
    ring
  refine ⟨key fils c hc, ?_⟩
  rw [key fils c hc, key fils' c' hc', hp.length_eq, (hp.map _).sum_eq]

/-- **C59 (moves).** Setting `R` or `Z` shifts every filament by the same amount: the difference between the new and
the old centre; the centre reads back the new value. -/
theorem C59_moves_rigidly (c : FilamentCoil K) (v : K) :
    (c.setR v).rCentre = v ∧ (c.setR v).zCentre = c.zCentre ∧
    (c.setR v).points = c.points.map (fun p => (p.1 + (v - c.rCentre), p.2)) ∧
    (c.setZ v).zCentre = v ∧ (c.setZ v).rCentre = c.rCentre ∧
    (c.setZ v).points = c.points.map (fun p => (p.1, p.2 + (v - c.zCentre))) ∧
    (∀ w, (c.setR v).setR w = c.setR w) ∧ (∀ w, (c.setZ v).setZ w = c.setZ w) ∧
    (c.setR v).setR c.rCentre = c ∧ (c.setZ v).setZ c.zCentre = c := by
  have h1 : ∀ w, (c.setR v).setR w = c.setR w := by
    intro w
    simp only [FilamentCoil.setR, List.map_map]
    congr 1
    exact List.map_congr_left fun p _ => by simp only [Function.comp_apply]; congr 1; ring
  have h2 : ∀ w, (c.setZ v).setZ w = c.setZ w := by
    intro w
    simp only [FilamentCoil.setZ, List.map_map]
    congr 1
    exact List.map_congr_left fun p _ => by simp only [Function.comp_apply]; congr 1; ring
  refine ⟨rfl, rfl, rfl, rfl, rfl, rfl, h1, h2, ?_, ?_⟩
  · rw [h1]; simp [FilamentCoil.setR]
  · rw [h2]; simp [FilamentCoil.setZ]

example : (FilamentCoil.make [1, 2, 3] [4, 5, 6] none (0 : ℚ) 7).map
    (fun c => (c.response exEnv .psi 5 6, (c.setR 10).points)) =
      .ok (7 * ((5 + (6-4)^2 + (10 + (6-5)^2) + 15) / 3), [(1 + 10 - 9/5, 4), (2 + 10 - 9/5, 5), (3 + 10 - 9/5, 6)]) := by
  decide +kernel

/-! ## C62: flux of the equilibrium after a coil was moved -/

/-- **C62 (refuted).** `Equilibrium.psi()` uses Green's functions created in the constructor. After a coil is moved the
coil part of it is no longer the flux of the machine. -/
theorem C62_moved_coil_stale : ∃ (e : Env ℚ) (m m' : Machine ℚ) (R Z : ℚ), m.LabelsDistinct ∧
    setRadius "P" none none m 2 = .ok m' ∧
    (m'.calcFromGreens (m.createGreens e R Z)).map Prod.fst ≠ .ok (m'.field e .psi R Z).1 := by
  refine ⟨exEnv, ⟨[("P", .coil (.point (PointCoil.make 1 0 1)))]⟩,
    ⟨[("P", .coil (.point (PointCoil.make 2 0 1)))]⟩, 1, 0, ⟨by decide, ?_⟩, ?_, by decide +kernel⟩
  · intro l c h; simp at h
  · simp [setRadius, indexOf, assign, AnyCoil.setR, limit, PointCoil.make]

/-- **C62 (partial).** The coil part of the flux is right after any history of operations that do not move coils, and after
the Green's functions have been created again (as `optimise.optimise` does). Missing: moves without that. -/
theorem C62_refreshed_partial (e : Env K) (m : Machine K) (hn : m.LabelsDistinct) (ops : List (Op K))
    (R Z : K) :
    (runAll e m ops).calcFromGreens (m.createGreens e R Z) = .ok ((runAll e m ops).field e .psi R Z) ∧
    m.calcFromGreens (m.createGreens e R Z) = .ok (m.field e .psi R Z) :=
  ⟨C17_greens e m hn ops R Z, C17_greens e m hn [] R Z⟩

example : (exMachine.calcFromGreens (exMachine.createGreens exEnv 1 1)).map Prod.fst =
    .ok (exMachine.field exEnv .psi 1 1).1 := by
  rw [(C62_refreshed_partial exEnv exMachine exMachine_labels [] 1 1).2]; rfl

/-! ## C63: moved coils -/

/-- The environment seen from a source displaced by `(dr, dz)`. -/
def Env.displaced (e : Env K) (dr dz : K) : Env K :=
  { e with G := fun q Rc Zc R Z => e.G q (Rc + dr) (Zc + dz) R Z }

/-- The region seen from a coil displaced by `(dr, dz)`; the overlap with an outline is that of the displaced
outline. -/
def AnyCoil.Region.displaced (p : AnyCoil.Region K) (dr dz : K) : AnyCoil.Region K where
  contains x := p.contains (x.1 + dr, x.2 + dz)
  overlap o := p.overlap (o.map fun x => (x.1 + dr, x.2 + dz))

/-- **C63 (partial: Coil, ShapedCoil, FilamentCoil, and MultiCoil).** Moving a coil radially by `s` gives the response of the same
coil with its sources displaced by `s`, and the enclosed fraction seen by a Rogowski loop is that of the displaced coil
(for `Coil`, `FilamentCoil`, `MultiCoil`).
Missing: the enclosed fraction of a `ShapedCoil` and the field of a `PreCalcCoil`, which do not move. -/
theorem C63_move_radially_partial (e : Env K) (p : AnyCoil.Region K) (q : Quantity) (R Z s : K) :
    (∀ c : PointCoil K, ((AnyCoil.point c).setR (c.R + s)).response e q R Z =
        (AnyCoil.point c).response (e.displaced s 0) q R Z ∧
      ((AnyCoil.point c).setR (c.R + s)).inShape p = (AnyCoil.point c).inShape (p.displaced s 0)) ∧
    (∀ c : FilamentCoil K, ((AnyCoil.filament c).setR (c.rCentre + s)).response e q R Z =
        (AnyCoil.filament c).response (e.displaced s 0) q R Z ∧
      ((AnyCoil.filament c).setR (c.rCentre + s)).inShape p =
        (AnyCoil.filament c).inShape (p.displaced s 0)) ∧
    (∀ c : MultiCoil K, ((AnyCoil.multi c).setR (c.rCentre + s)).response e q R Z =
        (AnyCoil.multi c).response (e.displaced s 0) q R Z ∧
      ((AnyCoil.multi c).setR (c.rCentre + s)).inShape p = (AnyCoil.multi c).inShape (p.displaced s 0)) ∧
    (∀ c : ShapedCoil K, ((AnyCoil.shaped c).setR (c.rCentre + s)).response e q R Z =
        (AnyCoil.shaped c).response (e.displaced s 0) q R Z) := by
  refine ⟨fun c => ⟨?_, ?_⟩, fun c => ⟨?_, ?_⟩, fun c => ⟨?_, ?_⟩, fun c => ?_⟩
  · simp [AnyCoil.setR, AnyCoil.response, PointCoil.response, Env.displaced]
  · simp [AnyCoil.setR, AnyCoil.inShape, AnyCoil.Region.displaced]
  · simp [AnyCoil.setR, AnyCoil.response, FilamentCoil.response, FilamentCoil.setR, Env.displaced,
      Function.comp_def]
  · simp [AnyCoil.setR, AnyCoil.inShape, FilamentCoil.setR, AnyCoil.Region.displaced, Function.comp_def]
  · simp [AnyCoil.setR, AnyCoil.response, MultiCoil.response, MultiCoil.setR, Env.displaced,
      Function.comp_def, List.zip_map_left]
  · simp [AnyCoil.setR, AnyCoil.inShape, MultiCoil.setR, AnyCoil.Region.displaced]
  · simp [AnyCoil.setR, AnyCoil.response, ShapedCoil.response, ShapedCoil.setR, Env.displaced,
      Function.comp_def]

/-- **C63 (partial).** The same for a vertical move; for a mirrored `MultiCoil` the mirror image moves the other way, so
only the unmirrored coil is a rigid displacement. -/
theorem C63_move_vertically_partial (e : Env K) (p : AnyCoil.Region K) (q : Quantity) (R Z s : K) :
    (∀ c : PointCoil K, ((AnyCoil.point c).setZ (c.Z + s)).response e q R Z =
        (AnyCoil.point c).response (e.displaced 0 s) q R Z ∧
      ((AnyCoil.point c).setZ (c.Z + s)).inShape p = (AnyCoil.point c).inShape (p.displaced 0 s)) ∧
    (∀ c : FilamentCoil K, ((AnyCoil.filament c).setZ (c.zCentre + s)).response e q R Z =
        (AnyCoil.filament c).response (e.displaced 0 s) q R Z ∧
      ((AnyCoil.filament c).setZ (c.zCentre + s)).inShape p =
        (AnyCoil.filament c).inShape (p.displaced 0 s)) ∧
    (∀ c : MultiCoil K, c.mirror = false → ((AnyCoil.multi c).setZ (c.zCentre + s)).response e q R Z =
        (AnyCoil.multi c).response (e.displaced 0 s) q R Z) ∧
    (∀ c : MultiCoil K,
      ((AnyCoil.multi c).setZ (c.zCentre + s)).inShape p = (AnyCoil.multi c).inShape (p.displaced 0 s)) ∧
    (∀ c : ShapedCoil K, ((AnyCoil.shaped c).setZ (c.zCentre + s)).response e q R Z =
        (AnyCoil.shaped c).response (e.displaced 0 s) q R Z) := by
  refine ⟨fun c => ⟨?_, ?_⟩, fun c => ⟨?_, ?_⟩, fun c hm => ?_, fun c => ?_, fun c => ?_⟩
  · simp [AnyCoil.setZ, AnyCoil.response, PointCoil.response, Env.displaced]
  · simp [AnyCoil.setZ, AnyCoil.inShape, AnyCoil.Region.displaced]
  · simp [AnyCoil.setZ, AnyCoil.response, FilamentCoil.response, FilamentCoil.setZ, Env.displaced,
      Function.comp_def]
  · simp [AnyCoil.setZ, AnyCoil.inShape, FilamentCoil.setZ, AnyCoil.Region.displaced, Function.comp_def]
  · simp [AnyCoil.setZ, AnyCoil.response, MultiCoil.response, MultiCoil.setZ, Env.displaced,
      Function.comp_def, List.zip_map_right, hm]
  · simp [AnyCoil.setZ, AnyCoil.inShape, MultiCoil.setZ, AnyCoil.Region.displaced]
  · simp [AnyCoil.setZ, AnyCoil.response, ShapedCoil.response, ShapedCoil.setZ, Env.displaced,
      Function.comp_def]

/-- **C63 (refuted).** The outline of a moved `ShapedCoil` stays behind, so a Rogowski loop still sees it at the old
place; the tables of a moved `PreCalcCoil` stay behind, so its field does not move at all. -/
theorem C63_stale_outline_and_tables (e : Env K) (v : K) :
    (∀ (c : ShapedCoil K) (p : AnyCoil.Region K), ((AnyCoil.shaped c).setR v).inShape p =
      (AnyCoil.shaped c).inShape p ∧ (c.setR v).shape = c.shape) ∧
    (∀ (c : PreCalcCoil K) (q : Quantity) (R Z : K), ((AnyCoil.precalc c).setR v).response e q R Z =
      (AnyCoil.precalc c).response e q R Z) :=
  ⟨fun _ _ => ⟨rfl, rfl⟩, fun _ _ _ _ => rfl⟩

/-- A case where the enclosed fraction of a moved coil is wrong: a triangle moved out of the half plane `r < 3`. -/
example : (ShapedCoil.make [((0 : ℚ), (0 : ℚ)), (0, 2), (2, 0)] 1 1 true 1).map (Option.map fun c =>
    let p : AnyCoil.Region ℚ := ⟨fun _ => true, fun o => if o.all fun x => decide (x.1 < 3) then 2 else 0⟩
    (((AnyCoil.shaped c).setR (c.rCentre + 10)).inShape p,
      (AnyCoil.shaped c).inShape (p.displaced 10 0))) = .ok (some (1, 0)) := by decide +kernel

/-! ## C64: measures for the optimiser -/

theorem pyMax_spec [IsStrictOrderedRing K] (l : List K) (v : K) :
    pyMax l = .ok v ↔ v ∈ l ∧ ∀ x ∈ l, x ≤ v := by
  rw [pyMax]
  rcases h : l.max? with _ | w
  · rw [List.max?_eq_none_iff] at h
    subst h
    simp
  · have := (List.max?_eq_some_iff (a := w)).mp h
    simp only [Except.ok.injEq]
    constructor
    · rintro rfl; exact this
    · rintro ⟨h1, h2⟩
      exact le_antisymm (h2 _ this.1) (this.2 _ h1)

theorem pyMax_error (l : List K) : pyMax l = .error .value ↔ l = [] := by
  cases l with
  | nil => simp [pyMax]
  | cons a l => simp [pyMax, List.max?_cons]

theorem dictValues_eq {β : Type*} (l : List (String × β)) (h : (l.map Prod.fst).Nodup) :
    dictValues l = l.map Prod.snd := by
  induction l with
  | nil => rfl
  | cons a l ih =>
    obtain ⟨k, v⟩ := a
    rw [List.map_cons, List.nodup_cons] at h
    rw [dictValues, if_neg, ih h.2, List.map_cons]
    intro hk
    simp only [List.any_eq_true, beq_iff_eq] at hk
    obtain ⟨x, hx, hxk⟩ := hk
    exact h.1 (List.mem_map.mpr ⟨x, hx, hxk⟩)

/-- **C64 (currents).** With distinct labels `max_abs_coil_current` is the largest absolute current of the coils and
circuits: attained by one of them and an upper bound for all; with no coils it raises `ValueError`. -/
theorem C64_max_abs_current [IsStrictOrderedRing K] (m : Machine K)
    (h : (m.coils.map Prod.fst).Nodup) :
    (∀ v, maxAbsCurrent m = .ok v ↔
      (∃ x ∈ m.coils, |x.2.current| = v) ∧ ∀ x ∈ m.coils, |x.2.current| ≤ v) ∧
    (maxAbsCurrent m = .error .value ↔ m.coils = []) := by
  have hd : (dictValues m.getCurrents).map (fun I => |I|) = m.coils.map fun x => |x.2.current| := by
    rw [dictValues_eq, Machine.getCurrents, List.map_map, List.map_map]
    · rfl
    · rw [Machine.getCurrents, List.map_map]; exact h
  refine ⟨fun v => ?_, ?_⟩
  · rw [maxAbsCurrent, hd, pyMax_spec]
    simp only [List.mem_map, forall_exists_index, and_imp, forall_apply_eq_imp_iff₂]
  · rw [maxAbsCurrent, hd, pyMax_error, List.map_eq_nil_iff]

example : maxAbsCurrent exMachine = .ok 5 := by decide +kernel

/-- **C64 (refuted: forces).** `max_coil_force` raises `KeyError` for every machine that contains a circuit or a
solenoid. -/
theorem C64_max_coil_force_fails (e : Env K) (m : Machine K)
    (h : ∃ x ∈ m.coils, ∀ c, x.2 ≠ .coil c) : maxCoilForce e m = .error .key := by
  rw [maxCoilForce, if_neg]
  intro hall
  rw [List.all_eq_true] at hall
  obtain ⟨x, hx, hc⟩ := h
  have := hall x hx
  obtain ⟨l, x⟩ := x
  cases x with
  | coil c => exact hc c rfl
  | circuit c => simp at this
  | solenoid c => simp at this

/-- **C64 (partial: forces).** For a non-empty machine of coils only, `max_coil_force` is the largest force magnitude, with
the forces of C20 evaluated *without* the plasma. Missing: plasma field, circuits, solenoids. -/
theorem C64_max_coil_force_partial [IsStrictOrderedRing K] (e : Env K) (m : Machine K)
    (h : ∀ x ∈ m.coils, ∃ c, x.2 = .coil c) (v : K) :
    maxCoilForce e m = .ok v ↔
      (∃ (i : ℕ) (r : (K × K) × Machine K), m.coilForces e (fun _ _ _ => 0) (.direct i) = some r ∧
        e.sqrt (r.1.1 ^ 2 + r.1.2 ^ 2) = v) ∧
      ∀ (i : ℕ) (r : (K × K) × Machine K), m.coilForces e (fun _ _ _ => 0) (.direct i) = some r →
        e.sqrt (r.1.1 ^ 2 + r.1.2 ^ 2) ≤ v := by
  have hs : m.Synced := by
    rw [Machine.synced_iff]
    intro x hx
    obtain ⟨c, hc⟩ := h x hx
    rw [hc]; trivial
  have hlocs : m.locs = (List.range m.coils.length).map Machine.Loc.direct := by
    rw [Machine.locs]
    have : (m.coils.zipIdx.map fun p => Machine.entryLocs p.1.2 p.2) = m.coils.zipIdx.map fun p => [Machine.Loc.direct p.2] := by
      refine List.map_congr_left fun p hp => ?_
      have : p.1 ∈ m.coils := by
        obtain ⟨_, h2, h3⟩ := List.mem_zipIdx hp
        rw [h3]; exact List.getElem_mem _
      obtain ⟨c, hc⟩ := h p.1 this
      rw [hc]; rfl
    rw [this]
    have h2 : (m.coils.zipIdx.map fun p => [Machine.Loc.direct p.2]) =
        (m.coils.zipIdx.map Prod.snd).map fun i => [Machine.Loc.direct i] := by
      rw [List.map_map]; rfl
    rw [h2, List.zipIdx_map_snd, ← List.range_eq_range']
    generalize List.range m.coils.length = l
    induction l with
    | nil => rfl
    | cons a l ih => simp [ih]
  rw [maxCoilForce, if_pos, pyMax_spec, Machine.getForces, Machine.forcesLoop_fst e _ hs, hlocs]
  · have hrange : ∀ (i : ℕ) r, m.coilForces e (fun _ _ _ => 0) (.direct i) = some r →
        i < m.coils.length := by
      intro i r hr
      by_contra hi
      have : m.coilAt (.direct i) = none := by
        simp [Machine.coilAt, List.getElem?_eq_none (not_lt.mp hi)]
      simp [Machine.coilForces, this] at hr
    simp only [List.mem_map, List.mem_filterMap, List.mem_range, exists_exists_and_eq_and]
    constructor
    · rintro ⟨⟨f, ⟨i, hi, hf⟩, rfl⟩, h2⟩
      rw [Option.map_eq_some_iff] at hf
      obtain ⟨r, hr, rfl⟩ := hf
      refine ⟨⟨i, r, hr, rfl⟩, fun j r' hr' => ?_⟩
      exact h2 _ ⟨r'.1, ⟨j, hrange j r' hr', by rw [hr']; rfl⟩, rfl⟩
    · rintro ⟨⟨i, r, hr, rfl⟩, h2⟩
      refine ⟨⟨r.1, ⟨i, hrange i r hr, by rw [hr]; rfl⟩, rfl⟩, ?_⟩
      rintro x ⟨f, ⟨j, hj, hf⟩, rfl⟩
      rw [Option.map_eq_some_iff] at hf
      obtain ⟨r', hr', rfl⟩ := hf
      exact h2 j r' hr'
  · rw [List.all_eq_true]
    intro x hx
    obtain ⟨c, hc⟩ := h x hx
    rw [hc]

/-- **C64 (refuted: plasma).** The plasma field is left out: a single coil in a plasma field feels a larger force than
`max_coil_force` reports. -/
theorem C64_plasma_ignored : ∃ (e : Env ℚ) (m : Machine ℚ) (plasma : Quantity → ℚ → ℚ → ℚ) (v : ℚ),
    maxCoilForce e m = .ok v ∧
    ∃ r, (m.coilForces e plasma (.direct 0)).map Prod.fst = some r ∧ e.sqrt (r.1 ^ 2 + r.2 ^ 2) > v :=
  ⟨exEnv, ⟨[("P", .coil (.point (PointCoil.make 1 0 1)))]⟩, fun _ _ _ => 10 ^ 10,
    ((hoopForce exEnv 1 (1 / 3500000000) 1) * 6) ^ 2, by decide +kernel,
    ((10 ^ 10 + hoopForce exEnv 1 (1 / 3500000000) 1) * 6, - 10 ^ 10 * 6), by decide +kernel,
    by decide +kernel⟩

end FreeGS
