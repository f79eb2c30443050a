import Verif.Spec.Nested
import Mathlib.Tactic.Ring

set_option linter.unusedSectionVars false

/-!
# Lemmas on circuits of anything
-/

namespace FreeGS.Nested

universe u
variable {K : Type u} [Field K] [LinearOrder K]

theorem setCurrent_coil (v w : K) (c : AnyCoil K) : (c.setCurrent w).setCurrent v = c.setCurrent v := by
  cases c <;> rfl

theorem setCurrent_own (c : AnyCoil K) : c.setCurrent c.current = c := by
  cases c <;> rfl

theorem response_setCurrent (e : Env K) (q : Quantity) (R Z v : K) (c : AnyCoil K) :
    (c.setCurrent v).response e q R Z = c.response e q R Z := by
  cases c <;> rfl

mutual

theorem Source.setCurrent_setCurrent (v w : K) : (s : Source K) → (s.setCurrent w).setCurrent v = s.setCurrent v
  | .coil c => by simp only [Source.setCurrent, setCurrent_coil]
  | .solenoid s => by simp only [Source.setCurrent]
  | .circuit I b ms => by simp only [Source.setCurrent, Members.setCurrent_setCurrent v w ms]

theorem Members.setCurrent_setCurrent (v w : K) : (ms : Members K) → (ms.setCurrent w).setCurrent v = ms.setCurrent v
  | .nil => rfl
  | .cons l s m rest => by
    simp only [Members.setCurrent, Source.setCurrent_setCurrent (m * v) (m * w) s, Members.setCurrent_setCurrent v w rest]

end

theorem Source.current_setCurrent (v : K) (s : Source K) : (s.setCurrent v).current = v := by
  cases s with
  | coil c => cases c <;> rfl
  | solenoid s => rfl
  | circuit I b ms => rfl

/-- Weights of leaves and their fields at unit current do not depend on the currents. -/
theorem unit_setCurrent_aux (e : Env K) (q : Quantity) (R Z : K) :
    (∀ s : Source K, ∀ v, ((s.setCurrent v).leaves.map fun p => (p.1, p.2.response e q R Z)) =
      s.leaves.map fun p => (p.1, p.2.response e q R Z)) ∧
    ∀ ms : Members K, ∀ v, ((ms.setCurrent v).leaves.map fun p => (p.1, p.2.response e q R Z)) =
      ms.leaves.map fun p => (p.1, p.2.response e q R Z) := by
  have key : ∀ n : ℕ, (∀ s : Source K, s.size ≤ n → ∀ v, ((s.setCurrent v).leaves.map fun p => (p.1, p.2.response e q R Z)) =
      s.leaves.map fun p => (p.1, p.2.response e q R Z)) ∧
    ∀ ms : Members K, ms.size ≤ n → ∀ v, ((ms.setCurrent v).leaves.map fun p => (p.1, p.2.response e q R Z)) =
      ms.leaves.map fun p => (p.1, p.2.response e q R Z) := by
    intro n
    induction n with
    | zero =>
      refine ⟨fun s h => ?_, fun ms h => ?_⟩
      · cases s <;> simp [Source.size] at h
      · cases ms with
        | nil => intro v; rfl
        | cons l s m rest => simp [Members.size] at h
    | succ n ih =>
      refine ⟨fun s h v => ?_, fun ms h v => ?_⟩
      · cases s with
        | coil c => simp only [Source.setCurrent, Source.leaves, List.map_cons, List.map_nil, Leaf.response, response_setCurrent]
        | solenoid s => rfl
        | circuit I b ms =>
          simp only [Source.size] at h
          exact ih.2 ms (by omega) v
      · cases ms with
        | nil => rfl
        | cons l s m rest =>
          simp only [Members.size] at h
          have h1 := ih.1 s (by omega) (m * v)
          have h2 := ih.2 rest (by omega) v
          simp only [Members.setCurrent, Members.leaves, List.map_append, List.map_map, Function.comp_def, h2]
          congr 1
          have := congrArg (List.map fun p : K × K => (m * p.1, p.2)) h1
          simpa only [List.map_map, Function.comp_def] using this
  exact ⟨fun s => (key s.size).1 s le_rfl, fun ms => (key ms.size).2 ms le_rfl⟩

theorem Source.unitField_setCurrent (e : Env K) (q : Quantity) (R Z v : K) (s : Source K) :
    (s.setCurrent v).unitField e q R Z = s.unitField e q R Z := by
  have h := congrArg (fun l : List (K × K) => (l.map fun p => p.1 * p.2).sum) ((unit_setCurrent_aux e q R Z).1 s v)
  simpa only [Source.unitField, List.map_map, Function.comp_def] using h

/-- The weighted sum of the members of a circuit. -/
def Members.unitField (e : Env K) (q : Quantity) (R Z : K) (ms : Members K) : K :=
  (ms.leaves.map fun p => p.1 * p.2.response e q R Z).sum

theorem Members.unitField_cons (e : Env K) (q : Quantity) (R Z : K) (l : String) (s : Source K) (m : K) (rest : Members K) :
    (Members.cons l s m rest).unitField e q R Z = m * s.unitField e q R Z + rest.unitField e q R Z := by
  simp only [Members.unitField, Source.unitField, Members.leaves, List.map_append, List.sum_append, List.map_map, Function.comp_def]
  congr 1
  induction s.leaves with
  | nil => simp
  | cons p l ih => simp only [List.map_cons, List.sum_cons, ih]; ring

mutual

theorem Source.response_eq (e : Env K) (q : Quantity) (R Z : K) : (s : Source K) → s.response e q R Z = s.unitField e q R Z
  | .coil c => by simp [Source.response, Source.unitField, Source.leaves, Leaf.response]
  | .solenoid s => by simp [Source.response, Source.unitField, Source.leaves, Leaf.response]
  | .circuit I b ms => by
    rw [Source.response, Members.responseLoop_eq e q R Z ms 0, zero_add]
    rfl

theorem Members.responseLoop_eq (e : Env K) (q : Quantity) (R Z : K) :
    (ms : Members K) → ∀ acc, ms.responseLoop e q R Z acc = acc + ms.unitField e q R Z
  | .nil, acc => by simp [Members.responseLoop, Members.unitField, Members.leaves]
  | .cons l s m rest, acc => by
    rw [Members.responseLoop, Members.responseLoop_eq e q R Z rest, Source.response_eq e q R Z s, Members.unitField_cons]
    ring

end

/-- Reading a field: the value, and the source with its own current assigned once more. -/
theorem field_aux (e : Env K) (q : Quantity) (R Z : K) (n : ℕ) :
    (∀ s : Source K, s.size ≤ n → s.field e q R Z = (s.current * s.unitField e q R Z, s.setCurrent s.current)) ∧
    ∀ ms : Members K, ms.size ≤ n → ∀ I acc, ms.fieldLoop e q R Z I acc = (acc + I * ms.unitField e q R Z, ms.setCurrent I) := by
  induction n with
  | zero =>
    refine ⟨fun s h => ?_, fun ms h => ?_⟩
    · cases s <;> simp [Source.size] at h
    · cases ms with
      | nil => intro I acc; simp [Members.fieldLoop, Members.unitField, Members.leaves, Members.setCurrent]
      | cons l s m rest => simp [Members.size] at h
  | succ n ih =>
    refine ⟨fun s h => ?_, fun ms h I acc => ?_⟩
    · cases s with
      | coil c =>
        simp only [Source.field, Source.current, Source.unitField, Source.leaves, List.map_cons, List.map_nil, List.sum_cons, List.sum_nil,
          Leaf.response, Source.setCurrent, setCurrent_own, AnyCoil.field]
        rw [one_mul, add_zero, mul_comm]
      | solenoid s =>
        simp only [Source.field, Source.current, Source.unitField, Source.leaves, List.map_cons, List.map_nil, List.sum_cons, List.sum_nil,
          Leaf.response, Source.setCurrent, Solenoid.field]
        rw [one_mul, add_zero, mul_comm]
      | circuit I b ms =>
        simp only [Source.size] at h
        rw [Source.field, ih.2 ms (by omega) I 0]
        simp only [Source.current, zero_add, Source.setCurrent]
        rfl
    · cases ms with
      | nil => simp [Members.fieldLoop, Members.unitField, Members.leaves, Members.setCurrent]
      | cons l s m rest =>
        simp only [Members.size] at h
        rw [Members.fieldLoop, ih.1 _ (by rw [Source.size_setCurrent]; omega), ih.2 rest (by omega)]
        simp only [Source.current_setCurrent, Source.unitField_setCurrent, Source.setCurrent_setCurrent, Members.setCurrent,
          Members.unitField_cons, Prod.mk.injEq]
        refine ⟨by ring, by rw [mul_comm I m]⟩

theorem Source.field_eq (e : Env K) (q : Quantity) (R Z : K) (s : Source K) :
    s.field e q R Z = (s.current * s.unitField e q R Z, s.setCurrent s.current) :=
  (field_aux e q R Z s.size).1 s le_rfl

mutual

theorem Source.proportional_setCurrent (v : K) : (s : Source K) → (s.setCurrent v).Proportional
  | .coil _ => by simp only [Source.setCurrent, Source.Proportional]
  | .solenoid _ => by simp only [Source.setCurrent, Source.Proportional]
  | .circuit _ _ ms => by
    simp only [Source.setCurrent, Source.Proportional]
    exact Members.proportional_setCurrent v ms

theorem Members.proportional_setCurrent (v : K) : (ms : Members K) → (ms.setCurrent v).Proportional v
  | .nil => by simp only [Members.setCurrent, Members.Proportional]
  | .cons _ s m rest => by
    simp only [Members.setCurrent, Members.Proportional]
    exact ⟨Source.current_setCurrent _ s, Source.proportional_setCurrent _ s, Members.proportional_setCurrent v rest⟩

end

mutual

theorem Source.leaf_currents : (s : Source K) → s.Proportional → ∀ p ∈ s.leaves, p.2.current = p.1 * s.current
  | .coil c, _, p, hp => by
    simp only [Source.leaves, List.mem_singleton] at hp
    subst hp
    simp [Leaf.current, Source.current]
  | .solenoid c, _, p, hp => by
    simp only [Source.leaves, List.mem_singleton] at hp
    subst hp
    simp [Leaf.current, Source.current]
  | .circuit I b ms, h, p, hp => by
    simp only [Source.Proportional] at h
    simp only [Source.leaves] at hp
    exact Members.leaf_currents I ms h p hp

theorem Members.leaf_currents (I : K) : (ms : Members K) → ms.Proportional I → ∀ p ∈ ms.leaves, p.2.current = p.1 * I
  | .nil, _, p, hp => by simp [Members.leaves] at hp
  | .cons l s m rest, h, p, hp => by
    simp only [Members.leaves, List.mem_append, List.mem_map] at hp
    simp only [Members.Proportional] at h
    rcases hp with ⟨p', hp', rfl⟩ | hp
    · rw [Source.leaf_currents s h.2.1 p' hp', h.1]
      ring
    · exact Members.leaf_currents I rest h.2.2 p hp

end

/-! ## Tables of Green's functions -/

theorem greensLoop_lookup_not (e : Env K) (R Z : K) (l : String) : (ms : Members K) → l ∉ ms.labels →
    ∀ d, (ms.greensLoop e R Z d).lookup l = d.lookup l
  | .nil, _, d => rfl
  | .cons l' s m rest, h, d => by
    simp only [Members.labels, List.mem_cons, not_or] at h
    rw [Members.greensLoop, greensLoop_lookup_not e R Z l rest h.2, List.lookup_cons]
    have : (l == l') = false := by simpa using h.1
    rw [this]

mutual

theorem Source.createGreens_setCurrent (e : Env K) (R Z v : K) : (s : Source K) →
    (s.setCurrent v).createGreens e R Z = s.createGreens e R Z
  | .coil c => by simp only [Source.setCurrent, Source.createGreens, response_setCurrent]
  | .solenoid s => rfl
  | .circuit I b ms => by simp only [Source.setCurrent, Source.createGreens, Members.greensLoop_setCurrent e R Z v ms]

theorem Members.greensLoop_setCurrent (e : Env K) (R Z v : K) : (ms : Members K) → ∀ d,
    (ms.setCurrent v).greensLoop e R Z d = ms.greensLoop e R Z d
  | .nil, d => rfl
  | .cons l s m rest, d => by
    simp only [Members.setCurrent, Members.greensLoop, Source.createGreens_setCurrent e R Z (m * v) s,
      Members.greensLoop_setCurrent e R Z v rest]

end

theorem Members.labels_setCurrent (v : K) : (ms : Members K) → (ms.setCurrent v).labels = ms.labels
  | .nil => rfl
  | .cons l s m rest => by simp only [Members.setCurrent, Members.labels, Members.labels_setCurrent v rest]

mutual

theorem Source.distinct_setCurrent (v : K) : (s : Source K) → s.Distinct → (s.setCurrent v).Distinct
  | .coil _, _ => by simp only [Source.setCurrent, Source.Distinct]
  | .solenoid _, _ => by simp only [Source.setCurrent, Source.Distinct]
  | .circuit _ _ ms, h => by
    simp only [Source.setCurrent, Source.Distinct] at h ⊢
    exact Members.distinct_setCurrent v ms h

theorem Members.distinct_setCurrent (v : K) : (ms : Members K) → ms.Distinct → (ms.setCurrent v).Distinct
  | .nil, _ => by simp only [Members.setCurrent, Members.Distinct]
  | .cons l s m rest, h => by
    simp only [Members.setCurrent, Members.Distinct, Members.labels_setCurrent] at h ⊢
    exact ⟨h.1, Source.distinct_setCurrent _ s h.2.1, Members.distinct_setCurrent v rest h.2.2⟩

end

/-- Every member finds its own table in the dictionary. -/
def Members.Tabulated (e : Env K) (R Z : K) (d : List (String × Table K)) : Members K → Prop
  | .nil => True
  | .cons l s _ rest => d.lookup l = some (s.createGreens e R Z) ∧ rest.Tabulated e R Z d

theorem tabulated_loop (e : Env K) (R Z : K) : (ms : Members K) → ms.Distinct → ∀ d,
    ms.Tabulated e R Z (ms.greensLoop e R Z d)
  | .nil, _, d => trivial
  | .cons l s m rest, h, d => by
    simp only [Members.Distinct] at h
    refine ⟨?_, ?_⟩
    · rw [Members.greensLoop, greensLoop_lookup_not e R Z l rest h.1]
      simp
    · rw [Members.greensLoop]
      exact tabulated_loop e R Z rest h.2.2 _

theorem calc_aux (e : Env K) (R Z : K) (n : ℕ) :
    (∀ s : Source K, s.size ≤ n → s.Distinct → s.calcFromGreens (s.createGreens e R Z) = .ok (s.field e .psi R Z)) ∧
    ∀ ms : Members K, ms.size ≤ n → ms.Distinct → ∀ d I acc, ms.Tabulated e R Z d →
      ms.calcLoop d I acc = .ok (ms.fieldLoop e .psi R Z I acc) := by
  induction n with
  | zero =>
    refine ⟨fun s h => ?_, fun ms h _ d I acc _ => ?_⟩
    · cases s <;> simp [Source.size] at h
    · cases ms with
      | nil => simp [Members.fieldLoop, Members.calcLoop]
      | cons l s m rest => simp [Members.size] at h
  | succ n ih =>
    refine ⟨fun s h hd => ?_, fun ms h hd d I acc ht => ?_⟩
    · cases s with
      | coil c => simp only [Source.createGreens, Source.calcFromGreens, Source.field, AnyCoil.calcFromGreens, AnyCoil.field, mul_comm]
      | solenoid s => simp only [Source.createGreens, Source.calcFromGreens, Source.field, Solenoid.field, mul_comm]
      | circuit I b ms =>
        simp only [Source.size] at h
        simp only [Source.Distinct] at hd
        rw [Source.createGreens, Source.calcFromGreens, ih.2 ms (by omega) hd _ I 0 (tabulated_loop e R Z ms hd []), Source.field]
    · cases ms with
      | nil => simp [Members.fieldLoop, Members.calcLoop]
      | cons l s m rest =>
        simp only [Members.size] at h
        simp only [Members.Distinct] at hd
        rw [Members.calcLoop, ht.1]
        have h1 := ih.1 (s.setCurrent (I * m)) (by rw [Source.size_setCurrent]; omega) (Source.distinct_setCurrent _ s hd.2.1)
        rw [Source.createGreens_setCurrent] at h1
        simp only [h1, ih.2 rest (by omega) hd.2.2 d I _ ht.2]
        rw [Members.fieldLoop]

/-! ## Shapes -/

mutual

theorem Source.inShape_eq (p : AnyCoil.Region K) : (s : Source K) →
    ((∃ x ∈ s.leaves, ∃ t, x.2 = Leaf.solenoid t) ∧ s.inShape p = .error .attribute) ∨
    ((∀ x ∈ s.leaves, ∃ c, x.2 = Leaf.coil c) ∧ s.inShape p = .ok ((s.leaves.map fun x => x.1 *
      match x.2 with | .coil c => c.inShape p | .solenoid _ => 0).sum))
  | .coil c => Or.inr (by simp [Source.leaves, Source.inShape])
  | .solenoid s => Or.inl (by simp [Source.leaves, Source.inShape])
  | .circuit I b ms => by
    have h := Members.inShapeLoop_eq p ms 0
    simpa only [Source.leaves, Source.inShape, zero_add] using h

theorem Members.inShapeLoop_eq (p : AnyCoil.Region K) : (ms : Members K) → ∀ acc,
    ((∃ x ∈ ms.leaves, ∃ t, x.2 = Leaf.solenoid t) ∧ ms.inShapeLoop p acc = .error .attribute) ∨
    ((∀ x ∈ ms.leaves, ∃ c, x.2 = Leaf.coil c) ∧ ms.inShapeLoop p acc = .ok (acc + (ms.leaves.map fun x => x.1 *
      match x.2 with | .coil c => c.inShape p | .solenoid _ => 0).sum))
  | .nil, acc => Or.inr (by simp [Members.leaves, Members.inShapeLoop])
  | .cons l s m rest, acc => by
    rcases Source.inShape_eq p s with ⟨⟨x, hx, t, ht⟩, h⟩ | ⟨hc, h⟩
    · refine Or.inl ⟨⟨(m * x.1, x.2), ?_, t, ht⟩, by rw [Members.inShapeLoop, h]⟩
      simp only [Members.leaves, List.mem_append, List.mem_map]
      exact Or.inl ⟨x, hx, rfl⟩
    · rw [Members.inShapeLoop, h]
      rcases Members.inShapeLoop_eq p rest (acc + ((s.leaves.map fun x => x.1 *
        match x.2 with | .coil c => c.inShape p | .solenoid _ => 0).sum) * m) with ⟨⟨x, hx, t, ht⟩, h'⟩ | ⟨hc', h'⟩
      · refine Or.inl ⟨⟨x, ?_, t, ht⟩, h'⟩
        simp only [Members.leaves, List.mem_append]
        exact Or.inr hx
      · refine Or.inr ⟨?_, ?_⟩
        · simp only [Members.leaves, List.mem_append, List.mem_map]
          rintro x (⟨y, hy, rfl⟩ | hx)
          · exact hc y hy
          · exact hc' x hx
        · refine h'.trans ?_
          simp only [Members.leaves, List.map_append, List.sum_append, List.map_map, Function.comp_def, Except.ok.injEq]
          have : ∀ L : List (K × Leaf K), (L.map fun x => m * x.1 * match x.2 with | .coil c => c.inShape p | .solenoid _ => 0).sum =
              (L.map fun x => x.1 * match x.2 with | .coil c => c.inShape p | .solenoid _ => 0).sum * m := by
            intro L
            induction L with
            | nil => simp
            | cons y L ih => simp only [List.map_cons, List.sum_cons, ih]; ring
          rw [this]
          ring

end

/-! ## Machines -/

theorem Machine.fieldLoop_eq (e : Env K) (q : Quantity) (R Z : K) (cs : List (String × Source K)) (acc : K) :
    Machine.fieldLoop e q R Z acc cs = (acc + (cs.map fun x => x.2.current * x.2.unitField e q R Z).sum,
      cs.map fun x => (x.1, x.2.setCurrent x.2.current)) := by
  induction cs generalizing acc with
  | nil => simp [Machine.fieldLoop]
  | cons x rest ih =>
    obtain ⟨l, x⟩ := x
    rw [Machine.fieldLoop, Source.field_eq, ih]
    simp only [List.map_cons, List.sum_cons, Prod.mk.injEq, and_true]
    ring

mutual

theorem Source.leaves_setControl (b : Bool) : (s : Source K) →
    (s.setControl b).leaves.map (fun p => (p.1, p.2.current)) = s.leaves.map (fun p => (p.1, p.2.current)) ∧
    ∀ p ∈ (s.setControl b).leaves, p.2.control = b
  | .coil c => by cases c <;> simp [Source.setControl, Source.leaves, Leaf.control, Leaf.current, AnyCoil.setControl, AnyCoil.control, AnyCoil.current]
  | .solenoid s => by simp [Source.setControl, Source.leaves, Leaf.control, Leaf.current]
  | .circuit _ _ ms => by
    simp only [Source.setControl, Source.leaves]
    exact Members.leaves_setControl b ms

theorem Members.leaves_setControl (b : Bool) : (ms : Members K) →
    (ms.setControl b).leaves.map (fun p => (p.1, p.2.current)) = ms.leaves.map (fun p => (p.1, p.2.current)) ∧
    ∀ p ∈ (ms.setControl b).leaves, p.2.control = b
  | .nil => by simp [Members.setControl, Members.leaves]
  | .cons _ s m rest => by
    have h1 := Source.leaves_setControl b s
    have h2 := Members.leaves_setControl b rest
    simp only [Members.setControl, Members.leaves, List.map_append, List.map_map, h2.1]
    refine ⟨?_, fun p hp => ?_⟩
    · have h := congrArg (List.map fun x : K × K => (m * x.1, x.2)) h1.1
      simp only [List.map_map] at h
      exact congrArg (· ++ _) h
    · rcases List.mem_append.mp hp with hp | hp
      · obtain ⟨x, hx, rfl⟩ := List.mem_map.mp hp
        exact h1.2 x hx
      · exact h2.2 p hp

end

end FreeGS.Nested
