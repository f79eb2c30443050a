import Verif.Lemmas.Machine

/-!
# Green's function dictionaries and histories
-/

set_option linter.unusedSectionVars false

namespace FreeGS

variable {K : Type*} [Field K] [LinearOrder K]

/-- A coil with current and control flag forgotten. -/
def AnyCoil.erase (c : AnyCoil K) : AnyCoil K := (c.setCurrent 0).setControl false

/-- An entry with all currents and control flags forgotten. -/
def Entry.erase : Entry K → Entry K
  | .coil c => .coil c.erase
  | .circuit c => .circuit ⟨c.coils.map fun x => (x.1, x.2.1.erase, x.2.2), 0, false⟩
  | .solenoid s => .solenoid { s with current := 0, control := false }

/-- A machine with all currents and control flags forgotten. -/
def Machine.erase (m : Machine K) : List (String × Entry K) := m.coils.map fun x => (x.1, x.2.erase)

@[simp] theorem AnyCoil.erase_setCurrent (I : K) (c : AnyCoil K) : (c.setCurrent I).erase = c.erase := by
  simp [erase]

@[simp] theorem AnyCoil.erase_setControl (b : Bool) (c : AnyCoil K) :
    (c.setControl b).erase = c.erase := by simp [erase, setControl_setCurrent]

theorem AnyCoil.response_erase (e : Env K) (q : Quantity) (R Z : K) (c : AnyCoil K) :
    c.erase.response e q R Z = c.response e q R Z := by simp [erase]

@[simp] theorem Entry.erase_setCurrent (I : K) (x : Entry K) : (x.setCurrent I).erase = x.erase := by
  cases x <;> simp [Entry.setCurrent, Entry.erase, Circuit.setCurrent, Function.comp_def]

@[simp] theorem Entry.erase_setControl (b : Bool) (x : Entry K) :
    (x.setControl b).erase = x.erase := by
  cases x <;> simp [Entry.setControl, Entry.erase, Circuit.setControl, Function.comp_def]

@[simp] theorem Entry.erase_sync (x : Entry K) : x.sync.erase = x.erase := by
  cases x <;> simp [Entry.sync, Entry.erase, Circuit.sync, Function.comp_def]

@[simp] theorem erase_setOwn (I : K) (x : Entry K) : (Machine.setOwn I x).erase = x.erase := by
  cases x <;> simp [Machine.setOwn, Entry.erase]

@[simp] theorem erase_setInner (I : K) (j : ℕ) (x : Entry K) :
    (Machine.setInner j I x).erase = x.erase := by
  cases x with
  | circuit c =>
    simp only [Machine.setInner, Entry.erase]
    rw [Machine.modify_map_const]
    intro x
    simp
  | _ => rfl

namespace Machine

theorem erase_modify (m : Machine K) (i : ℕ) (f : Entry K → Entry K)
    (h : ∀ x, (f x).erase = x.erase) :
    (⟨m.coils.modify i fun x => (x.1, f x.2)⟩ : Machine K).erase = m.erase := by
  simp only [erase]
  exact modify_map_const _ _ _ _ fun x => by simp [h]

@[simp] theorem erase_sync (m : Machine K) : m.sync.erase = m.erase := by
  simp [sync, erase, Function.comp_def]

theorem erase_zipControl (f : K → K → K) (cs : List (String × Entry K)) :
    ∀ vs, (⟨zipControl f cs vs⟩ : Machine K).erase = (⟨cs⟩ : Machine K).erase := by
  induction cs with
  | nil => intro vs; simp [zipControl]
  | cons y cs ih =>
    obtain ⟨l, y⟩ := y
    intro vs
    cases hy : y.control with
    | true =>
      cases vs with
      | nil => rw [zipControl_true_nil _ _ _ hy]
      | cons v vs =>
        rw [zipControl_true_cons _ _ _ _ _ hy]
        have := ih vs
        simp only [erase, List.map_cons, Entry.erase_setCurrent] at this ⊢
        rw [this]
    | false =>
      rw [zipControl_false _ _ _ _ hy]
      have := ih vs
      simp only [erase, List.map_cons] at this ⊢
      rw [this]

theorem erase_setCoilCurrent (m : Machine K) (I : K) (loc : Loc) :
    (m.setCoilCurrent I loc).erase = m.erase := by
  cases loc with
  | direct i => exact erase_modify _ _ _ fun x => by simp
  | inCircuit i j => exact erase_modify _ _ _ fun x => by simp

theorem erase_coilForces (e : Env K) (plasma : Quantity → K → K → K) (m : Machine K) (loc : Loc) {r}
    (hr : m.coilForces e plasma loc = some r) : r.2.erase = m.erase := by
  simp only [coilForces] at hr
  rcases hc : m.coilAt loc with _ | c
  · simp [hc] at hr
  · rw [hc] at hr
    simp only [Option.some.injEq] at hr
    subst hr
    simp [field_snd, erase_setCoilCurrent]

theorem erase_forcesLoop (e : Env K) (plasma : Quantity → K → K → K) (ls : List Loc) :
    ∀ m : Machine K, (forcesLoop e plasma ls m).2.erase = m.erase := by
  induction ls with
  | nil => intro m; rfl
  | cons l ls ih =>
    intro m
    rw [forcesLoop]
    rcases hr : m.coilForces e plasma l with _ | ⟨f, m'⟩
    · simpa using ih m
    · have := erase_coilForces e plasma m l hr
      simpa using (ih m').trans this

theorem erase_run (e : Env K) (m : Machine K) (op : Op K) : (op.run e m).erase = m.erase := by
  cases op with
  | read q R Z => simp [Op.run, field_snd]
  | setCurrent i v => exact erase_modify _ _ _ fun x => by simp
  | setControl i b => exact erase_modify _ _ _ fun x => by simp
  | adjust d => exact erase_zipControl _ _ _
  | setControls v => exact erase_zipControl _ _ _
  | force plasma loc =>
    simp only [Op.run]
    rcases hr : m.coilForces e plasma loc with _ | r
    · rfl
    · exact erase_coilForces e plasma m loc hr
  | forces plasma => exact erase_forcesLoop _ _ _ _

theorem erase_runAll (e : Env K) (ops : List (Op K)) : ∀ m : Machine K,
    (runAll e m ops).erase = m.erase := by
  induction ops with
  | nil => intro m; rfl
  | cons op ops ih => intro m; exact (ih _).trans (erase_run e m op)

theorem synced_run (e : Env K) {m : Machine K} (h : m.Synced) (op : Op K) : (op.run e m).Synced := by
  cases op with
  | read q R Z => rw [Op.run, field_snd]; exact synced_sync m
  | setCurrent i v => exact synced_modify i (fun x _ => Entry.synced_setCurrent v x.2) h
  | setControl i b => exact synced_modify i (fun x hx => Entry.synced_setControl b hx) h
  | adjust d => rw [synced_iff] at h ⊢; exact synced_zipControl _ _ _ h
  | setControls v => rw [synced_iff] at h ⊢; exact synced_zipControl _ _ _ h
  | force plasma loc =>
    simp only [Op.run]
    rcases hr : m.coilForces e plasma loc with _ | r
    · exact h
    · simpa [coilForces_snd e plasma h hr] using h
  | forces plasma => rw [Op.run, getForces, forcesLoop_snd e plasma h]; exact h

theorem synced_runAll (e : Env K) (ops : List (Op K)) : ∀ m : Machine K, m.Synced →
    (runAll e m ops).Synced := by
  induction ops with
  | nil => intro m h; exact h
  | cons op ops ih => intro m h; exact ih _ (synced_run e h op)

end Machine

/-! ### Dictionaries -/

theorem foldl_update_notMem {α β : Type*} (f : α → β) (key : α → String) (k : String) (l : List α) :
    ∀ d : String → Option β, k ∉ l.map key →
      (l.foldl (fun d x => Function.update d (key x) (some (f x))) d) k = d k := by
  induction l with
  | nil => intro d _; rfl
  | cons a l ih =>
    intro d h
    simp only [List.map_cons, List.mem_cons, not_or] at h
    rw [List.foldl_cons, ih _ h.2, Function.update_of_ne h.1]

theorem foldl_update_mem {α β : Type*} (f : α → β) (key : α → String) (l : List α) :
    ∀ d : String → Option β, (l.map key).Nodup → ∀ a ∈ l,
      (l.foldl (fun d x => Function.update d (key x) (some (f x))) d) (key a) = some (f a) := by
  induction l with
  | nil => intro d _ a h; simp at h
  | cons b l ih =>
    intro d hn a ha
    rw [List.map_cons, List.nodup_cons] at hn
    rw [List.foldl_cons]
    rcases List.mem_cons.mp ha with rfl | ha
    · rw [foldl_update_notMem f key _ l _ hn.1, Function.update_self]
    · exact ih _ hn.2 a ha

theorem Circuit.calcLoop_eq (e : Env K) (R Z I : K) (d : String → Option K)
    (cs : List (String × AnyCoil K × K)) :
    (∀ x ∈ cs, d x.1 = some (x.2.1.response e .psi R Z)) → ∀ acc, calcLoop d I acc cs =
      .ok (acc + (cs.map fun x => x.2.1.response e .psi R Z * (I * x.2.2)).sum,
        cs.map fun x => (x.1, x.2.1.setCurrent (I * x.2.2), x.2.2)) := by
  induction cs with
  | nil => intro _ acc; simp [calcLoop]
  | cons x cs ih =>
    intro h acc
    obtain ⟨l, c, m⟩ := x
    have h1 := h _ List.mem_cons_self
    simp only at h1
    rw [calcLoop]
    simp only [h1]
    rw [ih fun x hx => h x (List.mem_cons_of_mem _ hx)]
    simp [AnyCoil.calcFromGreens, add_assoc, mul_comm]

theorem Entry.calcFromGreens_eq (e : Env K) (R Z : K) {x x' : Entry K} (h : x.erase = x'.erase)
    (hn : ∀ c, x = .circuit c → (c.coils.map Prod.fst).Nodup) :
    x'.calcFromGreens (x.createGreens e R Z) = .ok (x'.current * x'.response e .psi R Z, x'.sync) := by
  cases x with
  | coil c =>
    cases x' with
    | coil c' =>
      simp only [erase, Entry.coil.injEq] at h
      have : c.response e .psi R Z = c'.response e .psi R Z := by
        rw [← AnyCoil.response_erase, h, AnyCoil.response_erase]
      simp [createGreens, Entry.calcFromGreens, AnyCoil.calcFromGreens, current, response, sync, this]
    | circuit _ => simp [erase] at h
    | solenoid _ => simp [erase] at h
  | solenoid c =>
    cases x' with
    | solenoid c' =>
      obtain ⟨a, b, c, d, i, u⟩ := c
      obtain ⟨a', b', c', d', i', u'⟩ := c'
      simp only [erase, Entry.solenoid.injEq, Solenoid.mk.injEq, and_true] at h
      obtain ⟨rfl, rfl, rfl, rfl⟩ := h
      simp [createGreens, Entry.calcFromGreens, current, response, sync, Solenoid.response]
    | circuit _ => simp [erase] at h
    | coil _ => simp [erase] at h
  | circuit c =>
    cases x' with
    | circuit c' =>
      simp only [erase, Entry.circuit.injEq, Circuit.mk.injEq, and_true] at h
      have hn := hn c rfl
      have hd : ∀ y ∈ c'.coils, c.createGreens e R Z y.1 = some (y.2.1.response e .psi R Z) := by
        intro y hy
        have : (y.1, y.2.1.erase, y.2.2) ∈ c.coils.map fun x => (x.1, x.2.1.erase, x.2.2) := by
          rw [h]; exact List.mem_map.mpr ⟨y, hy, rfl⟩
        obtain ⟨z, hz, hzy⟩ := List.mem_map.mp this
        simp only [Prod.mk.injEq] at hzy
        have := foldl_update_mem (fun x : String × AnyCoil K × K => x.2.1.response e .psi R Z)
          Prod.fst c.coils (fun _ => none) hn z hz
        rw [← hzy.1, Circuit.createGreens, this, ← AnyCoil.response_erase, hzy.2.1,
          AnyCoil.response_erase]
      simp only [createGreens, Entry.calcFromGreens, Circuit.calcFromGreens, current, response, sync]
      rw [Circuit.calcLoop_eq e R Z c'.current _ _ hd]
      have hf := Circuit.field_fst e .psi R Z c'
      simp only [Circuit.field, Circuit.fieldLoop_eq] at hf
      simp only [Circuit.sync, hf]
    | coil _ => simp [erase] at h
    | solenoid _ => simp [erase] at h

theorem Machine.calcLoop_eq (e : Env K) (R Z : K) (d : String → Option (Entry.Greens K))
    (cs : List (String × Entry K)) :
    (∀ x ∈ cs, ∃ g, d x.1 = some g ∧
      x.2.calcFromGreens g = .ok (x.2.current * x.2.response e .psi R Z, x.2.sync)) →
    ∀ acc, calcLoop d acc cs =
      .ok (acc + (cs.map fun x => x.2.current * x.2.response e .psi R Z).sum,
        cs.map fun x => (x.1, x.2.sync)) := by
  induction cs with
  | nil => intro _ acc; simp [calcLoop]
  | cons x cs ih =>
    intro h acc
    obtain ⟨l, x⟩ := x
    obtain ⟨g, h1, h2⟩ := h _ List.mem_cons_self
    simp only at h1 h2
    rw [calcLoop]
    simp only [h1, h2]
    rw [ih fun x hx => h x (List.mem_cons_of_mem _ hx)]
    simp [add_assoc]

/-- Flux from Green's functions created earlier equals flux evaluated directly, if only currents and control
flags changed in between. -/
theorem Machine.calcFromGreens_eq (e : Env K) (R Z : K) {m m' : Machine K} (hn : m.LabelsDistinct)
    (h : m'.erase = m.erase) :
    m'.calcFromGreens (m.createGreens e R Z) = .ok (m'.field e .psi R Z) := by
  have key : ∀ x ∈ m'.coils, ∃ g, m.createGreens e R Z x.1 = some g ∧
      x.2.calcFromGreens g = .ok (x.2.current * x.2.response e .psi R Z, x.2.sync) := by
    intro x hx
    have : (x.1, x.2.erase) ∈ m.erase := by
      rw [← h]; exact List.mem_map.mpr ⟨x, hx, rfl⟩
    obtain ⟨z, hz, hzy⟩ := List.mem_map.mp this
    simp only [Prod.mk.injEq] at hzy
    refine ⟨z.2.createGreens e R Z, ?_, ?_⟩
    · rw [← hzy.1]
      exact foldl_update_mem (fun x : String × Entry K => x.2.createGreens e R Z)
          Prod.fst m.coils (fun _ => none) hn.1 z hz
    · refine Entry.calcFromGreens_eq e R Z hzy.2 fun c hc => hn.2 z.1 c ?_
      rw [← hc]; exact hz
  simp [calcFromGreens, calcLoop_eq e R Z _ _ key, field, fieldLoop_eq]

end FreeGS
