import Verif.Spec.Machine
import Mathlib.Algebra.BigOperators.Group.List.Basic
import Mathlib.Algebra.BigOperators.Ring.List
import Mathlib.Data.List.Forall2

set_option linter.unusedSectionVars false

namespace FreeGS

variable {K : Type*} [Field K] [LinearOrder K]

namespace AnyCoil

@[simp] theorem current_setCurrent (I : K) (c : AnyCoil K) : (c.setCurrent I).current = I := by
  cases c <;> rfl

@[simp] theorem setCurrent_setCurrent (I J : K) (c : AnyCoil K) :
    (c.setCurrent I).setCurrent J = c.setCurrent J := by cases c <;> rfl

@[simp] theorem setCurrent_current (c : AnyCoil K) : c.setCurrent c.current = c := by
  cases c <;> rfl

@[simp] theorem response_setCurrent (e : Env K) (q : Quantity) (R Z I : K) (c : AnyCoil K) :
    (c.setCurrent I).response e q R Z = c.response e q R Z := by cases c <;> rfl

@[simp] theorem response_setControl (e : Env K) (q : Quantity) (R Z : K) (b : Bool) (c : AnyCoil K) :
    (c.setControl b).response e q R Z = c.response e q R Z := by cases c <;> rfl

@[simp] theorem current_setControl (b : Bool) (c : AnyCoil K) :
    (c.setControl b).current = c.current := by cases c <;> rfl

@[simp] theorem control_setCurrent (I : K) (c : AnyCoil K) :
    (c.setCurrent I).control = c.control := by cases c <;> rfl

@[simp] theorem R_setCurrent (I : K) (c : AnyCoil K) : (c.setCurrent I).R = c.R := by cases c <;> rfl
@[simp] theorem Z_setCurrent (I : K) (c : AnyCoil K) : (c.setCurrent I).Z = c.Z := by cases c <;> rfl

@[simp] theorem turns_setCurrent (I : K) (c : AnyCoil K) :
    (c.setCurrent I).turns = c.turns := by cases c <;> rfl

theorem setControl_setCurrent (I : K) (b : Bool) (c : AnyCoil K) :
    (c.setControl b).setCurrent I = (c.setCurrent I).setControl b := by cases c <;> rfl

@[simp] theorem setControl_setControl (b b' : Bool) (c : AnyCoil K) :
    (c.setControl b).setControl b' = c.setControl b' := by cases c <;> rfl

@[simp] theorem inShape_setCurrent (p : Region K) (I : K) (c : AnyCoil K) :
    (c.setCurrent I).inShape p = c.inShape p := by cases c <;> rfl

end AnyCoil

/-! ### Circuits -/

namespace Circuit

/-- The coils of a circuit after a field evaluation. -/
def sync (c : Circuit K) : Circuit K :=
  { c with coils := c.coils.map fun x => (x.1, x.2.1.setCurrent (c.current * x.2.2), x.2.2) }

theorem fieldLoop_eq (e : Env K) (q : Quantity) (R Z I : K) (cs : List (String × AnyCoil K × K)) :
    ∀ acc, fieldLoop e q R Z I acc cs =
      (acc + (cs.map fun x => x.2.1.response e q R Z * (I * x.2.2)).sum,
        cs.map fun x => (x.1, x.2.1.setCurrent (I * x.2.2), x.2.2)) := by
  induction cs with
  | nil => intro acc; simp [fieldLoop]
  | cons x cs ih =>
    intro acc
    obtain ⟨l, c, m⟩ := x
    simp [fieldLoop, ih, AnyCoil.field, add_assoc]

theorem response_eq (e : Env K) (q : Quantity) (R Z : K) (c : Circuit K) :
    c.response e q R Z = (c.coils.map fun x => x.2.2 * x.2.1.response e q R Z).sum := by
  have h : ∀ (l : List (String × AnyCoil K × K)) (acc : K),
      l.foldl (fun acc x => acc + x.2.2 * x.2.1.response e q R Z) acc =
        acc + (l.map fun x => x.2.2 * x.2.1.response e q R Z).sum := by
    intro l
    induction l with
    | nil => intro acc; simp
    | cons x l ih => intro acc; simp [ih, add_assoc]
  simp [response, h]

theorem field_fst (e : Env K) (q : Quantity) (R Z : K) (c : Circuit K) :
    (c.field e q R Z).1 = c.current * c.response e q R Z := by
  rw [response_eq, ← List.sum_map_mul_left]
  simp only [field, fieldLoop_eq, zero_add]
  congr 1
  refine List.map_congr_left fun x _ => ?_
  ring

theorem field_snd (e : Env K) (q : Quantity) (R Z : K) (c : Circuit K) :
    (c.field e q R Z).2 = c.sync := by simp [field, fieldLoop_eq, sync]

theorem synced_sync (c : Circuit K) : c.sync.Synced := by
  intro x hx
  simp only [sync, List.mem_map] at hx
  obtain ⟨y, _, rfl⟩ := hx
  simp [sync, mul_comm]

theorem sync_of_synced {c : Circuit K} (h : c.Synced) : c.sync = c := by
  have : c.coils.map (fun x => (x.1, x.2.1.setCurrent (c.current * x.2.2), x.2.2)) = c.coils := by
    conv_rhs => rw [← List.map_id c.coils]
    refine List.map_congr_left fun x hx => ?_
    rw [mul_comm, ← h x hx]
    simp
  cases c
  simpa [sync] using this

theorem synced_setCurrent (v : K) (c : Circuit K) : (c.setCurrent v).Synced := by
  intro x hx
  simp only [setCurrent, List.mem_map] at hx
  obtain ⟨y, _, rfl⟩ := hx
  simp [setCurrent]

theorem synced_setControl (b : Bool) {c : Circuit K} (h : c.Synced) : (c.setControl b).Synced := by
  intro x hx
  simp only [setControl, List.mem_map] at hx
  obtain ⟨y, hy, rfl⟩ := hx
  simpa [setControl] using h y hy

theorem synced_make (coils : List (String × AnyCoil K × K)) (I : K) (b : Bool) :
    (make coils I b).Synced := synced_setControl _ (synced_setCurrent _ _)

@[simp] theorem response_setCurrent (e : Env K) (q : Quantity) (R Z v : K) (c : Circuit K) :
    (c.setCurrent v).response e q R Z = c.response e q R Z := by
  simp [response_eq, setCurrent, Function.comp_def]

@[simp] theorem response_setControl (e : Env K) (q : Quantity) (R Z : K) (b : Bool) (c : Circuit K) :
    (c.setControl b).response e q R Z = c.response e q R Z := by
  simp [response_eq, setControl, Function.comp_def]

@[simp] theorem response_sync (e : Env K) (q : Quantity) (R Z : K) (c : Circuit K) :
    c.sync.response e q R Z = c.response e q R Z := by
  simp [response_eq, sync, Function.comp_def]

end Circuit

/-! ### Solenoids -/

theorem Solenoid.response_eq (e : Env K) (q : Quantity) (R Z : K) (s : Solenoid K) :
    s.response e q R Z = ((linspace s.Zsmin s.Zsmax s.Ns).map fun Zs => e.G q s.Rs Zs R Z).sum := by
  have h : ∀ (l : List K) (acc : K), l.foldl (fun acc Zs => acc + e.G q s.Rs Zs R Z) acc =
      acc + (l.map fun Zs => e.G q s.Rs Zs R Z).sum := by
    intro l
    induction l with
    | nil => intro acc; simp
    | cons x l ih => intro acc; simp [ih, add_assoc]
  simp [response, h]

/-! ### Entries -/

namespace Entry

/-- An entry after a field evaluation. -/
def sync : Entry K → Entry K
  | coil c => coil c
  | circuit c => circuit c.sync
  | solenoid s => solenoid s

/-- Synchronised entry. -/
def Synced : Entry K → Prop
  | circuit c => c.Synced
  | _ => True

theorem field_fst (e : Env K) (q : Quantity) (R Z : K) (x : Entry K) :
    (x.field e q R Z).1 = x.current * x.response e q R Z := by
  cases x with
  | coil c => simp [field, AnyCoil.field, current, response, mul_comm]
  | circuit c => simp [field, Circuit.field_fst, current, response]
  | solenoid s => simp [field, Solenoid.field, current, response, mul_comm]

theorem field_snd (e : Env K) (q : Quantity) (R Z : K) (x : Entry K) :
    (x.field e q R Z).2 = x.sync := by
  cases x <;> simp [field, sync, Circuit.field_snd]

theorem sum_contributions (e : Env K) (q : Quantity) (R Z : K) (x : Entry K) :
    (x.contributions e q R Z).sum = x.current * x.response e q R Z := by
  cases x with
  | coil c => simp [contributions, current, response]
  | circuit c =>
    simp only [contributions, current, response, Circuit.response_eq]
    rw [← List.sum_map_mul_left]
    congr 1
    exact List.map_congr_left fun x _ => by ring
  | solenoid s =>
    simp only [contributions, current, response, Solenoid.response_eq]
    rw [← List.sum_map_mul_left]

@[simp] theorem current_setCurrent (v : K) (x : Entry K) : (x.setCurrent v).current = v := by
  cases x <;> simp [setCurrent, current, Circuit.setCurrent]

@[simp] theorem control_setCurrent (v : K) (x : Entry K) : (x.setCurrent v).control = x.control := by
  cases x <;> simp [setCurrent, control, Circuit.setCurrent]

@[simp] theorem response_setCurrent (e : Env K) (q : Quantity) (R Z v : K) (x : Entry K) :
    (x.setCurrent v).response e q R Z = x.response e q R Z := by
  cases x <;> simp [setCurrent, response]
  rfl

@[simp] theorem response_setControl (e : Env K) (q : Quantity) (R Z : K) (b : Bool) (x : Entry K) :
    (x.setControl b).response e q R Z = x.response e q R Z := by
  cases x <;> simp [setControl, response]
  rfl

@[simp] theorem current_setControl (b : Bool) (x : Entry K) :
    (x.setControl b).current = x.current := by
  cases x <;> simp [setControl, current, Circuit.setControl]

@[simp] theorem response_sync (e : Env K) (q : Quantity) (R Z : K) (x : Entry K) :
    x.sync.response e q R Z = x.response e q R Z := by
  cases x <;> simp [sync, response]

@[simp] theorem current_sync (x : Entry K) : x.sync.current = x.current := by
  cases x <;> simp [sync, current, Circuit.sync]

@[simp] theorem control_sync (x : Entry K) : x.sync.control = x.control := by
  cases x <;> simp [sync, control, Circuit.sync]

theorem sync_of_synced {x : Entry K} (h : x.Synced) : x.sync = x := by
  cases x with
  | circuit c => simp [sync, Circuit.sync_of_synced h]
  | _ => rfl

theorem synced_sync (x : Entry K) : x.sync.Synced := by
  cases x with
  | circuit c => exact Circuit.synced_sync c
  | _ => trivial

theorem synced_setCurrent (v : K) (x : Entry K) : (x.setCurrent v).Synced := by
  cases x with
  | circuit c => exact Circuit.synced_setCurrent v c
  | _ => trivial

theorem synced_setControl (b : Bool) {x : Entry K} (h : x.Synced) : (x.setControl b).Synced := by
  cases x with
  | circuit c => exact Circuit.synced_setControl b h
  | _ => trivial

end Entry

/-! ### Machines -/

namespace Machine

theorem synced_iff (m : Machine K) : m.Synced ↔ ∀ x ∈ m.coils, x.2.Synced := by
  constructor
  · rintro h ⟨l, x⟩ hx
    cases x with
    | circuit c => exact h l c hx
    | _ => trivial
  · intro h l c hc
    exact h _ hc

theorem fieldLoop_eq (e : Env K) (q : Quantity) (R Z : K) (cs : List (String × Entry K)) :
    ∀ acc, fieldLoop e q R Z acc cs =
      (acc + (cs.map fun x => x.2.current * x.2.response e q R Z).sum,
        cs.map fun x => (x.1, x.2.sync)) := by
  induction cs with
  | nil => intro acc; simp [fieldLoop]
  | cons x cs ih =>
    intro acc
    obtain ⟨l, x⟩ := x
    simp [fieldLoop, ih, Entry.field_fst, Entry.field_snd, add_assoc]

theorem field_fst (e : Env K) (q : Quantity) (R Z : K) (m : Machine K) :
    (m.field e q R Z).1 = (m.coils.map fun x => x.2.current * x.2.response e q R Z).sum := by
  simp [field, fieldLoop_eq]

/-- The machine after a field evaluation. -/
def sync (m : Machine K) : Machine K := ⟨m.coils.map fun x => (x.1, x.2.sync)⟩

theorem field_snd (e : Env K) (q : Quantity) (R Z : K) (m : Machine K) :
    (m.field e q R Z).2 = m.sync := by simp [field, fieldLoop_eq, sync]

theorem synced_sync (m : Machine K) : m.sync.Synced := by
  rw [synced_iff]
  intro x hx
  simp only [sync, List.mem_map] at hx
  obtain ⟨y, _, rfl⟩ := hx
  exact Entry.synced_sync _

theorem sync_of_synced {m : Machine K} (h : m.Synced) : m.sync = m := by
  rw [synced_iff] at h
  have : m.coils.map (fun x => (x.1, x.2.sync)) = m.coils := by
    conv_rhs => rw [← List.map_id m.coils]
    refine List.map_congr_left fun x hx => ?_
    rw [Entry.sync_of_synced (h x hx)]
    rfl
  cases m
  simpa [sync] using this

theorem zipControl_true_nil (f : K → K → K) (l : String) {y : Entry K} (cs : List (String × Entry K))
    (hy : y.control = true) : zipControl f ((l, y) :: cs) [] = (l, y) :: cs := by
  rw [zipControl]; exact hy

theorem zipControl_true_cons (f : K → K → K) (l : String) {y : Entry K} (cs : List (String × Entry K))
    (v : K) (vs : List K) (hy : y.control = true) : zipControl f ((l, y) :: cs) (v :: vs) =
      (l, y.setCurrent (f y.current v)) :: zipControl f cs vs := by
  rw [zipControl]; exact hy

theorem zipControl_false (f : K → K → K) (l : String) {y : Entry K} (cs : List (String × Entry K))
    (vs : List K) (hy : y.control = false) :
    zipControl f ((l, y) :: cs) vs = (l, y) :: zipControl f cs vs := by
  rw [zipControl]; exact hy

theorem synced_zipControl (f : K → K → K) (cs : List (String × Entry K)) :
    ∀ vs, (∀ x ∈ cs, x.2.Synced) → ∀ x ∈ zipControl f cs vs, x.2.Synced := by
  induction cs with
  | nil => intro vs _ x hx; simp [zipControl] at hx
  | cons y cs ih =>
    obtain ⟨l, y⟩ := y
    intro vs h x hx
    have hcs : ∀ x ∈ cs, x.2.Synced := fun x hx => h x (List.mem_cons_of_mem _ hx)
    cases hy : y.control with
    | true =>
      cases vs with
      | nil => rw [zipControl_true_nil _ _ _ hy] at hx; exact h x hx
      | cons v vs =>
        rw [zipControl_true_cons _ _ _ _ _ hy] at hx
        rcases List.mem_cons.mp hx with rfl | hx
        · exact Entry.synced_setCurrent _ _
        · exact ih vs hcs x hx
    | false =>
      rw [zipControl_false _ _ _ _ hy] at hx
      rcases List.mem_cons.mp hx with rfl | hx
      · exact h _ List.mem_cons_self
      · exact ih vs hcs x hx

theorem mem_modify {α : Type*} {f : α → α} {l : List α} {i : ℕ} {x : α} (h : x ∈ l.modify i f) :
    x ∈ l ∨ ∃ y ∈ l, x = f y := by
  induction l generalizing i with
  | nil => simp at h
  | cons a l ih =>
    cases i with
    | zero =>
      rw [List.modify_zero_cons] at h
      rcases List.mem_cons.mp h with rfl | h
      · exact Or.inr ⟨a, List.mem_cons_self, rfl⟩
      · exact Or.inl (List.mem_cons_of_mem _ h)
    | succ i =>
      rw [List.modify_succ_cons] at h
      rcases List.mem_cons.mp h with rfl | h
      · exact Or.inl List.mem_cons_self
      · rcases ih h with h | ⟨y, hy, rfl⟩
        · exact Or.inl (List.mem_cons_of_mem _ h)
        · exact Or.inr ⟨y, List.mem_cons_of_mem _ hy, rfl⟩

theorem synced_modify {f : String × Entry K → String × Entry K} {m : Machine K} (i : ℕ)
    (hf : ∀ x, x.2.Synced → (f x).2.Synced) (h : m.Synced) :
    (⟨m.coils.modify i f⟩ : Machine K).Synced := by
  rw [synced_iff] at h ⊢
  intro x hx
  rcases mem_modify hx with hx | ⟨y, hy, rfl⟩
  · exact h x hx
  · exact hf y (h y hy)

/-! #### One coil zeroed, read, restored -/

theorem modify_map {α : Type*} (l : List α) (i : ℕ) (f g : α → α)
    (h : ∀ x, g (f x) = f (g x)) : (l.modify i f).map g = (l.map g).modify i f := by
  induction l generalizing i with
  | nil => simp
  | cons a l ih => cases i <;> simp [ih, h]

theorem modify_modify {α : Type*} (l : List α) (i : ℕ) (f g : α → α) :
    (l.modify i f).modify i g = l.modify i (g ∘ f) := by
  induction l generalizing i with
  | nil => simp
  | cons a l ih => cases i <;> simp [ih]

theorem modify_eq_self {α : Type*} (l : List α) (i : ℕ) (f : α → α)
    (h : ∀ x, l[i]? = some x → f x = x) : l.modify i f = l := by
  induction l generalizing i with
  | nil => simp
  | cons a l ih =>
    cases i with
    | zero => simp [h a (by simp)]
    | succ i =>
      simp only [List.modify_succ_cons]
      rw [ih i (by simpa using h)]

theorem setOwn_sync (I : K) (x : Entry K) : (setOwn I x).sync = setOwn I x.sync := by
  cases x <;> rfl

theorem synced_setOwn (I : K) {x : Entry K} (h : x.Synced) : (setOwn I x).Synced := by
  cases x <;> exact h

theorem modify_map_const {α β : Type*} (l : List α) (i : ℕ) (f : α → α) (g : α → β)
    (h : ∀ x, g (f x) = g x) : (l.modify i f).map g = l.map g := by
  induction l generalizing i with
  | nil => simp
  | cons a l ih => cases i <;> simp [ih, h]

theorem setInner_sync (I : K) (j : ℕ) (x : Entry K) : (setInner j I x).sync = x.sync := by
  cases x with
  | circuit c =>
    simp only [setInner, Entry.sync, Circuit.sync]
    rw [modify_map_const]
    intro x
    simp
  | _ => rfl

/-- Zeroing a direct coil commutes with a field evaluation. -/
theorem sync_setCoilCurrent_direct (m : Machine K) (I : K) (i : ℕ) :
    (m.setCoilCurrent I (.direct i)).sync = m.sync.setCoilCurrent I (.direct i) := by
  simp only [sync, setCoilCurrent, Machine.mk.injEq]
  apply modify_map
  intro x
  simp [setOwn_sync]

/-- A field evaluation overwrites the current of a coil in a circuit. -/
theorem sync_setCoilCurrent_circuit (m : Machine K) (I : K) (i j : ℕ) :
    (m.setCoilCurrent I (.inCircuit i j)).sync = m.sync := by
  simp only [sync, setCoilCurrent, Machine.mk.injEq]
  apply modify_map_const
  intro x
  simp [setInner_sync]

theorem synced_setCoilCurrent_direct {m : Machine K} (h : m.Synced) (I : K) (i : ℕ) :
    (m.setCoilCurrent I (.direct i)).Synced :=
  synced_modify i (fun _ hx => synced_setOwn I hx) h

/-- Writing back its own current to a coil changes nothing. -/
theorem setCoilCurrent_self {m : Machine K} {loc : Loc} {c : AnyCoil K} (h : m.coilAt loc = some c) :
    m.setCoilCurrent c.current loc = m := by
  obtain ⟨cs⟩ := m
  cases loc with
  | direct i =>
    simp only [setCoilCurrent, Machine.mk.injEq]
    apply modify_eq_self
    intro x hx
    simp only [coilAt] at h
    rw [hx] at h
    obtain ⟨l, x⟩ := x
    cases x <;> simp at h
    subst h
    simp [setOwn]
  | inCircuit i j =>
    simp only [setCoilCurrent, Machine.mk.injEq]
    apply modify_eq_self
    intro x hx
    simp only [coilAt] at h
    rw [hx] at h
    obtain ⟨l, x⟩ := x
    cases x with
    | circuit k =>
      simp only [Option.map_eq_some_iff] at h
      obtain ⟨y, hy, rfl⟩ := h
      simp only [setInner, Prod.mk.injEq, true_and, Entry.circuit.injEq]
      rw [modify_eq_self]
      intro z hz
      rw [hz, Option.some.injEq] at hy
      subst hy
      simp
    | _ => simp at h

theorem setCoilCurrent_twice (m : Machine K) (loc : Loc) (I J : K) :
    (m.setCoilCurrent I loc).setCoilCurrent J loc = m.setCoilCurrent J loc := by
  cases loc with
  | direct i =>
    simp only [setCoilCurrent, modify_modify]
    congr 2
    funext ⟨l, x⟩
    cases x <;> simp [setOwn]
  | inCircuit i j =>
    simp only [setCoilCurrent, modify_modify]
    congr 2
    funext ⟨l, x⟩
    cases x with
    | circuit c =>
      simp only [setInner, Function.comp_apply, modify_modify]
      congr 4
      funext y
      simp
    | _ => rfl

/-- `getForces` of one coil leaves a synchronised machine as it was. -/
theorem coilForces_snd (e : Env K) (plasma : Quantity → K → K → K) {m : Machine K} (h : m.Synced)
    {loc : Loc} {r} (hr : m.coilForces e plasma loc = some r) : r.2 = m := by
  simp only [coilForces] at hr
  rcases hc : m.coilAt loc with _ | c
  · simp [hc] at hr
  · rw [hc] at hr
    simp only [Option.some.injEq] at hr
    subst hr
    simp only [field_snd]
    cases loc with
    | direct i =>
      rw [sync_setCoilCurrent_direct, sync_of_synced h,
        sync_of_synced (synced_setCoilCurrent_direct h 0 i), setCoilCurrent_twice, setCoilCurrent_self hc]
    | inCircuit i j =>
      rw [sync_setCoilCurrent_circuit, sync_of_synced h, sync_of_synced h, setCoilCurrent_self hc]

theorem forcesLoop_snd (e : Env K) (plasma : Quantity → K → K → K) {m : Machine K} (h : m.Synced)
    (ls : List Loc) : (forcesLoop e plasma ls m).2 = m := by
  induction ls with
  | nil => rfl
  | cons l ls ih =>
    rw [forcesLoop]
    rcases hr : m.coilForces e plasma l with _ | ⟨f, m'⟩
    · simpa using ih
    · have := coilForces_snd e plasma h hr
      simp only at this
      subst this
      simpa using ih

theorem forcesLoop_fst (e : Env K) (plasma : Quantity → K → K → K) {m : Machine K} (h : m.Synced)
    (ls : List Loc) :
    (forcesLoop e plasma ls m).1 = ls.filterMap fun l => (m.coilForces e plasma l).map Prod.fst := by
  induction ls with
  | nil => rfl
  | cons l ls ih =>
    rw [forcesLoop]
    rcases hr : m.coilForces e plasma l with _ | ⟨f, m'⟩
    · simpa [hr] using ih
    · have := coilForces_snd e plasma h hr
      simp only at this
      subst this
      simpa [hr] using ih

end Machine
end FreeGS
