import Verif.Lemmas.MachineGreens
import Verif.Props.Greens

/-!
# Lemmas on control currents and forces
-/

set_option linter.unusedSectionVars false

namespace FreeGS

variable {K : Type*} [Field K] [LinearOrder K]

namespace Machine

/-! ### Control vectors -/

theorem zipControl_controlCurrents (f : K → K → K) (cs : List (String × Entry K)) :
    ∀ vs, (⟨zipControl f cs vs⟩ : Machine K).controlCurrents =
      List.zipWith f (⟨cs⟩ : Machine K).controlCurrents vs ++
        (⟨cs⟩ : Machine K).controlCurrents.drop vs.length := by
  induction cs with
  | nil => intro vs; simp [zipControl, controlCurrents]
  | cons y cs ih =>
    obtain ⟨l, y⟩ := y
    intro vs
    cases hy : y.control with
    | true =>
      cases vs with
      | nil => rw [zipControl_true_nil _ _ _ hy]; simp [controlCurrents]
      | cons v vs =>
        rw [zipControl_true_cons _ _ _ _ _ hy]
        have := ih vs
        simp only [controlCurrents] at this ⊢
        simp [hy, this]
    | false =>
      rw [zipControl_false _ _ _ _ hy]
      have := ih vs
      simp only [controlCurrents] at this ⊢
      simp [hy, this]

theorem zipControl_uncontrolled (f : K → K → K) (cs : List (String × Entry K)) :
    ∀ vs, (zipControl f cs vs).filter (fun x => !x.2.control) =
      cs.filter (fun x => !x.2.control) := by
  induction cs with
  | nil => intro vs; simp [zipControl]
  | cons y cs ih =>
    obtain ⟨l, y⟩ := y
    intro vs
    cases hy : y.control with
    | true =>
      cases vs with
      | nil => rw [zipControl_true_nil _ _ _ hy]
      | cons v vs => rw [zipControl_true_cons _ _ _ _ _ hy]; simp [hy, ih]
    | false => rw [zipControl_false _ _ _ _ hy]; simp [hy, ih]

theorem zipControl_keys (f : K → K → K) (cs : List (String × Entry K)) :
    ∀ vs, (zipControl f cs vs).map (fun x => (x.1, x.2.control)) =
      cs.map (fun x => (x.1, x.2.control)) := by
  induction cs with
  | nil => intro vs; simp [zipControl]
  | cons y cs ih =>
    obtain ⟨l, y⟩ := y
    intro vs
    cases hy : y.control with
    | true =>
      cases vs with
      | nil => rw [zipControl_true_nil _ _ _ hy]
      | cons v vs => rw [zipControl_true_cons _ _ _ _ _ hy]; simp [ih]
    | false => rw [zipControl_false _ _ _ _ hy]; simp [ih]

theorem adjust_field (e : Env K) (q : Quantity) (R Z : K) (cs : List (String × Entry K)) :
    ∀ vs : List K,
      ((zipControl (fun I x => I + x) cs vs).map fun x => x.2.current * x.2.response e q R Z).sum =
      (cs.map fun x => x.2.current * x.2.response e q R Z).sum +
        (List.zipWith (· * ·) vs ((⟨cs⟩ : Machine K).controlResponse e q R Z)).sum := by
  induction cs with
  | nil => intro vs; simp [zipControl, controlResponse]
  | cons y cs ih =>
    obtain ⟨l, y⟩ := y
    intro vs
    cases hy : y.control with
    | true =>
      cases vs with
      | nil => rw [zipControl_true_nil _ _ _ hy]; simp
      | cons v vs =>
        rw [zipControl_true_cons _ _ _ _ _ hy]
        have := ih vs
        simp only [controlResponse] at this ⊢
        simp only [hy, List.map_cons, List.sum_cons, Entry.current_setCurrent,
          Entry.response_setCurrent, List.filter_cons_of_pos, List.zipWith_cons_cons, this]
        ring
    | false =>
      rw [zipControl_false _ _ _ _ hy]
      have := ih vs
      simp only [controlResponse] at this ⊢
      simp [hy, this, add_assoc]

/-! ### Forces -/

theorem field_setOwn_zero (e : Env K) (q : Quantity) (R Z : K) (cs : List (String × Entry K)) :
    ∀ i l c, cs[i]? = some (l, Entry.coil c) →
      ((cs.modify i fun x => (x.1, setOwn 0 x.2)).map fun x => x.2.current * x.2.response e q R Z).sum =
      ((cs.eraseIdx i).map fun x => x.2.current * x.2.response e q R Z).sum := by
  induction cs with
  | nil => intro i l c h; simp at h
  | cons a cs ih =>
    intro i l c h
    cases i with
    | zero =>
      simp only [List.length_cons, Nat.zero_lt_succ, List.getElem?_eq_getElem, List.getElem_cons_zero,
        Option.some.injEq] at h
      subst h
      simp [setOwn, Entry.current]
    | succ i =>
      simp only [List.getElem?_cons_succ] at h
      simp [ih i l c h]

theorem coilForces_direct (e : Env K) (plasma : Quantity → K → K → K) (m : Machine K) {i : ℕ}
    {l : String} {c : AnyCoil K} (h : m.coils[i]? = some (l, .coil c)) :
    (m.coilForces e plasma (.direct i)).map Prod.fst =
      some (coilForce e c c.current
        (plasma .br c.R c.Z + ((m.without i).field e .br c.R c.Z).1)
        (plasma .bz c.R c.Z + ((m.without i).field e .bz c.R c.Z).1)) := by
  have hc : m.coilAt (.direct i) = some c := by simp [coilAt, h]
  have hb : ∀ q, ((m.setCoilCurrent 0 (.direct i)).field e q c.R c.Z).1 =
      ((m.without i).field e q c.R c.Z).1 := by
    intro q
    rw [field_fst, field_fst]
    exact field_setOwn_zero e q c.R c.Z m.coils i l c h
  have hs : ∀ (n : Machine K) (q : Quantity) (R Z : K), (n.sync.field e q R Z).1 = (n.field e q R Z).1 := by
    intro n q R Z
    simp [field_fst, sync, Function.comp_def]
  simp only [coilForces, hc, Option.map_some, field_snd, hs, hb, AnyCoil.setCurrent_current]

theorem coilForces_circuit (e : Env K) (plasma : Quantity → K → K → K) (m : Machine K)
    {i j : ℕ} {c : AnyCoil K} (hc : m.coilAt (.inCircuit i j) = some c) :
    (m.coilForces e plasma (.inCircuit i j)).map Prod.fst =
      some (coilForce e c c.current
        (plasma .br c.R c.Z + (m.field e .br c.R c.Z).1)
        (plasma .bz c.R c.Z + (m.field e .bz c.R c.Z).1)) := by
  have hs : ∀ (n : Machine K) (q : Quantity) (R Z : K), (n.sync.field e q R Z).1 = (n.field e q R Z).1 := by
    intro n q R Z
    simp [field_fst, sync, Function.comp_def]
  have hb : ∀ q, ((m.setCoilCurrent 0 (.inCircuit i j)).field e q c.R c.Z).1 =
      (m.field e q c.R c.Z).1 := by
    intro q
    rw [← hs, sync_setCoilCurrent_circuit, hs]
  simp only [coilForces, hc, Option.map_some, field_snd, hs, hb, AnyCoil.setCurrent_current]

theorem coilForce_eq (e : Env K) (c : AnyCoil K) (I Br Bz : K) :
    coilForce e c I Br Bz =
      (((I * c.turns) * Bz + hoopForce e c.R c.area (I * c.turns)) * (2 * e.pi * c.R),
        -(I * c.turns) * Br * (2 * e.pi * c.R)) := by
  simp only [coilForce, hoopForce, Prod.mk.injEq]
  refine ⟨?_, trivial⟩
  have : (1 : K) / 2 / 2 = 1 / 4 := by
    rw [div_div]; norm_num
  rw [this]

end Machine

/-! ### Balance of vertical forces -/

theorem sum_map_comm {ι κ : Type*} (a : ι → κ → K) (l : List ι) (l' : List κ) :
    (l.map fun i => (l'.map fun j => a i j).sum).sum =
      (l'.map fun j => (l.map fun i => a i j).sum).sum := by
  induction l with
  | nil => simp
  | cons x l ih => simp [ih, List.sum_map_add]

theorem sum_map_neg' {ι : Type*} (f : ι → K) (l : List ι) :
    (l.map fun i => -f i).sum = -(l.map f).sum := by
  induction l with
  | nil => simp
  | cons a l ih => simp [ih, add_comm]

theorem sum_antisymm {ι : Type*} [IsStrictOrderedRing K] (a : ι → ι → K) (l : List ι)
    (h : ∀ i ∈ l, ∀ j ∈ l, a i j = -a j i) : (l.map fun i => (l.map fun j => a i j).sum).sum = 0 := by
  have h1 : (l.map fun i => (l.map fun j => a i j).sum).sum =
      -(l.map fun i => (l.map fun j => a j i).sum).sum := by
    rw [← sum_map_neg']
    congr 1
    refine List.map_congr_left fun i hi => ?_
    rw [← sum_map_neg']
    congr 1
    exact List.map_congr_left fun j hj => h i hi j hj
  rw [sum_map_comm (fun i j => a j i)] at h1
  linarith

/-- Reciprocity of the radial field: `R * Br` is antisymmetric in the two points. -/
theorem greensBr_antisymm (ek ee : ℝ → ℝ) (R1 Z1 R2 Z2 : ℝ) (h1 : R1 ≠ 0) (h2 : R2 ≠ 0) :
    R2 * greensBr ek ee R1 Z1 R2 Z2 = -(R1 * greensBr ek ee R2 Z2 R1 Z1) := by
  have e1 : greens ek ee R1 Z1 R2 (Z2 - 1e-3) = greens ek ee R2 Z2 R1 (Z1 + 1e-3) := by
    rw [(C15_greens_symmetries ek ee R1 Z1 R2 (Z2 - 1e-3)).1,
      ← (C15_greens_symmetries ek ee R2 (Z2 - 1e-3) R1 Z1).2.1 1e-3]
    congr 1; ring
  have e2 : greens ek ee R1 Z1 R2 (Z2 + 1e-3) = greens ek ee R2 Z2 R1 (Z1 - 1e-3) := by
    rw [(C15_greens_symmetries ek ee R1 Z1 R2 (Z2 + 1e-3)).1,
      ← (C15_greens_symmetries ek ee R2 Z2 R1 (Z1 - 1e-3)).2.1 1e-3]
    congr 1; ring
  simp only [greensBr]
  rw [e1, e2]
  generalize greens ek ee R2 Z2 R1 (Z1 + 1e-3) = a
  generalize greens ek ee R2 Z2 R1 (Z1 - 1e-3) = b
  have h3 : (1e-3 : ℝ) ≠ 0 := by norm_num
  generalize (1e-3 : ℝ) = ε at h3
  field_simp
  ring

/-- The filaments of an entry: position and total current. -/
def Entry.sources : Entry ℝ → List (ℝ × ℝ × ℝ)
  | .coil c => [(c.R, c.Z, c.current * c.turns)]
  | .circuit k => k.coils.map fun y => (y.2.1.R, y.2.1.Z, y.2.1.current * y.2.1.turns)
  | .solenoid _ => []

/-- The part of `AllPoint` for one entry. -/
def Entry.AllPoint : Entry ℝ → Prop
  | .coil c => ∃ p, c = .point p ∧ p.R ≠ 0
  | .circuit k => ∀ y ∈ k.coils, ∃ p, y.2.1 = .point p ∧ p.R ≠ 0
  | .solenoid _ => False

theorem Entry.field_sources (ek ee : ℝ → ℝ) (R Z : ℝ) {x : Entry ℝ} (h : x.AllPoint) (hs : x.Synced) :
    x.current * x.response (realEnv ek ee) .br R Z =
      (x.sources.map fun s => s.2.2 * greensBr ek ee s.1 s.2.1 R Z).sum := by
  cases x with
  | coil c =>
    obtain ⟨p, rfl, _⟩ := h
    simp only [current, response, AnyCoil.response, PointCoil.response, realEnv, sources, AnyCoil.current,
      AnyCoil.R, AnyCoil.Z, AnyCoil.turns, List.map_cons, List.map_nil, List.sum_cons, List.sum_nil]
    ring
  | circuit k =>
    simp only [current, response, sources, Circuit.response_eq, List.map_map]
    rw [← List.sum_map_mul_left]
    congr 1
    refine List.map_congr_left fun y hy => ?_
    obtain ⟨p, hp, _⟩ := h y hy
    have := hs y hy
    simp only [Function.comp_apply, this]
    rw [hp]
    simp only [AnyCoil.response, PointCoil.response, realEnv, AnyCoil.R, AnyCoil.Z, AnyCoil.turns]
    ring
  | solenoid s => exact absurd h id

namespace Machine

/-- All filaments of the machine. -/
def sources (m : Machine ℝ) : List (ℝ × ℝ × ℝ) := (m.coils.map fun x => x.2.sources).flatten

theorem field_sources (ek ee : ℝ → ℝ) (R Z : ℝ) {m : Machine ℝ} (h : ∀ x ∈ m.coils, x.2.AllPoint)
    (hs : m.Synced) : (m.field (realEnv ek ee) .br R Z).1 =
      (m.sources.map fun s => s.2.2 * greensBr ek ee s.1 s.2.1 R Z).sum := by
  rw [synced_iff] at hs
  rw [field_fst, sources]
  generalize m.coils = cs at h hs
  induction cs with
  | nil => simp
  | cons x cs ih =>
    simp only [List.map_cons, List.sum_cons, List.flatten_cons, List.map_append, List.sum_append]
    rw [ih (fun y hy => h y (List.mem_cons_of_mem _ hy)) (fun y hy => hs y (List.mem_cons_of_mem _ hy)),
      Entry.field_sources ek ee R Z (h x List.mem_cons_self) (hs x List.mem_cons_self)]

theorem self_field_zero (ek ee : ℝ → ℝ) (p : PointCoil ℝ) :
    (AnyCoil.point p).response (realEnv ek ee) .br p.R p.Z = 0 := by
  have := (C16_field_symmetries ek ee p.R p.Z p.R p.Z 1e-3).2.2.1
  simp only [AnyCoil.response, PointCoil.response, realEnv, this, zero_mul]

/-- Removing a plain coil does not change the radial field at its own place. -/
theorem without_field (ek ee : ℝ → ℝ) (m : Machine ℝ) {i : ℕ} {l : String} {p : PointCoil ℝ}
    (h : m.coils[i]? = some (l, .coil (.point p))) :
    ((m.without i).field (realEnv ek ee) .br p.R p.Z).1 = (m.field (realEnv ek ee) .br p.R p.Z).1 := by
  rw [field_fst, field_fst, without]
  generalize m.coils = cs at h
  induction cs generalizing i with
  | nil => simp at h
  | cons a cs ih =>
    cases i with
    | zero =>
      simp only [List.length_cons, Nat.zero_lt_succ, List.getElem?_eq_getElem, List.getElem_cons_zero,
        Option.some.injEq] at h
      subst h
      simp [Entry.response, self_field_zero]
    | succ i =>
      simp only [List.getElem?_cons_succ] at h
      simp [ih h]

/-- The vertical forces of all coils, in terms of filaments. -/
theorem forces_sources (ek ee : ℝ → ℝ) {m : Machine ℝ} (h : ∀ x ∈ m.coils, x.2.AllPoint)
    (hs : m.Synced) :
    (m.getForces (realEnv ek ee) fun _ _ _ => 0).1.map Prod.snd =
      m.sources.map fun s => -s.2.2 * (m.field (realEnv ek ee) .br s.1 s.2.1).1 * (2 * Real.pi * s.1) := by
  rw [getForces, forcesLoop_fst _ _ hs, locs, sources, List.filterMap_flatten, List.map_flatten,
    List.map_flatten, List.map_map, List.map_map, List.map_map]
  have h0 : m.coils = m.coils.zipIdx.map Prod.fst := by simp
  conv_rhs => rw [h0, List.map_map]
  congr 1
  refine List.map_congr_left fun p hp => ?_
  obtain ⟨⟨l, x⟩, i⟩ := p
  have hi : m.coils[i]? = some (l, x) := by
    have := List.mem_zipIdx_iff_getElem?.mp hp
    simpa using this
  have hx : x.AllPoint := h (l, x) (List.mem_of_getElem? hi)
  cases x with
  | coil c =>
    obtain ⟨p, rfl, _⟩ := hx
    have := coilForces_direct (realEnv ek ee) (fun _ _ _ => 0) m hi
    simp only [Function.comp_apply, entryLocs, Entry.sources, List.filterMap_cons, List.filterMap_nil, this,
      List.map_cons, List.map_nil, coilForce_eq, zero_add]
    simp only [AnyCoil.R, AnyCoil.Z, without_field ek ee m hi]
    rfl
  | circuit k =>
    simp only [Function.comp_apply, entryLocs, Entry.sources, List.map_map]
    rw [List.filterMap_map]
    have hc : ∀ j, j < k.coils.length → m.coilAt (.inCircuit i j) = (k.coils[j]?).map fun y => y.2.1 := by
      intro j _
      simp [coilAt, hi]
    have : List.filterMap ((fun l => (m.coilForces (realEnv ek ee) (fun _ _ _ => 0) l).map Prod.fst) ∘
        Loc.inCircuit i) (List.range k.coils.length) =
        k.coils.map fun y => coilForce (realEnv ek ee) y.2.1 y.2.1.current
          (m.field (realEnv ek ee) .br y.2.1.R y.2.1.Z).1
          (m.field (realEnv ek ee) .bz y.2.1.R y.2.1.Z).1 := by
      have hr : k.coils = (List.range k.coils.length).filterMap fun j => k.coils[j]? := by
        apply List.ext_getElem?
        intro n
        rw [show (List.range k.coils.length).filterMap (fun j => k.coils[j]?) = k.coils from ?_]
        have : ∀ (cs : List (String × AnyCoil ℝ × ℝ)),
            (List.range cs.length).filterMap (fun j => cs[j]?) = cs := by
          intro cs
          induction cs with
          | nil => simp
          | cons a cs ih =>
            rw [List.length_cons, List.range_succ_eq_map, List.filterMap_cons]
            simp only [List.getElem?_cons_zero, List.filterMap_map, Function.comp_def,
              List.getElem?_cons_succ]
            rw [ih]
        exact this _
      conv_rhs => rw [hr, List.map_filterMap]
      refine List.filterMap_congr fun j hj => ?_
      rw [List.mem_range] at hj
      simp only [Function.comp_apply]
      have h1 : m.coilAt (.inCircuit i j) = some (k.coils[j]).2.1 := by
        rw [hc j hj, List.getElem?_eq_getElem hj]; rfl
      rw [coilForces_circuit _ _ m h1, List.getElem?_eq_getElem hj]
      simp
    rw [this, List.map_map]
    refine List.map_congr_left fun y hy => ?_
    simp only [Function.comp_apply, coilForce_eq]
    rfl
  | solenoid s => exact absurd hx id

theorem forces_balance (ek ee : ℝ → ℝ) {m : Machine ℝ} (h : ∀ x ∈ m.coils, x.2.AllPoint)
    (hs : m.Synced) :
    ((m.getForces (realEnv ek ee) fun _ _ _ => 0).1.map Prod.snd).sum = 0 := by
  rw [forces_sources ek ee h hs]
  have hR : ∀ s ∈ m.sources, s.1 ≠ 0 := by
    intro s hsm
    simp only [sources, List.mem_flatten, List.mem_map] at hsm
    obtain ⟨_, ⟨x, hx, rfl⟩, hsx⟩ := hsm
    have hx := h x hx
    obtain ⟨l, x⟩ := x
    cases x with
    | coil c =>
      obtain ⟨p, rfl, hp⟩ := hx
      simp only [Entry.sources, List.mem_singleton] at hsx
      subst hsx
      exact hp
    | circuit k =>
      simp only [Entry.sources, List.mem_map] at hsx
      obtain ⟨y, hy, rfl⟩ := hsx
      obtain ⟨p, hp, hp0⟩ := hx y hy
      rw [hp]
      exact hp0
    | solenoid s => exact absurd hx id
  have : (m.sources.map fun s => -s.2.2 * (m.field (realEnv ek ee) .br s.1 s.2.1).1 *
      (2 * Real.pi * s.1)) = m.sources.map fun s => (m.sources.map fun t =>
        -(2 * Real.pi) * (s.2.2 * t.2.2 * (s.1 * greensBr ek ee t.1 t.2.1 s.1 s.2.1))).sum := by
    refine List.map_congr_left fun s _ => ?_
    rw [field_sources ek ee s.1 s.2.1 h hs,
      show ∀ a b c d : ℝ, -a * b * (2 * c * d) = (-(2 * c) * a * d) * b by intros; ring,
      ← List.sum_map_mul_left]
    congr 1
    refine List.map_congr_left fun t _ => ?_
    ring
  rw [this]
  apply sum_antisymm
  intro s hs t ht
  rw [greensBr_antisymm ek ee t.1 t.2.1 s.1 s.2.1 (hR t ht) (hR s hs)]
  ring

end Machine
end FreeGS
