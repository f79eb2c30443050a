import Verif.Lemmas.Forces

/-!
# C17-C21: superposition, circuits, control interface, forces
-/

set_option linter.unusedSectionVars false

namespace FreeGS

variable {K : Type*} [Field K] [LinearOrder K]

/-! ## A concrete machine used in the examples -/

/-- A simple computable environment for the examples. -/
def exEnv : Env ℚ where
  G q Rc Zc R Z := match q with
    | .psi => R * Rc + (Z - Zc) ^ 2
    | .br => (Z - Zc) * Rc
    | .bz => R + Rc
  pi := 3
  mu0 := 1
  sqrt x := x
  log x := x

/-- A coil, a circuit of two coils and a solenoid. -/
def exMachine : Machine ℚ := ⟨[
  ("P1", .coil (.point (PointCoil.make 1 2 3 4))),
  ("C", .circuit (Circuit.make
    [("U", .point (PointCoil.make 2 1), 1), ("L", .point (PointCoil.make 2 (-1)), -2)] 5 true)),
  ("S", .solenoid ⟨1, 0, 1, 3, 2, false⟩)]⟩

/-- **C17 (superposition).** `Machine.psi`, `Br`, `Bz` are the sum over all coils, coils in circuits and
solenoid turns of the current carried times the response per unit current. -/
theorem C17_superposition (e : Env K) (m : Machine K) (q : Quantity) (R Z : K) :
    (m.field e q R Z).1 = ((m.coils.map fun x => x.2.contributions e q R Z).flatten).sum ∧
    (m.field e q R Z).1 = (m.coils.map fun x => x.2.current * x.2.response e q R Z).sum := by
  refine ⟨?_, Machine.field_fst e q R Z m⟩
  rw [Machine.field_fst, List.sum_flatten, List.map_map]
  congr 1
  exact List.map_congr_left fun x _ => (Entry.sum_contributions e q R Z x.2).symm

example : (exMachine.field exEnv .psi 2 3).1 = 3 * (4 * (2 * 1 + (3 - 2) ^ 2)) +
    5 * (1 * (2 * 2 + (3 - 1) ^ 2)) + (-10) * (2 * 2 + (3 + 1) ^ 2) +
    2 * ((2 * 1 + 3 ^ 2) + (2 * 1 + (3 - 1 / 2) ^ 2) + (2 * 1 + (3 - 1) ^ 2)) := by decide +kernel

/-- **C17 (Green's functions).** Flux computed with `calcPsiFromGreens` from the Green's functions created on the
original machine equals the flux evaluated directly, after any history of reads, current changes, control
adjustments and force evaluations, provided that labels are distinct. The machine is left in the same
state by both ways. -/
theorem C17_greens (e : Env K) (m : Machine K) (hn : m.LabelsDistinct) (ops : List (Op K)) (R Z : K) :
    (runAll e m ops).calcFromGreens (m.createGreens e R Z) =
      .ok ((runAll e m ops).field e .psi R Z) :=
  Machine.calcFromGreens_eq e R Z hn (Machine.erase_runAll e ops m)

theorem exMachine_labels : exMachine.LabelsDistinct := by
  refine ⟨by decide, ?_⟩
  intro l c h
  simp only [exMachine, List.mem_cons, Prod.mk.injEq, reduceCtorEq, and_false, List.not_mem_nil,
    or_false, false_or, Entry.circuit.injEq] at h
  obtain ⟨_, rfl⟩ := h
  decide

example : ((runAll exEnv exMachine [.setCurrent 1 7, .adjust [1, 2], .read .bz 1 1]).calcFromGreens
    (exMachine.createGreens exEnv 2 3)).map Prod.fst =
      .ok ((runAll exEnv exMachine [.setCurrent 1 7, .adjust [1, 2]]).field exEnv .psi 2 3).1 := by
  rw [C17_greens exEnv exMachine exMachine_labels]
  decide +kernel

/-- The condition on labels is needed: with two coils of the same label the flux from the Green's functions is
wrong. -/
theorem C17_duplicate_labels_wrong : ∃ (e : Env ℚ) (m : Machine ℚ) (R Z : ℚ),
    (m.calcFromGreens (m.createGreens e R Z)).map Prod.fst ≠ .ok (m.field e .psi R Z).1 :=
  ⟨exEnv, ⟨[("P", .coil (.point (PointCoil.make 1 0 1))), ("P", .coil (.point (PointCoil.make 2 0 1)))]⟩,
    1, 0, by decide +kernel⟩

/-- **C18.** A circuit built by its constructor is synchronised: every coil carries multiplier times the
circuit current; and any history of reads, current settings, control switching, control adjustments and force
evaluations on the machine keeps all circuits so. -/
theorem C18_circuit_currents (e : Env K) :
    (∀ coils I b, (Circuit.make (K := K) coils I b).Synced) ∧
    ∀ (m : Machine K), m.Synced → ∀ ops, (runAll e m ops).Synced :=
  ⟨Circuit.synced_make, fun m h ops => Machine.synced_runAll e ops m h⟩

/-- **C18 (recovery).** Even if the current of a coil in a circuit has been overwritten directly, the next field
evaluation makes all circuits proportional again. -/
theorem C18_read_restores (e : Env K) (m : Machine K) (q : Quantity) (R Z : K) :
    (m.field e q R Z).2.Synced := by
  rw [Machine.field_snd]; exact Machine.synced_sync m

theorem exMachine_synced : exMachine.Synced := by
  intro l c h
  simp only [exMachine, List.mem_cons, Prod.mk.injEq, reduceCtorEq, and_false, List.not_mem_nil,
    or_false, false_or, Entry.circuit.injEq] at h
  obtain ⟨_, rfl⟩ := h
  exact (C18_circuit_currents exEnv).1 _ _ _

example : (runAll exEnv exMachine [.read .psi 1 1, .adjust [2, 4], .forces (fun _ R Z => R - Z)]).coils.map
    (fun x => match x.2 with
      | .circuit c => c.coils.map fun y => y.2.1.current
      | _ => []) = [[], [9, -18], []] := by decide +kernel

/-- **C19.** The control interface addresses exactly the controlled entries, in order: for a vector of the
right length `controlCurrents` returns what `setControlCurrents` set, and the old list plus the change after
`controlAdjust`; labels, order and control flags do not change; entries not under control are untouched; the
field at every point changes by the sum of current change times control response. -/
theorem C19_control_interface (e : Env K) (m : Machine K) (v : List K)
    (hv : v.length = m.controlCurrents.length) :
    (m.setControlCurrents v).controlCurrents = v ∧
    (m.controlAdjust v).controlCurrents = List.zipWith (· + ·) m.controlCurrents v ∧
    (∀ m', m' = m.setControlCurrents v ∨ m' = m.controlAdjust v →
      m'.coils.map (fun x => (x.1, x.2.control)) = m.coils.map (fun x => (x.1, x.2.control)) ∧
      m'.coils.filter (fun x => !x.2.control) = m.coils.filter (fun x => !x.2.control)) ∧
    (∀ q R Z, ((m.controlAdjust v).field e q R Z).1 = (m.field e q R Z).1 +
      (List.zipWith (· * ·) v (m.controlResponse e q R Z)).sum) := by
  refine ⟨?_, ?_, ?_, ?_⟩
  · rw [Machine.setControlCurrents, Machine.zipControl_controlCurrents, hv]
    have : ∀ (a b : List K), b.length = a.length →
        List.zipWith (fun _ x => x) a b ++ a.drop a.length = b := by
      intro a
      induction a with
      | nil => intro b hb; simpa using (List.length_eq_zero_iff.mp hb).symm
      | cons x a ih =>
        intro b hb
        cases b with
        | nil => simp at hb
        | cons y b => simpa using ih b (by simpa using hb)
    exact this _ _ hv
  · rw [Machine.controlAdjust, Machine.zipControl_controlCurrents, hv]
    simp
  · rintro m' (rfl | rfl) <;>
      exact ⟨Machine.zipControl_keys _ _ _, Machine.zipControl_uncontrolled _ _ _⟩
  · intro q R Z
    rw [Machine.field_fst, Machine.field_fst]
    exact Machine.adjust_field e q R Z m.coils v

/-- **C19 (other lengths).** A vector that is too short changes only the first controlled entries; surplus
values are ignored. -/
theorem C19_other_lengths (m : Machine K) (v : List K) :
    (m.setControlCurrents v).controlCurrents =
      v.take m.controlCurrents.length ++ m.controlCurrents.drop v.length := by
  rw [Machine.setControlCurrents, Machine.zipControl_controlCurrents]
  congr 1
  generalize (⟨m.coils⟩ : Machine K).controlCurrents = a
  have : ∀ (a b : List K), List.zipWith (fun _ x => x) a b = b.take a.length := by
    intro a
    induction a with
    | nil => simp
    | cons x a ih => intro b; cases b <;> simp [ih]
  exact this _ _

example : exMachine.controlCurrents = [3, 5] ∧ (exMachine.setControlCurrents [8, 9]).controlCurrents = [8, 9] ∧
    (exMachine.controlAdjust [8, 9]).controlCurrents = [11, 14] ∧
    (exMachine.controlAdjust [8, 9]).coils.map (fun x => x.2.current) = [11, 14, 2] := by decide +kernel

/-- **C20 (coil listed directly).** `getForces` of a coil in the machine's list: the force is the Lorentz force in
the field of the plasma and of the machine without that coil, plus the hoop force; the machine is
left exactly as it was. -/
theorem C20_direct_coil_partial (e : Env K) (plasma : Quantity → K → K → K) (m : Machine K) (i : ℕ)
    (l : String) (c : AnyCoil K) (h : m.coils[i]? = some (l, .coil c)) (hs : m.Synced) :
    let I := c.current * c.turns
    let Br := plasma .br c.R c.Z + ((m.without i).field e .br c.R c.Z).1
    let Bz := plasma .bz c.R c.Z + ((m.without i).field e .bz c.R c.Z).1
    m.coilForces e plasma (.direct i) =
      some (((I * Bz + hoopForce e c.R c.area I) * (2 * e.pi * c.R), -I * Br * (2 * e.pi * c.R)), m) := by
  intro I Br Bz
  have h1 := Machine.coilForces_direct e plasma m h
  rcases hr : m.coilForces e plasma (.direct i) with _ | r
  · rw [hr] at h1; simp at h1
  · rw [hr] at h1
    have h2 := Machine.coilForces_snd e plasma hs hr
    simp only [Option.map_some, Option.some.injEq] at h1
    rw [show r = (r.1, r.2) from rfl, h1, h2, Machine.coilForce_eq]

/-- **C20 (all coils, no side effects).** `getForces` of the whole machine leaves it exactly as it was,
including all currents in circuits. -/
theorem C20_no_side_effects (e : Env K) (plasma : Quantity → K → K → K) (m : Machine K) (hs : m.Synced) :
    (m.getForces e plasma).2 = m ∧
      ∀ loc r, m.coilForces e plasma loc = some r → r.2 = m :=
  ⟨Machine.forcesLoop_snd e plasma hs _, fun _ _ hr => Machine.coilForces_snd e plasma hs hr⟩

example : (exMachine.coilForces exEnv (fun _ R Z => R + Z) (.direct 0)).map Prod.fst =
    some ((12 * (3 + (5 * 3 - 10 * 3 + 2 * (2 + 2 + 2))) +
      hoopForce exEnv 1 (|3 * 4| / 3500000000) 12) * 6,
      -12 * (3 + (5 * (2 - 1) * 2 - 10 * (2 + 1) * 2 + 2 * (2 + 3 / 2 + 1))) * 6) := by decide +kernel

/-- **C20 (coil in a circuit).** For a coil inside a circuit the claim is false: the force is evaluated in the
field of the whole machine, *including* the coil's own field, because reading the circuit's field writes the
coil's current back. -/
theorem C20_circuit_coil_feels_itself (e : Env K) (plasma : Quantity → K → K → K) (m : Machine K)
    (i j : ℕ) (c : AnyCoil K) (h : m.coilAt (.inCircuit i j) = some c) :
    let I := c.current * c.turns
    let Br := plasma .br c.R c.Z + (m.field e .br c.R c.Z).1
    let Bz := plasma .bz c.R c.Z + (m.field e .bz c.R c.Z).1
    (m.coilForces e plasma (.inCircuit i j)).map Prod.fst =
      some ((I * Bz + hoopForce e c.R c.area I) * (2 * e.pi * c.R), -I * Br * (2 * e.pi * c.R)) := by
  intro I Br Bz
  rw [Machine.coilForces_circuit e plasma m h, Machine.coilForce_eq]

/-- **C20 (refuted for circuits).** One coil alone in a circuit: the force should be the hoop force only, but a
magnetic part is reported. -/
theorem C20_circuit_wrong : ∃ (e : Env ℚ) (m : Machine ℚ) (c : AnyCoil ℚ), m.Synced ∧
    m.coils.length = 1 ∧ m.coilAt (.inCircuit 0 0) = some c ∧
    (m.coilForces e (fun _ _ _ => 0) (.inCircuit 0 0)).map Prod.fst ≠
      some (hoopForce e c.R c.area (c.current * c.turns) * (2 * e.pi * c.R), 0) := by
  refine ⟨exEnv, ⟨[("C", .circuit (Circuit.make [("U", .point (PointCoil.make 2 1), 1)] 5 true))]⟩,
    .point (PointCoil.make 2 1 5), ?_, rfl, ?_, by decide +kernel⟩
  · intro l c h
    simp only [List.mem_cons, Prod.mk.injEq, Entry.circuit.injEq, List.not_mem_nil, or_false] at h
    obtain ⟨_, rfl⟩ := h
    exact (C18_circuit_currents exEnv).1 _ _ _
  · simp [Machine.coilAt, Circuit.make, Circuit.setCurrent, Circuit.setControl, AnyCoil.setCurrent,
      AnyCoil.setControl, PointCoil.make]

/-- **C21.** For a machine of any number of plain coils (direct or in circuits) without plasma, the vertical
forces reported by `getForces` add up to zero, whatever the elliptic integral routines return. -/
theorem C21_forces_balance (ek ee : ℝ → ℝ) (m : Machine ℝ) (h : m.AllPoint) (hs : m.Synced) :
    ((m.getForces (realEnv ek ee) fun _ _ _ => 0).1.map Prod.snd).sum = 0 := by
  refine Machine.forces_balance ek ee (fun x hx => ?_) hs
  have := h x hx
  obtain ⟨l, x⟩ := x
  cases x <;> exact this

/-- **C21 (two coils).** The vertical forces on two coils are equal and opposite. -/
theorem C21_two_coils (ek ee : ℝ → ℝ) (a b : String) (p q : PointCoil ℝ) (hp : p.R ≠ 0) (hq : q.R ≠ 0) :
    ∃ f g, (Machine.getForces (realEnv ek ee) (fun _ _ _ => 0)
      ⟨[(a, .coil (.point p)), (b, .coil (.point q))]⟩).1 = [f, g] ∧ f.2 = -g.2 := by
  set m : Machine ℝ := ⟨[(a, .coil (.point p)), (b, .coil (.point q))]⟩ with hm
  have hs : m.Synced := by
    intro l c hc
    simp [hm] at hc
  have hall : m.AllPoint := by
    intro x hx
    simp only [hm, List.mem_cons, List.not_mem_nil, or_false] at hx
    rcases hx with rfl | rfl
    · exact ⟨p, rfl, hp⟩
    · exact ⟨q, rfl, hq⟩
  have h0 := C21_forces_balance ek ee m hall hs
  have h1 : (m.getForces (realEnv ek ee) fun _ _ _ => 0).1.length = 2 := by
    have := congrArg List.length (Machine.forces_sources ek ee (m := m) (fun x hx => by
      have := hall x hx
      obtain ⟨l, x⟩ := x
      cases x <;> exact this) hs)
    simpa [hm, Machine.sources, Entry.sources] using this
  obtain ⟨f, g, hfg⟩ := List.length_eq_two.mp h1
  refine ⟨f, g, hfg, ?_⟩
  rw [hfg] at h0
  simp only [List.map_cons, List.map_nil, List.sum_cons, List.sum_nil, add_zero] at h0
  linarith

/-- A machine meeting the hypotheses of C21, with a direct coil and a circuit. -/
example : ∃ m : Machine ℝ, m.AllPoint ∧ m.Synced ∧ m.coils.length = 2 := by
  refine ⟨⟨[("P", .coil (.point (PointCoil.make 1 2 3))), ("C", .circuit (Circuit.make
    [("U", .point (PointCoil.make 2 1), 1), ("L", .point (PointCoil.make 2 (-1)), -2)] 5 true))]⟩,
    ?_, ?_, rfl⟩
  · intro x hx
    simp only [List.mem_cons, List.not_mem_nil, or_false] at hx
    rcases hx with rfl | rfl
    · exact ⟨_, rfl, by norm_num [PointCoil.make]⟩
    · intro y hy
      simp only [Circuit.make, Circuit.setCurrent, Circuit.setControl, List.map_cons, List.map_nil,
        List.mem_cons, List.not_mem_nil, or_false] at hy
      rcases hy with rfl | rfl
      · exact ⟨_, rfl, by norm_num [PointCoil.make]⟩
      · exact ⟨_, rfl, by norm_num [PointCoil.make]⟩
  · intro l c hc
    simp only [List.mem_cons, Prod.mk.injEq, reduceCtorEq, and_false, List.not_mem_nil,
      or_false, false_or, Entry.circuit.injEq] at hc
    obtain ⟨_, rfl⟩ := hc
    exact Circuit.synced_make _ _ _

end FreeGS
