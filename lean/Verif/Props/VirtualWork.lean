import Verif.Props.Attract
import Verif.Props.Vacuum
import Verif.Props.Greens
import Mathlib.Analysis.Calculus.Deriv.MeanValue

/-!
# C129: the forces that `getForces` reports are the rate of change of the magnetic energy

Specification: the energy of circular currents in the field of each other, and a machine with one coil moved.
-/

set_option linter.unusedSectionVars false

namespace FreeGS

open Real Set

/-- The flux of the filaments `l` at a point, `G` being the flux of one ampere. -/
def fluxOf (G : ℝ → ℝ → ℝ → ℝ → ℝ) (l : List (ℝ × ℝ × ℝ)) (R Z : ℝ) : ℝ := (l.map fun f => G f.1 f.2.1 R Z * f.2.2).sum

/-- The energy of filaments in the field of each other: for each pair, current times the poloidal flux (`2π` times the flux function) of the other one. -/
noncomputable def interactionEnergy (G : ℝ → ℝ → ℝ → ℝ → ℝ) : List (ℝ × ℝ × ℝ) → ℝ
  | [] => 0
  | f :: l => f.2.2 * (2 * π * fluxOf G l f.1 f.2.1) + interactionEnergy G l

/-- The machine in which the entry at index `i` is the given plain coil, moved by `(dR, dZ)`. -/
def Machine.withMoved (m : Machine ℝ) (i : ℕ) (l : String) (p : PointCoil ℝ) (dR dZ : ℝ) : Machine ℝ :=
  ⟨m.coils.set i (l, .coil (.point { p with R := p.R + dR, Z := p.Z + dZ }))⟩

/-- The magnetic energy of a machine, apart from that of each filament in its own field. -/
noncomputable def Machine.energy (m : Machine ℝ) (G : ℝ → ℝ → ℝ → ℝ → ℝ) : ℝ := interactionEnergy G m.filaments

theorem fluxOf_append (G : ℝ → ℝ → ℝ → ℝ → ℝ) (a b : List (ℝ × ℝ × ℝ)) (R Z : ℝ) : fluxOf G (a ++ b) R Z = fluxOf G a R Z + fluxOf G b R Z := by
  simp [fluxOf]

/-- Taking one filament out of the list, for a symmetric flux function. -/
theorem energy_insert {G : ℝ → ℝ → ℝ → ℝ → ℝ} (hG : ∀ Rc Zc R Z, G Rc Zc R Z = G R Z Rc Zc) (f : ℝ × ℝ × ℝ) (b : List (ℝ × ℝ × ℝ)) :
    ∀ a, interactionEnergy G (a ++ f :: b) = interactionEnergy G (a ++ b) + f.2.2 * (2 * π * fluxOf G (a ++ b) f.1 f.2.1)
  | [] => by simp only [List.nil_append, interactionEnergy]; ring
  | g :: a => by
    simp only [List.cons_append, interactionEnergy]
    rw [energy_insert hG f b a]
    have e1 : fluxOf G (a ++ f :: b) g.1 g.2.1 = fluxOf G (a ++ b) g.1 g.2.1 + G f.1 f.2.1 g.1 g.2.1 * f.2.2 := by
      simp only [fluxOf, List.map_append, List.map_cons, List.sum_append, List.sum_cons]
      ring
    have e2 : fluxOf G (g :: (a ++ b)) f.1 f.2.1 = G g.1 g.2.1 f.1 f.2.1 * g.2.2 + fluxOf G (a ++ b) f.1 f.2.1 := by
      simp only [fluxOf, List.map_cons, List.sum_cons]
    rw [e1, e2, hG f.1 f.2.1]
    ring

theorem greens_exchange (ek ee : ℝ → ℝ) (Rc Zc R Z : ℝ) : greens ek ee Rc Zc R Z = greens ek ee R Z Rc Zc :=
  (C15_greens_symmetries ek ee Rc Zc R Z).1

theorem list_at {α : Type*} {l : List α} {i : ℕ} {x : α} (h : l[i]? = some x) : ∃ a b, l = a ++ x :: b ∧ i = a.length := by
  obtain ⟨hi, e⟩ := List.getElem?_eq_some_iff.mp h
  refine ⟨l.take i, l.drop (i + 1), ?_, by rw [List.length_take]; omega⟩
  rw [← e]
  simp

/-- The energy with the coil moved, up to a part that does not depend on where it is. -/
theorem energy_moved (ek ee : ℝ → ℝ) (m : Machine ℝ) (i : ℕ) (l : String) (p : PointCoil ℝ) (h : m.coils[i]? = some (l, .coil (.point p))) :
    ∃ E, ∀ dR dZ, (m.withMoved i l p dR dZ).energy (greens ek ee) =
      E + p.current * p.turns * (2 * π * fluxOf (greens ek ee) (m.without i).filaments (p.R + dR) (p.Z + dZ)) := by
  obtain ⟨a, b, e, hi⟩ := list_at h
  refine ⟨interactionEnergy (greens ek ee) (m.without i).filaments, fun dR dZ => ?_⟩
  have e1 : (m.without i).filaments = a.flatMap (fun x => x.2.filaments) ++ b.flatMap (fun x => x.2.filaments) := by
    simp [Machine.without, Machine.filaments, e, hi, List.eraseIdx_append_of_length_le]
  have e2 : (m.withMoved i l p dR dZ).filaments = a.flatMap (fun x => x.2.filaments) ++ (p.R + dR, p.Z + dZ, p.turns * p.current) ::
      b.flatMap (fun x => x.2.filaments) := by
    simp [Machine.withMoved, Machine.filaments, e, hi, Entry.filaments, AnyCoil.filaments, scaled, AnyCoil.current]
  rw [Machine.energy, e1, e2, energy_insert (greens_exchange ek ee)]
  ring

/-- **C129 (work).** A plain coil anywhere in a machine of coils, circuits and solenoids without plasma. Twice a millimetre times the vertical
force that `getForces` reports is the difference of the magnetic energy of the machine with the coil one millimetre higher and one millimetre
lower; likewise for the radial force without the coil's force on itself. All this whatever the elliptic integrals are. -/
theorem C129_work (ek ee : ℝ → ℝ) (m : Machine ℝ) (hs : m.Synced) (i : ℕ) (l : String) (p : PointCoil ℝ)
    (h : m.coils[i]? = some (l, .coil (.point p))) (hm : (m.without i).Computed) (hR : p.R ≠ 0) :
    let I := p.current * p.turns
    let E := fun dR dZ => (m.withMoved i l p dR dZ).energy (greens ek ee)
    ∃ F : ℝ × ℝ, m.coilForces (realEnv ek ee) (fun _ _ _ => 0) (.direct i) = some (F, m) ∧
      2 * 1e-3 * F.2 = E 0 1e-3 - E 0 (-1e-3) ∧
      2 * 1e-3 * (F.1 - 2 * π * p.R * hoopForce (realEnv ek ee) p.R (AnyCoil.area (.point p)) I) = E 1e-3 0 - E (-1e-3) 0 := by
  intro I E
  refine ⟨_, C20_direct_coil_partial (realEnv ek ee) (fun _ _ _ => 0) m i l (.point p) h hs, ?_⟩
  obtain ⟨c, hc⟩ := energy_moved ek ee m i l p h
  obtain ⟨f1, f2⟩ := C96_field_from_flux ek ee (m.without i) hm p.R p.Z
  have hpsi : ∀ r z, ((m.without i).field (realEnv ek ee) .psi r z).1 = fluxOf (greens ek ee) (m.without i).filaments r z := fun r z =>
    field_filaments (realEnv ek ee) .psi r z (m.without i) hm
  simp only [hpsi] at f1 f2
  simp only [E, hc, AnyCoil.R, AnyCoil.Z, AnyCoil.current, AnyCoil.turns, f1, f2, I]
  rw [show (realEnv ek ee).pi = π from rfl]
  generalize hoopForce (realEnv ek ee) p.R (AnyCoil.area (.point p)) (p.current * p.turns) = H
  simp only [add_zero, ← sub_eq_add_neg]
  constructor
  · field_simp
    ring
  · field_simp
    ring

/-- **C129 (rate of change).** With the exact elliptic integrals, and no other filament so near that `Greens` clips: the vertical force reported is
the derivative of the energy with the height of the coil, at a height within a millimetre of the coil's; and the radial force, without that of
the coil on itself, is the derivative with the radius at a radius within a millimetre. -/
theorem C129_gradient (m : Machine ℝ) (hs : m.Synced) (i : ℕ) (l : String) (p : PointCoil ℝ) (h : m.coils[i]? = some (l, .coil (.point p)))
    (hm : (m.without i).Computed) (hR : 1e-3 < p.R)
    (hZc : ∀ f ∈ (m.without i).filaments, 0 < f.1 ∧ ∀ z ∈ Icc (p.Z - 1e-3) (p.Z + 1e-3), ClearOf f.1 f.2.1 p.R z)
    (hRc : ∀ f ∈ (m.without i).filaments, ∀ r ∈ Icc (p.R - 1e-3) (p.R + 1e-3), ClearOf f.1 f.2.1 r p.Z) :
    ∃ F : ℝ × ℝ, m.coilForces exactEnv (fun _ _ _ => 0) (.direct i) = some (F, m) ∧
      (∃ δ ∈ Ioo (-1e-3 : ℝ) 1e-3, HasDerivAt (fun d => (m.withMoved i l p 0 d).energy (greens ellipticK ellipticE)) F.2 δ) ∧
      ∃ δ ∈ Ioo (-1e-3 : ℝ) 1e-3, HasDerivAt (fun d => (m.withMoved i l p d 0).energy (greens ellipticK ellipticE))
        (F.1 - 2 * π * p.R * hoopForce exactEnv p.R (AnyCoil.area (.point p)) (p.current * p.turns)) δ := by
  have hR0 : 0 < p.R := lt_trans (by norm_num) hR
  obtain ⟨F, h1, h2, h3⟩ := C129_work ellipticK ellipticE m hs i l p h hm hR0.ne'
  refine ⟨F, h1, ?_⟩
  obtain ⟨c, hc⟩ := energy_moved ellipticK ellipticE m i l p h
  have hds : ∀ r z, 0 < r → (∀ f ∈ (m.without i).filaments, 0 < f.1 ∧ ClearOf f.1 f.2.1 r z) →
      (∃ d, HasDerivAt (fun z => fluxOf (greens ellipticK ellipticE) (m.without i).filaments r z) d z) ∧
      ∃ d, HasDerivAt (fun r => fluxOf (greens ellipticK ellipticE) (m.without i).filaments r z) d r := by
    intro r z hr hf
    obtain ⟨dR, dZ, -, -, a1, a2, -⟩ := filaments_deltaStar hr (m.without i).filaments hf
    exact ⟨⟨_, a2.self_of_nhds⟩, ⟨_, a1.self_of_nhds⟩⟩
  have mvt : ∀ (g : ℝ → ℝ) (D : ℝ), (∀ d ∈ Icc (-1e-3 : ℝ) 1e-3, ∃ g', HasDerivAt g g' d) → 2 * 1e-3 * D = g 1e-3 - g (-1e-3) →
      ∃ δ ∈ Ioo (-1e-3 : ℝ) 1e-3, HasDerivAt g D δ := by
    intro g D hd hD
    choose! g' hg' using hd
    obtain ⟨δ, h4, h5⟩ := exists_hasDerivAt_eq_slope g g' (by norm_num : (-1e-3 : ℝ) < 1e-3)
      (fun x hx => (hg' x hx).continuousAt.continuousWithinAt) (fun x hx => hg' x ⟨hx.1.le, hx.2.le⟩)
    refine ⟨δ, h4, ?_⟩
    have h6 := hg' δ ⟨h4.1.le, h4.2.le⟩
    rwa [h5, ← hD, show (2 * 1e-3 * D) / (1e-3 - -1e-3) = D by norm_num] at h6
  refine ⟨mvt _ _ (fun d hd => ?_) h2, mvt _ _ (fun d hd => ?_) h3⟩
  · simp only [hc]
    obtain ⟨⟨d', hd'⟩, -⟩ := hds (p.R + 0) (p.Z + d) (by linarith) (fun f hf => ⟨(hZc f hf).1, by
      rw [add_zero]; exact (hZc f hf).2 _ ⟨by linarith [hd.1], by linarith [hd.2]⟩⟩)
    have := HasDerivAt.comp_const_add p.Z d hd'
    exact ⟨_, ((this.const_mul (2 * π)).const_mul (p.current * p.turns)).const_add c⟩
  · simp only [hc]
    obtain ⟨-, d', hd'⟩ := hds (p.R + d) (p.Z + 0) (by linarith [hd.1]) (fun f hf => ⟨(hZc f hf).1, by
      rw [add_zero]; exact hRc f hf _ ⟨by linarith [hd.1], by linarith [hd.2]⟩⟩)
    have := HasDerivAt.comp_const_add p.R d hd'
    exact ⟨_, ((this.const_mul (2 * π)).const_mul (p.current * p.turns)).const_add c⟩

/-- Two coils a metre apart meet the conditions. -/
example : ∃ (m : Machine ℝ) (l : String) (p : PointCoil ℝ), m.Synced ∧ m.coils[1]? = some (l, .coil (.point p)) ∧ (m.without 1).Computed ∧
    1e-3 < p.R ∧ (m.without 1).filaments ≠ [] ∧
    (∀ f ∈ (m.without 1).filaments, 0 < f.1 ∧ ∀ z ∈ Icc (p.Z - 1e-3) (p.Z + 1e-3), ClearOf f.1 f.2.1 p.R z) ∧
    ∀ f ∈ (m.without 1).filaments, ∀ r ∈ Icc (p.R - 1e-3) (p.R + 1e-3), ClearOf f.1 f.2.1 r p.Z := by
  refine ⟨⟨[("P", .coil (.point (PointCoil.make 1 0 3 2))), ("Q", .coil (.point (PointCoil.make 2 1 5 4)))]⟩, "Q", _, ?_, rfl, ?_⟩
  · intro l c hc; simp at hc
  · simp only [Machine.without, Machine.Computed, AnyCoil.Computed, Machine.filaments, Entry.filaments, AnyCoil.filaments, scaled, PointCoil.make,
      AnyCoil.current, List.eraseIdx_cons_succ, List.eraseIdx_cons_zero, List.flatMap_cons, List.flatMap_nil, List.map_cons, List.map_nil, List.append_nil,
      List.mem_cons, List.not_mem_nil, or_false, forall_eq, ClearOf]
    refine ⟨trivial, by norm_num, by simp, ⟨by norm_num, fun z hz => ?_⟩, fun r hr => ?_⟩
    · have h1 : 0 < (2 + 1 : ℝ) ^ 2 + (z - 0) ^ 2 := by positivity
      rw [lt_div_iff₀ h1, div_lt_iff₀ h1]
      constructor <;> nlinarith [hz.1, hz.2]
    · have h1 : 0 < (r + 1 : ℝ) ^ 2 + (1 - 0) ^ 2 := by positivity
      rw [lt_div_iff₀ h1, div_lt_iff₀ h1]
      constructor <;> nlinarith [hr.1, hr.2]

/-! ## Coils in circuits -/

/-- The machine in which the coil at index `j` of the circuit `c` at index `i` is the given plain coil, moved by `(dR, dZ)`. -/
def Machine.withMovedInner (m : Machine ℝ) (i : ℕ) (l : String) (c : Circuit ℝ) (j : ℕ) (l' : String) (p : PointCoil ℝ) (k dR dZ : ℝ) : Machine ℝ :=
  ⟨m.coils.set i (l, .circuit { c with coils := c.coils.set j (l', .point { p with R := p.R + dR, Z := p.Z + dZ }, k) })⟩

/-- The filaments of the machine with the coil moved. -/
theorem filaments_inner (m : Machine ℝ) (i : ℕ) (l : String) (c : Circuit ℝ) (h : m.coils[i]? = some (l, .circuit c)) (j : ℕ) (l' : String) (p : PointCoil ℝ)
    (k : ℝ) (h' : c.coils[j]? = some (l', .point p, k)) :
    ∃ A B, m.filaments = A ++ (p.R, p.Z, p.turns * (c.current * k)) :: B ∧
      ∀ dR dZ, (m.withMovedInner i l c j l' p k dR dZ).filaments = A ++ (p.R + dR, p.Z + dZ, p.turns * (c.current * k)) :: B := by
  obtain ⟨a, b, e, hi⟩ := list_at h
  obtain ⟨a', b', e', hj⟩ := list_at h'
  refine ⟨a.flatMap (fun x => x.2.filaments) ++ a'.flatMap (fun x => scaled (c.current * x.2.2) x.2.1.filaments),
    b'.flatMap (fun x => scaled (c.current * x.2.2) x.2.1.filaments) ++ b.flatMap (fun x => x.2.filaments), ?_, fun dR dZ => ?_⟩
  · simp [Machine.filaments, e, e', Entry.filaments, AnyCoil.filaments, scaled]
  · simp [Machine.withMovedInner, Machine.filaments, e, hi, e', hj, Entry.filaments, AnyCoil.filaments, scaled]

/-- **C129 (circuits).** A plain coil in a circuit. The vertical force reported is again the difference of the energy with the coil moved; the radial force
contains, besides the force of the coil on itself that is meant, the coil's current times the field that `GreensBz` gives for the coil at its own
place, and without both it is the difference of the energy. -/
theorem C129_circuit (ek ee : ℝ → ℝ) (m : Machine ℝ) (hs : m.Synced) (hm : m.Computed) (i : ℕ) (l : String) (c : Circuit ℝ)
    (h : m.coils[i]? = some (l, .circuit c)) (j : ℕ) (l' : String) (p : PointCoil ℝ) (k : ℝ) (h' : c.coils[j]? = some (l', .point p, k)) (hR : p.R ≠ 0) :
    let I := p.current * p.turns
    let E := fun dR dZ => (m.withMovedInner i l c j l' p k dR dZ).energy (greens ek ee)
    ∃ F : ℝ × ℝ, m.coilForces (realEnv ek ee) (fun _ _ _ => 0) (.inCircuit i j) = some (F, m) ∧
      2 * 1e-3 * F.2 = E 0 1e-3 - E 0 (-1e-3) ∧
      2 * 1e-3 * (F.1 - 2 * π * p.R * hoopForce (realEnv ek ee) p.R (AnyCoil.area (.point p)) I -
        2 * π * p.R * I * (I * greensBz ek ee p.R p.Z p.R p.Z)) = E 1e-3 0 - E (-1e-3) 0 := by
  intro I E
  have hat : m.coilAt (.inCircuit i j) = some (.point p) := by simp [Machine.coilAt, h, h']
  have hF := C20_circuit_coil_feels_itself (realEnv ek ee) (fun _ _ _ => 0) m i j (.point p) hat
  dsimp only at hF
  rcases hr : m.coilForces (realEnv ek ee) (fun _ _ _ => 0) (.inCircuit i j) with _ | r
  · rw [hr] at hF; simp at hF
  rw [hr, Option.map_some, Option.some.injEq] at hF
  have hsnd := (C20_no_side_effects (realEnv ek ee) (fun _ _ _ => 0) m hs).2 _ r hr
  refine ⟨r.1, by rw [← hsnd], ?_⟩
  have hcur : p.current = c.current * k := by
    have h1 : (l, Entry.circuit c) ∈ m.coils := List.mem_of_getElem? h
    have h2 : (l', AnyCoil.point p, k) ∈ c.coils := List.mem_of_getElem? h'
    exact (hs l c h1 _ h2).trans (mul_comm _ _)
  obtain ⟨A, B, e1, e2⟩ := filaments_inner m i l c h j l' p k h'
  have hE : ∀ dR dZ, E dR dZ = interactionEnergy (greens ek ee) (A ++ B) + I * (2 * π * fluxOf (greens ek ee) (A ++ B) (p.R + dR) (p.Z + dZ)) := by
    intro dR dZ
    simp only [E, I]
    rw [Machine.energy, e2, energy_insert (greens_exchange ek ee), hcur]
    ring
  have hpsi : ∀ r z, (m.field (realEnv ek ee) .psi r z).1 = fluxOf (greens ek ee) (A ++ B) r z + greens ek ee p.R p.Z r z * I := by
    intro r z
    rw [field_filaments (realEnv ek ee) .psi r z m hm, e1]
    simp only [fluxOf, filamentSum, List.map_append, List.map_cons, List.sum_append, List.sum_cons, realEnv, I, hcur]
    ring
  obtain ⟨f1, f2⟩ := C96_field_from_flux ek ee m hm p.R p.Z
  simp only [hpsi] at f1 f2
  have heven : greens ek ee p.R p.Z p.R (p.Z + 1e-3) = greens ek ee p.R p.Z p.R (p.Z - 1e-3) := by
    unfold greens
    rw [show (p.Z + 1e-3 - p.Z) ^ 2 = (p.Z - 1e-3 - p.Z) ^ 2 by ring]
  have hself : greensBz ek ee p.R p.Z p.R p.Z = (greens ek ee p.R p.Z (p.R + 1e-3) p.Z - greens ek ee p.R p.Z (p.R - 1e-3) p.Z) / (2 * 1e-3 * p.R) := rfl
  rw [hF]
  simp only [hE, AnyCoil.R, AnyCoil.Z, AnyCoil.current, AnyCoil.turns, f1, f2, heven, hself]
  rw [show (realEnv ek ee).pi = π from rfl]
  generalize hoopForce (realEnv ek ee) p.R (AnyCoil.area (.point p)) _ = H
  simp only [add_zero, ← sub_eq_add_neg]
  rw [show p.current * p.turns = I from rfl]
  constructor
  · field_simp
    ring
  · field_simp
    ring

/-- A coil and a circuit of two coils. -/
example : ∃ (m : Machine ℝ) (l l' : String) (c : Circuit ℝ) (p : PointCoil ℝ) (k : ℝ), m.Synced ∧ m.Computed ∧ m.coils[1]? = some (l, .circuit c) ∧
    c.coils[0]? = some (l', .point p, k) ∧ p.R ≠ 0 ∧ m.coils.length = 2 ∧ c.coils.length = 2 := by
  refine ⟨⟨[("P", .coil (.point (PointCoil.make 1 2 3))), ("C", .circuit (Circuit.make
    [("U", .point (PointCoil.make 2 1), 1), ("L", .point (PointCoil.make 2 (-1)), -2)] 5 true))]⟩, "C", "U", _, PointCoil.make 2 1 5, 1, ?_, ?_, rfl, ?_, ?_, rfl, ?_⟩
  · intro l c h
    simp only [List.mem_cons, Prod.mk.injEq, Entry.circuit.injEq, List.not_mem_nil, or_false, reduceCtorEq, and_false, false_or] at h
    obtain ⟨_, rfl⟩ := h
    exact (C18_circuit_currents (realEnv ellipticK ellipticE)).1 _ _ _
  · intro x hx
    simp only [List.mem_cons, List.not_mem_nil, or_false] at hx
    rcases hx with rfl | rfl
    · trivial
    · intro y hy
      simp [Circuit.make, Circuit.setCurrent, Circuit.setControl, AnyCoil.setCurrent, AnyCoil.setControl, PointCoil.make] at hy
      rcases hy with rfl | rfl <;> trivial
  · simp [Circuit.make, Circuit.setCurrent, Circuit.setControl, AnyCoil.setCurrent, AnyCoil.setControl, PointCoil.make]
  · norm_num [PointCoil.make]
  · simp [Circuit.make, Circuit.setCurrent, Circuit.setControl]

end FreeGS
