import Verif.Lemmas.ResizeEq
import Verif.Lemmas.ResizeControl
import Verif.Lemmas.Symmetry
import Verif.Props.Scaling
import Verif.Props.ScaledControl
import Verif.Model.Greens

/-!
# C119: the whole arrangement in another size
-/

set_option linter.unusedSectionVars false

namespace FreeGS

/-! ## The machine -/

/-- **C119 (Green's functions).** With all lengths multiplied by `l` the flux of a loop is `l` times the flux. The field is `1 / l` times the
field taken with a step of `eps / l` in the difference, not with the step of `eps`. -/
theorem C119_greens (ek ee : ℝ → ℝ) (l : ℝ) (hl : 0 < l) :
    ScalesBy l l ((realEnv ek ee).G .psi) ∧
    (∀ Rc Zc R Z eps, greensBz ek ee (l * Rc) (l * Zc) (l * R) (l * Z) eps = greensBz ek ee Rc Zc R Z (eps / l) / l) ∧
    ∀ Rc Zc R Z eps, greensBr ek ee (l * Rc) (l * Zc) (l * R) (l * Z) eps = greensBr ek ee Rc Zc R Z (eps / l) / l := by
  have hG : ∀ Rc Zc R Z, greens ek ee (l * Rc) (l * Zc) (l * R) (l * Z) = l * greens ek ee Rc Zc R Z := by
    intro Rc Zc R Z
    have h1 : 4 * (l * R) * (l * Rc) / ((l * R + l * Rc) ^ 2 + (l * Z - l * Zc) ^ 2) = 4 * R * Rc / ((R + Rc) ^ 2 + (Z - Zc) ^ 2) := by
      rw [show 4 * (l * R) * (l * Rc) = l ^ 2 * (4 * R * Rc) by ring,
        show (l * R + l * Rc) ^ 2 + (l * Z - l * Zc) ^ 2 = l ^ 2 * ((R + Rc) ^ 2 + (Z - Zc) ^ 2) by ring,
        mul_div_mul_left _ _ (pow_ne_zero 2 hl.ne')]
    have h2 : Real.sqrt (l * R * (l * Rc)) = l * Real.sqrt (R * Rc) := by
      rw [show l * R * (l * Rc) = l ^ 2 * (R * Rc) by ring, Real.sqrt_mul (sq_nonneg l), Real.sqrt_sq hl.le]
    simp only [greens, h1, h2]
    ring
  refine ⟨fun R Z R' Z' => hG R Z R' Z', fun Rc Zc R Z eps => ?_, fun Rc Zc R Z eps => ?_⟩
  · have e1 : l * R + eps = l * (R + eps / l) := by field_simp
    have e2 : l * R - eps = l * (R - eps / l) := by field_simp
    rw [greensBz, e1, e2, hG, hG, greensBz, ← mul_sub, div_div, show 2 * (eps / l) * R * l = 2 * eps * R by field_simp,
      show 2 * eps * (l * R) = l * (2 * eps * R) by ring, mul_div_mul_left _ _ hl.ne']
  · have e1 : l * Z + eps = l * (Z + eps / l) := by field_simp
    have e2 : l * Z - eps = l * (Z - eps / l) := by field_simp
    rw [greensBr, e1, e2, hG, hG, greensBr, ← mul_sub, div_div, show 2 * (eps / l) * R * l = 2 * eps * R by field_simp,
      show 2 * eps * (l * R) = l * (2 * eps * R) by ring, mul_div_mul_left _ _ hl.ne']

variable {K : Type*} [Field K] [LinearOrder K]

/-- **C119 (machine).** A machine with all its lengths multiplied by `l` and the same currents has, at points in the same relative position, `c`
times the flux or field and `c` times the control responses, if the Green's function has this property. Coils given by a table are
excluded. -/
theorem C119_machine {e : Env K} {l c : K} {q : Quantity} (hG : ScalesBy l c (e.G q)) (m : Machine K) (hm : m.Resizable) (R Z : K) :
    ((m.resize l).field e q (l * R) (l * Z)).1 = c * (m.field e q R Z).1 ∧
    (m.resize l).controlResponse e q (l * R) (l * Z) = (m.controlResponse e q R Z).map (c * ·) ∧
    (m.resize l).controlCurrents = m.controlCurrents :=
  ⟨Machine.field_resize hG R Z m hm, Machine.controlResponse_resize hG R Z m hm, Machine.controlCurrents_resize l m⟩

/-- **C119 (flux of the machine).** With the Green's function of the code. -/
theorem C119_machine_flux (ek ee : ℝ → ℝ) (l : ℝ) (hl : 0 < l) (m : Machine ℝ) (hm : m.Resizable) (R Z : ℝ) :
    ((m.resize l).field (realEnv ek ee) .psi (l * R) (l * Z)).1 = l * (m.field (realEnv ek ee) .psi R Z).1 :=
  (C119_machine (C119_greens ek ee l hl).1 m hm R Z).1

/-- A kernel for examples. -/
def sizeEnv : Env ℚ := ⟨fun q Rc Zc R Z => match q with
  | .psi => Rc + 2 * R + 3 * (Z - Zc)
  | _ => 1 / (Rc + R), 3, 1, id, id⟩

theorem sizeEnv_scales (l : ℚ) : ScalesBy l l (sizeEnv.G .psi) ∧ ScalesBy l (1 / l) (sizeEnv.G .br) := by
  refine ⟨fun R Z R' Z' => ?_, fun R Z R' Z' => ?_⟩ <;> simp only [sizeEnv]
  · ring
  · rw [← mul_add, one_div, mul_inv, one_div, one_div]

/-- A point coil, a circuit of a coil of two filaments, a solenoid, a coil with its mirror image. -/
def sizeMachine : Machine ℚ := ⟨[("P", .coil (.point ⟨1, 2, 3, 1, true, defaultArea⟩)),
  ("C", .circuit ⟨[("F", .filament ⟨2, 1, 0, 2, true, 1, [], [(2, 1), (2, 3)], 2⟩, -1)], 2, true⟩),
  ("S", .solenoid ⟨1, -1, 1, 3, 1, false⟩), ("M", .coil (.multi (MultiCoil.makePoint 1 2 (mirror := true))))]⟩

theorem sizeMachine_resizable : sizeMachine.Resizable := by
  intro x hx
  simp only [sizeMachine, List.mem_cons, List.not_mem_nil, or_false] at hx
  rcases hx with rfl | rfl | rfl | rfl
  · trivial
  · intro y hy
    simp only [List.mem_cons, List.not_mem_nil, or_false] at hy
    subst hy
    trivial
  · trivial
  · trivial

example : ((sizeMachine.resize 7).field sizeEnv .psi (7 * 1) (7 * 0)).1 = 7 * (sizeMachine.field sizeEnv .psi 1 0).1 ∧
    (sizeMachine.field sizeEnv .psi 1 0).1 ≠ 0 :=
  ⟨(C119_machine (sizeEnv_scales 7).1 sizeMachine sizeMachine_resizable 1 0).1, by decide +kernel⟩

end FreeGS

/-! ## The control system -/

namespace FreeGS.Control

variable {K : Type*} [Field K] [LinearOrder K] [IsStrictOrderedRing K]

/-- **C119 (control problem).** Requests for flux values and equal fluxes only. In the other size, with `l` times the flux values and `l` times the
regularisation, the control system sets up a problem with the same start values, the same limits, and `l ^ 2` times the objective. -/
theorem C119_control_problem {e : Env K} {l : K} (hG : ScalesBy l l (e.G .psi)) (hl : l ≠ 0) {c : Constrain K} (hx : c.xpoints = [])
    {eq eq1 : Eq K} (hm : eq.machine.Resizable) {p : Problem K} (h : problem e c eq = .ok (p, eq1)) :
    problem e (c.resize l l) (eq.resize l) = .ok ({ p with objective := fun x => l ^ 2 * p.objective x }, eq1.resize l) := by
  have e1 : ∀ eq : Eq K, (eq.resize l).machine = eq.machine.resize l := fun _ => rfl
  rw [problem] at h
  rw [problem, rows_resize hG hl c hx l eq hm]
  simp only [e1, Machine.controlCurrents_resize, bounds_resize, List.isEmpty_map]
  split at h
  · cases h
  rename_i hne
  split at h
  · cases h
  rename_i x0 hx0
  split at h
  · cases h
  rename_i bs hbs
  cases h
  have hgam : (c.resize l l).gamma = l * c.gamma := rfl
  have hlim : (c.resize l l).currentLims = c.currentLims := rfl
  have hmax : (c.resize l l).maxTotal = c.maxTotal := rfl
  rw [if_neg hne, hgam, hlim, hmax, tikhonov_both hl _ _ _ _ hx0]
  simp only [hbs]
  simp only [funext (objective_both l (rows e c eq).1 c.gamma)]

/-- **C119 (control).** Requests for flux values and equal fluxes only. If `constrain` succeeds and the optimiser has solved its problem, then
`constrain` in the other size, with `l` times the regularisation and any optimiser that solves its problem, makes the same changes of the
currents. -/
theorem C119_control_partial {e : Env K} {l : K} (hG : ScalesBy l l (e.G .psi)) (hl : 0 < l) {opt opt' : Problem K → List K} {c : Constrain K}
    (hx : c.xpoints = []) (hg : c.gamma ≠ 0) {eq eq' : Eq K} (hm : eq.machine.Resizable) {x : List K} (h : call e opt c eq = .ok (x, eq'))
    (ho : ∀ p eq1, problem e c eq = .ok (p, eq1) → p.Minimises (opt p))
    (ho' : ∀ p eq1, problem e (c.resize l l) (eq.resize l) = .ok (p, eq1) → p.Minimises (opt' p)) :
    call e opt' (c.resize l l) (eq.resize l) = .ok (x, eq'.resize l) := by
  rw [call] at h ⊢
  split at h
  · cases h
  rename_i p eq1 hp
  have hp' := C119_control_problem hG hl.ne' hx hm hp
  rw [hp']
  simp only
  have e1 : ∀ (eq : Eq K) y, ({ eq.resize l with machine := (eq.resize l).machine.controlAdjust y } : Eq K) =
      ({ eq with machine := eq.machine.controlAdjust y } : Eq K).resize l := by
    intro eq y
    simp only [Eq.resize, Machine.controlAdjust, Machine.resize, Machine.zipControl_resize]
  split at h
  · rename_i hpos
    cases h
    rw [if_pos hpos, e1]
    have hl2 : 0 < l ^ 2 := by positivity
    obtain ⟨b1, b2, b3⟩ := ho' _ _ hp'
    have hmin : p.Minimises (opt' { p with objective := fun x => l ^ 2 * p.objective x }) :=
      ⟨b1, b2, fun y hy hh => le_of_mul_le_mul_left (b3 y hy hh) hl2⟩
    rw [C99_control_unique hg hp hmin (ho p eq1 hp)]
  · rename_i hpos
    cases h
    rw [if_neg hpos]

/-- One coil; flux and field of the plasma. -/
def sizeEq : Eq ℚ := ⟨⟨[("P", .coil (.point ⟨1, 2, 3, 1, true, defaultArea⟩))]⟩, fun _ R Z => R + Z⟩

/-- A case meeting the hypotheses: a request for a flux value; a machine of 7 times the size. With the same regularisation the start values would
differ. -/
example : ((problem sizeEnv ({ gamma := 1, psivals := [(1, 3, 29)] } : Constrain ℚ) sizeEq).map fun r => r.1.x0) = .ok [42 / 37] ∧
    ((problem sizeEnv (({ gamma := 1, psivals := [(1, 3, 29)] } : Constrain ℚ).resize 7 7) (sizeEq.resize 7)).map fun r => r.1.x0) =
      .ok [42 / 37] ∧
    ((problem sizeEnv (({ gamma := 1, psivals := [(1, 3, 29)] } : Constrain ℚ).resize 7 1) (sizeEq.resize 7)).map fun r => r.1.x0) ≠
      .ok [42 / 37] := by
  decide +kernel

theorem tikhonov_zero {rs : List (Row K)} {gamma : K} (h : tikhonov rs 1 gamma = .ok [0]) : normalRhs rs 1 0 = 0 := by
  rw [tikhonov] at h
  split at h
  · cases h
  · rename_i M hM
    rw [inv] at hM
    split at hM
    · cases hM
    · rename_i hd
      cases hM
      simp only [Except.ok.injEq, List.ofFn_succ, List.ofFn_zero, List.cons.injEq, and_true, Matrix.mulVec, dotProduct, Fin.sum_univ_one,
        Matrix.smul_apply, Matrix.adjugate_fin_one, Matrix.one_apply_eq, smul_eq_mul, mul_one, mul_eq_zero, inv_eq_zero, hd, false_or] at h
      exact h

/-- **C119 (control with X-points).** With X-points and flux values in one request, no regularisation gives the same currents in another size:
conditions for the field are weighted by `1 / l`, conditions for the flux by `l`. An equilibrium for which the control system asks for no
change, and in twice the size it asks for a change whatever the regularisation. -/
theorem C119_control_fails : ∃ (e : Env ℚ) (c : Constrain ℚ) (eq : Eq ℚ), (∀ l, ScalesBy l l (e.G .psi) ∧ ScalesBy l (1 / l) (e.G .br) ∧
      ScalesBy l (1 / l) (e.G .bz)) ∧ eq.machine.Resizable ∧ c.gamma = 1 ∧
    ((problem e c eq).map fun r => r.1.x0) = .ok [0] ∧
    ∀ g, ((problem e (c.resize 2 g) (eq.resize 2)).map fun r => r.1.x0) ≠ .ok [0] := by
  refine ⟨sizeEnv, { gamma := 1, psivals := [(1, 3, 269 / 12)], xpoints := [(1, 0)] }, sizeEq,
    fun l => ⟨(sizeEnv_scales l).1, (sizeEnv_scales l).2, (sizeEnv_scales l).2⟩, ?_, rfl, by decide +kernel, fun g h => ?_⟩
  · intro x hx
    simp only [sizeEq, List.mem_cons, List.not_mem_nil, or_false] at hx
    subst hx
    trivial
  · have hr : rows sizeEnv (Constrain.resize 2 g ({ gamma := 1, psivals := [(1, 3, 269 / 12)], xpoints := [(1, 0)] } : Constrain ℚ)) (sizeEq.resize 2) =
        rows sizeEnv (Constrain.resize 2 1 ({ gamma := 1, psivals := [(1, 3, 269 / 12)], xpoints := [(1, 0)] } : Constrain ℚ)) (sizeEq.resize 2) := rfl
    have hn : (rows sizeEnv (Constrain.resize 2 1 ({ gamma := 1, psivals := [(1, 3, 269 / 12)], xpoints := [(1, 0)] } : Constrain ℚ))
        (sizeEq.resize 2)).2.machine.controlCurrents.length = 1 := by decide +kernel
    have h0 : normalRhs (rows sizeEnv (Constrain.resize 2 1 ({ gamma := 1, psivals := [(1, 3, 269 / 12)], xpoints := [(1, 0)] } : Constrain ℚ))
        (sizeEq.resize 2)).1 1 0 ≠ 0 := by decide +kernel
    rw [problem] at h
    simp only [hr, hn] at h
    split at h
    · cases h
    split at h
    · cases h
    rename_i x0 hx0
    split at h
    · cases h
    simp only [Except.map, Except.ok.injEq] at h
    subst h
    exact h0 (tikhonov_zero hx0)

end FreeGS.Control

/-! ## Operator and boundary -/

namespace FreeGS.GS

open FreeGS.Equil (times set_times)
open FreeGS.Critical (Domain)

variable {K : Type*} [Field K] [LinearOrder K] [IsStrictOrderedRing K]

theorem spacing_resize (l : K) (d : Domain K) (n : ℕ) :
    spacingR ⟨l * d.Rmin, l * d.Rmax, l * d.Zmin, l * d.Zmax⟩ n = l * spacingR d n ∧
    spacingZ ⟨l * d.Rmin, l * d.Rmax, l * d.Zmin, l * d.Zmax⟩ n = l * spacingZ d n := by
  simp only [spacingR, spacingZ, ← mul_sub, mul_div_assoc, and_self]

theorem foldl_addEntry_times (k : K) (N : ℕ) : ∀ (ps : List (ℤ × K)) (A : ℕ → K),
    (ps.map fun p => (p.1, p.2 * k)).foldl (addEntry N) (fun c => A c * k) = fun c => ps.foldl (addEntry N) A c * k
  | [], A => rfl
  | p :: ps, A => by
    rw [List.map_cons, List.foldl_cons, List.foldl_cons, ← foldl_addEntry_times k N ps]
    congr 1
    funext c
    simp only [addEntry]
    by_cases h : c = wrap N p.1
    · subst h; simp only [Function.update_self]; ring
    · simp only [Function.update_of_ne h]

/-- **C119 (operator).** With all lengths multiplied by `l` the rows of inner points of both matrices are divided by `l ^ 2`, the rows of edge points
are the same. -/
theorem C119_matrix (l : K) (hl : l ≠ 0) (d : Domain K) (nx ny : ℕ) :
    (∀ r c, gsSparse ⟨l * d.Rmin, l * d.Rmax, l * d.Zmin, l * d.Zmax⟩ nx ny r c =
      if isInterior nx ny (r / ny, r % ny) then gsSparse d nx ny r c / l ^ 2 else gsSparse d nx ny r c) ∧
    gs4Sparse ⟨l * d.Rmin, l * d.Rmax, l * d.Zmin, l * d.Zmax⟩ nx ny = (gs4Sparse d nx ny).map fun A r c =>
      if isInterior nx ny (r / ny, r % ny) then A r c / l ^ 2 else A r c := by
  have hl2 : l ^ 2 ≠ 0 := pow_ne_zero 2 hl
  have i2 : ∀ x : K, 1 / (l * x) ^ 2 = 1 / x ^ 2 * (1 / l ^ 2) := fun x => by rw [mul_pow, one_div, mul_inv, one_div, one_div, mul_comm]
  have i1 : ∀ R h n : K, 1 / (2 * (l * R + l * h * n) * (l * h)) = 1 / (2 * (R + h * n) * h) * (1 / l ^ 2) := fun R h n => by
    rw [show 2 * (l * R + l * h * n) * (l * h) = l ^ 2 * (2 * (R + h * n) * h) by ring, one_div, mul_inv, one_div, one_div, mul_comm]
  have i3 : ∀ p R h n : K, p / ((l * R + l * h * n) * (l * h)) = p / ((R + h * n) * h) * (1 / l ^ 2) := fun p R h n => by
    rw [show (l * R + l * h * n) * (l * h) = l ^ 2 * ((R + h * n) * h) by ring, div_eq_mul_inv, mul_inv, div_eq_mul_inv, one_div]
    ring
  constructor
  · intro r c
    simp only [gsSparse]
    split
    · rename_i hi
      have hi' : 1 ≤ r / ny ∧ r / ny + 1 < nx ∧ 1 ≤ r % ny ∧ r % ny + 1 < ny := by simpa [isInterior] using hi
      have hr : r / ny * ny + r % ny = r := by rw [mul_comm]; exact Nat.div_add_mod r ny
      simp only [gsRow, (spacing_resize l d nx).1, (spacing_resize l d ny).2, i2, i1, hr]
      have u : ∀ (f g : ℕ → K) (i : ℕ) (v : K), (∀ c ≠ r, f c = g c * (1 / l ^ 2)) → ∀ c ≠ r, Function.update f i (v * (1 / l ^ 2)) c =
          Function.update g i v c * (1 / l ^ 2) := by
        intro f g i v h c hc
        by_cases hci : c = i
        · subst hci; simp
        · rw [Function.update_of_ne hci, Function.update_of_ne hci, h c hc]
      have w : ∀ (f g : ℕ → K) (i : ℕ) (v : K), (∀ c, f c = g c * (1 / l ^ 2)) → ∀ c, Function.update f i (v * (1 / l ^ 2)) c =
          Function.update g i v c * (1 / l ^ 2) := by
        intro f g i v h c
        by_cases hci : c = i
        · subst hci; simp
        · rw [Function.update_of_ne hci, Function.update_of_ne hci, h c]
      have s : ∀ (f g : ℕ → K) (v : K), (∀ c ≠ r, f c = g c * (1 / l ^ 2)) → ∀ c, Function.update f r (v * (1 / l ^ 2)) c =
          Function.update g r v c * (1 / l ^ 2) := by
        intro f g v h c
        by_cases hci : c = r
        · subst hci; simp
        · rw [Function.update_of_ne hci, Function.update_of_ne hci, h c hci]
      simp only [← add_mul, ← sub_mul, ← mul_assoc]
      refine Eq.trans ?_ (mul_one_div _ _)
      refine w _ _ _ _ (w _ _ _ _ (s _ _ _ (u _ _ _ _ (u _ _ _ _ fun c hc => ?_)))) c
      simp [eyeRow, hc]
    · rfl
  · have ops : ∀ c, gs4Ops ⟨l * d.Rmin, l * d.Rmax, l * d.Zmin, l * d.Zmax⟩ nx ny c =
        (gs4Ops d nx ny c).map fun p => (p.1, p.2 * (1 / l ^ 2)) := by
      intro c
      simp only [gs4Ops, (spacing_resize l d nx).1, (spacing_resize l d ny).2, i2, List.map_append]
      congr 1
      · simp only [zOps]
        split_ifs <;> simp only [List.map_map, Function.comp_def, mul_assoc]
      · simp only [rOps, i3]
        split_ifs <;> simp only [List.map_append, List.map_map, Function.comp_def, mul_assoc, neg_mul]
    have hall : ((interiorCells nx ny).all fun c => (gs4Ops ⟨l * d.Rmin, l * d.Rmax, l * d.Zmin, l * d.Zmax⟩ nx ny c).all fun p =>
        inRange (nx * ny) p.1) = (interiorCells nx ny).all fun c => (gs4Ops d nx ny c).all fun p => inRange (nx * ny) p.1 := by
      simp only [ops, List.all_map, Function.comp_def]
    rw [gs4Sparse, gs4Sparse, hall]
    split
    · simp only [Except.map, Except.ok.injEq]
      funext r c
      split
      · rename_i hi
        have := foldl_addEntry_times (1 / l ^ 2) (nx * ny) (gs4Ops d nx ny (r / ny, r % ny)) fun _ => 0
        simp only [zero_mul] at this
        rw [ops, this]
        exact mul_one_div _ _
      · rfl
    · rfl

/-- **C119 (direct solver).** Any routines that solve the two linear systems: with the right-hand side `1 / l` times as large inside and the edge values
`l` times as large, the solution is `l` times as large. -/
theorem C119_solver (nx ny : ℕ) (A A' : ℕ → ℕ → K) (l : K) (hl : l ≠ 0)
    (hA : ∀ r c, A' r c = if isInterior nx ny (r / ny, r % ny) then A r c / l ^ 2 else A r c)
    (fac fac' : (ℕ → K) → ℕ → K) (hfac : ∀ b, ∀ r < nx * ny, matVec (nx * ny) A (fac b) r = b r)
    (hfac' : ∀ b, ∀ r < nx * ny, matVec (nx * ny) A' (fac' b) r = b r) (hlen : ∀ b, ∀ r, nx * ny ≤ r → fac b r = 0)
    (hlen' : ∀ b, ∀ r, nx * ny ≤ r → fac' b r = 0) (rhs b : Arr K) :
    mgDirect fac' ny (setEdge nx ny (times (1 / l) rhs) (times l b)) = times l (mgDirect fac ny (setEdge nx ny rhs b)) := by
  have h : ∀ r < nx * ny, fac' (flat ny (setEdge nx ny (times (1 / l) rhs) (times l b))) r = l * fac (flat ny (setEdge nx ny rhs b)) r := by
    refine matVec_unique hfac' fun r hr => ?_
    rw [hfac' _ r hr]
    have hny : 0 < ny := Nat.pos_of_ne_zero (by rintro rfl; simp at hr)
    have h1 : r / ny < nx := Nat.div_lt_of_lt_mul (by rw [mul_comm]; exact hr)
    have h2 : r % ny < ny := Nat.mod_lt _ hny
    have h0 := hfac (flat ny (setEdge nx ny rhs b)) r hr
    by_cases hi : isInterior nx ny (r / ny, r % ny) = true
    · have : matVec (nx * ny) A' (fun r => l * fac (flat ny (setEdge nx ny rhs b)) r) r =
          matVec (nx * ny) A (fac (flat ny (setEdge nx ny rhs b))) r / l := by
        simp only [matVec, Finset.sum_div]
        refine Finset.sum_congr rfl fun c _ => ?_
        rw [hA, if_pos hi]
        field_simp
      rw [this, h0]
      simp only [isInterior, decide_eq_true_eq] at hi
      simp only [flat, setEdge]
      rw [if_neg (by omega), if_neg (by omega), if_neg (by omega), if_neg (by omega), if_neg (by omega), if_neg (by omega),
        if_neg (by omega), if_neg (by omega), times]
      ring
    · have : matVec (nx * ny) A' (fun r => l * fac (flat ny (setEdge nx ny rhs b)) r) r =
          l * matVec (nx * ny) A (fac (flat ny (setEdge nx ny rhs b))) r := by
        simp only [matVec, Finset.mul_sum]
        refine Finset.sum_congr rfl fun c _ => ?_
        rw [hA, if_neg hi]
        ring
      rw [this, h0]
      simp only [isInterior, decide_eq_true_eq] at hi
      simp only [flat, setEdge, times]
      generalize r / ny = x at *
      generalize r % ny = y at *
      split_ifs <;> first | rfl | omega
  funext c
  simp only [mgDirect, unflat, times]
  by_cases hr : c.1 * ny + c.2 < nx * ny
  · exact h _ hr
  · rw [hlen _ _ (not_lt.mp hr), hlen' _ _ (not_lt.mp hr), mul_zero]

/-- **C119 (free boundary).** -/
theorem C119_free_boundary {G : K → K → K → K → K} {l : K} (hG : ScalesBy l l G) (hl : l ≠ 0) (nx ny : ℕ) (R Z R' Z' : ℕ → K)
    (hR : ∀ i, R' i = l * R i) (hZ : ∀ j, Z' j = l * Z j) (J P : Arr K) :
    freeBoundary G nx ny R' Z' (times (1 / l ^ 2) J) (times l P) = (freeBoundary G nx ny R Z J P).map (times l) := by
  have hv : ∀ c, edgeFlux G nx ny R' Z' (times (1 / l ^ 2) J) c = (edgeFlux G nx ny R Z J c).map (l * ·) := by
    intro c
    have : (fun p => Arr.set (fun p : ℕ × ℕ => G (R' p.1) (Z' p.2) (R' c.1) (Z' c.2)) c 0 p * times (1 / l ^ 2) J p) =
        fun p => 1 / l * (Arr.set (fun p : ℕ × ℕ => G (R p.1) (Z p.2) (R c.1) (Z c.2)) c 0 p * J p) := by
      funext p
      simp only [hR, hZ, hG _ _ _ _, times, Arr.set, Function.update_apply]
      split
      · simp
      · field_simp
    simp only [edgeFlux, this, Global.romb2_smul]
    cases romb2 nx ny fun p => Arr.set (fun p : ℕ × ℕ => G (R p.1) (Z p.2) (R c.1) (Z c.2)) c 0 p * J p with
    | error e => rfl
    | ok v => simp only [Except.map, Except.ok.injEq, hR, hZ]; field_simp
  have : ∀ (cs : List (ℕ × ℕ)) (P : Arr K), assignLoop (edgeFlux G nx ny R' Z' (times (1 / l ^ 2) J)) cs (times l P) =
      (assignLoop (edgeFlux G nx ny R Z J) cs P).map (times l) := by
    intro cs
    induction cs with
    | nil => intro P; rfl
    | cons c cs ih =>
      intro P
      simp only [assignLoop, hv]
      cases edgeFlux G nx ny R Z J c with
      | error e => rfl
      | ok v =>
        simp only [Except.map]
        rw [set_times]
        exact ih _
  exact this _ _

/-- **C119 (von Hagenow's integrals).** The flux of the edge currents of the inner problem, at a place that is resized like everything else. `dd` is the
diagonal of a cell. -/
theorem C119_hagenow_integral {G : K → K → K → K → K} {l : K} (hG : ScalesBy l l G) (hl : l ≠ 0) (nx ny : ℕ) (R Z R' Z' : ℕ → K)
    (hR : ∀ i, R' i = l * R i) (hZ : ∀ j, Z' j = l * Z j) (dR dZ dd : K) (u : Arr K) (Rpos Zpos : K) :
    hagenowIntegral G nx ny R' Z' (hagenowNormal nx ny (l * dR) (l * dZ) (l * dd) (times l u)) (l * Rpos) (l * Zpos) =
      (hagenowIntegral G nx ny R Z (hagenowNormal nx ny dR dZ dd u) Rpos Zpos).map (l * ·) := by
  have hs : ∀ (v : ℕ → K) (d : K), hagenowSum (fun i => l * v i) / (l * d) = hagenowSum v / d := by
    intro v d
    simp only [hagenowSum, mul_left_comm _ l, List.sum_map_mul_left, mul_div_mul_left _ _ hl]
  have hn : hagenowNormal nx ny (l * dR) (l * dZ) (l * dd) (times l u) = hagenowNormal nx ny dR dZ dd u := by
    simp only [hagenowNormal, times, hs]
  have hq : ∀ a b c : K, l * a * b / (l * c) = a * b / c := fun a b c => by rw [mul_assoc, mul_div_mul_left _ _ hl]
  rw [hn]
  simp only [hagenowIntegral, hR, hZ, hG _ _ _ _, hq]
  generalize romb (K := K) _ _ = a
  generalize romb (K := K) _ _ = b
  generalize romb (K := K) _ _ = c
  generalize romb (K := K) _ _ = d
  cases a <;> cases b <;> cases c <;> cases d <;> simp only [Except.map, Except.ok.injEq] <;> ring

/-- **C119 (von Hagenow's boundary).** It takes the flux at points displaced by 1 cm whatever the size. A Green's function and a
solution of the inner problem that have the right dependence on the size, and edge values that do not have it. The cells measure 3 by 4 and
6 by 8. -/
theorem C119_hagenow_fails : ∃ (sqrt : ℚ → ℚ) (G : ℚ → ℚ → ℚ → ℚ → ℚ) (u : Arr ℚ), sqrt 25 = 5 ∧ sqrt 100 = 10 ∧ (∀ l, ScalesBy l l G) ∧
    (freeBoundaryHagenow sqrt G (fun _ _ => u) 5 5 (fun i => 3 * (i + 1)) (fun j => 4 * j) (fun _ => 0) (fun _ => 0)).map (fun P => 2 * P (0, 2)) ≠
      (freeBoundaryHagenow sqrt G (fun _ _ => times 2 u) 5 5 (fun i => 6 * (i + 1)) (fun j => 8 * j) (fun _ => 0) (fun _ => 0)).map
        fun P => P (0, 2) :=
  ⟨fun x => if x = 25 then 5 else 10, fun _ _ R _ => R, fun c => c.1 * c.2, rfl, by decide +kernel, fun _ _ _ _ _ => rfl, by decide +kernel⟩

end FreeGS.GS
