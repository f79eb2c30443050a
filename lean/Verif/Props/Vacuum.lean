import Verif.Lemmas.Vacuum
import Verif.Props.GreensPhysics

/-!
# C96: the field of the coils obeys the vacuum field equations

The field of a machine is that of its filaments; `Br` and `Bz` derive from the flux, have no divergence, and away from the coils the flux obeys
the Grad-Shafranov equation without current. Accuracy of the fields of single filaments (C68).
-/

set_option linter.unusedSectionVars false

namespace FreeGS

open Real Set

section
variable {K : Type*} [Field K] [LinearOrder K]

/-- **C96 (filaments).** Flux and both field components of a machine are sums over the same filaments with the same currents. -/
theorem C96_filaments (e : Env K) (m : Machine K) (h : m.Computed) (q : Quantity) (R Z : K) :
    (m.field e q R Z).1 = (m.filaments.map fun f => e.G q f.1 f.2.1 R Z * f.2.2).sum := field_filaments e q R Z m h

end

/-- **C96 (field and flux).** The field that the machine reports is the central difference of its flux over a millimetre:
`Br = -(1/R) ∂ψ/∂Z`, `Bz = (1/R) ∂ψ/∂R`, whatever the elliptic integrals are. -/
theorem C96_field_from_flux (ek ee : ℝ → ℝ) (m : Machine ℝ) (h : m.Computed) (R Z : ℝ) :
    let psi := fun r z => (m.field (realEnv ek ee) .psi r z).1
    (m.field (realEnv ek ee) .br R Z).1 = -((psi R (Z + 1e-3) - psi R (Z - 1e-3)) / (2 * 1e-3)) / R ∧
      (m.field (realEnv ek ee) .bz R Z).1 = (psi (R + 1e-3) Z - psi (R - 1e-3) Z) / (2 * 1e-3) / R := by
  simp only [C96_filaments _ m h]
  generalize m.filaments = l
  induction l with
  | nil => simp
  | cons f l ih =>
    simp only [List.map_cons, List.sum_cons, ih.1, ih.2]
    simp only [realEnv, greensBr, greensBz]
    constructor
    · by_cases hR : R = 0
      · simp [hR]
      · field_simp
        ring
    · by_cases hR : R = 0
      · simp [hR]
      · field_simp
        ring

/-- **C96 (divergence).** The reported field has no divergence, `(1/R) ∂(R Br)/∂R + ∂Bz/∂Z = 0`, exactly, with differences over the same
millimetre, everywhere but within a millimetre of the axis. -/
theorem C96_divergence (ek ee : ℝ → ℝ) (m : Machine ℝ) (h : m.Computed) (R Z : ℝ) (hR : R ≠ 0) (h1 : R + 1e-3 ≠ 0) (h2 : R - 1e-3 ≠ 0) :
    let Br := fun r z => (m.field (realEnv ek ee) .br r z).1
    let Bz := fun r z => (m.field (realEnv ek ee) .bz r z).1
    ((R + 1e-3) * Br (R + 1e-3) Z - (R - 1e-3) * Br (R - 1e-3) Z) / (2 * 1e-3) / R + (Bz R (Z + 1e-3) - Bz R (Z - 1e-3)) / (2 * 1e-3) = 0 := by
  simp only [fun r z => (C96_field_from_flux ek ee m h r z).1, fun r z => (C96_field_from_flux ek ee m h r z).2]
  field_simp
  ring

/-- **C96 (vacuum).** With the exact elliptic integrals, where no filament is so close that `Greens` clips, the flux of the machine obeys the
Grad-Shafranov equation without current, `Δ*ψ = 0`: the field of the coils has no curl. -/
theorem C96_vacuum (m : Machine ℝ) (h : m.Computed) (R Z : ℝ) (hR : 0 < R) (hf : ∀ f ∈ m.filaments, 0 < f.1 ∧ ClearOf f.1 f.2.1 R Z) :
    HasDeltaStar (fun r z => (m.field (realEnv ellipticK ellipticE) .psi r z).1) 0 R Z := by
  simp only [fun r z => field_filaments (realEnv ellipticK ellipticE) .psi r z m h]
  exact filaments_deltaStar hR m.filaments hf

/-- **C68 (accuracy, radial).** If the filament is at least `D` away over the difference step, the error of `GreensBr` is at most
`2 mu0 Rc eps / D³`. -/
theorem C68_radial_accuracy (Rc Zc R Z eps D : ℝ) (hR : 0 < R) (hRc : 0 < Rc) (he : 0 < eps) (hD0 : 0 < D)
    (hu : ∀ z ∈ Icc (Z - eps) (Z + eps), Unclipped Rc Zc R z) (hD : ∀ z ∈ Icc (Z - eps) (Z + eps), D ^ 2 ≤ (R - Rc) ^ 2 + (z - Zc) ^ 2) :
    |greensBr ellipticK ellipticE Rc Zc R Z eps - biotSavartR Rc Zc R Z| ≤ 2 * mu0 * Rc / D ^ 3 * eps := by
  obtain ⟨ζ, hζ, e⟩ := C68_radial_field Rc Zc R Z eps hR hRc he hu
  rw [e]
  have hb := (convex_Icc (Z - eps) (Z + eps)).norm_image_sub_le_of_norm_hasDerivWithin_le (C := 2 * mu0 * Rc / D ^ 3)
    (fun z hz => (radial_deriv_Z hR hRc (apart hD0 (hD z hz))).hasDerivWithinAt) (fun z hz => by
      rw [Real.norm_eq_abs]
      refine (loop_le fun φ => (dBr_le hR hRc (apart hD0 (hD z hz)) φ).trans (dist_bound hR hRc hD0 (hD z hz) φ)).trans_eq ?_
      ring) (show Z ∈ Icc (Z - eps) (Z + eps) from ⟨by linarith, by linarith⟩) ⟨hζ.1.le, hζ.2.le⟩
  rw [Real.norm_eq_abs, Real.norm_eq_abs] at hb
  have hmu : 0 < mu0 := by unfold mu0; have := pi_pos; positivity
  refine hb.trans (mul_le_mul_of_nonneg_left ?_ (by positivity))
  rw [abs_le]
  constructor <;> linarith [hζ.1, hζ.2]

/-- **C68 (accuracy, vertical).** The error of `GreensBz` is at most `(mu0 Rc / (2 D²) + 2 mu0 Rc (R + eps) / D³) eps / R`. -/
theorem C68_vertical_accuracy (Rc Zc R Z eps D : ℝ) (hRc : 0 < Rc) (he : 0 < eps) (hR : eps < R) (hD0 : 0 < D)
    (hu : ∀ r ∈ Icc (R - eps) (R + eps), Unclipped Rc Zc r Z) (hD : ∀ r ∈ Icc (R - eps) (R + eps), D ^ 2 ≤ (r - Rc) ^ 2 + (Z - Zc) ^ 2) :
    |greensBz ellipticK ellipticE Rc Zc R Z eps - biotSavartZ Rc Zc R Z| ≤
      (mu0 * Rc / (2 * D ^ 2) + 2 * mu0 * Rc * (R + eps) / D ^ 3) * eps / R := by
  obtain ⟨ρ, hρ, e⟩ := C68_vertical_field Rc Zc R Z eps hRc he hR hu
  have hmu : 0 < mu0 := by unfold mu0; have := pi_pos; positivity
  have hR0 : 0 < R := by linarith
  have hpos : ∀ r ∈ Icc (R - eps) (R + eps), 0 < r := fun r hr => by linarith [hr.1]
  have hb := (convex_Icc (R - eps) (R + eps)).norm_image_sub_le_of_norm_hasDerivWithin_le (f := fun r => r * biotSavartZ Rc Zc r Z)
    (C := mu0 * Rc / (2 * D ^ 2) + 2 * mu0 * Rc * (R + eps) / D ^ 3)
    (fun r hr => ((hasDerivAt_id r).mul (vertical_deriv_R (hpos r hr) hRc (apart hD0 (hD r hr)))).hasDerivWithinAt) (fun r hr => by
      rw [Real.norm_eq_abs]
      have b1 := biotSavartZ_le (hpos r hr) hRc hD0 (hD r hr)
      have b2 := loop_le fun φ => (dBz_le (hpos r hr) hRc (apart hD0 (hD r hr)) φ).trans (dist_bound (hpos r hr) hRc hD0 (hD r hr) φ)
      refine (abs_add_le _ _).trans (add_le_add ?_ ?_)
      · rw [one_mul]
        refine b1.trans_eq ?_
        field_simp
      · rw [abs_mul, id, abs_of_pos (hpos r hr)]
        calc r * _ ≤ (R + eps) * (mu0 / 2 * (4 * Rc / D ^ 3)) :=
              mul_le_mul hr.2 b2 (abs_nonneg _) (by linarith)
          _ = _ := by ring) (show R ∈ Icc (R - eps) (R + eps) from ⟨by linarith, by linarith⟩) ⟨hρ.1.le, hρ.2.le⟩
  rw [Real.norm_eq_abs, Real.norm_eq_abs] at hb
  have e2 : ρ / R * biotSavartZ Rc Zc ρ Z - biotSavartZ Rc Zc R Z = (ρ * biotSavartZ Rc Zc ρ Z - R * biotSavartZ Rc Zc R Z) / R := by
    field_simp
  rw [e, e2, abs_div, abs_of_pos hR0]
  refine div_le_div_of_nonneg_right (hb.trans (mul_le_mul_of_nonneg_left ?_ (by positivity))) hR0.le
  rw [abs_le]
  constructor <;> linarith [hρ.1, hρ.2]

/-- A machine with a coil of 20 turns, a circuit of two coils in opposite directions and a solenoid of three turns. -/
noncomputable def vacuumExample : Machine ℝ :=
  ⟨[("P1", .coil (.point (PointCoil.make 1 0 1000 20))),
    ("P2", .circuit (Circuit.make [("P2U", .point (PointCoil.make 1 1), 1), ("P2L", .point (PointCoil.make 1 (-1)), -1)] 500)),
    ("S", .solenoid ⟨1, -1, 1, 3, 100, false⟩)]⟩

theorem vacuumExample_computed : vacuumExample.Computed := by
  intro x hx
  simp only [vacuumExample, List.mem_cons, List.not_mem_nil, or_false] at hx
  rcases hx with rfl | rfl | rfl
  · trivial
  · intro y hy
    simp only [Circuit.make, Circuit.setCurrent, Circuit.setControl, List.map_cons, List.map_nil, List.mem_cons, List.not_mem_nil, or_false] at hy
    rcases hy with rfl | rfl <;> trivial
  · trivial

theorem vacuumExample_clear : ∀ f ∈ vacuumExample.filaments, 0 < f.1 ∧ ClearOf f.1 f.2.1 2 (1 / 2) := by
  intro f hf
  simp only [vacuumExample, Machine.filaments, Entry.filaments, List.flatMap_cons, List.flatMap_nil, AnyCoil.filaments, scaled, Circuit.make,
    Circuit.setCurrent, Circuit.setControl, PointCoil.make, AnyCoil.setCurrent, AnyCoil.setControl, linspace, List.map_cons, List.map_nil,
    List.append_nil, List.cons_append, List.nil_append, List.mem_cons, List.not_mem_nil, or_false, List.mem_map, List.mem_range, List.map_map,
    AnyCoil.current] at hf
  norm_num at hf
  rcases hf with rfl | rfl | rfl | ⟨i, hi, rfl⟩
  · constructor
    · norm_num
    · constructor <;> norm_num
  · constructor
    · norm_num
    · constructor <;> norm_num
  · constructor
    · norm_num
    · constructor <;> norm_num
  · refine ⟨by norm_num, ?_⟩
    interval_cases i <;> constructor <;> norm_num

/-- The hypotheses hold for this machine at `(2, 1/2)`. -/
example : HasDeltaStar (fun r z => (vacuumExample.field (realEnv ellipticK ellipticE) .psi r z).1) 0 2 (1 / 2) ∧ vacuumExample.filaments.length = 6 :=
  ⟨C96_vacuum _ vacuumExample_computed 2 _ two_pos vacuumExample_clear, by
    simp [vacuumExample, Machine.filaments, Entry.filaments, AnyCoil.filaments, scaled, Circuit.make, Circuit.setCurrent, Circuit.setControl,
      PointCoil.make, AnyCoil.setCurrent, AnyCoil.setControl, linspace]⟩

/-- The operator is not zero on every flux: on the flux of a uniform current it has the expected value. -/
example : HasDeltaStar (fun _ z => z ^ 2) 2 1 0 := by
  refine ⟨fun _ _ => 0, fun _ z => 2 * z, 0, 2, ?_, ?_, ?_, ?_, by norm_num⟩
  · exact Filter.Eventually.of_forall fun r => hasDerivAt_const _ _
  · exact Filter.Eventually.of_forall fun z => by simpa using hasDerivAt_pow 2 z
  · simpa using hasDerivAt_const (1 : ℝ) (0 : ℝ)
  · simpa using (hasDerivAt_id (0 : ℝ)).const_mul 2

/-- The field of a filament at radius 1 at the point `(2, 1)` is accurate to `2 mu0` times a millimetre. -/
example : |greensBr ellipticK ellipticE 1 0 2 1 - biotSavartR 1 0 2 1| ≤ 2 * mu0 * 1 / 1 ^ 3 * 1e-3 :=
  C68_radial_accuracy 1 0 2 1 1e-3 1 two_pos one_pos (by norm_num) one_pos
    (fun z hz => unclipped_example 2 (by constructor <;> norm_num) z hz) (fun z _ => by nlinarith [sq_nonneg (z - 0)])

/-- The same for the vertical field, with the filament at least `1/2` away. -/
example : |greensBz ellipticK ellipticE 1 0 2 1 - biotSavartZ 1 0 2 1| ≤
    (mu0 * 1 / (2 * (1 / 2) ^ 2) + 2 * mu0 * 1 * (2 + 1e-3) / (1 / 2) ^ 3) * 1e-3 / 2 :=
  C68_vertical_accuracy 1 0 2 1 1e-3 (1 / 2) one_pos (by norm_num) (by norm_num) (by norm_num)
    (fun r hr => unclipped_example r hr 1 (by constructor <;> norm_num)) (fun r _ => by nlinarith [sq_nonneg (r - 1)])

end FreeGS
