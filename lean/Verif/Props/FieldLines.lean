import Verif.Lemmas.FieldLines
import Verif.Props.Fields
import Verif.Props.FieldTracer
import Mathlib.Analysis.Calculus.MeanValue
import Mathlib.Analysis.ODE.ExistUnique

/-!
# C101: field lines lie on flux surfaces
-/

set_option linter.unusedSectionVars false

namespace FreeGS.Tracer

open Set Real

/-- The rates, written out. -/
theorem rates_ok {eq : Eq ℝ} {b : Bool} {R Z dR dZ dl : ℝ} (h : rates eq b R Z 1 = .ok (dR, dZ, dl)) :
    eq.Btor R Z ≠ 0 ∧ dR = sense b * (R / eq.Btor R Z * eq.Br R Z) ∧ dZ = sense b * (R / eq.Btor R Z * eq.Bz R Z) ∧
      dl = R / eq.Btor R Z * eq.sqrt (eq.Br R Z ^ 2 + eq.Bz R Z ^ 2 + eq.Btor R Z ^ 2) := by
  unfold rates at h
  by_cases hB : eq.Btor R Z = 0
  · simp [hB] at h
  · refine ⟨hB, ?_⟩
    cases b
    · simp only [if_neg hB, Bool.false_eq_true, if_false, Except.ok.injEq, Prod.mk.injEq] at h
      obtain ⟨rfl, rfl, rfl⟩ := h
      simp [sense]
    · simp only [if_neg hB, if_true, Except.ok.injEq, Prod.mk.injEq] at h
      obtain ⟨rfl, rfl, rfl⟩ := h
      simp [sense]

/-- The line in space, with the factor written out. -/
theorem tangent {eq : Eq ℝ} {b : Bool} {I : Set ℝ} {r z l : ℝ → ℝ} (h : IsLine eq b I r z l) {φ : ℝ} (hφ : φ ∈ I) :
    eq.Btor (r φ) (z φ) ≠ 0 ∧
      HasDerivWithinAt (fun φ => cartX (r φ) (sense b * φ))
        (sense b * (r φ / eq.Btor (r φ) (z φ)) * fieldX (eq.Br (r φ) (z φ)) (eq.Btor (r φ) (z φ)) (sense b * φ)) I φ ∧
      HasDerivWithinAt (fun φ => cartY (r φ) (sense b * φ))
        (sense b * (r φ / eq.Btor (r φ) (z φ)) * fieldY (eq.Br (r φ) (z φ)) (eq.Btor (r φ) (z φ)) (sense b * φ)) I φ ∧
      HasDerivWithinAt z (sense b * (r φ / eq.Btor (r φ) (z φ)) * eq.Bz (r φ) (z φ)) I φ ∧
      HasDerivWithinAt l (r φ / eq.Btor (r φ) (z φ) * eq.sqrt (eq.Br (r φ) (z φ) ^ 2 + eq.Bz (r φ) (z φ) ^ 2 + eq.Btor (r φ) (z φ) ^ 2)) I φ := by
  obtain ⟨dR, dZ, dl, h0, hR, hZ, hl⟩ := h φ hφ
  obtain ⟨hB, rfl, rfl, rfl⟩ := rates_ok h0
  have hθ : HasDerivWithinAt (fun φ => sense b * φ) (sense b) I φ := by
    simpa using (hasDerivAt_id φ).const_mul (sense b) |>.hasDerivWithinAt (s := I)
  refine ⟨hB, ?_, ?_, hZ.congr_deriv (by ring), hl⟩
  · have h1 := hR.mul hθ.cos
    refine h1.congr_deriv ?_
    unfold fieldX
    field_simp
    ring
  · have h1 := hR.mul hθ.sin
    refine h1.congr_deriv ?_
    unfold fieldY
    field_simp

theorem sense_sq (b : Bool) : sense b * sense b = 1 := by cases b <;> simp [sense]

/-- **C101 (direction).** In space, with the toroidal angle counted in the sense of the trace, the line is tangent to the magnetic field, and
the rate of change of the length is plus or minus the speed. The factor has the sign of the toroidal field, forward, and the opposite,
backward. -/
theorem C101_direction (eq : Eq ℝ) (b : Bool) (I : Set ℝ) (r z l : ℝ → ℝ) (h : IsLine eq b I r z l) (φ : ℝ) (hφ : φ ∈ I) (hr : 0 < r φ) :
    ∃ c : ℝ, 0 < sense b * c * eq.Btor (r φ) (z φ) ∧
      HasDerivWithinAt (fun φ => cartX (r φ) (sense b * φ)) (c * fieldX (eq.Br (r φ) (z φ)) (eq.Btor (r φ) (z φ)) (sense b * φ)) I φ ∧
      HasDerivWithinAt (fun φ => cartY (r φ) (sense b * φ)) (c * fieldY (eq.Br (r φ) (z φ)) (eq.Btor (r φ) (z φ)) (sense b * φ)) I φ ∧
      HasDerivWithinAt z (c * eq.Bz (r φ) (z φ)) I φ ∧
      HasDerivWithinAt l (sense b * c * eq.sqrt (eq.Br (r φ) (z φ) ^ 2 + eq.Bz (r φ) (z φ) ^ 2 + eq.Btor (r φ) (z φ) ^ 2)) I φ := by
  obtain ⟨hB, h1, h2, h3, h4⟩ := tangent h hφ
  refine ⟨_, ?_, h1, h2, h3, ?_⟩
  · rw [← mul_assoc, sense_sq, one_mul, div_mul_cancel₀ _ hB]
    exact hr
  · rwa [← mul_assoc, sense_sq, one_mul]

/-- **C101 fails (direction).** With a negative toroidal field the line called forward runs against the magnetic field, and the one called
backward along it, contrary to the documentation. -/
theorem C101_direction_fails (eq : Eq ℝ) (b : Bool) (I : Set ℝ) (r z l : ℝ → ℝ) (h : IsLine eq b I r z l) (φ : ℝ) (hφ : φ ∈ I) (hr : 0 < r φ)
    (hB : eq.Btor (r φ) (z φ) < 0) :
    ∃ c : ℝ, (if b = true then 0 < c else c < 0) ∧
      HasDerivWithinAt (fun φ => cartX (r φ) (sense b * φ)) (c * fieldX (eq.Br (r φ) (z φ)) (eq.Btor (r φ) (z φ)) (sense b * φ)) I φ ∧
      HasDerivWithinAt (fun φ => cartY (r φ) (sense b * φ)) (c * fieldY (eq.Br (r φ) (z φ)) (eq.Btor (r φ) (z φ)) (sense b * φ)) I φ ∧
      HasDerivWithinAt z (c * eq.Bz (r φ) (z φ)) I φ := by
  obtain ⟨c, h0, h1, h2, h3, -⟩ := C101_direction eq b I r z l h φ hφ hr
  refine ⟨c, ?_, h1, h2, h3⟩
  have h4 : sense b * c < 0 := by
    by_contra hn
    nlinarith [mul_nonpos_of_nonneg_of_nonpos (not_lt.1 hn) hB.le]
  cases b
  · simpa [sense] using h4
  · simpa [sense] using h4

/-- **C101 (length).** With a positive toroidal field the length of a line is its length in space. -/
theorem C101_length (eq : Eq ℝ) (hsq : eq.sqrt = Real.sqrt) (b : Bool) (φ0 φ1 : ℝ) (h01 : φ0 ≤ φ1) (r z l : ℝ → ℝ)
    (h : IsLine eq b (Icc φ0 φ1) r z l) (hr : ∀ φ ∈ Icc φ0 φ1, 0 < r φ) (hB : ∀ φ ∈ Icc φ0 φ1, 0 < eq.Btor (r φ) (z φ))
    (cr : ContinuousOn (fun φ => eq.Br (r φ) (z φ)) (Icc φ0 φ1)) (cz : ContinuousOn (fun φ => eq.Bz (r φ) (z φ)) (Icc φ0 φ1))
    (ct : ContinuousOn (fun φ => eq.Btor (r φ) (z φ)) (Icc φ0 φ1)) :
    ∃ x y w : ℝ → ℝ, (∀ φ ∈ Icc φ0 φ1, HasDerivWithinAt (fun φ => cartX (r φ) (sense b * φ)) (x φ) (Icc φ0 φ1) φ ∧
        HasDerivWithinAt (fun φ => cartY (r φ) (sense b * φ)) (y φ) (Icc φ0 φ1) φ ∧ HasDerivWithinAt z (w φ) (Icc φ0 φ1) φ) ∧
      l φ1 - l φ0 = ∫ φ in φ0..φ1, √(x φ ^ 2 + y φ ^ 2 + w φ ^ 2) := by
  refine ⟨_, _, _, fun φ hφ => ⟨(tangent h hφ).2.1, (tangent h hφ).2.2.1, (tangent h hφ).2.2.2.1⟩, ?_⟩
  have hrc : ContinuousOn r (Icc φ0 φ1) := fun φ hφ => by
    obtain ⟨dR, dZ, dl, h0, hR, hZ, hl⟩ := h φ hφ
    exact hR.continuousWithinAt
  have hlc : ContinuousOn l (Icc φ0 φ1) := fun φ hφ => (tangent h hφ).2.2.2.2.continuousWithinAt
  have key : ∀ s c Br Bt Bz θ : ℝ, s * s = 1 → 0 < c →
      √((s * c * fieldX Br Bt θ) ^ 2 + (s * c * fieldY Br Bt θ) ^ 2 + (s * c * Bz) ^ 2) = c * √(Br ^ 2 + Bz ^ 2 + Bt ^ 2) := by
    intro s c Br Bt Bz θ hs hc
    have e : (s * c * fieldX Br Bt θ) ^ 2 + (s * c * fieldY Br Bt θ) ^ 2 + (s * c * Bz) ^ 2 = c ^ 2 * (Br ^ 2 + Bz ^ 2 + Bt ^ 2) := by
      unfold fieldX fieldY
      linear_combination (s * s) * c ^ 2 * (Br ^ 2 + Bt ^ 2) * Real.sin_sq_add_cos_sq θ + c ^ 2 * (Br ^ 2 + Bz ^ 2 + Bt ^ 2) * hs
    rw [e, Real.sqrt_mul (sq_nonneg _), Real.sqrt_sq hc.le]
  have e : ∀ φ ∈ uIcc φ0 φ1, √((sense b * (r φ / eq.Btor (r φ) (z φ)) * fieldX (eq.Br (r φ) (z φ)) (eq.Btor (r φ) (z φ)) (sense b * φ)) ^ 2 +
      (sense b * (r φ / eq.Btor (r φ) (z φ)) * fieldY (eq.Br (r φ) (z φ)) (eq.Btor (r φ) (z φ)) (sense b * φ)) ^ 2 +
      (sense b * (r φ / eq.Btor (r φ) (z φ)) * eq.Bz (r φ) (z φ)) ^ 2) =
      r φ / eq.Btor (r φ) (z φ) * √(eq.Br (r φ) (z φ) ^ 2 + eq.Bz (r φ) (z φ) ^ 2 + eq.Btor (r φ) (z φ) ^ 2) := by
    intro φ hφ
    rw [uIcc_of_le h01] at hφ
    exact key _ _ _ _ _ _ (sense_sq b) (div_pos (hr φ hφ) (hB φ hφ))
  rw [intervalIntegral.integral_congr e]
  symm
  apply intervalIntegral.integral_eq_sub_of_hasDeriv_right_of_le h01 hlc
  · intro φ hφ
    have := (tangent h (Ioo_subset_Icc_self hφ)).2.2.2.2
    rw [hsq] at this
    exact (this.hasDerivAt (Icc_mem_nhds hφ.1 hφ.2)).hasDerivWithinAt
  · refine ContinuousOn.intervalIntegrable ?_
    rw [uIcc_of_le h01]
    exact (hrc.div ct fun φ hφ => (hB φ hφ).ne').mul (((cr.pow 2).add (cz.pow 2)).add (ct.pow 2)).sqrt

/-- **C101 (drift).** If the poloidal field is that of a flux function up to errors `E1`, `E2`, the flux along a line changes at most
in proportion to the toroidal angle, with the errors as factors. -/
theorem C101_drift (eq : Eq ℝ) (b : Bool) (I : Set ℝ) (hI : _root_.Convex ℝ I) (r z l : ℝ → ℝ) (h : IsLine eq b I r z l)
    (psi : ℝ × ℝ → ℝ) (hR0 : ∀ φ ∈ I, 0 < r φ) (M : ℝ)
    (hpsi : ∀ φ ∈ I, ∃ (L : ℝ × ℝ →L[ℝ] ℝ) (E1 E2 : ℝ), HasFDerivAt psi L (r φ, z φ) ∧ |eq.Br (r φ) (z φ) - -L (0, 1) / r φ| ≤ E1 ∧
      |eq.Bz (r φ) (z φ) - L (1, 0) / r φ| ≤ E2 ∧
      r φ ^ 2 * (E1 * |eq.Bz (r φ) (z φ)| + E2 * |eq.Br (r φ) (z φ)|) ≤ M * |eq.Btor (r φ) (z φ)|)
    (φ0 φ1 : ℝ) (h0 : φ0 ∈ I) (h1 : φ1 ∈ I) : |psi (r φ1, z φ1) - psi (r φ0, z φ0)| ≤ M * |φ1 - φ0| := by
  choose! L E1 E2 hL hE1 hE2 hM using hpsi
  have key : ∀ s r Br Bz Bt u v e1 e2 M : ℝ, s * s = 1 → 0 < r → Bt ≠ 0 → |Br - -v / r| ≤ e1 → |Bz - u / r| ≤ e2 →
      r ^ 2 * (e1 * |Bz| + e2 * |Br|) ≤ M * |Bt| → |u * (s * (r / Bt * Br)) + v * (s * (r / Bt * Bz))| ≤ M := by
    intro s r Br Bz Bt u v e1 e2 M hs hr hB h1 h2 h3
    have e : u * (s * (r / Bt * Br)) + v * (s * (r / Bt * Bz)) = s * (r ^ 2 * ((Br - -v / r) * Bz - (Bz - u / r) * Br) / Bt) := by
      field_simp
      ring
    have hs1 : |s| = 1 := by
      have : |s| * |s| = 1 := by rw [← abs_mul, hs, abs_one]
      nlinarith [abs_nonneg s]
    rw [e, abs_mul, hs1, one_mul, abs_div, div_le_iff₀ (abs_pos.2 hB), abs_mul, abs_of_nonneg (sq_nonneg r)]
    refine le_trans (mul_le_mul_of_nonneg_left ?_ (sq_nonneg r)) h3
    refine (abs_sub _ _).trans ?_
    rw [abs_mul, abs_mul]
    exact add_le_add (mul_le_mul_of_nonneg_right h1 (abs_nonneg _)) (mul_le_mul_of_nonneg_right h2 (abs_nonneg _))
  have hd : ∀ φ ∈ I, ∃ d, HasDerivWithinAt (fun φ => psi (r φ, z φ)) d I φ ∧ ‖d‖ ≤ M := by
    intro φ hφ
    obtain ⟨dR, dZ, dl, hr0, hR, hZ, hl⟩ := h φ hφ
    obtain ⟨hB, rfl, rfl, rfl⟩ := rates_ok hr0
    refine ⟨_, (hL φ hφ).comp_hasDerivWithinAt φ (hR.prodMk hZ), ?_⟩
    have e : ∀ x y : ℝ, L φ (x, y) = L φ (1, 0) * x + L φ (0, 1) * y := by
      intro x y
      rw [show ((x, y) : ℝ × ℝ) = x • (1, 0) + y • (0, 1) by simp, map_add, map_smul, map_smul, smul_eq_mul, smul_eq_mul]
      ring
    rw [e, Real.norm_eq_abs]
    exact key _ _ _ _ _ _ _ _ _ _ (sense_sq b) (hR0 φ hφ) hB (hE1 φ hφ) (hE2 φ hφ) (hM φ hφ)
  choose! d hd1 hd2 using hd
  exact hI.norm_image_sub_le_of_norm_hasDerivWithin_le hd1 hd2 h0 h1

/-- **C101 (exact field).** If the poloidal field is exactly that of a flux function, the flux is the same at all points of a line. -/
theorem C101_on_surface (eq : Eq ℝ) (b : Bool) (I : Set ℝ) (hI : _root_.Convex ℝ I) (r z l : ℝ → ℝ) (h : IsLine eq b I r z l)
    (psi : ℝ × ℝ → ℝ) (hR0 : ∀ φ ∈ I, 0 < r φ)
    (hpsi : ∀ φ ∈ I, ∃ L : ℝ × ℝ →L[ℝ] ℝ, HasFDerivAt psi L (r φ, z φ) ∧ eq.Br (r φ) (z φ) = -L (0, 1) / r φ ∧ eq.Bz (r φ) (z φ) = L (1, 0) / r φ)
    (φ0 φ1 : ℝ) (h0 : φ0 ∈ I) (h1 : φ1 ∈ I) : psi (r φ1, z φ1) = psi (r φ0, z φ0) := by
  have := C101_drift eq b I hI r z l h psi hR0 0 (fun φ hφ => by
    obtain ⟨L, hL, e1, e2⟩ := hpsi φ hφ
    exact ⟨L, 0, 0, hL, by rw [e1]; simp, by rw [e2]; simp, by simp⟩) φ0 φ1 h0 h1
  rw [zero_mul] at this
  exact sub_eq_zero.1 (abs_eq_zero.1 (le_antisymm this (abs_nonneg _)))

/-- **C101 (equilibria).** A line traced in an equilibrium, at a distance of more than `D` from all coils, keeps its value of `psiRZ` up to the error
of the fields of the coils: the change per radian is at most that error times `R²` times poloidal over toroidal field. The plasma flux is interpolated by a
differentiable function, whose derivatives are what the spline returns. -/
theorem C101_equilibrium (t : Eq ℝ) (e : Equil.FieldEnv (Machine ℝ) ℝ) (he : Equil.OfMachine e) (s : Equil.State (Machine ℝ) ℝ)
    (p : Option (Equil.FieldProfile ℝ)) (hc : s.tokamak.Computed) (b : Bool) (I : Set ℝ) (hI : _root_.Convex ℝ I) (r z l : ℝ → ℝ)
    (h : IsLine t b I r z l) (hreads : ∀ φ ∈ I, ReadsAt t e s p (r φ) (z φ)) (hR0 : ∀ φ ∈ I, 1e-3 < r φ) (D : ℝ) (hD : 0 < D)
    (hfar : ∀ φ ∈ I, Equil.FarFrom s.tokamak.filaments (r φ) (z φ) D)
    (hclear : ∀ φ ∈ I, ∀ f ∈ s.tokamak.filaments, ClearOf f.1 f.2.1 (r φ) (z φ))
    (hspline : ∀ φ ∈ I, HasFDerivAt (fun q : ℝ × ℝ => e.interp s.spline q.1 q.2)
      ((ContinuousLinearMap.toSpanSingleton ℝ (e.interpR s.spline (r φ) (z φ))).coprod
        (ContinuousLinearMap.toSpanSingleton ℝ (e.interpZ s.spline (r φ) (z φ)))) (r φ, z φ))
    (M : ℝ) (hM : ∀ φ ∈ I, r φ ^ 2 * (1e-3 * (s.tokamak.filaments.map fun f => 2 * mu0 * f.1 / D ^ 3 * |f.2.2|).sum * |t.Bz (r φ) (z φ)| +
      1e-3 * (s.tokamak.filaments.map fun f => (mu0 * f.1 / (2 * D ^ 2) + 2 * mu0 * f.1 * (r φ + 1e-3) / D ^ 3) / r φ * |f.2.2|).sum *
        |t.Br (r φ) (z φ)|) ≤ M * |t.Btor (r φ) (z φ)|)
    (φ0 φ1 : ℝ) (h0 : φ0 ∈ I) (h1 : φ1 ∈ I) :
    |Equil.psiRZ e s (r φ1) (z φ1) - Equil.psiRZ e s (r φ0) (z φ0)| ≤ M * |φ1 - φ0| := by
  have hpos : ∀ φ ∈ I, 0 < r φ := fun φ hφ => lt_trans (by norm_num) (hR0 φ hφ)
  refine C101_drift t b I hI r z l h (fun q => Equil.psiRZ e s q.1 q.2) hpos M (fun φ hφ => ?_) φ0 φ1 h0 h1
  have d1 : DifferentiableAt ℝ (fun q : ℝ × ℝ => e.coilPsiAt s.tokamak q.1 q.2) (r φ, z φ) := by
    simp only [he.1, field_filaments _ _ _ _ _ hc]
    exact filamentSum_differentiable (hpos φ hφ) _ fun f hf => ⟨(hfar φ hφ f hf).1, hclear φ hφ f hf⟩
  have d2 : HasFDerivAt (fun q : ℝ × ℝ => Equil.psiRZ e s q.1 q.2) _ (r φ, z φ) := ((hspline φ hφ).differentiableAt.add d1).hasFDerivAt
  have pR : ∀ {f : ℝ × ℝ → ℝ} {L : ℝ × ℝ →L[ℝ] ℝ}, HasFDerivAt f L (r φ, z φ) → HasDerivAt (fun x => f (x, z φ)) (L (1, 0)) (r φ) := by
    intro f L hf
    exact hf.comp_hasDerivAt (r φ) ((hasDerivAt_id (r φ)).prodMk (hasDerivAt_const (r φ) (z φ)))
  have pZ : ∀ {f : ℝ × ℝ → ℝ} {L : ℝ × ℝ →L[ℝ] ℝ}, HasFDerivAt f L (r φ, z φ) → HasDerivAt (fun y => f (r φ, y)) (L (0, 1)) (z φ) := by
    intro f L hf
    exact hf.comp_hasDerivAt (z φ) ((hasDerivAt_const (z φ) (r φ)).prodMk (hasDerivAt_id (z φ)))
  obtain ⟨Br, Bz, dZ, dR, k1, k2, k3, k4, k5, k6⟩ := Equil.C97_poloidal_field e he s hc (r φ) (z φ) D (hR0 φ hφ) hD (hfar φ hφ)
    (by simpa using pZ (hspline φ hφ)) (by simpa using pR (hspline φ hφ))
  obtain ⟨r1, r2, -⟩ := hreads φ hφ
  rw [k1] at r1
  rw [k2] at r2
  obtain rfl := Except.ok.inj r1
  obtain rfl := Except.ok.inj r2
  rw [k3.unique (pZ d2)] at k5
  rw [k4.unique (pR d2)] at k6
  exact ⟨_, _, _, d2, k5, k6, hM φ hφ⟩

/-- **C101 (pitch).** Along a line the toroidal angle is the integral of `f / (R² Bp)` over the poloidal path, with `f = R Btor`: over a
line that closes poloidally this is the integral that defines the safety factor. -/
theorem C101_pitch (eq : Eq ℝ) (b : Bool) (φ0 φ1 : ℝ) (h01 : φ0 ≤ φ1) (r z l : ℝ → ℝ) (h : IsLine eq b (Icc φ0 φ1) r z l)
    (hr : ∀ φ ∈ Icc φ0 φ1, 0 < r φ) (hB : ∀ φ ∈ Icc φ0 φ1, 0 < eq.Btor (r φ) (z φ))
    (hp : ∀ φ ∈ Icc φ0 φ1, 0 < eq.Br (r φ) (z φ) ^ 2 + eq.Bz (r φ) (z φ) ^ 2) :
    ∃ dr dz : ℝ → ℝ, (∀ φ ∈ Icc φ0 φ1, HasDerivWithinAt r (dr φ) (Icc φ0 φ1) φ ∧ HasDerivWithinAt z (dz φ) (Icc φ0 φ1) φ) ∧
      (∫ φ in φ0..φ1, r φ * eq.Btor (r φ) (z φ) / (r φ ^ 2 * √(eq.Br (r φ) (z φ) ^ 2 + eq.Bz (r φ) (z φ) ^ 2)) * √(dr φ ^ 2 + dz φ ^ 2)) =
        φ1 - φ0 := by
  have key := fun φ (hφ : φ ∈ Icc φ0 φ1) => h φ hφ
  choose! dR dZ dl k1 k2 k3 k4 using key
  refine ⟨dR, dZ, fun φ hφ => ⟨k2 φ hφ, k3 φ hφ⟩, ?_⟩
  have e : ∀ φ ∈ uIcc φ0 φ1, r φ * eq.Btor (r φ) (z φ) / (r φ ^ 2 * √(eq.Br (r φ) (z φ) ^ 2 + eq.Bz (r φ) (z φ) ^ 2)) * √(dR φ ^ 2 + dZ φ ^ 2) =
      (fun _ => (1 : ℝ)) φ := by
    intro φ hφ
    rw [uIcc_of_le h01] at hφ
    obtain ⟨hB0, e1, e2, -⟩ := rates_ok (k1 φ hφ)
    have hc : 0 < r φ / eq.Btor (r φ) (z φ) := div_pos (hr φ hφ) (hB φ hφ)
    have e3 : dR φ ^ 2 + dZ φ ^ 2 = (r φ / eq.Btor (r φ) (z φ)) ^ 2 * (eq.Br (r φ) (z φ) ^ 2 + eq.Bz (r φ) (z φ) ^ 2) := by
      rw [e1, e2]
      linear_combination (r φ / eq.Btor (r φ) (z φ)) ^ 2 * (eq.Br (r φ) (z φ) ^ 2 + eq.Bz (r φ) (z φ) ^ 2) * sense_sq b
    rw [e3, Real.sqrt_mul (sq_nonneg _), Real.sqrt_sq hc.le]
    have hs := Real.sqrt_pos.2 (hp φ hφ)
    have := (hr φ hφ).ne'
    have := (hB φ hφ).ne'
    field_simp
  rw [intervalIntegral.integral_congr e]
  simp

/-! ### A case -/

/-- Circular flux surfaces around `(3, 0)`, toroidal field 1. -/
noncomputable def circleEq : Eq ℝ :=
  { Br := fun R Z => -Z / R, Bz := fun R _ => (R - 3) / R, Btor := fun _ _ => 1, dom := ⟨1, 5, -2, 2⟩, wall := none, sqrt := Real.sqrt }

noncomputable def circleLength (φ : ℝ) : ℝ := ∫ t in (0 : ℝ)..φ, √(1 + (3 + cos t) ^ 2)

theorem circle_line (I : Set ℝ) : IsLine circleEq false I (fun φ => 3 + cos φ) (fun φ => sin φ) circleLength := by
  intro φ _
  have hr : 0 < 3 + cos φ := by linarith [neg_one_le_cos φ]
  refine ⟨-sin φ, cos φ, √(1 + (3 + cos φ) ^ 2), ?_, ?_, ?_, ?_⟩
  · have e : (3 + cos φ) * √((-sin φ / (3 + cos φ)) ^ 2 + (cos φ / (3 + cos φ)) ^ 2 + 1) = √(1 + (3 + cos φ) ^ 2) := by
      have : 1 + (3 + cos φ) ^ 2 = (3 + cos φ) ^ 2 * ((-sin φ / (3 + cos φ)) ^ 2 + (cos φ / (3 + cos φ)) ^ 2 + 1) := by
        field_simp
        linear_combination -(sin_sq_add_cos_sq φ)
      rw [this, Real.sqrt_mul (sq_nonneg _), Real.sqrt_sq hr.le]
    simp only [rates, circleEq, one_ne_zero, if_false, Bool.false_eq_true, one_mul, div_one, one_pow, add_sub_cancel_left, Except.ok.injEq,
      Prod.mk.injEq]
    refine ⟨?_, ?_, e⟩ <;> field_simp
  · simpa using ((hasDerivAt_cos φ).const_add 3).hasDerivWithinAt
  · exact (hasDerivAt_sin φ).hasDerivWithinAt
  · refine (intervalIntegral.integral_hasDerivAt_right ?_ ?_ ?_).hasDerivWithinAt
    · exact Continuous.intervalIntegrable (by fun_prop) _ _
    · exact Continuous.stronglyMeasurableAtFilter (by fun_prop) _ _
    · exact Continuous.continuousAt (by fun_prop)

/-- The hypotheses of `C101_on_surface`, `C101_length` and `C101_pitch` are met by this line over one turn. -/
example : (∀ φ ∈ Icc 0 (2 * π), ∃ L : ℝ × ℝ →L[ℝ] ℝ, HasFDerivAt (fun q : ℝ × ℝ => (q.1 - 3) ^ 2 / 2 + q.2 ^ 2 / 2) L (3 + cos φ, sin φ) ∧
      circleEq.Br (3 + cos φ) (sin φ) = -L (0, 1) / (3 + cos φ) ∧ circleEq.Bz (3 + cos φ) (sin φ) = L (1, 0) / (3 + cos φ)) ∧
    (∀ φ ∈ Icc 0 (2 * π), 0 < 3 + cos φ ∧ 0 < circleEq.Btor (3 + cos φ) (sin φ) ∧
      0 < circleEq.Br (3 + cos φ) (sin φ) ^ 2 + circleEq.Bz (3 + cos φ) (sin φ) ^ 2) := by
  have hr : ∀ φ, 0 < 3 + cos φ := fun φ => by linarith [neg_one_le_cos φ]
  refine ⟨fun φ _ => ?_, fun φ _ => ⟨hr φ, one_pos, ?_⟩⟩
  · have h1 : HasFDerivAt (fun q : ℝ × ℝ => q.1 - 3) (ContinuousLinearMap.fst ℝ ℝ ℝ) (3 + cos φ, sin φ) := hasFDerivAt_fst.sub_const 3
    have h2 : HasFDerivAt (fun q : ℝ × ℝ => q.2) (ContinuousLinearMap.snd ℝ ℝ ℝ) (3 + cos φ, sin φ) := hasFDerivAt_snd
    have h3 := ((h1.mul h1).const_mul (1 / 2)).add ((h2.mul h2).const_mul (1 / 2))
    refine ⟨_, h3.congr_of_eventuallyEq (Filter.Eventually.of_forall fun q => by simp only [Pi.add_apply, Pi.mul_apply]; ring), ?_, ?_⟩
    · simp [circleEq]
      ring
    · simp [circleEq]
      ring
  · have := hr φ
    simp only [circleEq, add_sub_cancel_left]
    rw [div_pow, div_pow, ← add_div, neg_sq, sin_sq_add_cos_sq]
    positivity

/-- A case of `C101_equilibrium`: circular surfaces of a plasma in a machine without coils. -/
example : ∃ (e : Equil.FieldEnv (Machine ℝ) ℝ) (s : Equil.State (Machine ℝ) ℝ) (p : Option (Equil.FieldProfile ℝ)), Equil.OfMachine e ∧
    s.tokamak.Computed ∧ (∀ φ, ReadsAt circleEq e s p (3 + cos φ) (sin φ)) ∧ (∀ φ, 1e-3 < 3 + cos φ) ∧ s.tokamak.filaments = [] ∧
    ∀ φ, HasFDerivAt (fun q : ℝ × ℝ => e.interp s.spline q.1 q.2)
      ((ContinuousLinearMap.toSpanSingleton ℝ (e.interpR s.spline (3 + cos φ) (sin φ))).coprod
        (ContinuousLinearMap.toSpanSingleton ℝ (e.interpZ s.spline (3 + cos φ) (sin φ)))) (3 + cos φ, sin φ) := by
  have hr : ∀ φ, 0 < 3 + cos φ := fun φ => by linarith [neg_one_le_cos φ]
  classical
  refine ⟨{ mu0 := 1, nx := 5, ny := 5, R := fun i => i, Z := fun j => j, coilPsi := fun _ _ => 0, limits := fun _ => none,
            find := fun _ => .error .value, core := fun _ _ _ _ => .error .value,
            interp := fun a r z => if a (0, 0) = 1 then r else 1 / 2 * ((r - 3) * (r - 3)) + 1 / 2 * (z * z), fixed := false,
            boundary := fun _ p => .ok p, solver := fun _ b => b, interpR := fun _ r _ => r - 3, interpZ := fun _ _ z => z,
            coilPsiAt := fun m R Z => (m.field (realEnv ellipticK ellipticE) .psi R Z).1,
            coilBr := fun m R Z => (m.field (realEnv ellipticK ellipticE) .br R Z).1,
            coilBz := fun m R Z => (m.field (realEnv ellipticK ellipticE) .bz R Z).1 },
    ⟨⟨[]⟩, fun _ => 0, fun _ => 0, 0, none, false, some 0, some 1, none, none, none, false, some fun _ => 1⟩,
    some ⟨fun _ => .ok 1, 0⟩, ⟨fun _ _ _ => rfl, fun _ _ _ => rfl, fun _ _ _ => rfl⟩, ?_, ?_, ?_, rfl, ?_⟩
  · intro x hx
    simp at hx
  · intro φ
    have := (hr φ).ne'
    refine ⟨?_, ?_, ?_⟩
    · simp [Equil.totalBr, Equil.plasmaBr, Equil.divide, this, circleEq, Machine.field, Machine.fieldLoop, bind, Except.bind]
    · simp [Equil.totalBz, Equil.plasmaBz, Equil.divide, this, circleEq, Machine.field, Machine.fieldLoop, bind, Except.bind]
    · simp [Equil.Btor, Equil.psiNRZ, Equil.normalise, Equil.divide, this, circleEq, bind, Except.bind]
  · intro φ
    have := neg_one_le_cos φ
    norm_num
    linarith
  · intro φ
    have h1 : HasFDerivAt (fun q : ℝ × ℝ => q.1 - 3) (ContinuousLinearMap.fst ℝ ℝ ℝ) (3 + cos φ, sin φ) := hasFDerivAt_fst.sub_const 3
    have h2 : HasFDerivAt (fun q : ℝ × ℝ => q.2) (ContinuousLinearMap.snd ℝ ℝ ℝ) (3 + cos φ, sin φ) := hasFDerivAt_snd
    have h3 := ((h1.mul h1).const_mul (1 / 2)).add ((h2.mul h2).const_mul (1 / 2))
    refine (h3.congr_of_eventuallyEq (Filter.Eventually.of_forall fun q => by simp)).congr_fderiv ?_
    ext <;> simp <;> ring

/-- A line run through in the opposite direction is a line of the opposite direction (apart from its length). -/
theorem reverse {eq : Eq ℝ} {b : Bool} {Φ : ℝ} {r z l : ℝ → ℝ} (h : IsLine eq b (Icc 0 Φ) r z l) :
    ∀ φ ∈ Icc 0 Φ, ∃ dR dZ dl, rates eq (!b) (r (Φ - φ)) (z (Φ - φ)) 1 = .ok (dR, dZ, dl) ∧
      HasDerivWithinAt (fun φ => r (Φ - φ)) dR (Icc 0 Φ) φ ∧ HasDerivWithinAt (fun φ => z (Φ - φ)) dZ (Icc 0 Φ) φ := by
  intro φ hφ
  have hm : Φ - φ ∈ Icc 0 Φ := ⟨by linarith [hφ.2], by linarith [hφ.1]⟩
  obtain ⟨dR, dZ, dl, h0, hR, hZ, hl⟩ := h _ hm
  have hmaps : MapsTo (fun φ => Φ - φ) (Icc 0 Φ) (Icc 0 Φ) := fun x hx => ⟨by linarith [hx.2], by linarith [hx.1]⟩
  have hsub : HasDerivWithinAt (fun φ => Φ - φ) (-1) (Icc 0 Φ) φ := by
    simpa using ((hasDerivAt_id φ).const_sub Φ).hasDerivWithinAt (s := Icc 0 Φ)
  refine ⟨-dR, -dZ, dl, ?_, ?_, ?_⟩
  · have hb : rates eq true (r (Φ - φ)) (z (Φ - φ)) 1 = (rates eq false (r (Φ - φ)) (z (Φ - φ)) 1).map fun d => (-d.1, -d.2.1, d.2.2) :=
      C50_backward eq _ _ 1
    cases b
    · show rates eq true _ _ 1 = _
      rw [hb, h0]
      rfl
    · show rates eq false _ _ 1 = _
      rw [h0] at hb
      cases hf : rates eq false (r (Φ - φ)) (z (Φ - φ)) 1 with
      | error x => rw [hf] at hb; cases hb
      | ok d =>
        rw [hf] at hb
        have := Except.ok.inj hb
        rw [Prod.mk.injEq, Prod.mk.injEq] at this
        obtain ⟨e1, e2, e3⟩ := this
        rw [e1, e2, e3]
        simp
  · have := hR.scomp φ hsub hmaps
    refine this.congr_deriv ?_
    simp
  · have := hZ.scomp φ hsub hmaps
    refine this.congr_deriv ?_
    simp

/-- **C101 (there and back).** A line followed over an angle `Φ` and then followed backward from its end over the same angle returns to its
start along the same path, if the rates are Lipschitz continuous on the region of both lines. -/
theorem C101_returns (eq : Eq ℝ) (Φ : ℝ) (r z l r' z' l' : ℝ → ℝ) (h : IsLine eq false (Icc 0 Φ) r z l)
    (h' : IsLine eq true (Icc 0 Φ) r' z' l') (hr : r' 0 = r Φ) (hz : z' 0 = z Φ) (S : Set (ℝ × ℝ)) (k : NNReal)
    (hk : LipschitzOnWith k (fun q : ℝ × ℝ => (-(q.1 / eq.Btor q.1 q.2 * eq.Br q.1 q.2), -(q.1 / eq.Btor q.1 q.2 * eq.Bz q.1 q.2))) S)
    (hS : ∀ φ ∈ Icc 0 Φ, (r φ, z φ) ∈ S ∧ (r' φ, z' φ) ∈ S) (φ : ℝ) (hφ : φ ∈ Icc 0 Φ) : r' φ = r (Φ - φ) ∧ z' φ = z (Φ - φ) := by
  have hrev := reverse h
  have hm : ∀ φ ∈ Icc 0 Φ, Φ - φ ∈ Icc 0 Φ := fun x hx => ⟨by linarith [hx.2], by linarith [hx.1]⟩
  have der : ∀ (u v : ℝ → ℝ), (∀ φ ∈ Icc 0 Φ, ∃ dR dZ dl, rates eq true (u φ) (v φ) 1 = .ok (dR, dZ, dl) ∧
      HasDerivWithinAt u dR (Icc 0 Φ) φ ∧ HasDerivWithinAt v dZ (Icc 0 Φ) φ) → ∀ φ ∈ Ico 0 Φ,
      HasDerivWithinAt (fun φ => (u φ, v φ)) (-(u φ / eq.Btor (u φ) (v φ) * eq.Br (u φ) (v φ)),
        -(u φ / eq.Btor (u φ) (v φ) * eq.Bz (u φ) (v φ))) (Ici φ) φ := by
    intro u v huv φ hφ
    obtain ⟨dR, dZ, dl, h0, h1, h2⟩ := huv φ (Ico_subset_Icc_self hφ)
    obtain ⟨-, rfl, rfl, -⟩ := rates_ok h0
    have := (h1.prodMk h2).mono_of_mem_nhdsWithin (Icc_mem_nhdsGE_of_mem hφ)
    refine this.congr_deriv ?_
    simp [sense]
  have cont : ∀ (u v : ℝ → ℝ), (∀ φ ∈ Icc 0 Φ, ∃ dR dZ dl, rates eq true (u φ) (v φ) 1 = .ok (dR, dZ, dl) ∧
      HasDerivWithinAt u dR (Icc 0 Φ) φ ∧ HasDerivWithinAt v dZ (Icc 0 Φ) φ) → ContinuousOn (fun φ => (u φ, v φ)) (Icc 0 Φ) := by
    intro u v huv φ hφ
    obtain ⟨dR, dZ, dl, h0, h1, h2⟩ := huv φ hφ
    exact (h1.prodMk h2).continuousWithinAt
  have hb : ∀ φ ∈ Icc 0 Φ, ∃ dR dZ dl, rates eq true (r' φ) (z' φ) 1 = .ok (dR, dZ, dl) ∧
      HasDerivWithinAt r' dR (Icc 0 Φ) φ ∧ HasDerivWithinAt z' dZ (Icc 0 Φ) φ := fun φ hφ => by
    obtain ⟨dR, dZ, dl, h0, h1, h2, -⟩ := h' φ hφ
    exact ⟨dR, dZ, dl, h0, h1, h2⟩
  have := ODE_solution_unique_of_mem_Icc_right (v := fun _ q => (-(q.1 / eq.Btor q.1 q.2 * eq.Br q.1 q.2), -(q.1 / eq.Btor q.1 q.2 * eq.Bz q.1 q.2)))
    (s := fun _ => S) (K := k) (fun _ _ => hk) (cont _ _ hb) (der _ _ hb) (fun φ hφ => (hS φ (Ico_subset_Icc_self hφ)).2)
    (cont _ _ hrev) (der _ _ hrev) (fun φ hφ => (hS _ (hm φ (Ico_subset_Icc_self hφ))).1) (by simp [hr, hz])
  have := this hφ
  exact ⟨congrArg Prod.fst this, congrArg Prod.snd this⟩

/-- A case of `C101_returns`: the backward line from the end of `circle_line` is the same circle. -/
example (Φ : ℝ) : IsLine circleEq true (Icc 0 Φ) (fun φ => 3 + cos (Φ - φ)) (fun φ => sin (Φ - φ)) (fun φ => -circleLength (Φ - φ)) := by
  intro φ hφ
  obtain ⟨dR, dZ, dl, h0, hR, hZ, hl⟩ := circle_line univ (Φ - φ) (mem_univ _)
  have hsub : HasDerivAt (fun φ => Φ - φ) (-1) φ := by simpa using (hasDerivAt_id φ).const_sub Φ
  rw [hasDerivWithinAt_univ] at hR hZ hl
  refine ⟨-dR, -dZ, dl, ?_, ?_, ?_, ?_⟩
  · rw [C50_backward, h0]
    rfl
  · exact ((hR.scomp φ hsub).congr_deriv (by simp)).hasDerivWithinAt
  · exact ((hZ.scomp φ hsub).congr_deriv (by simp)).hasDerivWithinAt
  · exact ((hl.scomp φ hsub).neg.congr_deriv (by simp)).hasDerivWithinAt

end FreeGS.Tracer
