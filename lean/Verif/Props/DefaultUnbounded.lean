import Verif.Props.Unbounded
import Mathlib.Analysis.SpecialFunctions.SmoothTransition
import Mathlib.Analysis.Calculus.ContDiff.Operations

set_option linter.unusedSectionVars false

/-!
# C116 with the default, fourth-order solver
-/

namespace FreeGS.GS

open FreeGS.Critical (Domain linspaceAt)
open Set Real
open scoped ContDiff

/-! ## The flux of a filament, continued smoothly across the filament -/

/-- One over the square root, made smooth below `s`. -/
noncomputable def softInv (s t : ℝ) : ℝ := Real.smoothTransition (2 * t / s - 1) / √t

theorem softInv_eq {s t : ℝ} (hs : 0 < s) (ht : s ≤ t) : softInv s t = 1 / √t := by
  rw [softInv, Real.smoothTransition.one_of_one_le]
  rw [le_sub_iff_add_le, le_div_iff₀ hs]
  linarith

theorem softInv_smooth {s : ℝ} (hs : 0 < s) : ContDiff ℝ ∞ (softInv s) := by
  rw [contDiff_iff_contDiffAt]
  intro t
  by_cases ht : t < s / 2
  · refine (contDiffAt_const (c := (0 : ℝ))).congr_of_eventuallyEq ?_
    filter_upwards [Iio_mem_nhds ht] with y hy
    rw [softInv, Real.smoothTransition.zero_of_nonpos, zero_div]
    rw [sub_nonpos, div_le_iff₀ hs]
    have : y < s / 2 := hy
    linarith
  · have h0 : 0 < t := by linarith
    have h1 : ContDiffAt ℝ ∞ (fun y : ℝ => Real.smoothTransition (2 * y / s - 1)) t := by
      refine (Real.smoothTransition.contDiff (n := ⊤)).contDiffAt.comp t ?_
      exact (((contDiffAt_const.mul contDiffAt_id).div_const s).sub contDiffAt_const)
    exact h1.div (contDiffAt_id.sqrt h0.ne') (Real.sqrt_ne_zero'.mpr h0)

/-- A place, a source and an angle. -/
abbrev Triple := ((ℝ × ℝ) × (ℝ × ℝ)) × ℝ

/-- The integrand of the flux at the place `P` of a filament through `q`. -/
noncomputable def softFlux (s : ℝ) (X : Triple) : ℝ :=
  X.1.1.1 * (mu0 / (4 * π) * (X.1.2.1 * cos X.2 *
    softInv s ((X.1.1.1 - X.1.2.1 * cos X.2) ^ 2 + (X.1.2.1 * sin X.2) ^ 2 + (X.1.1.2 - X.1.2.2) ^ 2)))

theorem softFlux_smooth {s : ℝ} (hs : 0 < s) : ContDiff ℝ ∞ (softFlux s) := by
  have hi := softInv_smooth hs
  unfold softFlux
  fun_prop

/-- The derivative along `e`. -/
noncomputable def along (e : Triple) (f : Triple → ℝ) (X : Triple) : ℝ := fderiv ℝ f X e

theorem along_smooth (e : Triple) {f : Triple → ℝ} (hf : ContDiff ℝ ∞ f) : ContDiff ℝ ∞ (along e f) :=
  (contDiff_infty_iff_fderiv.mp hf).2.clm_apply contDiff_const

theorem iterate_smooth (e : Triple) {f : Triple → ℝ} (hf : ContDiff ℝ ∞ f) (n : ℕ) : ContDiff ℝ ∞ ((along e)^[n] f) := by
  induction n with
  | zero => exact hf
  | succ n ih => rw [Function.iterate_succ_apply']; exact along_smooth e ih

theorem iterate_deriv (e : Triple) {f : Triple → ℝ} (hf : ContDiff ℝ ∞ f) (n : ℕ) {γ : ℝ → Triple} {t : ℝ} (hγ : HasDerivAt γ e t) :
    HasDerivAt (fun t => (along e)^[n] f (γ t)) ((along e)^[n + 1] f (γ t)) t := by
  rw [Function.iterate_succ_apply']
  have hd := ((iterate_smooth e hf n).differentiable (by simp)) (γ t)
  exact hd.hasFDerivAt.comp_hasDerivAt t hγ

theorem loop_cont {s : ℝ} (hs : 0 < s) (e : Triple) (n : ℕ) :
    Continuous fun p : (ℝ × ℝ) × (ℝ × ℝ) => ∫ φ in (0 : ℝ)..(2 * π), (along e)^[n] (softFlux s) (p, φ) :=
  intervalIntegral.continuous_parametric_intervalIntegral_of_continuous' (f := fun p φ => (along e)^[n] (softFlux s) (p, φ))
    (iterate_smooth e (softFlux_smooth hs) n).continuous 0 (2 * π)

theorem loop_deriv {s : ℝ} (hs : 0 < s) (e : Triple) (n : ℕ) (γ : ℝ → (ℝ × ℝ) × (ℝ × ℝ)) (hc : Continuous γ)
    (hγ : ∀ t φ, HasDerivAt (fun t => (γ t, φ)) e t) (t : ℝ) :
    HasDerivAt (fun t => ∫ φ in (0 : ℝ)..(2 * π), (along e)^[n] (softFlux s) (γ t, φ))
      (∫ φ in (0 : ℝ)..(2 * π), (along e)^[n + 1] (softFlux s) (γ t, φ)) t := by
  have hk := softFlux_smooth hs
  have cc : ∀ m, ContinuousOn (fun p : ℝ × ℝ => (along e)^[m] (softFlux s) (γ p.1, p.2)) (Icc (t - 1) (t + 1) ×ˢ Icc 0 (2 * π)) := fun m =>
    ((iterate_smooth e hk m).continuous.comp (by fun_prop : Continuous fun p : ℝ × ℝ => (γ p.1, p.2))).continuousOn
  exact param_deriv (u := t - 1) (v := t + 1) (by positivity) (F := fun t φ => (along e)^[n] (softFlux s) (γ t, φ))
    (F' := fun t φ => (along e)^[n + 1] (softFlux s) (γ t, φ)) (cc n) (cc (n + 1)) (fun x _ φ _ => iterate_deriv e hk n (hγ x φ))
    ⟨by linarith, by linarith⟩

theorem smooth_kernel (D : Rectangle) {s : ℝ} (hs : 0 < s) {J : ℝ → ℝ → ℝ} (hJ : ContinuousOn (fun q : ℝ × ℝ => J q.1 q.2) D.set) :
    SmoothKernel D (fun P q => (∫ φ in (0 : ℝ)..(2 * π), softFlux s ((P, q), φ)) * J q.1 q.2)
      (fun n P q => (∫ φ in (0 : ℝ)..(2 * π), (along (((1, 0), 0), 0))^[n] (softFlux s) ((P, q), φ)) * J q.1 q.2)
      (fun n P q => (∫ φ in (0 : ℝ)..(2 * π), (along (((0, 1), 0), 0))^[n] (softFlux s) ((P, q), φ)) * J q.1 q.2) := by
  have hJ' : ContinuousOn (fun p : (ℝ × ℝ) × (ℝ × ℝ) => J p.2.1 p.2.2) (D.set ×ˢ D.set) := hJ.comp continuousOn_snd fun p hp => hp.2
  refine ⟨fun n _ q _ Z _ R _ => ?_, fun n _ q _ R _ Z _ => ?_, fun n _ => (loop_cont hs _ n).continuousOn.mul hJ', fun n _ => (loop_cont hs _ n).continuousOn.mul hJ', rfl, rfl⟩
  · refine (loop_deriv hs _ n (fun R => ((R, Z), q)) (by fun_prop) (fun t φ => ?_) R).mul_const _
    exact (((hasDerivAt_id t).prodMk (hasDerivAt_const t Z)).prodMk (hasDerivAt_const t q)).prodMk (hasDerivAt_const t φ)
  · refine (loop_deriv hs _ n (fun Z => ((R, Z), q)) (by fun_prop) (fun t φ => ?_) Z).mul_const _
    exact (((hasDerivAt_const t R).prodMk (hasDerivAt_id t)).prodMk (hasDerivAt_const t q)).prodMk (hasDerivAt_const t φ)

theorem softFlux_eq {s : ℝ} (hs : 0 < s) {P q : ℝ × ℝ} (hP : 0 ≤ P.1) (hq : 0 ≤ q.1) (h : s ≤ (P.1 - q.1) ^ 2 + (P.2 - q.2) ^ 2) :
    ∫ φ in (0 : ℝ)..(2 * π), softFlux s ((P, q), φ) = filamentFlux q.1 q.2 P.1 P.2 := by
  rw [filamentFlux, ← intervalIntegral.integral_const_mul, ← intervalIntegral.integral_const_mul]
  refine intervalIntegral.integral_congr fun φ _ => ?_
  simp only [softFlux, sourceDist]
  rw [softInv_eq hs]
  · ring
  · have := mul_nonneg (mul_nonneg hP hq) (sub_nonneg.mpr (cos_le_one φ))
    have e : (P.1 - q.1 * cos φ) ^ 2 + (q.1 * sin φ) ^ 2 + (P.2 - q.2) ^ 2 =
        (P.1 - q.1) ^ 2 + (P.2 - q.2) ^ 2 + 2 * (P.1 * q.1 * (1 - cos φ)) + q.1 ^ 2 * (sin φ ^ 2 + cos φ ^ 2 - 1) := by ring
    rw [sin_sq_add_cos_sq, sub_self, mul_zero] at e
    linarith

/-- **C116 (default solver).** With the default, fourth-order solver too a free-boundary solve converges under refinement to the flux of the plasma in
unbounded space, in root mean square. -/
theorem C116_default (d : Domain ℝ) (h0 : 0 < d.Rmin) (hR : d.Rmin < d.Rmax) (hZ : d.Zmin < d.Zmax)
    (F : ℝ → ℝ → ℝ) (FR FZ : ℕ → ℝ → ℝ → ℝ) (J : ℝ → ℝ → ℝ) (h : PlasmaFlux d F FR FZ J) (hF : SmoothFlux6 d F FR FZ) (M5 M6 N6 : ℝ)
    (hM5 : ∀ R ∈ Ioo d.Rmin d.Rmax, ∀ Z ∈ Icc d.Zmin d.Zmax, |FR 5 R Z| ≤ M5)
    (hM6 : ∀ R ∈ Ioo d.Rmin d.Rmax, ∀ Z ∈ Icc d.Zmin d.Zmax, |FR 6 R Z| ≤ M6)
    (hN6 : ∀ R ∈ Icc d.Rmin d.Rmax, ∀ Z ∈ Ioo d.Zmin d.Zmax, |FZ 6 R Z| ≤ N6)
    (hJ : ∀ R Z, 0 < R → J R Z ≠ 0 → ∀ P ∈ (rectangle d hR hZ).edge, Unclipped R Z P.1 P.2) (tol : ℝ) (htol : 0 < tol) :
    ∃ n : ℕ, ∀ k l, n ≤ k → n ≤ l → ∃ A, gs4Sparse d (2 ^ k + 1) (2 ^ l + 1) = .ok A ∧ ∀ psi0 : Arr ℝ, ∃ psi1 : Arr ℝ,
      freeBoundary (greens ellipticK ellipticE) (2 ^ k + 1) (2 ^ l + 1) (linspaceAt d.Rmin d.Rmax (2 ^ k + 1))
        (linspaceAt d.Zmin d.Zmax (2 ^ l + 1)) (fun c => J (gridR d (2 ^ k + 1) c.1) (gridZ d (2 ^ l + 1) c.2)) psi0 = .ok psi1 ∧
      (∀ c, OnEdge (2 ^ k + 1) (2 ^ l + 1) c → |psi1 c - F (gridR d (2 ^ k + 1) c.1) (gridZ d (2 ^ l + 1) c.2)| ≤ tol) ∧
      ∀ factorized : (ℕ → ℝ) → ℕ → ℝ,
        (∀ b, ∀ r < (2 ^ k + 1) * (2 ^ l + 1), matVec ((2 ^ k + 1) * (2 ^ l + 1)) A (factorized b) r = b r) →
        let psi := solve mu0 (2 ^ k + 1) (2 ^ l + 1) (linspaceAt d.Rmin d.Rmax (2 ^ k + 1)) (fun _ _ => psi1)
          (fun _ b => mgDirect factorized (2 ^ l + 1) b) (fun c => J (gridR d (2 ^ k + 1) c.1) (gridZ d (2 ^ l + 1) c.2)) psi0
        interiorSum (2 ^ k + 1) (2 ^ l + 1) (fun c => (psi c - F (gridR d (2 ^ k + 1) c.1) (gridZ d (2 ^ l + 1) c.2)) ^ 2) ≤
          (2 ^ k - 1) * (2 ^ l - 1) * tol ^ 2 := by
  have pos : ∀ q ∈ (rectangle d hR hZ).set, 0 < q.1 := fun q hq => h0.trans_le hq.1.1
  set s : ℝ := (d.Rmin * (1e-5 / 2)) ^ 2 with hs
  have s0 : 0 < s := by positivity
  -- the current keeps away from the edge
  have far : ∀ P ∈ (rectangle d hR hZ).edge, ∀ q ∈ (rectangle d hR hZ).set, J q.1 q.2 ≠ 0 → s ≤ (P.1 - q.1) ^ 2 + (P.2 - q.2) ^ 2 := by
    intro P hP q hq hne
    by_contra hlt
    push Not at hlt
    have hP1 : d.Rmin ≤ P.1 := hP.1.1.1
    have le : d.Rmin * (1e-5 / 2) ≤ P.1 * (1e-5 / 2) := mul_le_mul_of_nonneg_right hP1 (by norm_num)
    refine near_clipped (pos q hq) (pos P hP.1) ?_ ?_ (hJ q.1 q.2 (pos q hq) hne P hP)
    · refine (abs_le_of_sq_le_sq' (a := q.1 - P.1) (b := d.Rmin * (1e-5 / 2)) ?_ (by positivity) |> abs_le.mpr).trans le
      nlinarith [sq_nonneg (P.2 - q.2)]
    · refine (abs_le_of_sq_le_sq' (a := q.2 - P.2) (b := d.Rmin * (1e-5 / 2)) ?_ (by positivity) |> abs_le.mpr).trans le
      nlinarith [sq_nonneg (P.1 - q.1)]
  have green : ∀ P ∈ (rectangle d hR hZ).edge, ∀ q ∈ (rectangle d hR hZ).set,
      greens ellipticK ellipticE q.1 q.2 P.1 P.2 * J q.1 q.2 = filamentFlux q.1 q.2 P.1 P.2 * J q.1 q.2 := by
    intro P hP q hq
    by_cases hz : J q.1 q.2 = 0
    · simp [hz]
    · rw [(C67_greens_is_filament_flux q.1 q.2 P.1 P.2 (pos P hP.1) (pos q hq) (hJ q.1 q.2 (pos q hq) hz P hP)).1]
  refine C110_default mu0 mu0_pos d h0 hR hZ F FR FZ J hF (fun R hr Z _ => h.gs R Z (h0.trans hr.1)) M5 M6 N6 hM5 hM6 hN6 (greens ellipticK ellipticE)
    (fun q hq => ?_) _ _ _ (smooth_kernel (rectangle d hR hZ) s0 ((plasma_cont h).mono fun q hq => pos q hq)) (fun P hP q hq => ?_) (fun P hP => ?_) tol htol
  · by_contra hne
    have := far q hq q hq.1 hne
    simp only [sub_self] at this
    norm_num at this
    linarith
  · rw [green P hP q hq]
    by_cases hz : J q.1 q.2 = 0
    · simp [hz]
    · rw [softFlux_eq s0 (pos P hP.1).le (pos q hq).le (far P hP q hq hz)]
  · have hP0 := pos P hP.1
    rw [plasma_flux d h0 hR hZ F FR FZ J h P hP0 (r := P.1 * (1e-5 / 2)) (by positivity) fun R Z hR h1 h2 => by
      by_contra hne
      exact near_clipped hR hP0 h1 h2 (hJ R Z hR hne P hP)]
    simp only [Rectangle.flux, Rectangle.integral]
    refine intervalIntegral.integral_congr fun x hx => intervalIntegral.integral_congr fun y hy => ?_
    rw [uIcc_of_le (rectangle d hR hZ).hab] at hx
    rw [uIcc_of_le (rectangle d hR hZ).hcd] at hy
    exact (green P hP (x, y) ⟨hx, hy⟩).symm

/-! ## A case that meets the hypotheses: a filament spread out smoothly over a ring, its flux unchanged a quarter of a metre away -/

section Examples

noncomputable def softF (R Z : ℝ) : ℝ := ∫ φ in (0 : ℝ)..(2 * π), softFlux (1 / 16) (((R, Z), exP0), φ)
noncomputable def softFR (n : ℕ) (R Z : ℝ) : ℝ := ∫ φ in (0 : ℝ)..(2 * π), (along (((1, 0), 0), 0))^[n] (softFlux (1 / 16)) (((R, Z), exP0), φ)
noncomputable def softFZ (n : ℕ) (R Z : ℝ) : ℝ := ∫ φ in (0 : ℝ)..(2 * π), (along (((0, 1), 0), 0))^[n] (softFlux (1 / 16)) (((R, Z), exP0), φ)
noncomputable def softJ (R Z : ℝ) : ℝ := -(1 / mu0) * ((softFR 2 R Z - softFR 1 R Z / R + softFZ 2 R Z) / R)

theorem softFR_deriv (n : ℕ) (R Z : ℝ) : HasDerivAt (fun R => softFR n R Z) (softFR (n + 1) R Z) R := by
  simp only [softFR]
  exact loop_deriv (by norm_num) _ n (fun R => ((R, Z), exP0)) (by fun_prop) (fun t φ =>
    (((hasDerivAt_id t).prodMk (hasDerivAt_const t Z)).prodMk (hasDerivAt_const t exP0)).prodMk (hasDerivAt_const t φ)) R

theorem softFZ_deriv (n : ℕ) (R Z : ℝ) : HasDerivAt (softFZ n R) (softFZ (n + 1) R Z) Z := by
  have e : softFZ n R = fun Z => softFZ n R Z := rfl
  rw [e]
  simp only [softFZ]
  exact loop_deriv (by norm_num) _ n (fun Z => ((R, Z), exP0)) (by fun_prop) (fun t φ =>
    (((hasDerivAt_const t R).prodMk (hasDerivAt_id t)).prodMk (hasDerivAt_const t exP0)).prodMk (hasDerivAt_const t φ)) Z

theorem softFR_cont (n : ℕ) : Continuous fun q : ℝ × ℝ => softFR n q.1 q.2 :=
  (loop_cont (by norm_num) _ n).comp (by fun_prop : Continuous fun q : ℝ × ℝ => ((q.1, q.2), exP0))
theorem softFZ_cont (n : ℕ) : Continuous fun q : ℝ × ℝ => softFZ n q.1 q.2 :=
  (loop_cont (by norm_num) _ n).comp (by fun_prop : Continuous fun q : ℝ × ℝ => ((q.1, q.2), exP0))

/-- Away from the ring. -/
theorem soft_outside {R Z : ℝ} (hR : 0 < R) (h : 1 / 16 < (R - 3 / 2) ^ 2 + (Z - 1 / 2) ^ 2) :
    softF R Z = exPsi R Z ∧ softFR 1 R Z = exPsiR R Z ∧ softFZ 1 R Z = exPsiZ R Z := by
  have eq : ∀ {R Z : ℝ}, 0 < R → 1 / 16 < (R - 3 / 2) ^ 2 + (Z - 1 / 2) ^ 2 → softF R Z = exPsi R Z := fun {R Z} hR h => by
    rw [softF, exPsi, softFlux_eq (P := (R, Z)) (by norm_num) hR.le exP0_pos.le h.le]
  have off : (R, Z) ∈ offPoint exP0 := ⟨hR, fun e => by
    have e1 : R = 3 / 2 := congrArg Prod.fst e
    have e2 : Z = 1 / 2 := congrArg Prod.snd e
    rw [e1, e2] at h
    norm_num at h⟩
  refine ⟨eq hR h, ?_, ?_⟩
  · refine (softFR_deriv 0 R Z).unique ((flux_deriv_R hR exP0_pos (off_ne off)).congr_of_eventuallyEq ?_)
    have c : ContinuousAt (fun y : ℝ => (y - 3 / 2) ^ 2 + (Z - 1 / 2) ^ 2) R := by fun_prop
    filter_upwards [c.eventually_const_lt h, Ioi_mem_nhds hR] with y hy hy0
    exact eq hy0 hy
  · refine (softFZ_deriv 0 R Z).unique ((flux_deriv_Z hR exP0_pos (off_ne off)).congr_of_eventuallyEq ?_)
    have c : ContinuousAt (fun y : ℝ => (R - 3 / 2) ^ 2 + (y - 1 / 2) ^ 2) Z := by fun_prop
    filter_upwards [c.eventually_const_lt h] with y hy
    exact eq hR hy

theorem soft_second {R Z : ℝ} (hR : 0 < R) (h : 1 / 16 < (R - 3 / 2) ^ 2 + (Z - 1 / 2) ^ 2) :
    softFR 2 R Z = exPsiRR R Z ∧ softFZ 2 R Z = exPsiZZ R Z := by
  have off : (R, Z) ∈ offPoint exP0 := ⟨hR, fun e => by
    have e1 : R = 3 / 2 := congrArg Prod.fst e
    have e2 : Z = 1 / 2 := congrArg Prod.snd e
    rw [e1, e2] at h
    norm_num at h⟩
  constructor
  · have := (hasDerivAt_id R).mul (slope_R exP0_pos off)
    rw [one_mul] at this
    refine (softFR_deriv 1 R Z).unique (this.congr_of_eventuallyEq ?_)
    have c : ContinuousAt (fun y : ℝ => (y - 3 / 2) ^ 2 + (Z - 1 / 2) ^ 2) R := by fun_prop
    filter_upwards [c.eventually_const_lt h, Ioi_mem_nhds hR] with y hy hy0
    exact (soft_outside hy0 hy).2.1
  · refine (softFZ_deriv 1 R Z).unique (((slope_Z exP0_pos off).const_mul (-R)).congr_of_eventuallyEq ?_)
    have c : ContinuousAt (fun y : ℝ => (R - 3 / 2) ^ 2 + (y - 1 / 2) ^ 2) Z := by fun_prop
    filter_upwards [c.eventually_const_lt h] with y hy
    exact (soft_outside hR hy).2.2

theorem soft_within {R Z : ℝ} (hR : 0 < R) (hne : softJ R Z ≠ 0) : (R - 3 / 2) ^ 2 + (Z - 1 / 2) ^ 2 ≤ 1 / 16 := by
  by_contra hlt
  push Not at hlt
  obtain ⟨-, s1, -⟩ := soft_outside hR hlt
  obtain ⟨s2, s3⟩ := soft_second hR hlt
  refine hne ?_
  rw [softJ, s1, s2, s3, exPsiR, exPsiRR, exPsiZZ]
  have := hR.ne'
  field_simp
  ring

theorem soft_zero : softFR 0 = softF ∧ softFZ 0 = softF := ⟨rfl, rfl⟩

theorem soft_plasma : PlasmaFlux exD1 softF softFR softFZ softJ := by
  have hmu := mu0_pos
  have iso := spread_isolated
  have agree : ∀ R Z, 0 < R → 1 / 4 < |R - 3 / 2| ∨ 1 / 4 < |Z - 1 / 2| →
      softF R Z = spreadF R Z ∧ softFR 1 R Z = spreadFR 1 R Z ∧ softFZ 1 R Z = spreadFZ 1 R Z := by
    intro R Z hR h
    obtain ⟨t1, t2, -, t3, -⟩ := spread_outside h
    have far : 1 / 16 < (R - 3 / 2) ^ 2 + (Z - 1 / 2) ^ 2 := by
      rcases h with h | h
      · have := pow_lt_pow_left₀ h (by norm_num) (n := 2) (by norm_num)
        rw [sq_abs] at this
        nlinarith [sq_nonneg (Z - 1 / 2)]
      · have := pow_lt_pow_left₀ h (by norm_num) (n := 2) (by norm_num)
        rw [sq_abs] at this
        nlinarith [sq_nonneg (R - 3 / 2)]
    obtain ⟨s1, s2, s3⟩ := soft_outside hR far
    rw [s1, s2, s3, t1, t2, t3]
    exact ⟨rfl, rfl, rfl⟩
  refine ⟨⟨(softFR_cont 0).continuousOn, (softFR_cont 1).continuousOn, (softFR_cont 2).continuousOn, (softFZ_cont 1).continuousOn,
    (softFZ_cont 2).continuousOn, fun R Z _ => softFR_deriv 0 R Z, fun R Z _ => softFR_deriv 1 R Z, fun R Z _ => softFZ_deriv 0 R Z,
    fun R Z _ => softFZ_deriv 1 R Z⟩, ⟨fun L η hη => ?_, fun η hη => ?_⟩, fun R Z hR => ?_, fun R Z hR hne => ?_⟩
  · obtain ⟨δ, hδ, h⟩ := iso.axis L η hη
    refine ⟨min δ 1, lt_min hδ one_pos, fun R Z hR hRδ hZ => ?_⟩
    obtain ⟨e1, e2, -⟩ := agree R Z hR (axis_outside (hRδ.trans_le (min_le_right _ _)))
    rw [e1, e2]
    exact h R Z hR (hRδ.trans_le (min_le_left _ _)) hZ
  · obtain ⟨L, h⟩ := iso.far η hη
    refine ⟨max L 2, fun R Z hR hL => ?_⟩
    obtain ⟨e1, e2, e3⟩ := agree R Z hR (far_outside ((le_max_right _ _).trans hL))
    rw [e1, e2, e3]
    exact h R Z hR ((le_max_left _ _).trans hL)
  · have := hR.ne'
    rw [softJ]
    field_simp
  · have h := soft_within hR hne
    simp only [exD1]
    exact ⟨⟨by nlinarith [sq_nonneg (Z - 1 / 2)], by nlinarith [sq_nonneg (Z - 1 / 2)]⟩, by nlinarith [sq_nonneg (R - 3 / 2)],
      by nlinarith [sq_nonneg (R - 3 / 2)]⟩

theorem soft_unclipped (h1 : exD1.Rmin < exD1.Rmax) (h2 : exD1.Zmin < exD1.Zmax) {R Z : ℝ} (hR : 0 < R) (hne : softJ R Z ≠ 0) {P : ℝ × ℝ}
    (hP : P ∈ (rectangle exD1 h1 h2).edge) : Unclipped R Z P.1 P.2 := by
  have hw := soft_within hR hne
  have a1 : 5 / 4 ≤ R := by nlinarith [sq_nonneg (Z - 1 / 2)]
  have a2 : R ≤ 7 / 4 := by nlinarith [sq_nonneg (Z - 1 / 2)]
  have a3 : 1 / 4 ≤ Z := by nlinarith [sq_nonneg (R - 3 / 2)]
  have a4 : Z ≤ 3 / 4 := by nlinarith [sq_nonneg (R - 3 / 2)]
  obtain ⟨⟨⟨p1, p2⟩, p3, p4⟩, he⟩ := hP
  simp only [rectangle, exD1] at p1 p2 p3 p4 he
  have far : 1 / 16 ≤ (P.1 - R) ^ 2 + (P.2 - Z) ^ 2 := by
    obtain h | h | h | h := he <;> rw [h] <;> nlinarith
  have hp : 0 < (P.1 + R) ^ 2 + (P.2 - Z) ^ 2 := by positivity
  have hle : (P.1 + R) ^ 2 + (P.2 - Z) ^ 2 ≤ 20 := by nlinarith
  constructor
  · rw [le_div_iff₀ hp]
    norm_num
    nlinarith
  · rw [div_le_iff₀ hp]
    norm_num
    nlinarith

/-- A case of `C116_default`: the calculation comes within any tolerance of the flux of the ring, which in the corner of the square is that of the filament. -/
example (h1 : exD1.Rmin < exD1.Rmax) (h2 : exD1.Zmin < exD1.Zmax) (tol : ℝ) (htol : 0 < tol) : softF 1 0 = filamentFlux (3 / 2) (1 / 2) 1 0 ∧
    ∃ n : ℕ, ∀ k l, n ≤ k → n ≤ l → ∃ A, gs4Sparse exD1 (2 ^ k + 1) (2 ^ l + 1) = .ok A ∧ ∃ psi1 : Arr ℝ,
      freeBoundary (greens ellipticK ellipticE) (2 ^ k + 1) (2 ^ l + 1) (linspaceAt exD1.Rmin exD1.Rmax (2 ^ k + 1))
        (linspaceAt exD1.Zmin exD1.Zmax (2 ^ l + 1)) (fun c => softJ (gridR exD1 (2 ^ k + 1) c.1) (gridZ exD1 (2 ^ l + 1) c.2)) (fun _ => 0) = .ok psi1 ∧
      ∀ factorized : (ℕ → ℝ) → ℕ → ℝ,
        (∀ b, ∀ r < (2 ^ k + 1) * (2 ^ l + 1), matVec ((2 ^ k + 1) * (2 ^ l + 1)) A (factorized b) r = b r) →
        interiorSum (2 ^ k + 1) (2 ^ l + 1) (fun c => (solve mu0 (2 ^ k + 1) (2 ^ l + 1) (linspaceAt exD1.Rmin exD1.Rmax (2 ^ k + 1)) (fun _ _ => psi1)
          (fun _ b => mgDirect factorized (2 ^ l + 1) b) (fun c => softJ (gridR exD1 (2 ^ k + 1) c.1) (gridZ exD1 (2 ^ l + 1) c.2)) (fun _ => 0) c -
            softF (gridR exD1 (2 ^ k + 1) c.1) (gridZ exD1 (2 ^ l + 1) c.2)) ^ 2) ≤ (2 ^ k - 1) * (2 ^ l - 1) * tol ^ 2 := by
  refine ⟨(soft_outside one_pos (by norm_num)).1, ?_⟩
  have oo : ∀ {a b x : ℝ}, x ∈ Set.Ioo a b → x ∈ Set.Icc a b := fun h => ⟨h.1.le, h.2.le⟩
  have hK : IsCompact (Icc exD1.Rmin exD1.Rmax ×ˢ Icc exD1.Zmin exD1.Zmax) := isCompact_Icc.prod isCompact_Icc
  obtain ⟨M5, b5⟩ := hK.exists_bound_of_continuousOn (softFR_cont 5).continuousOn
  obtain ⟨M6, b6⟩ := hK.exists_bound_of_continuousOn (softFR_cont 6).continuousOn
  obtain ⟨N6, c6⟩ := hK.exists_bound_of_continuousOn (softFZ_cont 6).continuousOn
  have six : SmoothFlux6 exD1 softF softFR softFZ :=
    ⟨fun Z _ => ⟨fun x _ => (softFR_deriv 0 x Z).continuousAt.continuousWithinAt, fun n _ x _ => softFR_deriv n x Z⟩,
      fun R _ => ⟨fun x _ => (softFZ_deriv 0 R x).continuousAt.continuousWithinAt, fun n _ x _ => softFZ_deriv n R x⟩, rfl, rfl⟩
  obtain ⟨n, hn⟩ := C116_default exD1 (by norm_num [exD1]) h1 h2 softF softFR softFZ softJ soft_plasma six M5 M6 N6
    (fun R hR Z hZ => b5 (R, Z) ⟨oo hR, hZ⟩) (fun R hR Z hZ => b6 (R, Z) ⟨oo hR, hZ⟩) (fun R hR Z hZ => c6 (R, Z) ⟨hR, oo hZ⟩)
    (fun R Z hR hne P hP => soft_unclipped h1 h2 hR hne hP) tol htol
  refine ⟨n, fun k l hk hl => ?_⟩
  obtain ⟨A, hA, h⟩ := hn k l hk hl
  obtain ⟨psi1, hp, -, hs⟩ := h fun _ => 0
  exact ⟨A, hA, psi1, hp, hs⟩

end Examples

end FreeGS.GS
