import Verif.Lemmas.Jtor
import Mathlib.Analysis.Calculus.Deriv.Mul
import Mathlib.Analysis.SpecialFunctions.Integrals.Basic

/-!
# Plasma profiles (C30 to C33, C69)

`quadR` is the exact integral, `powR` the real power. `integrate` is the integration over the grid that also gives the plasma
current reported by the equilibrium (equilibrium.py:502-504).
-/

set_option linter.unusedSectionVars false

namespace FreeGS.Jtor

open FreeGS.GS
open FreeGS.Critical (clip Point)

variable {nx ny : ℕ} {R Z : ℕ → ℝ} {p : Params ℝ} {opt xpt : List (Point ℝ)}
  {coreMask : Option ℝ → Except Err (Arr ℝ)} {eqBndry psiBndry : Option ℝ} {psi J : Arr ℝ} {k : Consts ℝ}

theorem quad_scaled (c am an : ℝ) {x : ℝ} (h0 : 0 ≤ x) (h1 : x ≤ 1) :
    quadR (fun t => c * shape powR am an (clip t 0 1)) x 1 = c * quadR (shape powR am an) x 1 := by
  rw [quad_smul, quad_clip am an h0 h1]

/-! ## C30 -/

theorem jtorPaxis_ok {pl : Plasma ℝ} {paxis : ℝ} (h : jtorPaxis quadR powR nx ny R Z p paxis pl psi = .ok (J, k)) :
    ((∀ i < nx, R i ≠ 0) ∧ p.Raxis ≠ 0 ∧ pl.psiBndry - pl.psiAxis ≠ 0) ∧
    quadR (shape powR p.am p.an) 0 1 * (pl.psiBndry - pl.psiAxis) ≠ 0 ∧
    finish powR nx ny R Z p pl psi
      (-paxis * p.Raxis / (quadR (shape powR p.am p.an) 0 1 * (pl.psiBndry - pl.psiAxis))) = .ok (J, k) := by
  rw [jtorPaxis] at h
  by_cases hd : divisible nx R p pl = true
  · rw [if_pos hd] at h
    simp only at h
    by_cases hs : quadR (shape powR p.am p.an) 0 1 * (pl.psiBndry - pl.psiAxis) = 0
    · rw [if_pos hs] at h; cases h
    · rw [if_neg hs] at h
      exact ⟨divisible_iff.mp hd, hs, h⟩
  · rw [if_neg hd] at h; cases h

/-- **C30.** Whenever `ConstrainPaxisIp.Jtor` returns, the plasma current of the current density is `Ip`, and the pressure of
the profile on the axis is `paxis`. -/
theorem C30_current_and_axis_pressure {paxis : ℝ} (mu0 : ℝ)
    (h : paxisJtor quadR powR nx ny R Z p paxis opt xpt coreMask eqBndry psi psiBndry = .ok (J, k)) :
    integrate nx ny R Z J = .ok p.Ip ∧ (constrainedProfile powR mu0 p k).pressure quadR 0 = paxis := by
  obtain ⟨pl, _, h⟩ := bind_ok h
  obtain ⟨⟨_, hRa, _⟩, hs, hf⟩ := jtorPaxis_ok h
  refine ⟨finish_current hf, ?_⟩
  obtain ⟨IR, I_R, _, _, _, _, _, e2, e3, e4, _⟩ := finish_ok hf
  rw [Profile.pressure]
  simp only [constrainedProfile]
  rw [quad_scaled _ _ _ (le_refl _) zero_le_one, e2, e3, e4]
  generalize quadR (shape powR p.am p.an) 0 1 = q at *
  have hq : q ≠ 0 := left_ne_zero_of_mul hs
  have hd : pl.psiBndry - pl.psiAxis ≠ 0 := right_ne_zero_of_mul hs
  rw [show pl.psiAxis - pl.psiBndry = -(pl.psiBndry - pl.psiAxis) by ring]
  generalize pl.psiBndry - pl.psiAxis = d at *
  field_simp

theorem shape_zero (an : ℝ) (hn : 0 < an) : shape powR 0 an = fun _ => 0 := by
  funext x
  rw [shape, powR, powR, Real.rpow_zero, sub_self, Real.zero_rpow (ne_of_gt hn)]

/-- **C30 (finding).** The constructor accepts `alpha_m = 0`, but then no flux map gives a finite current density. -/
theorem C30_zero_alpha_m (hm : p.am = 0) (hn : 0 < p.an) (paxis : ℝ) (pl : Plasma ℝ) :
    checkParams p = .ok () ∧ jtorPaxis quadR powR nx ny R Z p paxis pl psi = .error .nonfinite := by
  constructor
  · rw [checkParams, if_neg (by rw [hm]; exact lt_irrefl _), if_neg (not_lt.mpr (le_of_lt hn))]
  · have hz : quadR (shape powR p.am p.an) 0 1 = 0 := by
      rw [hm, shape_zero _ hn, quadR]
      exact intervalIntegral.integral_zero
    rw [jtorPaxis]
    split_ifs
    · simp only [hz, zero_mul, if_true]
    · rfl

/-! ## C31 -/

/-- The array of pressures used in the poloidal beta: the pressure of the profile, times the mask, at interior grid points with
normalised flux between axis and edge, zero elsewhere. -/
noncomputable def pressureArr (nx ny : ℕ) (pr : Profile ℝ) (pl : Plasma ℝ) (psi : Arr ℝ) : Arr ℝ :=
  pl.masked fun c =>
    if 1 ≤ c.1 ∧ c.1 + 1 < nx ∧ 1 ≤ c.2 ∧ c.2 + 1 < ny ∧
      0 ≤ (psi c - pr.psiAxis) / (pr.psiBndry - pr.psiAxis) ∧ (psi c - pr.psiAxis) / (pr.psiBndry - pr.psiAxis) < 1
    then pr.pressure quadR ((psi c - pr.psiAxis) / (pr.psiBndry - pr.psiAxis)) else 0

theorem masked_smul (pl : Plasma ℝ) (a b : Arr ℝ) (s : ℝ) (h : ∀ c, a c = s * b c) (c : ℕ × ℕ) :
    pl.masked a c = s * pl.masked b c := by
  rw [Plasma.masked, Plasma.masked]
  cases pl.mask with
  | none => exact h c
  | some m => simp only; rw [h]; ring

/-- **C31.** Whenever `ConstrainBetapIp.Jtor` returns, the plasma current of the current density is `Ip`, and the poloidal beta of
the resulting pressure is `betap`: with the pressure `p` and the poloidal field `B` in the plasma,
`2 μ₀ ∫ p R dR dZ = betap ∫ B² R dR dZ`. -/
theorem C31_current_and_beta {betap mu0 : ℝ} (hmu : mu0 ≠ 0) {Br Bz : Arr ℝ}
    (h : betapJtor quadR powR mu0 nx ny R Z p betap opt xpt coreMask eqBndry Br Bz psi psiBndry = .ok (J, k)) :
    integrate nx ny R Z J = .ok p.Ip ∧
    ∃ pl, locate opt xpt coreMask (psi (0, 0)) eqBndry = .ok pl ∧
    ∃ pInt bInt,
      integrate nx ny R Z (fun c => pressureArr nx ny (constrainedProfile powR mu0 p k) pl psi c * R c.1) = .ok pInt ∧
      integrate nx ny R Z (fun c => pl.masked (fun c => Br c ^ 2 + Bz c ^ 2) c * R c.1) = .ok bInt ∧
      2 * mu0 * pInt = betap * bInt := by
  obtain ⟨pl, hloc, h⟩ := bind_ok h
  rw [jtorBetap] at h
  by_cases hd : divisible nx R p pl = true
  swap
  · rw [if_neg hd] at h; cases h
  rw [if_pos hd] at h
  obtain ⟨_, hRa, _⟩ := divisible_iff.mp hd
  obtain ⟨pI, h1, h⟩ := bind_ok h
  obtain ⟨bI, h2, h⟩ := bind_ok h
  by_cases hp : pI = 0
  · rw [if_pos hp] at h; cases h
  rw [if_neg hp] at h
  refine ⟨finish_current h, pl, hloc, ?_⟩
  obtain ⟨IR, I_R, _, _, _, _, _, e2, e3, e4, _⟩ := finish_ok h
  refine ⟨-(k.L * k.Beta0 / p.Raxis) * pI, bI, ?_, h2, ?_⟩
  · refine integrate_smul _ h1 _ fun x _ y _ => ?_
    simp only
    rw [← mul_assoc]
    congr 1
    refine masked_smul pl _ _ _ (fun c => ?_) _
    simp only [constrainedProfile, e3, e4, Profile.pressure]
    have hN : (psi c - pl.psiAxis) / (pl.psiBndry - pl.psiAxis) = pl.norm psi c := rfl
    simp only [hN]
    by_cases hc : 1 ≤ c.1 ∧ c.1 + 1 < nx ∧ 1 ≤ c.2 ∧ c.2 + 1 < ny ∧ 0 ≤ pl.norm psi c ∧ pl.norm psi c < 1
    · rw [if_pos hc, if_pos hc, quad_scaled _ _ _ hc.2.2.2.2.1 (le_of_lt hc.2.2.2.2.2)]
      generalize quadR _ _ _ = q
      ring
    · rw [if_neg hc, if_neg hc, mul_zero]
  · rw [e2]
    field_simp

/-! ## C32 -/

/-- The mask value, one where there is no mask. -/
def Plasma.maskAt {K : Type*} [Field K] (pl : Plasma K) (c : ℕ × ℕ) : K :=
  match pl.mask with
  | some m => m c
  | none => 1

theorem masked_at (pl : Plasma ℝ) (a : Arr ℝ) (c : ℕ × ℕ) : pl.masked a c = a c * pl.maskAt c := by
  rw [Plasma.masked, Plasma.maskAt]
  cases pl.mask with
  | none => rw [mul_one]
  | some m => rfl

theorem finish_density {pl : Plasma ℝ} {LB mu0 : ℝ} (hmu : mu0 ≠ 0) (hd : p.Raxis ≠ 0)
    (h : finish powR nx ny R Z p pl psi LB = .ok (J, k)) {c : ℕ × ℕ} (hR : R c.1 ≠ 0) :
    let pr := constrainedProfile powR mu0 p k
    let pn := (psi c - pr.psiAxis) / (pr.psiBndry - pr.psiAxis)
    J c = (R c.1 * pr.pprime pn + pr.ffprime pn / (mu0 * R c.1)) * pl.maskAt c := by
  obtain ⟨IR, I_R, _, _, _, _, _, _, e3, e4, hJ⟩ := finish_ok h
  simp only [constrainedProfile]
  rw [hJ, shapeArray, masked_at, Plasma.norm, e3, e4]
  field_simp

/-- **C32 (axis pressure and current).** At every grid point the current density is `R p' + f f' / (μ₀ R)` of the profile itself at
the normalised flux there, times the mask: so it is that in the plasma and zero outside. -/
theorem C32_paxis {paxis mu0 : ℝ} (hmu : mu0 ≠ 0)
    (h : paxisJtor quadR powR nx ny R Z p paxis opt xpt coreMask eqBndry psi psiBndry = .ok (J, k)) :
    ∃ pl, locate opt xpt coreMask (psi (0, 0)) eqBndry = .ok pl ∧ ∀ c, c.1 < nx →
      let pr := constrainedProfile powR mu0 p k
      let pn := (psi c - pr.psiAxis) / (pr.psiBndry - pr.psiAxis)
      J c = (R c.1 * pr.pprime pn + pr.ffprime pn / (mu0 * R c.1)) * pl.maskAt c := by
  obtain ⟨pl, hloc, h⟩ := bind_ok h
  obtain ⟨⟨hR, hRa, _⟩, _, hf⟩ := jtorPaxis_ok h
  exact ⟨pl, hloc, fun c hc => finish_density hmu hRa hf (hR c.1 hc)⟩

/-- **C32 (poloidal beta and current).** -/
theorem C32_betap {betap mu0 : ℝ} (hmu : mu0 ≠ 0) {Br Bz : Arr ℝ}
    (h : betapJtor quadR powR mu0 nx ny R Z p betap opt xpt coreMask eqBndry Br Bz psi psiBndry = .ok (J, k)) :
    ∃ pl, locate opt xpt coreMask (psi (0, 0)) eqBndry = .ok pl ∧ ∀ c, c.1 < nx →
      let pr := constrainedProfile powR mu0 p k
      let pn := (psi c - pr.psiAxis) / (pr.psiBndry - pr.psiAxis)
      J c = (R c.1 * pr.pprime pn + pr.ffprime pn / (mu0 * R c.1)) * pl.maskAt c := by
  obtain ⟨pl, hloc, h⟩ := bind_ok h
  rw [jtorBetap] at h
  by_cases hd : divisible nx R p pl = true
  swap
  · rw [if_neg hd] at h; cases h
  rw [if_pos hd] at h
  obtain ⟨hR, hRa, _⟩ := divisible_iff.mp hd
  obtain ⟨pI, _, h⟩ := bind_ok h
  obtain ⟨bI, _, h⟩ := bind_ok h
  by_cases hp : pI = 0
  · rw [if_pos hp] at h; cases h
  rw [if_neg hp] at h
  exact ⟨pl, hloc, fun c hc => finish_density hmu hRa h (hR c.1 hc)⟩

/-- **C32 (given functions).** The same for `ProfilesPprimeFfprime`; the given functions are evaluated at the normalised flux
limited to `[0, 1]`. -/
theorem C32_given {mu0 : ℝ} {g : Given ℝ} {pr : Profile ℝ}
    (h : givenJtor mu0 nx R g opt xpt coreMask psi psiBndry = .ok (J, pr)) :
    ∃ pl, locate opt xpt coreMask (psi (0, 0)) psiBndry = .ok pl ∧
      pr.pprime = g.pprime ∧ pr.ffprime = g.ffprime ∧ pr.fvac = g.fvac ∧ ∀ c,
      let pn := max 0 (min 1 ((psi c - pr.psiAxis) / (pr.psiBndry - pr.psiAxis)))
      J c = (R c.1 * pr.pprime pn + pr.ffprime pn / (mu0 * R c.1)) * pl.maskAt c := by
  obtain ⟨pl, hloc, h⟩ := bind_ok h
  refine ⟨pl, hloc, ?_⟩
  split_ifs at h with hc
  cases h
  refine ⟨rfl, rfl, rfl, fun c => ?_⟩
  simp only
  rw [masked_at, clip]
  have hcl : ∀ t : ℝ, min (max t 0) 1 = max 0 (min 1 t) := by
    intro t
    rcases le_total t 0 with h | h
    · rw [max_eq_right h, min_eq_left zero_le_one, min_eq_right (le_trans h zero_le_one), max_eq_left h]
    · rw [max_eq_left h, min_comm, max_eq_right (le_min zero_le_one h)]
  rw [hcl, Plasma.norm, mul_comm mu0]

/-! ## C33 -/

/-- **C33 (pressure at the edge).** The pressure integrated from `p'` vanishes at the plasma edge, and is integrated from the
normalised flux to the edge. -/
theorem C33_pressure_edge (pr : Profile ℝ) : pr.pressure quadR 1 = 0 := by
  rw [Profile.pressure, quadR, intervalIntegral.integral_same, zero_mul]

/-- **C33 (pressure gradient).** If `p'` is continuous, the pressure as a function of the flux has the derivative `p'`. -/
theorem C33_pressure_gradient (pr : Profile ℝ) (hc : Continuous pr.pprime) (hb : pr.psiBndry - pr.psiAxis ≠ 0) (ψ : ℝ) :
    HasDerivAt (fun s => pr.pressure quadR ((s - pr.psiAxis) / (pr.psiBndry - pr.psiAxis)))
      (pr.pprime ((ψ - pr.psiAxis) / (pr.psiBndry - pr.psiAxis))) ψ := by
  have h1 : HasDerivAt (fun s => (s - pr.psiAxis) / (pr.psiBndry - pr.psiAxis)) (1 / (pr.psiBndry - pr.psiAxis)) ψ :=
    ((hasDerivAt_id ψ).sub_const _).div_const _
  have h2 : HasDerivAt (fun u => ∫ x in u..1, pr.pprime x) (-pr.pprime ((ψ - pr.psiAxis) / (pr.psiBndry - pr.psiAxis)))
      ((ψ - pr.psiAxis) / (pr.psiBndry - pr.psiAxis)) :=
    intervalIntegral.integral_hasDerivAt_left (hc.intervalIntegrable _ _) (hc.stronglyMeasurableAtFilter _ _) hc.continuousAt
  have h3 := (h2.comp ψ h1).mul_const (pr.psiAxis - pr.psiBndry)
  refine h3.congr_deriv ?_
  field_simp
  ring

theorem fpol_sq {pr : Profile ℝ} {x f : ℝ} (h : pr.fpol quadR Real.sqrt x = .ok f) :
    0 ≤ f ∧ f ^ 2 = 2 * (quadR pr.ffprime x 1 * (pr.psiAxis - pr.psiBndry)) + pr.fvac ^ 2 := by
  simp only [Profile.fpol] at h
  split_ifs at h with hc
  cases h
  exact ⟨Real.sqrt_nonneg _, Real.sq_sqrt (not_lt.mp hc)⟩

/-- **C33 (`f` at the edge).** At the plasma edge `f` is the vacuum value exactly if that is not negative; in general it is its
absolute value. -/
theorem C33_fpol_edge_partial (pr : Profile ℝ) :
    pr.fpol quadR Real.sqrt 1 = .ok |pr.fvac| ∧ (pr.fpol quadR Real.sqrt 1 = .ok pr.fvac ↔ 0 ≤ pr.fvac) := by
  have h : pr.fpol quadR Real.sqrt 1 = .ok |pr.fvac| := by
    simp only [Profile.fpol, quadR, intervalIntegral.integral_same, zero_mul, mul_zero, zero_add]
    rw [if_neg (not_lt.mpr (sq_nonneg _)), Real.sqrt_sq_eq_abs]
  refine ⟨h, ?_⟩
  rw [h]
  constructor
  · intro e
    have := Except.ok.inj e
    exact abs_eq_self.mp this
  · intro e; rw [abs_of_nonneg e]

/-- **C33 (finding).** With a negative vacuum field, allowed by the code, `f` at the edge has the wrong sign. -/
theorem C33_fpol_edge_wrong_sign :
    ∃ pr : Profile ℝ, ∃ f, pr.fpol quadR Real.sqrt 1 = .ok f ∧ f = -pr.fvac ∧ f ≠ pr.fvac := by
  refine ⟨⟨fun _ => 0, fun _ => 0, -1, 0, 1⟩, |-1|, (C33_fpol_edge_partial _).1, ?_, ?_⟩ <;> norm_num

/-- **C33 (`f` gradient).** If `f f'` is continuous, half the square of `f` as a function of the flux has the derivative `f f'`. -/
theorem C33_fpol_gradient (pr : Profile ℝ) (hc : Continuous pr.ffprime) (hb : pr.psiBndry - pr.psiAxis ≠ 0) (f : ℝ → ℝ)
    (hf : ∀ x, pr.fpol quadR Real.sqrt x = .ok (f x)) (ψ : ℝ) :
    HasDerivAt (fun s => f ((s - pr.psiAxis) / (pr.psiBndry - pr.psiAxis)) ^ 2 / 2)
      (pr.ffprime ((ψ - pr.psiAxis) / (pr.psiBndry - pr.psiAxis))) ψ := by
  have h := (C33_pressure_gradient ⟨pr.ffprime, pr.pprime, pr.fvac, pr.psiAxis, pr.psiBndry⟩ hc hb ψ).add_const (pr.fvac ^ 2 / 2)
  refine h.congr_of_eventuallyEq (Filter.Eventually.of_forall fun s => ?_)
  simp only
  rw [(fpol_sq (hf _)).2, Profile.pressure]
  ring

/-- **C33 (constrained profiles).** The flux functions of the constrained profiles are continuous, so the two theorems before apply
to them. -/
theorem C33_constrained (mu0 : ℝ) (hp : checkParams p = .ok ()) (k : Consts ℝ) :
    Continuous (constrainedProfile powR mu0 p k).pprime ∧ Continuous (constrainedProfile powR mu0 p k).ffprime := by
  rw [checkParams] at hp
  split_ifs at hp with h1 h2
  exact ⟨continuous_const.mul (continuous_shape (not_lt.mp h1) (not_lt.mp h2)),
    continuous_const.mul (continuous_shape (not_lt.mp h1) (not_lt.mp h2))⟩

/-- **C33 (arrays).** For an array of normalised fluxes the result is the array of the results for single values; an output array
of another length is refused. -/
theorem C33_arrays (pr : Profile ℝ) (xs : List ℝ) (out : Option ℕ) :
    pr.pressureArray quadR xs out =
      (if out = none ∨ out = some xs.length then .ok (xs.map (pr.pressure quadR)) else .error .value) ∧
    pr.fpolArray quadR Real.sqrt xs out =
      (if out = none ∨ out = some xs.length then xs.mapM (pr.fpol quadR Real.sqrt) else .error .value) := by
  rw [Profile.pressureArray, Profile.fpolArray]
  cases out with
  | none => simp only [Option.getD_none, ne_eq, not_true_eq_false, if_false, true_or, if_true]; exact ⟨rfl, rfl⟩
  | some n =>
    simp only [Option.getD_some, reduceCtorEq, false_or, Option.some.injEq]
    by_cases h : n = xs.length
    · rw [if_neg (not_not.mpr h.symm), if_neg (not_not.mpr h.symm), if_pos h, if_pos h]; exact ⟨rfl, rfl⟩
    · rw [if_pos (Ne.symm h), if_pos (Ne.symm h), if_neg h, if_neg h]; exact ⟨rfl, rfl⟩

/-! ## C69 -/

theorem locate_bndry {pl : Plasma ℝ} {pb psi00 : ℝ} (h : locate opt xpt coreMask psi00 (some pb) = .ok pl) :
    pl.psiBndry = pb := by
  unfold locate at h
  cases opt with
  | nil => cases h
  | cons o os =>
    simp only at h
    obtain ⟨m, _, h⟩ := bind_ok h
    cases h; rfl

/-- **C69 (given functions).** `ProfilesPprimeFfprime.Jtor` takes the boundary flux it is given. -/
theorem C69_given_uses_boundary_partial {mu0 pb : ℝ} {g : Given ℝ} {pr : Profile ℝ}
    (h : givenJtor mu0 nx R g opt xpt coreMask psi (some pb) = .ok (J, pr)) : pr.psiBndry = pb := by
  obtain ⟨pl, hloc, h⟩ := bind_ok h
  split_ifs at h with hc
  cases h
  exact locate_bndry hloc

/-- **C69 (finding).** `ConstrainPaxisIp.Jtor` and `ConstrainBetapIp.Jtor` ignore it: whatever is given, the result is the
same. -/
theorem C69_constrained_ignores_boundary (quad : (ℝ → ℝ) → ℝ → ℝ → ℝ) (pow : ℝ → ℝ → ℝ) (mu0 target : ℝ) (Br Bz : Arr ℝ)
    (b b' : Option ℝ) :
    paxisJtor quad pow nx ny R Z p target opt xpt coreMask eqBndry psi b =
      paxisJtor quad pow nx ny R Z p target opt xpt coreMask eqBndry psi b' ∧
    betapJtor quad pow mu0 nx ny R Z p target opt xpt coreMask eqBndry Br Bz psi b =
      betapJtor quad pow mu0 nx ny R Z p target opt xpt coreMask eqBndry Br Bz psi b' := ⟨rfl, rfl⟩

/-! ## A case with finite results -/

theorem shape_lin : shape powR 1 1 = fun x => 1 - x := by
  funext x; rw [shape, powR, powR, Real.rpow_one, Real.rpow_one]

theorem quad_lin (a : ℝ) : quadR (shape powR 1 1) a 1 = 1 / 2 - a + a ^ 2 / 2 := by
  rw [shape_lin, quadR, intervalIntegral.integral_sub intervalIntegrable_const intervalIntegral.intervalIntegrable_id,
    intervalIntegral.integral_const, integral_id]
  rw [smul_eq_mul]; ring

/-- A case meeting the hypotheses of C30 and C32: two by two points, the axis flux everywhere, `Ip = 3`, `paxis = 1`. -/
example : ∃ J k, paxisJtor quadR powR 2 2 (fun i => 1 + i) (fun j => j) ⟨3, 1, 1, 1, 1⟩ 1 [(1, 1, 0)] []
    (fun _ => .error .value) none (fun c => if c = (0, 0) then 1 else 0) none = .ok (J, k) := by
  rw [paxisJtor]
  simp only [locate, if_true]
  show ∃ J k, jtorPaxis _ _ _ _ _ _ _ _ _ _ = _
  rw [jtorPaxis, if_pos (by rw [divisible_iff]; refine ⟨fun i _ => ?_, ?_, ?_⟩ <;> norm_num; positivity)]
  simp only [quad_lin]
  norm_num
  rw [finish]
  simp only [shapeArray, Plasma.masked, shape_lin, Plasma.norm, integrate, romb2]
  have hr : ∀ y : ℕ → ℝ, romb y 2 = .ok ((y 0 + y 1) / 2) := by
    intro y
    have := romb_pow y 0
    simp only [pow_zero, rombTable, rombTrap] at this
    rw [this]; norm_num
  simp only [hr, Except.toOption, Option.getD_some]
  norm_num [clip, bind, Except.bind]

/-- A case meeting the hypotheses of C31 and C32: three by three points with a mask, the axis flux everywhere, `Ip = 3`,
`betap = 1`. -/
example : ∃ J k, betapJtor quadR powR 1 3 3 (fun i => 1 + i) (fun j => j) ⟨3, 1, 1, 1, 1⟩ 1 [(1, 1, 0)] []
    (fun _ => .ok fun _ => 1) (some 1) (fun _ => 1) (fun _ => 0) (fun _ => 0) none = .ok (J, k) := by
  rw [betapJtor]
  show ∃ J k, jtorBetap _ _ _ _ _ _ _ _ _ ⟨0, 1, some fun _ => 1⟩ _ _ _ = _
  rw [jtorBetap, if_pos (by rw [divisible_iff]; refine ⟨fun i _ => ?_, ?_, ?_⟩ <;> norm_num; positivity)]
  have hr : ∀ y : ℕ → ℝ, romb y 3 = .ok ((y 0 + 4 * y 1 + y 2) / 3) := by
    intro y
    have h := romb_pow y 1
    norm_num [rombTable, rombTrap] at h
    rw [h]
    congr 1
    ring
  have hi : ∀ f : Arr ℝ, integrate 3 3 (fun i => 1 + (i : ℝ)) (fun j => (j : ℝ)) f =
      .ok (((f (0, 0) + 4 * f (0, 1) + f (0, 2)) / 3 + 4 * ((f (1, 0) + 4 * f (1, 1) + f (1, 2)) / 3) +
        (f (2, 0) + 4 * f (2, 1) + f (2, 2)) / 3) / 3) := by
    intro f
    simp only [integrate, romb2, hr, Except.toOption, Option.getD_some]
    norm_num [bind, Except.bind]
  have hq : quadR (fun x => 1 - x) 0 1 = 1 / 2 := by rw [← shape_lin, quad_lin]; norm_num
  simp only [hi, pfunc, Plasma.masked, Plasma.norm, finish, shapeArray, shape_lin]
  norm_num [clip, bind, Except.bind, hq]

/-- A case meeting the hypotheses of C33: a linear `p'`, constant `f f'`. -/
example : ∃ f : ℝ → ℝ, ∀ x, x ∈ Set.Icc (0 : ℝ) 1 →
    (⟨fun x => 1 - x, fun _ => 0, 2, 1, 0⟩ : Profile ℝ).fpol quadR Real.sqrt x = .ok (f x) := by
  refine ⟨fun _ => 2, fun x _ => ?_⟩
  simp only [Profile.fpol, quadR, intervalIntegral.integral_zero, zero_mul, mul_zero, zero_add]
  rw [if_neg (by norm_num), Real.sqrt_sq (by norm_num)]

end FreeGS.Jtor
