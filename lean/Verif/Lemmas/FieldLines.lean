import Verif.Spec.FieldLines
import Verif.Lemmas.Vacuum
import Verif.Lemmas.GreensPhysics
import Mathlib.Analysis.Calculus.FDeriv.Partial
import Mathlib.Analysis.Calculus.FDeriv.Prod

/-!
# Joint differentiability of the flux of the coils
-/

set_option linter.unusedSectionVars false

namespace FreeGS

open Real Set Filter Topology

/-- Near a point away from the filament: positive radius, and all distances bounded below. -/
theorem near_point {Rc Zc R Z : ℝ} (hR : 0 < R) (hRc : 0 < Rc) (h : R ≠ Rc ∨ Z ≠ Zc) :
    ∃ D > 0, ∀ᶠ p : ℝ × ℝ in 𝓝 (R, Z), 0 < p.1 ∧ (p.1 ≠ Rc ∨ p.2 ≠ Zc) ∧ ∀ φ, D ≤ sourceDist Rc Zc p.1 p.2 φ := by
  have hpos : 0 < (R - Rc) ^ 2 + (Z - Zc) ^ 2 := by
    rcases h with h | h
    · have := sq_pos_of_ne_zero (sub_ne_zero.mpr h); positivity
    · have := sq_pos_of_ne_zero (sub_ne_zero.mpr h); positivity
  have h1 : ∀ᶠ p : ℝ × ℝ in 𝓝 (R, Z), 0 < p.1 :=
    (continuous_fst.tendsto (R, Z)).eventually (lt_mem_nhds hR)
  have hc : Continuous fun p : ℝ × ℝ => (p.1 - Rc) ^ 2 + (p.2 - Zc) ^ 2 := by fun_prop
  have h2 : ∀ᶠ p : ℝ × ℝ in 𝓝 (R, Z), ((R - Rc) ^ 2 + (Z - Zc) ^ 2) / 2 < (p.1 - Rc) ^ 2 + (p.2 - Zc) ^ 2 :=
    (hc.tendsto (R, Z)).eventually (lt_mem_nhds (half_lt_self hpos))
  refine ⟨√(((R - Rc) ^ 2 + (Z - Zc) ^ 2) / 2), sqrt_pos.2 (by positivity), ?_⟩
  filter_upwards [h1, h2] with p hp1 hp2
  refine ⟨hp1, ?_, fun φ => ?_⟩
  · by_contra hn
    push Not at hn
    rw [hn.1, hn.2] at hp2
    simp only [sub_self, ne_eq, OfNat.ofNat_ne_zero, not_false_eq_true, zero_pow, add_zero] at hp2
    linarith
  · unfold sourceDist
    refine sqrt_le_sqrt ?_
    rw [sourceDist_sq]
    nlinarith [cos_le_one φ, mul_pos hp1 hRc]

/-- An integral over the loop of a function continuous in position and angle over the third power of the distance is continuous in the
position. -/
theorem loop_continuousAt {Rc Zc R Z : ℝ} (hR : 0 < R) (hRc : 0 < Rc) (h : R ≠ Rc ∨ Z ≠ Zc) {g : ℝ → ℝ → ℝ → ℝ}
    (hg : Continuous fun q : (ℝ × ℝ) × ℝ => g q.1.1 q.1.2 q.2) :
    ContinuousAt (fun p : ℝ × ℝ => ∫ φ in (0 : ℝ)..(2 * π), g p.1 p.2 φ / sourceDist Rc Zc p.1 p.2 φ ^ 3) (R, Z) := by
  obtain ⟨D, hD, hn⟩ := near_point hR hRc h
  have hc : Continuous fun p : ℝ × ℝ => ∫ φ in (0 : ℝ)..(2 * π), g p.1 p.2 φ / max D (sourceDist Rc Zc p.1 p.2 φ) ^ 3 := by
    refine intervalIntegral.continuous_parametric_intervalIntegral_of_continuous'
      (f := fun (p : ℝ × ℝ) φ => g p.1 p.2 φ / max D (sourceDist Rc Zc p.1 p.2 φ) ^ 3) ?_ 0 (2 * π)
    refine Continuous.div hg ?_ fun q => (pow_pos (lt_max_of_lt_left hD) 3).ne'
    unfold sourceDist
    fun_prop
  refine (hc.continuousAt (x := (R, Z))).congr ?_
  filter_upwards [hn] with p hp
  simp only [max_eq_right (hp.2.2 _)]

theorem biotSavartR_continuousAt {Rc Zc R Z : ℝ} (hR : 0 < R) (hRc : 0 < Rc) (h : R ≠ Rc ∨ Z ≠ Zc) :
    ContinuousAt (fun p : ℝ × ℝ => biotSavartR Rc Zc p.1 p.2) (R, Z) := by
  unfold biotSavartR
  exact continuousAt_const.mul (loop_continuousAt hR hRc h (g := fun r z φ => Rc * cos φ * (z - Zc)) (by fun_prop))

theorem biotSavartZ_continuousAt {Rc Zc R Z : ℝ} (hR : 0 < R) (hRc : 0 < Rc) (h : R ≠ Rc ∨ Z ≠ Zc) :
    ContinuousAt (fun p : ℝ × ℝ => biotSavartZ Rc Zc p.1 p.2) (R, Z) := by
  unfold biotSavartZ
  exact continuousAt_const.mul (loop_continuousAt hR hRc h
    (g := fun r z φ => (-(Rc * sin φ)) * (-(Rc * sin φ)) - Rc * cos φ * (r - Rc * cos φ)) (by fun_prop))

/-- The flux of a filament is differentiable in radius and height together. -/
theorem filamentFlux_hasFDerivAt {Rc Zc R Z : ℝ} (hR : 0 < R) (hRc : 0 < Rc) (h : R ≠ Rc ∨ Z ≠ Zc) :
    HasFDerivAt (fun p : ℝ × ℝ => filamentFlux Rc Zc p.1 p.2)
      ((ContinuousLinearMap.toSpanSingleton ℝ (R * biotSavartZ Rc Zc R Z)).coprod
        (ContinuousLinearMap.toSpanSingleton ℝ (-R * biotSavartR Rc Zc R Z))) (R, Z) := by
  obtain ⟨D, hD, hn⟩ := near_point hR hRc h
  have := hasStrictFDerivAt_uncurry_coprod (𝕜 := ℝ) (u := (R, Z)) (f := filamentFlux Rc Zc)
    (f₁ := fun r z => ContinuousLinearMap.toSpanSingleton ℝ (r * biotSavartZ Rc Zc r z))
    (f₂ := fun r z => ContinuousLinearMap.toSpanSingleton ℝ (-r * biotSavartR Rc Zc r z)) ?_ ?_ ?_ ?_
  · exact this.hasFDerivAt
  · filter_upwards [hn] with p hp
    exact (flux_deriv_R hp.1 hRc hp.2.1).hasFDerivAt
  · filter_upwards [hn] with p hp
    exact (flux_deriv_Z hp.1 hRc hp.2.1).hasFDerivAt
  · have hc : Continuous fun x : ℝ => ContinuousLinearMap.toSpanSingleton ℝ x :=
      (ContinuousLinearMap.toSpanSingletonCLE (𝕜 := ℝ) (E := ℝ)).continuous
    exact hc.continuousAt.comp (f := fun p : ℝ × ℝ => p.1 * biotSavartZ Rc Zc p.1 p.2)
      (continuousAt_fst.mul (biotSavartZ_continuousAt hR hRc h))
  · have hc : Continuous fun x : ℝ => ContinuousLinearMap.toSpanSingleton ℝ x :=
      (ContinuousLinearMap.toSpanSingletonCLE (𝕜 := ℝ) (E := ℝ)).continuous
    exact hc.continuousAt.comp (f := fun p : ℝ × ℝ => -p.1 * biotSavartR Rc Zc p.1 p.2)
      (continuousAt_fst.neg.mul (biotSavartR_continuousAt hR hRc h))

theorem clear_near {Rc Zc R Z : ℝ} (hR : 0 < R) (hRc : 0 < Rc) (h : ClearOf Rc Zc R Z) :
    ∀ᶠ p : ℝ × ℝ in 𝓝 (R, Z), 0 < p.1 ∧ ClearOf Rc Zc p.1 p.2 := by
  have hne : (R + Rc) ^ 2 + (Z - Zc) ^ 2 ≠ 0 := by positivity
  have hc : ContinuousAt (fun p : ℝ × ℝ => 4 * p.1 * Rc / ((p.1 + Rc) ^ 2 + (p.2 - Zc) ^ 2)) (R, Z) :=
    ContinuousAt.div (by fun_prop) (by fun_prop) hne
  filter_upwards [(continuous_fst.tendsto (R, Z)).eventually (lt_mem_nhds hR), hc.eventually (lt_mem_nhds h.1),
    hc.eventually (gt_mem_nhds h.2)] with p h1 h2 h3
  exact ⟨h1, h2, h3⟩

/-- The flux of a list of filaments is differentiable in radius and height together. -/
theorem filamentSum_differentiable {R Z : ℝ} (hR : 0 < R) : ∀ l : List (ℝ × ℝ × ℝ), (∀ f ∈ l, 0 < f.1 ∧ ClearOf f.1 f.2.1 R Z) →
    DifferentiableAt ℝ (fun p : ℝ × ℝ => filamentSum (realEnv ellipticK ellipticE) .psi p.1 p.2 l) (R, Z) := by
  intro l
  induction l with
  | nil => intro _; simp [filamentSum]
  | cons f l ih =>
    intro h
    have ih := ih fun g hg => h g (List.mem_cons_of_mem _ hg)
    obtain ⟨hRc, hcl⟩ := h f (List.mem_cons_self ..)
    have h1 : DifferentiableAt ℝ (fun p : ℝ × ℝ => greens ellipticK ellipticE f.1 f.2.1 p.1 p.2) (R, Z) := by
      refine (filamentFlux_hasFDerivAt hR hRc (unclipped_ne hRc hcl.unclipped)).differentiableAt.congr_of_eventuallyEq ?_
      filter_upwards [clear_near hR hRc hcl] with p hp
      exact greens_eq_flux _ _ _ _ hp.1 hRc hp.2.unclipped
    have h2 := (h1.mul_const f.2.2).add ih
    refine h2.congr_of_eventuallyEq (Eventually.of_forall fun p => ?_)
    simp [filamentSum, realEnv]

end FreeGS
