import Verif.Lemmas.FreeBoundary

set_option linter.unusedSectionVars false

/-!
# Integrals of a family of functions depending smoothly on a parameter
-/

namespace FreeGS.GS

open Set Finset

/-- An integral over an interval depends continuously on a parameter. -/
theorem param_cont {X : Type*} [TopologicalSpace X] [FirstCountableTopology X] {S : Set X} {c d : ℝ} (hcd : c ≤ d) {f : X → ℝ → ℝ}
    (hf : ContinuousOn (fun p : X × ℝ => f p.1 p.2) (S ×ˢ Icc c d)) : ContinuousOn (fun x => ∫ y in c..d, f x y) S := by
  rw [continuousOn_iff_continuous_restrict]
  have hclamp : ∀ y, max c (min d y) ∈ Icc c d := fun y => ⟨le_max_left _ _, max_le hcd (min_le_left _ _)⟩
  have e : S.domRestrict (fun x => ∫ y in c..d, f x y) = fun x : S => ∫ y in c..d, f x (max c (min d y)) := by
    funext x
    refine intervalIntegral.integral_congr fun y hy => ?_
    rw [uIcc_of_le hcd] at hy
    rw [min_eq_right hy.2, max_eq_right hy.1]
  rw [e]
  refine intervalIntegral.continuous_parametric_intervalIntegral_of_continuous' ?_ c d
  have hg : Continuous fun p : S × ℝ => ((p.1 : X), max c (min d p.2)) := by fun_prop
  exact hf.comp_continuous hg fun p => ⟨p.1.2, hclamp p.2⟩

/-- Differentiation under the integral sign. -/
theorem param_deriv {u v c d : ℝ} (hcd : c ≤ d) {F F' : ℝ → ℝ → ℝ} (hF : ContinuousOn (fun p : ℝ × ℝ => F p.1 p.2) (Icc u v ×ˢ Icc c d))
    (hF' : ContinuousOn (fun p : ℝ × ℝ => F' p.1 p.2) (Icc u v ×ˢ Icc c d))
    (hd : ∀ x ∈ Ioo u v, ∀ t ∈ Icc c d, HasDerivAt (fun x => F x t) (F' x t) x) {x : ℝ} (hx : x ∈ Ioo u v) :
    HasDerivAt (fun x => ∫ t in c..d, F x t) (∫ t in c..d, F' x t) x := by
  obtain ⟨C, hC⟩ := (isCompact_Icc.prod isCompact_Icc).exists_bound_of_continuousOn hF'
  have sec : ∀ {g : ℝ → ℝ → ℝ}, ContinuousOn (fun p : ℝ × ℝ => g p.1 p.2) (Icc u v ×ˢ Icc c d) → ∀ y ∈ Icc u v, ContinuousOn (g y) (Icc c d) := by
    intro g hg y hy
    have : ContinuousOn (fun t : ℝ => (y, t)) (Icc c d) := by fun_prop
    exact hg.comp this fun t ht => ⟨hy, ht⟩
  have hxI : x ∈ Icc u v := ⟨hx.1.le, hx.2.le⟩
  have hs : Ioo u v ∈ nhds x := Ioo_mem_nhds hx.1 hx.2
  have hsub : uIoc c d ⊆ Icc c d := by rw [uIoc_of_le hcd]; exact Ioc_subset_Icc_self
  have meas : ∀ {g : ℝ → ℝ}, ContinuousOn g (Icc c d) →
      MeasureTheory.AEStronglyMeasurable g (MeasureTheory.volume.restrict (uIoc c d)) := fun hg =>
    (hg.mono hsub).aestronglyMeasurable measurableSet_uIoc
  refine (intervalIntegral.hasDerivAt_integral_of_dominated_loc_of_deriv_le (bound := fun _ => C) hs ?_ ?_ ?_ ?_ ?_ ?_).2
  · filter_upwards [hs] with y hy
    exact meas (sec hF y ⟨hy.1.le, hy.2.le⟩)
  · refine ContinuousOn.intervalIntegrable ?_
    rw [uIcc_of_le hcd]
    exact sec hF x hxI
  · exact meas (sec hF' x hxI)
  · exact MeasureTheory.ae_of_all _ fun t ht y hy => hC (y, t) ⟨⟨hy.1.le, hy.2.le⟩, hsub ht⟩
  · exact continuous_const.intervalIntegrable _ _
  · exact MeasureTheory.ae_of_all _ fun t ht y hy => hd y hy t (hsub ht)

/-- The same for an integral over a rectangle. -/
theorem param_deriv2 {u v : ℝ} (D : Rectangle) {F F' : ℝ → ℝ × ℝ → ℝ} (hF : ContinuousOn (fun p : ℝ × (ℝ × ℝ) => F p.1 p.2) (Icc u v ×ˢ D.set))
    (hF' : ContinuousOn (fun p : ℝ × (ℝ × ℝ) => F' p.1 p.2) (Icc u v ×ˢ D.set))
    (hd : ∀ x ∈ Ioo u v, ∀ q ∈ D.set, HasDerivAt (fun x => F x q) (F' x q) x) {x : ℝ} (hx : x ∈ Ioo u v) :
    HasDerivAt (fun x => D.integral (F x)) (D.integral (F' x)) x := by
  have swap : ∀ {g : ℝ → ℝ × ℝ → ℝ}, ContinuousOn (fun p : ℝ × (ℝ × ℝ) => g p.1 p.2) (Icc u v ×ˢ D.set) →
      ContinuousOn (fun p : ℝ × ℝ => ∫ y in D.c..D.d, g p.1 (p.2, y)) (Icc u v ×ˢ Icc D.a D.b) := by
    intro g hg
    refine param_cont D.hcd ?_
    have : ContinuousOn (fun p : (ℝ × ℝ) × ℝ => (p.1.1, (p.1.2, p.2))) ((Icc u v ×ˢ Icc D.a D.b) ×ˢ Icc D.c D.d) := by fun_prop
    exact hg.comp this fun p hp => ⟨hp.1.1, hp.1.2, hp.2⟩
  refine param_deriv D.hab (F := fun x s => ∫ y in D.c..D.d, F x (s, y)) (F' := fun x s => ∫ y in D.c..D.d, F' x (s, y)) (swap hF) (swap hF') ?_ hx
  intro z hz s hs
  have sec : ∀ {g : ℝ → ℝ × ℝ → ℝ}, ContinuousOn (fun p : ℝ × (ℝ × ℝ) => g p.1 p.2) (Icc u v ×ˢ D.set) →
      ContinuousOn (fun p : ℝ × ℝ => g p.1 (s, p.2)) (Icc u v ×ˢ Icc D.c D.d) := by
    intro g hg
    have : ContinuousOn (fun p : ℝ × ℝ => (p.1, (s, p.2))) (Icc u v ×ˢ Icc D.c D.d) := by fun_prop
    exact hg.comp this fun p hp => ⟨hp.1, hs, hp.2⟩
  exact param_deriv D.hcd (F := fun x y => F x (s, y)) (F' := fun x y => F' x (s, y)) (sec hF) (sec hF')
    (fun w hw t ht => hd w hw (s, t) ⟨hs, ht⟩) hz

/-- The same for what `romb` makes of it. -/
theorem quad2_deriv (D : Rectangle) (k l : ℕ) {F F' : ℝ → ℝ × ℝ → ℝ} {x : ℝ} (hd : ∀ q ∈ D.set, HasDerivAt (fun x => F x q) (F' x q) x) :
    HasDerivAt (fun x => quad2 D.a D.b D.c D.d k l fun s t => F x (s, t)) (quad2 D.a D.b D.c D.d k l fun s t => F' x (s, t)) x := by
  simp only [quad2, quad1]
  refine HasDerivAt.mul_const (HasDerivAt.fun_sum fun i hi => ?_) _
  refine HasDerivAt.const_mul _ (HasDerivAt.mul_const (HasDerivAt.fun_sum fun j hj => ?_) _)
  refine HasDerivAt.const_mul _ (hd _ ⟨node_mem D.hab k ?_, node_mem D.hcd l ?_⟩)
  · have := mem_range.mp hi; omega
  · have := mem_range.mp hj; omega

theorem quad2_cont (D : Rectangle) (k l : ℕ) {S : Set ℝ} {F : ℝ → ℝ × ℝ → ℝ} (hF : ContinuousOn (fun p : ℝ × (ℝ × ℝ) => F p.1 p.2) (S ×ˢ D.set)) :
    ContinuousOn (fun x => quad2 D.a D.b D.c D.d k l fun s t => F x (s, t)) S := by
  simp only [quad2, quad1]
  refine ContinuousOn.mul (continuousOn_finsetSum _ fun i hi => ?_) continuousOn_const
  refine ContinuousOn.mul continuousOn_const (ContinuousOn.mul (continuousOn_finsetSum _ fun j hj => ?_) continuousOn_const)
  refine ContinuousOn.mul continuousOn_const ?_
  have hq : (D.a + i * ((D.b - D.a) / 2 ^ k), D.c + j * ((D.d - D.c) / 2 ^ l)) ∈ D.set :=
    ⟨node_mem D.hab k (by have := mem_range.mp hi; omega), node_mem D.hcd l (by have := mem_range.mp hj; omega)⟩
  have : ContinuousOn (fun x : ℝ => (x, (D.a + i * ((D.b - D.a) / 2 ^ k), D.c + j * ((D.d - D.c) / 2 ^ l)))) S := by fun_prop
  exact hF.comp this fun x hx => ⟨hx, hq⟩

theorem integral_cont (D : Rectangle) {S : Set ℝ} {F : ℝ → ℝ × ℝ → ℝ} (hF : ContinuousOn (fun p : ℝ × (ℝ × ℝ) => F p.1 p.2) (S ×ˢ D.set)) :
    ContinuousOn (fun x => D.integral (F x)) S := by
  refine param_cont D.hab (f := fun x s => ∫ y in D.c..D.d, F x (s, y)) ?_
  refine param_cont D.hcd (f := fun (p : ℝ × ℝ) y => F p.1 (p.2, y)) ?_
  have : ContinuousOn (fun p : (ℝ × ℝ) × ℝ => (p.1.1, (p.1.2, p.2))) ((S ×ˢ Icc D.a D.b) ×ˢ Icc D.c D.d) := by fun_prop
  exact hF.comp this fun p hp => ⟨hp.1.1, hp.1.2, hp.2⟩

end FreeGS.GS
