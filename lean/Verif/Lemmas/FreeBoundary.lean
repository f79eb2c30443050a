import Verif.Spec.Romberg
import Verif.Lemmas.RombergExact
import Verif.Lemmas.GreensPhysics

set_option linter.unusedSectionVars false

/-!
# The free boundary condition under refinement
-/

namespace FreeGS.GS

/-- Integrals of a compact family of functions converge uniformly. -/
theorem quad2_uniform (D : Rectangle) (S : Set (ℝ × ℝ)) (hS : IsCompact S) (g : ℝ × ℝ → ℝ × ℝ → ℝ)
    (hg : ContinuousOn (fun p : (ℝ × ℝ) × (ℝ × ℝ) => g p.1 p.2) (S ×ˢ D.set)) {ε : ℝ} (hε : 0 < ε) :
    ∃ n : ℕ, ∀ k l, n ≤ k → n ≤ l → ∀ P ∈ S, |quad2 D.a D.b D.c D.d k l (fun x y => g P (x, y)) - D.integral (g P)| ≤ ε := by
  have hDc : IsCompact D.set := isCompact_Icc.prod isCompact_Icc
  have hab := sub_nonneg.mpr D.hab
  have hcd := sub_nonneg.mpr D.hcd
  set A := (D.b - D.a) * (D.d - D.c) with hA
  have hA0 : 0 ≤ A := mul_nonneg hab hcd
  set η := ε / (3 * (A + 1)) with hη
  have hη0 : 0 < η := by positivity
  have hη3 : A * η ≤ ε / 3 := by
    rw [hη, mul_div_assoc', div_le_div_iff₀ (by positivity) (by norm_num)]
    nlinarith
  obtain ⟨δ, hδ, h⟩ := Metric.uniformContinuousOn_iff.mp ((hS.prod hDc).uniformContinuousOn_of_continuous hg) η hη0
  have hsec : ∀ P ∈ S, ContinuousOn (g P) D.set := fun P hP => by
    have : ContinuousOn (fun q : ℝ × ℝ => (P, q)) D.set := by fun_prop
    exact hg.comp this fun q hq => ⟨hP, hq⟩
  obtain ⟨t, hts, htf, ht⟩ := hS.finite_cover_balls hδ
  have hex : ∀ P, ∃ n : ℕ, P ∈ S → ∀ k l, n ≤ k → n ≤ l →
      |quad2 D.a D.b D.c D.d k l (fun x y => g P (x, y)) - D.integral (g P)| ≤ ε / 3 := by
    intro P
    by_cases hP : P ∈ S
    · obtain ⟨n, hn⟩ := quad2_converges D.hab D.hcd (f := fun x y => g P (x, y)) (hsec P hP) (ε := ε / 3) (by positivity)
      exact ⟨n, fun _ => hn⟩
    · exact ⟨0, fun h => absurd h hP⟩
  choose N hN using hex
  refine ⟨htf.toFinset.sup N, fun k l hk hl P hP => ?_⟩
  obtain ⟨P', hP', hb⟩ := Set.mem_iUnion₂.mp (ht hP)
  have hPs := hts hP'
  have hle := Finset.le_sup (f := N) (htf.mem_toFinset.mpr hP')
  have h0 := hN P' hPs k l (hle.trans hk) (hle.trans hl)
  have hd : ∀ x ∈ Set.Icc D.a D.b, ∀ y ∈ Set.Icc D.c D.d, |g P (x, y) - g P' (x, y)| ≤ η := by
    intro x hx y hy
    have := h (P, (x, y)) ⟨hP, hx, hy⟩ (P', (x, y)) ⟨hPs, hx, hy⟩ (by
      rw [Prod.dist_eq, dist_self, max_eq_left dist_nonneg]
      exact hb)
    exact (show |g P (x, y) - g P' (x, y)| < η from this).le
  have h1 := quad2_close D.hab D.hcd k l (f := fun x y => g P (x, y)) (g := fun x y => g P' (x, y)) hd
  have h2 := integral2_close D.hab D.hcd (f := fun x y => g P (x, y)) (g := fun x y => g P' (x, y)) (hsec P hP) (hsec P' hPs) hd
  simp only [Rectangle.integral] at *
  rw [abs_le] at *
  constructor <;> linarith [h0.1, h0.2, h1.1, h1.2, h2.1, h2.2]

theorem edge_compact (D : Rectangle) : IsCompact D.edge := by
  have hDc : IsCompact D.set := isCompact_Icc.prod isCompact_Icc
  refine hDc.inter_right (t := {q : ℝ × ℝ | q.1 = D.a ∨ q.1 = D.b ∨ q.2 = D.c ∨ q.2 = D.d}) ?_
  have c1 : ∀ x : ℝ, IsClosed {q : ℝ × ℝ | q.1 = x} := fun x => isClosed_eq continuous_fst continuous_const
  have c2 : ∀ x : ℝ, IsClosed {q : ℝ × ℝ | q.2 = x} := fun x => isClosed_eq continuous_snd continuous_const
  exact (c1 _).union ((c1 _).union ((c2 _).union (c2 _)))

end FreeGS.GS

namespace FreeGS

open Real

theorem continuous_clip : Continuous fun x => clip x 1e-10 (1 - 1e-10) := by unfold clip; fun_prop

theorem clip_range (x : ℝ) : 1e-10 ≤ clip x 1e-10 (1 - 1e-10) ∧ clip x 1e-10 (1 - 1e-10) ≤ 1 - 1e-10 :=
  ⟨le_min (le_max_right _ _) (by norm_num), min_le_right _ _⟩

theorem root_pos {m : ℝ} (h0 : 0 ≤ m) (h1 : m < 1) (θ : ℝ) : 0 < 1 - m * sin θ ^ 2 := by
  have := sin_sq_le_one θ
  have := sq_nonneg (sin θ)
  nlinarith

theorem continuous_ellipticK_clip : Continuous fun x => ellipticK (clip x 1e-10 (1 - 1e-10)) := by
  unfold ellipticK
  refine intervalIntegral.continuous_parametric_intervalIntegral_of_continuous' ?_ _ _
  have hc := continuous_clip
  unfold Function.uncurry
  refine Continuous.div continuous_const ?_ fun p => ?_
  · refine Continuous.sqrt (continuous_const.sub (Continuous.mul (hc.comp continuous_fst) ?_))
    fun_prop
  · have := clip_range p.1
    refine (Real.sqrt_pos.mpr (root_pos (by linarith [this.1]) (by linarith [this.2]) _)).ne'

theorem continuous_ellipticE_clip : Continuous fun x => ellipticE (clip x 1e-10 (1 - 1e-10)) := by
  unfold ellipticE
  refine intervalIntegral.continuous_parametric_intervalIntegral_of_continuous' ?_ _ _
  have hc := continuous_clip
  unfold Function.uncurry
  refine Continuous.sqrt (continuous_const.sub (Continuous.mul (hc.comp continuous_fst) ?_))
  fun_prop

/-- `Greens` is continuous in source and observation point away from the axis, also where they coincide. -/
theorem continuousOn_greens : ContinuousOn (fun p : (ℝ × ℝ) × (ℝ × ℝ) => greens ellipticK ellipticE p.2.1 p.2.2 p.1.1 p.1.2)
    {p | 0 < p.1.1 ∧ 0 < p.2.1} := by
  have hk : ContinuousOn (fun p : (ℝ × ℝ) × (ℝ × ℝ) => 4 * p.1.1 * p.2.1 / ((p.1.1 + p.2.1) ^ 2 + (p.1.2 - p.2.2) ^ 2))
      {p | 0 < p.1.1 ∧ 0 < p.2.1} := by
    refine ContinuousOn.div (by fun_prop) (by fun_prop) fun p hp => ?_
    have := hp.1
    have := hp.2
    positivity
  have hcl := continuous_clip.comp_continuousOn hk
  have hK := continuous_ellipticK_clip.comp_continuousOn hk
  have hE := continuous_ellipticE_clip.comp_continuousOn hk
  simp only [Function.comp_def] at hcl hK hE
  unfold greens
  refine ContinuousOn.div (ContinuousOn.mul (ContinuousOn.mul continuousOn_const ?_) ?_) (Real.continuous_sqrt.comp_continuousOn hcl) fun p _ => ?_
  · exact Continuous.continuousOn (by fun_prop)
  · exact ((continuousOn_const.sub hcl).mul hK).sub (continuousOn_const.mul hE)
  · have := clip_range (4 * p.1.1 * p.2.1 / ((p.1.1 + p.2.1) ^ 2 + (p.1.2 - p.2.2) ^ 2))
    refine (Real.sqrt_pos.mpr ?_).ne'
    have h := this.1
    norm_num at h ⊢
    linarith

end FreeGS
