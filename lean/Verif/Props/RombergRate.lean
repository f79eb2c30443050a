import Verif.Props.Romberg
import Verif.Lemmas.RombergRate
import Mathlib.Analysis.SpecialFunctions.ExpDeriv
import Mathlib.Analysis.Complex.ExponentialBounds
import Mathlib.Analysis.SpecialFunctions.Integrals.Basic

set_option linter.unusedSectionVars false

/-!
# C109: the order of accuracy of integrals over the grid
-/

namespace FreeGS.GS

/-- **C109 (order of accuracy).** If `f` has `2 r + 2` derivatives in the radius, the last bounded by `M`, and `2 s + 2` derivatives in the height, the last bounded
by `N`, then on every grid of `2 ^ k + 1` by `2 ^ l + 1` points with `r ≤ k` and `s ≤ l` the error of the integral is at most the area times
`rateConst r * dR ^ (2 r + 2) * M + rateConst s * dZ ^ (2 s + 2) * N`, with `dR` and `dZ` the spacings of the grid. -/
theorem C109_rate (D : Rectangle) (r s k l : ℕ) (hr : r ≤ k) (hs : s ≤ l) (f : ℝ × ℝ → ℝ) (hf : ContinuousOn f D.set) (M N : ℝ)
    (hR : ∀ Z ∈ Set.Icc D.c D.d, ∃ F, F 0 = (fun R => f (R, Z)) ∧ Times (2 * r + 2) D.a D.b F M)
    (hZ : ∀ R ∈ Set.Icc D.a D.b, ∃ F, F 0 = (fun Z => f (R, Z)) ∧ Times (2 * s + 2) D.c D.d F N) :
    ∃ v, Jtor.integrate (2 ^ k + 1) (2 ^ l + 1) (D.R k) (D.Z l) (D.sample k l f) = .ok v ∧
      |v - D.integral f| ≤ (D.b - D.a) * (D.d - D.c) *
        (rateConst r * ((D.b - D.a) / 2 ^ k) ^ (2 * r + 2) * M + rateConst s * ((D.d - D.c) / 2 ^ l) ^ (2 * s + 2) * N) :=
  ⟨_, integrate_eq D k l f, quad2_rate r s k l hr hs D.hab D.hcd (f := fun x y => f (x, y)) hf hR hZ⟩

/-- **C109 (order of the plasma current).** The current stored by a solve is as near to the integral of a smooth current density. -/
theorem C109_current_rate {C : Type} (D : Rectangle) (r s k l : ℕ) (hr : r ≤ k) (hs : s ≤ l) (j : ℝ × ℝ → ℝ) (hj : ContinuousOn j D.set) (M N : ℝ)
    (hR : ∀ Z ∈ Set.Icc D.c D.d, ∃ F, F 0 = (fun R => j (R, Z)) ∧ Times (2 * r + 2) D.a D.b F M)
    (hZ : ∀ R ∈ Set.Icc D.a D.b, ∃ F, F 0 = (fun Z => j (R, Z)) ∧ Times (2 * s + 2) D.c D.d F N)
    (e : Equil.Env C ℝ) (profiles : Equil.Profiles C ℝ) (t t' : Equil.State C ℝ) (psi0 : Option (Arr ℝ)) (b : Option ℝ)
    (e1 : e.nx = 2 ^ k + 1) (e2 : e.ny = 2 ^ l + 1) (e3 : e.R = D.R k) (e4 : e.Z = D.Z l)
    (h : Equil.solve e profiles t (some (D.sample k l j)) psi0 b = .ok t') :
    |t'.current - D.integral j| ≤ (D.b - D.a) * (D.d - D.c) *
      (rateConst r * ((D.b - D.a) / 2 ^ k) ^ (2 * r + 2) * M + rateConst s * ((D.d - D.c) / 2 ^ l) ^ (2 * s + 2) * N) := by
  obtain ⟨v, hv, hV⟩ := C109_rate D r s k l hr hs j hj M N hR hZ
  simp only [Equil.solve, Equil.density, e1, e2, e3, e4, hv, bind, Except.bind] at h
  split at h
  · cases h
  · split at h
    · cases h
    · split at h
      · cases h
      · cases h
        exact hV

/-! ## A case that meets the hypotheses -/

/-- The unit square. -/
def unitSquare : Rectangle := ⟨0, 1, 0, 1, zero_le_one, zero_le_one⟩

theorem times_exp (n : ℕ) (c : ℝ) (hc : c ≤ 1) : Times n 0 1 (fun _ x => Real.exp (x + c)) (Real.exp 2) where
  cont := by fun_prop
  deriv := fun _ _ x _ => by
    have := ((hasDerivAt_id x).add_const c).exp
    rwa [mul_one] at this
  le := fun x hx => by rw [Real.abs_exp]; exact Real.exp_le_exp.mpr (by linarith [hx.2])

/-- A case of `C109_rate`: the integral of `exp (R + Z)` over the unit square on a grid of nine by nine points, with eight derivatives used, is within
`1 / 40000` of `(e - 1)²`. -/
example : ∃ v, Jtor.integrate (2 ^ 3 + 1) (2 ^ 3 + 1) (unitSquare.R 3) (unitSquare.Z 3) (unitSquare.sample 3 3 fun q => Real.exp (q.1 + q.2)) = .ok v ∧
    |v - (Real.exp 1 - 1) ^ 2| ≤ 1 / 40000 := by
  obtain ⟨v, hv, h⟩ := C109_rate unitSquare 3 3 3 3 le_rfl le_rfl (fun q => Real.exp (q.1 + q.2)) (by fun_prop) (Real.exp 2) (Real.exp 2)
    (fun Z hZ => ⟨_, rfl, times_exp _ Z hZ.2⟩) (fun R hR => ⟨_, by funext Z; rw [add_comm], times_exp _ R hR.2⟩)
  refine ⟨v, hv, ?_⟩
  have e : unitSquare.integral (fun q => Real.exp (q.1 + q.2)) = (Real.exp 1 - 1) ^ 2 := by
    simp only [Rectangle.integral, unitSquare, Real.exp_add, intervalIntegral.integral_const_mul, intervalIntegral.integral_mul_const, integral_exp,
      Real.exp_zero]
    ring
  rw [e] at h
  refine h.trans ?_
  have e2 : Real.exp 2 ≤ 9 := by
    have := Real.exp_one_lt_three
    rw [show (2 : ℝ) = 1 + 1 by norm_num, Real.exp_add]
    nlinarith [Real.exp_pos 1]
  simp only [rateConst, unitSquare]
  norm_num [Nat.factorial]
  nlinarith

end FreeGS.GS
