import Verif.Model.Jtor
import Verif.Lemmas.Boundary
import Mathlib.Analysis.SpecialFunctions.Pow.Continuity
import Mathlib.MeasureTheory.Integral.IntervalIntegral.FundThmCalculus

set_option linter.unusedSectionVars false

namespace FreeGS.Jtor

open FreeGS.GS
open FreeGS.Critical (clip Point)

variable {K : Type*} [Field K] [LinearOrder K]

theorem romb2_weights [CharZero K] (a b : ℕ) : ∃ wR wZ : ℕ → K, ∀ f : Arr K,
    romb2 (2 ^ a + 1) (2 ^ b + 1) f =
      .ok (∑ x ∈ Finset.range (2 ^ a + 1), wR x * ∑ y ∈ Finset.range (2 ^ b + 1), wZ y * f (x, y)) := by
  obtain ⟨wR, hR, _⟩ := romb_weights (K := K) a
  obtain ⟨wZ, hZ, _⟩ := romb_weights (K := K) b
  exact ⟨wR, wZ, fun f => by simp only [romb2, hZ, hR, Except.toOption, Option.getD_some]⟩

theorem romb2_sizes {nx ny : ℕ} {f : Arr K} {v : K} (h : romb2 nx ny f = .ok v) :
    ∃ a b, nx = 2 ^ a + 1 ∧ ny = 2 ^ b + 1 := by
  by_cases hy : ∃ b, ny = 2 ^ b + 1
  · obtain ⟨b, rfl⟩ := hy
    by_cases hx : ∃ a, nx = 2 ^ a + 1
    · obtain ⟨a, rfl⟩ := hx
      exact ⟨a, b, rfl, rfl⟩
    · rw [romb2, romb_pow] at h
      simp only at h
      rw [romb_error _ nx fun k e => hx ⟨k, e⟩] at h
      cases h
  · rw [romb2, romb_error _ ny fun k e => hy ⟨k, e⟩] at h
    cases h

theorem integrate_ok {nx ny : ℕ} {R Z : ℕ → K} {f : Arr K} {v : K} (h : integrate nx ny R Z f = .ok v) :
    ∃ u, romb2 nx ny f = .ok u ∧ v = u * (R 1 - R 0) * (Z 1 - Z 0) := by
  rw [integrate] at h
  cases hr : romb2 nx ny f with
  | error e => rw [hr] at h; cases h
  | ok u => rw [hr] at h; cases h; exact ⟨u, rfl, rfl⟩

/-- The integral over the grid is linear. -/
theorem integrate_linear [CharZero K] {nx ny : ℕ} {R Z : ℕ → K} {f g : Arr K} {u v : K} (s t : K)
    (hf : integrate nx ny R Z f = .ok u) (hg : integrate nx ny R Z g = .ok v) (h : Arr K)
    (hh : ∀ x < nx, ∀ y < ny, h (x, y) = s * f (x, y) + t * g (x, y)) :
    integrate nx ny R Z h = .ok (s * u + t * v) := by
  obtain ⟨u', hu, rfl⟩ := integrate_ok hf
  obtain ⟨v', hv, rfl⟩ := integrate_ok hg
  obtain ⟨a, b, rfl, rfl⟩ := romb2_sizes hu
  obtain ⟨wR, wZ, hw⟩ := romb2_weights (K := K) a b
  rw [hw] at hu hv
  cases hu; cases hv
  rw [integrate, hw]
  show Except.ok _ = Except.ok _
  congr 1
  rw [show ∀ A B C D : K, s * (A * C * D) + t * (B * C * D) = (s * A + t * B) * C * D from fun A B C D => by ring]
  congr 2
  rw [Finset.mul_sum, Finset.mul_sum, ← Finset.sum_add_distrib]
  refine Finset.sum_congr rfl fun x hx => ?_
  rw [show ∀ w A B : K, s * (w * A) + t * (w * B) = w * (s * A + t * B) from fun w A B => by ring]
  congr 1
  rw [Finset.mul_sum, Finset.mul_sum, ← Finset.sum_add_distrib]
  refine Finset.sum_congr rfl fun y hy => ?_
  rw [hh x (Finset.mem_range.mp hx) y (Finset.mem_range.mp hy)]
  ring

theorem integrate_smul [CharZero K] {nx ny : ℕ} {R Z : ℕ → K} {f : Arr K} {u : K} (s : K)
    (hf : integrate nx ny R Z f = .ok u) (h : Arr K) (hh : ∀ x < nx, ∀ y < ny, h (x, y) = s * f (x, y)) :
    integrate nx ny R Z h = .ok (s * u) := by
  have := integrate_linear s 0 hf hf h fun x hx y hy => by rw [hh x hx y hy, zero_mul, add_zero]
  rwa [zero_mul, add_zero] at this

/-! ## Inversion of the monadic code -/

theorem bind_ok.{u} {α β : Type u} {x : Except Err α} {f : α → Except Err β} {b : β} (h : (x >>= f) = .ok b) :
    ∃ a, x = .ok a ∧ f a = .ok b := by
  cases x with
  | error e => cases h
  | ok a => exact ⟨a, rfl, h⟩

theorem divisible_iff {nx : ℕ} {R : ℕ → K} {p : Params K} {pl : Plasma K} :
    divisible nx R p pl = true ↔ (∀ i < nx, R i ≠ 0) ∧ p.Raxis ≠ 0 ∧ pl.psiBndry - pl.psiAxis ≠ 0 := by
  simp only [divisible, Bool.and_eq_true, List.all_eq_true, List.mem_range, decide_eq_true_eq, and_assoc]

/-- What a successful `finish` computed. -/
theorem finish_ok {pow : K → K → K} {nx ny : ℕ} {R Z : ℕ → K} {p : Params K} {pl : Plasma K} {psi : Arr K} {LB : K}
    {J : Arr K} {k : Consts K} (h : finish pow nx ny R Z p pl psi LB = .ok (J, k)) :
    ∃ IR I_R, integrate nx ny R Z (fun c => shapeArray pow p pl psi c * R c.1 / p.Raxis) = .ok IR ∧
      integrate nx ny R Z (fun c => shapeArray pow p pl psi c * p.Raxis / R c.1) = .ok I_R ∧ I_R ≠ 0 ∧ k.L ≠ 0 ∧
      k.L = p.Ip / I_R - LB * (IR / I_R - 1) ∧ k.L * k.Beta0 = LB ∧ k.psiAxis = pl.psiAxis ∧ k.psiBndry = pl.psiBndry ∧
      ∀ c, J c = k.L * (k.Beta0 * R c.1 / p.Raxis + (1 - k.Beta0) * p.Raxis / R c.1) * shapeArray pow p pl psi c := by
  rw [finish] at h
  obtain ⟨IR, h1, h⟩ := bind_ok h
  obtain ⟨I_R, h2, h⟩ := bind_ok h
  by_cases h0 : I_R = 0
  · rw [if_pos h0] at h; cases h
  rw [if_neg h0] at h
  simp only at h
  by_cases hL : p.Ip / I_R - LB * (IR / I_R - 1) = 0
  · rw [if_pos hL] at h; cases h
  rw [if_neg hL] at h
  cases h
  exact ⟨IR, I_R, h1, h2, h0, hL, rfl, mul_div_cancel₀ LB hL, rfl, rfl, fun c => rfl⟩

/-- The current density integrates to the requested current. -/
theorem finish_current [CharZero K] {pow : K → K → K} {nx ny : ℕ} {R Z : ℕ → K} {p : Params K} {pl : Plasma K} {psi : Arr K}
    {LB : K} {J : Arr K} {k : Consts K} (h : finish pow nx ny R Z p pl psi LB = .ok (J, k)) :
    integrate nx ny R Z J = .ok p.Ip := by
  obtain ⟨IR, I_R, h1, h2, h0, hL, e1, e2, _, _, hJ⟩ := finish_ok h
  have := integrate_linear (k.L * k.Beta0) (k.L - k.L * k.Beta0) h1 h2 J fun x _ y _ => by rw [hJ]; simp only; ring
  rw [this]
  congr 1
  rw [e2, e1]
  field_simp
  ring

/-! ## Exact integrals -/

/-- `quad` with an exact result. -/
noncomputable def quadR (f : ℝ → ℝ) (a b : ℝ) : ℝ := ∫ x in a..b, f x

/-- `x ** y` on real numbers. -/
noncomputable def powR (x y : ℝ) : ℝ := x ^ y

theorem continuous_shape {am an : ℝ} (hm : 0 ≤ am) (hn : 0 ≤ an) : Continuous fun x => shape powR am an (clip x 0 1) := by
  have h1 : Continuous fun x : ℝ => clip x 0 1 := by
    show Continuous fun x : ℝ => min (max x 0) 1
    exact (continuous_id.max continuous_const).min continuous_const
  exact (continuous_const.sub (h1.rpow_const fun _ => Or.inr hm)).rpow_const fun _ => Or.inr hn

theorem clip_id {x : ℝ} (h0 : 0 ≤ x) (h1 : x ≤ 1) : clip x 0 1 = x := by
  rw [clip, max_eq_left h0, min_eq_left h1]

/-- Between axis and edge clipping makes no difference to the integral. -/
theorem quad_clip (am an : ℝ) {x : ℝ} (h0 : 0 ≤ x) (h1 : x ≤ 1) :
    quadR (fun t => shape powR am an (clip t 0 1)) x 1 = quadR (shape powR am an) x 1 := by
  refine intervalIntegral.integral_congr fun t ht => ?_
  rw [Set.uIcc_of_le h1] at ht
  rw [clip_id (le_trans h0 ht.1) ht.2]

theorem quad_smul (c : ℝ) (f : ℝ → ℝ) (a b : ℝ) : quadR (fun x => c * f x) a b = c * quadR f a b :=
  intervalIntegral.integral_const_mul c f

end FreeGS.Jtor
