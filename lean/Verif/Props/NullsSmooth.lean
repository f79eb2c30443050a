import Mathlib.Analysis.Calculus.Deriv.MeanValue
import Mathlib.Analysis.Calculus.Deriv.Pow
import Mathlib.Analysis.Calculus.Deriv.Prod
import Mathlib.Analysis.Calculus.Deriv.Add
import Mathlib.Analysis.Calculus.Deriv.Mul
import Verif.Props.Nulls

/-!
# C91: smooth fluxes have regular nulls

The hypothesis `RegularNull` of the theorems on nulls between the grid points follows from bounds on the second derivatives of the flux.
-/

namespace FreeGS.Critical

theorem away_segment (Rs Zs R Z t : ℝ) (h0 : 0 ≤ t) (h1 : t ≤ 1) :
    away Rs Zs (Rs + t * (R - Rs)) (Zs + t * (Z - Zs)) ≤ away Rs Zs R Z := by
  simp only [away, add_sub_cancel_left, abs_mul, abs_of_nonneg h0]
  exact max_le_max (mul_le_of_le_one_left (abs_nonneg _) h1) (mul_le_of_le_one_left (abs_nonneg _) h1)

/-- A function of two variables that vanishes at the null is given by its derivatives up to an error of second order. -/
theorem linear_error (F A B : ℝ → ℝ → ℝ) (Rs Zs r Lam : ℝ) (h0 : F Rs Zs = 0)
    (hF : ∀ R Z, away Rs Zs R Z ≤ r →
      HasFDerivAt (fun p : ℝ × ℝ => F p.1 p.2) (A R Z • ContinuousLinearMap.fst ℝ ℝ ℝ + B R Z • ContinuousLinearMap.snd ℝ ℝ ℝ) (R, Z))
    (hA : ∀ R Z R' Z', away Rs Zs R Z ≤ r → away Rs Zs R' Z' ≤ r → |A R Z - A R' Z'| ≤ Lam * max |R - R'| |Z - Z'|)
    (hB : ∀ R Z R' Z', away Rs Zs R Z ≤ r → away Rs Zs R' Z' ≤ r → |B R Z - B R' Z'| ≤ Lam * max |R - R'| |Z - Z'|)
    (hL : 0 ≤ Lam) (R Z : ℝ) (hd : away Rs Zs R Z ≤ r) :
    |F R Z - (A R Z * (R - Rs) + B R Z * (Z - Zs))| ≤ 2 * Lam * away Rs Zs R Z ^ 2 := by
  have hder : ∀ t : ℝ, 0 ≤ t → t ≤ 1 → HasDerivAt (fun t : ℝ => F (Rs + t * (R - Rs)) (Zs + t * (Z - Zs)))
      (A (Rs + t * (R - Rs)) (Zs + t * (Z - Zs)) * (R - Rs) + B (Rs + t * (R - Rs)) (Zs + t * (Z - Zs)) * (Z - Zs)) t := by
    intro t t0 t1
    have h1 : HasDerivAt (fun t : ℝ => (Rs + t * (R - Rs), Zs + t * (Z - Zs))) (R - Rs, Z - Zs) t := by
      have e1 : HasDerivAt (fun t : ℝ => Rs + t * (R - Rs)) (R - Rs) t := by
        simpa using ((hasDerivAt_id t).mul_const (R - Rs)).const_add Rs
      have e2 : HasDerivAt (fun t : ℝ => Zs + t * (Z - Zs)) (Z - Zs) t := by
        simpa using ((hasDerivAt_id t).mul_const (Z - Zs)).const_add Zs
      exact e1.prodMk e2
    have h2 := (hF (Rs + t * (R - Rs)) (Zs + t * (Z - Zs)) (le_trans (away_segment Rs Zs R Z t t0 t1) hd)).comp_hasDerivAt t h1
    simp only [ContinuousLinearMap.add_apply, ContinuousLinearMap.smul_apply, ContinuousLinearMap.coe_fst', ContinuousLinearMap.coe_snd', smul_eq_mul] at h2
    exact h2
  obtain ⟨t, ⟨t0, t1⟩, ht⟩ := exists_hasDerivAt_eq_slope (fun t : ℝ => F (Rs + t * (R - Rs)) (Zs + t * (Z - Zs)))
    (fun t => A (Rs + t * (R - Rs)) (Zs + t * (Z - Zs)) * (R - Rs) + B (Rs + t * (R - Rs)) (Zs + t * (Z - Zs)) * (Z - Zs)) zero_lt_one
    (fun t ht => (hder t ht.1 ht.2).continuousAt.continuousWithinAt) (fun t ht => hder t ht.1.le ht.2.le)
  simp only [one_mul, zero_mul, add_zero, add_sub_cancel, sub_zero, div_one, h0] at ht
  have hin := le_trans (away_segment Rs Zs R Z t t0.le t1.le) hd
  have hm : max |R - (Rs + t * (R - Rs))| |Z - (Zs + t * (Z - Zs))| ≤ away Rs Zs R Z := by
    have e1 : R - (Rs + t * (R - Rs)) = (1 - t) * (R - Rs) := by ring
    have e2 : Z - (Zs + t * (Z - Zs)) = (1 - t) * (Z - Zs) := by ring
    rw [e1, e2, abs_mul, abs_mul, abs_of_nonneg (by linarith : 0 ≤ 1 - t)]
    exact max_le_max (mul_le_of_le_one_left (abs_nonneg _) (by linarith)) (mul_le_of_le_one_left (abs_nonneg _) (by linarith))
  have a1 := le_trans (hA R Z _ _ hd hin) (mul_le_mul_of_nonneg_left hm hL)
  have a2 := le_trans (hB R Z _ _ hd hin) (mul_le_mul_of_nonneg_left hm hL)
  rw [← ht]
  set A' := A (Rs + t * (R - Rs)) (Zs + t * (Z - Zs))
  set B' := B (Rs + t * (R - Rs)) (Zs + t * (Z - Zs))
  have hw := away_nonneg Rs Zs R Z
  have e : A' * (R - Rs) + B' * (Z - Zs) - (A R Z * (R - Rs) + B R Z * (Z - Zs)) =
      -((A R Z - A') * (R - Rs) + (B R Z - B') * (Z - Zs)) := by ring
  rw [e, abs_neg]
  calc |(A R Z - A') * (R - Rs) + (B R Z - B') * (Z - Zs)|
      ≤ |A R Z - A'| * |R - Rs| + |B R Z - B'| * |Z - Zs| := by
        rw [← abs_mul, ← abs_mul]
        exact abs_add_le _ _
    _ ≤ Lam * away Rs Zs R Z * away Rs Zs R Z + Lam * away Rs Zs R Z * away Rs Zs R Z :=
        add_le_add (mul_le_mul a1 (le_max_left _ _) (abs_nonneg _) (by positivity))
          (mul_le_mul a2 (le_max_right _ _) (abs_nonneg _) (by positivity))
    _ = _ := by ring

theorem pair_bound (a b u v c : ℝ) (h : |a| + |b| ≤ c) : |a * u + b * v| ≤ c * max |u| |v| := by
  calc |a * u + b * v| ≤ |a| * |u| + |b| * |v| := by
        rw [← abs_mul, ← abs_mul]
        exact abs_add_le _ _
    _ ≤ |a| * max |u| |v| + |b| * max |u| |v| :=
        add_le_add (mul_le_mul_of_nonneg_left (le_max_left _ _) (abs_nonneg _)) (mul_le_mul_of_nonneg_left (le_max_right _ _) (abs_nonneg _))
    _ = (|a| + |b|) * max |u| |v| := by ring
    _ ≤ _ := mul_le_mul_of_nonneg_right h (le_trans (abs_nonneg _) (le_max_left _ _))

/-- The second derivatives of the flux are those of the model, and vary by at most `Lam` per unit of distance. -/
structure SmoothAround (f : Spline ℝ) (Rs Zs r Lam : ℝ) : Prop where
  derR : ∀ R Z, away Rs Zs R Z ≤ r → HasFDerivAt (fun p : ℝ × ℝ => f.dR p.1 p.2)
    (f.dRR R Z • ContinuousLinearMap.fst ℝ ℝ ℝ + f.dRZ R Z • ContinuousLinearMap.snd ℝ ℝ ℝ) (R, Z)
  derZ : ∀ R Z, away Rs Zs R Z ≤ r → HasFDerivAt (fun p : ℝ × ℝ => f.dZ p.1 p.2)
    (f.dRZ R Z • ContinuousLinearMap.fst ℝ ℝ ℝ + f.dZZ R Z • ContinuousLinearMap.snd ℝ ℝ ℝ) (R, Z)
  lipRR : ∀ R Z R' Z', away Rs Zs R Z ≤ r → away Rs Zs R' Z' ≤ r → |f.dRR R Z - f.dRR R' Z'| ≤ Lam * max |R - R'| |Z - Z'|
  lipRZ : ∀ R Z R' Z', away Rs Zs R Z ≤ r → away Rs Zs R' Z' ≤ r → |f.dRZ R Z - f.dRZ R' Z'| ≤ Lam * max |R - R'| |Z - Z'|
  lipZZ : ∀ R Z R' Z', away Rs Zs R Z ≤ r → away Rs Zs R' Z' ≤ r → |f.dZZ R Z - f.dZZ R' Z'| ≤ Lam * max |R - R'| |Z - Z'|

/-- **C91** (smooth fluxes). Around a null whose second derivatives are not singular and vary slowly enough, the flux is regular in the
sense of the theorems above: the Newton iteration converges from every grid point in this region. -/
theorem C91_smooth_is_regular (f : Spline ℝ) (Rs Zs r mu Lam B : ℝ) (hr : 0 < r) (haxis : 8 * r ≤ Rs) (hmu : 0 < mu) (hLam : 0 ≤ Lam)
    (hsmall : 8 * Lam * r ≤ mu) (hs : SmoothAround f Rs Zs r Lam) (hR : f.dR Rs Zs = 0) (hZ : f.dZ Rs Zs = 0)
    (hns : ∀ u v, 2 * mu * max |u| |v| ≤ max |f.dRR Rs Zs * u + f.dRZ Rs Zs * v| |f.dRZ Rs Zs * u + f.dZZ Rs Zs * v|)
    (hB1 : |f.dRR Rs Zs| + |f.dRZ Rs Zs| ≤ B) (hB2 : |f.dRZ Rs Zs| + |f.dZZ Rs Zs| ≤ B) :
    RegularNull f Rs Zs r mu (2 * Lam) (B + 4 * Lam * r) := by
  have hself : away Rs Zs Rs Zs ≤ r := by simp only [away, sub_self, abs_zero, max_self]; exact hr.le
  have hL1 := linear_error f.dR f.dRR f.dRZ Rs Zs r Lam hR hs.derR hs.lipRR hs.lipRZ hLam
  have hL2 := linear_error f.dZ f.dRZ f.dZZ Rs Zs r Lam hZ hs.derZ hs.lipRZ hs.lipZZ hLam
  have hvar : ∀ (G : ℝ → ℝ → ℝ), (∀ R Z R' Z', away Rs Zs R Z ≤ r → away Rs Zs R' Z' ≤ r → |G R Z - G R' Z'| ≤ Lam * max |R - R'| |Z - Z'|) →
      ∀ R Z, away Rs Zs R Z ≤ r → |G R Z - G Rs Zs| ≤ Lam * r := fun G hG R Z hd =>
    le_trans (hG R Z Rs Zs hd hself) (mul_le_mul_of_nonneg_left hd hLam)
  have hrow : ∀ (F A C : ℝ → ℝ → ℝ), (∀ R Z, away Rs Zs R Z ≤ r → |A R Z - A Rs Zs| ≤ Lam * r) →
      (∀ R Z, away Rs Zs R Z ≤ r → |C R Z - C Rs Zs| ≤ Lam * r) → |A Rs Zs| + |C Rs Zs| ≤ B →
      (∀ R Z, away Rs Zs R Z ≤ r → |F R Z - (A R Z * (R - Rs) + C R Z * (Z - Zs))| ≤ 2 * Lam * away Rs Zs R Z ^ 2) →
      ∀ R Z, away Rs Zs R Z ≤ r → |F R Z| ≤ (B + 4 * Lam * r) * away Rs Zs R Z := by
    intro F A C hA hC hAC hF R Z hd
    have hw := away_nonneg Rs Zs R Z
    have t1 := abs_sub_abs_le_abs_sub (A R Z) (A Rs Zs)
    have t2 := abs_sub_abs_le_abs_sub (C R Z) (C Rs Zs)
    have t3 : |A R Z| + |C R Z| ≤ B + 2 * (Lam * r) := by linarith [hA R Z hd, hC R Z hd]
    have t4 := pair_bound (A R Z) (C R Z) (R - Rs) (Z - Zs) _ t3
    have t5 := abs_sub_abs_le_abs_sub (F R Z) (A R Z * (R - Rs) + C R Z * (Z - Zs))
    have t6 : 2 * Lam * away Rs Zs R Z ^ 2 ≤ 2 * Lam * r * away Rs Zs R Z := by
      have := mul_le_mul_of_nonneg_left (mul_le_mul_of_nonneg_right hd hw) (by linarith : (0 : ℝ) ≤ 2 * Lam)
      linarith
    have t7 := hF R Z hd
    change _ ≤ (B + 2 * (Lam * r)) * away Rs Zs R Z at t4
    linarith
  refine ⟨hr, haxis, hmu, by linarith, by linarith, ?_, hL1, hL2,
    hrow f.dR f.dRR f.dRZ (hvar _ hs.lipRR) (hvar _ hs.lipRZ) hB1 hL1, hrow f.dZ f.dRZ f.dZZ (hvar _ hs.lipRZ) (hvar _ hs.lipZZ) hB2 hL2⟩
  intro R Z hd u v
  set m := max |u| |v| with hm
  have hm0 : 0 ≤ m := le_trans (abs_nonneg _) (le_max_left _ _)
  have v1 := hvar _ hs.lipRR R Z hd
  have v2 := hvar _ hs.lipRZ R Z hd
  have v3 := hvar _ hs.lipZZ R Z hd
  have w1 := pair_bound (f.dRR R Z - f.dRR Rs Zs) (f.dRZ R Z - f.dRZ Rs Zs) u v (2 * (Lam * r)) (by linarith)
  have w2 := pair_bound (f.dRZ R Z - f.dRZ Rs Zs) (f.dZZ R Z - f.dZZ Rs Zs) u v (2 * (Lam * r)) (by linarith)
  have hsm : 2 * (Lam * r) * m ≤ mu * m := mul_le_mul_of_nonneg_right (by nlinarith) hm0
  rcases le_max_iff.mp (hns u v) with q | q
  · refine le_trans ?_ (le_max_left _ _)
    have e : f.dRR Rs Zs * u + f.dRZ Rs Zs * v - (f.dRR R Z * u + f.dRZ R Z * v) =
        -((f.dRR R Z - f.dRR Rs Zs) * u + (f.dRZ R Z - f.dRZ Rs Zs) * v) := by ring
    have t := abs_sub_abs_le_abs_sub (f.dRR Rs Zs * u + f.dRZ Rs Zs * v) (f.dRR R Z * u + f.dRZ R Z * v)
    rw [e, abs_neg] at t
    linarith
  · refine le_trans ?_ (le_max_right _ _)
    have e : f.dRZ Rs Zs * u + f.dZZ Rs Zs * v - (f.dRZ R Z * u + f.dZZ R Z * v) =
        -((f.dRZ R Z - f.dRZ Rs Zs) * u + (f.dZZ R Z - f.dZZ Rs Zs) * v) := by ring
    have t := abs_sub_abs_le_abs_sub (f.dRZ Rs Zs * u + f.dZZ Rs Zs * v) (f.dRZ R Z * u + f.dZZ R Z * v)
    rw [e, abs_neg] at t
    linarith

/-- A cubic flux with a null at `(8, 0)`. -/
noncomputable def cubicFlux : Spline ℝ where
  f R Z := (R - 8) ^ 2 + (R - 8) ^ 3 / 60 + Z ^ 2
  dR R _ := 2 * (R - 8) + (R - 8) ^ 2 / 20
  dZ _ Z := 2 * Z
  dRR R _ := 2 + (R - 8) / 10
  dRZ _ _ := 0
  dZZ _ _ := 2

-- the hypotheses hold for a flux that is not quadratic
example : RegularNull cubicFlux 8 0 1 1 (2 * (1 / 10)) (2 + 4 * (1 / 10) * 1) := by
  refine C91_smooth_is_regular cubicFlux 8 0 1 1 (1 / 10) 2 one_pos (by norm_num) one_pos (by norm_num) (by norm_num)
    ⟨?_, ?_, ?_, ?_, ?_⟩ (by simp [cubicFlux]) (by simp [cubicFlux]) ?_ (by simp [cubicFlux]) (by simp [cubicFlux])
  · intro R Z _
    have h1 : HasFDerivAt (fun p : ℝ × ℝ => p.1) (ContinuousLinearMap.fst ℝ ℝ ℝ) (R, Z) := hasFDerivAt_fst
    have h2 : HasDerivAt (fun x : ℝ => 2 * (x - 8) + (x - 8) ^ 2 / 20) (2 + (R - 8) / 10) R := by
      have e0 : HasDerivAt (fun x : ℝ => x - 8) 1 R := (hasDerivAt_id R).sub_const 8
      have e1 := (e0.const_mul 2).add ((e0.pow 2).div_const 20)
      have e2 : 2 * 1 + ((2 : ℕ) : ℝ) * (R - 8) ^ (2 - 1) * 1 / 20 = 2 + (R - 8) / 10 := by
        push_cast
        ring
      rw [e2] at e1
      exact e1
    have h3 := HasDerivAt.comp_hasFDerivAt (x := (R, Z)) (f := fun p : ℝ × ℝ => p.1) h2 h1
    simp only [cubicFlux, zero_smul, add_zero]
    exact h3
  · intro R Z _
    have h1 : HasFDerivAt (fun p : ℝ × ℝ => p.2) (ContinuousLinearMap.snd ℝ ℝ ℝ) (R, Z) := hasFDerivAt_snd
    simp only [cubicFlux, zero_smul, zero_add]
    exact h1.const_mul 2
  · intro R Z R' Z' _ _
    simp only [cubicFlux]
    rw [show 2 + (R - 8) / 10 - (2 + (R' - 8) / 10) = 1 / 10 * (R - R') by ring, abs_mul, abs_of_pos (by norm_num : (0 : ℝ) < 1 / 10)]
    exact mul_le_mul_of_nonneg_left (le_max_left _ _) (by norm_num)
  · intro R Z R' Z' _ _
    simp only [cubicFlux, sub_self, abs_zero]
    positivity
  · intro R Z R' Z' _ _
    simp only [cubicFlux, sub_self, abs_zero]
    positivity
  · intro u v
    simp only [cubicFlux, sub_self, zero_div, add_zero, zero_mul, zero_add, mul_one, abs_mul, Nat.abs_ofNat]
    rw [mul_max_of_nonneg _ _ (by norm_num)]

end FreeGS.Critical
