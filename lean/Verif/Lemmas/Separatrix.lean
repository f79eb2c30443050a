import Mathlib.Analysis.Calculus.MeanValue
import Mathlib.MeasureTheory.Integral.IntervalIntegral.Basic
import Mathlib.Analysis.SpecialFunctions.Integrals.Basic
import Mathlib.Topology.UniformSpace.HeineCantor
import Verif.Model.Separatrix
import Verif.Props.Surface

/-!
# Lemmas on flux surfaces: search along rays, sums over closed curves
-/

set_option linter.unusedSectionVars false

namespace FreeGS.Separatrix

open FreeGS.Critical
open Real (pi)

/-! ## The loop -/

theorem collect_ok {α : Type} (search : ℕ → Except Err α) (f : ℕ → α) : ∀ n, (∀ j < n, search j = .ok (f j)) →
    collect search n = .ok ((List.range n).map f) := by
  intro n
  induction n with
  | zero => intro _; rfl
  | succ k ih =>
    intro h
    rw [collect, ih fun j hj => h j (by omega), h k (by omega)]
    simp [List.range_succ]

/-! ## The search along a ray -/

/-- A flux that grows in proportion to the distance along a ray is found exactly. -/
theorem search_linear (d : Domain ℝ) (f : ℝ → ℝ → ℝ) (r0 z0 r1 z1 v g : ℝ) (n : ℕ) (hn : 2 ≤ n)
    (hr : d.Rmin + 1 / 1000000 ≤ r0 ∧ r0 + 1 / 1000000 ≤ d.Rmax)
    (hz : d.Zmin + 1 / 1000000 ≤ z0 ∧ z0 + 1 / 1000000 ≤ d.Zmax) (hg : 0 < g) (hv : 0 ≤ v)
    (hf : ∀ t, 0 ≤ t → t ≤ 1 → f (along r0 z0 r1 z1 t).1 (along r0 z0 r1 z1 t).2 = t * g) (hlt : v / g < 1)
    (hin : (d.Rmin < (along r0 z0 r1 z1 (v / g)).1 ∧ (along r0 z0 r1 z1 (v / g)).1 < d.Rmax) ∧
      (d.Zmin < (along r0 z0 r1 z1 (v / g)).2 ∧ (along r0 z0 r1 z1 (v / g)).2 < d.Zmax)) :
    findPsiSurface d f r0 z0 r1 z1 v n = .ok (along r0 z0 r1 z1 (v / g)) := by
  obtain ⟨T, p, hp, hT0, hT1, -, hedge, -, hsurf⟩ := C29_psisurface_partial d f r0 z0 r1 z1 v n hn hr hz
  have hn1 : (0 : ℝ) < (n : ℝ) - 1 := by
    have : (2 : ℝ) ≤ n := by exact_mod_cast hn
    linarith
  set τ := v / g with hτ
  have hτ0 : 0 ≤ τ := div_nonneg hv hg.le
  have hvτ : v = τ * g := by rw [hτ]; field_simp
  have hTτ : τ < T := by
    by_contra hle
    rw [not_lt] at hle
    have hTne : T ≠ 1 := by intro h; linarith
    have e := hedge hTne
    -- a point between the start and the surface is strictly inside
    have hw : ∃ w : ℝ, 0 ≤ w ∧ w ≤ 1 ∧ T = w * τ := by
      rcases hτ0.lt_or_eq with h | h
      · exact ⟨T / τ, div_nonneg hT0 h.le, by rw [div_le_one h]; exact hle, by field_simp⟩
      · exact ⟨0, le_refl _, zero_le_one, by rw [← h] at hle; linarith⟩
    obtain ⟨w, hw0, hw1, hwT⟩ := hw
    have e1 : (along r0 z0 r1 z1 T).1 = (1 - w) * r0 + w * (along r0 z0 r1 z1 τ).1 := by
      simp only [along]; rw [hwT]; ring
    have e2 : (along r0 z0 r1 z1 T).2 = (1 - w) * z0 + w * (along r0 z0 r1 z1 τ).2 := by
      simp only [along]; rw [hwT]; ring
    have strict : ∀ a b lo hi : ℝ, lo < a → a < hi → lo < b → b < hi → lo < (1 - w) * a + w * b ∧ (1 - w) * a + w * b < hi := by
      intro a b lo hi h1 h2 h3 h4
      rcases hw0.lt_or_eq with h | h
      · constructor <;> nlinarith
      · rw [← h]; constructor <;> linarith
    have s1 := strict r0 _ d.Rmin d.Rmax (by linarith [hr.1]) (by linarith [hr.2]) hin.1.1 hin.1.2
    have s2 := strict z0 _ d.Zmin d.Zmax (by linarith [hz.1]) (by linarith [hz.2]) hin.2.1 hin.2.2
    rw [← e1] at s1
    rw [← e2] at s2
    rcases e with h | h | h | h
    · exact absurd h s1.1.ne'
    · exact absurd h s1.2.ne
    · exact absurd h s2.1.ne'
    · exact absurd h s2.2.ne
  have hT : 0 < T := lt_of_le_of_lt hτ0 hTτ
  simp only at hsurf
  -- the flux at the samples
  have hflux : ∀ k : ℕ, k < n → f (along r0 z0 r1 z1 (T * ((k : ℝ) / ((n : ℝ) - 1)))).1
      (along r0 z0 r1 z1 (T * ((k : ℝ) / ((n : ℝ) - 1)))).2 = T * ((k : ℝ) / ((n : ℝ) - 1)) * g := by
    intro k hk
    have hk0 : 0 ≤ (k : ℝ) / ((n : ℝ) - 1) := div_nonneg (Nat.cast_nonneg _) hn1.le
    have hk1 : (k : ℝ) / ((n : ℝ) - 1) ≤ 1 := by
      rw [div_le_one hn1]
      have : (k : ℝ) + 1 ≤ n := by exact_mod_cast hk
      linarith
    exact hf _ (mul_nonneg hT0 hk0) (mul_le_one₀ hT1 hk0 hk1)
  set i := ⌊τ / T * ((n : ℝ) - 1)⌋₊ with hi
  have hx0 : 0 ≤ τ / T * ((n : ℝ) - 1) := mul_nonneg (div_nonneg hτ0 hT.le) hn1.le
  have hi1 : (i : ℝ) ≤ τ / T * ((n : ℝ) - 1) := Nat.floor_le hx0
  have hi2 : τ / T * ((n : ℝ) - 1) < i + 1 := Nat.lt_floor_add_one _
  have hτT : τ / T < 1 := by rw [div_lt_one hT]; exact hTτ
  have hin1 : i + 1 < n := by
    have : (i : ℝ) < (n : ℝ) - 1 := lt_of_le_of_lt hi1 (by nlinarith)
    have : (i : ℝ) + 1 < n := by linarith
    exact_mod_cast this
  have hmain := hsurf.1 i hin1 (by
      intro k hk
      rw [hflux k (by omega), hvτ]
      refine mul_le_mul_of_nonneg_right ?_ hg.le
      have hki : (k : ℝ) ≤ i := by exact_mod_cast hk
      have : (k : ℝ) / ((n : ℝ) - 1) ≤ τ / T := by rw [div_le_iff₀ hn1]; linarith
      calc T * ((k : ℝ) / ((n : ℝ) - 1)) ≤ T * (τ / T) := mul_le_mul_of_nonneg_left this hT.le
        _ = τ := by field_simp)
    (by
      rw [hflux (i + 1) hin1, hvτ]
      refine mul_lt_mul_of_pos_right ?_ hg
      have : τ / T < ((i + 1 : ℕ) : ℝ) / ((n : ℝ) - 1) := by rw [lt_div_iff₀ hn1]; push_cast; exact hi2
      calc τ = T * (τ / T) := by field_simp
        _ < T * (((i + 1 : ℕ) : ℝ) / ((n : ℝ) - 1)) := mul_lt_mul_of_pos_left this hT)
  obtain ⟨s, hs0, hs1, hps, hval⟩ := hmain
  rw [hflux i (by omega), hflux (i + 1) hin1, hvτ] at hval
  have : T * (((i : ℝ) + s) / ((n : ℝ) - 1)) = τ := by
    have h2 : (T * ((i : ℝ) / ((n : ℝ) - 1)) + s * (T * (((i + 1 : ℕ) : ℝ) / ((n : ℝ) - 1)) -
      T * ((i : ℝ) / ((n : ℝ) - 1)))) * g = τ * g := by linear_combination hval
    have h3 := mul_right_cancel₀ hg.ne' h2
    rw [← h3]; push_cast; field_simp; ring
  rw [hp, hps, this]

/-! ## Sums over closed curves -/

/-- Riemann sums with equally spaced points converge, wherever the points lie in their intervals. -/
theorem riemann (G : ℝ → ℝ) (hG : Continuous G) (ε : ℝ) (hε : 0 < ε) : ∃ N : ℕ, ∀ n ≥ N, 0 < n → ∀ s : ℝ, 0 ≤ s → s ≤ 2 * pi / n →
    |2 * pi / n * ∑ j ∈ Finset.range n, G (j * (2 * pi / n) + s) - ∫ t in (0 : ℝ)..(2 * pi), G t| < ε := by
  have hpi := Real.pi_pos
  have huc := isCompact_Icc.uniformContinuousOn_of_continuous (hG.continuousOn (s := Set.Icc (0 : ℝ) (2 * pi)))
  rw [Metric.uniformContinuousOn_iff] at huc
  obtain ⟨δ, hδ, hu⟩ := huc (ε / (4 * pi)) (by positivity)
  obtain ⟨N, hN⟩ := exists_nat_gt (2 * pi / δ)
  refine ⟨N, fun n hn hn0 s hs0 hs1 => ?_⟩
  have hnpos : (0 : ℝ) < n := by exact_mod_cast hn0
  set h := 2 * pi / n with hh
  have hhpos : 0 < h := by positivity
  have hhδ : h < δ := by
    have : 2 * pi / δ < n := lt_of_lt_of_le hN (by exact_mod_cast hn)
    rw [div_lt_iff₀ hδ] at this
    rw [hh, div_lt_iff₀ hnpos]; linarith
  have hsum : ∫ t in (0 : ℝ)..(2 * pi), G t = ∑ j ∈ Finset.range n, ∫ t in ((j : ℝ) * h)..(((j + 1 : ℕ) : ℝ) * h), G t := by
    rw [intervalIntegral.sum_integral_adjacent_intervals (a := fun j : ℕ => (j : ℝ) * h) fun k _ => hG.intervalIntegrable _ _]
    congr 1
    · simp
    · rw [hh]; field_simp
  rw [hsum, Finset.mul_sum, ← Finset.sum_sub_distrib]
  have hb : ∀ j ∈ Finset.range n, |h * G (j * h + s) - ∫ t in ((j : ℝ) * h)..(((j + 1 : ℕ) : ℝ) * h), G t| ≤ ε / (4 * pi) * h := by
    intro j hj
    rw [Finset.mem_range] at hj
    have hj' : (j : ℝ) + 1 ≤ n := by exact_mod_cast hj
    have hlen : ((j + 1 : ℕ) : ℝ) * h - j * h = h := by push_cast; ring
    have e : h * G (j * h + s) = ∫ t in ((j : ℝ) * h)..(((j + 1 : ℕ) : ℝ) * h), G (j * h + s) := by
      rw [intervalIntegral.integral_const, hlen, smul_eq_mul]
    rw [e, ← intervalIntegral.integral_sub (by simp) (hG.intervalIntegrable _ _)]
    have := intervalIntegral.norm_integral_le_of_norm_le_const (a := (j : ℝ) * h) (b := ((j + 1 : ℕ) : ℝ) * h)
      (f := fun t => G (j * h + s) - G t) (C := ε / (4 * pi)) (by
        intro t ht
        rw [Set.uIoc_of_le (by linarith)] at ht
        have hnh : (n : ℝ) * h = 2 * pi := by rw [hh]; field_simp
        have hjh : 0 ≤ (j : ℝ) * h := by positivity
        have hj1 : ((j + 1 : ℕ) : ℝ) * h ≤ 2 * pi := by
          rw [← hnh]; push_cast; exact mul_le_mul_of_nonneg_right hj' hhpos.le
        have h1 : j * h + s ∈ Set.Icc (0 : ℝ) (2 * pi) := ⟨by linarith, by linarith⟩
        have h2 : t ∈ Set.Icc (0 : ℝ) (2 * pi) := ⟨by linarith [ht.1], by linarith [ht.2]⟩
        have := hu _ h1 _ h2 (by
          rw [Real.dist_eq, abs_lt]
          constructor <;> linarith [ht.1, ht.2])
        rw [Real.dist_eq] at this
        rw [Real.norm_eq_abs]
        exact this.le)
    rw [Real.norm_eq_abs, hlen, abs_of_pos hhpos] at this
    exact this
  calc |∑ j ∈ Finset.range n, (h * G (j * h + s) - ∫ t in ((j : ℝ) * h)..(((j + 1 : ℕ) : ℝ) * h), G t)|
      ≤ ∑ j ∈ Finset.range n, |h * G (j * h + s) - ∫ t in ((j : ℝ) * h)..(((j + 1 : ℕ) : ℝ) * h), G t| :=
        Finset.abs_sum_le_sum_abs _ _
    _ ≤ ∑ _j ∈ Finset.range n, ε / (4 * pi) * h := Finset.sum_le_sum hb
    _ = ε / 2 := by
        rw [Finset.sum_const, Finset.card_range, nsmul_eq_mul, hh]
        field_simp
        norm_num
    _ < ε := by linarith

theorem hypot_lipschitz (a b c d : ℝ) : |√(a ^ 2 + b ^ 2) - √(c ^ 2 + d ^ 2)| ≤ |a - c| + |b - d| := by
  have tri : ∀ x y u v : ℝ, √((x + u) ^ 2 + (y + v) ^ 2) ≤ √(x ^ 2 + y ^ 2) + (|u| + |v|) := by
    intro x y u v
    rw [Real.sqrt_le_left (by positivity)]
    have h1 := Real.sq_sqrt (show 0 ≤ x ^ 2 + y ^ 2 by positivity)
    have hx : |x| ≤ √(x ^ 2 + y ^ 2) := Real.abs_le_sqrt (by nlinarith)
    have hy : |y| ≤ √(x ^ 2 + y ^ 2) := Real.abs_le_sqrt (by nlinarith)
    have hxu : x * u ≤ √(x ^ 2 + y ^ 2) * |u| := by
      calc x * u ≤ |x * u| := le_abs_self _
        _ = |x| * |u| := abs_mul _ _
        _ ≤ _ := mul_le_mul_of_nonneg_right hx (abs_nonneg _)
    have hyv : y * v ≤ √(x ^ 2 + y ^ 2) * |v| := by
      calc y * v ≤ |y * v| := le_abs_self _
        _ = |y| * |v| := abs_mul _ _
        _ ≤ _ := mul_le_mul_of_nonneg_right hy (abs_nonneg _)
    have hu := sq_abs u
    have hv := sq_abs v
    have huv : 0 ≤ |u| * |v| := by positivity
    nlinarith
  rw [abs_le]
  constructor
  · have := tri a b (c - a) (d - b)
    rw [show a + (c - a) = c by ring, show b + (d - b) = d by ring, abs_sub_comm c a, abs_sub_comm d b] at this
    linarith
  · have := tri c d (a - c) (b - d)
    rw [show c + (a - c) = a by ring, show d + (b - d) = b by ring] at this
    linarith

/-- Central differences of a continuously differentiable function converge uniformly on bounded sets. -/
theorem central (f f' : ℝ → ℝ) (hf : ∀ t, HasDerivAt f (f' t) t) (hf' : Continuous f') (A B ε : ℝ) (hε : 0 < ε) :
    ∃ δ > 0, ∀ h, 0 < h → h < δ → ∀ t, A ≤ t → t ≤ B → |(f (t + h) - f (t - h)) / (2 * h) - f' t| < ε := by
  have huc := isCompact_Icc.uniformContinuousOn_of_continuous (hf'.continuousOn (s := Set.Icc (A - 1) (B + 1)))
  rw [Metric.uniformContinuousOn_iff] at huc
  obtain ⟨δ, hδ, hu⟩ := huc ε hε
  refine ⟨min δ 1, lt_min hδ one_pos, fun h h0 h1 t hA hB => ?_⟩
  obtain ⟨c, hc, hce⟩ := exists_hasDerivAt_eq_slope f f' (show t - h < t + h by linarith)
    (continuousOn_of_forall_continuousAt fun x _ => (hf x).continuousAt) fun x _ => hf x
  have e : (f (t + h) - f (t - h)) / (2 * h) = f' c := by
    rw [hce]; congr 1; ring
  rw [e, ← Real.dist_eq]
  have hlt1 := lt_of_lt_of_le h1 (min_le_left δ 1)
  have hlt2 := lt_of_lt_of_le h1 (min_le_right δ 1)
  refine hu _ ⟨by linarith [hc.1], by linarith [hc.2]⟩ _ ⟨by linarith, by linarith⟩ ?_
  rw [Real.dist_eq, abs_lt]
  constructor <;> linarith [hc.1, hc.2]

/-- The polygonal sum over a closed curve converges to the line integral. -/
theorem curve_sum (X Y X' Y' w : ℝ → ℝ) (hX : ∀ t, HasDerivAt X (X' t) t) (hY : ∀ t, HasDerivAt Y (Y' t) t) (hX' : Continuous X')
    (hY' : Continuous Y') (hw : Continuous w) (ε : ℝ) (hε : 0 < ε) :
    ∃ N : ℕ, ∀ n ≥ N, 0 < n → ∀ s : ℝ, 0 ≤ s → s ≤ 2 * pi / n →
      |∑ j ∈ Finset.range n, w (j * (2 * pi / n) + s) *
        √(((X (j * (2 * pi / n) + s + 2 * pi / n) - X (j * (2 * pi / n) + s - 2 * pi / n)) / 2) ^ 2 +
          ((Y (j * (2 * pi / n) + s + 2 * pi / n) - Y (j * (2 * pi / n) + s - 2 * pi / n)) / 2) ^ 2) -
        ∫ t in (0 : ℝ)..(2 * pi), w t * √(X' t ^ 2 + Y' t ^ 2)| < ε := by
  have hpi := Real.pi_pos
  obtain ⟨M, hM⟩ := (isCompact_Icc (a := (0 : ℝ)) (b := 2 * pi)).exists_bound_of_continuousOn hw.continuousOn
  set W := max M 1 with hW
  have hW0 : 0 < W := lt_of_lt_of_le one_pos (le_max_right _ _)
  obtain ⟨N1, h1⟩ := riemann (fun t => w t * √(X' t ^ 2 + Y' t ^ 2)) (by fun_prop) (ε / 2) (by positivity)
  obtain ⟨δx, hδx, hcx⟩ := central X X' hX hX' 0 (2 * pi) (ε / (16 * pi * W)) (by positivity)
  obtain ⟨δy, hδy, hcy⟩ := central Y Y' hY hY' 0 (2 * pi) (ε / (16 * pi * W)) (by positivity)
  obtain ⟨N2, hN2⟩ := exists_nat_gt (2 * pi / min δx δy)
  refine ⟨max N1 N2, fun n hn hn0 s hs0 hs1 => ?_⟩
  have hr := h1 n (le_trans (le_max_left _ _) hn) hn0 s hs0 hs1
  have hnpos : (0 : ℝ) < n := by exact_mod_cast hn0
  set h := 2 * pi / n with hh
  have hhpos : 0 < h := by positivity
  have hhδ : h < min δx δy := by
    have : 2 * pi / min δx δy < n := lt_of_lt_of_le hN2 (by exact_mod_cast le_trans (le_max_right _ _) hn)
    rw [div_lt_iff₀ (lt_min hδx hδy)] at this
    rw [hh, div_lt_iff₀ hnpos]; linarith
  have hnh : (n : ℝ) * h = 2 * pi := by rw [hh]; field_simp
  have hterm : ∀ j ∈ Finset.range n, |w (j * h + s) * √(((X (j * h + s + h) - X (j * h + s - h)) / 2) ^ 2 +
      ((Y (j * h + s + h) - Y (j * h + s - h)) / 2) ^ 2) - h * (w (j * h + s) * √(X' (j * h + s) ^ 2 + Y' (j * h + s) ^ 2))| ≤
      h * (ε / (8 * pi)) := by
    intro j hj
    rw [Finset.mem_range] at hj
    have hj' : (j : ℝ) + 1 ≤ n := by exact_mod_cast hj
    set t := (j : ℝ) * h + s with ht
    have ht0 : 0 ≤ t := by positivity
    have ht1 : t ≤ 2 * pi := by
      rw [← hnh]
      have : ((j : ℝ) + 1) * h ≤ n * h := mul_le_mul_of_nonneg_right hj' hhpos.le
      linarith
    have cx := hcx h hhpos (lt_of_lt_of_le hhδ (min_le_left _ _)) t ht0 ht1
    have cy := hcy h hhpos (lt_of_lt_of_le hhδ (min_le_right _ _)) t ht0 ht1
    have e : √(((X (t + h) - X (t - h)) / 2) ^ 2 + ((Y (t + h) - Y (t - h)) / 2) ^ 2) =
        h * √(((X (t + h) - X (t - h)) / (2 * h)) ^ 2 + ((Y (t + h) - Y (t - h)) / (2 * h)) ^ 2) := by
      rw [← Real.sqrt_sq hhpos.le, ← Real.sqrt_mul (sq_nonneg _), Real.sqrt_sq hhpos.le]
      congr 1
      field_simp
    have hl := hypot_lipschitz ((X (t + h) - X (t - h)) / (2 * h)) ((Y (t + h) - Y (t - h)) / (2 * h)) (X' t) (Y' t)
    have hwt : |w t| ≤ W := le_trans (by simpa using hM t ⟨ht0, ht1⟩) (le_max_left _ _)
    rw [e, show w t * (h * √(((X (t + h) - X (t - h)) / (2 * h)) ^ 2 + ((Y (t + h) - Y (t - h)) / (2 * h)) ^ 2)) -
      h * (w t * √(X' t ^ 2 + Y' t ^ 2)) = h * (w t * (√(((X (t + h) - X (t - h)) / (2 * h)) ^ 2 +
        ((Y (t + h) - Y (t - h)) / (2 * h)) ^ 2) - √(X' t ^ 2 + Y' t ^ 2))) by ring, abs_mul, abs_of_pos hhpos, abs_mul]
    refine mul_le_mul_of_nonneg_left ?_ hhpos.le
    calc |w t| * |√(((X (t + h) - X (t - h)) / (2 * h)) ^ 2 + ((Y (t + h) - Y (t - h)) / (2 * h)) ^ 2) - √(X' t ^ 2 + Y' t ^ 2)|
        ≤ W * (ε / (16 * pi * W) + ε / (16 * pi * W)) :=
          mul_le_mul hwt (by linarith) (abs_nonneg _) hW0.le
      _ = ε / (8 * pi) := by field_simp; ring
  have hsum : |∑ j ∈ Finset.range n, w (j * h + s) * √(((X (j * h + s + h) - X (j * h + s - h)) / 2) ^ 2 +
      ((Y (j * h + s + h) - Y (j * h + s - h)) / 2) ^ 2) -
      h * ∑ j ∈ Finset.range n, w (j * h + s) * √(X' (j * h + s) ^ 2 + Y' (j * h + s) ^ 2)| ≤ ε / 4 := by
    rw [Finset.mul_sum, ← Finset.sum_sub_distrib]
    calc _ ≤ _ := Finset.abs_sum_le_sum_abs _ _
      _ ≤ ∑ _j ∈ Finset.range n, h * (ε / (8 * pi)) := Finset.sum_le_sum hterm
      _ = ε / 4 := by
        rw [Finset.sum_const, Finset.card_range, nsmul_eq_mul, ← mul_assoc, hnh]
        field_simp
        norm_num
  rw [abs_lt] at hr ⊢
  rw [abs_le] at hsum
  constructor <;> linarith [hr.1, hr.2, hsum.1, hsum.2]

end FreeGS.Separatrix
