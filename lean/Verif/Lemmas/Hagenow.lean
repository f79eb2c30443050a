import Verif.Lemmas.GreenIdentity
import Verif.Lemmas.FreeBoundary
import Verif.Props.Boundary
import Verif.Props.Convergence
import Verif.Props.Romberg

set_option linter.unusedSectionVars false

/-!
# von Hagenow's boundary condition under refinement
-/

namespace FreeGS.GS

open FreeGS.Critical (Domain linspaceAt)
open Set

/-- Integrals of a compact family of functions of one variable converge uniformly. -/
theorem quad1_uniform {a b : ℝ} (hab : a ≤ b) (S : Set (ℝ × ℝ)) (hS : IsCompact S) (g : ℝ × ℝ → ℝ → ℝ)
    (hg : ContinuousOn (fun p : (ℝ × ℝ) × ℝ => g p.1 p.2) (S ×ˢ Icc a b)) {ε : ℝ} (hε : 0 < ε) :
    ∃ n : ℕ, ∀ k, n ≤ k → ∀ P ∈ S, |quad1 a b k (g P) - ∫ x in a..b, g P x| ≤ ε := by
  have hba := sub_nonneg.mpr hab
  set η := ε / (3 * (b - a + 1)) with hη
  have hη0 : 0 < η := by positivity
  have hη3 : (b - a) * η ≤ ε / 3 := by
    rw [hη, mul_div_assoc', div_le_div_iff₀ (by positivity) (by norm_num)]
    nlinarith
  obtain ⟨δ, hδ, h⟩ := Metric.uniformContinuousOn_iff.mp ((hS.prod isCompact_Icc).uniformContinuousOn_of_continuous hg) η hη0
  have hsec : ∀ P ∈ S, ContinuousOn (g P) (Icc a b) := fun P hP => by
    have : ContinuousOn (fun x : ℝ => (P, x)) (Icc a b) := by fun_prop
    exact hg.comp this fun q hq => ⟨hP, hq⟩
  obtain ⟨t, hts, htf, ht⟩ := hS.finite_cover_balls hδ
  have hex : ∀ P, ∃ n : ℕ, P ∈ S → ∀ k, n ≤ k → |quad1 a b k (g P) - ∫ x in a..b, g P x| ≤ ε / 3 := by
    intro P
    by_cases hP : P ∈ S
    · obtain ⟨n, hn⟩ := quad1_converges hab (hsec P hP) (ε := ε / 3) (by positivity)
      exact ⟨n, fun _ => hn⟩
    · exact ⟨0, fun h => absurd h hP⟩
  choose N hN using hex
  refine ⟨htf.toFinset.sup N, fun k hk P hP => ?_⟩
  obtain ⟨P', hP', hb⟩ := mem_iUnion₂.mp (ht hP)
  have hPs := hts hP'
  have hle := Finset.le_sup (f := N) (htf.mem_toFinset.mpr hP')
  have h0 := hN P' hPs k (hle.trans hk)
  have hd : ∀ x ∈ Icc a b, |g P x - g P' x| ≤ η := by
    intro x hx
    have := h (P, x) ⟨hP, hx⟩ (P', x) ⟨hPs, hx⟩ (by
      rw [Prod.dist_eq, dist_self, max_eq_left dist_nonneg]
      exact hb)
    exact (show |g P x - g P' x| < η from this).le
  have h1 := quad1_close hab k hd
  have h2 := integral_close hab (hsec P hP) (hsec P' hPs) hd
  rw [abs_le] at *
  constructor <;> linarith [h0.1, h0.2, h1.1, h1.2, h2.1, h2.2]

/-- Values near those of a function give a sum near its quadrature. -/
theorem rule_close {a b : ℝ} (hab : a ≤ b) (k : ℕ) (v : ℕ → ℝ) (f : ℝ → ℝ) {ε : ℝ} (h : ∀ m ≤ 2 ^ k, |v m - f (a + m * ((b - a) / 2 ^ k))| ≤ ε) :
    |(∑ m ∈ Finset.range (2 ^ k + 1), (rule a b k).w m * v m) * ((b - a) / 2 ^ k) - quad1 a b k f| ≤ (b - a) * ε := by
  have hs : 0 ≤ (b - a) / 2 ^ k := div_nonneg (sub_nonneg.mpr hab) (by positivity)
  rw [← quad1_const a b k ε]
  simp only [quad1]
  rw [← sub_mul, ← Finset.sum_sub_distrib, abs_mul, abs_of_nonneg hs]
  refine mul_le_mul_of_nonneg_right ((Finset.abs_sum_le_sum_abs _ _).trans (Finset.sum_le_sum fun m hm => ?_)) hs
  have hm' : m ≤ 2 ^ k := by have := Finset.mem_range.mp hm; omega
  rw [← mul_sub, abs_mul, abs_of_nonneg ((rule a b k).nonneg m hm')]
  exact mul_le_mul_of_nonneg_left (h m hm') ((rule a b k).nonneg m hm')

/-- Comparison: an array that vanishes on the edge lies below a function whose operator is large enough. -/
theorem compare (d : Domain ℝ) (nx ny : ℕ) (hnx : 2 ≤ nx) (hny : 2 ≤ ny) (h0 : 0 ≤ d.Rmin) (hR : d.Rmin < d.Rmax)
    (hZ : d.Zmin < d.Zmax) (e w : Arr ℝ) (T : ℝ) (he : ∀ c, OnEdge nx ny c → e c = 0) (hT : ∀ c, Inside nx ny c → |centralDelta d nx ny e c| ≤ T)
    (hw : ∀ c, OnEdge nx ny c → 0 ≤ w c) (hTw : ∀ c, Inside nx ny c → centralDelta d nx ny w c ≤ -T) :
    ∀ c, OnGrid nx ny c → |e c| ≤ w c := by
  have hcomp : ∀ s : ℝ, s = 1 ∨ s = -1 → ∀ c, OnGrid nx ny c → 0 ≤ w c + s * e c := by
    intro s hs
    refine C35_minimum_principle d nx ny hnx hny h0 hR hZ (fun c => w c + s * e c)
      (fun c => matVec (nx * ny) (gsSparse d nx ny) (flat ny fun c => w c + s * e c) (c.1 * ny + c.2)) (fun c _ => rfl) ?_ ?_
    · intro c hi
      rw [((C35_matrix_is_operator d nx ny _).1 c hi).2]
      have e1 : centralDelta d nx ny (fun c => w c + s * e c) c = centralDelta d nx ny w c + s * centralDelta d nx ny e c := by
        simp only [centralDelta]
        ring
      rw [e1]
      have := hTw c hi
      have := abs_le.mp (hT c hi)
      rcases hs with rfl | rfl <;> linarith [this.1, this.2]
    · intro c hc
      rw [(C35_matrix_is_operator d nx ny _).2 c hc, he c hc, mul_zero, add_zero]
      exact hw c hc
  intro c hc
  have h1 := hcomp 1 (Or.inl rfl) c hc
  have h2 := hcomp (-1) (Or.inr rfl) c hc
  rw [abs_le]
  constructor <;> linarith

theorem gridR_range (d : Domain ℝ) {nx : ℕ} (hnx : 2 ≤ nx) (hR : d.Rmin < d.Rmax) {i : ℕ} (hi : i < nx) : gridR d nx i ∈ Icc d.Rmin d.Rmax := by
  have hn : (2 : ℝ) ≤ nx := by exact_mod_cast hnx
  have hi' : (i : ℝ) + 1 ≤ nx := by exact_mod_cast hi
  have s0 : 0 < stepR d nx := spacing_pos hR hnx
  have e : stepR d nx * ((nx : ℝ) - 1) = d.Rmax - d.Rmin := by
    rw [stepR, div_mul_cancel₀]
    intro h; linarith
  simp only [gridR]
  exact ⟨by nlinarith [(Nat.cast_nonneg i : (0 : ℝ) ≤ i)], by nlinarith⟩

theorem gridZ_range (d : Domain ℝ) {ny : ℕ} (hny : 2 ≤ ny) (hZ : d.Zmin < d.Zmax) {j : ℕ} (hj : j < ny) : gridZ d ny j ∈ Icc d.Zmin d.Zmax := by
  have hn : (2 : ℝ) ≤ ny := by exact_mod_cast hny
  have hj' : (j : ℝ) + 1 ≤ ny := by exact_mod_cast hj
  have s0 : 0 < stepZ d ny := spacing_pos hZ hny
  have e : stepZ d ny * ((ny : ℝ) - 1) = d.Zmax - d.Zmin := by
    rw [stepZ, div_mul_cancel₀]
    intro h; linarith
  simp only [gridZ]
  exact ⟨by nlinarith [(Nat.cast_nonneg j : (0 : ℝ) ≤ j)], by nlinarith⟩

theorem gridR_last (d : Domain ℝ) {nx : ℕ} (hnx : 2 ≤ nx) : gridR d nx (nx - 1) = d.Rmax := by
  have hn : (2 : ℝ) ≤ nx := by exact_mod_cast hnx
  have : (nx : ℝ) - 1 ≠ 0 := by intro h; linarith
  simp only [gridR, stepR]
  rw [Nat.cast_sub (by omega)]
  push_cast
  field_simp
  ring

theorem gridZ_last (d : Domain ℝ) {ny : ℕ} (hny : 2 ≤ ny) : gridZ d ny (ny - 1) = d.Zmax := by
  have hn : (2 : ℝ) ≤ ny := by exact_mod_cast hny
  have : (ny : ℝ) - 1 ≠ 0 := by intro h; linarith
  simp only [gridZ, stepZ]
  rw [Nat.cast_sub (by omega)]
  push_cast
  field_simp
  ring

/-- The error of the fixed-boundary solve falls off towards the sides. -/
theorem error_near_edge (d : Domain ℝ) (nx ny : ℕ) (hnx : 2 ≤ nx) (hny : 2 ≤ ny) (h0 : 0 < d.Rmin) (hR : d.Rmin < d.Rmax)
    (hZ : d.Zmin < d.Zmax) (e : Arr ℝ) (T : ℝ) (hT0 : 0 ≤ T) (he : ∀ c, OnEdge nx ny c → e c = 0)
    (hT : ∀ c, Inside nx ny c → |centralDelta d nx ny e c| ≤ T) (c : ℕ × ℕ) (hc : OnGrid nx ny c) :
    |e c| ≤ T * ((gridR d nx c.1 - d.Rmin) * (d.Rmax - gridR d nx c.1)) ∧ |e c| ≤ T * ((gridZ d ny c.2 - d.Zmin) * (d.Zmax - gridZ d ny c.2)) := by
  have sR : stepR d nx ≠ 0 := (spacing_pos hR hnx).ne'
  have sZ : stepZ d ny ≠ 0 := (spacing_pos hZ hny).ne'
  constructor
  · refine compare d nx ny hnx hny h0.le hR hZ e (fun c => T * ((gridR d nx c.1 - d.Rmin) * (d.Rmax - gridR d nx c.1))) T he hT ?_ ?_ c hc
    · intro c hc
      have := gridR_range d hnx hR hc.1.1
      exact mul_nonneg hT0 (mul_nonneg (sub_nonneg.mpr this.1) (sub_nonneg.mpr this.2))
    · intro c hc
      have z1 : gridR d nx (c.1 + 1) = gridR d nx c.1 + stepR d nx := by simp only [gridR]; push_cast; ring
      have z2 : gridR d nx (c.1 - 1) = gridR d nx c.1 - stepR d nx := by
        simp only [gridR]; rw [Nat.cast_sub hc.1]; push_cast; ring
      have hr := gridR_range d hnx hR (inside_onGrid hc).1
      have hr0 : 0 < gridR d nx c.1 := lt_of_lt_of_le h0 hr.1
      have : centralDelta d nx ny (fun c => T * ((gridR d nx c.1 - d.Rmin) * (d.Rmax - gridR d nx c.1))) c =
          -(T * ((d.Rmin + d.Rmax) / gridR d nx c.1)) := by
        have := hr0.ne'
        simp only [centralDelta, z1, z2]
        field_simp
        ring
      have h1 : 1 ≤ (d.Rmin + d.Rmax) / gridR d nx c.1 := by rw [le_div_iff₀ hr0]; linarith [hr.2]
      rw [this]
      nlinarith
  · refine compare d nx ny hnx hny h0.le hR hZ e (fun c => T * ((gridZ d ny c.2 - d.Zmin) * (d.Zmax - gridZ d ny c.2))) T he hT ?_ ?_ c hc
    · intro c hc
      have := gridZ_range d hny hZ hc.1.2
      exact mul_nonneg hT0 (mul_nonneg (sub_nonneg.mpr this.1) (sub_nonneg.mpr this.2))
    · intro c hc
      have z1 : gridZ d ny (c.2 + 1) = gridZ d ny c.2 + stepZ d ny := by simp only [gridZ]; push_cast; ring
      have z2 : gridZ d ny (c.2 - 1) = gridZ d ny c.2 - stepZ d ny := by
        simp only [gridZ]; rw [Nat.cast_sub hc.2.2.1]; push_cast; ring
      have : centralDelta d nx ny (fun c => T * ((gridZ d ny c.2 - d.Zmin) * (d.Zmax - gridZ d ny c.2))) c = -(2 * T) := by
        simp only [centralDelta, z1, z2]
        field_simp
        ring
      rw [this]
      linarith

/-- The five-point difference is at most fifteen times the growth of its values. -/
theorem hagenowSum_bound (v : ℕ → ℝ) (m : ℝ) (h : ∀ i < 5, |v i| ≤ i * m) : |hagenowSum v| ≤ 15 * m := by
  have h0 := abs_le.mp (h 0 (by norm_num))
  have h1 := abs_le.mp (h 1 (by norm_num))
  have h2 := abs_le.mp (h 2 (by norm_num))
  have h3 := abs_le.mp (h 3 (by norm_num))
  have h4 := abs_le.mp (h 4 (by norm_num))
  push_cast at h0 h1 h2 h3 h4
  simp only [hagenowSum, hagenowCoeffs, List.map_cons, List.map_nil, List.sum_cons, List.sum_nil]
  rw [abs_le]
  constructor <;> linarith [h0.1, h0.2, h1.1, h1.2, h2.1, h2.2, h3.1, h3.2, h4.1, h4.2]

theorem hagenowSum_sub (u v : ℕ → ℝ) : hagenowSum u - hagenowSum v = hagenowSum fun i => u i - v i := by
  simp only [hagenowSum, hagenowCoeffs, List.map_cons, List.map_nil, List.sum_cons, List.sum_nil]
  ring

theorem hagenowSum_linear (p s : ℝ) : hagenowSum (fun i => p + i * s) = -s := by
  simp only [hagenowSum, hagenowCoeffs, List.map_cons, List.map_nil, List.sum_cons, List.sum_nil]
  push_cast
  ring

/-- Mean value theorem for the difference from the tangent. -/
theorem tangent {f f' : ℝ → ℝ} {x y s η : ℝ} (hd : ∀ t ∈ uIcc x y, HasDerivAt f (f' t) t) (hη : ∀ t ∈ uIcc x y, |f' t - s| ≤ η) :
    |f y - f x - (y - x) * s| ≤ η * |y - x| := by
  have h := Convex.norm_image_sub_le_of_norm_hasDerivWithin_le (f := fun t => f t - t * s) (f' := fun t => f' t - s) (s := uIcc x y) (C := η)
    (fun t ht => ((hd t ht).sub ((hasDerivAt_id t).mul_const s)).hasDerivWithinAt.congr_deriv (by simp)) (fun t ht => hη t ht) (convex_uIcc x y)
    left_mem_uIcc right_mem_uIcc
  simp only [Real.norm_eq_abs] at h
  calc _ = |f y - y * s - (f x - x * s)| := by congr 1; ring
    _ ≤ _ := h

/-- The five-point difference of values near those of a smooth function. -/
theorem side {v : ℕ → ℝ} {f f' : ℝ → ℝ} {x h τ η : ℝ} (hv : ∀ i < 5, |v i - f (x + i * h)| ≤ i * (|h| * τ))
    (hd : ∀ i < 5, ∀ t ∈ uIcc x (x + (i : ℕ) * h), HasDerivAt f (f' t) t ∧ |f' t - f' x| ≤ η) :
    |hagenowSum v + h * f' x| ≤ 15 * (|h| * (τ + η)) := by
  have e : hagenowSum v + h * f' x = hagenowSum fun i => v i - (f x + i * (h * f' x)) := by
    rw [← hagenowSum_sub, hagenowSum_linear]
    ring
  rw [e]
  refine hagenowSum_bound _ _ fun i hi => ?_
  have h1 := hv i hi
  have h2 := tangent (fun t ht => (hd i hi t ht).1) (fun t ht => (hd i hi t ht).2)
  rw [add_sub_cancel_left, abs_mul, abs_of_nonneg (Nat.cast_nonneg i : (0 : ℝ) ≤ i)] at h2
  have h3 := abs_add_le (v i - f (x + i * h)) (f (x + i * h) - f x - i * h * f' x)
  calc |v i - (f x + i * (h * f' x))| = |v i - f (x + i * h) + (f (x + i * h) - f x - i * h * f' x)| := by congr 1; ring
    _ ≤ _ := h3
    _ ≤ i * (|h| * τ) + η * (i * |h|) := add_le_add h1 h2
    _ = _ := by ring

theorem zero_deriv {f : ℝ → ℝ} {f' x a b : ℝ} (hab : a < b) (hx : x ∈ Icc a b) (h : HasDerivAt f f' x) (h0 : ∀ t ∈ Icc a b, f t = 0) : f' = 0 :=
  (uniqueDiffOn_Icc hab x hx).eq_deriv _ h.hasDerivWithinAt ((hasDerivWithinAt_const x (Icc a b) (0 : ℝ)).congr (fun t ht => h0 t ht) (h0 x hx))

/-- The differences at the edge are near the outward normal derivatives, at the corners too. -/
theorem normals (d : Domain ℝ) (nx ny : ℕ) (hnx : 5 ≤ nx) (hny : 5 ≤ ny) (hR : d.Rmin < d.Rmax) (hZ : d.Zmin < d.Zmax) (U UR UZ : ℝ → ℝ → ℝ)
    (dR : ∀ R ∈ Icc d.Rmin d.Rmax, ∀ Z ∈ Icc d.Zmin d.Zmax, HasDerivAt (fun R => U R Z) (UR R Z) R)
    (dZ : ∀ R ∈ Icc d.Rmin d.Rmax, ∀ Z ∈ Icc d.Zmin d.Zmax, HasDerivAt (U R) (UZ R Z) Z)
    (zero : ∀ R ∈ Icc d.Rmin d.Rmax, ∀ Z ∈ Icc d.Zmin d.Zmax, (R = d.Rmin ∨ R = d.Rmax ∨ Z = d.Zmin ∨ Z = d.Zmax) → U R Z = 0) (η : ℝ)
    (mod : ∀ R ∈ Icc d.Rmin d.Rmax, ∀ R' ∈ Icc d.Rmin d.Rmax, ∀ Z ∈ Icc d.Zmin d.Zmax, ∀ Z' ∈ Icc d.Zmin d.Zmax,
      |R - R'| ≤ 4 * stepR d nx → |Z - Z'| ≤ 4 * stepZ d ny → |UR R Z - UR R' Z'| ≤ η ∧ |UZ R Z - UZ R' Z'| ≤ η)
    (u : Arr ℝ) (T : ℝ) (hT : 0 ≤ T)
    (hu : ∀ c, OnGrid nx ny c → |u c - U (gridR d nx c.1) (gridZ d ny c.2)| ≤ T * ((gridR d nx c.1 - d.Rmin) * (d.Rmax - gridR d nx c.1)) ∧
      |u c - U (gridR d nx c.1) (gridZ d ny c.2)| ≤ T * ((gridZ d ny c.2 - d.Zmin) * (d.Zmax - gridZ d ny c.2)))
    (dd : ℝ) (hdd : stepR d nx ≤ dd) (hdd' : stepZ d ny ≤ dd) :
    let n := hagenowNormal nx ny (stepR d nx) (stepZ d ny) dd u
    let B := 15 * (T * (d.Rmax - d.Rmin + (d.Zmax - d.Zmin)) + η)
    (∀ j < ny, |n.L j - -UR d.Rmin (gridZ d ny j)| ≤ B ∧ |n.R j - UR d.Rmax (gridZ d ny j)| ≤ B) ∧
    ∀ i < nx, |n.D i - -UZ (gridR d nx i) d.Zmin| ≤ B ∧ |n.U i - UZ (gridR d nx i) d.Zmax| ≤ B := by
  intro n B
  have sR : 0 < stepR d nx := spacing_pos hR (by omega)
  have sZ : 0 < stepZ d ny := spacing_pos hZ (by omega)
  have rR : ∀ {i}, i < nx → gridR d nx i ∈ Icc d.Rmin d.Rmax := fun h => gridR_range d (by omega) hR h
  have rZ : ∀ {j}, j < ny → gridZ d ny j ∈ Icc d.Zmin d.Zmax := fun h => gridZ_range d (by omega) hZ h
  have ra : d.Rmin ∈ Icc d.Rmin d.Rmax := ⟨le_rfl, hR.le⟩
  have rb : d.Rmax ∈ Icc d.Rmin d.Rmax := ⟨hR.le, le_rfl⟩
  have rc : d.Zmin ∈ Icc d.Zmin d.Zmax := ⟨le_rfl, hZ.le⟩
  have re : d.Zmax ∈ Icc d.Zmin d.Zmax := ⟨hZ.le, le_rfl⟩
  have e1 : ∀ i : ℕ, gridR d nx i = d.Rmin + i * stepR d nx := fun i => rfl
  have e2 : ∀ i : ℕ, i < 5 → gridR d nx (nx - 1 - i) = d.Rmax + i * -stepR d nx := by
    intro i hi
    have := gridR_last d (nx := nx) (by omega)
    rw [e1] at this ⊢
    rw [← this, Nat.cast_sub (by omega)]
    ring
  have e3 : ∀ j : ℕ, gridZ d ny j = d.Zmin + j * stepZ d ny := fun j => rfl
  have e4 : ∀ j : ℕ, j < 5 → gridZ d ny (ny - 1 - j) = d.Zmax + j * -stepZ d ny := by
    intro i hi
    have := gridZ_last d (ny := ny) (by omega)
    rw [e3] at this ⊢
    rw [← this, Nat.cast_sub (by omega)]
    ring
  have i0 : ∀ i : ℕ, (0 : ℝ) ≤ i := fun i => Nat.cast_nonneg i
  have i4 : ∀ i : ℕ, i < 5 → (i : ℝ) ≤ 4 := fun i hi => by exact_mod_cast (by omega : i ≤ 4)
  set W := d.Rmax - d.Rmin + (d.Zmax - d.Zmin) with hW
  -- errors of the solve near the sides
  have uL : ∀ i < 5, ∀ j < ny, |u (i, j) - U (gridR d nx i) (gridZ d ny j)| ≤ i * (stepR d nx * (T * W)) := by
    intro i hi j hj
    have h := (hu (i, j) ⟨by show i < nx; omega, hj⟩).1
    have hr := rR (i := i) (by omega)
    refine h.trans ?_
    simp only
    have : (gridR d nx i - d.Rmin) * (d.Rmax - gridR d nx i) ≤ (i * stepR d nx) * W := by
      refine mul_le_mul (by rw [e1]; linarith) (by linarith [hr.1]) (sub_nonneg.mpr hr.2) (by have := i0 i; positivity)
    calc _ ≤ T * ((i * stepR d nx) * W) := mul_le_mul_of_nonneg_left this hT
      _ = _ := by ring
  have uR : ∀ i < 5, ∀ j < ny, |u (nx - 1 - i, j) - U (gridR d nx (nx - 1 - i)) (gridZ d ny j)| ≤ i * (stepR d nx * (T * W)) := by
    intro i hi j hj
    have h := (hu (nx - 1 - i, j) ⟨by show nx - 1 - i < nx; omega, hj⟩).1
    have hr := rR (i := nx - 1 - i) (by omega)
    refine h.trans ?_
    simp only
    have : (gridR d nx (nx - 1 - i) - d.Rmin) * (d.Rmax - gridR d nx (nx - 1 - i)) ≤ W * (i * stepR d nx) := by
      refine mul_le_mul (by linarith [hr.2]) (by rw [e2 i hi]; linarith) (sub_nonneg.mpr hr.2) (by rw [hW]; linarith)
    calc _ ≤ T * (W * (i * stepR d nx)) := mul_le_mul_of_nonneg_left this hT
      _ = _ := by ring
  have uD : ∀ i < nx, ∀ j < 5, |u (i, j) - U (gridR d nx i) (gridZ d ny j)| ≤ j * (stepZ d ny * (T * W)) := by
    intro i hi j hj
    have h := (hu (i, j) ⟨hi, by show j < ny; omega⟩).2
    have hr := rZ (j := j) (by omega)
    refine h.trans ?_
    simp only
    have : (gridZ d ny j - d.Zmin) * (d.Zmax - gridZ d ny j) ≤ (j * stepZ d ny) * W := by
      refine mul_le_mul (by rw [e3]; linarith) (by linarith [hr.1]) (sub_nonneg.mpr hr.2) (by have := i0 j; positivity)
    calc _ ≤ T * ((j * stepZ d ny) * W) := mul_le_mul_of_nonneg_left this hT
      _ = _ := by ring
  have uU : ∀ i < nx, ∀ j < 5, |u (i, ny - 1 - j) - U (gridR d nx i) (gridZ d ny (ny - 1 - j))| ≤ j * (stepZ d ny * (T * W)) := by
    intro i hi j hj
    have h := (hu (i, ny - 1 - j) ⟨hi, by show ny - 1 - j < ny; omega⟩).2
    have hr := rZ (j := ny - 1 - j) (by omega)
    refine h.trans ?_
    simp only
    have : (gridZ d ny (ny - 1 - j) - d.Zmin) * (d.Zmax - gridZ d ny (ny - 1 - j)) ≤ W * (j * stepZ d ny) := by
      refine mul_le_mul (by linarith [hr.2]) (by rw [e4 j hj]; linarith) (sub_nonneg.mpr hr.2) (by rw [hW]; linarith)
    calc _ ≤ T * (W * (j * stepZ d ny)) := mul_le_mul_of_nonneg_left this hT
      _ = _ := by ring
  have fin : ∀ {s h m t : ℝ}, 0 < h → |s + t| ≤ 15 * (h * m) → |s / h - -(t / h)| ≤ 15 * m := by
    intro s h m t hh hs
    rw [show s / h - -(t / h) = (s + t) / h by ring, abs_div, abs_of_pos hh, div_le_iff₀ hh]
    linarith
  -- sides
  have near : ∀ {x h t : ℝ} {i : ℕ}, i < 5 → 0 ≤ h → t ∈ uIcc x (x + i * h) → x ≤ t ∧ t ≤ x + i * h ∧ |t - x| ≤ 4 * h := by
    intro x h t i hi hh ht
    have := mul_nonneg (i0 i) hh
    rw [uIcc_of_le (by linarith)] at ht
    have := mul_le_mul_of_nonneg_right (i4 i hi) hh
    exact ⟨ht.1, ht.2, by rw [abs_le]; constructor <;> linarith [ht.1, ht.2]⟩
  have near' : ∀ {x h t : ℝ} {i : ℕ}, i < 5 → 0 ≤ h → t ∈ uIcc x (x + i * -h) → t ≤ x ∧ x + i * -h ≤ t ∧ |t - x| ≤ 4 * h := by
    intro x h t i hi hh ht
    have := mul_nonneg (i0 i) hh
    rw [uIcc_of_ge (by linarith)] at ht
    have := mul_le_mul_of_nonneg_right (i4 i hi) hh
    exact ⟨ht.2, ht.1, by rw [abs_le]; constructor <;> linarith [ht.1, ht.2]⟩
  have zz : ∀ {x h : ℝ}, 0 ≤ h → |x - x| ≤ 4 * h := fun h => by rw [sub_self, abs_zero]; positivity
  have sideL : ∀ j < ny, |hagenowSum (fun i => u (i, j)) / stepR d nx - -UR d.Rmin (gridZ d ny j)| ≤ B := by
    intro j hj
    have := side (v := fun i => u (i, j)) (f := fun R => U R (gridZ d ny j)) (f' := fun R => UR R (gridZ d ny j)) (x := d.Rmin) (h := stepR d nx)
      (τ := T * W) (η := η) (fun i hi => by rw [abs_of_pos sR]; exact uL i hi j hj) (fun i hi t ht => by
        obtain ⟨t1, t2, t3⟩ := near hi sR.le ht
        have hr := (rR (i := i) (by omega)).2
        rw [e1] at hr
        have ht : t ∈ Icc d.Rmin d.Rmax := ⟨t1, t2.trans hr⟩
        exact ⟨dR t ht _ (rZ hj), (mod t ht _ ra _ (rZ hj) _ (rZ hj) t3 (zz sZ.le)).1⟩)
    rw [abs_of_pos sR] at this
    have := fin sR this
    rwa [mul_div_cancel_left₀ _ sR.ne'] at this
  have sideR : ∀ j < ny, |hagenowSum (fun i => u (nx - 1 - i, j)) / stepR d nx - UR d.Rmax (gridZ d ny j)| ≤ B := by
    intro j hj
    have := side (v := fun i => u (nx - 1 - i, j)) (f := fun R => U R (gridZ d ny j)) (f' := fun R => UR R (gridZ d ny j)) (x := d.Rmax)
      (h := -stepR d nx) (τ := T * W) (η := η) (fun i hi => by rw [abs_neg, abs_of_pos sR]; have := uR i hi j hj; rwa [e2 i hi] at this)
      (fun i hi t ht => by
        obtain ⟨t1, t2, t3⟩ := near' hi sR.le ht
        have hr := (rR (i := nx - 1 - i) (by omega)).1
        rw [e2 i hi] at hr
        have ht : t ∈ Icc d.Rmin d.Rmax := ⟨hr.trans t2, t1⟩
        exact ⟨dR t ht _ (rZ hj), (mod t ht _ rb _ (rZ hj) _ (rZ hj) t3 (zz sZ.le)).1⟩)
    rw [abs_neg, abs_of_pos sR] at this
    have := fin sR this
    rwa [neg_mul, neg_div, neg_neg, mul_div_cancel_left₀ _ sR.ne'] at this
  have sideD : ∀ i < nx, |hagenowSum (fun j => u (i, j)) / stepZ d ny - -UZ (gridR d nx i) d.Zmin| ≤ B := by
    intro i hi
    have := side (v := fun j => u (i, j)) (f := U (gridR d nx i)) (f' := UZ (gridR d nx i)) (x := d.Zmin) (h := stepZ d ny)
      (τ := T * W) (η := η) (fun j hj => by rw [abs_of_pos sZ]; exact uD i hi j hj) (fun j hj t ht => by
        obtain ⟨t1, t2, t3⟩ := near hj sZ.le ht
        have hr := (rZ (j := j) (by omega)).2
        rw [e3] at hr
        have ht : t ∈ Icc d.Zmin d.Zmax := ⟨t1, t2.trans hr⟩
        exact ⟨dZ _ (rR hi) t ht, (mod _ (rR hi) _ (rR hi) t ht _ rc (zz sR.le) t3).2⟩)
    rw [abs_of_pos sZ] at this
    have := fin sZ this
    rwa [mul_div_cancel_left₀ _ sZ.ne'] at this
  have sideU : ∀ i < nx, |hagenowSum (fun j => u (i, ny - 1 - j)) / stepZ d ny - UZ (gridR d nx i) d.Zmax| ≤ B := by
    intro i hi
    have := side (v := fun j => u (i, ny - 1 - j)) (f := U (gridR d nx i)) (f' := UZ (gridR d nx i)) (x := d.Zmax) (h := -stepZ d ny)
      (τ := T * W) (η := η) (fun j hj => by rw [abs_neg, abs_of_pos sZ]; have := uU i hi j hj; rwa [e4 j hj] at this) (fun j hj t ht => by
        obtain ⟨t1, t2, t3⟩ := near' hj sZ.le ht
        have hr := (rZ (j := ny - 1 - j) (by omega)).1
        rw [e4 j hj] at hr
        have ht : t ∈ Icc d.Zmin d.Zmax := ⟨hr.trans t2, t1⟩
        exact ⟨dZ _ (rR hi) t ht, (mod _ (rR hi) _ (rR hi) t ht _ re (zz sR.le) t3).2⟩)
    rw [abs_neg, abs_of_pos sZ] at this
    have := fin sZ this
    rwa [neg_mul, neg_div, neg_neg, mul_div_cancel_left₀ _ sZ.ne'] at this
  -- corners
  have dd0 : 0 < dd := sR.trans_le hdd
  have gZa : ∀ Z ∈ Icc d.Zmin d.Zmax, UZ d.Rmin Z = 0 := fun Z h => zero_deriv hZ h (dZ _ ra Z h) fun t ht => zero _ ra t ht (Or.inl rfl)
  have gZb : ∀ Z ∈ Icc d.Zmin d.Zmax, UZ d.Rmax Z = 0 := fun Z h => zero_deriv hZ h (dZ _ rb Z h) fun t ht => zero _ rb t ht (Or.inr (Or.inl rfl))
  have gRc : ∀ R ∈ Icc d.Rmin d.Rmax, UR R d.Zmin = 0 := fun R h =>
    zero_deriv hR h (dR R h _ rc) fun t ht => zero t ht _ rc (Or.inr (Or.inr (Or.inl rfl)))
  have gRe : ∀ R ∈ Icc d.Rmin d.Rmax, UR R d.Zmax = 0 := fun R h =>
    zero_deriv hR h (dR R h _ re) fun t ht => zero t ht _ re (Or.inr (Or.inr (Or.inr rfl)))
  have corner : ∀ v : ℕ → ℝ, (∀ i < 5, |v i| ≤ i * (stepR d nx * (T * W)) + i * (stepZ d ny * η)) → |hagenowSum v / dd| ≤ B := by
    intro v hv
    have hη : 0 ≤ η := (abs_nonneg _).trans (mod _ ra _ ra _ rc _ rc (zz sR.le) (zz sZ.le)).1
    have hW0 : 0 ≤ W := by rw [hW]; linarith
    rw [abs_div, abs_of_pos dd0, div_le_iff₀ dd0]
    have := hagenowSum_bound v (dd * (T * W + η)) fun i hi => (hv i hi).trans (by
      have h1 := mul_le_mul_of_nonneg_right hdd (mul_nonneg hT hW0)
      have h2 := mul_le_mul_of_nonneg_right hdd' hη
      have := mul_le_mul_of_nonneg_left (add_le_add h1 h2) (i0 i)
      linarith)
    simp only [B]
    linarith
  have row : ∀ {R : ℝ}, R ∈ Icc d.Rmin d.Rmax → |R - d.Rmin| ≤ 4 * stepR d nx ∨ |R - d.Rmax| ≤ 4 * stepR d nx →
      ∀ i < 5, |U R (gridZ d ny i)| ≤ i * (stepZ d ny * η) ∧ |U R (gridZ d ny (ny - 1 - i))| ≤ i * (stepZ d ny * η) := by
    intro R hRR hn i hi
    have small : ∀ Z ∈ Icc d.Zmin d.Zmax, |UZ R Z - 0| ≤ η := by
      intro Z hz
      rcases hn with hn | hn
      · rw [← gZa Z hz]; exact (mod R hRR _ ra Z hz Z hz hn (zz sZ.le)).2
      · rw [← gZb Z hz]; exact (mod R hRR _ rb Z hz Z hz hn (zz sZ.le)).2
    have step : ∀ {x y : ℝ}, x ∈ Icc d.Zmin d.Zmax → y ∈ Icc d.Zmin d.Zmax → U R x = 0 → |U R y| ≤ η * |y - x| := by
      intro x y hx hy h0
      have hsub : uIcc x y ⊆ Icc d.Zmin d.Zmax := ordConnected_Icc.uIcc_subset hx hy
      have := tangent (f := U R) (f' := UZ R) (x := x) (y := y) (s := 0) (η := η) (fun t ht => dZ R hRR t (hsub ht)) (fun t ht => small t (hsub ht))
      rwa [h0, mul_zero, sub_zero, sub_zero] at this
    have p := mul_nonneg (i0 i) sZ.le
    constructor
    · have := step rc (rZ (j := i) (by omega)) (zero R hRR _ rc (Or.inr (Or.inr (Or.inl rfl))))
      rw [e3, add_sub_cancel_left, abs_of_nonneg p] at this
      rw [e3]
      linarith
    · have := step re (rZ (j := ny - 1 - i) (by omega)) (zero R hRR _ re (Or.inr (Or.inr (Or.inr rfl))))
      have ee : |gridZ d ny (ny - 1 - i) - d.Zmax| = i * stepZ d ny := by
        rw [e4 i hi, add_sub_cancel_left, mul_neg, abs_neg, abs_of_nonneg p]
      rw [ee] at this
      linarith
  have tri : ∀ {p q a b : ℝ}, |p - q| ≤ a → |q| ≤ b → |p| ≤ a + b := fun {p q a b} h1 h2 => by
    have := abs_add_le (p - q) q
    rw [sub_add_cancel] at this
    linarith
  have nl : ∀ i < 5, |gridR d nx i - d.Rmin| ≤ 4 * stepR d nx := fun i hi => by
    rw [e1, add_sub_cancel_left, abs_of_nonneg (mul_nonneg (i0 i) sR.le)]
    exact mul_le_mul_of_nonneg_right (i4 i hi) sR.le
  have nr : ∀ i < 5, |gridR d nx (nx - 1 - i) - d.Rmax| ≤ 4 * stepR d nx := fun i hi => by
    rw [e2 i hi, add_sub_cancel_left, mul_neg, abs_neg, abs_of_nonneg (mul_nonneg (i0 i) sR.le)]
    exact mul_le_mul_of_nonneg_right (i4 i hi) sR.le
  have cLD := corner (fun i => u (i, i)) fun i hi => tri (uL i hi i (by omega)) (row (rR (by omega)) (Or.inl (nl i hi)) i hi).1
  have cLU := corner (fun i => u (i, ny - 1 - i)) fun i hi => tri (uL i hi (ny - 1 - i) (by omega)) (row (rR (by omega)) (Or.inl (nl i hi)) i hi).2
  have cRD := corner (fun i => u (nx - 1 - i, i)) fun i hi => tri (uR i hi i (by omega)) (row (rR (by omega)) (Or.inr (nr i hi)) i hi).1
  have cRU := corner (fun i => u (nx - 1 - i, ny - 1 - i)) fun i hi =>
    tri (uR i hi (ny - 1 - i) (by omega)) (row (rR (by omega)) (Or.inr (nr i hi)) i hi).2
  have g0 : gridZ d ny 0 = d.Zmin := by rw [e3]; simp
  have g1 : gridZ d ny (ny - 1) = d.Zmax := gridZ_last d (by omega)
  have k0 : gridR d nx 0 = d.Rmin := by rw [e1]; simp
  have k1 : gridR d nx (nx - 1) = d.Rmax := gridR_last d (by omega)
  refine ⟨fun j hj => ?_, fun i hi => ?_⟩
  · simp only [n, hagenowNormal, Function.update_apply]
    split_ifs with h1 h2
    · rw [h1, g1, gRe _ ra, gRe _ rb, neg_zero, sub_zero, sub_zero]; exact ⟨cLU, cRU⟩
    · rw [h2, g0, gRc _ ra, gRc _ rb, neg_zero, sub_zero, sub_zero]; exact ⟨cLD, cRD⟩
    · exact ⟨sideL j hj, sideR j hj⟩
  · simp only [n, hagenowNormal, Function.update_apply]
    split_ifs with h1 h2
    · rw [h1, k1, gZb _ rc, gZb _ re, neg_zero, sub_zero, sub_zero]; exact ⟨cRD, cRU⟩
    · rw [h2, k0, gZa _ rc, gZa _ re, neg_zero, sub_zero, sub_zero]; exact ⟨cLD, cLU⟩
    · exact ⟨sideD i hi, sideU i hi⟩

end FreeGS.GS
