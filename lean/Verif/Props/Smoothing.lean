import Verif.Props.Multigrid
import Verif.Props.GradShafranov
import Mathlib.Algebra.Order.Archimedean.Basic

/-!
# Jacobi smoothing: convergence (C73), operator form (C41, C43), Laplacian (C74)
-/

set_option linter.unusedSectionVars false

namespace FreeGS.MG

open FreeGS.GS
open FreeGS.Critical (Domain)

variable {K : Type*} [Field K] [LinearOrder K] [IsStrictOrderedRing K]

/-! ## C73 -/

theorem gsSparse_diag (d : Domain K) {nx ny x y : ℕ} (hx : x < nx) (hy : y < ny) :
    gsSparse d nx ny (x * ny + y) (x * ny + y) =
      if isInterior nx ny (x, y) then -2 * (1 / spacingR d nx ^ 2 + 1 / spacingZ d ny ^ 2) else 1 := by
  simp only [gsSparse, row_div hy, row_mod hy]
  by_cases hi : isInterior nx ny (x, y) = true
  · simp only [hi, if_true]
    obtain ⟨h1, h2, h3, h4⟩ := isInterior_iff.mp hi
    simp only at h1 h2 h3 h4
    rw [gsRow, Function.update_of_ne (by omega), Function.update_of_ne (by omega), Function.update_self]
  · simp only [hi, if_false, Bool.false_eq_true, eyeRow, if_true]

/-- The Grad-Shafranov matrices have no zero on the diagonal. -/
theorem gs_generates (d : Domain K) (hR : d.Rmin < d.Rmax) (hZ : d.Zmin < d.Zmax) : Generates (gsGen d) := by
  intro nx ny A h
  rw [gsGen] at h
  split_ifs at h with h1
  cases h
  refine ⟨rfl, fun i hi => ?_⟩
  obtain ⟨x, y, hx, hy, rfl⟩ := exists_row hi
  simp only
  rw [gsSparse_diag d hx hy]
  split_ifs
  · have a : 0 < spacingR d nx := spacing_pos hR (by omega)
    have b : 0 < spacingZ d ny := spacing_pos hZ (by omega)
    have : 0 < 1 / spacingR d nx ^ 2 + 1 / spacingZ d ny ^ 2 := by positivity
    intro hc
    linarith
  · exact one_ne_zero

/-- The factor by which a Jacobi step reduces the error, in a weighted norm. -/
def rate (d : Domain K) (nx ny : ℕ) : K :=
  1 - stepR d nx ^ 2 / ((stepR d nx ^ 2 + stepZ d ny ^ 2) * ((ny : K) ^ 2 + 1))

theorem rate_bounds (d : Domain K) {nx ny : ℕ} (hnx : 2 ≤ nx) (hny : 2 ≤ ny) (hR : d.Rmin < d.Rmax) (hZ : d.Zmin < d.Zmax) :
    0 ≤ rate d nx ny ∧ rate d nx ny < 1 := by
  have a : 0 < stepR d nx := spacing_pos hR hnx
  have b : 0 < stepZ d ny := spacing_pos hZ hny
  have h1 : 0 < stepR d nx ^ 2 / ((stepR d nx ^ 2 + stepZ d ny ^ 2) * ((ny : K) ^ 2 + 1)) := by positivity
  have h2 : stepR d nx ^ 2 / ((stepR d nx ^ 2 + stepZ d ny ^ 2) * ((ny : K) ^ 2 + 1)) ≤ 1 := by
    rw [div_le_one (by positivity)]
    nlinarith [sq_nonneg (stepZ d ny), mul_nonneg (add_nonneg (sq_nonneg (stepR d nx)) (sq_nonneg (stepZ d ny))) (sq_nonneg (ny : K))]
  rw [rate]
  constructor <;> linarith

/-- The weights of the norm in which Jacobi steps contract. -/
def weight (ny y : ℕ) : K := (ny : K) ^ 2 + 1 - (y : K) ^ 2

theorem weight_bounds {ny y : ℕ} (h : y < ny) : (1 : K) ≤ weight ny y ∧ (weight ny y : K) ≤ (ny : K) ^ 2 + 1 := by
  have : (y : K) ≤ ny := by exact_mod_cast h.le
  have h0 : (0 : K) ≤ y := Nat.cast_nonneg y
  rw [weight]
  constructor <;> nlinarith

theorem assemble {iZ iR t M w y r : K} (h : M * (r * w * (iR + iZ)) ≤ M * iZ) :
    iZ * (M * (w + 2 * y - 1)) + (iR + t) * (M * w) + (iR - t) * (M * w) + iZ * (M * (w - 2 * y - 1)) ≤
      (1 - r) * M * w * (2 * (iR + iZ)) := by
  have : (1 - r) * M * w * (2 * (iR + iZ)) - (iZ * (M * (w + 2 * y - 1)) + (iR + t) * (M * w) + (iR - t) * (M * w) + iZ * (M * (w - 2 * y - 1))) =
      2 * (M * iZ - M * (r * w * (iR + iZ))) := by ring
  linarith

theorem jacobi_error (d : Domain K) {nx ny : ℕ} (hnx : 2 ≤ nx) (hny : 2 ≤ ny) (h0 : 0 ≤ d.Rmin) (hR : d.Rmin < d.Rmax)
    (hZ : d.Zmin < d.Zmax) {b xs u : ℕ → K} (hsol : ∀ i < nx * ny, matVec (nx * ny) (gsSparse d nx ny) xs i = b i) {M : K}
    (hM : ∀ x y, x < nx → y < ny → |u (x * ny + y) - xs (x * ny + y)| ≤ M * weight ny y) :
    ∀ x y, x < nx → y < ny → |u (x * ny + y) + (b (x * ny + y) - matVec (nx * ny) (gsSparse d nx ny) u (x * ny + y)) /
      gsSparse d nx ny (x * ny + y) (x * ny + y) - xs (x * ny + y)| ≤ rate d nx ny * M * weight ny y := by
  intro x y hx hy
  have hny0 : 0 < ny := by omega
  obtain ⟨q0, q1⟩ := rate_bounds d hnx hny hR hZ
  obtain ⟨w0, wt⟩ := weight_bounds (K := K) hy
  have hM0 : 0 ≤ M := by
    have := le_trans (abs_nonneg _) (hM x y hx hy)
    by_contra hc
    nlinarith
  -- the error as an array
  set e : Arr K := unflat ny fun i => u i - xs i with he
  have hev : ∀ p q, e (p, q) = u (p * ny + q) - xs (p * ny + q) := fun p q => rfl
  have hflat : ∀ i, GS.flat ny e i = u i - xs i := fun i => flat_unflat _ i hny0
  have hmv : matVec (nx * ny) (gsSparse d nx ny) u (x * ny + y) = b (x * ny + y) +
      matVec (nx * ny) (gsSparse d nx ny) (GS.flat ny e) (x * ny + y) := by
    rw [matVec_congr (u := GS.flat ny e) (v := fun i => u i - xs i) (fun i _ => hflat i), matVec_sub, hsol _ (row_lt hx hy)]
    ring
  rw [hmv, gsSparse_apply d nx ny e hx hy, gsSparse_diag d hx hy]
  by_cases hi : isInterior nx ny (x, y) = true
  · simp only [hi, if_true, elliptic]
    obtain ⟨h1, h2, h3, h4⟩ := isInterior_iff.mp hi
    simp only at h1 h2 h3 h4
    have a : 0 < spacingR d nx := spacing_pos hR hnx
    have c : 0 < spacingZ d ny := spacing_pos hZ hny
    set R := d.Rmin + spacingR d nx * (x : K) with hRdef
    have hx1 : (1 : K) ≤ x := by exact_mod_cast h1
    have hRge : spacingR d nx ≤ R := by rw [hRdef]; nlinarith
    set iR := 1 / spacingR d nx ^ 2 with hiR
    set iZ := 1 / spacingZ d ny ^ 2 with hiZ
    have hiR0 : 0 < iR := by positivity
    have hiZ0 : 0 < iZ := by positivity
    set t := 1 / (2 * R * spacingR d nx) with ht
    have hR0 : 0 < R := lt_of_lt_of_le a hRge
    have ht0 : 0 < t := by positivity
    have htR : t ≤ iR := by
      rw [ht, hiR]
      refine one_div_le_one_div_of_le (by positivity) ?_
      nlinarith
    have eu := hM x (y + 1) hx h4
    have ed := hM x (y - 1) hx (by omega)
    have el := hM (x - 1) y (by omega) hy
    have er := hM (x + 1) y h2 hy
    rw [← hev] at eu ed el er
    have wu : (weight ny (y + 1) : K) = weight ny y - 2 * y - 1 := by simp only [weight]; push_cast; ring
    have wd : (weight ny (y - 1) : K) = weight ny y + 2 * y - 1 := by
      simp only [weight]; rw [Nat.cast_sub h3]; push_cast; ring
    rw [wu] at eu
    rw [wd] at ed
    have hS : 0 < iR + iZ := by positivity
    have key : u (x * ny + y) + (b (x * ny + y) - (b (x * ny + y) + (e (x, y - 1) * iZ + (iR + t) * e (x - 1, y) - 2 * (iR + iZ) * e (x, y) +
        (iR - t) * e (x + 1, y) + e (x, y + 1) * iZ))) / (-2 * (iR + iZ)) - xs (x * ny + y) =
        (iZ * e (x, y - 1) + (iR + t) * e (x - 1, y) + (iR - t) * e (x + 1, y) + iZ * e (x, y + 1)) / (2 * (iR + iZ)) := by
      rw [hev x y]
      field_simp
      ring
    rw [key, abs_div, abs_of_pos (show 0 < 2 * (iR + iZ) by positivity), div_le_iff₀ (by positivity)]
    have tri : |iZ * e (x, y - 1) + (iR + t) * e (x - 1, y) + (iR - t) * e (x + 1, y) + iZ * e (x, y + 1)| ≤
        iZ * |e (x, y - 1)| + (iR + t) * |e (x - 1, y)| + (iR - t) * |e (x + 1, y)| + iZ * |e (x, y + 1)| := by
      refine le_trans (abs_add_le _ _) (add_le_add (le_trans (abs_add_le _ _) (add_le_add (le_trans (abs_add_le _ _) (add_le_add ?_ ?_)) ?_)) ?_)
      · rw [abs_mul, abs_of_pos hiZ0]
      · rw [abs_mul, abs_of_pos (by positivity)]
      · rw [abs_mul, abs_of_nonneg (sub_nonneg.mpr htR)]
      · rw [abs_mul, abs_of_pos hiZ0]
    refine le_trans tri ?_
    have b1 := mul_le_mul_of_nonneg_left ed hiZ0.le
    have b2 := mul_le_mul_of_nonneg_left el (show 0 ≤ iR + t by positivity)
    have b3 := mul_le_mul_of_nonneg_left er (sub_nonneg.mpr htR)
    have b4 := mul_le_mul_of_nonneg_left eu hiZ0.le
    refine le_trans (add_le_add (add_le_add (add_le_add b1 b2) b3) b4) ?_
    have hrate : rate d nx ny = 1 - iZ / ((iR + iZ) * ((ny : K) ^ 2 + 1)) := by
      rw [rate, show stepR d nx = spacingR d nx from rfl, show stepZ d ny = spacingZ d ny from rfl, hiR, hiZ]
      have : ((ny : K) ^ 2 + 1) ≠ 0 := by positivity
      have a' := a.ne'
      have c' := c.ne'
      congr 1
      rw [div_eq_div_iff (by positivity) (by positivity)]
      field_simp
      ring
    rw [hrate]
    have hq : iZ / ((iR + iZ) * ((ny : K) ^ 2 + 1)) * weight ny y * (iR + iZ) ≤ iZ := by
      have hn : (0 : K) < (ny : K) ^ 2 + 1 := by positivity
      have : iZ / ((iR + iZ) * ((ny : K) ^ 2 + 1)) * weight ny y * (iR + iZ) = iZ * (weight ny y / ((ny : K) ^ 2 + 1)) := by
        field_simp
      rw [this]
      calc iZ * (weight ny y / ((ny : K) ^ 2 + 1)) ≤ iZ * 1 := mul_le_mul_of_nonneg_left ((div_le_one hn).mpr wt) hiZ0.le
        _ = iZ := mul_one _
    have hmul := mul_le_mul_of_nonneg_left hq hM0
    generalize iZ / ((iR + iZ) * ((ny : K) ^ 2 + 1)) = r at hmul ⊢
    exact assemble hmul
  · simp only [hi, if_false, Bool.false_eq_true]
    rw [hev, show u (x * ny + y) + (b (x * ny + y) - (b (x * ny + y) + (u (x * ny + y) - xs (x * ny + y)))) / 1 - xs (x * ny + y) = 0 by ring,
      abs_zero]
    exact mul_nonneg (mul_nonneg q0 hM0) (le_trans zero_le_one w0)

/-- **C73.** Jacobi steps alone (`setSolverVcycle(nlevels=1, direct=False)`) converge to the solution of the Grad-Shafranov matrix equation
from every starting guess: an error of at most `M` anywhere is reduced to `(ny² + 1) q^n M` after `n = 2 · ncycle · niter` steps, with
a `q < 1` that depends on the grid only. -/
theorem C73_jacobi_converges (d : Domain K) {nx ny : ℕ} (hnx : 2 ≤ nx) (hny : 2 ≤ ny) (h0 : 0 ≤ d.Rmin) (hR : d.Rmin < d.Rmax)
    (hZ : d.Zmin < d.Zmax) (factor : Mat K → Except Err ((ℕ → K) → ℕ → K)) (ncycle niter : ℕ) (x b xs : Grid K) (hx : Shape x nx ny)
    (hb : Shape b nx ny) (hxs : Shape xs nx ny) (hsol : Solves nx ny (gsSparse d nx ny) xs.val b.val) (M : K)
    (hM : ∀ c, OnGrid nx ny c → |x.val c - xs.val c| ≤ M) :
    0 ≤ rate d nx ny ∧ rate d nx ny < 1 ∧
    ∃ s y, setSolverVcycle d factor nx ny 1 ncycle niter false = .ok s ∧ run s x b = .ok y ∧ Shape y nx ny ∧
      ∀ c, OnGrid nx ny c → |y.val c - xs.val c| ≤ ((ny : K) ^ 2 + 1) * rate d nx ny ^ (2 * ncycle * niter) * M := by
  obtain ⟨q0, q1⟩ := rate_bounds d hnx hny hR hZ
  refine ⟨q0, q1, .smooth ⟨nx * ny, gsSparse d nx ny⟩ ncycle niter, ?_⟩
  have hA : gsGen d nx ny = .ok ⟨nx * ny, gsSparse d nx ny⟩ := by rw [gsGen, if_neg (by omega)]
  have hd := (gs_generates d hR hZ nx ny _ hA).2
  have hM0 : 0 ≤ M := le_trans (abs_nonneg _) (hM (0, 0) ⟨by simp only; omega, by simp only; omega⟩)
  have hs : ∀ i < nx * ny, matVec (nx * ny) (gsSparse d nx ny) xs.flat i = b.flat i := by
    intro i hi
    obtain ⟨p, q, hp, hq, rfl⟩ := exists_row hi
    rw [Grid.flat, hxs.2, Grid.flat, hb.2, flat_row hq]
    exact hsol (p, q) ⟨hp, hq⟩
  -- errors after `n` steps
  let E : ℕ → (ℕ → K) → Prop := fun n u => ∀ x y, x < nx → y < ny → |u (x * ny + y) - xs.flat (x * ny + y)| ≤ rate d nx ny ^ n * M * weight ny y
  have hstep : ∀ n u, E n u → ∃ u', jacobiStep ⟨nx * ny, gsSparse d nx ny⟩ b.flat u = .ok u' ∧ E (n + 1) u' := by
    intro n u hu
    refine ⟨_, jacobiStep_ok hd _ _, fun x y hx hy => ?_⟩
    rw [pow_succ', mul_assoc (rate d nx ny)]
    exact jacobi_error d hnx hny h0 hR hZ hs hu x y hx hy
  have hrep : ∀ m n u, E n u → ∃ u', repeatE (jacobiStep ⟨nx * ny, gsSparse d nx ny⟩ b.flat) m u = .ok u' ∧ E (n + m) u' := by
    intro m
    induction m with
    | zero => exact fun n u h => ⟨u, rfl, h⟩
    | succ m ih =>
      intro n u h
      obtain ⟨u1, e1, h1⟩ := hstep n u h
      obtain ⟨u2, e2, h2⟩ := ih (n + 1) u1 h1
      refine ⟨u2, by rw [repeatE, e1]; exact e2, ?_⟩
      rw [show n + (m + 1) = n + 1 + m by omega]
      exact h2
  have hcyc : ∀ m n u, E n u → ∃ u', repeatE (oneCycle ⟨nx * ny, gsSparse d nx ny⟩ niter b.flat fun v => .ok v) m u = .ok u' ∧
      E (n + 2 * m * niter) u' := by
    intro m
    induction m with
    | zero => exact fun n u h => ⟨u, rfl, by simpa using h⟩
    | succ m ih =>
      intro n u h
      obtain ⟨u1, e1, h1⟩ := hrep niter n u h
      obtain ⟨u2, e2, h2⟩ := hrep niter _ u1 h1
      obtain ⟨u3, e3, h3⟩ := ih _ u2 h2
      refine ⟨u3, by rw [repeatE, oneCycle, e1]; simp only [e2]; exact e3, ?_⟩
      rw [show n + 2 * (m + 1) * niter = n + niter + niter + 2 * m * niter by ring]
      exact h3
  obtain ⟨v, hv, hE⟩ := hcyc ncycle 0 x.flat (fun p q hp hq => by
    rw [pow_zero, one_mul, Grid.flat, hx.2, Grid.flat, hxs.2, flat_row hq, flat_row hq]
    refine le_trans (hM (p, q) ⟨hp, hq⟩) ?_
    have := (weight_bounds (K := K) hq).1
    nlinarith)
  refine ⟨⟨x.nx, x.ny, unflat x.ny v⟩, ?_, ?_, hx, fun c hc => ?_⟩
  · simp only [setSolverVcycle, createVcycle, hA, lowest, Bool.false_eq_true, if_false]
  · rw [run, cycles, if_pos (by rw [hx.1, hx.2, hb.1, hb.2]; exact ⟨rfl, rfl⟩), hv]
  · have := hE c.1 c.2 hc.1 hc.2
    rw [Grid.flat, hxs.2, flat_row hc.2, zero_add] at this
    simp only [unflat, hx.2]
    refine le_trans this ?_
    have w := (weight_bounds (K := K) hc.2).2
    have := mul_le_mul_of_nonneg_left w (mul_nonneg (pow_nonneg q0 (2 * ncycle * niter)) hM0)
    linarith

/-- **C73.** Hence any accuracy is reached, if the numbers have no infinitesimals: for every starting guess and every `ε > 0` all large
enough numbers of steps give an error below `ε` everywhere. -/
theorem C73_any_accuracy [Archimedean K] (d : Domain K) {nx ny : ℕ} (hnx : 2 ≤ nx) (hny : 2 ≤ ny) (h0 : 0 ≤ d.Rmin)
    (hR : d.Rmin < d.Rmax) (hZ : d.Zmin < d.Zmax) (factor : Mat K → Except Err ((ℕ → K) → ℕ → K)) (x b xs : Grid K) (hx : Shape x nx ny)
    (hb : Shape b nx ny) (hxs : Shape xs nx ny) (hsol : Solves nx ny (gsSparse d nx ny) xs.val b.val) (ε : K) (hε : 0 < ε) :
    ∃ n, ∀ ncycle niter, n ≤ 2 * ncycle * niter → ∃ s y, setSolverVcycle d factor nx ny 1 ncycle niter false = .ok s ∧
      run s x b = .ok y ∧ ∀ c, OnGrid nx ny c → |y.val c - xs.val c| < ε := by
  obtain ⟨q0, q1⟩ := rate_bounds d hnx hny hR hZ
  let S := (Finset.range nx ×ˢ Finset.range ny : Finset (ℕ × ℕ))
  let M : K := ∑ c ∈ S, |x.val c - xs.val c|
  have hM : ∀ c, OnGrid nx ny c → |x.val c - xs.val c| ≤ M := fun c hc =>
    Finset.single_le_sum (f := fun c => |x.val c - xs.val c|) (fun _ _ => abs_nonneg _)
      (Finset.mem_product.mpr ⟨Finset.mem_range.mpr hc.1, Finset.mem_range.mpr hc.2⟩)
  have hM0 : 0 ≤ M := Finset.sum_nonneg fun _ _ => abs_nonneg _
  have hn : (0 : K) < (ny : K) ^ 2 + 1 := by positivity
  have hD : 0 < ((ny : K) ^ 2 + 1) * (M + 1) := by positivity
  obtain ⟨n, hn'⟩ := exists_pow_lt_of_lt_one (div_pos hε hD) q1
  refine ⟨n, fun ncycle niter hle => ?_⟩
  obtain ⟨_, _, s, y, h1, h2, _, h3⟩ := C73_jacobi_converges d hnx hny h0 hR hZ factor ncycle niter x b xs hx hb hxs hsol M hM
  refine ⟨s, y, h1, h2, fun c hc => lt_of_le_of_lt (h3 c hc) ?_⟩
  have hp := lt_of_le_of_lt (pow_le_pow_of_le_one q0 q1.le hle) hn'
  rw [lt_div_iff₀ hD] at hp
  have hq := pow_nonneg q0 (2 * ncycle * niter)
  nlinarith [mul_nonneg hn.le hq]

/-! ## Non-vacuity: the V-cycle on the Grad-Shafranov matrices -/

open Classical in
/-- A direct solver: some solution, where there always is one. -/
noncomputable def someFactor (A : Mat K) : Except Err ((ℕ → K) → ℕ → K) :=
  if h : ∀ b : ℕ → K, ∃ x : ℕ → K, ∀ i < A.N, matVec A.N A.e x i = b i then .ok fun b => (h b).choose else .error .runtime

theorem someFactor_factors : Factors (someFactor (K := K)) := by
  intro A solve h b
  rw [someFactor] at h
  split_ifs at h with hs
  cases h
  exact (hs b).choose_spec

/-- The hypotheses of C41, C43 and C72 are met: on every grid with at least two points in each direction `setSolverVcycle` succeeds for the
Grad-Shafranov matrices with this direct solver, for any number of levels, as long as the coarsest grid has two points. Then a
solution, and there is one for every right-hand side, is left unchanged. -/
theorem vcycle_exists (d : Domain K) (h0 : 0 ≤ d.Rmin) (hR : d.Rmin < d.Rmax) (hZ : d.Zmin < d.Zmax) (niter : ℕ) (direct : Bool) :
    ∀ (nlevels nx ny ncycle : ℕ), 2 ≤ nx → 2 ≤ ny → ∃ s, createVcycle (gsGen d) someFactor niter direct nlevels nx ny ncycle = .ok s := by
  have low : ∀ nx ny ncycle, 2 ≤ nx → 2 ≤ ny → ∃ s, createVcycle (gsGen d) someFactor niter direct 1 nx ny ncycle = .ok s := by
    intro nx ny ncycle hx hy
    simp only [createVcycle, gsGen, if_neg (show ¬(nx = 1 ∨ ny = 1) by omega), lowest]
    cases direct with
    | false => exact ⟨_, rfl⟩
    | true =>
      simp only [if_true]
      rw [someFactor, dif_pos]
      · exact ⟨_, rfl⟩
      · intro b
        obtain ⟨psi, hpsi⟩ := (C35_unique_solution d nx ny hx hy h0 hR hZ (unflat ny b)).1
        refine ⟨GS.flat ny psi, fun i hi => ?_⟩
        obtain ⟨p, q, hp, hq, rfl⟩ := exists_row hi
        exact hpsi (p, q) ⟨hp, hq⟩
  intro nlevels
  induction nlevels using Nat.twoStepInduction with
  | zero => exact fun nx ny ncycle hx hy => low nx ny ncycle hx hy
  | one => exact low
  | more n _ ih =>
    intro nx ny ncycle hx hy
    simp only [createVcycle]
    by_cases ho : odd nx ny = true
    · rw [if_pos ho]
      exact low nx ny ncycle hx hy
    · rw [if_neg ho]
      obtain ⟨o1, o2⟩ := odd_false.mp (Bool.eq_false_iff.mpr ho)
      obtain ⟨s, hs⟩ := ih (half nx) (half ny) 1 (by rw [half]; omega) (by rw [half]; omega)
      rw [hs]
      simp only [gsGen, if_neg (show ¬(nx = 1 ∨ ny = 1) by omega)]
      exact ⟨_, rfl⟩

/-- A case for C41, C43, C72: four levels on a 17 × 9 grid. -/
example (b : Grid ℚ) (hb : Shape b 17 9) : ∃ s x, setSolverVcycle ⟨1, 2, -1, 1⟩ someFactor 17 9 4 2 3 true = .ok s ∧
    Shape x 17 9 ∧ Solves 17 9 (gsSparse ⟨1, 2, -1, 1⟩ 17 9) x.val b.val ∧ ∃ y, run s x b = .ok y ∧ Same y x := by
  obtain ⟨s, hs⟩ := vcycle_exists (⟨1, 2, -1, 1⟩ : Domain ℚ) (by norm_num) (by norm_num) (by norm_num) 3 true 4 17 9 2 (by norm_num) (by norm_num)
  obtain ⟨psi, hpsi⟩ := (C35_unique_solution (⟨1, 2, -1, 1⟩ : Domain ℚ) 17 9 (by norm_num) (by norm_num) (by norm_num) (by norm_num) (by norm_num)
    b.val).1
  refine ⟨s, ⟨17, 9, psi⟩, hs, ⟨rfl, rfl⟩, hpsi, ?_⟩
  exact C41_exact_solution_unchanged (gs_generates _ (by norm_num) (by norm_num)) someFactor_factors 4 17 9 2 3 true hs
    (by rw [gsGen, if_neg (by omega)]) _ b ⟨rfl, rfl⟩ hb hpsi

/-- A case for C73: a middle value on a 3 × 3 grid, error one, after four steps. The bound there is not vacuous: `q = 1 - 1/20`. -/
example : rate (⟨1, 3, 0, 2⟩ : Domain ℚ) 3 3 = 19 / 20 ∧
    Solves 3 3 (gsSparse (⟨1, 3, 0, 2⟩ : Domain ℚ) 3 3) (fun c => if c = (1, 1) then 1 else 0) (fun c => if c = (1, 1) then -4 else 0) := by
  constructor
  · decide +kernel
  · rintro ⟨x, y⟩ ⟨h1, h2⟩
    simp only at h1 h2
    interval_cases x <;> interval_cases y <;> decide +kernel

/-- **C41 (remark).** For two Jacobi steps "unchanged only if it solves the equation" fails: `MGJacobi` with `niter = 1` always makes
two, and with the matrix `[[1, 1], [1, 1]]` it returns `(1, 1)` unchanged for the right-hand side zero, although `A x = (2, 2)`. -/
theorem C41_two_steps_can_return : ∃ (A : Mat ℚ) (x b : Grid ℚ), Shape x 1 2 ∧ Shape b 1 2 ∧ A.N = 2 ∧ (∀ i < 2, A.e i i ≠ 0) ∧
    (∃ s y, createVcycle (fun _ _ => .ok A) (fun _ => .error .runtime) 1 false 1 1 2 1 = .ok s ∧ run s x b = .ok y ∧ Same y x) ∧
    ¬Solves 1 2 A.e x.val b.val := by
  refine ⟨⟨2, fun _ _ => 1⟩, ⟨1, 2, fun _ => 1⟩, zeros 1 2, ⟨rfl, rfl⟩, ⟨rfl, rfl⟩, rfl, fun _ _ => one_ne_zero,
    ⟨_, _, rfl, rfl, rfl, rfl, ?_⟩, ?_⟩
  · rintro ⟨x, y⟩ ⟨h1, h2⟩
    have h1 : x < 1 := h1
    have h2 : y < 2 := h2
    interval_cases x
    interval_cases y <;> decide +kernel
  · intro h
    have := h (0, 0) ⟨by norm_num, by norm_num⟩
    revert this
    decide +kernel

/-! ## The operator form -/

/-- The diagonal has no zeros at any spacing that the levels use. -/
def DiagOk (A : Op K) (dx dy : K) : Prop := ∀ (k : ℕ) (c : ℕ × ℕ), A.diag (dx * 2 ^ k) (dy * 2 ^ k) c ≠ 0

theorem DiagOk.next {A : Op K} {dx dy : K} (h : DiagOk A dx dy) : DiagOk A (dx * 2) (dy * 2) := by
  intro k c
  have := h (k + 1) c
  rwa [pow_succ', ← mul_assoc, ← mul_assoc] at this

theorem DiagOk.zero {A : Op K} {dx dy : K} (h : DiagOk A dx dy) (c : ℕ × ℕ) : A.diag dx dy c ≠ 0 := by
  have := h 0 c
  rwa [pow_zero, mul_one, mul_one] at this

theorem smoothJacobi_ok {A : Op K} {dx dy : K} (h : DiagOk A dx dy) {b x : Grid K} (hs : Shape b x.nx x.ny) :
    smoothJacobi A dx dy b x = .ok ⟨x.nx, x.ny, fun c => x.val c + (b.val c - A.apply dx dy x c) / A.diag dx dy c⟩ := by
  rw [smoothJacobi, if_neg (by rw [hs.1, hs.2]; simp), if_neg]
  simp only [List.any_eq_true, List.mem_range, decide_eq_true_eq, not_exists, not_and]
  exact fun i _ j _ => h.zero (i, j)

theorem smooth_shape {A : Op K} {dx dy : K} (h : DiagOk A dx dy) {b : Grid K} {nx ny : ℕ} (hb : Shape b nx ny) : ∀ (n : ℕ) (x : Grid K),
    Shape x nx ny → ∃ y, repeatE (smoothJacobi A dx dy b) n x = .ok y ∧ Shape y nx ny
  | 0, x, hx => ⟨x, rfl, hx⟩
  | n + 1, x, hx => by
    rw [repeatE, smoothJacobi_ok h ⟨hb.1.trans hx.1.symm, hb.2.trans hx.2.symm⟩]
    exact smooth_shape h hb n _ hx

/-- **C43.** `smoothVcycle` on arrays of `nx` × `ny` points returns normally exactly if the grid can be halved as often as there are
sublevels; then the result has the same shape. Otherwise it raises: `restrict` gives back the array undivided, `interpolate`
doubles it, and the sum has operands of different shapes. -/
theorem C43_smoothVcycle_sizes (A : Op K) (niter : ℕ) : ∀ (sublevels : ℕ) (dx dy : K), DiagOk A dx dy → ∀ (nx ny : ℕ), 1 ≤ nx → 1 ≤ ny →
    ∀ x b : Grid K, Shape x nx ny → Shape b nx ny →
    if 2 ^ sublevels ∣ nx - 1 ∧ 2 ^ sublevels ∣ ny - 1 then
      ∃ y, smoothVcycle A niter sublevels dx dy x b = .ok y ∧ Shape y nx ny
    else ∃ err, smoothVcycle A niter sublevels dx dy x b = .error err := by
  intro sublevels
  induction sublevels with
  | zero =>
    intro dx dy h nx ny _ _ x b hx hb
    rw [if_pos (by simp)]
    obtain ⟨y, e1, h1⟩ := smooth_shape h hb niter x hx
    obtain ⟨z, e2, h2⟩ := smooth_shape h hb niter y h1
    exact ⟨z, by rw [smoothVcycle, e1]; exact e2, h2⟩
  | succ n ih =>
    intro dx dy h nx ny hnx hny x b hx hb
    obtain ⟨y, e1, h1⟩ := smooth_shape h hb niter x hx
    have hrun : smoothVcycle A niter (n + 1) dx dy x b =
        (let cerror := restrict ⟨y.nx, y.ny, fun c => b.val c - A.apply dx dy y c⟩
        match smoothVcycle A niter n (dx * 2) (dy * 2) (zeros cerror.nx cerror.ny) cerror with
        | .error err => .error err
        | .ok cx =>
          let xupdate := interpolate cx
          if xupdate.nx = y.nx ∧ xupdate.ny = y.ny then
            repeatE (smoothJacobi A dx dy b) niter ⟨y.nx, y.ny, fun c => y.val c + xupdate.val c⟩
          else .error .value) := by
      rw [smoothVcycle, e1]
      simp only
      rw [if_neg (by rw [h1.1, h1.2, hb.1, hb.2]; simp)]
      generalize smoothVcycle A niter n _ _ _ _ = k
      cases k <;> rfl
    rw [hrun]
    simp only [h1.1, h1.2]
    by_cases ho : odd nx ny = true
    · have hr : restrict ⟨nx, ny, fun c => b.val c - A.apply dx dy y c⟩ = ⟨nx, ny, fun c => b.val c - A.apply dx dy y c⟩ := by
        rw [restrict, if_pos ho]
      simp only [odd, decide_eq_true_eq] at ho
      rw [if_neg, hr]
      · have := ih (dx * 2) (dy * 2) h.next nx ny hnx hny (zeros nx ny) ⟨nx, ny, fun c => b.val c - A.apply dx dy y c⟩ ⟨rfl, rfl⟩ ⟨rfl, rfl⟩
        split_ifs at this
        · obtain ⟨z, e2, h2⟩ := this
          rw [e2]
          refine ⟨.value, ?_⟩
          simp only
          rw [if_neg]
          simp only [interpolate, h2.1, h2.2]
          omega
        · obtain ⟨err, e2⟩ := this
          rw [e2]
          exact ⟨err, rfl⟩
      · rintro ⟨d1, d2⟩
        rw [pow_succ] at d1 d2
        have := dvd_trans (Dvd.intro_left _ rfl) d1
        have := dvd_trans (Dvd.intro_left _ rfl) d2
        omega
    · obtain ⟨o1, o2⟩ := odd_false.mp (Bool.eq_false_iff.mpr ho)
      have r := restrict_shape (g := ⟨nx, ny, fun c => b.val c - A.apply dx dy y c⟩) o1 o2
      simp only at r
      have := ih (dx * 2) (dy * 2) h.next (half nx) (half ny) (by rw [half]; omega) (by rw [half]; omega) (zeros (half nx) (half ny)) _
        ⟨rfl, rfl⟩ r
      have key : ∀ m : ℕ, m % 2 = 1 → (2 ^ n ∣ half m - 1 ↔ 2 ^ (n + 1) ∣ m - 1) := by
        intro m hm
        have e : m - 1 = 2 * (half m - 1) := by rw [half]; omega
        rw [e, pow_succ', Nat.mul_dvd_mul_iff_left (by omega)]
      simp only [key nx o1, key ny o2] at this
      rw [r.1, r.2]
      split_ifs at this ⊢
      · obtain ⟨z, e2, h2⟩ := this
        rw [e2]
        simp only
        have s1 : (interpolate z).nx = nx := by simp only [interpolate]; rw [h2.1, half_twice o1]
        have s2 : (interpolate z).ny = ny := by simp only [interpolate]; rw [h2.2, half_twice o2]
        rw [if_pos ⟨s1, s2⟩]
        exact smooth_shape h hb niter _ ⟨rfl, rfl⟩
      · obtain ⟨err, e2⟩ := this
        rw [e2]
        exact ⟨err, rfl⟩

/-- The operator uses the values of the array only, and maps zero to zero. -/
structure OpOk (A : Op K) : Prop where
  congr : ∀ dx dy g h, Same g h → ∀ c, OnGrid g.nx g.ny c → A.apply dx dy g c = A.apply dx dy h c
  zero : ∀ dx dy nx ny c, A.apply dx dy (zeros nx ny) c = 0

theorem smooth_fixed {A : Op K} (hA : OpOk A) {dx dy : K} (h : DiagOk A dx dy) {b x : Grid K} (hb : Shape b x.nx x.ny)
    (hsol : ∀ c, OnGrid x.nx x.ny c → A.apply dx dy x c = b.val c) : ∀ (n : ℕ) (u : Grid K),
    Same u x → ∃ y, repeatE (smoothJacobi A dx dy b) n u = .ok y ∧ Same y x
  | 0, u, hu => ⟨u, rfl, hu⟩
  | n + 1, u, hu => by
    rw [repeatE, smoothJacobi_ok h ⟨hb.1.trans hu.1.symm, hb.2.trans hu.2.1.symm⟩]
    refine smooth_fixed hA h hb hsol n _ ⟨hu.1, hu.2.1, fun c hc => ?_⟩
    have hc' : OnGrid u.nx u.ny c := hc
    have hc'' : OnGrid x.nx x.ny c := by rw [← hu.1, ← hu.2.1]; exact hc'
    simp only
    rw [hA.congr dx dy u x hu c hc', hsol c hc'', sub_self, zero_div, add_zero, hu.2.2 c hc']

/-- **C41.** `smoothVcycle` and `smoothMG` return their starting guess unchanged if it solves the equation. -/
theorem C41_smoothVcycle_unchanged (A : Op K) (hA : OpOk A) (niter : ℕ) : ∀ (sublevels : ℕ) (dx dy : K), DiagOk A dx dy →
    ∀ x b : Grid K, 1 ≤ x.nx → 1 ≤ x.ny → 2 ^ sublevels ∣ x.nx - 1 → 2 ^ sublevels ∣ x.ny - 1 → Shape b x.nx x.ny →
    (∀ c, OnGrid x.nx x.ny c → A.apply dx dy x c = b.val c) →
    (∃ y, smoothVcycle A niter sublevels dx dy x b = .ok y ∧ Same y x) ∧
      ∀ ncycle, ∃ y, smoothMG A niter sublevels ncycle dx dy x b = .ok y ∧ Same y x := by
  have one : ∀ (sublevels : ℕ) (dx dy : K), DiagOk A dx dy →
    ∀ x b : Grid K, 1 ≤ x.nx → 1 ≤ x.ny → 2 ^ sublevels ∣ x.nx - 1 → 2 ^ sublevels ∣ x.ny - 1 → Shape b x.nx x.ny →
    (∀ c, OnGrid x.nx x.ny c → A.apply dx dy x c = b.val c) →
    ∀ u, Same u x → ∃ y, smoothVcycle A niter sublevels dx dy u b = .ok y ∧ Same y x := by
    intro sublevels
    induction sublevels with
    | zero =>
      intro dx dy h x b _ _ _ _ hb hsol u hu
      obtain ⟨y, e1, h1⟩ := smooth_fixed hA h hb hsol niter u hu
      obtain ⟨z, e2, h2⟩ := smooth_fixed hA h hb hsol niter y h1
      exact ⟨z, by rw [smoothVcycle, e1]; exact e2, h2⟩
    | succ n ih =>
      intro dx dy h x b hx hy d1 d2 hb hsol u hu
      obtain ⟨y, e1, h1⟩ := smooth_fixed hA h hb hsol niter u hu
      rw [smoothVcycle, e1]
      simp only
      rw [if_neg (by rw [h1.1, h1.2.1, hb.1, hb.2]; simp)]
      have o1 : x.nx % 2 = 1 := by
        rw [pow_succ] at d1
        have := dvd_trans (Dvd.intro_left _ rfl) d1
        omega
      have o2 : x.ny % 2 = 1 := by
        rw [pow_succ] at d2
        have := dvd_trans (Dvd.intro_left _ rfl) d2
        omega
      set g : Grid K := ⟨y.nx, y.ny, fun c => b.val c - A.apply dx dy y c⟩ with hg
      have g1 : g.nx = x.nx := h1.1
      have g2 : g.ny = x.ny := h1.2.1
      have r := restrict_shape (g := g) (by rw [g1]; exact o1) (by rw [g2]; exact o2)
      rw [g1, g2] at r
      have hz : ∀ c, (restrict g).val c = 0 := by
        intro c
        rw [restrict_val (by rw [g1]; exact o1) (by rw [g2]; exact o2)]
        by_cases hi : isInterior (half g.nx) (half g.ny) c = true
        · simp only [hi, if_true, Bool.false_eq_true, if_false]
          rw [isInterior, decide_eq_true_eq] at hi
          simp only [half] at hi
          have hc : OnGrid g.nx g.ny (2 * c.1, 2 * c.2) := ⟨by simp only; omega, by simp only; omega⟩
          have hc' : OnGrid x.nx x.ny (2 * c.1, 2 * c.2) := by rw [← g1, ← g2]; exact hc
          simp only [hg]
          rw [hA.congr dx dy y x h1 _ hc, hsol _ hc', sub_self]
        · simp [hi]
      have key : ∀ m : ℕ, m % 2 = 1 → (2 ^ n ∣ half m - 1 ↔ 2 ^ (n + 1) ∣ m - 1) := by
        intro m hm
        have e : m - 1 = 2 * (half m - 1) := by rw [half]; omega
        rw [e, pow_succ', Nat.mul_dvd_mul_iff_left (by omega)]
      obtain ⟨z, e2, h2⟩ := ih (dx * 2) (dy * 2) h.next (zeros (half x.nx) (half x.ny)) (restrict g) (by simp only [zeros, half]; omega)
        (by simp only [zeros, half]; omega) ((key _ o1).mpr d1) ((key _ o2).mpr d2) r (fun c _ => by rw [hA.zero, hz])
        (zeros (half x.nx) (half x.ny)) ⟨rfl, rfl, fun _ _ => rfl⟩
      rw [r.1, r.2, e2]
      simp only
      have s1 : (interpolate z).nx = y.nx := by simp only [interpolate]; rw [h2.1, h1.1]; exact half_twice o1
      have s2 : (interpolate z).ny = y.ny := by simp only [interpolate]; rw [h2.2.1, h1.2.1]; exact half_twice o2
      rw [if_pos ⟨s1, s2⟩]
      refine smooth_fixed hA h hb hsol niter _ ⟨h1.1, h1.2.1, fun c hc => ?_⟩
      simp only
      rw [h1.2.2 c hc, interpolate_val, List.sum_eq_zero, add_zero]
      intro v hv
      obtain ⟨p, hp, rfl⟩ := List.mem_map.mp hv
      have := mem_interior.mp hp
      simp only [isInterior, decide_eq_true_eq] at this
      rw [h2.2.2 p ⟨by omega, by omega⟩]
      simp [zeros]
  intro sublevels dx dy h x b hx hy d1 d2 hb hsol
  have H := one sublevels dx dy h x b hx hy d1 d2 hb hsol
  refine ⟨H x ⟨rfl, rfl, fun _ _ => rfl⟩, fun ncycle => ?_⟩
  have : ∀ (n : ℕ) (u : Grid K), Same u x → ∃ y, repeatE (fun x => smoothVcycle A niter sublevels dx dy x b) n u = .ok y ∧ Same y x := by
    intro n
    induction n with
    | zero => exact fun u hu => ⟨u, rfl, hu⟩
    | succ n ih =>
      intro u hu
      obtain ⟨y, e1, h1⟩ := H u hu
      obtain ⟨z, e2, h2⟩ := ih y h1
      exact ⟨z, by rw [repeatE, e1]; exact e2, h2⟩
  exact this ncycle x ⟨rfl, rfl, fun _ _ => rfl⟩

/-- The hypotheses on the operator hold for `LaplacianOp`. -/
theorem laplacian_ok (dx dy : K) (hx : dx ≠ 0) (hy : dy ≠ 0) : OpOk (laplacianOp (K := K)) ∧ DiagOk (laplacianOp (K := K)) dx dy := by
  refine ⟨⟨?_, ?_⟩, ?_⟩
  · intro dx dy g h hs c hc
    simp only [laplacianOp, hs.1, hs.2.1]
    by_cases hi : isInterior h.nx h.ny c = true
    · simp only [hi, if_true]
      rw [isInterior_iff, ← hs.1, ← hs.2.1] at hi
      rw [hs.2.2 c hc, hs.2.2 (c.1 - 1, c.2) ⟨by simp only; omega, by simp only; omega⟩, hs.2.2 (c.1 + 1, c.2) ⟨by simp only; omega, by simp only; omega⟩,
        hs.2.2 (c.1, c.2 - 1) ⟨by simp only; omega, by simp only; omega⟩, hs.2.2 (c.1, c.2 + 1) ⟨by simp only; omega, by simp only; omega⟩]
    · simp [hi]
  · intro dx dy nx ny c
    simp [laplacianOp, zeros]
  · intro k c
    simp only [laplacianOp]
    have h1 : 0 < (dx * 2 ^ k) ^ 2 := by positivity
    have h2 : 0 < (dy * 2 ^ k) ^ 2 := by positivity
    have h3 : 0 < 2 / (dx * 2 ^ k) ^ 2 := by positivity
    have h4 : 0 < 2 / (dy * 2 ^ k) ^ 2 := by positivity
    rw [neg_div]
    intro hc
    linarith

/-- A case for C43: a 5 × 5 grid has two sublevels, a 4 × 5 grid has none, and one sublevel is refused. -/
example : (smoothVcycle (laplacianOp (K := ℚ)) 1 2 1 1 (zeros 5 5) (zeros 5 5)).toOption.map (fun g => (g.nx, g.ny)) = some (5, 5) ∧
    (smoothVcycle (laplacianOp (K := ℚ)) 1 1 1 1 (zeros 4 5) (zeros 4 5)).toOption.map (fun g => (g.nx, g.ny)) = none := by
  decide +kernel

/-! ## C74 -/

/-- **C74.** `LaplaceSparse` agrees with `LaplacianOp`: applied to an array, the matrix gives the operator at the interior points, and the
values themselves on the edge. -/
theorem C74_matrix_is_operator (Lx Ly : K) {nx ny : ℕ} (hnx : 2 ≤ nx) (hny : 2 ≤ ny) : ∃ A, laplaceSparse Lx Ly nx ny = .ok A ∧ A.N = nx * ny ∧
    ∀ f : Grid K, Shape f nx ny →
      (∀ c, Inside nx ny c → matVec A.N A.e f.flat (c.1 * ny + c.2) = laplacianOp.apply (Lx / ((nx : K) - 1)) (Ly / ((ny : K) - 1)) f c) ∧
      ∀ c, OnEdge nx ny c → matVec A.N A.e f.flat (c.1 * ny + c.2) = f.val c := by
  refine ⟨_, by rw [laplaceSparse, if_neg (by omega)], rfl, fun f hf => ⟨fun c hc => ?_, fun c hc => ?_⟩⟩
  · obtain ⟨x, y⟩ := c
    obtain ⟨h1, h2, h3, h4⟩ := hc
    simp only at h1 h2 h3 h4 ⊢
    have hi : isInterior nx ny (x, y) = true := isInterior_iff.mpr ⟨h1, h2, h3, h4⟩
    have hy : y < ny := by omega
    have hrow := row_lt (nx := nx) (x := x) (y := y) (by omega) hy
    simp only [matVec, row_div hy, row_mod hy, hi, if_true, laplacianOp, hf.1, hf.2, Grid.flat]
    have hge : ny ≤ x * ny := Nat.le_mul_of_pos_left ny h1
    have hup := row_lt (nx := nx) (x := x + 1) (y := y) (by omega) hy
    have hup' : x * ny + y + ny < nx * ny := by rw [add_mul] at hup; omega
    have hlast := row_lt (nx := nx) (x := x) (y := y + 1) (by omega) (by omega)
    have f1 : GS.flat ny f.val (x * ny + y - 1) = f.val (x, y - 1) := by
      rw [show x * ny + y - 1 = x * ny + (y - 1) by omega, flat_row (by omega)]
    have f2 : GS.flat ny f.val (x * ny + y - ny) = f.val (x - 1, y) := by
      have : x * ny + y - ny = (x - 1) * ny + y := by
        rw [Nat.sub_mul, one_mul]; omega
      rw [this, flat_row hy]
    have f3 : GS.flat ny f.val (x * ny + y + ny) = f.val (x + 1, y) := by
      rw [show x * ny + y + ny = (x + 1) * ny + y by ring, flat_row hy]
    have f4 : GS.flat ny f.val (x * ny + y + 1) = f.val (x, y + 1) := by
      rw [add_assoc, flat_row (by omega)]
    rw [laplaceRow]
    rw [sum_update (by omega), sum_update (by omega), sum_update (by omega), sum_update (by omega), sum_update (by omega),
      sum_eyeRow hrow]
    have f5 : GS.flat ny f.val (x * ny + y) = f.val (x, y) := flat_row hy f.val
    rw [f1, f2, f3, f4, f5]
    have hrn : ny + 1 ≤ x * ny + y := by omega
    have hy2 : 2 ≤ ny := by omega
    generalize x * ny + y = row at hrn ⊢
    have e1 : (eyeRow row (row - 1) : K) = 0 := by rw [eyeRow, if_neg (by omega)]
    have e2 : (eyeRow row (row - ny) : K) = 0 := by rw [eyeRow, if_neg (by omega)]
    have e3 : (eyeRow row row : K) = 1 := by rw [eyeRow, if_pos rfl]
    have e4 : (eyeRow row (row + ny) : K) = 0 := by rw [eyeRow, if_neg (by omega)]
    have e5 : (eyeRow row (row + 1) : K) = 0 := by rw [eyeRow, if_neg (by omega)]
    simp only [Function.update_apply, e1, e2, e3, e4, e5]
    have n1 : ¬row - ny = row + 1 := by omega
    have n2 : ¬row - ny = row - 1 := by omega
    have n3 : ¬row - ny = row := by omega
    have n4 : ¬row + ny = row - ny := by omega
    have n5 : ¬row + ny = row + 1 := by omega
    have n6 : ¬row + ny = row - 1 := by omega
    have n7 : ¬row + ny = row := by omega
    have n8 : ¬row + 1 = row - 1 := by omega
    have n9 : ¬row + 1 = row := by omega
    have n10 : ¬row - 1 = row := by omega
    simp only [if_neg n1, if_neg n2, if_neg n3, if_neg n4, if_neg n5, if_neg n6, if_neg n7, if_neg n8, if_neg n9, if_neg n10]
    ring
  · obtain ⟨⟨h1, h2⟩, h3⟩ := hc
    have hi : isInterior nx ny c = false := by
      rw [Bool.eq_false_iff]
      intro hh
      have := isInterior_iff.mp hh
      omega
    simp only [matVec, row_div h2, row_mod h2, hi, Bool.false_eq_true, if_false]
    rw [sum_eyeRow (row_lt h1 h2), Grid.flat, hf.2, flat_row h2]

/-- A case for C74. -/
example : (laplaceSparse (2 : ℚ) 4 3 5).toOption.map (fun A => (A.N, A.e 6 6, A.e 6 5, A.e 6 1, A.e 0 0, A.e 6 0)) =
    some (15, -4, 1, 1, 1, 0) := by decide +kernel

end FreeGS.MG
