import Verif.Model.GradShafranov
import Mathlib.Algebra.Polynomial.Derivative
import Mathlib.Algebra.Polynomial.Eval.Degree
import Mathlib.Algebra.BigOperators.Intervals
import Mathlib.LinearAlgebra.FiniteDimensional.Basic
import Mathlib.LinearAlgebra.Dimension.Constructions

set_option linter.unusedSectionVars false

namespace FreeGS.GS

open FreeGS.Critical (Domain linspaceAt)

variable {K : Type*} [Field K] [LinearOrder K]

/-! ## Rows and grid points -/

theorem row_div {ny x y : ℕ} (hy : y < ny) : (x * ny + y) / ny = x := by
  rw [mul_comm, Nat.mul_add_div (by omega), Nat.div_eq_of_lt hy, add_zero]

theorem row_mod {ny x y : ℕ} (hy : y < ny) : (x * ny + y) % ny = y := by
  rw [mul_comm, Nat.mul_add_mod, Nat.mod_eq_of_lt hy]

theorem row_lt {nx ny x y : ℕ} (hx : x < nx) (hy : y < ny) : x * ny + y < nx * ny := by
  calc x * ny + y < x * ny + ny := by omega
    _ = (x + 1) * ny := by ring
    _ ≤ nx * ny := Nat.mul_le_mul_right _ hx

theorem flat_row {ny x y : ℕ} (hy : y < ny) (a : Arr K) : flat ny a (x * ny + y) = a (x, y) := by
  rw [flat, row_div hy, row_mod hy]

theorem exists_row {nx ny r : ℕ} (hr : r < nx * ny) : ∃ x y, x < nx ∧ y < ny ∧ r = x * ny + y := by
  have hny : 0 < ny := by
    rcases Nat.eq_zero_or_pos ny with h | h
    · subst h; simp at hr
    · exact h
  exact ⟨r / ny, r % ny, by rw [Nat.div_lt_iff_lt_mul hny]; exact hr, Nat.mod_lt _ hny, by
    rw [mul_comm]; exact (Nat.div_add_mod r ny).symm⟩

theorem sum_update {N i : ℕ} (hi : i < N) (A f : ℕ → K) (v : K) :
    ∑ c ∈ Finset.range N, Function.update A i v c * f c = ∑ c ∈ Finset.range N, A c * f c + (v - A i) * f i := by
  have hm : i ∈ Finset.range N := Finset.mem_range.mpr hi
  rw [← Finset.add_sum_erase _ _ hm, ← Finset.add_sum_erase (Finset.range N) (fun c => A c * f c) hm]
  rw [Function.update_self]
  have : ∑ c ∈ (Finset.range N).erase i, Function.update A i v c * f c =
      ∑ c ∈ (Finset.range N).erase i, A c * f c := by
    refine Finset.sum_congr rfl fun c hc => ?_
    rw [Function.update_of_ne (Finset.ne_of_mem_erase hc)]
  rw [this]; ring

theorem sum_eyeRow {N r : ℕ} (hr : r < N) (f : ℕ → K) : ∑ c ∈ Finset.range N, eyeRow r c * f c = f r := by
  rw [Finset.sum_eq_single r]
  · simp [eyeRow]
  · intro c _ hc; simp [eyeRow, hc]
  · intro h; exact absurd (Finset.mem_range.mpr hr) h

theorem isInterior_iff {nx ny : ℕ} {c : ℕ × ℕ} :
    isInterior nx ny c = true ↔ 1 ≤ c.1 ∧ c.1 + 1 < nx ∧ 1 ≤ c.2 ∧ c.2 + 1 < ny := by
  simp [isInterior]

/-- The second-order matrix applied to an array. -/
theorem gsSparse_apply (d : Domain K) (nx ny : ℕ) (psi : Arr K) {x y : ℕ} (hx : x < nx) (hy : y < ny) :
    matVec (nx * ny) (gsSparse d nx ny) (flat ny psi) (x * ny + y) =
      if isInterior nx ny (x, y) then elliptic d.Rmin (spacingR d nx) (spacingZ d ny) nx ny psi (x, y)
      else psi (x, y) := by
  have hrow := row_lt hx hy
  rw [matVec]
  simp only [gsSparse, row_div hy, row_mod hy]
  by_cases hi : isInterior nx ny (x, y) = true
  · simp only [hi, if_true, elliptic]
    obtain ⟨h1, h2, h3, h4⟩ := isInterior_iff.mp hi
    simp only at h1 h2 h3 h4
    have hge : ny ≤ x * ny := Nat.le_mul_of_pos_left ny h1
    have hup := row_lt (nx := nx) (x := x + 1) (y := y) (by omega) hy
    have hup' : x * ny + y + ny < nx * ny := by rw [add_mul] at hup; omega
    have hlast := row_lt (nx := nx) (x := x) (y := y + 1) hx (by omega)
    have f1 : flat ny psi (x * ny + y - 1) = psi (x, y - 1) := by
      rw [show x * ny + y - 1 = x * ny + (y - 1) by omega, flat_row (by omega)]
    have f2 : flat ny psi (x * ny + y - ny) = psi (x - 1, y) := by
      have : x * ny + y - ny = (x - 1) * ny + y := by
        rw [Nat.sub_mul, one_mul]; omega
      rw [this, flat_row hy]
    have f3 : flat ny psi (x * ny + y + ny) = psi (x + 1, y) := by
      rw [show x * ny + y + ny = (x + 1) * ny + y by ring, flat_row hy]
    have f4 : flat ny psi (x * ny + y + 1) = psi (x, y + 1) := by
      rw [add_assoc, flat_row (by omega)]
    rw [gsRow]
    rw [sum_update (by omega), sum_update (by omega), sum_update (by omega), sum_update (by omega), sum_update (by omega),
      sum_eyeRow hrow]
    set row := x * ny + y
    have e1 : (eyeRow row (row - 1) : K) = 0 := by rw [eyeRow, if_neg (by omega)]
    have e2 : (eyeRow row (row - ny) : K) = 0 := by rw [eyeRow, if_neg (by omega)]
    have e3 : (eyeRow row row : K) = 1 := by rw [eyeRow, if_pos rfl]
    have e4 : (eyeRow row (row + ny) : K) = 0 := by rw [eyeRow, if_neg (by omega)]
    have e5 : (eyeRow row (row + 1) : K) = 0 := by rw [eyeRow, if_neg (by omega)]
    have n1 : row - ny ≠ row - 1 := by omega
    have n2 : row ≠ row - ny := by omega
    have n3 : row ≠ row - 1 := by omega
    have n4 : row + ny ≠ row := by omega
    have n5 : row + ny ≠ row - ny := by omega
    have n6 : row + ny ≠ row - 1 := by omega
    have n7 : row + 1 ≠ row + ny := by omega
    have n8 : row + 1 ≠ row := by omega
    have n9 : row + 1 ≠ row - ny := by omega
    have n10 : row + 1 ≠ row - 1 := by omega
    rw [Function.update_of_ne n7, Function.update_of_ne n8, Function.update_of_ne n9, Function.update_of_ne n10,
      Function.update_of_ne n4, Function.update_of_ne n5, Function.update_of_ne n6, Function.update_of_ne n2,
      Function.update_of_ne n3, Function.update_of_ne n1, e1, e2, e3, e4, e5, f1, f2, f3, f4]
    have f5 : flat ny psi row = psi (x, y) := flat_row hy psi
    rw [f5]
    ring
  · simp only [hi, if_false, Bool.false_eq_true]
    rw [sum_eyeRow hrow, flat_row hy]

/-! ## Maximum principle -/

section order
variable [IsStrictOrderedRing K]

theorem spacing_pos {lo hi : K} (h : lo < hi) {n : ℕ} (hn : 2 ≤ n) : 0 < (hi - lo) / ((n : K) - 1) := by
  have : (2 : K) ≤ n := by exact_mod_cast hn
  exact div_pos (by linarith) (by linarith)

/-- Where the discrete operator is not positive inside and the edge values are not negative, no value is negative. -/
theorem min_principle (Rmin dR dZ : K) (hR : 0 ≤ Rmin) (hdR : 0 < dR) (hdZ : 0 < dZ) (nx ny : ℕ) (psi : Arr K)
    (hin : ∀ c, isInterior nx ny c = true → elliptic Rmin dR dZ nx ny psi c ≤ 0)
    (hedge : ∀ c : ℕ × ℕ, c.1 < nx → c.2 < ny → isInterior nx ny c = false → 0 ≤ psi c) :
    ∀ c : ℕ × ℕ, c.1 < nx → c.2 < ny → 0 ≤ psi c := by
  intro c0 h0x h0y
  by_contra hneg
  push Not at hneg
  -- the smallest value, and among those the smallest second index
  let S := (Finset.range nx ×ˢ Finset.range ny : Finset (ℕ × ℕ))
  have hS : S.Nonempty := ⟨c0, by simp [S, h0x, h0y]⟩
  obtain ⟨m, hm, hmin⟩ := S.exists_min_image psi hS
  let T := S.filter fun c => psi c = psi m
  have hT : T.Nonempty := ⟨m, by simp [T, hm]⟩
  obtain ⟨c, hc, hymin⟩ := T.exists_min_image (fun c => c.2) hT
  obtain ⟨hcS, hcm⟩ := Finset.mem_filter.mp hc
  have hcx : c.1 < nx := by have := Finset.mem_product.mp hcS; exact Finset.mem_range.mp this.1
  have hcy : c.2 < ny := by have := Finset.mem_product.mp hcS; exact Finset.mem_range.mp this.2
  have hle : ∀ p : ℕ × ℕ, p.1 < nx → p.2 < ny → psi c ≤ psi p := by
    intro p h1 h2
    rw [hcm]
    exact hmin p (by simp [S, h1, h2])
  have hcneg : psi c < 0 := lt_of_le_of_lt (hle c0 h0x h0y) hneg
  by_cases hi : isInterior nx ny c = true
  · obtain ⟨a1, a2, a3, a4⟩ := isInterior_iff.mp hi
    have hop := hin c hi
    simp only [elliptic, hi, if_true] at hop
    have hx1 : (1 : K) ≤ c.1 := by exact_mod_cast a1
    have hRpos : dR ≤ Rmin + dR * c.1 := by nlinarith
    have hRp : 0 < Rmin + dR * c.1 := by linarith
    have hdown : psi c < psi (c.1, c.2 - 1) := by
      refine lt_of_le_of_ne (hle _ hcx (by simp only; omega)) fun heq => ?_
      have hmem : (c.1, c.2 - 1) ∈ T := by
        refine Finset.mem_filter.mpr ⟨?_, ?_⟩
        · simp only [S, Finset.mem_product, Finset.mem_range]; omega
        · rw [← heq, hcm]
      have := hymin _ hmem
      simp only at this
      omega
    have hup := hle (c.1, c.2 + 1) hcx (by simp only; omega)
    have hleft := hle (c.1 - 1, c.2) (by simp only; omega) hcy
    have hright := hle (c.1 + 1, c.2) (by simp only; omega) hcy
    have w1 : 0 < 1 / dZ ^ 2 := by positivity
    have w2 : 0 < 1 / dR ^ 2 + 1 / (2 * (Rmin + dR * c.1) * dR) := by positivity
    have w3 : 0 ≤ 1 / dR ^ 2 - 1 / (2 * (Rmin + dR * c.1) * dR) := by
      rw [sub_nonneg]
      refine one_div_le_one_div_of_le (by positivity) ?_
      nlinarith
    have key : 0 < (psi (c.1, c.2 - 1) - psi c) * (1 / dZ ^ 2) +
        (1 / dR ^ 2 + 1 / (2 * (Rmin + dR * c.1) * dR)) * (psi (c.1 - 1, c.2) - psi c) +
        (1 / dR ^ 2 - 1 / (2 * (Rmin + dR * c.1) * dR)) * (psi (c.1 + 1, c.2) - psi c) +
        (psi (c.1, c.2 + 1) - psi c) * (1 / dZ ^ 2) := by
      have t1 : 0 < (psi (c.1, c.2 - 1) - psi c) * (1 / dZ ^ 2) := mul_pos (by linarith) w1
      have t2 := mul_nonneg w2.le (sub_nonneg.mpr hleft)
      have t3 := mul_nonneg w3 (sub_nonneg.mpr hright)
      have t4 := mul_nonneg (sub_nonneg.mpr hup) w1.le
      linarith
    linarith
  · have := hedge c hcx hcy (by simpa using hi)
    linarith

theorem elliptic_sub (Rmin dR dZ : K) (nx ny : ℕ) (p q : Arr K) (c : ℕ × ℕ) :
    elliptic Rmin dR dZ nx ny (fun c => p c - q c) c =
      elliptic Rmin dR dZ nx ny p c - elliptic Rmin dR dZ nx ny q c := by
  simp only [elliptic]
  split
  · ring
  · ring

end order

/-! ## Fourth-order matrix -/

theorem sum_addEntry (N : ℕ) (f : ℕ → K) : ∀ (ops : List (ℤ × K)) (A : ℕ → K), (∀ p ∈ ops, wrap N p.1 < N) →
    ∑ c ∈ Finset.range N, ops.foldl (addEntry N) A c * f c =
      ∑ c ∈ Finset.range N, A c * f c + (ops.map fun p => p.2 * f (wrap N p.1)).sum := by
  intro ops
  induction ops with
  | nil => intro A _; simp
  | cons p ps ih =>
    intro A h
    rw [List.foldl_cons, ih _ fun q hq => h q (List.mem_cons_of_mem _ hq), addEntry, sum_update (h p List.mem_cons_self)]
    simp only [List.map_cons, List.sum_cons]
    ring

/-- A finite-difference formula applied to a function: `Σ weight * g(x0 + offset * h)`. -/
def stencil (l : List (ℤ × K)) (g : K → K) (h x0 : K) : K := (l.map fun p => p.2 * g (x0 + p.1 * h)).sum

open Polynomial in
theorem eval_low {p : K[X]} {n : ℕ} (h : p.natDegree < n) (x : K) :
    p.eval x = ∑ i ∈ Finset.range n, p.coeff i * x ^ i := eval_eq_sum_range' h x

section stencils
variable [CharZero K]
open Polynomial

theorem deriv_eval {p : K[X]} {n : ℕ} (h : p.natDegree < n + 1) (x : K) :
    p.derivative.eval x = ∑ i ∈ Finset.range n, p.coeff (i + 1) * (i + 1) * x ^ i := by
  rcases Nat.eq_zero_or_pos n with rfl | hn
  · have : p.natDegree = 0 := by omega
    rw [Polynomial.natDegree_eq_zero] at this
    obtain ⟨c, rfl⟩ := this
    simp
  · rw [eval_low (n := n) (lt_of_le_of_lt (natDegree_derivative_le p) (by omega))]
    simp only [coeff_derivative]

theorem deriv2_eval {p : K[X]} {n : ℕ} (h : p.natDegree < n + 2) (x : K) :
    p.derivative.derivative.eval x = ∑ i ∈ Finset.range n, p.coeff (i + 2) * (i + 2) * (i + 1) * x ^ i := by
  rcases Nat.eq_zero_or_pos n with rfl | hn
  · have h1 : p.derivative.natDegree ≤ 0 := le_trans (natDegree_derivative_le p) (by omega)
    rw [Nat.le_zero, Polynomial.natDegree_eq_zero] at h1
    obtain ⟨c, hc⟩ := h1
    rw [← hc]; simp
  · rw [deriv_eval (p := p.derivative) (n := n) (lt_of_le_of_lt (natDegree_derivative_le p) (by omega))]
    refine Finset.sum_congr rfl fun i _ => ?_
    rw [coeff_derivative]; push_cast; ring

theorem centred1_exact (p : K[X]) (hp : p.natDegree ≤ 4) (h x0 : K) :
    stencil centred1 (fun x => p.eval x) h x0 = h * p.derivative.eval x0 := by
  rw [deriv_eval (n := 4) (by omega)]
  simp only [stencil, centred1, List.map_cons, List.map_nil, List.sum_cons, List.sum_nil,
    eval_low (n := 5) (show p.natDegree < 5 by omega), Finset.sum_range_succ, Finset.sum_range_zero]
  push_cast
  field_simp
  ring

theorem offset1_exact (p : K[X]) (hp : p.natDegree ≤ 4) (h x0 : K) :
    stencil offset1 (fun x => p.eval x) h x0 = h * p.derivative.eval x0 := by
  rw [deriv_eval (n := 4) (by omega)]
  simp only [stencil, offset1, List.map_cons, List.map_nil, List.sum_cons, List.sum_nil,
    eval_low (n := 5) (show p.natDegree < 5 by omega), Finset.sum_range_succ, Finset.sum_range_zero]
  push_cast
  field_simp
  ring

theorem centred2_exact (p : K[X]) (hp : p.natDegree ≤ 5) (h x0 : K) :
    stencil centred2 (fun x => p.eval x) h x0 = h ^ 2 * p.derivative.derivative.eval x0 := by
  rw [deriv2_eval (n := 4) (by omega)]
  simp only [stencil, centred2, List.map_cons, List.map_nil, List.sum_cons, List.sum_nil,
    eval_low (n := 6) (show p.natDegree < 6 by omega), Finset.sum_range_succ, Finset.sum_range_zero]
  push_cast
  field_simp
  ring

theorem offset2_exact (p : K[X]) (hp : p.natDegree ≤ 5) (h x0 : K) :
    stencil offset2 (fun x => p.eval x) h x0 = h ^ 2 * p.derivative.derivative.eval x0 := by
  rw [deriv2_eval (n := 4) (by omega)]
  simp only [stencil, offset2, List.map_cons, List.map_nil, List.sum_cons, List.sum_nil,
    eval_low (n := 6) (show p.natDegree < 6 by omega), Finset.sum_range_succ, Finset.sum_range_zero]
  push_cast
  field_simp
  ring

end stencils

/-! ## Action of the fourth-order matrix -/

/-- Column of the grid point shifted by `o` in the second index. -/
theorem wrap_z {nx ny x y : ℕ} (hx : x < nx) {o : ℤ} (h0 : 0 ≤ (y : ℤ) + o) (h1 : (y : ℤ) + o < ny) :
    inRange (nx * ny) ((x : ℤ) * ny + y + o) = true ∧
      wrap (nx * ny) ((x : ℤ) * ny + y + o) = x * ny + ((y : ℤ) + o).toNat := by
  obtain ⟨m, hm⟩ := Int.eq_ofNat_of_zero_le h0
  have hmny : m < ny := by omega
  have hlt := row_lt hx hmny
  have e : (x : ℤ) * ny + y + o = ((x * ny + m : ℕ) : ℤ) := by push_cast; omega
  rw [e, hm]
  refine ⟨?_, ?_⟩
  · simp only [inRange, decide_eq_true_eq]
    exact ⟨by omega, by exact_mod_cast hlt⟩
  · rw [wrap, if_neg (by omega)]
    exact Int.toNat_natCast _

/-- Column of the grid point shifted by `o` in the first index. -/
theorem wrap_r {nx ny x y : ℕ} (hy : y < ny) {o : ℤ} (h0 : 0 ≤ (x : ℤ) + o) (h1 : (x : ℤ) + o < nx) :
    inRange (nx * ny) ((x : ℤ) * ny + y + o * ny) = true ∧
      wrap (nx * ny) ((x : ℤ) * ny + y + o * ny) = ((x : ℤ) + o).toNat * ny + y := by
  obtain ⟨m, hm⟩ := Int.eq_ofNat_of_zero_le h0
  have hmnx : m < nx := by omega
  have hlt := row_lt hmnx hy
  have e : (x : ℤ) * ny + y + o * ny = ((m * ny + y : ℕ) : ℤ) := by
    have : (x : ℤ) * ny + y + o * ny = ((x : ℤ) + o) * ny + y := by ring
    rw [this, hm]; push_cast; rfl
  rw [e, hm]
  refine ⟨?_, ?_⟩
  · simp only [inRange, decide_eq_true_eq]
    exact ⟨by omega, by exact_mod_cast hlt⟩
  · rw [wrap, if_neg (by omega)]
    exact Int.toNat_natCast _

/-- An array that samples a function on the grid. -/
def sampled (d : Domain K) (nx ny : ℕ) (F : K → K → K) : Arr K := fun c =>
  F (d.Rmin + spacingR d nx * c.1) (d.Zmin + spacingZ d ny * c.2)

theorem flat_z {d : Domain K} {nx ny x y : ℕ} (hx : x < nx) (F : K → K → K) {o : ℤ} (h0 : 0 ≤ (y : ℤ) + o)
    (h1 : (y : ℤ) + o < ny) :
    flat ny (sampled d nx ny F) (wrap (nx * ny) ((x : ℤ) * ny + y + o)) =
      F (d.Rmin + spacingR d nx * x) (d.Zmin + spacingZ d ny * y + o * spacingZ d ny) := by
  rw [(wrap_z hx h0 h1).2, flat_row (by omega), sampled]
  obtain ⟨m, hm⟩ := Int.eq_ofNat_of_zero_le h0
  have : (((y : ℤ) + o).toNat : K) = (y : K) + (o : K) := by
    rw [hm]
    have : ((m : ℤ) : K) = ((y : ℤ) : K) + (o : K) := by rw [← hm]; push_cast; ring
    simpa using this
  simp only [this]
  congr 1; ring

theorem flat_r {d : Domain K} {nx ny x y : ℕ} (hy : y < ny) (F : K → K → K) {o : ℤ} (h0 : 0 ≤ (x : ℤ) + o)
    (h1 : (x : ℤ) + o < nx) :
    flat ny (sampled d nx ny F) (wrap (nx * ny) ((x : ℤ) * ny + y + o * ny)) =
      F (d.Rmin + spacingR d nx * x + o * spacingR d nx) (d.Zmin + spacingZ d ny * y) := by
  rw [(wrap_r hy h0 h1).2, flat_row hy, sampled]
  obtain ⟨m, hm⟩ := Int.eq_ofNat_of_zero_le h0
  have : (((x : ℤ) + o).toNat : K) = (x : K) + (o : K) := by
    rw [hm]
    have : ((m : ℤ) : K) = ((x : ℤ) : K) + (o : K) := by rw [← hm]; push_cast; ring
    simpa using this
  simp only [this]
  congr 1; ring

theorem map_sum_congr {α : Type*} (l : List α) (f g : α → K) (h : ∀ p ∈ l, f p = g p) : (l.map f).sum = (l.map g).sum := by
  rw [List.map_congr_left h]

theorem offs2 : ∀ p ∈ (offset2 : List (ℤ × K)), -1 ≤ p.1 ∧ p.1 ≤ 4 := by
  simp [offset2]
theorem offs1 : ∀ p ∈ (offset1 : List (ℤ × K)), -1 ≤ p.1 ∧ p.1 ≤ 3 := by
  simp [offset1]
theorem cent2 : ∀ p ∈ (centred2 : List (ℤ × K)), -2 ≤ p.1 ∧ p.1 ≤ 2 := by
  simp [centred2]
theorem cent1 : ∀ p ∈ (centred1 : List (ℤ × K)), -2 ≤ p.1 ∧ p.1 ≤ 2 := by
  simp [centred1]

/-- One group of entries shifted in the second index. -/
theorem group_z {d : Domain K} {nx ny x y : ℕ} (hx : x < nx) (F : K → K → K) (l : List (ℤ × K)) (s : ℤ) (w : K)
    (h : ∀ p ∈ l, 0 ≤ (y : ℤ) + s * p.1 ∧ (y : ℤ) + s * p.1 < ny) :
    ((l.map fun p => ((x : ℤ) * ny + y + s * p.1, p.2 * w)).map
      fun p => p.2 * flat ny (sampled d nx ny F) (wrap (nx * ny) p.1)).sum =
      w * stencil l (F (d.Rmin + spacingR d nx * x)) (s * spacingZ d ny) (d.Zmin + spacingZ d ny * y) := by
  rw [List.map_map, stencil, ← List.sum_map_mul_left]
  refine map_sum_congr _ _ _ fun p hp => ?_
  simp only [Function.comp_apply]
  rw [flat_z hx F (h p hp).1 (h p hp).2]
  push_cast
  rw [show (s : K) * (p.1 : K) * spacingZ d ny = p.1 * (s * spacingZ d ny) by ring]
  ring

/-- One group of entries shifted in the first index. -/
theorem group_r {d : Domain K} {nx ny x y : ℕ} (hy : y < ny) (F : K → K → K) (l : List (ℤ × K)) (s : ℤ) (w : K)
    (h : ∀ p ∈ l, 0 ≤ (x : ℤ) + s * p.1 ∧ (x : ℤ) + s * p.1 < nx) :
    ((l.map fun p => ((x : ℤ) * ny + y + s * p.1 * ny, p.2 * w)).map
      fun p => p.2 * flat ny (sampled d nx ny F) (wrap (nx * ny) p.1)).sum =
      w * stencil l (fun R => F R (d.Zmin + spacingZ d ny * y)) (s * spacingR d nx)
        (d.Rmin + spacingR d nx * x) := by
  rw [List.map_map, stencil, ← List.sum_map_mul_left]
  refine map_sum_congr _ _ _ fun p hp => ?_
  simp only [Function.comp_apply]
  rw [flat_r hy F (h p hp).1 (h p hp).2]
  push_cast
  rw [show (s : K) * (p.1 : K) * spacingR d nx = p.1 * (s * spacingR d nx) by ring]
  ring

/-- The formulas used in `Z` at height index `y`: list of weights and direction. -/
def zRule (ny y : ℕ) : List (ℤ × K) × ℤ :=
  if y = 1 then (offset2, 1) else if y + 2 = ny then (offset2, -1) else (centred2, 1)

/-- The formulas used in `R`: second derivative, first derivative and direction. -/
def rRule (nx x : ℕ) : (List (ℤ × K) × List (ℤ × K)) × ℤ :=
  if x = 1 then ((offset2, offset1), 1) else if x + 2 = nx then ((offset2, offset1), -1) else ((centred2, centred1), 1)

theorem zOps_eq (ny y : ℕ) (row : ℤ) (w : K) :
    zOps ny y row w = (zRule ny y).1.map fun p => (row + (zRule ny y : List (ℤ × K) × ℤ).2 * p.1, p.2 * w) := by
  unfold zOps zRule
  split_ifs <;> simp [sub_eq_add_neg]

theorem rOps_eq (nx ny x : ℕ) (row : ℤ) (R dR w : K) :
    rOps nx ny x row R dR w =
      ((rRule nx x).1.1.map fun p => (row + (rRule nx x : (List (ℤ × K) × List (ℤ × K)) × ℤ).2 * p.1 * ny, p.2 * w)) ++
      (rRule nx x).1.2.map fun p => (row + (rRule nx x : (List (ℤ × K) × List (ℤ × K)) × ℤ).2 * p.1 * ny,
        p.2 * (-((rRule nx x : (List (ℤ × K) × List (ℤ × K)) × ℤ).2 : K) / (R * dR))) := by
  unfold rOps rRule
  split_ifs <;> simp [sub_eq_add_neg, neg_div] <;> intros <;> ring

theorem zRule_range {ny y : ℕ} (hny : 6 ≤ ny) (h1 : 1 ≤ y) (h2 : y + 1 < ny) :
    ∀ p ∈ (zRule ny y : List (ℤ × K) × ℤ).1,
      0 ≤ (y : ℤ) + (zRule ny y : List (ℤ × K) × ℤ).2 * p.1 ∧ (y : ℤ) + (zRule ny y : List (ℤ × K) × ℤ).2 * p.1 < ny := by
  unfold zRule
  split_ifs
  · intro p hp; have := offs2 p hp; simp only; omega
  · intro p hp; have := offs2 p hp; simp only; omega
  · intro p hp; have := cent2 p hp; simp only; omega

theorem rRule_range {nx x : ℕ} (hnx : 6 ≤ nx) (h1 : 1 ≤ x) (h2 : x + 1 < nx) :
    (∀ p ∈ (rRule nx x : (List (ℤ × K) × List (ℤ × K)) × ℤ).1.1,
      0 ≤ (x : ℤ) + (rRule nx x : (List (ℤ × K) × List (ℤ × K)) × ℤ).2 * p.1 ∧
      (x : ℤ) + (rRule nx x : (List (ℤ × K) × List (ℤ × K)) × ℤ).2 * p.1 < nx) ∧
    (∀ p ∈ (rRule nx x : (List (ℤ × K) × List (ℤ × K)) × ℤ).1.2,
      0 ≤ (x : ℤ) + (rRule nx x : (List (ℤ × K) × List (ℤ × K)) × ℤ).2 * p.1 ∧
      (x : ℤ) + (rRule nx x : (List (ℤ × K) × List (ℤ × K)) × ℤ).2 * p.1 < nx) := by
  unfold rRule
  split_ifs
  · exact ⟨fun p hp => by have := offs2 p hp; simp only; omega, fun p hp => by have := offs1 p hp; simp only; omega⟩
  · exact ⟨fun p hp => by have := offs2 p hp; simp only; omega, fun p hp => by have := offs1 p hp; simp only; omega⟩
  · exact ⟨fun p hp => by have := cent2 p hp; simp only; omega, fun p hp => by have := cent1 p hp; simp only; omega⟩

/-- All columns of an interior row are inside the grid. -/
theorem gs4Ops_range (d : Domain K) {nx ny : ℕ} (hnx : 6 ≤ nx) (hny : 6 ≤ ny) {c : ℕ × ℕ}
    (hc : isInterior nx ny c = true) :
    ∀ p ∈ gs4Ops d nx ny c, inRange (nx * ny) p.1 = true ∧ wrap (nx * ny) p.1 < nx * ny := by
  obtain ⟨h1, h2, h3, h4⟩ := isInterior_iff.mp hc
  intro p hp
  have hwrap : ∀ o : ℤ, 0 ≤ (c.2 : ℤ) + o → (c.2 : ℤ) + o < ny →
      inRange (nx * ny) ((c.1 : ℤ) * ny + c.2 + o) = true ∧ wrap (nx * ny) ((c.1 : ℤ) * ny + c.2 + o) < nx * ny := by
    intro o a b
    obtain ⟨e1, e2⟩ := wrap_z (nx := nx) (ny := ny) (x := c.1) (by omega) a b
    exact ⟨e1, by rw [e2]; exact row_lt (by omega) (by omega)⟩
  have hwrap' : ∀ o : ℤ, 0 ≤ (c.1 : ℤ) + o → (c.1 : ℤ) + o < nx →
      inRange (nx * ny) ((c.1 : ℤ) * ny + c.2 + o * ny) = true ∧
        wrap (nx * ny) ((c.1 : ℤ) * ny + c.2 + o * ny) < nx * ny := by
    intro o a b
    obtain ⟨e1, e2⟩ := wrap_r (nx := nx) (ny := ny) (y := c.2) (by omega) a b
    exact ⟨e1, by rw [e2]; exact row_lt (by omega) (by omega)⟩
  simp only [gs4Ops] at hp
  rw [List.mem_append, zOps_eq, rOps_eq, List.mem_append] at hp
  simp only [List.mem_map] at hp
  rcases hp with ⟨q, hq, rfl⟩ | ⟨q, hq, rfl⟩ | ⟨q, hq, rfl⟩
  · have := zRule_range hny h3 h4 q hq
    exact hwrap _ this.1 this.2
  · have := (rRule_range hnx h1 h2).1 q hq
    exact hwrap' _ this.1 this.2
  · have := (rRule_range hnx h1 h2).2 q hq
    exact hwrap' _ this.1 this.2

theorem mem_interiorCells {nx ny : ℕ} {c : ℕ × ℕ} (hc : c ∈ interiorCells nx ny) : isInterior nx ny c = true := by
  obtain ⟨x, y⟩ := c
  simp only [interiorCells, List.mem_flatMap, List.mem_map, List.mem_range'_1, Prod.mk.injEq] at hc
  obtain ⟨a, ha, b, hb, rfl, rfl⟩ := hc
  rw [isInterior_iff]
  simp only
  omega

/-- On grids with at least six points each way the matrix is built without error, and applied to samples of a function it is
the sum of three finite-difference formulas. -/
theorem gs4_apply (d : Domain K) {nx ny : ℕ} (hnx : 6 ≤ nx) (hny : 6 ≤ ny) :
    ∃ A, gs4Sparse d nx ny = .ok A ∧
      (∀ (psi : Arr K) (x y : ℕ), x < nx → y < ny → isInterior nx ny (x, y) = false →
        matVec (nx * ny) A (flat ny psi) (x * ny + y) = psi (x, y)) ∧
      ∀ (F : K → K → K) (x y : ℕ), isInterior nx ny (x, y) = true →
        let R := d.Rmin + spacingR d nx * x
        let Z := d.Zmin + spacingZ d ny * y
        let zr : List (ℤ × K) × ℤ := zRule ny y
        let rr : (List (ℤ × K) × List (ℤ × K)) × ℤ := rRule nx x
        matVec (nx * ny) A (flat ny (sampled d nx ny F)) (x * ny + y) =
          1 / spacingZ d ny ^ 2 * stencil zr.1 (F R) (zr.2 * spacingZ d ny) Z +
          (1 / spacingR d nx ^ 2 * stencil rr.1.1 (fun R => F R Z) (rr.2 * spacingR d nx) R +
          -(rr.2 : K) / (R * spacingR d nx) * stencil rr.1.2 (fun R => F R Z) (rr.2 * spacingR d nx) R) := by
  have hall : ((interiorCells nx ny).all fun c => (gs4Ops d nx ny c).all fun p => inRange (nx * ny) p.1) = true := by
    rw [List.all_eq_true]
    intro c hc
    rw [List.all_eq_true]
    intro p hp
    exact (gs4Ops_range d hnx hny (mem_interiorCells hc) p hp).1
  refine ⟨_, by rw [gs4Sparse, if_pos hall], ?_, ?_⟩
  · intro psi x y hx hy hi
    rw [matVec]
    simp only [row_div hy, row_mod hy, hi, Bool.false_eq_true, if_false]
    rw [sum_eyeRow (row_lt hx hy), flat_row hy]
  · intro F x y hi
    obtain ⟨h1, h2, h3, h4⟩ := isInterior_iff.mp hi
    simp only at h1 h2 h3 h4
    have hy : y < ny := by omega
    have hx : x < nx := by omega
    rw [matVec]
    simp only [row_div hy, row_mod hy, hi, if_true]
    rw [sum_addEntry _ _ _ _ fun p hp => (gs4Ops_range d hnx hny hi p hp).2]
    simp only [zero_mul, Finset.sum_const_zero, zero_add, gs4Ops]
    rw [List.map_append, List.sum_append, zOps_eq, rOps_eq, List.map_append, List.sum_append,
      group_z hx F _ _ _ (zRule_range hny h3 h4), group_r hy F _ _ _ (rRule_range hnx h1 h2).1,
      group_r hy F _ _ _ (rRule_range hnx h1 h2).2]

end FreeGS.GS
