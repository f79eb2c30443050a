import Verif.Lemmas.GradShafranov
import Verif.Spec.GradShafranov
import Mathlib.Algebra.BigOperators.Field
import Mathlib.Tactic.LinearCombination

/-!
# C34, C35, C36: discretisation and linear solve
-/

set_option linter.unusedSectionVars false

namespace FreeGS.GS

open FreeGS.Critical (Domain linspaceAt)
open Polynomial

variable {K : Type*} [Field K] [LinearOrder K]

theorem inside_iff {nx ny : ℕ} {c : ℕ × ℕ} : Inside nx ny c ↔ isInterior nx ny c = true := by
  rw [isInterior_iff, Inside]; omega

theorem edge_iff {nx ny : ℕ} {c : ℕ × ℕ} : OnEdge nx ny c ↔ OnGrid nx ny c ∧ isInterior nx ny c = false := by
  rw [← Bool.not_eq_true, isInterior_iff, OnEdge, OnGrid]; omega

theorem inside_onGrid {nx ny : ℕ} {c : ℕ × ℕ} (h : Inside nx ny c) : OnGrid nx ny c := by
  rw [Inside] at h; rw [OnGrid]; omega

theorem gridR_eq (d : Domain K) (nx i : ℕ) : gridR d nx i = d.Rmin + spacingR d nx * i := by
  rw [gridR, stepR, spacingR]; ring

theorem gridZ_eq (d : Domain K) (ny j : ℕ) : gridZ d ny j = d.Zmin + spacingZ d ny * j := by
  rw [gridZ, stepZ, spacingZ]; ring

theorem samples_eq (d : Domain K) (nx ny : ℕ) (F : K → K → K) : samples d nx ny F = sampled d nx ny F := by
  funext c; rw [samples, sampled, gridR_eq, gridZ_eq]

/-- `centralDelta` is what `GSElliptic` computes. -/
theorem central_eq (d : Domain K) (nx ny : ℕ) (psi : Arr K) (c : ℕ × ℕ) (hc : Inside nx ny c) :
    elliptic d.Rmin (spacingR d nx) (spacingZ d ny) nx ny psi c = centralDelta d nx ny psi c := by
  rw [inside_iff] at hc
  simp only [elliptic, hc, if_true, centralDelta]
  rw [gridR_eq]
  simp only [show stepR d nx = spacingR d nx from rfl, show stepZ d ny = spacingZ d ny from rfl]
  generalize d.Rmin + spacingR d nx * (c.1 : K) = R
  ring

/-- **C35 (matrix and operator).** Inside, both `GSElliptic` and the matrix of `GSsparse` are the central-difference operator; on the
edge the matrix is the identity. -/
theorem C35_matrix_is_operator (d : Domain K) (nx ny : ℕ) (psi : Arr K) :
    (∀ c, Inside nx ny c →
      elliptic d.Rmin ((d.Rmax - d.Rmin) / ((nx : K) - 1)) ((d.Zmax - d.Zmin) / ((ny : K) - 1)) nx ny psi c =
        centralDelta d nx ny psi c ∧
      matVec (nx * ny) (gsSparse d nx ny) (flat ny psi) (c.1 * ny + c.2) = centralDelta d nx ny psi c) ∧
    ∀ c, OnEdge nx ny c → matVec (nx * ny) (gsSparse d nx ny) (flat ny psi) (c.1 * ny + c.2) = psi c := by
  constructor
  · intro c hc
    have hg := inside_onGrid hc
    refine ⟨central_eq d nx ny psi c hc, ?_⟩
    rw [gsSparse_apply d nx ny psi hg.1 hg.2, if_pos (inside_iff.mp hc), central_eq d nx ny psi c hc]
  · intro c hc
    obtain ⟨hg, hi⟩ := edge_iff.mp hc
    rw [gsSparse_apply d nx ny psi hg.1 hg.2]
    simp [hi]

section order
variable [IsStrictOrderedRing K]

/-- **C35 (exactness).** The central-difference operator is exact for polynomials of degree at most two in `R` and three in
`Z`. -/
theorem C35_exact_low_degree (d : Domain K) (nx ny : ℕ) (hnx : 2 ≤ nx) (hny : 2 ≤ ny) (hR : d.Rmin < d.Rmax)
    (hZ : d.Zmin < d.Zmax) {ι : Type*} (s : Finset ι) (p q : ι → K[X]) (hp : ∀ i ∈ s, (p i).natDegree ≤ 2)
    (hq : ∀ i ∈ s, (q i).natDegree ≤ 3) (c : ℕ × ℕ) (hc : Inside nx ny c) :
    centralDelta d nx ny (samples d nx ny (poly2 s p q)) c =
      deltaStar s p q (gridR d nx c.1) (gridZ d ny c.2) := by
  have hdR : stepR d nx ≠ 0 := (spacing_pos hR hnx).ne'
  have hdZ : stepZ d ny ≠ 0 := (spacing_pos hZ hny).ne'
  have r1 : gridR d nx (c.1 + 1) = gridR d nx c.1 + stepR d nx := by simp only [gridR]; push_cast; ring
  have r2 : gridR d nx (c.1 - 1) = gridR d nx c.1 - stepR d nx := by
    simp only [gridR]; rw [Nat.cast_sub hc.1]; push_cast; ring
  have z1 : gridZ d ny (c.2 + 1) = gridZ d ny c.2 + stepZ d ny := by simp only [gridZ]; push_cast; ring
  have z2 : gridZ d ny (c.2 - 1) = gridZ d ny c.2 - stepZ d ny := by
    simp only [gridZ]; rw [Nat.cast_sub hc.2.2.1]; push_cast; ring
  simp only [centralDelta, samples, r1, r2, z1, z2, poly2, deltaStar]
  generalize gridR d nx c.1 = R
  generalize gridZ d ny c.2 = Z
  rw [Finset.mul_sum, ← Finset.sum_sub_distrib, ← Finset.sum_sub_distrib, ← Finset.sum_add_distrib, ← Finset.sum_sub_distrib,
    ← Finset.sum_add_distrib, Finset.sum_div, Finset.sum_div, Finset.sum_div, Finset.sum_div, ← Finset.sum_sub_distrib,
    ← Finset.sum_add_distrib]
  refine Finset.sum_congr rfl fun i hi => ?_
  have ep := eval_low (n := 3) (show (p i).natDegree < 3 by have := hp i hi; omega)
  have eq := eval_low (n := 4) (show (q i).natDegree < 4 by have := hq i hi; omega)
  rw [deriv_eval (p := p i) (n := 2) (by have := hp i hi; omega), deriv2_eval (p := p i) (n := 1) (by have := hp i hi; omega),
    deriv2_eval (p := q i) (n := 2) (by have := hq i hi; omega)]
  simp only [ep, eq, Finset.sum_range_succ, Finset.sum_range_zero]
  push_cast
  rcases eq_or_ne R 0 with rfl | hR0
  · field_simp; ring
  · field_simp; ring

/-- **C35 (maximum principle).** For `Rmin ≥ 0`: if the source is not positive inside and the edge values
are not negative, the solution is nowhere negative. -/
theorem C35_minimum_principle (d : Domain K) (nx ny : ℕ) (hnx : 2 ≤ nx) (hny : 2 ≤ ny) (h0 : 0 ≤ d.Rmin)
    (hR : d.Rmin < d.Rmax) (hZ : d.Zmin < d.Zmax) (psi b : Arr K) (hsol : Solves nx ny (gsSparse d nx ny) psi b)
    (hin : ∀ c, Inside nx ny c → b c ≤ 0) (hedge : ∀ c, OnEdge nx ny c → 0 ≤ b c) :
    ∀ c, OnGrid nx ny c → 0 ≤ psi c := by
  intro c hc
  refine min_principle d.Rmin (spacingR d nx) (spacingZ d ny) h0 (spacing_pos hR hnx) (spacing_pos hZ hny) nx ny psi
    ?_ ?_ c hc.1 hc.2
  · intro c hi
    have hI := inside_iff.mpr hi
    have := hsol c (inside_onGrid hI)
    rw [((C35_matrix_is_operator d nx ny psi).1 c hI).2] at this
    rw [central_eq d nx ny psi c hI, this]
    exact hin c hI
  · intro c h1 h2 hi
    have hE := edge_iff.mpr ⟨⟨h1, h2⟩, hi⟩
    have := hsol c hE.1
    rw [(C35_matrix_is_operator d nx ny psi).2 c hE] at this
    rw [this]; exact hedge c hE

theorem matVec_sub (N : ℕ) (A : ℕ → ℕ → K) (u v : ℕ → K) (r : ℕ) :
    matVec N A (fun c => u c - v c) r = matVec N A u r - matVec N A v r := by
  simp only [matVec, ← Finset.sum_sub_distrib, mul_sub]

theorem unique_aux (d : Domain K) (nx ny : ℕ) (hnx : 2 ≤ nx) (hny : 2 ≤ ny) (h0 : 0 ≤ d.Rmin)
    (hR : d.Rmin < d.Rmax) (hZ : d.Zmin < d.Zmax) (psi phi b : Arr K) (h1 : Solves nx ny (gsSparse d nx ny) psi b)
    (h2 : Solves nx ny (gsSparse d nx ny) phi b) (c : ℕ × ℕ) (hc : OnGrid nx ny c) : phi c ≤ psi c := by
  have := C35_minimum_principle d nx ny hnx hny h0 hR hZ (fun c => psi c - phi c) (fun _ => 0) ?_
    (fun _ _ => le_refl _) (fun _ _ => le_refl _) c hc
  · linarith
  · intro c hc
    have e := matVec_sub (nx * ny) (gsSparse d nx ny) (flat ny psi) (flat ny phi) (c.1 * ny + c.2)
    rw [h1 c hc, h2 c hc, sub_self] at e
    exact e

/-- **C35 (unique solution).** For `Rmin ≥ 0` and every right-hand side, the matrix equation has exactly one solution on
the grid. -/
theorem C35_unique_solution (d : Domain K) (nx ny : ℕ) (hnx : 2 ≤ nx) (hny : 2 ≤ ny) (h0 : 0 ≤ d.Rmin)
    (hR : d.Rmin < d.Rmax) (hZ : d.Zmin < d.Zmax) (b : Arr K) :
    (∃ psi, Solves nx ny (gsSparse d nx ny) psi b) ∧
    ∀ psi phi, Solves nx ny (gsSparse d nx ny) psi b → Solves nx ny (gsSparse d nx ny) phi b →
      ∀ c, OnGrid nx ny c → psi c = phi c := by
  have huniq : ∀ psi phi b, Solves nx ny (gsSparse d nx ny) psi b → Solves nx ny (gsSparse d nx ny) phi b →
      ∀ c, OnGrid nx ny c → psi c = phi c := fun psi phi b h1 h2 c hc =>
    le_antisymm (unique_aux d nx ny hnx hny h0 hR hZ phi psi b h2 h1 c hc)
      (unique_aux d nx ny hnx hny h0 hR hZ psi phi b h1 h2 c hc)
  refine ⟨?_, fun psi phi => huniq psi phi b⟩
  -- the matrix as a linear map on vectors of length `nx * ny`
  let N := nx * ny
  let ext : (Fin N → K) → ℕ → K := fun v r => if h : r < N then v ⟨r, h⟩ else 0
  let L : (Fin N → K) →ₗ[K] (Fin N → K) :=
    { toFun := fun v r => matVec N (gsSparse d nx ny) (ext v) r
      map_add' := by
        intro u v
        funext r
        simp only [matVec, Pi.add_apply, ← Finset.sum_add_distrib]
        refine Finset.sum_congr rfl fun c _ => ?_
        simp only [ext]
        split
        · simp only [Pi.add_apply]; ring
        · ring
      map_smul' := by
        intro a v
        funext r
        simp only [matVec, Pi.smul_apply, smul_eq_mul, RingHom.id_apply, Finset.mul_sum]
        refine Finset.sum_congr rfl fun c _ => ?_
        simp only [ext]
        split
        · simp only [Pi.smul_apply, smul_eq_mul]; ring
        · ring }
  have hsolve : ∀ (v : Fin N → K) (b : Arr K), (∀ c, OnGrid nx ny c → ∀ h : c.1 * ny + c.2 < N, L v ⟨_, h⟩ = b c) →
      Solves nx ny (gsSparse d nx ny) (unflat ny (ext v)) b := by
    intro v b hv c hc
    have h := hv c hc (row_lt hc.1 hc.2)
    rw [← h]
    show _ = matVec N (gsSparse d nx ny) (ext v) (c.1 * ny + c.2)
    simp only [matVec]
    refine Finset.sum_congr rfl fun r _ => ?_
    congr 1
    rw [flat, unflat]
    congr 1
    simp only
    rw [mul_comm]; exact Nat.div_add_mod r ny
  have hinj : Function.Injective L := by
    rw [← LinearMap.ker_eq_bot, LinearMap.ker_eq_bot']
    intro v hv
    have s1 := hsolve v (fun _ => 0) (fun c _ h => by rw [hv]; rfl)
    have s2 := hsolve 0 (fun _ => 0) (fun c _ h => by rw [map_zero]; rfl)
    funext r
    obtain ⟨x, y, hx, hy, hr⟩ := exists_row r.2
    have := huniq _ _ _ s1 s2 (x, y) ⟨hx, hy⟩
    simp only [unflat, ext] at this
    have hlt : x * ny + y < N := row_lt hx hy
    rw [dif_pos hlt, dif_pos hlt] at this
    have e : r = ⟨x * ny + y, hlt⟩ := Fin.ext hr
    rw [e]; exact this
  obtain ⟨v, hv⟩ := (LinearMap.injective_iff_surjective.mp hinj) fun r => flat ny b r
  refine ⟨unflat ny (ext v), hsolve v b fun c hc h => ?_⟩
  rw [hv]; exact flat_row hc.2 b

/-- A grid that meets the hypotheses, with a source that changes the solution: on a 3 x 3 grid the middle value is
positive. -/
example : ∃ psi : Arr ℚ, Solves 3 3 (gsSparse ⟨1, 3, 0, 2⟩ 3 3) psi (fun c => if c = (1, 1) then -4 else 0) ∧
    psi (1, 1) = 1 := by
  refine ⟨fun c => if c = (1, 1) then 1 else 0, ?_, rfl⟩
  rintro ⟨x, y⟩ ⟨h1, h2⟩
  simp only at h1 h2
  interval_cases x <;> interval_cases y <;> decide +kernel

end order

/-! ## Fourth order -/

section order4
variable [IsStrictOrderedRing K]

/-- **C36.** On grids with at least six points each way, the fourth-order matrix is built and keeps edge
values, and at every interior point with non-zero radius it gives the exact operator for all polynomials of
degree at most four in `R` and five in `Z`. Missing: grids with three to five points (`C36_small_grid_error`,
`C36_small_grid_wrong`), which `Equilibrium` is documented to accept (5 = 2² + 1). -/
theorem C36_fourth_order_partial (d : Domain K) (nx ny : ℕ) (hnx : 6 ≤ nx) (hny : 6 ≤ ny) (hR : d.Rmin < d.Rmax)
    (hZ : d.Zmin < d.Zmax) :
    ∃ A, gs4Sparse d nx ny = .ok A ∧
      (∀ psi c, OnEdge nx ny c → matVec (nx * ny) A (flat ny psi) (c.1 * ny + c.2) = psi c) ∧
      ∀ {ι : Type} (s : Finset ι) (p q : ι → K[X]), (∀ i ∈ s, (p i).natDegree ≤ 4) → (∀ i ∈ s, (q i).natDegree ≤ 5) →
        ∀ c, Inside nx ny c → gridR d nx c.1 ≠ 0 →
          matVec (nx * ny) A (flat ny (samples d nx ny (poly2 s p q))) (c.1 * ny + c.2) =
            deltaStar s p q (gridR d nx c.1) (gridZ d ny c.2) := by
  obtain ⟨A, h1, h2, h3⟩ := gs4_apply d hnx hny
  refine ⟨A, h1, ?_, ?_⟩
  · intro psi c hc
    obtain ⟨hg, hi⟩ := edge_iff.mp hc
    exact h2 psi c.1 c.2 hg.1 hg.2 hi
  · intro ι s p q hp hq c hc hR0
    have hdR : spacingR d nx ≠ 0 := (spacing_pos hR (by omega)).ne'
    have hdZ : spacingZ d ny ≠ 0 := (spacing_pos hZ (by omega)).ne'
    rw [samples_eq, h3 _ c.1 c.2 (inside_iff.mp hc), ← gridR_eq, ← gridZ_eq]
    -- each formula is linear, so one product at a time
    have hlin : ∀ (l : List (ℤ × K)) (g : ι → K → K) (h x0 : K),
        stencil l (fun x => ∑ i ∈ s, g i x) h x0 = ∑ i ∈ s, stencil l (g i) h x0 := by
      intro l g h x0
      simp only [stencil]
      induction l with
      | nil => simp
      | cons a l ih => rw [List.map_cons, List.sum_cons, ih, Finset.mul_sum, ← Finset.sum_add_distrib]; rfl
    have hscal : ∀ (l : List (ℤ × K)) (g : K → K) (a h x0 : K),
        stencil l (fun x => a * g x) h x0 = a * stencil l g h x0 := by
      intro l g a h x0
      simp only [stencil]
      rw [← List.sum_map_mul_left]
      exact map_sum_congr _ _ _ fun p _ => by ring
    have hscal' : ∀ (l : List (ℤ × K)) (g : K → K) (a h x0 : K),
        stencil l (fun x => g x * a) h x0 = a * stencil l g h x0 := by
      intro l g a h x0
      rw [← hscal]
      simp only [stencil]
      exact map_sum_congr _ _ _ fun p _ => by ring
    have z2 : ∀ (f : K[X]), f.natDegree ≤ 5 → ∀ Z, 1 / spacingZ d ny ^ 2 *
        stencil (zRule ny c.2 : List (ℤ × K) × ℤ).1 (fun x => f.eval x)
          ((zRule ny c.2 : List (ℤ × K) × ℤ).2 * spacingZ d ny) Z = f.derivative.derivative.eval Z := by
      intro f hf Z
      unfold zRule
      split_ifs
      · rw [offset2_exact f hf]; push_cast; field_simp
      · rw [offset2_exact f hf]; push_cast; field_simp
      · rw [centred2_exact f hf]; push_cast; field_simp
    have r2 : ∀ (f : K[X]), f.natDegree ≤ 4 → ∀ R, 1 / spacingR d nx ^ 2 *
        stencil (rRule nx c.1 : (List (ℤ × K) × List (ℤ × K)) × ℤ).1.1 (fun x => f.eval x)
          ((rRule nx c.1 : (List (ℤ × K) × List (ℤ × K)) × ℤ).2 * spacingR d nx) R =
        f.derivative.derivative.eval R := by
      intro f hf R
      unfold rRule
      split_ifs
      · rw [offset2_exact f (by omega)]; push_cast; field_simp
      · rw [offset2_exact f (by omega)]; push_cast; field_simp
      · rw [centred2_exact f (by omega)]; push_cast; field_simp
    have r1 : ∀ (f : K[X]), f.natDegree ≤ 4 → ∀ R, R ≠ 0 →
        -((rRule nx c.1 : (List (ℤ × K) × List (ℤ × K)) × ℤ).2 : K) / (R * spacingR d nx) *
        stencil (rRule nx c.1 : (List (ℤ × K) × List (ℤ × K)) × ℤ).1.2 (fun x => f.eval x)
          ((rRule nx c.1 : (List (ℤ × K) × List (ℤ × K)) × ℤ).2 * spacingR d nx) R =
        -(1 / R * f.derivative.eval R) := by
      intro f hf R hR
      unfold rRule
      split_ifs
      · rw [offset1_exact f hf]; push_cast; field_simp
      · rw [offset1_exact f hf]; push_cast; field_simp
      · rw [centred1_exact f hf]; push_cast; field_simp
    have e1 : (poly2 s p q (gridR d nx c.1) : K → K) = fun x => ∑ i ∈ s, (p i).eval (gridR d nx c.1) * (q i).eval x := by
      funext x; rfl
    have e2 : (fun R => poly2 s p q R (gridZ d ny c.2)) = fun x => ∑ i ∈ s, (p i).eval x * (q i).eval (gridZ d ny c.2) := by
      funext x; rfl
    rw [e1, e2, hlin, hlin, hlin, Finset.mul_sum, Finset.mul_sum, Finset.mul_sum, ← Finset.sum_add_distrib,
      ← Finset.sum_add_distrib, deltaStar]
    refine Finset.sum_congr rfl fun i hi => ?_
    rw [hscal, hscal', hscal']
    have a1 := z2 (q i) (hq i hi) (gridZ d ny c.2)
    have a2 := r2 (p i) (hp i hi) (gridR d nx c.1)
    have a3 := r1 (p i) (hp i hi) (gridR d nx c.1) hR0
    linear_combination (p i).eval (gridR d nx c.1) * a1 + (q i).eval (gridZ d ny c.2) * a2 +
      (q i).eval (gridZ d ny c.2) * a3

/-- A case meeting the hypotheses of C36: `psi = R⁴ Z² + R`, at the first interior point of a 6 x 7 grid, where the
operator is `8 R² Z² + 2 R⁴ - 1 / R` (the matrix uses one-sided formulas in both directions there). -/
example : ∃ A, gs4Sparse (⟨1, 2, -1, 1⟩ : Domain ℚ) 6 7 = .ok A ∧
    matVec (6 * 7) A (flat 7 (samples ⟨1, 2, -1, 1⟩ 6 7 fun R Z => R ^ 4 * Z ^ 2 + R)) (1 * 7 + 1) =
      8 * (6 / 5) ^ 2 * (-2 / 3) ^ 2 + 2 * (6 / 5) ^ 4 - 1 / (6 / 5) := by
  obtain ⟨A, h1, _, h3⟩ := C36_fourth_order_partial (⟨1, 2, -1, 1⟩ : Domain ℚ) 6 7 (by norm_num) (by norm_num)
    (by norm_num) (by norm_num)
  refine ⟨A, h1, ?_⟩
  have h := h3 (Finset.univ : Finset Bool) (fun b => if b then X ^ 4 else X) (fun b => if b then X ^ 2 else 1)
    (by intro i _; cases i <;> simp) (by intro i _; cases i <;> simp) (1, 1) (by simp [Inside])
    (by simp only [gridR, stepR]; norm_num)
  have e : poly2 (Finset.univ : Finset Bool) (fun b => if b then (X : ℚ[X]) ^ 4 else X) (fun b => if b then X ^ 2 else 1) =
      fun R Z => R ^ 4 * Z ^ 2 + R := by
    funext R Z
    simp [poly2]
  rw [e] at h
  rw [h]
  simp only [deltaStar, Fintype.sum_bool, gridR, gridZ, stepR, stepZ]
  simp
  norm_num

end order4

/-- **C36 refuted on small grids.** With five points in `R` the matrix cannot be built. -/
theorem C36_small_grid_error : gs4Sparse (⟨1, 2, -1, 1⟩ : Domain ℚ) 5 9 = .error .index := by
  rw [gs4Sparse, if_neg (by decide +kernel)]

/-- **C36 refuted on small grids.** With five points in `Z` the matrix is built, but its formula reaches into the
next column of the grid: it does not give zero for the second `Z` derivative of a function of `R` alone (here
`psi = R²`, for which the operator is zero). -/
theorem C36_small_grid_wrong : ∃ A, gs4Sparse (⟨1, 2, -1, 1⟩ : Domain ℚ) 6 5 = .ok A ∧
    matVec (6 * 5) A (flat 5 (samples ⟨1, 2, -1, 1⟩ 6 5 fun R _ => R ^ 2)) (1 * 5 + 1) ≠ 0 := by
  have h : (match gs4Sparse (⟨1, 2, -1, 1⟩ : Domain ℚ) 6 5 with
    | .ok A => decide (((List.range 30).map fun c => A 6 c * flat 5 (samples ⟨1, 2, -1, 1⟩ 6 5 fun R _ => R ^ 2) c).sum ≠ 0)
    | .error _ => false) = true := by decide +kernel
  cases hA : gs4Sparse (⟨1, 2, -1, 1⟩ : Domain ℚ) 6 5 with
  | error e => rw [hA] at h; cases h
  | ok A =>
    rw [hA] at h
    refine ⟨A, rfl, ?_⟩
    exact of_decide_eq_true h

/-! ## Linear solve -/

theorem setEdge_edge {nx ny : ℕ} (a f : Arr K) {c : ℕ × ℕ} (hc : OnEdge nx ny c) : setEdge nx ny a f c = f c := by
  obtain ⟨hg, h⟩ := hc
  rw [OnGrid] at hg
  simp only [setEdge]
  split_ifs <;> first | rfl | omega

theorem setEdge_inside {nx ny : ℕ} (a f : Arr K) {c : ℕ × ℕ} (hc : Inside nx ny c) : setEdge nx ny a f c = a c := by
  rw [Inside] at hc
  simp only [setEdge]
  rw [if_neg (by omega), if_neg (by omega), if_neg (by omega), if_neg (by omega)]

theorem grid_cases {nx ny : ℕ} {c : ℕ × ℕ} (hc : OnGrid nx ny c) : OnEdge nx ny c ∨ Inside nx ny c := by
  rw [OnEdge, Inside]
  rw [OnGrid] at *
  omega

theorem linspace_gridR (d : Domain K) {nx : ℕ} (hnx : 2 ≤ nx) (i : ℕ) : linspaceAt d.Rmin d.Rmax nx i = gridR d nx i := by
  rw [linspaceAt, if_neg (by omega), gridR, stepR]

/-- **C34.** Let `A` be the matrix of the scheme and `factorized` a solver that returned a solution of the system it was
given. After the linear solve, `A` applied to the plasma flux is `-mu0 R Jtor` at every interior point; whatever the
boundary function is, the edge rows of the system have its values on the right-hand side. -/
theorem C34_linear_solve (A : ℕ → ℕ → K) (mu0 : K) (d : Domain K) (nx ny : ℕ) (hnx : 2 ≤ nx)
    (boundary : Arr K → Arr K → Arr K) (factorized : (ℕ → K) → ℕ → K)
    (hfac : ∀ b, ∀ r < nx * ny, matVec (nx * ny) A (factorized b) r = b r) (Jtor psi0 : Arr K) :
    let psi := solve mu0 nx ny (linspaceAt d.Rmin d.Rmax nx) boundary (fun _ b => mgDirect factorized ny b) Jtor psi0
    (∀ c, Inside nx ny c →
      matVec (nx * ny) A (flat ny psi) (c.1 * ny + c.2) = -mu0 * gridR d nx c.1 * Jtor c) ∧
    (∀ c, OnEdge nx ny c →
      matVec (nx * ny) A (flat ny psi) (c.1 * ny + c.2) = boundary Jtor psi0 c) := by
  intro psi
  have hrow : ∀ c : ℕ × ℕ, OnGrid nx ny c → matVec (nx * ny) A (flat ny psi) (c.1 * ny + c.2) =
      setEdge nx ny (fun c => -mu0 * linspaceAt d.Rmin d.Rmax nx c.1 * Jtor c) (boundary Jtor psi0) c := by
    intro c hc
    have e : flat ny psi = factorized (flat ny
        (setEdge nx ny (fun c => -mu0 * linspaceAt d.Rmin d.Rmax nx c.1 * Jtor c) (boundary Jtor psi0))) := by
      funext r
      show unflat ny _ (r / ny, r % ny) = _
      rw [unflat]
      simp only
      rw [mul_comm, Nat.div_add_mod r ny]
    rw [e, hfac _ _ (row_lt hc.1 hc.2), flat_row hc.2]
  constructor
  · intro c hc
    rw [hrow c (inside_onGrid hc), setEdge_inside _ _ hc, linspace_gridR d hnx]
  · intro c hc
    rw [hrow c hc.1, setEdge_edge _ _ hc]

section order2
variable [IsStrictOrderedRing K]

/-- **C34 (second order).** With the matrix of `GSsparse`, the plasma flux satisfies the central-difference
equation `Δ* psi = -mu0 R Jtor` at every interior point and has the values of the boundary function on the edge. For `Rmin ≥ 0` a
solver as assumed exists. -/
theorem C34_second_order (mu0 : K) (d : Domain K) (nx ny : ℕ) (hnx : 2 ≤ nx) (hny : 2 ≤ ny) (h0 : 0 ≤ d.Rmin)
    (hR : d.Rmin < d.Rmax) (hZ : d.Zmin < d.Zmax) :
    (∃ factorized : (ℕ → K) → ℕ → K,
      ∀ b, ∀ r < nx * ny, matVec (nx * ny) (gsSparse d nx ny) (factorized b) r = b r) ∧
    ∀ (factorized : (ℕ → K) → ℕ → K),
      (∀ b, ∀ r < nx * ny, matVec (nx * ny) (gsSparse d nx ny) (factorized b) r = b r) →
      ∀ (boundary : Arr K → Arr K → Arr K) (Jtor psi0 : Arr K),
      let psi := solve mu0 nx ny (linspaceAt d.Rmin d.Rmax nx) boundary (fun _ b => mgDirect factorized ny b) Jtor psi0
      (∀ c, Inside nx ny c → centralDelta d nx ny psi c = -mu0 * gridR d nx c.1 * Jtor c) ∧
      (∀ c, OnEdge nx ny c → psi c = boundary Jtor psi0 c) := by
  constructor
  · have h := fun b => (C35_unique_solution d nx ny hnx hny h0 hR hZ (unflat ny b)).1
    choose f hf using h
    refine ⟨fun b => flat ny (f b), fun b r hr => ?_⟩
    obtain ⟨x, y, hx, hy, rfl⟩ := exists_row hr
    exact hf b (x, y) ⟨hx, hy⟩
  · intro factorized hfac boundary Jtor psi0 psi
    obtain ⟨a, b⟩ := C34_linear_solve (gsSparse d nx ny) mu0 d nx ny hnx boundary factorized hfac Jtor psi0
    constructor
    · intro c hc
      rw [← a c hc, ((C35_matrix_is_operator d nx ny _).1 c hc).2]
    · intro c hc
      rw [← b c hc, (C35_matrix_is_operator d nx ny _).2 c hc]

/-- **C34 (fourth order, the default).** The same for the fourth-order matrix on grids with at least six points each way: the matrix
is the one of C36, and the edge values are those of the boundary function. That the matrix can be inverted is assumed of the
solver. -/
theorem C34_fourth_order (mu0 : K) (d : Domain K) (nx ny : ℕ) (hnx : 6 ≤ nx) (hny : 6 ≤ ny) (A : ℕ → ℕ → K)
    (hA : gs4Sparse d nx ny = .ok A) (factorized : (ℕ → K) → ℕ → K)
    (hfac : ∀ b, ∀ r < nx * ny, matVec (nx * ny) A (factorized b) r = b r) (boundary : Arr K → Arr K → Arr K)
    (Jtor psi0 : Arr K) :
    let psi := solve mu0 nx ny (linspaceAt d.Rmin d.Rmax nx) boundary (fun _ b => mgDirect factorized ny b) Jtor psi0
    (∀ c, Inside nx ny c →
      matVec (nx * ny) A (flat ny psi) (c.1 * ny + c.2) = -mu0 * gridR d nx c.1 * Jtor c) ∧
    (∀ c, OnEdge nx ny c → psi c = boundary Jtor psi0 c) := by
  intro psi
  obtain ⟨a, b⟩ := C34_linear_solve A mu0 d nx ny (by omega) boundary factorized hfac Jtor psi0
  refine ⟨a, fun c hc => ?_⟩
  obtain ⟨A', h1, h2, _⟩ := gs4_apply d hnx hny
  rw [hA] at h1
  cases h1
  obtain ⟨hg, hi⟩ := edge_iff.mp hc
  rw [← b c hc, h2 _ c.1 c.2 hg.1 hg.2 hi]

/-- A case meeting the hypotheses of C34. -/
example : ∃ factorized : (ℕ → ℚ) → ℕ → ℚ, ∀ b, ∀ r < 5 * 3,
    matVec (5 * 3) (gsSparse ⟨1, 3, -1, 1⟩ 5 3) (factorized b) r = b r :=
  (C34_second_order 1 ⟨1, 3, -1, 1⟩ 5 3 (by norm_num) (by norm_num) (by norm_num) (by norm_num) (by norm_num)).1

end order2

end FreeGS.GS
