import Verif.Lemmas.Energy
import Verif.Spec.FourthOrder
import Mathlib.Logic.Function.Basic

/-!
# The fourth-order matrix on arrays, and its energy
-/

set_option linter.unusedSectionVars false

namespace FreeGS.GS

open FreeGS.Critical (Domain)

variable {K : Type*} [Field K] [LinearOrder K] [IsStrictOrderedRing K]

theorem stencil_at {g : K → K} {f : ℕ → K} {a h : K} (hg : ∀ k : ℕ, g (a + h * k) = f k) (y : ℕ) (k s : ℤ) (m : ℕ)
    (he : (y : ℤ) + s * k = m) : g (a + h * y + k * (s * h)) = f m := by
  rw [← hg m]
  congr 1
  have : ((m : ℤ) : K) = (y : K) + s * k := by rw [← he]; push_cast; ring
  have e : (m : K) = (y : K) + s * k := by simpa using this
  rw [e]; ring

theorem zRule_row {g : K → K} {f : ℕ → K} {a h : K} (hg : ∀ k : ℕ, g (a + h * k) = f k) {ny y : ℕ} (hny : 6 ≤ ny) (h1 : 1 ≤ y)
    (h2 : y + 1 < ny) :
    stencil (zRule ny y : List (ℤ × K) × ℤ).1 g ((zRule ny y : List (ℤ × K) × ℤ).2 * h) (a + h * y) = row2 (ny - 1) f y / 12 := by
  unfold zRule row2
  by_cases c1 : y = 1
  · subst c1
    simp only [if_true, stencil, offset2, List.map_cons, List.map_nil, List.sum_cons, List.sum_nil]
    rw [stencil_at hg 1 (-1) 1 0 (by norm_num), stencil_at hg 1 0 1 1 (by norm_num), stencil_at hg 1 1 1 2 (by norm_num),
      stencil_at hg 1 2 1 3 (by norm_num), stencil_at hg 1 3 1 4 (by norm_num), stencil_at hg 1 4 1 5 (by norm_num)]
    ring
  · by_cases c2 : y + 2 = ny
    · simp only [if_neg c1, if_pos c2, if_pos (show y + 1 = ny - 1 by omega), stencil, offset2, List.map_cons, List.map_nil, List.sum_cons,
        List.sum_nil]
      rw [stencil_at hg y (-1) (-1) (ny - 1) (by omega), stencil_at hg y 0 (-1) (ny - 1 - 1) (by omega),
        stencil_at hg y 1 (-1) (ny - 1 - 2) (by omega), stencil_at hg y 2 (-1) (ny - 1 - 3) (by omega),
        stencil_at hg y 3 (-1) (ny - 1 - 4) (by omega), stencil_at hg y 4 (-1) (ny - 1 - 5) (by omega)]
      ring
    · simp only [if_neg c1, if_neg c2, if_neg (show ¬ y + 1 = ny - 1 by omega), stencil, centred2, List.map_cons, List.map_nil,
        List.sum_cons, List.sum_nil]
      rw [stencil_at hg y (-2) 1 (y - 2) (by omega), stencil_at hg y (-1) 1 (y - 1) (by omega), stencil_at hg y 0 1 y (by omega),
        stencil_at hg y 1 1 (y + 1) (by omega), stencil_at hg y 2 1 (y + 2) (by omega)]
      ring

theorem rRule_row {g : K → K} {f : ℕ → K} {a h : K} (hg : ∀ k : ℕ, g (a + h * k) = f k) {nx x : ℕ} (hnx : 6 ≤ nx) (h1 : 1 ≤ x)
    (h2 : x + 1 < nx) :
    stencil (rRule nx x : (List (ℤ × K) × List (ℤ × K)) × ℤ).1.1 g ((rRule nx x : (List (ℤ × K) × List (ℤ × K)) × ℤ).2 * h) (a + h * x) =
      row2 (nx - 1) f x / 12 ∧
    ((rRule nx x : (List (ℤ × K) × List (ℤ × K)) × ℤ).2 : K) *
      stencil (rRule nx x : (List (ℤ × K) × List (ℤ × K)) × ℤ).1.2 g ((rRule nx x : (List (ℤ × K) × List (ℤ × K)) × ℤ).2 * h) (a + h * x) =
      row1 (nx - 1) f x / 12 := by
  constructor
  · have := zRule_row hg (ny := nx) hnx h1 h2
    unfold zRule at this
    unfold rRule
    split_ifs at this ⊢ <;> exact this
  unfold rRule row1
  by_cases c1 : x = 1
  · subst c1
    simp only [if_true, stencil, offset1, List.map_cons, List.map_nil, List.sum_cons, List.sum_nil]
    rw [stencil_at hg 1 (-1) 1 0 (by norm_num), stencil_at hg 1 0 1 1 (by norm_num), stencil_at hg 1 1 1 2 (by norm_num),
      stencil_at hg 1 2 1 3 (by norm_num), stencil_at hg 1 3 1 4 (by norm_num)]
    push_cast
    ring
  · by_cases c2 : x + 2 = nx
    · simp only [if_neg c1, if_pos c2, if_pos (show x + 1 = nx - 1 by omega), stencil, offset1, List.map_cons, List.map_nil, List.sum_cons,
        List.sum_nil]
      rw [stencil_at hg x (-1) (-1) (nx - 1) (by omega), stencil_at hg x 0 (-1) (nx - 1 - 1) (by omega),
        stencil_at hg x 1 (-1) (nx - 1 - 2) (by omega), stencil_at hg x 2 (-1) (nx - 1 - 3) (by omega),
        stencil_at hg x 3 (-1) (nx - 1 - 4) (by omega)]
      push_cast
      ring
    · simp only [if_neg c1, if_neg c2, if_neg (show ¬ x + 1 = nx - 1 by omega), stencil, centred1, List.map_cons, List.map_nil,
        List.sum_cons, List.sum_nil]
      rw [stencil_at hg x (-2) 1 (x - 2) (by omega), stencil_at hg x (-1) 1 (x - 1) (by omega),
        stencil_at hg x 1 1 (x + 1) (by omega), stencil_at hg x 2 1 (x + 2) (by omega)]
      push_cast
      ring

/-- The fourth-order matrix applied to any array. -/
theorem gs4_rows (d : Domain K) {nx ny : ℕ} (hnx : 6 ≤ nx) (hny : 6 ≤ ny) (hR : d.Rmin < d.Rmax) (hZ : d.Zmin < d.Zmax) :
    ∃ A, gs4Sparse d nx ny = .ok A ∧
      (∀ (psi : Arr K) c, OnEdge nx ny c → matVec (nx * ny) A (flat ny psi) (c.1 * ny + c.2) = psi c) ∧
      ∀ (psi : Arr K) c, Inside nx ny c →
        matVec (nx * ny) A (flat ny psi) (c.1 * ny + c.2) =
          row2 (ny - 1) (fun y => psi (c.1, y)) c.2 / (12 * stepZ d ny ^ 2) +
          (row2 (nx - 1) (fun x => psi (x, c.2)) c.1 -
            stepR d nx / gridR d nx c.1 * row1 (nx - 1) (fun x => psi (x, c.2)) c.1) / (12 * stepR d nx ^ 2) := by
  obtain ⟨A, h1, h2, h3⟩ := gs4_apply d hnx hny
  refine ⟨A, h1, ?_, ?_⟩
  · intro psi c hc
    obtain ⟨hg, hi⟩ := edge_iff.mp hc
    exact h2 psi c.1 c.2 hg.1 hg.2 hi
  · intro psi c hc
    have hdR : stepR d nx ≠ 0 := (spacing_pos hR (by omega)).ne'
    have hdZ : stepZ d ny ≠ 0 := (spacing_pos hZ (by omega)).ne'
    have iR : Function.Injective (gridR d nx) := by
      intro i j hij
      simp only [gridR, add_right_inj] at hij
      exact_mod_cast mul_right_cancel₀ hdR hij
    have iZ : Function.Injective (gridZ d ny) := by
      intro i j hij
      simp only [gridZ, add_right_inj] at hij
      exact_mod_cast mul_right_cancel₀ hdZ hij
    set F : K → K → K := fun R Z => psi (Function.invFun (gridR d nx) R, Function.invFun (gridZ d ny) Z) with hF
    have lR := Function.leftInverse_invFun iR
    have lZ := Function.leftInverse_invFun iZ
    have hpsi : psi = samples d nx ny F := by
      funext e
      simp only [samples, hF]
      rw [lR e.1, lZ e.2]
    have hz : ∀ k : ℕ, F (gridR d nx c.1) (d.Zmin + spacingZ d ny * k) = psi (c.1, k) := by
      intro k
      rw [← gridZ_eq]
      simp only [hF]
      rw [lR, lZ]
    have hr : ∀ k : ℕ, (fun R => F R (gridZ d ny c.2)) (d.Rmin + spacingR d nx * k) = psi (k, c.2) := by
      intro k
      rw [← gridR_eq]
      simp only [hF]
      rw [lR, lZ]
    have e := h3 F c.1 c.2 (inside_iff.mp hc)
    rw [← samples_eq, ← hpsi] at e
    rw [e]
    have az := zRule_row (g := F (gridR d nx c.1)) (f := fun y => psi (c.1, y)) hz hny hc.2.2.1 hc.2.2.2
    obtain ⟨a2, a1⟩ := rRule_row (g := fun R => F R (gridZ d ny c.2)) (f := fun x => psi (x, c.2)) hr hnx hc.1 hc.2.1
    rw [← gridZ_eq] at az
    rw [← gridR_eq] at a2 a1
    rw [← gridZ_eq, ← gridR_eq, az, a2]
    have sR : spacingR d nx = stepR d nx := rfl
    have sZ : spacingZ d ny = stepZ d ny := rfl
    rw [sR] at a1 ⊢
    rw [sZ]
    have : ∀ (s st R h : K), -s / (R * h) * st = -(s * st) / (R * h) := fun s st R h => by ring
    rw [this, a1]
    rcases eq_or_ne (gridR d nx c.1) 0 with h0 | h0
    · rw [h0]; field_simp; ring
    · field_simp; ring

theorem interiorSum_comm (nx ny : ℕ) (f : Arr K) :
    interiorSum nx ny f = ∑ j ∈ Finset.range (ny - 2), ∑ i ∈ Finset.range (nx - 2), f (i + 1, j + 1) := Finset.sum_comm

theorem interiorSum_nonneg (nx ny : ℕ) (f : Arr K) (h : ∀ c, Inside nx ny c → 0 ≤ f c) : 0 ≤ interiorSum nx ny f :=
  Finset.sum_nonneg fun i hi => Finset.sum_nonneg fun j hj => h _ (by
    have := Finset.mem_range.mp hi
    have := Finset.mem_range.mp hj
    simp only [Inside]; omega)

theorem interiorSum_le (nx ny : ℕ) (f g : Arr K) (h : ∀ c, Inside nx ny c → f c ≤ g c) : interiorSum nx ny f ≤ interiorSum nx ny g :=
  Finset.sum_le_sum fun i hi => Finset.sum_le_sum fun j hj => h _ (by
    have := Finset.mem_range.mp hi
    have := Finset.mem_range.mp hj
    simp only [Inside]; omega)

theorem interiorSum_congr (nx ny : ℕ) (f g : Arr K) (h : ∀ c, Inside nx ny c → f c = g c) : interiorSum nx ny f = interiorSum nx ny g :=
  le_antisymm (interiorSum_le nx ny f g fun c hc => (h c hc).le) (interiorSum_le nx ny g f fun c hc => (h c hc).ge)

/-- **Energy estimate.** For values that vanish on the edge, the operator takes out at least a twelfth of the squared differences in `Z`,
divided by the squared step. -/
theorem gs4_energy (d : Domain K) {nx ny : ℕ} (hnx : 9 ≤ nx) (hny : 9 ≤ ny) (hR : d.Rmin < d.Rmax) (hZ : d.Zmin < d.Zmax)
    (h2 : 2 * stepR d nx ≤ d.Rmin) {A : ℕ → ℕ → K} (hA : gs4Sparse d nx ny = .ok A) (u : Arr K) (hu : ∀ c, OnEdge nx ny c → u c = 0) :
    ∑ i ∈ Finset.range (nx - 2), ∑ j ∈ Finset.range (ny - 1), (u (i + 1, j + 1) - u (i + 1, j)) ^ 2 ≤
      12 * stepZ d ny ^ 2 * -interiorSum nx ny fun c => u c * matVec (nx * ny) A (flat ny u) (c.1 * ny + c.2) := by
  obtain ⟨A', e1, _, e3⟩ := gs4_rows d (by omega : 6 ≤ nx) (by omega : 6 ≤ ny) hR hZ
  rw [hA] at e1
  cases e1
  obtain ⟨p, rfl⟩ := Nat.exists_eq_add_of_le' hnx
  obtain ⟨q, rfl⟩ := Nat.exists_eq_add_of_le' hny
  have hdR : 0 < stepR d (p + 9) := spacing_pos hR (by omega)
  have hdZ : 0 < stepZ d (q + 9) := spacing_pos hZ (by omega)
  have hgpos : ∀ k, 0 < gridR d (p + 9) k := by
    intro k
    have : (0 : K) ≤ k := Nat.cast_nonneg k
    simp only [gridR]
    nlinarith
  set r : ℕ → K := fun k => stepR d (p + 9) / gridR d (p + 9) k with hr
  have r1 : ∀ k, r k - r (k + 1) = r k * r (k + 1) := by
    intro k
    have a := (hgpos k).ne'
    have b := (hgpos (k + 1)).ne'
    simp only [hr]
    have e : gridR d (p + 9) (k + 1) = gridR d (p + 9) k + stepR d (p + 9) := by simp only [gridR]; push_cast; ring
    rw [e] at b ⊢
    rw [div_sub_div _ _ a b, div_mul_div_comm]
    congr 1; ring
  have r2 : ∀ k, r k - r (k + 2) = 2 * (r k * r (k + 2)) := by
    intro k
    have a := (hgpos k).ne'
    have b := (hgpos (k + 2)).ne'
    simp only [hr]
    have e : gridR d (p + 9) (k + 2) = gridR d (p + 9) k + 2 * stepR d (p + 9) := by simp only [gridR]; push_cast; ring
    rw [e] at b ⊢
    rw [div_sub_div _ _ a b, div_mul_div_comm, mul_div_assoc']
    congr 1; ring
  have r0 : ∀ k, 0 ≤ r k := fun k => div_nonneg hdR.le (hgpos k).le
  have r3 : ∀ k, r (k + 1) ≤ 1 / 3 := by
    intro k
    simp only [hr]
    rw [div_le_iff₀ (hgpos _)]
    have : (0 : K) ≤ k := Nat.cast_nonneg k
    have : 0 ≤ (k : K) * stepR d (p + 9) := by positivity
    simp only [gridR]
    push_cast
    linarith
  simp only [show p + 9 - 2 = p + 7 by omega, show q + 9 - 1 = q + 8 by omega]
  have hsplit : interiorSum (p + 9) (q + 9) (fun c => u c * matVec ((p + 9) * (q + 9)) A (flat (q + 9) u) (c.1 * (q + 9) + c.2)) =
      (∑ i ∈ Finset.range (p + 7), ∑ j ∈ Finset.range (q + 7), u (i + 1, j + 1) * row2 (q + 8) (fun y => u (i + 1, y)) (j + 1)) /
        (12 * stepZ d (q + 9) ^ 2) +
      (∑ j ∈ Finset.range (q + 7), ∑ i ∈ Finset.range (p + 7), u (i + 1, j + 1) * (row2 (p + 8) (fun x => u (x, j + 1)) (i + 1) -
        r (i + 1) * row1 (p + 8) (fun x => u (x, j + 1)) (i + 1))) / (12 * stepR d (p + 9) ^ 2) := by
    rw [Finset.sum_comm (s := Finset.range (q + 7)), Finset.sum_div, Finset.sum_div, ← Finset.sum_add_distrib]
    refine Finset.sum_congr rfl fun i hi => ?_
    rw [Finset.sum_div, Finset.sum_div, ← Finset.sum_add_distrib]
    refine Finset.sum_congr rfl fun j hj => ?_
    have := Finset.mem_range.mp hi
    have := Finset.mem_range.mp hj
    have e := e3 u (i + 1, j + 1) (by simp only [Inside]; omega)
    simp only at e ⊢
    rw [e]
    simp only [show p + 9 - 1 = p + 8 by omega, show q + 9 - 1 = q + 8 by omega, hr]
    ring
  have hz : ∑ i ∈ Finset.range (p + 7), ∑ j ∈ Finset.range (q + 8), (u (i + 1, j + 1) - u (i + 1, j)) ^ 2 ≤
      -∑ i ∈ Finset.range (p + 7), ∑ j ∈ Finset.range (q + 7), u (i + 1, j + 1) * row2 (q + 8) (fun y => u (i + 1, y)) (j + 1) := by
    rw [← Finset.sum_neg_distrib]
    refine Finset.sum_le_sum fun i hi => ?_
    have := Finset.mem_range.mp hi
    exact energy_Z q (fun y => u (i + 1, y)) (hu (i + 1, 0) (by unfold OnEdge OnGrid; dsimp only; omega))
      (hu (i + 1, q + 8) (by unfold OnEdge OnGrid; dsimp only; omega))
  have hx : ∑ j ∈ Finset.range (q + 7), ∑ i ∈ Finset.range (p + 7), u (i + 1, j + 1) * (row2 (p + 8) (fun x => u (x, j + 1)) (i + 1) -
        r (i + 1) * row1 (p + 8) (fun x => u (x, j + 1)) (i + 1)) ≤ 0 := by
    refine Finset.sum_nonpos fun j hj => ?_
    have := Finset.mem_range.mp hj
    have e := energy_R p (fun x => u (x, j + 1)) r (hu (0, j + 1) (by unfold OnEdge OnGrid; dsimp only; omega))
      (hu (p + 8, j + 1) (by unfold OnEdge OnGrid; dsimp only; omega)) r1 r2 r0 r3
    have s : 0 ≤ ∑ k ∈ Finset.range (p + 8), ((fun x => u (x, j + 1)) (k + 1) - (fun x => u (x, j + 1)) k) ^ 2 :=
      Finset.sum_nonneg fun k _ => sq_nonneg _
    linarith
  rw [hsplit]
  refine hz.trans ?_
  generalize ∑ i ∈ Finset.range (p + 7), ∑ j ∈ Finset.range (q + 7),
    u (i + 1, j + 1) * row2 (q + 8) (fun y => u (i + 1, y)) (j + 1) = X at *
  generalize ∑ j ∈ Finset.range (q + 7), ∑ i ∈ Finset.range (p + 7), u (i + 1, j + 1) * (row2 (p + 8) (fun x => u (x, j + 1)) (i + 1) -
        r (i + 1) * row1 (p + 8) (fun x => u (x, j + 1)) (i + 1)) = Y at *
  have e : 12 * stepZ d (q + 9) ^ 2 * -(X / (12 * stepZ d (q + 9) ^ 2) + Y / (12 * stepR d (p + 9) ^ 2)) =
      -X + -Y * (stepZ d (q + 9) ^ 2 / stepR d (p + 9) ^ 2) := by
    field_simp
    ring
  rw [e]
  have := mul_nonneg (show 0 ≤ -Y by linarith) (show 0 ≤ stepZ d (q + 9) ^ 2 / stepR d (p + 9) ^ 2 by positivity)
  linarith

/-- Cauchy-Schwarz on the interior. -/
theorem interiorSum_cs (nx ny : ℕ) (f g : Arr K) :
    interiorSum nx ny (fun c => f c * g c) ^ 2 ≤ interiorSum nx ny (fun c => f c ^ 2) * interiorSum nx ny fun c => g c ^ 2 := by
  simp only [interiorSum]
  rw [← Finset.sum_product', ← Finset.sum_product', ← Finset.sum_product']
  exact Finset.sum_mul_sq_le_sq_mul_sq _ _ _

/-- Height of the domain in steps. -/
theorem stepZ_height (d : Domain K) {ny : ℕ} (hny : 2 ≤ ny) : stepZ d ny * ((ny : K) - 1) = d.Zmax - d.Zmin := by
  have : (2 : K) ≤ ny := by exact_mod_cast hny
  rw [stepZ, div_mul_cancel₀]
  intro h; linarith

/-- The interior sum of squares is bounded by the energy. -/
theorem gs4_coercive (d : Domain K) {nx ny : ℕ} (hnx : 9 ≤ nx) (hny : 9 ≤ ny) (hR : d.Rmin < d.Rmax) (hZ : d.Zmin < d.Zmax)
    (h2 : 2 * stepR d nx ≤ d.Rmin) {A : ℕ → ℕ → K} (hA : gs4Sparse d nx ny = .ok A) (u : Arr K) (hu : ∀ c, OnEdge nx ny c → u c = 0) :
    interiorSum nx ny (fun c => u c ^ 2) ≤
      2 * (d.Zmax - d.Zmin) ^ 2 * -interiorSum nx ny fun c => u c * matVec (nx * ny) A (flat ny u) (c.1 * ny + c.2) := by
  have he := gs4_energy d hnx hny hR hZ h2 hA u hu
  have hp : 6 * interiorSum nx ny (fun c => u c ^ 2) ≤ ((ny : K) - 1) ^ 2 *
      ∑ i ∈ Finset.range (nx - 2), ∑ j ∈ Finset.range (ny - 1), (u (i + 1, j + 1) - u (i + 1, j)) ^ 2 := by
    simp only [interiorSum]
    rw [Finset.mul_sum, Finset.mul_sum]
    refine Finset.sum_le_sum fun i hi => ?_
    have hi' := Finset.mem_range.mp hi
    obtain ⟨m, rfl⟩ := Nat.exists_eq_add_of_le' (show 2 ≤ ny by omega)
    have := poincare m (fun y => u (i + 1, y)) (hu (i + 1, 0) (by unfold OnEdge OnGrid; dsimp only; omega))
      (hu (i + 1, m + 1) (by unfold OnEdge OnGrid; dsimp only; omega))
    simp only [show m + 2 - 2 = m by omega, show m + 2 - 1 = m + 1 by omega]
    push_cast
    rw [show ((m : K) + 2 - 1) = m + 1 by ring]
    exact this
  have hh := stepZ_height d (show 2 ≤ ny by omega)
  have := mul_le_mul_of_nonneg_left he (sq_nonneg ((ny : K) - 1))
  rw [← hh]
  generalize (interiorSum nx ny fun c => u c * matVec (nx * ny) A (flat ny u) (c.1 * ny + c.2)) = X at *
  nlinarith

end FreeGS.GS
