import Verif.Props.GradShafranov

/-!
# C131: reciprocity and energy of the solve with a fixed edge
-/

set_option linter.unusedSectionVars false

namespace FreeGS.GS

open FreeGS.Critical (Domain linspaceAt)

variable {K : Type*} [Field K] [LinearOrder K] [IsStrictOrderedRing K]

/-- The sum over the inner points of the grid of current density times flux, times a factor that is one up to `(dR/R)²/4`: the
energy of the current `J` in the flux `psi`, but for the factor `2π dR dZ`. -/
def currentTimesFlux (d : Domain K) (nx ny : ℕ) (J psi : Arr K) : K :=
  ∑ i ∈ Finset.range (nx - 2), ∑ j ∈ Finset.range (ny - 2),
    J (i + 1, j + 1) * psi (i + 1, j + 1) / (1 - (stepR d nx / (2 * gridR d nx (i + 1))) ^ 2)

/-! ## Summation by parts -/

theorem sum_by_parts (f v : ℕ → K) : ∀ m : ℕ, ∑ i ∈ Finset.range m, v (i + 1) * (f (i + 1) - f i) =
    f m * v (m + 1) - f 0 * v 0 - ∑ i ∈ Finset.range (m + 1), f i * (v (i + 1) - v i)
  | 0 => by simp; ring
  | m + 1 => by
    rw [Finset.sum_range_succ, sum_by_parts f v m, Finset.sum_range_succ _ (m + 1)]
    ring

/-- What is summed for two flux maps: products of differences between neighbours, in both directions. -/
def differences (d : Domain K) (nx ny : ℕ) (u v : Arr K) : K :=
  (∑ j ∈ Finset.range (ny - 2), ∑ i ∈ Finset.range (nx - 1),
    1 / (stepR d nx ^ 2 * (gridR d nx i + stepR d nx / 2)) * (u (i + 1, j + 1) - u (i, j + 1)) * (v (i + 1, j + 1) - v (i, j + 1))) +
  ∑ i ∈ Finset.range (nx - 2), ∑ j ∈ Finset.range (ny - 1),
    gridR d nx (i + 1) / (gridR d nx (i + 1) ^ 2 - stepR d nx ^ 2 / 4) / stepZ d ny ^ 2 * (u (i + 1, j + 1) - u (i + 1, j)) * (v (i + 1, j + 1) - v (i + 1, j))

theorem differences_symm (d : Domain K) (nx ny : ℕ) (u v : Arr K) : differences d nx ny u v = differences d nx ny v u := by
  unfold differences
  congr 1 <;> exact Finset.sum_congr rfl fun _ _ => Finset.sum_congr rfl fun _ _ => by ring

/-- The operator times the weight, in the form of a divergence. -/
theorem central_divergence {h k R u0 um up vm vp : K} (hh : 0 < h) (hk : 0 < k) (hR : h / 2 < R) :
    R / (R ^ 2 - h ^ 2 / 4) * ((up - 2 * u0 + um) / h ^ 2 - (up - um) / (2 * h) / R + (vp - 2 * u0 + vm) / k ^ 2) =
      (1 / (h ^ 2 * (R + h / 2)) * (up - u0) - 1 / (h ^ 2 * (R - h + h / 2)) * (u0 - um)) +
      (R / (R ^ 2 - h ^ 2 / 4) / k ^ 2 * (vp - u0) - R / (R ^ 2 - h ^ 2 / 4) / k ^ 2 * (u0 - vm)) := by
  obtain ⟨a, b, rfl, rfl⟩ : ∃ a b, R = (a + b) / 2 ∧ h = a - b := ⟨R + h / 2, R - h / 2, by ring, by ring⟩
  have hb : 0 < b := by linarith
  have h1 : a ≠ 0 := by linarith
  have h2 : a - b ≠ 0 := hh.ne'
  have h3 : a + b ≠ 0 := by linarith
  rw [show ((a + b) / 2) ^ 2 - (a - b) ^ 2 / 4 = a * b by ring, show (a + b) / 2 + (a - b) / 2 = a by ring,
    show (a + b) / 2 - (a - b) + (a - b) / 2 = b by ring]
  field_simp
  ring

theorem gridR_gt {d : Domain K} {nx : ℕ} (h0 : 0 ≤ d.Rmin) (hh : 0 < stepR d nx) (i : ℕ) : stepR d nx / 2 < gridR d nx (i + 1) := by
  rw [gridR]
  push_cast
  have : 0 ≤ (i : K) * stepR d nx := mul_nonneg (Nat.cast_nonneg i) hh.le
  linarith

theorem grid_green (d : Domain K) (n m : ℕ) (h0 : 0 ≤ d.Rmin) (hh : 0 < stepR d (n + 2)) (hk : 0 < stepZ d (m + 2)) (u v : Arr K)
    (hv : ∀ c, OnEdge (n + 2) (m + 2) c → v c = 0) :
    (∑ i ∈ Finset.range n, ∑ j ∈ Finset.range m, v (i + 1, j + 1) *
      (gridR d (n + 2) (i + 1) / (gridR d (n + 2) (i + 1) ^ 2 - stepR d (n + 2) ^ 2 / 4) * centralDelta d (n + 2) (m + 2) u (i + 1, j + 1))) =
      -differences d (n + 2) (m + 2) u v := by
  have e1 : ∀ i j, v (i + 1, j + 1) *
      (gridR d (n + 2) (i + 1) / (gridR d (n + 2) (i + 1) ^ 2 - stepR d (n + 2) ^ 2 / 4) * centralDelta d (n + 2) (m + 2) u (i + 1, j + 1)) =
      v (i + 1, j + 1) * (1 / (stepR d (n + 2) ^ 2 * (gridR d (n + 2) (i + 1) + stepR d (n + 2) / 2)) * (u (i + 1 + 1, j + 1) - u (i + 1, j + 1)) -
        1 / (stepR d (n + 2) ^ 2 * (gridR d (n + 2) i + stepR d (n + 2) / 2)) * (u (i + 1, j + 1) - u (i, j + 1))) +
      v (i + 1, j + 1) * (gridR d (n + 2) (i + 1) / (gridR d (n + 2) (i + 1) ^ 2 - stepR d (n + 2) ^ 2 / 4) / stepZ d (m + 2) ^ 2 *
          (u (i + 1, j + 1 + 1) - u (i + 1, j + 1)) -
        gridR d (n + 2) (i + 1) / (gridR d (n + 2) (i + 1) ^ 2 - stepR d (n + 2) ^ 2 / 4) / stepZ d (m + 2) ^ 2 * (u (i + 1, j + 1) - u (i + 1, j))) := by
    intro i j
    simp only [centralDelta, Nat.add_sub_cancel]
    rw [central_divergence hh hk (gridR_gt h0 hh i), mul_add]
    have : gridR d (n + 2) (i + 1) - stepR d (n + 2) = gridR d (n + 2) i := by
      simp only [gridR]
      push_cast
      ring
    rw [this]
  simp only [e1, Finset.sum_add_distrib]
  rw [Finset.sum_comm]
  have e2 : ∀ j ∈ Finset.range m, ∑ i ∈ Finset.range n, v (i + 1, j + 1) *
      (1 / (stepR d (n + 2) ^ 2 * (gridR d (n + 2) (i + 1) + stepR d (n + 2) / 2)) * (u (i + 1 + 1, j + 1) - u (i + 1, j + 1)) -
        1 / (stepR d (n + 2) ^ 2 * (gridR d (n + 2) i + stepR d (n + 2) / 2)) * (u (i + 1, j + 1) - u (i, j + 1))) =
      -∑ i ∈ Finset.range (n + 1), 1 / (stepR d (n + 2) ^ 2 * (gridR d (n + 2) i + stepR d (n + 2) / 2)) * (u (i + 1, j + 1) - u (i, j + 1)) *
        (v (i + 1, j + 1) - v (i, j + 1)) := by
    intro j hj
    have hj := Finset.mem_range.mp hj
    have := sum_by_parts (fun i => 1 / (stepR d (n + 2) ^ 2 * (gridR d (n + 2) i + stepR d (n + 2) / 2)) * (u (i + 1, j + 1) - u (i, j + 1)))
      (fun i => v (i, j + 1)) n
    rw [this, hv (0, j + 1) ⟨⟨by simp, by simp; omega⟩, by simp⟩, hv (n + 1, j + 1) ⟨⟨by simp, by simp; omega⟩, by simp⟩]
    ring
  have e3 : ∀ i ∈ Finset.range n, ∑ j ∈ Finset.range m, v (i + 1, j + 1) *
      (gridR d (n + 2) (i + 1) / (gridR d (n + 2) (i + 1) ^ 2 - stepR d (n + 2) ^ 2 / 4) / stepZ d (m + 2) ^ 2 * (u (i + 1, j + 1 + 1) - u (i + 1, j + 1)) -
        gridR d (n + 2) (i + 1) / (gridR d (n + 2) (i + 1) ^ 2 - stepR d (n + 2) ^ 2 / 4) / stepZ d (m + 2) ^ 2 * (u (i + 1, j + 1) - u (i + 1, j))) =
      -∑ j ∈ Finset.range (m + 1), gridR d (n + 2) (i + 1) / (gridR d (n + 2) (i + 1) ^ 2 - stepR d (n + 2) ^ 2 / 4) / stepZ d (m + 2) ^ 2 *
        (u (i + 1, j + 1) - u (i + 1, j)) * (v (i + 1, j + 1) - v (i + 1, j)) := by
    intro i hi
    have hi := Finset.mem_range.mp hi
    have := sum_by_parts (fun j => gridR d (n + 2) (i + 1) / (gridR d (n + 2) (i + 1) ^ 2 - stepR d (n + 2) ^ 2 / 4) / stepZ d (m + 2) ^ 2 *
      (u (i + 1, j + 1) - u (i + 1, j))) (fun j => v (i + 1, j)) m
    rw [this, hv (i + 1, 0) ⟨⟨by simp; omega, by simp⟩, by simp⟩, hv (i + 1, m + 1) ⟨⟨by simp; omega, by simp⟩, by simp⟩]
    ring
  rw [Finset.sum_congr rfl e2, Finset.sum_congr rfl e3, Finset.sum_neg_distrib, Finset.sum_neg_distrib, differences]
  simp only [Nat.add_sub_cancel, show n + 2 - 1 = n + 1 by omega, show m + 2 - 1 = m + 1 by omega]
  ring

theorem differences_zero (d : Domain K) (n m : ℕ) (h0 : 0 ≤ d.Rmin) (hh : 0 < stepR d (n + 2)) (hk : 0 < stepZ d (m + 2)) (u : Arr K)
    (hu : ∀ c, OnEdge (n + 2) (m + 2) c → u c = 0) :
    0 ≤ differences d (n + 2) (m + 2) u u ∧ (differences d (n + 2) (m + 2) u u = 0 → ∀ c, OnGrid (n + 2) (m + 2) c → u c = 0) := by
  have a0 : ∀ i, 0 < 1 / (stepR d (n + 2) ^ 2 * (gridR d (n + 2) i + stepR d (n + 2) / 2)) := by
    intro i
    have : 0 ≤ gridR d (n + 2) i := by
      rw [gridR]
      positivity
    positivity
  have b0 : ∀ i, 0 ≤ gridR d (n + 2) (i + 1) / (gridR d (n + 2) (i + 1) ^ 2 - stepR d (n + 2) ^ 2 / 4) / stepZ d (m + 2) ^ 2 := by
    intro i
    have h1 := gridR_gt h0 hh i
    have h2 : 0 ≤ gridR d (n + 2) (i + 1) ^ 2 - stepR d (n + 2) ^ 2 / 4 := by nlinarith
    have h3 : 0 ≤ gridR d (n + 2) (i + 1) := by linarith
    positivity
  have p1 : ∀ j ∈ Finset.range m, ∀ i ∈ Finset.range (n + 1), 0 ≤
      1 / (stepR d (n + 2) ^ 2 * (gridR d (n + 2) i + stepR d (n + 2) / 2)) * (u (i + 1, j + 1) - u (i, j + 1)) * (u (i + 1, j + 1) - u (i, j + 1)) := by
    intro j _ i _
    rw [mul_assoc]
    exact mul_nonneg (a0 i).le (mul_self_nonneg _)
  have p2 : 0 ≤ ∑ i ∈ Finset.range n, ∑ j ∈ Finset.range (m + 1),
      gridR d (n + 2) (i + 1) / (gridR d (n + 2) (i + 1) ^ 2 - stepR d (n + 2) ^ 2 / 4) / stepZ d (m + 2) ^ 2 *
        (u (i + 1, j + 1) - u (i + 1, j)) * (u (i + 1, j + 1) - u (i + 1, j)) :=
    Finset.sum_nonneg fun i _ => Finset.sum_nonneg fun j _ => by rw [mul_assoc]; exact mul_nonneg (b0 i) (mul_self_nonneg _)
  have p3 := Finset.sum_nonneg fun j hj => Finset.sum_nonneg (p1 j hj)
  have e : differences d (n + 2) (m + 2) u u = (∑ j ∈ Finset.range m, ∑ i ∈ Finset.range (n + 1),
      1 / (stepR d (n + 2) ^ 2 * (gridR d (n + 2) i + stepR d (n + 2) / 2)) * (u (i + 1, j + 1) - u (i, j + 1)) * (u (i + 1, j + 1) - u (i, j + 1))) +
      ∑ i ∈ Finset.range n, ∑ j ∈ Finset.range (m + 1),
      gridR d (n + 2) (i + 1) / (gridR d (n + 2) (i + 1) ^ 2 - stepR d (n + 2) ^ 2 / 4) / stepZ d (m + 2) ^ 2 *
        (u (i + 1, j + 1) - u (i + 1, j)) * (u (i + 1, j + 1) - u (i + 1, j)) := rfl
  refine ⟨by rw [e]; exact add_nonneg p3 p2, fun hz => ?_⟩
  rw [e] at hz
  have z1 := le_antisymm (by linarith) p3
  have z2 := (Finset.sum_eq_zero_iff_of_nonneg fun j hj => Finset.sum_nonneg (p1 j hj)).mp z1
  have flat : ∀ j < m, ∀ i ≤ n + 1, u (i, j + 1) = 0 := by
    intro j hj i
    induction i with
    | zero => exact fun _ => hu _ ⟨⟨by simp, by simp; omega⟩, by simp⟩
    | succ i ih =>
      intro hi
      have z3 := (Finset.sum_eq_zero_iff_of_nonneg (p1 j (Finset.mem_range.mpr hj))).mp (z2 j (Finset.mem_range.mpr hj)) i (Finset.mem_range.mpr (by omega))
      rw [mul_assoc] at z3
      have z4 := mul_self_eq_zero.mp ((mul_eq_zero.mp z3).resolve_left (a0 i).ne')
      rw [ih (by omega)] at z4
      linarith
  intro c hc
  obtain ⟨i, j⟩ := c
  obtain ⟨hi, hj⟩ := hc
  simp only at hi hj
  by_cases hedge : j = 0 ∨ j = m + 1
  · exact hu _ ⟨⟨hi, hj⟩, by simp only; omega⟩
  · obtain ⟨j', rfl⟩ := Nat.exists_eq_succ_of_ne_zero (fun h => hedge (Or.inl h))
    exact flat j' (by omega) i (by omega)

/-- **C131.** The second-order solve with the edge held at zero, for any two current densities. Reciprocity: the energy of the first current in the
flux of the second is that of the second in the flux of the first. The energy of a current in its own flux is not negative, and zero only if there
is no current inside. -/
theorem C131_reciprocity (d : Domain K) (nx ny : ℕ) (hnx : 2 ≤ nx) (hny : 2 ≤ ny)
    (h0 : 0 ≤ d.Rmin) (hR : d.Rmin < d.Rmax) (hZ : d.Zmin < d.Zmax) (mu0 : K) (hmu : 0 < mu0) (factorized : (ℕ → K) → ℕ → K)
    (hf : ∀ b, ∀ r < nx * ny, matVec (nx * ny) (gsSparse d nx ny) (factorized b) r = b r) (J J' psi0 psi0' : Arr K) :
    let flux := fun J psi0 => solve mu0 nx ny (linspaceAt d.Rmin d.Rmax nx) (fun _ psi => fixedBoundary nx ny psi)
      (fun _ b => mgDirect factorized ny b) J psi0
    currentTimesFlux d nx ny J (flux J' psi0') = currentTimesFlux d nx ny J' (flux J psi0) ∧
      0 ≤ currentTimesFlux d nx ny J (flux J psi0) ∧
      (currentTimesFlux d nx ny J (flux J psi0) = 0 → ∀ c, Inside nx ny c → J c = 0) := by
  intro flux
  obtain ⟨n, rfl⟩ : ∃ n, nx = n + 2 := ⟨nx - 2, by omega⟩
  obtain ⟨m, rfl⟩ : ∃ m, ny = m + 2 := ⟨ny - 2, by omega⟩
  have hh : 0 < stepR d (n + 2) := spacing_pos hR hnx
  have hk : 0 < stepZ d (m + 2) := spacing_pos hZ hny
  have spec : ∀ J psi0, (∀ c, Inside (n + 2) (m + 2) c → centralDelta d (n + 2) (m + 2) (flux J psi0) c = -mu0 * gridR d (n + 2) c.1 * J c) ∧
      ∀ c, OnEdge (n + 2) (m + 2) c → flux J psi0 c = 0 := by
    intro J psi0
    obtain ⟨i1, e1⟩ := (C34_second_order mu0 d (n + 2) (m + 2) hnx hny h0 hR hZ).2 factorized hf (fun _ psi => fixedBoundary (n + 2) (m + 2) psi) J psi0
    exact ⟨i1, fun c hc => (e1 c hc).trans (setEdge_edge _ _ hc)⟩
  have energy : ∀ J J' psi0 psi0', mu0 * currentTimesFlux d (n + 2) (m + 2) J (flux J' psi0') = differences d (n + 2) (m + 2) (flux J psi0) (flux J' psi0') := by
    intro J J' psi0 psi0'
    have := grid_green d n m h0 hh hk (flux J psi0) (flux J' psi0') (spec J' psi0').2
    rw [eq_comm, neg_eq_iff_eq_neg] at this
    rw [this, currentTimesFlux, Finset.mul_sum, ← Finset.sum_neg_distrib]
    refine Finset.sum_congr rfl fun i hi => ?_
    rw [Finset.mul_sum, ← Finset.sum_neg_distrib]
    refine Finset.sum_congr rfl fun j hj => ?_
    have hi := Finset.mem_range.mp hi
    have hj := Finset.mem_range.mp hj
    rw [(spec J psi0).1 (i + 1, j + 1) ⟨by simp, by simp only; omega, by simp, by simp only; omega⟩]
    have h1 := gridR_gt h0 hh i
    have h2 : gridR d (n + 2) (i + 1) ≠ 0 := by linarith
    have h3 : gridR d (n + 2) (i + 1) ^ 2 - stepR d (n + 2) ^ 2 / 4 ≠ 0 := by nlinarith
    have h4 : 1 - (stepR d (n + 2) / (2 * gridR d (n + 2) (i + 1))) ^ 2 = (gridR d (n + 2) (i + 1) ^ 2 - stepR d (n + 2) ^ 2 / 4) / gridR d (n + 2) (i + 1) ^ 2 := by
      field_simp
      ring
    rw [h4]
    generalize gridR d (n + 2) (i + 1) ^ 2 - stepR d (n + 2) ^ 2 / 4 = q at h3
    field_simp
  have dz := differences_zero d n m h0 hh hk (flux J psi0) (spec J psi0).2
  refine ⟨?_, ?_, fun hz c hc => ?_⟩
  · have e1 := energy J J' psi0 psi0'
    have e2 := energy J' J psi0' psi0
    exact mul_left_cancel₀ hmu.ne' (e1.trans ((differences_symm _ _ _ _ _).trans e2.symm))
  · have e1 := energy J J psi0 psi0
    exact nonneg_of_mul_nonneg_right (by rw [e1]; exact dz.1) hmu
  · have e1 := energy J J psi0 psi0
    rw [hz, mul_zero] at e1
    have hu := dz.2 e1.symm
    have h1 := (spec J psi0).1 c hc
    obtain ⟨g1, g2, g3, g4⟩ := hc
    have hc0 : centralDelta d (n + 2) (m + 2) (flux J psi0) c = 0 := by
      rw [centralDelta, hu c ⟨by omega, by omega⟩, hu (c.1 + 1, c.2) ⟨g2, by simp only; omega⟩, hu (c.1 - 1, c.2) ⟨by simp only; omega, by simp only; omega⟩,
        hu (c.1, c.2 + 1) ⟨by simp only; omega, g4⟩, hu (c.1, c.2 - 1) ⟨by simp only; omega, by simp only; omega⟩]
      simp
    rw [hc0] at h1
    have hr : gridR d (n + 2) c.1 ≠ 0 := by
      obtain ⟨i, hi⟩ := Nat.exists_eq_succ_of_ne_zero g1.ne'
      rw [hi]
      have := gridR_gt h0 hh i
      have : 0 < gridR d (n + 2) (i + 1) := by linarith
      exact this.ne'
    have := mul_eq_zero.mp h1.symm
    rcases this with h | h
    · exact absurd h (mul_ne_zero (neg_ne_zero.mpr hmu.ne') hr)
    · exact h

theorem currentTimesFlux_point (d : Domain K) (nx ny : ℕ) (psi : Arr K) {c : ℕ × ℕ} (hc : Inside nx ny c) :
    currentTimesFlux d nx ny (fun q => if q = c then 1 else 0) psi = psi c / (1 - (stepR d nx / (2 * gridR d nx c.1)) ^ 2) := by
  obtain ⟨i, j⟩ := c
  obtain ⟨g1, g2, g3, g4⟩ := hc
  obtain ⟨i, rfl⟩ := Nat.exists_eq_succ_of_ne_zero g1.ne'
  obtain ⟨j, rfl⟩ := Nat.exists_eq_succ_of_ne_zero g3.ne'
  simp only at g2 g4
  rw [currentTimesFlux, Finset.sum_eq_single i, Finset.sum_eq_single j]
  · simp
  · intro j' _ hj'
    simp [hj']
  · intro h
    exact absurd (Finset.mem_range.mpr (by omega)) h
  · intro i' _ hi'
    exact Finset.sum_eq_zero fun j' _ => by simp [hi']
  · intro h
    exact absurd (Finset.mem_range.mpr (by omega)) h

/-- **C131 (two points).** The flux at the inner point `a` of a current at the inner point `b` alone is that at `b` of the same current at `a`, up to
factors that are one but for `(dR/R)²/4`; for points at the same radius they are equal. -/
theorem C131_two_points (d : Domain K) (nx ny : ℕ) (h0 : 0 ≤ d.Rmin) (hR : d.Rmin < d.Rmax) (hZ : d.Zmin < d.Zmax) (mu0 : K) (hmu : 0 < mu0)
    (factorized : (ℕ → K) → ℕ → K) (hf : ∀ b, ∀ r < nx * ny, matVec (nx * ny) (gsSparse d nx ny) (factorized b) r = b r) (psi0 : Arr K)
    {a b : ℕ × ℕ} (ha : Inside nx ny a) (hb : Inside nx ny b) :
    let flux := fun p : ℕ × ℕ => solve mu0 nx ny (linspaceAt d.Rmin d.Rmax nx) (fun _ psi => fixedBoundary nx ny psi)
      (fun _ r => mgDirect factorized ny r) (fun q => if q = p then 1 else 0) psi0
    flux b a / (1 - (stepR d nx / (2 * gridR d nx a.1)) ^ 2) = flux a b / (1 - (stepR d nx / (2 * gridR d nx b.1)) ^ 2) ∧
      (a.1 = b.1 → flux b a = flux a b) := by
  intro flux
  have hnx : 2 ≤ nx := by have := ha.2.1; omega
  have hny : 2 ≤ ny := by have := ha.2.2.2; omega
  have main := (C131_reciprocity d nx ny hnx hny h0 hR hZ mu0 hmu factorized hf (fun q => if q = a then 1 else 0) (fun q => if q = b then 1 else 0)
    psi0 psi0).1
  rw [currentTimesFlux_point d nx ny _ ha, currentTimesFlux_point d nx ny _ hb] at main
  refine ⟨main, fun hab => ?_⟩
  rw [hab] at main
  have hh : 0 < stepR d nx := spacing_pos hR hnx
  have hpos : 1 - (stepR d nx / (2 * gridR d nx b.1)) ^ 2 ≠ 0 := by
    obtain ⟨i, hi⟩ := Nat.exists_eq_succ_of_ne_zero hb.1.ne'
    have h1 := gridR_gt h0 hh i
    have h2 : 0 < gridR d nx (i + 1) := by linarith
    have h3 : stepR d nx / (2 * gridR d nx (i + 1)) < 1 := by rw [div_lt_one (by positivity)]; linarith
    have h4 : 0 ≤ stepR d nx / (2 * gridR d nx (i + 1)) := by positivity
    rw [hi]
    have : (stepR d nx / (2 * gridR d nx (i + 1))) ^ 2 < 1 := by nlinarith
    exact (sub_pos.mpr this).ne'
  exact (div_left_inj' hpos).mp main

/-- A solver and two points that meet the hypotheses. -/
example : (∃ factorized : (ℕ → ℚ) → ℕ → ℚ, ∀ b, ∀ r < 5 * 5, matVec (5 * 5) (gsSparse ⟨1, 3, 0, 2⟩ 5 5) (factorized b) r = b r) ∧
    Inside 5 5 (1, 2) ∧ Inside 5 5 (3, 1) :=
  ⟨(C34_second_order 1 (⟨1, 3, 0, 2⟩ : Domain ℚ) 5 5 (by norm_num) (by norm_num) (by norm_num) (by norm_num) (by norm_num)).1,
    by simp [Inside], by simp [Inside]⟩

end FreeGS.GS
