import Verif.Props.Reciprocity

/-!
# C133: the solve gives the flux of least energy
-/

set_option linter.unusedSectionVars false

namespace FreeGS.GS

open FreeGS.Critical (Domain linspaceAt)

variable {K : Type*} [Field K] [LinearOrder K] [IsStrictOrderedRing K]

/-- The energy of a flux map on the grid, together with that of the current density in it: half the sum of `|∇psi|²/R` (the square of the
poloidal field times the radius, with differences between neighbouring points for the derivatives) minus `mu0` times the sum of current times flux. -/
def totalEnergy (mu0 : K) (d : Domain K) (nx ny : ℕ) (J psi : Arr K) : K :=
  differences d nx ny psi psi / 2 - mu0 * currentTimesFlux d nx ny J psi

theorem sum_split {ι : Type*} {s : Finset ι} {a b c e : ι → K} (h : ∀ i ∈ s, a i = b i + 2 * c i + e i) :
    ∑ i ∈ s, a i = ∑ i ∈ s, b i + 2 * ∑ i ∈ s, c i + ∑ i ∈ s, e i := by
  rw [Finset.sum_congr rfl h, Finset.sum_add_distrib, Finset.sum_add_distrib, Finset.mul_sum]

theorem differences_expand (d : Domain K) (nx ny : ℕ) (u v : Arr K) :
    differences d nx ny v v = differences d nx ny u u + 2 * differences d nx ny u (v - u) + differences d nx ny (v - u) (v - u) := by
  have e1 : (∑ j ∈ Finset.range (ny - 2), ∑ i ∈ Finset.range (nx - 1),
      1 / (stepR d nx ^ 2 * (gridR d nx i + stepR d nx / 2)) * (v (i + 1, j + 1) - v (i, j + 1)) * (v (i + 1, j + 1) - v (i, j + 1))) = _ :=
    sum_split fun j _ => sum_split fun i _ => (by
      show _ = 1 / (stepR d nx ^ 2 * (gridR d nx i + stepR d nx / 2)) * (u (i + 1, j + 1) - u (i, j + 1)) * (u (i + 1, j + 1) - u (i, j + 1)) +
        2 * (1 / (stepR d nx ^ 2 * (gridR d nx i + stepR d nx / 2)) * (u (i + 1, j + 1) - u (i, j + 1)) * ((v - u) (i + 1, j + 1) - (v - u) (i, j + 1))) +
        1 / (stepR d nx ^ 2 * (gridR d nx i + stepR d nx / 2)) * ((v - u) (i + 1, j + 1) - (v - u) (i, j + 1)) * ((v - u) (i + 1, j + 1) - (v - u) (i, j + 1))
      simp only [Pi.sub_apply]
      ring)
  have e2 : (∑ i ∈ Finset.range (nx - 2), ∑ j ∈ Finset.range (ny - 1),
      gridR d nx (i + 1) / (gridR d nx (i + 1) ^ 2 - stepR d nx ^ 2 / 4) / stepZ d ny ^ 2 * (v (i + 1, j + 1) - v (i + 1, j)) * (v (i + 1, j + 1) - v (i + 1, j))) = _ :=
    sum_split fun i _ => sum_split fun j _ => (by
      show _ = gridR d nx (i + 1) / (gridR d nx (i + 1) ^ 2 - stepR d nx ^ 2 / 4) / stepZ d ny ^ 2 * (u (i + 1, j + 1) - u (i + 1, j)) * (u (i + 1, j + 1) - u (i + 1, j)) +
        2 * (gridR d nx (i + 1) / (gridR d nx (i + 1) ^ 2 - stepR d nx ^ 2 / 4) / stepZ d ny ^ 2 * (u (i + 1, j + 1) - u (i + 1, j)) *
          ((v - u) (i + 1, j + 1) - (v - u) (i + 1, j))) +
        gridR d nx (i + 1) / (gridR d nx (i + 1) ^ 2 - stepR d nx ^ 2 / 4) / stepZ d ny ^ 2 * ((v - u) (i + 1, j + 1) - (v - u) (i + 1, j)) *
          ((v - u) (i + 1, j + 1) - (v - u) (i + 1, j))
      simp only [Pi.sub_apply]
      ring)
  unfold differences
  rw [e1, e2]
  ring

theorem currentTimesFlux_split (d : Domain K) (nx ny : ℕ) (J u v : Arr K) :
    currentTimesFlux d nx ny J v = currentTimesFlux d nx ny J u + currentTimesFlux d nx ny J (v - u) := by
  simp only [currentTimesFlux, ← Finset.sum_add_distrib, Pi.sub_apply]
  refine Finset.sum_congr rfl fun i _ => Finset.sum_congr rfl fun j _ => ?_
  ring

/-- Summation by parts with a solution of the discrete equation. -/
theorem green_current {mu0 : K} (d : Domain K) (n m : ℕ) (h0 : 0 ≤ d.Rmin) (hh : 0 < stepR d (n + 2)) (hk : 0 < stepZ d (m + 2)) {J u v : Arr K}
    (hu : ∀ c, Inside (n + 2) (m + 2) c → centralDelta d (n + 2) (m + 2) u c = -mu0 * gridR d (n + 2) c.1 * J c)
    (hv : ∀ c, OnEdge (n + 2) (m + 2) c → v c = 0) :
    mu0 * currentTimesFlux d (n + 2) (m + 2) J v = differences d (n + 2) (m + 2) u v := by
  have := grid_green d n m h0 hh hk u v hv
  rw [eq_comm, neg_eq_iff_eq_neg] at this
  rw [this, currentTimesFlux, Finset.mul_sum, ← Finset.sum_neg_distrib]
  refine Finset.sum_congr rfl fun i hi => ?_
  rw [Finset.mul_sum, ← Finset.sum_neg_distrib]
  refine Finset.sum_congr rfl fun j hj => ?_
  have hi := Finset.mem_range.mp hi
  have hj := Finset.mem_range.mp hj
  rw [hu (i + 1, j + 1) ⟨by simp, by simp only; omega, by simp, by simp only; omega⟩]
  have h1 := gridR_gt h0 hh i
  have h2 : gridR d (n + 2) (i + 1) ≠ 0 := by linarith
  have h3 : gridR d (n + 2) (i + 1) ^ 2 - stepR d (n + 2) ^ 2 / 4 ≠ 0 := by nlinarith
  have h4 : 1 - (stepR d (n + 2) / (2 * gridR d (n + 2) (i + 1))) ^ 2 = (gridR d (n + 2) (i + 1) ^ 2 - stepR d (n + 2) ^ 2 / 4) / gridR d (n + 2) (i + 1) ^ 2 := by
    field_simp
    ring
  rw [h4]
  generalize gridR d (n + 2) (i + 1) ^ 2 - stepR d (n + 2) ^ 2 / 4 = q at h3
  field_simp

/-- **C133.** The second-order solve, with whatever boundary condition. Among all flux maps with the edge values of the result, the result has the least
energy, and every other one has more. -/
theorem C133_least_energy (d : Domain K) (nx ny : ℕ) (hnx : 2 ≤ nx) (hny : 2 ≤ ny)
    (h0 : 0 ≤ d.Rmin) (hR : d.Rmin < d.Rmax) (hZ : d.Zmin < d.Zmax) (mu0 : K) (factorized : (ℕ → K) → ℕ → K)
    (hf : ∀ b, ∀ r < nx * ny, matVec (nx * ny) (gsSparse d nx ny) (factorized b) r = b r) (boundary : Arr K → Arr K → Arr K) (J psi0 psi : Arr K) :
    let flux := solve mu0 nx ny (linspaceAt d.Rmin d.Rmax nx) boundary (fun _ b => mgDirect factorized ny b) J psi0
    (∀ c, OnEdge nx ny c → psi c = flux c) →
    totalEnergy mu0 d nx ny J flux ≤ totalEnergy mu0 d nx ny J psi ∧
      (totalEnergy mu0 d nx ny J psi = totalEnergy mu0 d nx ny J flux → ∀ c, OnGrid nx ny c → psi c = flux c) := by
  intro flux hedge
  obtain ⟨n, rfl⟩ : ∃ n, nx = n + 2 := ⟨nx - 2, by omega⟩
  obtain ⟨m, rfl⟩ : ∃ m, ny = m + 2 := ⟨ny - 2, by omega⟩
  have hh : 0 < stepR d (n + 2) := spacing_pos hR hnx
  have hk : 0 < stepZ d (m + 2) := spacing_pos hZ hny
  obtain ⟨i1, -⟩ := (C34_second_order mu0 d (n + 2) (m + 2) hnx hny h0 hR hZ).2 factorized hf boundary J psi0
  have hw : ∀ c, OnEdge (n + 2) (m + 2) c → (psi - flux) c = 0 := fun c hc => by rw [Pi.sub_apply, hedge c hc, sub_self]
  have hg := green_current d n m h0 hh hk i1 hw
  have key : totalEnergy mu0 d (n + 2) (m + 2) J psi = totalEnergy mu0 d (n + 2) (m + 2) J flux + differences d (n + 2) (m + 2) (psi - flux) (psi - flux) / 2 := by
    rw [totalEnergy, totalEnergy, differences_expand d _ _ flux psi, currentTimesFlux_split d _ _ J flux psi, mul_add, hg]
    ring
  obtain ⟨p, z⟩ := differences_zero d n m h0 hh hk (psi - flux) hw
  refine ⟨by rw [key]; linarith, fun he c hc => ?_⟩
  have := z (by linarith) c hc
  exact sub_eq_zero.mp this

/-- **C133 (edge at zero).** With the edge held at zero the energy of the current in its own flux is the largest value of `2 J·psi - |∇psi|²/(mu0 R)` over all
flux maps that are zero on the edge, and the energy of the field is half of it. -/
theorem C133_edge_zero (d : Domain K) (nx ny : ℕ) (hnx : 2 ≤ nx) (hny : 2 ≤ ny)
    (h0 : 0 ≤ d.Rmin) (hR : d.Rmin < d.Rmax) (hZ : d.Zmin < d.Zmax) (mu0 : K) (hmu : 0 < mu0) (factorized : (ℕ → K) → ℕ → K)
    (hf : ∀ b, ∀ r < nx * ny, matVec (nx * ny) (gsSparse d nx ny) (factorized b) r = b r) (J psi0 : Arr K) :
    let flux := solve mu0 nx ny (linspaceAt d.Rmin d.Rmax nx) (fun _ psi => fixedBoundary nx ny psi) (fun _ b => mgDirect factorized ny b) J psi0
    differences d nx ny flux flux = mu0 * currentTimesFlux d nx ny J flux ∧
      ∀ psi : Arr K, (∀ c, OnEdge nx ny c → psi c = 0) →
        2 * currentTimesFlux d nx ny J psi - differences d nx ny psi psi / mu0 ≤ currentTimesFlux d nx ny J flux := by
  intro flux
  have main := fun psi => C133_least_energy d nx ny hnx hny h0 hR hZ mu0 factorized hf (fun _ psi => fixedBoundary nx ny psi) J psi0 psi
  obtain ⟨n, rfl⟩ : ∃ n, nx = n + 2 := ⟨nx - 2, by omega⟩
  obtain ⟨m, rfl⟩ : ∃ m, ny = m + 2 := ⟨ny - 2, by omega⟩
  have hh : 0 < stepR d (n + 2) := spacing_pos hR hnx
  have hk : 0 < stepZ d (m + 2) := spacing_pos hZ hny
  obtain ⟨i1, e1⟩ := (C34_second_order mu0 d (n + 2) (m + 2) hnx hny h0 hR hZ).2 factorized hf (fun _ psi => fixedBoundary (n + 2) (m + 2) psi) J psi0
  have hz : ∀ c, OnEdge (n + 2) (m + 2) c → flux c = 0 := fun c hc => (e1 c hc).trans (setEdge_edge _ _ hc)
  have hg : mu0 * currentTimesFlux d (n + 2) (m + 2) J flux = differences d (n + 2) (m + 2) flux flux := green_current d n m h0 hh hk i1 hz
  refine ⟨hg.symm, fun psi hpsi => ?_⟩
  have h1 := (main psi fun c hc => by rw [hpsi c hc]; exact (hz c hc).symm).1
  simp only [totalEnergy] at h1
  change differences d (n + 2) (m + 2) flux flux / 2 - mu0 * currentTimesFlux d (n + 2) (m + 2) J flux ≤ _ at h1
  rw [← hg] at h1
  have h2 : mu0 * (2 * currentTimesFlux d (n + 2) (m + 2) J psi - differences d (n + 2) (m + 2) psi psi / mu0) ≤ mu0 * currentTimesFlux d (n + 2) (m + 2) J flux := by
    rw [mul_sub, mul_div_cancel₀ _ hmu.ne']
    linarith
  exact le_of_mul_le_mul_left h2 hmu

/-- A solver, and a flux map with the edge of the result that is not the result. -/
example : ∃ factorized : (ℕ → ℚ) → ℕ → ℚ, (∀ b, ∀ r < 5 * 5, matVec (5 * 5) (gsSparse ⟨1, 3, 0, 2⟩ 5 5) (factorized b) r = b r) ∧
    ∃ psi : Arr ℚ, (∀ c, OnEdge 5 5 c → psi c = solve 1 5 5 (linspaceAt 1 3 5) (fun _ psi => fixedBoundary 5 5 psi) (fun _ b => mgDirect factorized 5 b) 1 0 c) ∧
      psi (2, 2) ≠ solve 1 5 5 (linspaceAt 1 3 5) (fun _ psi => fixedBoundary 5 5 psi) (fun _ b => mgDirect factorized 5 b) 1 0 (2, 2) := by
  obtain ⟨f, hf⟩ := (C34_second_order 1 (⟨1, 3, 0, 2⟩ : Domain ℚ) 5 5 (by norm_num) (by norm_num) (by norm_num) (by norm_num) (by norm_num)).1
  refine ⟨f, hf, fun c => (solve 1 5 5 (linspaceAt 1 3 5) (fun _ psi => fixedBoundary 5 5 psi) (fun _ b => mgDirect f 5 b) 1 0 c) + (if c = (2, 2) then 1 else 0), ?_, by simp⟩
  intro c hc
  have : c ≠ (2, 2) := by
    rintro rfl
    obtain ⟨-, h⟩ := hc
    simp at h
  simp [this]

end FreeGS.GS
