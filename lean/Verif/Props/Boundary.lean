import Verif.Lemmas.Boundary
import Verif.Lemmas.GradShafranov
import Verif.Props.GradShafranov

/-!
# Boundary functions (C37, C38)
-/

set_option linter.unusedSectionVars false

namespace FreeGS.GS

open FreeGS.Critical (Domain)

variable {K : Type*} [Field K] [LinearOrder K]

/-! ## Fixed boundary -/

/-- **C37 (fixed boundary).** `fixedBoundary` sets every edge value to zero and no other. -/
theorem C37_fixed (nx ny : ℕ) (psi : Arr K) :
    (∀ c, OnEdge nx ny c → fixedBoundary nx ny psi c = 0) ∧ (∀ c, Inside nx ny c → fixedBoundary nx ny psi c = psi c) ∧
    (∀ c, OnGrid nx ny c → fixedBoundary nx ny (fixedBoundary nx ny psi) c = fixedBoundary nx ny psi c) := by
  refine ⟨fun c hc => setEdge_edge _ _ hc, fun c hc => setEdge_inside _ _ hc, fun c hc => ?_⟩
  rcases grid_cases hc with h | h
  · rw [fixedBoundary, setEdge_edge _ _ h, fixedBoundary, setEdge_edge _ _ h]
  · rw [fixedBoundary, setEdge_inside _ _ h]

/-! ## Free boundary -/

theorem mem_edge {nx ny : ℕ} {c : ℕ × ℕ} (hx : 0 < nx) (hy : 0 < ny) : c ∈ edgeIndices nx ny ↔ OnEdge nx ny c := by
  rw [mem_edgeIndices, OnEdge, OnGrid]; omega

theorem quadrature_of [CharZero K] {k : ℕ} {w : ℕ → K}
    (h0 : ∑ m ∈ Finset.range (2 ^ k + 1), w m = 2 ^ k)
    (h1 : ∑ m ∈ Finset.range (2 ^ k + 1), w m * m = (2 ^ k) ^ 2 / 2)
    (h2 : 1 ≤ k → ∑ m ∈ Finset.range (2 ^ k + 1), w m * (m : K) ^ 2 = (2 ^ k) ^ 3 / 3 ∧
      ∑ m ∈ Finset.range (2 ^ k + 1), w m * (m : K) ^ 3 = (2 ^ k) ^ 4 / 4) : Quadrature (2 ^ k + 1) w := by
  intro e he
  have hk : 2 < 2 ^ k + 1 → 1 ≤ k := by
    intro h
    by_contra hk
    have : k = 0 := by omega
    subst this
    norm_num at h
  have hn : (((2 ^ k + 1 : ℕ) : K)) - 1 = 2 ^ k := by push_cast; ring
  rw [hn]
  have : e = 0 ∨ e = 1 ∨ ((e = 2 ∨ e = 3) ∧ 2 < 2 ^ k + 1) := by omega
  rcases this with rfl | rfl | ⟨rfl | rfl, h⟩
  · simpa using h0
  · have e2 : ((1 : ℕ) : K) + 1 = 2 := by norm_num
    rw [e2, ← h1]; simp
  · have e2 : ((2 : ℕ) : K) + 1 = 3 := by norm_num
    rw [e2, ← (h2 (hk h)).1]
  · have e2 : ((3 : ℕ) : K) + 1 = 4 := by norm_num
    rw [e2, ← (h2 (hk h)).2]

theorem edgeFlux_eq (G : K → K → K → K → K) {nx ny : ℕ} {wR wZ : ℕ → K}
    (hR : ∀ y : ℕ → K, romb y nx = .ok (∑ m ∈ Finset.range nx, wR m * y m))
    (hZ : ∀ y : ℕ → K, romb y ny = .ok (∑ m ∈ Finset.range ny, wZ m * y m)) (R Z : ℕ → K) (J : Arr K) (c : ℕ × ℕ) :
    edgeFlux G nx ny R Z J c = .ok (gridFlux G nx ny wR wZ R Z J c) := by
  simp only [edgeFlux, romb2, hZ, hR, Except.toOption, Option.getD_some, gridFlux]
  congr 3
  refine Finset.sum_congr rfl fun x _ => ?_
  rw [Finset.mul_sum]
  refine Finset.sum_congr rfl fun y _ => ?_
  by_cases h : (x, y) = c
  · subst h; simp [Arr.set]
  · rw [if_neg h, Arr.set, Function.update_of_ne h]; ring

/-- **C37 (free boundary).** On grids of `2^a + 1` by `2^b + 1` points there are quadrature weights such that, for every current
density and every previous flux, `freeBoundary` changes no interior value and sets each edge value to the flux of the current
density at that point. The weights, and so the edge values, do not depend on the previous flux. -/
theorem C37_free [CharZero K] (G : K → K → K → K → K) (a b : ℕ) (R Z : ℕ → K) :
    ∃ wR wZ : ℕ → K, Quadrature (2 ^ a + 1) wR ∧ Quadrature (2 ^ b + 1) wZ ∧
      ∀ Jtor psi : Arr K, ∃ psi' : Arr K, freeBoundary G (2 ^ a + 1) (2 ^ b + 1) R Z Jtor psi = .ok psi' ∧
        (∀ c, Inside (2 ^ a + 1) (2 ^ b + 1) c → psi' c = psi c) ∧
        (∀ c, OnEdge (2 ^ a + 1) (2 ^ b + 1) c →
          psi' c = gridFlux G (2 ^ a + 1) (2 ^ b + 1) wR wZ R Z Jtor c) := by
  obtain ⟨wR, hR, r0, r1, r2⟩ := romb_weights (K := K) a
  obtain ⟨wZ, hZ, z0, z1, z2⟩ := romb_weights (K := K) b
  refine ⟨wR, wZ, quadrature_of r0 r1 r2, quadrature_of z0 z1 z2, fun Jtor psi => ?_⟩
  obtain ⟨psi', h1, h2⟩ := assignLoop_spec (edgeFlux G (2 ^ a + 1) (2 ^ b + 1) R Z Jtor)
    (gridFlux G (2 ^ a + 1) (2 ^ b + 1) wR wZ R Z Jtor) (edgeIndices (2 ^ a + 1) (2 ^ b + 1)) psi
    fun c _ => edgeFlux_eq G hR hZ R Z Jtor c
  refine ⟨psi', h1, fun c hc => ?_, fun c hc => ?_⟩
  · rw [h2, if_neg]
    rw [mem_edge (Nat.succ_pos _) (Nat.succ_pos _)]
    rw [Inside] at hc; rw [OnEdge]; omega
  · rw [h2, if_pos ((mem_edge (Nat.succ_pos _) (Nat.succ_pos _)).mpr hc)]

/-- **C37 (linear in the current density).** The edge values for a combination of two current densities are the combination of the
edge values. -/
theorem C37_free_linear [CharZero K] (G : K → K → K → K → K) (a b : ℕ) (R Z : ℕ → K) (J1 J2 psi psi1 psi2 psi12 : Arr K) (s t : K)
    (h1 : freeBoundary G (2 ^ a + 1) (2 ^ b + 1) R Z J1 psi = .ok psi1)
    (h2 : freeBoundary G (2 ^ a + 1) (2 ^ b + 1) R Z J2 psi = .ok psi2)
    (h12 : freeBoundary G (2 ^ a + 1) (2 ^ b + 1) R Z (fun c => s * J1 c + t * J2 c) psi = .ok psi12) :
    ∀ c, OnEdge (2 ^ a + 1) (2 ^ b + 1) c → psi12 c = s * psi1 c + t * psi2 c := by
  obtain ⟨wR, wZ, _, _, h⟩ := C37_free G a b R Z
  intro c hc
  obtain ⟨p1, e1, _, f1⟩ := h J1 psi
  obtain ⟨p2, e2, _, f2⟩ := h J2 psi
  obtain ⟨p12, e12, _, f12⟩ := h (fun c => s * J1 c + t * J2 c) psi
  rw [e1] at h1; rw [e2] at h2; rw [e12] at h12
  cases h1; cases h2; cases h12
  rw [f1 c hc, f2 c hc, f12 c hc, gridFlux, gridFlux, gridFlux]
  rw [show ∀ A B C D : K, s * (A * C * D) + t * (B * C * D) = (s * A + t * B) * C * D from fun A B C D => by ring]
  congr 2
  simp only [Finset.mul_sum, ← Finset.sum_add_distrib]
  refine Finset.sum_congr rfl fun x _ => Finset.sum_congr rfl fun y _ => ?_
  split_ifs <;> ring

/-- **C37 (twice is once).** Applying the free boundary to its own result changes nothing on the grid. -/
theorem C37_free_idempotent [CharZero K] (G : K → K → K → K → K) (a b : ℕ) (R Z : ℕ → K) (J psi psi1 psi2 : Arr K)
    (h1 : freeBoundary G (2 ^ a + 1) (2 ^ b + 1) R Z J psi = .ok psi1)
    (h2 : freeBoundary G (2 ^ a + 1) (2 ^ b + 1) R Z J psi1 = .ok psi2) :
    ∀ c, OnGrid (2 ^ a + 1) (2 ^ b + 1) c → psi2 c = psi1 c := by
  obtain ⟨wR, wZ, _, _, h⟩ := C37_free G a b R Z
  intro c hc
  obtain ⟨p1, e1, g1, f1⟩ := h J psi
  obtain ⟨p2, e2, g2, f2⟩ := h J psi1
  rw [e1] at h1; rw [e2] at h2
  cases h1; cases h2
  rcases grid_cases hc with hc | hc
  · rw [f2 c hc, f1 c hc]
  · rw [g2 c hc]

/-- **C37 (other grid sizes).** With any other number of points in `Z` or `R` the integration is refused. -/
theorem C37_free_size_error [CharZero K] (G : K → K → K → K → K) (nx ny : ℕ) (hx : 0 < nx) (R Z : ℕ → K)
    (h : (∀ k, nx ≠ 2 ^ k + 1) ∨ (∀ k, ny ≠ 2 ^ k + 1)) (J psi : Arr K) :
    freeBoundary G nx ny R Z J psi = .error .value := by
  have he : ∀ c, edgeFlux G nx ny R Z J c = .error .value := by
    intro c
    simp only [edgeFlux, romb2]
    rcases h with h | h
    · by_cases hz : ∃ k, ny = 2 ^ k + 1
      · obtain ⟨k, rfl⟩ := hz
        rw [romb_pow]; simp only; rw [romb_error _ _ h]
      · rw [romb_error _ ny fun k e => hz ⟨k, e⟩]
    · rw [romb_error _ ny h]
  obtain ⟨n, rfl⟩ : ∃ n, nx = n + 1 := ⟨nx - 1, by omega⟩
  rw [freeBoundary, edgeIndices, List.range_succ_eq_map]
  simp only [List.map_cons, List.cons_append, assignLoop, he]

/-- A case of C37: three by three points, a constant kernel and a current density of `9` in the middle give `16` on the edge, and
the interior value is kept. -/
example : ∃ psi' : Arr ℚ, freeBoundary (fun _ _ _ _ => (1 : ℚ)) 3 3 (fun i => 1 + i) (fun j => j)
    (fun c => if c = (1, 1) then 9 else 0) (fun _ => 5) = .ok psi' ∧ psi' (0, 0) = 16 ∧ psi' (1, 1) = 5 := by
  obtain ⟨wR, wZ, _, _, h⟩ := C37_free (K := ℚ) (fun _ _ _ _ => (1 : ℚ)) 1 1 (fun i => 1 + i) (fun j => j)
  obtain ⟨p, h1, _, _⟩ := h (fun c => if c = (1, 1) then 9 else 0) (fun _ => 5)
  have hv : (edgeFlux (fun _ _ _ _ => (1 : ℚ)) 3 3 (fun i => 1 + i) (fun j => j) (fun c => if c = (1, 1) then 9 else 0)
      (0, 0)).toOption = some 16 := by decide +kernel
  have h2 := h1
  refine ⟨p, h1, ?_, ?_⟩
  · have hh : (freeBoundary (fun _ _ _ _ => (1 : ℚ)) 3 3 (fun i => 1 + i) (fun j => j)
        (fun c => if c = (1, 1) then 9 else 0) (fun _ => 5)).toOption.map (fun q => q (0, 0)) = some 16 := by decide +kernel
    change freeBoundary (fun _ _ _ _ => (1 : ℚ)) 3 3 _ _ _ _ = _ at h1
    rw [h1] at hh
    simpa [Except.toOption] using hh
  · have hh : (freeBoundary (fun _ _ _ _ => (1 : ℚ)) 3 3 (fun i => 1 + i) (fun j => j)
        (fun c => if c = (1, 1) then 9 else 0) (fun _ => 5)).toOption.map (fun q => q (1, 1)) = some 5 := by decide +kernel
    change freeBoundary (fun _ _ _ _ => (1 : ℚ)) 3 3 _ _ _ _ = _ at h1
    rw [h1] at hh
    simpa [Except.toOption] using hh

/-! ## von Hagenow's method -/

section hagenow
open Polynomial

/-- The five-point difference, away from the point, of a polynomial of degree at most four. -/
theorem hagenowSum_exact [CharZero K] (p : K[X]) (hp : p.natDegree ≤ 4) (x h : K) :
    hagenowSum (fun i => p.eval (x + i * h)) = -h * p.derivative.eval x := by
  rw [deriv_eval (n := 4) (by omega)]
  simp only [hagenowSum, hagenowCoeffs, List.map_cons, List.map_nil, List.sum_cons, List.sum_nil,
    eval_low (n := 5) (show p.natDegree < 5 by omega), Finset.sum_range_succ, Finset.sum_range_zero]
  push_cast
  field_simp
  ring

theorem hagenowSum_sum {ι : Type*} (s : Finset ι) (f : ι → ℕ → K) (c : ι → K) :
    hagenowSum (fun i => ∑ j ∈ s, f j i * c j) = ∑ j ∈ s, hagenowSum (f j) * c j := by
  simp only [hagenowSum, hagenowCoeffs, List.map_cons, List.map_nil, List.sum_cons, List.sum_nil, Finset.mul_sum,
    ← Finset.sum_add_distrib, add_zero]
  refine Finset.sum_congr rfl fun j _ => ?_
  ring

theorem hagenowSum_congr {u v : ℕ → K} (h : ∀ i < 5, u i = v i) : hagenowSum u = hagenowSum v := by
  simp only [hagenowSum, hagenowCoeffs, List.map_cons, List.map_nil, List.sum_cons, List.sum_nil]
  rw [h 0 (by omega), h 1 (by omega), h 2 (by omega), h 3 (by omega), h 4 (by omega)]

/-- **C38 (sides).** For every polynomial of degree at most four in the direction across the edge, the differences taken in
`freeBoundaryHagenow` from its grid values are exactly its outward normal derivatives at all edge points other than the corners:
`-∂/∂R` on the left, `∂/∂R` on the right, `-∂/∂Z` below and `∂/∂Z` above. -/
theorem C38_normal_derivative [CharZero K] {ι : Type*} (s : Finset ι) (p q : ι → K[X]) (d : Domain K) (nx ny : ℕ)
    (hnx : 5 ≤ nx) (hny : 5 ≤ ny) (hR : stepR d nx ≠ 0) (hZ : stepZ d ny ≠ 0) (dd : K) :
    let n := hagenowNormal nx ny (stepR d nx) (stepZ d ny) dd (samples d nx ny (poly2 s p q))
    ((∀ i ∈ s, (p i).natDegree ≤ 4) → ∀ y, 0 < y → y + 1 < ny →
      n.L y = -partialR s p q d.Rmin (gridZ d ny y) ∧ n.R y = partialR s p q d.Rmax (gridZ d ny y)) ∧
    ((∀ i ∈ s, (q i).natDegree ≤ 4) → ∀ x, 0 < x → x + 1 < nx →
      n.D x = -partialZ s p q (gridR d nx x) d.Zmin ∧ n.U x = partialZ s p q (gridR d nx x) d.Zmax) := by
  intro n
  have hxc : ((nx : K) - 1) ≠ 0 := by
    intro h
    rw [stepR, h, div_zero] at hR; exact hR rfl
  have hyc : ((ny : K) - 1) ≠ 0 := by
    intro h
    rw [stepZ, h, div_zero] at hZ; exact hZ rfl
  have hgR : ∀ i < 5, gridR d nx (nx - 1 - i) = d.Rmax + i * (-stepR d nx) := by
    intro i hi
    rw [gridR, Nat.cast_sub (by omega), Nat.cast_sub (by omega), stepR]
    field_simp
    push_cast
    ring
  have hgZ : ∀ i < 5, gridZ d ny (ny - 1 - i) = d.Zmax + i * (-stepZ d ny) := by
    intro i hi
    rw [gridZ, Nat.cast_sub (by omega), Nat.cast_sub (by omega), stepZ]
    field_simp
    push_cast
    ring
  constructor
  · intro hp y hy0 hy1
    constructor
    · show Function.update (Function.update _ 0 _) (ny - 1) _ y = _
      rw [Function.update_of_ne (by omega), Function.update_of_ne (by omega)]
      simp only [samples, poly2]
      rw [hagenowSum_sum s (fun j i => (p j).eval (gridR d nx i)) fun j => (q j).eval (gridZ d ny y)]
      rw [partialR, Finset.sum_div, ← Finset.sum_neg_distrib]
      refine Finset.sum_congr rfl fun j hj => ?_
      have := hagenowSum_exact (p j) (hp j hj) d.Rmin (stepR d nx)
      simp only [gridR]
      rw [this]
      field_simp
    · show Function.update (Function.update _ 0 _) (ny - 1) _ y = _
      rw [Function.update_of_ne (by omega), Function.update_of_ne (by omega)]
      simp only [samples, poly2]
      rw [hagenowSum_sum s (fun j i => (p j).eval (gridR d nx (nx - 1 - i))) fun j => (q j).eval (gridZ d ny y)]
      rw [partialR, Finset.sum_div]
      refine Finset.sum_congr rfl fun j hj => ?_
      have := hagenowSum_exact (p j) (hp j hj) d.Rmax (-stepR d nx)
      rw [hagenowSum_congr (v := fun i => (p j).eval (d.Rmax + i * (-stepR d nx))) fun i hi => by rw [hgR i hi], this]
      field_simp
  · intro hq x hx0 hx1
    constructor
    · show Function.update (Function.update _ 0 _) (nx - 1) _ x = _
      rw [Function.update_of_ne (by omega), Function.update_of_ne (by omega)]
      simp only [samples, poly2, mul_comm (eval _ (p _))]
      rw [hagenowSum_sum s (fun j i => (q j).eval (gridZ d ny i)) fun j => (p j).eval (gridR d nx x)]
      rw [partialZ, Finset.sum_div, ← Finset.sum_neg_distrib]
      refine Finset.sum_congr rfl fun j hj => ?_
      have := hagenowSum_exact (q j) (hq j hj) d.Zmin (stepZ d ny)
      simp only [gridZ]
      rw [this]
      field_simp
    · show Function.update (Function.update _ 0 _) (nx - 1) _ x = _
      rw [Function.update_of_ne (by omega), Function.update_of_ne (by omega)]
      simp only [samples, poly2, mul_comm (eval _ (p _))]
      rw [hagenowSum_sum s (fun j i => (q j).eval (gridZ d ny (ny - 1 - i))) fun j => (p j).eval (gridR d nx x)]
      rw [partialZ, Finset.sum_div]
      refine Finset.sum_congr rfl fun j hj => ?_
      have := hagenowSum_exact (q j) (hq j hj) d.Zmax (-stepZ d ny)
      rw [hagenowSum_congr (v := fun i => (q j).eval (d.Zmax + i * (-stepZ d ny))) fun i hi => by rw [hgZ i hi], this]
      field_simp

/-- **C38 (corners).** At the four corners the value used is the derivative along the outward diagonal, exactly if the values on the
diagonal from the corner inwards are those of a polynomial `g` of degree at most four in the number of steps. -/
theorem C38_corner_derivative [CharZero K] (g : K[X]) (hg : g.natDegree ≤ 4) (nx ny : ℕ) (hnx : 5 ≤ nx) (hny : 5 ≤ ny)
    (dR dZ dd : K) (u : Arr K) :
    let n := hagenowNormal nx ny dR dZ dd u
    ((∀ i < 5, u (i, i) = g.eval (i : K)) → n.L 0 = -g.derivative.eval 0 / dd ∧ n.D 0 = -g.derivative.eval 0 / dd) ∧
    ((∀ i < 5, u (i, ny - 1 - i) = g.eval (i : K)) →
      n.L (ny - 1) = -g.derivative.eval 0 / dd ∧ n.U 0 = -g.derivative.eval 0 / dd) ∧
    ((∀ i < 5, u (nx - 1 - i, i) = g.eval (i : K)) →
      n.R 0 = -g.derivative.eval 0 / dd ∧ n.D (nx - 1) = -g.derivative.eval 0 / dd) ∧
    ((∀ i < 5, u (nx - 1 - i, ny - 1 - i) = g.eval (i : K)) →
      n.R (ny - 1) = -g.derivative.eval 0 / dd ∧ n.U (nx - 1) = -g.derivative.eval 0 / dd) := by
  have key : ∀ v : ℕ → K, (∀ i < 5, v i = g.eval (i : K)) → hagenowSum v / dd = -g.derivative.eval 0 / dd := by
    intro v hv
    have h := hagenowSum_exact g hg 0 1
    rw [hagenowSum_congr (v := fun i => g.eval (0 + (i : K) * 1)) fun i hi => by rw [hv i hi]; rw [zero_add, mul_one], h]
    ring
  refine ⟨fun h => ⟨?_, ?_⟩, fun h => ⟨?_, ?_⟩, fun h => ⟨?_, ?_⟩, fun h => ⟨?_, ?_⟩⟩
  · show Function.update (Function.update _ 0 _) (ny - 1) _ 0 = _
    rw [Function.update_of_ne (by omega), Function.update_self, key _ h]
  · show Function.update (Function.update _ 0 _) (nx - 1) _ 0 = _
    rw [Function.update_of_ne (by omega), Function.update_self, key _ h]
  · show Function.update (Function.update _ 0 _) (ny - 1) _ (ny - 1) = _
    rw [Function.update_self, key _ h]
  · show Function.update (Function.update _ 0 _) (nx - 1) _ 0 = _
    rw [Function.update_of_ne (by omega), Function.update_self, key _ h]
  · show Function.update (Function.update _ 0 _) (ny - 1) _ 0 = _
    rw [Function.update_of_ne (by omega), Function.update_self, key _ h]
  · show Function.update (Function.update _ 0 _) (nx - 1) _ (nx - 1) = _
    rw [Function.update_self, key _ h]
  · show Function.update (Function.update _ 0 _) (ny - 1) _ (ny - 1) = _
    rw [Function.update_self, key _ h]
  · show Function.update (Function.update _ 0 _) (nx - 1) _ (nx - 1) = _
    rw [Function.update_self, key _ h]

/-- `C38_edge_values` with the value of the loop integral for the same weights. -/
theorem hagenow_values [CharZero K] (sqrt : K → K) (G : K → K → K → K → K) (solver : Arr K → Arr K → Arr K) (a b : ℕ)
    (ha : 2 ≤ a) (hb : 2 ≤ b) (R Z : ℕ → K) :
    ∃ wR wZ : ℕ → K, Quadrature (2 ^ a + 1) wR ∧ Quadrature (2 ^ b + 1) wZ ∧
      (∀ n r z, hagenowIntegral G (2 ^ a + 1) (2 ^ b + 1) R Z n r z =
        .ok (edgeIntegral G (2 ^ a + 1) (2 ^ b + 1) wR wZ R Z n (r, z))) ∧
      ∀ Jtor psi : Arr K, ∃ psi' rhs : Arr K,
        freeBoundaryHagenow sqrt G solver (2 ^ a + 1) (2 ^ b + 1) R Z Jtor psi = .ok psi' ∧
        (∀ c, Inside (2 ^ a + 1) (2 ^ b + 1) c → rhs c = R c.1 * Jtor c ∧ psi' c = psi c) ∧
        (∀ c, OnEdge (2 ^ a + 1) (2 ^ b + 1) c → rhs c = 0 ∧
          psi' c = edgeIntegral G (2 ^ a + 1) (2 ^ b + 1) wR wZ R Z
            (hagenowNormal (2 ^ a + 1) (2 ^ b + 1) (R 1 - R 0) (Z 1 - Z 0) (sqrt ((R 1 - R 0) ^ 2 + (Z 1 - Z 0) ^ 2))
              (solver psi rhs))
            (displaced (2 ^ a + 1) (2 ^ b + 1) R Z c)) := by
  obtain ⟨wR, hR, r0, r1, r2⟩ := romb_weights (K := K) a
  obtain ⟨wZ, hZ, z0, z1, z2⟩ := romb_weights (K := K) b
  refine ⟨wR, wZ, quadrature_of r0 r1 r2, quadrature_of z0 z1 z2,
    fun n r z => by simp only [hagenowIntegral, hR, hZ, edgeIntegral], fun Jtor psi => ?_⟩
  have h4 : ∀ k, 2 ≤ k → 4 ≤ 2 ^ k := fun k hk => Nat.pow_le_pow_right (show 0 < 2 by norm_num) hk
  have ha4 := h4 a ha
  have hb4 := h4 b hb
  generalize hnx : 2 ^ a + 1 = nx at *
  generalize hny : 2 ^ b + 1 = ny at *
  generalize hr : setEdge nx ny (fun c => R c.1 * Jtor c) (fun _ => 0) = rhs
  generalize hn : hagenowNormal nx ny (R 1 - R 0) (Z 1 - Z 0) (sqrt ((R 1 - R 0) ^ 2 + (Z 1 - Z 0) ^ 2)) (solver psi rhs) = n
  have hv : ∀ r z, hagenowIntegral G nx ny R Z n r z = .ok (edgeIntegral G nx ny wR wZ R Z n (r, z)) := by
    intro r z
    simp only [hagenowIntegral, hR, hZ, edgeIntegral]
  have hrun : freeBoundaryHagenow sqrt G solver nx ny R Z Jtor psi =
      hagenowLoop (hagenowIntegral G nx ny R Z n) R Z (hagenowPoints nx ny) psi := by
    simp only [freeBoundaryHagenow]
    rw [if_neg (by omega), hr, hn]
  obtain ⟨psi', h1, h2⟩ := hagenowLoop_spec _ (fun r z => edgeIntegral G nx ny wR wZ R Z n (r, z)) R Z hv
    (hagenowPoints nx ny) psi
  refine ⟨psi', rhs, by rw [hrun]; exact h1, fun c hc => ⟨?_, ?_⟩, fun c hc => ⟨?_, ?_⟩⟩
  · rw [← hr, setEdge_inside _ _ hc]
  · refine h2 c fun e he => ?_
    rw [Inside] at hc
    simp only [hagenowPoints, List.mem_append, List.mem_map, List.mem_range, Prod.mk.injEq] at he
    rcases he with ((⟨x, hx, ⟨rfl, rfl⟩, _⟩ | ⟨x, hx, ⟨rfl, rfl⟩, _⟩) | ⟨x, hx, ⟨rfl, rfl⟩, _⟩) | ⟨x, hx, ⟨rfl, rfl⟩, _⟩ <;> omega
  · rw [← hr, setEdge_edge _ _ hc]
  · rw [hn]
    obtain ⟨hg, hc⟩ := hc
    rw [OnGrid] at hg
    obtain ⟨x, y⟩ := c
    simp only at hg hc
    have split : ∀ l m : List ((ℕ × ℕ) × K × K), hagenowPoints nx ny = l ++ m → ∀ e : K × K,
        (∀ e', ((x, y), e') ∈ m → e' = e) → (∃ e', ((x, y), e') ∈ m) →
        psi' (x, y) = edgeIntegral G nx ny wR wZ R Z n (R x + e.1, Z y + e.2) := by
      intro l m hl e he hm
      obtain ⟨psi1, _, h4⟩ := hagenowLoop_append _ _ R Z hv l m psi
      rw [hl, h4] at h1
      exact hagenowLoop_const _ _ R Z hv (x, y) e m psi1 psi' h1 he (Or.inl hm)
    obtain ⟨dn, hdn⟩ : ∃ l : List ((ℕ × ℕ) × K × K), l = (List.range nx).map (fun x => ((x, 0), 0, -(1 / 100))) := ⟨_, rfl⟩
    obtain ⟨up, hup⟩ : ∃ l : List ((ℕ × ℕ) × K × K), l = (List.range nx).map (fun x => ((x, ny - 1), 0, 1 / 100)) := ⟨_, rfl⟩
    obtain ⟨lf, hlf⟩ : ∃ l : List ((ℕ × ℕ) × K × K), l = (List.range ny).map (fun y => ((0, y), -(1 / 100), 0)) := ⟨_, rfl⟩
    obtain ⟨rt, hrt⟩ : ∃ l : List ((ℕ × ℕ) × K × K), l = (List.range ny).map (fun y => ((nx - 1, y), 1 / 100, 0)) := ⟨_, rfl⟩
    have hP : hagenowPoints nx ny = dn ++ up ++ lf ++ rt := by rw [hdn, hup, hlf, hrt]; rfl
    have mdn : ∀ e, ((x, y), e) ∈ dn ↔ y = 0 ∧ e = (0, -(1 / 100)) := by
      intro e
      simp only [hdn, List.mem_map, List.mem_range, Prod.mk.injEq]
      exact ⟨fun ⟨_, _, ⟨_, h⟩, h'⟩ => ⟨h.symm, h'.symm⟩, fun ⟨h, h'⟩ => ⟨x, hg.1, ⟨rfl, h.symm⟩, h'.symm⟩⟩
    have mup : ∀ e, ((x, y), e) ∈ up ↔ y + 1 = ny ∧ e = (0, 1 / 100) := by
      intro e
      simp only [hup, List.mem_map, List.mem_range, Prod.mk.injEq]
      exact ⟨fun ⟨_, _, ⟨_, h⟩, h'⟩ => ⟨by omega, h'.symm⟩, fun ⟨h, h'⟩ => ⟨x, hg.1, ⟨rfl, by omega⟩, h'.symm⟩⟩
    have mlf : ∀ e, ((x, y), e) ∈ lf ↔ x = 0 ∧ e = (-(1 / 100), 0) := by
      intro e
      simp only [hlf, List.mem_map, List.mem_range, Prod.mk.injEq]
      exact ⟨fun ⟨_, _, ⟨h, _⟩, h'⟩ => ⟨h.symm, h'.symm⟩, fun ⟨h, h'⟩ => ⟨y, hg.2, ⟨h.symm, rfl⟩, h'.symm⟩⟩
    have mrt : ∀ e, ((x, y), e) ∈ rt ↔ x + 1 = nx ∧ e = (1 / 100, 0) := by
      intro e
      simp only [hrt, List.mem_map, List.mem_range, Prod.mk.injEq]
      exact ⟨fun ⟨_, _, ⟨h, _⟩, h'⟩ => ⟨by omega, h'.symm⟩, fun ⟨h, h'⟩ => ⟨y, hg.2, ⟨by omega, rfl⟩, h'.symm⟩⟩
    rw [displaced]
    simp only
    by_cases c1 : x + 1 = nx
    · rw [if_pos c1, split (dn ++ up ++ lf) rt hP (1 / 100, 0) (fun e' he' => ((mrt e').mp he').2) ⟨_, (mrt _).mpr ⟨c1, rfl⟩⟩,
        add_zero]
    · rw [if_neg c1]
      by_cases c2 : x = 0
      · rw [if_pos c2, split (dn ++ up) (lf ++ rt) (by rw [hP, List.append_assoc]) (-(1 / 100), 0) ?_
          ⟨_, List.mem_append_left _ ((mlf _).mpr ⟨c2, rfl⟩)⟩, add_zero, sub_eq_add_neg]
        intro e' he'
        rcases List.mem_append.mp he' with h | h
        · exact ((mlf e').mp h).2
        · exact absurd ((mrt e').mp h).1 c1
      · rw [if_neg c2]
        by_cases c3 : y + 1 = ny
        · rw [if_pos c3, split dn (up ++ (lf ++ rt)) (by rw [hP, List.append_assoc, List.append_assoc]) (0, 1 / 100) ?_
            ⟨_, List.mem_append_left _ ((mup _).mpr ⟨c3, rfl⟩)⟩, add_zero]
          intro e' he'
          rcases List.mem_append.mp he' with h | h
          · exact ((mup e').mp h).2
          rcases List.mem_append.mp h with h | h
          · exact absurd ((mlf e').mp h).1 c2
          · exact absurd ((mrt e').mp h).1 c1
        · rw [if_neg c3, split [] (dn ++ (up ++ (lf ++ rt)))
            (by rw [hP, List.append_assoc, List.append_assoc, List.nil_append]) (0, -(1 / 100)) ?_
            ⟨_, List.mem_append_left _ ((mdn _).mpr ⟨by omega, rfl⟩)⟩, add_zero, sub_eq_add_neg]
          intro e' he'
          rcases List.mem_append.mp he' with h | h
          · exact ((mdn e').mp h).2
          rcases List.mem_append.mp h with h | h
          · exact absurd ((mup e').mp h).1 c3
          rcases List.mem_append.mp h with h | h
          · exact absurd ((mlf e').mp h).1 c2
          · exact absurd ((mrt e').mp h).1 c1

/-- **C38 (edge values).** On grids of `2^a + 1` by `2^b + 1` points, at least five each way, `freeBoundaryHagenow` solves with the
source `R Jtor`, zero on the edge, keeps every interior value of the flux, and sets every edge value to the integral around the edge
of the Green's function times the normal derivative of that solution over `R`, seen from a point just outside the domain. -/
theorem C38_edge_values [CharZero K] (sqrt : K → K) (G : K → K → K → K → K) (solver : Arr K → Arr K → Arr K) (a b : ℕ)
    (ha : 2 ≤ a) (hb : 2 ≤ b) (R Z : ℕ → K) :
    ∃ wR wZ : ℕ → K, Quadrature (2 ^ a + 1) wR ∧ Quadrature (2 ^ b + 1) wZ ∧
      ∀ Jtor psi : Arr K, ∃ psi' rhs : Arr K,
        freeBoundaryHagenow sqrt G solver (2 ^ a + 1) (2 ^ b + 1) R Z Jtor psi = .ok psi' ∧
        (∀ c, Inside (2 ^ a + 1) (2 ^ b + 1) c → rhs c = R c.1 * Jtor c ∧ psi' c = psi c) ∧
        (∀ c, OnEdge (2 ^ a + 1) (2 ^ b + 1) c → rhs c = 0 ∧
          psi' c = edgeIntegral G (2 ^ a + 1) (2 ^ b + 1) wR wZ R Z
            (hagenowNormal (2 ^ a + 1) (2 ^ b + 1) (R 1 - R 0) (Z 1 - Z 0) (sqrt ((R 1 - R 0) ^ 2 + (Z 1 - Z 0) ^ 2))
              (solver psi rhs))
            (displaced (2 ^ a + 1) (2 ^ b + 1) R Z c)) := by
  obtain ⟨wR, wZ, h1, h2, _, h3⟩ := hagenow_values sqrt G solver a b ha hb R Z
  exact ⟨wR, wZ, h1, h2, h3⟩

end hagenow

open Polynomial in
/-- A case meeting the hypotheses of C38: the flux `R⁴` on five by five points. -/
example : (∀ i ∈ ({0} : Finset ℕ), ((X : ℚ[X]) ^ 4).natDegree ≤ 4) ∧
    stepR (⟨1, 2, 0, 1⟩ : Domain ℚ) 5 = 1 / 4 ∧ stepZ (⟨1, 2, 0, 1⟩ : Domain ℚ) 5 = 1 / 4 := by
  refine ⟨fun _ _ => by rw [natDegree_X_pow], ?_, ?_⟩ <;> norm_num [stepR, stepZ]

end FreeGS.GS
