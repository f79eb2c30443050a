import Verif.Spec.Symmetry
import Verif.Lemmas.Romberg
import Verif.Props.GradShafranov
import Verif.Props.Boundary
import Mathlib.LinearAlgebra.FiniteDimensional.Lemmas

/-!
# Helper lemmas: mirrored arrays under the matrices, Romberg integration and the boundary conditions
-/

set_option linter.unusedSectionVars false

namespace FreeGS.GS

open FreeGS.Critical (Domain)

variable {K : Type*} [Field K] [LinearOrder K]

theorem flip_grid {nx ny : ℕ} {c : ℕ × ℕ} (h : OnGrid nx ny c) : OnGrid nx ny (mirrorRow ny c) := by
  rw [OnGrid] at *; simp only [mirrorRow]; omega

theorem flip_flip {nx ny : ℕ} {c : ℕ × ℕ} (h : OnGrid nx ny c) : mirrorRow ny (mirrorRow ny c) = c := by
  obtain ⟨x, y⟩ := c
  rw [OnGrid] at h
  simp only [mirrorRow, Prod.mk.injEq, true_and]
  simp only at h
  omega

theorem flip_edge {nx ny : ℕ} {c : ℕ × ℕ} (h : OnEdge nx ny c) : OnEdge nx ny (mirrorRow ny c) := by
  rw [OnEdge, OnGrid] at *; simp only [mirrorRow]; omega

theorem flip_inside {nx ny : ℕ} {c : ℕ × ℕ} (h : Inside nx ny c) : Inside nx ny (mirrorRow ny c) := by
  rw [Inside] at *; simp only [mirrorRow]; omega

/-! ## Matrices -/

/-- A system that can be solved for every right-hand side has one solution only. -/
theorem matVec_unique {N : ℕ} {A : ℕ → ℕ → K} {fac : (ℕ → K) → ℕ → K}
    (hfac : ∀ b, ∀ r < N, matVec N A (fac b) r = b r) {v w : ℕ → K} (h : ∀ r < N, matVec N A v r = matVec N A w r) :
    ∀ r < N, v r = w r := by
  let L : (Fin N → K) →ₗ[K] (Fin N → K) :=
    { toFun := fun v r => ∑ c : Fin N, A r c * v c
      map_add' := by
        intro u v; funext r
        simp only [Pi.add_apply, mul_add, Finset.sum_add_distrib]
      map_smul' := by
        intro a v; funext r
        simp only [Pi.smul_apply, smul_eq_mul, RingHom.id_apply, Finset.mul_sum]
        exact Finset.sum_congr rfl fun c _ => by ring }
  have hL : ∀ v : ℕ → K, ∀ r : Fin N, L (fun i => v i) r = matVec N A v r := by
    intro v r
    rw [matVec, Finset.sum_range]
    rfl
  have hsurj : Function.Surjective L := by
    intro b
    refine ⟨fun i => fac (fun r => if h : r < N then b ⟨r, h⟩ else 0) i, ?_⟩
    funext r
    rw [hL, hfac _ r r.2, dif_pos r.2]
  have hinj := LinearMap.injective_iff_surjective.mpr hsurj
  have : (fun i : Fin N => v i) = fun i : Fin N => w i := by
    apply hinj
    funext r
    rw [hL, hL, h r r.2]
  intro r hr
  exact congrFun this ⟨r, hr⟩

theorem matVec_congr {N : ℕ} (A : ℕ → ℕ → K) {v w : ℕ → K} (h : ∀ r < N, v r = w r) (r : ℕ) : matVec N A v r = matVec N A w r := by
  rw [matVec, matVec]
  exact Finset.sum_congr rfl fun c hc => by rw [h c (Finset.mem_range.mp hc)]

/-- To mirror an array and apply the matrix is to apply the matrix and mirror the result. -/
def MirrorMatrix (nx ny : ℕ) (A : ℕ → ℕ → K) : Prop :=
  ∀ (psi : Arr K) (c : ℕ × ℕ), OnGrid nx ny c →
    matVec (nx * ny) A (flat ny fun c => psi (mirrorRow ny c)) (c.1 * ny + c.2) =
      matVec (nx * ny) A (flat ny psi) ((mirrorRow ny c).1 * ny + (mirrorRow ny c).2)

theorem flat_mgDirect (fac : (ℕ → K) → ℕ → K) (ny : ℕ) (b : Arr K) : flat ny (mgDirect fac ny b) = fac (flat ny b) := by
  funext r
  show unflat ny _ (r / ny, r % ny) = _
  rw [unflat]
  simp only
  rw [mul_comm, Nat.div_add_mod r ny]

/-- The direct solver keeps the symmetry. -/
theorem mgDirect_upDown {nx ny : ℕ} {A : ℕ → ℕ → K} (hA : MirrorMatrix nx ny A) {fac : (ℕ → K) → ℕ → K}
    (hfac : ∀ b, ∀ r < nx * ny, matVec (nx * ny) A (fac b) r = b r) {b : Arr K} (hb : UpDown nx ny b) :
    UpDown nx ny (mgDirect fac ny b) := by
  set psi := mgDirect fac ny b with hpsi
  have hrow : ∀ c, OnGrid nx ny c → matVec (nx * ny) A (flat ny psi) (c.1 * ny + c.2) = b c := by
    intro c hc
    rw [hpsi, flat_mgDirect, hfac _ _ (row_lt hc.1 hc.2), flat_row hc.2]
  have hu : ∀ r < nx * ny, flat ny (fun c => psi (mirrorRow ny c)) r = flat ny psi r := by
    apply matVec_unique hfac
    intro r hr
    obtain ⟨x, y, hx, hy, rfl⟩ := exists_row hr
    have hc : OnGrid nx ny (x, y) := ⟨hx, hy⟩
    rw [hA psi (x, y) hc, hrow _ (flip_grid hc), hb _ hc, ← hrow _ hc]
  intro c hc
  have := hu (c.1 * ny + c.2) (row_lt hc.1 hc.2)
  rwa [flat_row hc.2, flat_row hc.2] at this

theorem mirror_second (d : Domain K) (nx ny : ℕ) : MirrorMatrix nx ny (gsSparse d nx ny) := by
  intro psi c hc
  rcases grid_cases hc with he | hi
  · rw [(C35_matrix_is_operator d nx ny _).2 c he, (C35_matrix_is_operator d nx ny _).2 _ (flip_edge he)]
  · rw [((C35_matrix_is_operator d nx ny _).1 c hi).2, ((C35_matrix_is_operator d nx ny _).1 _ (flip_inside hi)).2]
    simp only [centralDelta, mirrorRow]
    rw [Inside] at hi
    rw [show ny - 1 - (c.2 + 1) = ny - 1 - c.2 - 1 by omega, show ny - 1 - (c.2 - 1) = ny - 1 - c.2 + 1 by omega]
    ring

theorem stencil_neg (l : List (ℤ × K)) (g : K → K) (S h x : K) :
    stencil l (fun z => g (S - z)) h x = stencil l g (-h) (S - x) := by
  unfold stencil
  congr 1
  refine List.map_congr_left fun p _ => ?_
  simp only
  rw [show S - (x + p.1 * h) = S - x + p.1 * -h by ring]

theorem centred_even (g : K → K) (h x : K) : stencil centred2 g (-h) x = stencil centred2 g h x := by
  simp only [stencil, centred2, List.map_cons, List.map_nil, List.sum_cons, List.sum_nil]
  push_cast
  rw [show x + -2 * -h = x + 2 * h by ring, show x + -1 * -h = x + 1 * h by ring, show x + 0 * -h = x + 0 * h by ring,
    show x + 1 * -h = x + -1 * h by ring, show x + 2 * -h = x + -2 * h by ring]
  ring

open Classical in
/-- Every array is the array of samples of some function. -/
theorem exists_sampled [CharZero K] (d : Domain K) {nx ny : ℕ} (hR : spacingR d nx ≠ 0) (hZ : spacingZ d ny ≠ 0) (psi : Arr K) :
    ∃ F, sampled d nx ny F = psi := by
  let idx : K → ℕ := fun x => if h : ∃ n : ℕ, (n : K) = x then h.choose else 0
  have hidx : ∀ n : ℕ, idx n = n := by
    intro n
    have h : ∃ m : ℕ, (m : K) = n := ⟨n, rfl⟩
    simp only [idx, dif_pos h]
    exact_mod_cast h.choose_spec
  refine ⟨fun R Z => psi (idx ((R - d.Rmin) / spacingR d nx), idx ((Z - d.Zmin) / spacingZ d ny)), ?_⟩
  funext c
  rw [sampled, add_sub_cancel_left, add_sub_cancel_left, mul_div_cancel_left₀ _ hR, mul_div_cancel_left₀ _ hZ, hidx, hidx]

theorem mirror_fourth [IsStrictOrderedRing K] (d : Domain K) {nx ny : ℕ} (hnx : 6 ≤ nx) (hny : 6 ≤ ny) (hR : d.Rmin < d.Rmax)
    (hZ : d.Zmin < d.Zmax) {A : ℕ → ℕ → K} (h : gs4Sparse d nx ny = .ok A) : MirrorMatrix nx ny A := by
  obtain ⟨A', h1, h2, h3⟩ := gs4_apply d hnx hny
  rw [h] at h1
  cases h1
  have hdR : spacingR d nx ≠ 0 := (spacing_pos hR (by omega)).ne'
  have hdZ : spacingZ d ny ≠ 0 := (spacing_pos hZ (by omega)).ne'
  intro psi c hc
  obtain ⟨x, y⟩ := c
  cases hi : isInterior nx ny (x, y) with
  | false =>
    have he : OnEdge nx ny (x, y) := edge_iff.mpr ⟨hc, hi⟩
    have hf := edge_iff.mp (flip_edge he)
    rw [h2 _ x y hc.1 hc.2 hi, h2 psi _ _ hf.1.1 hf.1.2 hf.2]
  | true =>
    obtain ⟨F, rfl⟩ := exists_sampled d hdR hdZ psi
    have hin := inside_iff.mpr hi
    have hi' := inside_iff.mp (flip_inside hin)
    set S : K := 2 * d.Zmin + spacingZ d ny * ((ny : K) - 1) with hS
    have hcast : ∀ j : ℕ, j < ny → ((ny - 1 - j : ℕ) : K) = (ny : K) - 1 - j := by
      intro j hj
      rw [Nat.cast_sub (by omega), Nat.cast_sub (by omega)]; simp
    have hflip : ∀ j < ny, d.Zmin + spacingZ d ny * ((ny - 1 - j : ℕ) : K) = S - (d.Zmin + spacingZ d ny * j) := by
      intro j hj
      rw [hcast j hj, hS]; ring
    have e1 : matVec (nx * ny) A (flat ny fun c => sampled d nx ny F (mirrorRow ny c)) (x * ny + y) =
        matVec (nx * ny) A (flat ny (sampled d nx ny fun R Z => F R (S - Z))) (x * ny + y) := by
      apply matVec_congr
      intro r hr
      obtain ⟨x', y', hx', hy', rfl⟩ := exists_row hr
      rw [flat_row hy', flat_row hy']
      simp only [sampled, mirrorRow]
      rw [hflip y' hy']
    have e3 := h3 F x (ny - 1 - y) hi'
    show _ = matVec (nx * ny) A (flat ny (sampled d nx ny F)) (x * ny + (ny - 1 - y))
    rw [show (x, y).1 * ny + (x, y).2 = x * ny + y from rfl, e1, h3 _ x y hi, e3]
    rw [hflip y hc.2]
    have e2 : stencil (zRule ny y : List (ℤ × K) × ℤ).1 (fun Z => F (d.Rmin + spacingR d nx * x) (S - Z))
        ((zRule ny y : List (ℤ × K) × ℤ).2 * spacingZ d ny) (d.Zmin + spacingZ d ny * y) =
        stencil (zRule ny (ny - 1 - y) : List (ℤ × K) × ℤ).1 (F (d.Rmin + spacingR d nx * x))
          ((zRule ny (ny - 1 - y) : List (ℤ × K) × ℤ).2 * spacingZ d ny) (S - (d.Zmin + spacingZ d ny * y)) := by
      rw [stencil_neg _ (F (d.Rmin + spacingR d nx * x))]
      rw [Inside] at hin
      simp only at hin
      unfold zRule
      by_cases a : y = 1
      · rw [if_pos a, if_neg (by omega), if_pos (by omega)]
        simp
      · by_cases b : y + 2 = ny
        · rw [if_neg a, if_pos b, if_pos (by omega)]
          simp
        · rw [if_neg a, if_neg b, if_neg (by omega), if_neg (by omega)]
          exact centred_even _ _ _
    rw [e2]

/-! ## Romberg integration -/

theorem sum_range_reverse (f : ℕ → K) (n : ℕ) : ((List.range n).map fun m => f (n - 1 - m)).sum = ((List.range n).map f).sum := by
  rw [← List.sum_reverse ((List.range n).map f), ← List.map_reverse]
  congr 1
  apply List.ext_getElem
  · simp
  · intro i h1 h2
    simp

theorem rombTrap_mirror (y : ℕ → K) (k : ℕ) : ∀ i ≤ k, rombTrap (fun j => y (2 ^ k - j)) (2 ^ k) i = rombTrap y (2 ^ k) i
  | 0, _ => by simp [rombTrap, add_comm]
  | i + 1, h => by
    rw [rombTrap, rombTrap, rombTrap_mirror y k i (by omega)]
    congr 3
    rw [← sum_range_reverse (fun m => y (2 ^ k / 2 ^ (i + 1) + m * (2 ^ k / 2 ^ i)))]
    congr 1
    refine List.map_congr_left fun m hm => ?_
    have hm := List.mem_range.mp hm
    congr 1
    rw [Nat.pow_div (by omega) (by norm_num), Nat.pow_div (by omega) (by norm_num)]
    have e1 : 2 ^ (k - i) = 2 * 2 ^ (k - (i + 1)) := by rw [show k - i = (k - (i + 1)) + 1 by omega, pow_succ]; ring
    have e2 : 2 ^ k = 2 ^ i * (2 * 2 ^ (k - (i + 1))) := by rw [← e1, ← pow_add]; congr 1; omega
    rw [e1, e2]
    obtain ⟨t, ht⟩ : ∃ t, 2 ^ i = m + 1 + t := ⟨2 ^ i - m - 1, by omega⟩
    rw [ht, show m + 1 + t - 1 - m = t by omega]
    have : (m + 1 + t) * (2 * 2 ^ (k - (i + 1))) = (2 ^ (k - (i + 1)) + m * (2 * 2 ^ (k - (i + 1)))) +
      (2 ^ (k - (i + 1)) + t * (2 * 2 ^ (k - (i + 1)))) := by ring
    omega

theorem rombTable_mirror (y : ℕ → K) (k : ℕ) : ∀ j i, i ≤ k → rombTable (fun j => y (2 ^ k - j)) (2 ^ k) j i = rombTable y (2 ^ k) j i
  | 0, i, h => by rw [rombTable, rombTable, rombTrap_mirror y k i h]
  | j + 1, i, h => by rw [rombTable, rombTable, rombTable_mirror y k j i h, rombTable_mirror y k j (i - 1) (by omega)]

/-- The integral of samples in reversed order is the same. -/
theorem romb_mirror (y : ℕ → K) (n : ℕ) : romb (fun j => y (n - 1 - j)) n = romb y n := by
  by_cases h : ∃ k, n = 2 ^ k + 1
  · obtain ⟨k, rfl⟩ := h
    rw [romb_pow, romb_pow, Nat.add_sub_cancel, rombTable_mirror y k k k (le_refl _)]
  · rw [romb_error _ n fun k e => h ⟨k, e⟩, romb_error _ n fun k e => h ⟨k, e⟩]

theorem romb_congr [CharZero K] {y z : ℕ → K} {n : ℕ} (h : ∀ j < n, y j = z j) : romb y n = romb z n := by
  by_cases hk : ∃ k, n = 2 ^ k + 1
  · obtain ⟨k, rfl⟩ := hk
    obtain ⟨w, hw, _⟩ := romb_weights (K := K) k
    rw [hw, hw, Finset.sum_congr rfl fun m hm => by rw [h m (Finset.mem_range.mp hm)]]
  · rw [romb_error _ n fun k e => hk ⟨k, e⟩, romb_error _ n fun k e => hk ⟨k, e⟩]

theorem romb2_mirror [CharZero K] {nx ny : ℕ} {a b : Arr K} (h : ∀ c, OnGrid nx ny c → b (mirrorRow ny c) = a c) :
    romb2 nx ny b = romb2 nx ny a := by
  rw [romb2, romb2]
  have e : romb (fun x => ((romb (fun y => b (x, y)) ny).toOption).getD 0) nx =
      romb (fun x => ((romb (fun y => a (x, y)) ny).toOption).getD 0) nx := by
    refine romb_congr fun x hx => ?_
    rw [← romb_mirror (fun y => b (x, y)) ny]
    rw [romb_congr (y := fun j => b (x, ny - 1 - j)) (z := fun y => a (x, y)) fun j hj => h (x, j) ⟨hx, hj⟩]
  rw [e]

/-! ## Boundary -/

theorem edgeFlux_mirror [CharZero K] {G : K → K → K → K → K} {nx ny : ℕ} {R Z : ℕ → K} {m : K} (hG : MirrorKernel G m)
    (hZ : EvenHeights ny Z m) {J : Arr K} (hJ : UpDown nx ny J) {c : ℕ × ℕ} (hc : OnGrid nx ny c) :
    edgeFlux G nx ny R Z J (mirrorRow ny c) = edgeFlux G nx ny R Z J c := by
  have e : romb2 nx ny (fun p => Arr.set (fun p : ℕ × ℕ => G (R p.1) (Z p.2) (R (mirrorRow ny c).1) (Z (mirrorRow ny c).2)) (mirrorRow ny c) 0 p * J p) =
      romb2 nx ny (fun p => Arr.set (fun p : ℕ × ℕ => G (R p.1) (Z p.2) (R c.1) (Z c.2)) c 0 p * J p) := by
    refine romb2_mirror fun p hp => ?_
    rw [hJ p hp]
    congr 1
    simp only [Arr.set, Function.update_apply]
    by_cases h : p = c
    · rw [if_pos h, if_pos (by rw [h])]
    · rw [if_neg h, if_neg]
      · simp only [mirrorRow]
        rw [hZ _ hp.2, hZ _ hc.2, hG]
      · intro h'
        exact h (by rw [← flip_flip hp, h', flip_flip hc])
  simp only [edgeFlux]
  rw [e]

end FreeGS.GS
