import Verif.Lemmas.FourthOrder
import Verif.Lemmas.Taylor
import Verif.Props.Convergence

/-!
# C107: the default fourth-order solve has one solution, is stable and converges
-/

set_option linter.unusedSectionVars false

namespace FreeGS.GS

open FreeGS.Critical (Domain linspaceAt)
open Set

section stability
variable {K : Type*} [Field K] [LinearOrder K] [IsStrictOrderedRing K]

theorem energy_bounds (d : Domain K) (nx ny : ℕ) (hnx : 9 ≤ nx) (hny : 9 ≤ ny) (hR : d.Rmin < d.Rmax) (hZ : d.Zmin < d.Zmax)
    (h2 : 2 * stepR d nx ≤ d.Rmin) (A : ℕ → ℕ → K) (hA : gs4Sparse d nx ny = .ok A) (psi b : Arr K) (hsol : Solves nx ny A psi b)
    (hedge : ∀ c, OnEdge nx ny c → b c = 0) :
    (∀ c, OnEdge nx ny c → psi c = 0) ∧
    interiorSum nx ny (fun c => psi c ^ 2) ≤ (2 * (d.Zmax - d.Zmin) ^ 2) ^ 2 * interiorSum nx ny (fun c => b c ^ 2) ∧
    ∑ i ∈ Finset.range (nx - 2), ∑ j ∈ Finset.range (ny - 1), (psi (i + 1, j + 1) - psi (i + 1, j)) ^ 2 ≤
      12 * stepZ d ny ^ 2 * (2 * (d.Zmax - d.Zmin) ^ 2 * interiorSum nx ny fun c => b c ^ 2) := by
  obtain ⟨A', e1, e2, _⟩ := gs4_rows d (by omega : 6 ≤ nx) (by omega : 6 ≤ ny) hR hZ
  rw [hA] at e1
  cases e1
  have hu : ∀ c, OnEdge nx ny c → psi c = 0 := fun c hc => by rw [← e2 psi c hc, hsol c hc.1, hedge c hc]
  have hE := gs4_energy d hnx hny hR hZ h2 hA psi hu
  have hC := gs4_coercive d hnx hny hR hZ h2 hA psi hu
  have hf : interiorSum nx ny (fun c => psi c * matVec (nx * ny) A (flat ny psi) (c.1 * ny + c.2)) =
      interiorSum nx ny fun c => psi c * b c :=
    interiorSum_congr nx ny _ _ fun c hc => by rw [hsol c (inside_onGrid hc)]
  rw [hf] at hE hC
  have cs := interiorSum_cs nx ny psi b
  set X := interiorSum nx ny fun c => psi c ^ 2
  set Y := interiorSum nx ny fun c => b c ^ 2
  set P := interiorSum nx ny fun c => psi c * b c
  have hX : 0 ≤ X := interiorSum_nonneg nx ny _ fun c _ => sq_nonneg _
  have hY : 0 ≤ Y := interiorSum_nonneg nx ny _ fun c _ => sq_nonneg _
  have hZ' : 0 < d.Zmax - d.Zmin := by linarith
  have hH : 0 < 2 * (d.Zmax - d.Zmin) ^ 2 := by positivity
  set H := 2 * (d.Zmax - d.Zmin) ^ 2
  have hP : 0 ≤ -P := by
    by_contra hneg
    push Not at hneg
    have : H * -P < 0 := mul_neg_of_pos_of_neg hH hneg
    linarith
  have hXY : X ≤ H ^ 2 * Y := by
    rcases eq_or_lt_of_le hX with h | h
    · rw [← h]; positivity
    · have : X ^ 2 ≤ H ^ 2 * (X * Y) := by
        have a : X ^ 2 ≤ (H * -P) ^ 2 := pow_le_pow_left₀ hX hC 2
        have b : (H * -P) ^ 2 = H ^ 2 * P ^ 2 := by ring
        rw [b] at a
        exact a.trans (mul_le_mul_of_nonneg_left cs (sq_nonneg H))
      have : X * X ≤ X * (H ^ 2 * Y) := by nlinarith
      exact le_of_mul_le_mul_left this h
  refine ⟨hu, hXY, hE.trans (mul_le_mul_of_nonneg_left ?_ (by positivity))⟩
  have : (-P) ^ 2 ≤ (H * Y) ^ 2 := by
    calc (-P) ^ 2 = P ^ 2 := by ring
      _ ≤ X * Y := cs
      _ ≤ H ^ 2 * Y * Y := mul_le_mul_of_nonneg_right hXY hY
      _ = (H * Y) ^ 2 := by ring
  exact (pow_le_pow_iff_left₀ hP (by positivity) (by norm_num)).mp this

/-- **C107** (stability). On every grid with at least nine points each way whose inner edge is at least two steps from the axis, the solution of the
default fourth-order system with zero edge values is bounded by its right-hand side in root mean square: by twice the squared height of
the domain. -/
theorem C107_stability (d : Domain K) (nx ny : ℕ) (hnx : 9 ≤ nx) (hny : 9 ≤ ny) (hR : d.Rmin < d.Rmax) (hZ : d.Zmin < d.Zmax)
    (h2 : 2 * stepR d nx ≤ d.Rmin) (A : ℕ → ℕ → K) (hA : gs4Sparse d nx ny = .ok A) (psi b : Arr K) (hsol : Solves nx ny A psi b)
    (hedge : ∀ c, OnEdge nx ny c → b c = 0) :
    interiorSum nx ny (fun c => psi c ^ 2) ≤ (2 * (d.Zmax - d.Zmin) ^ 2) ^ 2 * interiorSum nx ny fun c => b c ^ 2 :=
  (energy_bounds d nx ny hnx hny hR hZ h2 A hA psi b hsol hedge).2.1

/-- **C107** (stability, largest value). If the right-hand side is at most `F` inside and zero on the edge, the square of the solution is at every grid point at most
`6 H⁴ (nx - 2) F²`. -/
theorem C107_largest (d : Domain K) (nx ny : ℕ) (hnx : 9 ≤ nx) (hny : 9 ≤ ny) (hR : d.Rmin < d.Rmax) (hZ : d.Zmin < d.Zmax)
    (h2 : 2 * stepR d nx ≤ d.Rmin) (A : ℕ → ℕ → K) (hA : gs4Sparse d nx ny = .ok A) (psi b : Arr K) (hsol : Solves nx ny A psi b)
    (hedge : ∀ c, OnEdge nx ny c → b c = 0) (F : K) (hF : ∀ c, Inside nx ny c → |b c| ≤ F) :
    ∀ c, OnGrid nx ny c → psi c ^ 2 ≤ 6 * (d.Zmax - d.Zmin) ^ 4 * ((nx : K) - 2) * F ^ 2 := by
  obtain ⟨hu, _, hE⟩ := energy_bounds d nx ny hnx hny hR hZ h2 A hA psi b hsol hedge
  have hnx' : (9 : K) ≤ nx := by exact_mod_cast hnx
  have hny' : (9 : K) ≤ ny := by exact_mod_cast hny
  intro c hc
  by_cases hi : OnEdge nx ny c
  · rw [hu c hi]
    have : (0 : K) ≤ (nx : K) - 2 := by linarith
    rw [zero_pow (by norm_num)]
    positivity
  have hin : Inside nx ny c := by
    unfold OnEdge OnGrid at hi
    unfold OnGrid at hc
    unfold Inside
    omega
  obtain ⟨x, y⟩ := c
  obtain ⟨i1, i2, i3, i4⟩ := hin
  simp only at i1 i2 i3 i4
  -- one column of the sum of squared differences
  set S := ∑ j ∈ Finset.range (ny - 1), (psi (x, j + 1) - psi (x, j)) ^ 2 with hS
  have hcol : S ≤ ∑ i ∈ Finset.range (nx - 2), ∑ j ∈ Finset.range (ny - 1), (psi (i + 1, j + 1) - psi (i + 1, j)) ^ 2 := by
    have := Finset.single_le_sum (f := fun i => ∑ j ∈ Finset.range (ny - 1), (psi (i + 1, j + 1) - psi (i + 1, j)) ^ 2)
      (fun i _ => Finset.sum_nonneg fun j _ => sq_nonneg _) (Finset.mem_range.mpr (show x - 1 < nx - 2 by omega))
    simp only [show x - 1 + 1 = x by omega] at this
    exact this
  have hpt := poincare_point (ny - 1) (fun j => psi (x, j)) (hu (x, 0) (by unfold OnEdge OnGrid; dsimp only; omega))
    (hu (x, ny - 1) (by unfold OnEdge OnGrid; dsimp only; omega)) y (by omega)
  beta_reduce at hpt
  have hcast : ((ny - 1 : ℕ) : K) = (ny : K) - 1 := by rw [Nat.cast_sub (by omega)]; norm_num
  rw [hcast] at hpt
  have hS0 : 0 ≤ S := Finset.sum_nonneg fun j _ => sq_nonneg _
  have hY : interiorSum nx ny (fun c => b c ^ 2) ≤ ((nx : K) - 2) * (((ny : K) - 2) * F ^ 2) := by
    have a := interiorSum_le nx ny (fun c => b c ^ 2) (fun _ => F ^ 2) fun c hc => by
      rw [← sq_abs]; exact pow_le_pow_left₀ (abs_nonneg _) (hF c hc) 2
    refine a.trans (le_of_eq ?_)
    simp only [interiorSum, Finset.sum_const, Finset.card_range, nsmul_eq_mul]
    rw [Nat.cast_sub (by omega), Nat.cast_sub (by omega)]
    norm_num
  have hh := stepZ_height d (show 2 ≤ ny by omega)
  have hs : 0 < stepZ d ny := spacing_pos hZ (by omega)
  set n : K := (ny : K) - 1 with hn
  have hn0 : 0 < n := by rw [hn]; linarith
  have b1 : 4 * psi (x, y) ^ 2 ≤ n * S := by
    have hp : 4 * ((y : K) * (n - y)) ≤ n ^ 2 := by nlinarith [sq_nonneg (n - 2 * y)]
    have := mul_le_mul_of_nonneg_right hp hS0
    have : n * (4 * psi (x, y) ^ 2) ≤ n * (n * S) := by nlinarith
    exact le_of_mul_le_mul_left this hn0
  have b2 := hcol.trans hE
  rw [← hh] at b2 ⊢
  set Y := interiorSum nx ny fun c => b c ^ 2
  have hny2 : (ny : K) - 2 ≤ n := by rw [hn]; linarith
  have hY2 : Y ≤ ((nx : K) - 2) * (n * F ^ 2) := hY.trans
    (mul_le_mul_of_nonneg_left (mul_le_mul_of_nonneg_right hny2 (sq_nonneg F)) (by linarith))
  have b3 : 4 * psi (x, y) ^ 2 ≤ n * (12 * stepZ d ny ^ 2 * (2 * (stepZ d ny * n) ^ 2 * Y)) :=
    b1.trans (mul_le_mul_of_nonneg_left b2 hn0.le)
  have b4 : n * (12 * stepZ d ny ^ 2 * (2 * (stepZ d ny * n) ^ 2 * Y)) ≤
      n * (12 * stepZ d ny ^ 2 * (2 * (stepZ d ny * n) ^ 2 * (((nx : K) - 2) * (n * F ^ 2)))) := by
    have hc0 : 0 ≤ n * (12 * stepZ d ny ^ 2 * (2 * (stepZ d ny * n) ^ 2)) := by positivity
    have := mul_le_mul_of_nonneg_left hY2 hc0
    linarith
  have b5 : n * (12 * stepZ d ny ^ 2 * (2 * (stepZ d ny * n) ^ 2 * (((nx : K) - 2) * (n * F ^ 2)))) =
      4 * (6 * (stepZ d ny * n) ^ 4 * ((nx : K) - 2) * F ^ 2) := by ring
  linarith

/-- A square system that only zero solves for a zero right-hand side has a solution for every right-hand side. -/
theorem solver_of_injective (nx ny : ℕ) (A : ℕ → ℕ → K)
    (huniq : ∀ psi, Solves nx ny A psi (fun _ => 0) → ∀ c, OnGrid nx ny c → psi c = 0) :
    ∃ factorized : (ℕ → K) → ℕ → K, ∀ b, ∀ r < nx * ny, matVec (nx * ny) A (factorized b) r = b r := by
  let N := nx * ny
  let ext : (Fin N → K) → ℕ → K := fun v r => if h : r < N then v ⟨r, h⟩ else 0
  let L : (Fin N → K) →ₗ[K] (Fin N → K) :=
    { toFun := fun v r => matVec N A (ext v) r
      map_add' := by
        intro u v
        funext r
        simp only [matVec, Pi.add_apply, ← Finset.sum_add_distrib]
        refine Finset.sum_congr rfl fun c _ => ?_
        simp only [ext]
        split
        · simp only [Pi.add_apply]; ring
        · ring
      map_smul' := by
        intro a v
        funext r
        simp only [matVec, Pi.smul_apply, smul_eq_mul, RingHom.id_apply, Finset.mul_sum]
        refine Finset.sum_congr rfl fun c _ => ?_
        simp only [ext]
        split
        · simp only [Pi.smul_apply, smul_eq_mul]; ring
        · ring }
  have hinj : Function.Injective L := by
    rw [← LinearMap.ker_eq_bot, LinearMap.ker_eq_bot']
    intro v hv
    have hs : Solves nx ny A (unflat ny (ext v)) (fun _ => 0) := by
      intro c hc
      have h := congrFun hv ⟨c.1 * ny + c.2, row_lt hc.1 hc.2⟩
      have h' : matVec N A (ext v) (c.1 * ny + c.2) = 0 := h
      rw [← h']
      simp only [matVec]
      refine Finset.sum_congr rfl fun r _ => ?_
      congr 1
      rw [flat, unflat]
      congr 1
      simp only
      rw [mul_comm]; exact Nat.div_add_mod r ny
    funext r
    obtain ⟨x, y, hx, hy, hr⟩ := exists_row r.2
    have := huniq _ hs (x, y) ⟨hx, hy⟩
    simp only [unflat, ext] at this
    have hlt : x * ny + y < N := row_lt hx hy
    rw [dif_pos hlt] at this
    have e : r = ⟨x * ny + y, hlt⟩ := Fin.ext hr
    rw [e]; exact this
  have hsurj := LinearMap.injective_iff_surjective.mp hinj
  refine ⟨fun b => ext (Classical.choose (hsurj fun r => b r)), fun b r hr => ?_⟩
  exact congrFun (Classical.choose_spec (hsurj fun r => b r)) ⟨r, hr⟩

/-- **C107** (solvable). Under the same conditions the default matrix is built, a factorised solver for it exists, and no two arrays solve the same equation. -/
theorem C107_solvable (d : Domain K) (nx ny : ℕ) (hnx : 9 ≤ nx) (hny : 9 ≤ ny) (hR : d.Rmin < d.Rmax) (hZ : d.Zmin < d.Zmax)
    (h2 : 2 * stepR d nx ≤ d.Rmin) :
    ∃ A, gs4Sparse d nx ny = .ok A ∧
      (∃ factorized : (ℕ → K) → ℕ → K, ∀ b, ∀ r < nx * ny, matVec (nx * ny) A (factorized b) r = b r) ∧
      ∀ psi phi b, Solves nx ny A psi b → Solves nx ny A phi b → ∀ c, OnGrid nx ny c → psi c = phi c := by
  obtain ⟨A, hA, _, _⟩ := gs4_rows d (by omega : 6 ≤ nx) (by omega : 6 ≤ ny) hR hZ
  have hzero : ∀ psi, Solves nx ny A psi (fun _ => 0) → ∀ c, OnGrid nx ny c → psi c = 0 := by
    intro psi hs c hc
    have := C107_largest d nx ny hnx hny hR hZ h2 A hA psi _ hs (fun _ _ => rfl) 0 (fun _ _ => by simp) c hc
    have h0 : psi c ^ 2 ≤ 0 := by simpa using this
    exact pow_eq_zero_iff (two_ne_zero) |>.mp (le_antisymm h0 (sq_nonneg _))
  refine ⟨A, hA, solver_of_injective nx ny A hzero, ?_⟩
  intro psi phi b h1 h3 c hc
  have := hzero (fun c => psi c - phi c) (fun c hc => by
    have e := matVec_sub (nx * ny) A (flat ny psi) (flat ny phi) (c.1 * ny + c.2)
    rw [h1 c hc, h3 c hc, sub_self] at e
    exact e) c hc
  exact sub_eq_zero.mp this

end stability

/-- A flux function with derivatives up to the sixth in each direction on the domain: `FR n`, `FZ n` are the `n`-th derivatives. -/
structure SmoothFlux6 (d : Domain ℝ) (F : ℝ → ℝ → ℝ) (FR FZ : ℕ → ℝ → ℝ → ℝ) : Prop where
  R : ∀ Z ∈ Icc d.Zmin d.Zmax, SixTimes d.Rmin d.Rmax fun k R => FR k R Z
  Z : ∀ R ∈ Icc d.Rmin d.Rmax, SixTimes d.Zmin d.Zmax fun k Z => FZ k R Z
  R0 : FR 0 = F
  Z0 : FZ 0 = F

/-- Truncation error of the fourth-order operator. -/
theorem truncation4 (mu0 : ℝ) (d : Domain ℝ) (nx ny : ℕ) (hnx : 6 ≤ nx) (hny : 6 ≤ ny) (h0 : 0 < d.Rmin) (hR : d.Rmin < d.Rmax)
    (hZ : d.Zmin < d.Zmax) (F : ℝ → ℝ → ℝ) (FR FZ : ℕ → ℝ → ℝ → ℝ) (J : ℝ → ℝ → ℝ) (hF : SmoothFlux6 d F FR FZ)
    (hgs : GradShafranov mu0 d FR FZ J) (M5 M6 N6 : ℝ)
    (hM5 : ∀ R ∈ Ioo d.Rmin d.Rmax, ∀ Z ∈ Icc d.Zmin d.Zmax, |FR 5 R Z| ≤ M5)
    (hM6 : ∀ R ∈ Ioo d.Rmin d.Rmax, ∀ Z ∈ Icc d.Zmin d.Zmax, |FR 6 R Z| ≤ M6)
    (hN6 : ∀ R ∈ Icc d.Rmin d.Rmax, ∀ Z ∈ Ioo d.Zmin d.Zmax, |FZ 6 R Z| ≤ N6) (A : ℕ → ℕ → ℝ) (hA : gs4Sparse d nx ny = .ok A)
    (c : ℕ × ℕ) (hc : Inside nx ny c) :
    |matVec (nx * ny) A (flat ny (samples d nx ny F)) (c.1 * ny + c.2) -
        -mu0 * gridR d nx c.1 * J (gridR d nx c.1) (gridZ d ny c.2)| ≤
      stepR d nx ^ 4 * (7 / 6 * M6 + M5 / (3 * d.Rmin)) + stepZ d ny ^ 4 * (7 / 6 * N6) := by
  obtain ⟨A', e1, _, e3⟩ := gs4_rows d hnx hny hR hZ
  rw [hA] at e1
  cases e1
  rw [e3 _ c hc]
  obtain ⟨r1, r2, z1, z2, sR, sZ⟩ := grid_inside d (by omega : 2 ≤ nx) (by omega : 2 ≤ ny) hR hZ hc
  have hRi : gridR d nx c.1 ∈ Ioo d.Rmin d.Rmax := ⟨by linarith, by linarith⟩
  have hZi : gridZ d ny c.2 ∈ Ioo d.Zmin d.Zmax := ⟨by linarith, by linarith⟩
  have hRp : 0 < gridR d nx c.1 := lt_trans h0 hRi.1
  have cx : ((nx - 1 : ℕ) : ℝ) = (nx : ℝ) - 1 := by rw [Nat.cast_sub (by omega)]; norm_num
  have cy : ((ny - 1 : ℕ) : ℝ) = (ny : ℝ) - 1 := by rw [Nat.cast_sub (by omega)]; norm_num
  have wx : d.Rmin + ((nx - 1 : ℕ) : ℝ) * stepR d nx = d.Rmax := by
    rw [cx, stepR, mul_div_cancel₀]
    · ring
    · have : (6 : ℝ) ≤ nx := by exact_mod_cast hnx
      linarith
  have wy : d.Zmin + ((ny - 1 : ℕ) : ℝ) * stepZ d ny = d.Zmax := by
    rw [cy, stepZ, mul_div_cancel₀]
    · ring
    · have : (6 : ℝ) ≤ ny := by exact_mod_cast hny
      linarith
  have a1 := row2_error (n := nx - 1) (by omega) (hF.R _ ⟨hZi.1.le, hZi.2.le⟩) (fun x hx => hM6 x hx _ ⟨hZi.1.le, hZi.2.le⟩) sR wx hc.1
    (show c.1 < nx - 1 by have := hc.2.1; omega)
  have a2 := row1_error (n := nx - 1) (by omega) (hF.R _ ⟨hZi.1.le, hZi.2.le⟩) (fun x hx => hM5 x hx _ ⟨hZi.1.le, hZi.2.le⟩) sR wx hc.1
    (show c.1 < nx - 1 by have := hc.2.1; omega)
  have a3 := row2_error (n := ny - 1) (by omega) (hF.Z _ ⟨hRi.1.le, hRi.2.le⟩) (fun x hx => hN6 _ ⟨hRi.1.le, hRi.2.le⟩ x hx) sZ wy hc.2.2.1
    (show c.2 < ny - 1 by have := hc.2.2.2; omega)
  simp only [hF.R0, hF.Z0] at a1 a2 a3
  have hM5' : 0 ≤ M5 := le_trans (abs_nonneg _) (hM5 _ hRi _ ⟨hZi.1.le, hZi.2.le⟩)
  rw [← hgs _ hRi _ hZi]
  have g1 : (fun x => samples d nx ny F (x, c.2)) = fun k : ℕ => F (d.Rmin + k * stepR d nx) (gridZ d ny c.2) := rfl
  have g2 : (fun y => samples d nx ny F (c.1, y)) = fun k : ℕ => F (gridR d nx c.1) (d.Zmin + k * stepZ d ny) := rfl
  have g3 : d.Rmin + (c.1 : ℝ) * stepR d nx = gridR d nx c.1 := rfl
  have g4 : d.Zmin + (c.2 : ℝ) * stepZ d ny = gridZ d ny c.2 := rfl
  rw [g1, g2]
  rw [g3] at a1 a2
  rw [g4] at a3
  generalize row2 (nx - 1) (fun k : ℕ => F (d.Rmin + k * stepR d nx) (gridZ d ny c.2)) c.1 = X2 at *
  generalize row1 (nx - 1) (fun k : ℕ => F (d.Rmin + k * stepR d nx) (gridZ d ny c.2)) c.1 = X1 at *
  generalize row2 (ny - 1) (fun k : ℕ => F (gridR d nx c.1) (d.Zmin + k * stepZ d ny)) c.2 = Y2 at *
  generalize FR 2 (gridR d nx c.1) (gridZ d ny c.2) = f2 at *
  generalize FR 1 (gridR d nx c.1) (gridZ d ny c.2) = f1 at *
  generalize FZ 2 (gridR d nx c.1) (gridZ d ny c.2) = k2 at *
  generalize gridR d nx c.1 = R at *
  generalize stepR d nx = h at *
  generalize stepZ d ny = k at *
  have b1 : |X2 / (12 * h ^ 2) - f2| ≤ h ^ 4 * (7 / 6 * M6) := by
    have : X2 / (12 * h ^ 2) - f2 = (X2 - 12 * h ^ 2 * f2) / (12 * h ^ 2) := by field_simp
    rw [this, abs_div, abs_of_pos (by positivity : (0 : ℝ) < 12 * h ^ 2), div_le_iff₀ (by positivity)]
    exact a1.trans (le_of_eq (by ring))
  have b3 : |Y2 / (12 * k ^ 2) - k2| ≤ k ^ 4 * (7 / 6 * N6) := by
    have : Y2 / (12 * k ^ 2) - k2 = (Y2 - 12 * k ^ 2 * k2) / (12 * k ^ 2) := by field_simp
    rw [this, abs_div, abs_of_pos (by positivity : (0 : ℝ) < 12 * k ^ 2), div_le_iff₀ (by positivity)]
    exact a3.trans (le_of_eq (by ring))
  have b2 : |X1 / (12 * h * R) - f1 / R| ≤ h ^ 4 * (M5 / (3 * d.Rmin)) := by
    have : X1 / (12 * h * R) - f1 / R = (X1 - 12 * h * f1) / (12 * h * R) := by field_simp
    rw [this, abs_div, abs_of_pos (by positivity : (0 : ℝ) < 12 * h * R), div_le_iff₀ (by positivity)]
    refine a2.trans ?_
    have e : h ^ 4 * (M5 / (3 * d.Rmin)) * (12 * h * R) = 4 * h ^ 5 * M5 * (R / d.Rmin) := by field_simp; ring
    rw [e]
    have h1 : 1 ≤ R / d.Rmin := by rw [le_div_iff₀ h0]; linarith [hRi.1]
    exact le_mul_of_one_le_right (by positivity) h1
  have e : Y2 / (12 * k ^ 2) + (X2 - h / R * X1) / (12 * h ^ 2) - (f2 - f1 / R + k2) =
      (X2 / (12 * h ^ 2) - f2) - (X1 / (12 * h * R) - f1 / R) + (Y2 / (12 * k ^ 2) - k2) := by
    field_simp
    ring
  rw [e]
  rw [abs_le] at b1 b2 b3 ⊢
  constructor <;> linarith [b1.1, b1.2, b2.1, b2.2, b3.1, b3.2]

/-- **C107** (fourth order). Let `F` solve the Grad-Shafranov equation for the current density `J`. If the default solver is given `F` on the edge and a
current density within `eps` of `J`, then with `T = dR⁴ (7/6 M6 + M5/(3 Rmin)) + dZ⁴ 7/6 N6 + mu0 Rmax eps` the root mean square of the error
over the interior is at most `2 H² T`, and its square is at every grid point at most `6 H⁴ (nx - 2) T²`. `M5`, `M6`, `N6` bound the fifth and
sixth derivatives of `F`; `H` is the height of the domain. -/
theorem C107_fourth_order (mu0 : ℝ) (hmu : 0 ≤ mu0) (d : Domain ℝ) (nx ny : ℕ) (hnx : 9 ≤ nx) (hny : 9 ≤ ny) (hR : d.Rmin < d.Rmax)
    (hZ : d.Zmin < d.Zmax) (h2 : 2 * stepR d nx ≤ d.Rmin) (F : ℝ → ℝ → ℝ) (FR FZ : ℕ → ℝ → ℝ → ℝ) (J : ℝ → ℝ → ℝ)
    (hF : SmoothFlux6 d F FR FZ) (hgs : GradShafranov mu0 d FR FZ J) (M5 M6 N6 : ℝ)
    (hM5 : ∀ R ∈ Ioo d.Rmin d.Rmax, ∀ Z ∈ Icc d.Zmin d.Zmax, |FR 5 R Z| ≤ M5)
    (hM6 : ∀ R ∈ Ioo d.Rmin d.Rmax, ∀ Z ∈ Icc d.Zmin d.Zmax, |FR 6 R Z| ≤ M6)
    (hN6 : ∀ R ∈ Icc d.Rmin d.Rmax, ∀ Z ∈ Ioo d.Zmin d.Zmax, |FZ 6 R Z| ≤ N6) (A : ℕ → ℕ → ℝ) (hA : gs4Sparse d nx ny = .ok A)
    (factorized : (ℕ → ℝ) → ℕ → ℝ) (hfac : ∀ b, ∀ r < nx * ny, matVec (nx * ny) A (factorized b) r = b r)
    (boundary : Arr ℝ → Arr ℝ → Arr ℝ) (Jtor psi0 : Arr ℝ) (eps : ℝ)
    (hJ : ∀ c, Inside nx ny c → |Jtor c - J (gridR d nx c.1) (gridZ d ny c.2)| ≤ eps)
    (hbnd : ∀ c, OnEdge nx ny c → boundary Jtor psi0 c = F (gridR d nx c.1) (gridZ d ny c.2)) :
    let psi := solve mu0 nx ny (linspaceAt d.Rmin d.Rmax nx) boundary (fun _ b => mgDirect factorized ny b) Jtor psi0
    let T := stepR d nx ^ 4 * (7 / 6 * M6 + M5 / (3 * d.Rmin)) + stepZ d ny ^ 4 * (7 / 6 * N6) + mu0 * d.Rmax * eps
    interiorSum nx ny (fun c => (psi c - F (gridR d nx c.1) (gridZ d ny c.2)) ^ 2) ≤
      ((nx : ℝ) - 2) * ((ny : ℝ) - 2) * (2 * (d.Zmax - d.Zmin) ^ 2 * T) ^ 2 ∧
    ∀ c, OnGrid nx ny c →
      (psi c - F (gridR d nx c.1) (gridZ d ny c.2)) ^ 2 ≤ 6 * (d.Zmax - d.Zmin) ^ 4 * ((nx : ℝ) - 2) * T ^ 2 := by
  intro psi T
  have sR : 0 < stepR d nx := spacing_pos hR (by omega)
  have h0 : 0 < d.Rmin := by linarith
  obtain ⟨hin, hedge⟩ := C34_fourth_order mu0 d nx ny (by omega) (by omega) A hA factorized hfac boundary Jtor psi0
  set b : Arr ℝ := fun c => matVec (nx * ny) A (flat ny fun c => psi c - samples d nx ny F c) (c.1 * ny + c.2) with hb
  have hsol : Solves nx ny A (fun c => psi c - samples d nx ny F c) b := fun c _ => rfl
  have hb0 : ∀ c, OnEdge nx ny c → b c = 0 := by
    obtain ⟨A', e1, e2, _⟩ := gs4_rows d (by omega : 6 ≤ nx) (by omega : 6 ≤ ny) hR hZ
    rw [hA] at e1
    cases e1
    intro c hc
    simp only [hb]
    rw [e2 _ c hc, show psi c = boundary Jtor psi0 c from hedge c hc, hbnd c hc]
    simp [samples]
  have hbT : ∀ c, Inside nx ny c → |b c| ≤ T := by
    intro c hc
    have ht := truncation4 mu0 d nx ny (by omega) (by omega) h0 hR hZ F FR FZ J hF hgs M5 M6 N6 hM5 hM6 hN6 A hA c hc
    have e := matVec_sub (nx * ny) A (flat ny psi) (flat ny (samples d nx ny F)) (c.1 * ny + c.2)
    have e' : b c = matVec (nx * ny) A (flat ny psi) (c.1 * ny + c.2) -
        matVec (nx * ny) A (flat ny (samples d nx ny F)) (c.1 * ny + c.2) := e
    rw [e', show matVec (nx * ny) A (flat ny psi) (c.1 * ny + c.2) = -mu0 * gridR d nx c.1 * Jtor c from hin c hc]
    obtain ⟨r1, r2, _, _, _, _⟩ := grid_inside d (by omega : 2 ≤ nx) (by omega : 2 ≤ ny) hR hZ hc
    have hj := hJ c hc
    have e : |-mu0 * gridR d nx c.1 * Jtor c - -mu0 * gridR d nx c.1 * J (gridR d nx c.1) (gridZ d ny c.2)| ≤ mu0 * d.Rmax * eps := by
      have : -mu0 * gridR d nx c.1 * Jtor c - -mu0 * gridR d nx c.1 * J (gridR d nx c.1) (gridZ d ny c.2) =
          -(mu0 * gridR d nx c.1 * (Jtor c - J (gridR d nx c.1) (gridZ d ny c.2))) := by ring
      have hg : 0 ≤ gridR d nx c.1 := by linarith
      rw [this, abs_neg, abs_mul, abs_of_nonneg (mul_nonneg hmu hg)]
      apply mul_le_mul _ hj (abs_nonneg _) (mul_nonneg hmu (by linarith))
      exact mul_le_mul_of_nonneg_left (by linarith) hmu
    rw [abs_le] at ht e ⊢
    constructor <;> simp only [T] <;> linarith [ht.1, ht.2, e.1, e.2]
  constructor
  · have s := C107_stability d nx ny hnx hny hR hZ h2 A hA _ b hsol hb0
    have hY : interiorSum nx ny (fun c => b c ^ 2) ≤ ((nx : ℝ) - 2) * (((ny : ℝ) - 2) * T ^ 2) := by
      have a := interiorSum_le nx ny (fun c => b c ^ 2) (fun _ => T ^ 2) fun c hc => by
        rw [← sq_abs]; exact pow_le_pow_left₀ (abs_nonneg _) (hbT c hc) 2
      refine a.trans (le_of_eq ?_)
      simp only [interiorSum, Finset.sum_const, Finset.card_range, nsmul_eq_mul]
      rw [Nat.cast_sub (by omega), Nat.cast_sub (by omega)]
      norm_num
    refine s.trans ((mul_le_mul_of_nonneg_left hY (sq_nonneg _)).trans (le_of_eq ?_))
    ring
  · exact C107_largest d nx ny hnx hny hR hZ h2 A hA _ b hsol hb0 T hbT

/-- Arithmetic of the root mean square. -/
theorem rms_small {H p q x y m tol k : ℝ} (hp0 : 0 ≤ p) (hq0 : 0 ≤ q) (hm : 0 < m) (x1 : 1 ≤ x) (y1 : 1 ≤ y)
    (cX : m ≤ x) (cY : m ≤ y) (htol : 0 < tol) (hk : 2 * H ^ 2 * (p + q) / tol < k) (hkm : k ≤ m) :
    2 * H ^ 2 * (p / x ^ 4 + q / y ^ 4) ≤ tol := by
  rw [div_lt_iff₀ htol] at hk
  have x4 : x ≤ x ^ 4 := le_self_pow₀ x1 (by norm_num)
  have y4 : y ≤ y ^ 4 := le_self_pow₀ y1 (by norm_num)
  have a : p / x ^ 4 ≤ p / m := div_le_div_of_nonneg_left hp0 hm (cX.trans x4)
  have b : q / y ^ 4 ≤ q / m := div_le_div_of_nonneg_left hq0 hm (cY.trans y4)
  have c : p / m + q / m = (p + q) / m := by ring
  have : 2 * H ^ 2 * ((p + q) / m) ≤ tol := by
    rw [← mul_div_assoc, div_le_iff₀ hm]
    nlinarith
  refine le_trans (mul_le_mul_of_nonneg_left ?_ (by positivity)) this
  linarith

/-- Arithmetic of the largest error. -/
theorem sup_small {H p q x y m tol k w : ℝ} (hm : 0 < m) (x1 : 1 ≤ x) (y1 : 1 ≤ y)
    (cX : m ≤ x) (cY : m ≤ y) (htol : 0 < tol) (hk : 12 * H ^ 4 * (p ^ 2 + 128 * q ^ 2) / tol ^ 2 < k) (hkm : k ≤ m) (hw0 : 0 ≤ w) (hwx : w ≤ x)
    (hwy : w ≤ 128 * y ^ 7) :
    6 * H ^ 4 * w * (p / x ^ 4 + q / y ^ 4) ^ 2 < tol ^ 2 := by
  rw [div_lt_iff₀ (by positivity)] at hk
  have sq : (p / x ^ 4 + q / y ^ 4) ^ 2 ≤ 2 * (p ^ 2 / x ^ 8) + 2 * (q ^ 2 / y ^ 8) := by
    have e1 : p ^ 2 / x ^ 8 = (p / x ^ 4) ^ 2 := by rw [div_pow]; ring
    have e2 : q ^ 2 / y ^ 8 = (q / y ^ 4) ^ 2 := by rw [div_pow]; ring
    rw [e1, e2]
    generalize p / x ^ 4 = u
    generalize q / y ^ 4 = v
    nlinarith [sq_nonneg (u - v)]
  have x0 : 0 < x := by linarith
  have y0 : 0 < y := by linarith
  have a : w * (p ^ 2 / x ^ 8) ≤ p ^ 2 / m := by
    have : x * (p ^ 2 / x ^ 8) = p ^ 2 / x ^ 7 := by field_simp
    calc w * (p ^ 2 / x ^ 8) ≤ x * (p ^ 2 / x ^ 8) := mul_le_mul_of_nonneg_right hwx (by positivity)
      _ = p ^ 2 / x ^ 7 := this
      _ ≤ p ^ 2 / m := div_le_div_of_nonneg_left (sq_nonneg p) hm (cX.trans (le_self_pow₀ x1 (by norm_num)))
  have b : w * (q ^ 2 / y ^ 8) ≤ 128 * q ^ 2 / m := by
    have : 128 * y ^ 7 * (q ^ 2 / y ^ 8) = 128 * q ^ 2 / y := by field_simp
    calc w * (q ^ 2 / y ^ 8) ≤ 128 * y ^ 7 * (q ^ 2 / y ^ 8) := mul_le_mul_of_nonneg_right hwy (by positivity)
      _ = 128 * q ^ 2 / y := this
      _ ≤ 128 * q ^ 2 / m := div_le_div_of_nonneg_left (by positivity) hm cY
  have c := mul_le_mul_of_nonneg_left sq hw0
  have e : 6 * H ^ 4 * w * (p / x ^ 4 + q / y ^ 4) ^ 2 ≤ 12 * H ^ 4 * (p ^ 2 + 128 * q ^ 2) / m := by
    have : 12 * H ^ 4 * (p ^ 2 + 128 * q ^ 2) / m = 6 * H ^ 4 * (2 * (p ^ 2 / m) + 2 * (128 * q ^ 2 / m)) := by ring
    rw [this, mul_assoc]
    refine mul_le_mul_of_nonneg_left ?_ (by positivity)
    linarith
  refine lt_of_le_of_lt e ?_
  rw [div_lt_iff₀ hm]
  have : k * tol ^ 2 ≤ m * tol ^ 2 := mul_le_mul_of_nonneg_right hkm (sq_nonneg _)
  linarith

/-- **C107** (convergence). With the exact current density and exact edge values the solution of the default solver converges to the solution of the
Grad-Shafranov equation as the grid is refined: in root mean square however the two directions are refined, and uniformly if `nx ≤ ny⁷`. -/
theorem C107_converges (mu0 : ℝ) (hmu : 0 ≤ mu0) (d : Domain ℝ) (h0 : 0 < d.Rmin) (hR : d.Rmin < d.Rmax)
    (hZ : d.Zmin < d.Zmax) (F : ℝ → ℝ → ℝ) (FR FZ : ℕ → ℝ → ℝ → ℝ) (J : ℝ → ℝ → ℝ)
    (hF : SmoothFlux6 d F FR FZ) (hgs : GradShafranov mu0 d FR FZ J) (M5 M6 N6 : ℝ)
    (hM5 : ∀ R ∈ Ioo d.Rmin d.Rmax, ∀ Z ∈ Icc d.Zmin d.Zmax, |FR 5 R Z| ≤ M5)
    (hM6 : ∀ R ∈ Ioo d.Rmin d.Rmax, ∀ Z ∈ Icc d.Zmin d.Zmax, |FR 6 R Z| ≤ M6)
    (hN6 : ∀ R ∈ Icc d.Rmin d.Rmax, ∀ Z ∈ Ioo d.Zmin d.Zmax, |FZ 6 R Z| ≤ N6) (tol : ℝ) (htol : 0 < tol) :
    ∃ N, ∀ nx ≥ N, ∀ ny ≥ N, ∃ A, gs4Sparse d nx ny = .ok A ∧ ∀ factorized : (ℕ → ℝ) → ℕ → ℝ,
      (∀ b, ∀ r < nx * ny, matVec (nx * ny) A (factorized b) r = b r) → ∀ psi0 : Arr ℝ,
      let psi := solve mu0 nx ny (linspaceAt d.Rmin d.Rmax nx) (fun _ _ c => F (gridR d nx c.1) (gridZ d ny c.2))
        (fun _ b => mgDirect factorized ny b) (fun c => J (gridR d nx c.1) (gridZ d ny c.2)) psi0
      interiorSum nx ny (fun c => (psi c - F (gridR d nx c.1) (gridZ d ny c.2)) ^ 2) ≤ ((nx : ℝ) - 2) * ((ny : ℝ) - 2) * tol ^ 2 ∧
      (nx ≤ ny ^ 7 → ∀ c, OnGrid nx ny c → |psi c - F (gridR d nx c.1) (gridZ d ny c.2)| < tol) := by
  have hM5' : 0 ≤ M5 := le_trans (abs_nonneg _) (hM5 ((d.Rmin + d.Rmax) / 2) ⟨by linarith, by linarith⟩ d.Zmin ⟨le_refl _, hZ.le⟩)
  have hM6' : 0 ≤ M6 := le_trans (abs_nonneg _) (hM6 ((d.Rmin + d.Rmax) / 2) ⟨by linarith, by linarith⟩ d.Zmin ⟨le_refl _, hZ.le⟩)
  have hN6' : 0 ≤ N6 := le_trans (abs_nonneg _) (hN6 d.Rmin ⟨le_refl _, hR.le⟩ ((d.Zmin + d.Zmax) / 2) ⟨by linarith, by linarith⟩)
  set W := d.Rmax - d.Rmin with hW
  set H := d.Zmax - d.Zmin with hH
  have hW0 : 0 < W := by rw [hW]; linarith
  have hH0 : 0 < H := by rw [hH]; linarith
  set p := W ^ 4 * (7 / 6 * M6 + M5 / (3 * d.Rmin)) with hp
  set q := H ^ 4 * (7 / 6 * N6) with hq
  have hp0 : 0 ≤ p := by positivity
  have hq0 : 0 ≤ q := by positivity
  obtain ⟨n1, hn1⟩ := exists_nat_gt (2 * W / d.Rmin)
  obtain ⟨n2, hn2⟩ := exists_nat_gt (2 * H ^ 2 * (p + q) / tol)
  obtain ⟨n3, hn3⟩ := exists_nat_gt (12 * H ^ 4 * (p ^ 2 + 128 * q ^ 2) / tol ^ 2)
  refine ⟨n1 + n2 + n3 + 9, ?_⟩
  intro nx hnx ny hny
  have cast : ∀ m : ℕ, n1 + n2 + n3 + 9 ≤ m → (n1 : ℝ) + n2 + n3 + 8 ≤ (m : ℝ) - 1 := by
    intro m hm
    have : ((n1 + n2 + n3 + 9 : ℕ) : ℝ) ≤ m := by exact_mod_cast hm
    push_cast at this
    linarith
  have p1 : (0 : ℝ) ≤ n1 := Nat.cast_nonneg _
  have p2 : (0 : ℝ) ≤ n2 := Nat.cast_nonneg _
  have p3 : (0 : ℝ) ≤ n3 := Nat.cast_nonneg _
  have cX := cast nx hnx
  have cY := cast ny hny
  set x := (nx : ℝ) - 1 with hx
  set y := (ny : ℝ) - 1 with hy
  have x1 : 1 ≤ x := by linarith
  have y1 : 1 ≤ y := by linarith
  have hs : 2 * stepR d nx ≤ d.Rmin := by
    rw [stepR, ← hW, ← hx, ← mul_div_assoc, div_le_iff₀ (by linarith)]
    rw [div_lt_iff₀ h0] at hn1
    nlinarith
  obtain ⟨A, hA, _, _⟩ := C107_solvable d nx ny (by omega) (by omega) hR hZ hs
  refine ⟨A, hA, ?_⟩
  intro factorized hfac psi0 psi
  obtain ⟨rms, sup⟩ := C107_fourth_order mu0 hmu d nx ny (by omega) (by omega) hR hZ hs F FR FZ J hF hgs M5 M6 N6 hM5 hM6 hN6 A hA factorized hfac
    (fun _ _ c => F (gridR d nx c.1) (gridZ d ny c.2)) (fun c => J (gridR d nx c.1) (gridZ d ny c.2)) psi0 0
    (fun c _ => by simp) (fun c _ => rfl)
  have hT : stepR d nx ^ 4 * (7 / 6 * M6 + M5 / (3 * d.Rmin)) + stepZ d ny ^ 4 * (7 / 6 * N6) + mu0 * d.Rmax * 0 =
      p / x ^ 4 + q / y ^ 4 := by
    rw [stepR, stepZ, ← hW, ← hH, ← hx, ← hy, hp, hq]
    field_simp
    ring
  rw [hT] at rms sup
  constructor
  · refine rms.trans (mul_le_mul_of_nonneg_left (pow_le_pow_left₀ (by positivity) ?_ 2) (mul_nonneg (by linarith) (by linarith)))
    exact rms_small hp0 hq0 (by positivity) x1 y1 cX cY htol hn2 (by linarith)
  · intro hxy c hc
    refine abs_lt_of_sq_lt_sq (lt_of_le_of_lt (sup c hc) ?_) htol.le
    have hyy : (nx : ℝ) - 2 ≤ 128 * y ^ 7 := by
      have h1 : (nx : ℝ) ≤ (ny : ℝ) ^ 7 := by exact_mod_cast hxy
      have h2 : (ny : ℝ) ^ 7 ≤ (2 * y) ^ 7 := pow_le_pow_left₀ (Nat.cast_nonneg _) (by rw [hy] at y1 ⊢; linarith) 7
      have h3 : (2 * y) ^ 7 = 128 * y ^ 7 := by ring
      linarith
    exact sup_small (by positivity) x1 y1 cX cY htol hn3 (by linarith) (by linarith) (by rw [hx]; linarith) hyy

/-- The default domain and grid of `Equilibrium` meet the conditions. -/
example : 2 * stepR (⟨1 / 10, 2, -1, 1⟩ : Domain ℚ) 65 ≤ 1 / 10 := by
  simp only [stepR]; norm_num

open Classical in
/-- A case of `C107_stability` and `C107_solvable`: nine by ten points, right-hand side of alternating sign. -/
example : ∃ (A : ℕ → ℕ → ℚ) (psi : Arr ℚ), gs4Sparse ⟨1, 3, 0, 4⟩ 9 10 = .ok A ∧
    Solves 9 10 A psi (fun c => if Inside 9 10 c then (-1) ^ (c.1 + c.2) else 0) ∧
    interiorSum 9 10 (fun c => psi c ^ 2) ≤ 32 ^ 2 * 56 := by
  have hs : 2 * stepR (⟨1, 3, 0, 4⟩ : Domain ℚ) 9 ≤ 1 := by simp only [stepR]; norm_num
  obtain ⟨A, hA, ⟨fac, hfac⟩, _⟩ := C107_solvable (⟨1, 3, 0, 4⟩ : Domain ℚ) 9 10 (by norm_num) (by norm_num) (by norm_num) (by norm_num) hs
  set b : Arr ℚ := fun c => if Inside 9 10 c then (-1) ^ (c.1 + c.2) else 0 with hb
  have hsol : Solves 9 10 A (unflat 10 (fac (flat 10 b))) b := by
    intro c hc
    have h := hfac (flat 10 b) (c.1 * 10 + c.2) (row_lt hc.1 hc.2)
    rw [flat_row hc.2 b] at h
    rw [← h]
    simp only [matVec]
    refine Finset.sum_congr rfl fun r _ => ?_
    congr 1
    rw [flat, unflat]
    congr 1
    simp only
    rw [mul_comm]; exact Nat.div_add_mod r 10
  refine ⟨A, _, hA, hsol, ?_⟩
  refine (C107_stability _ 9 10 (by norm_num) (by norm_num) (by norm_num) (by norm_num) hs A hA _ b hsol fun c he => ?_).trans ?_
  · have : ¬ Inside 9 10 c := fun hi => by rw [OnEdge, OnGrid] at he; rw [Inside] at hi; omega
    simp only [hb]
    rw [if_neg this]
  · have h : interiorSum 9 10 (fun c => b c ^ 2) = interiorSum 9 10 fun _ => (1 : ℚ) :=
      interiorSum_congr 9 10 _ _ fun c hc => by simp only [hb]; rw [if_pos hc]; rw [← pow_mul, mul_comm, pow_mul]; norm_num
    rw [h]
    simp only [interiorSum, Finset.sum_const, Finset.card_range]
    norm_num

/-- The flux `R⁶ + Z⁶` of the current density `-(24 R⁴ + 30 Z⁴) / R` meets the hypotheses of `C107_fourth_order` and `C107_converges`, with non-zero fifth
and sixth derivatives. -/
example : SmoothFlux6 ⟨1, 2, -1, 1⟩ (fun R Z => R ^ 6 + Z ^ 6)
      (fun n R Z => if n = 0 then R ^ 6 + Z ^ 6 else (Nat.descFactorial 6 n : ℝ) * R ^ (6 - n))
      (fun n R Z => if n = 0 then R ^ 6 + Z ^ 6 else (Nat.descFactorial 6 n : ℝ) * Z ^ (6 - n)) ∧
    GradShafranov 1 ⟨1, 2, -1, 1⟩
      (fun n R Z => if n = 0 then R ^ 6 + Z ^ 6 else (Nat.descFactorial 6 n : ℝ) * R ^ (6 - n))
      (fun n R Z => if n = 0 then R ^ 6 + Z ^ 6 else (Nat.descFactorial 6 n : ℝ) * Z ^ (6 - n))
      (fun R Z => -(24 * R ^ 4 + 30 * Z ^ 4) / R) := by
  have h : ∀ k < 6, ∀ x : ℝ, HasDerivAt (fun t : ℝ => (Nat.descFactorial 6 k : ℝ) * t ^ (6 - k))
      ((Nat.descFactorial 6 (k + 1) : ℝ) * x ^ (6 - (k + 1))) x := by
    intro k hk x
    refine ((hasDerivAt_pow (6 - k) x).const_mul _).congr_deriv ?_
    rw [Nat.descFactorial_succ, show 6 - (k + 1) = 6 - k - 1 by omega]
    push_cast
    ring
  refine ⟨⟨fun Z _ => ⟨by simp only [if_true]; fun_prop, fun k hk x _ => ?_⟩, fun R _ => ⟨by simp only [if_true]; fun_prop, fun k hk x _ => ?_⟩,
    by funext R Z; simp, by funext R Z; simp⟩, fun R hR Z _ => ?_⟩
  · rcases k with _ | k
    · simp only [if_true, zero_add, one_ne_zero, if_false]
      have := (h 0 (by norm_num) x).add_const (Z ^ 6)
      simpa using this
    · simp only [Nat.succ_ne_zero, if_false]
      exact h (k + 1) hk x
  · rcases k with _ | k
    · simp only [if_true, zero_add, one_ne_zero, if_false]
      have := (h 0 (by norm_num) x).const_add (R ^ 6)
      simpa using this
    · simp only [Nat.succ_ne_zero, if_false]
      exact h (k + 1) hk x
  · have : R ≠ 0 := by have := hR.1; simp only at this; linarith
    norm_num [Nat.descFactorial]
    field_simp
    ring

end FreeGS.GS
