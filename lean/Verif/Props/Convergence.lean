import Verif.Lemmas.Convergence

/-!
# C92: stability and second-order convergence of the linear solve
-/

set_option linter.unusedSectionVars false

namespace FreeGS.GS

open FreeGS.Critical (Domain linspaceAt)
open Set

section stability
variable {K : Type*} [Field K] [LinearOrder K] [IsStrictOrderedRing K]

/-- **C92** (stability). The solution of the second-order system is bounded by its data: the largest value on the edge plus an eighth of the
squared height of the domain times the largest right-hand side inside, on every grid. -/
theorem C92_stability (d : Domain K) (nx ny : ℕ) (hnx : 2 ≤ nx) (hny : 2 ≤ ny) (h0 : 0 ≤ d.Rmin) (hR : d.Rmin < d.Rmax)
    (hZ : d.Zmin < d.Zmax) (psi b : Arr K) (hsol : Solves nx ny (gsSparse d nx ny) psi b) (E F : K)
    (hE : ∀ c, OnEdge nx ny c → |b c| ≤ E) (hF : ∀ c, Inside nx ny c → |b c| ≤ F) (hF0 : 0 ≤ F) :
    ∀ c, OnGrid nx ny c → |psi c| ≤ E + (d.Zmax - d.Zmin) ^ 2 / 8 * F := by
  -- the comparison function
  set w : Arr K := fun c => E + F / 2 * ((gridZ d ny c.2 - d.Zmin) * (d.Zmax - gridZ d ny c.2)) with hw
  have hdZ : stepZ d ny ≠ 0 := (spacing_pos hZ hny).ne'
  have hstep : stepZ d ny * ((ny : K) - 1) = d.Zmax - d.Zmin := by
    have : (2 : K) ≤ ny := by exact_mod_cast hny
    rw [stepZ, div_mul_cancel₀]
    intro h; linarith
  have hLw : ∀ c, Inside nx ny c → centralDelta d nx ny w c = -F := by
    intro c hc
    have z1 : gridZ d ny (c.2 + 1) = gridZ d ny c.2 + stepZ d ny := by simp only [gridZ]; push_cast; ring
    have z2 : gridZ d ny (c.2 - 1) = gridZ d ny c.2 - stepZ d ny := by
      simp only [gridZ]; rw [Nat.cast_sub hc.2.2.1]; push_cast; ring
    simp only [centralDelta, hw, z1, z2]
    field_simp
    ring
  have hZin : ∀ j, j < ny → 0 ≤ (gridZ d ny j - d.Zmin) * (d.Zmax - gridZ d ny j) := by
    intro j hj
    have s0 : 0 < stepZ d ny := spacing_pos hZ hny
    have hj' : (j : K) ≤ (ny : K) - 1 := by
      have : ((j + 1 : ℕ) : K) ≤ (ny : K) := by exact_mod_cast hj
      push_cast at this; linarith
    have e1 : gridZ d ny j - d.Zmin = j * stepZ d ny := by simp only [gridZ]; ring
    have e2 : d.Zmax - gridZ d ny j = stepZ d ny * ((ny : K) - 1 - j) := by
      simp only [gridZ]; linear_combination -hstep
    rw [e1, e2]
    apply mul_nonneg
    · positivity
    · exact mul_nonneg s0.le (by linarith)
  have hwE : ∀ c, OnGrid nx ny c → E ≤ w c := by
    intro c hc
    have := hZin c.2 hc.2
    simp only [hw]
    have : 0 ≤ F / 2 * ((gridZ d ny c.2 - d.Zmin) * (d.Zmax - gridZ d ny c.2)) := by positivity
    linarith
  have hwtop : ∀ c, w c ≤ E + (d.Zmax - d.Zmin) ^ 2 / 8 * F := by
    intro c
    simp only [hw]
    have : (gridZ d ny c.2 - d.Zmin) * (d.Zmax - gridZ d ny c.2) ≤ (d.Zmax - d.Zmin) ^ 2 / 4 := by
      nlinarith [sq_nonneg (2 * gridZ d ny c.2 - d.Zmin - d.Zmax)]
    nlinarith
  have hcomp : ∀ s : K, s = 1 ∨ s = -1 → ∀ c, OnGrid nx ny c → 0 ≤ w c + s * psi c := by
    intro s hs
    have habs : ∀ x y : K, |x| ≤ y → s * x ≤ y ∧ -y ≤ s * x := by
      intro x y h
      have := abs_le.mp h
      rcases hs with rfl | rfl <;> constructor <;> linarith
    refine C35_minimum_principle d nx ny hnx hny h0 hR hZ (fun c => w c + s * psi c)
      (fun c => if isInterior nx ny c then -F + s * b c else w c + s * b c) ?_ ?_ ?_
    · intro c hc
      have hmat : matVec (nx * ny) (gsSparse d nx ny) (flat ny fun c => w c + s * psi c) (c.1 * ny + c.2) =
          matVec (nx * ny) (gsSparse d nx ny) (flat ny w) (c.1 * ny + c.2) + s * b c := by
        rw [← hsol c hc]
        simp only [matVec, flat, mul_add, Finset.sum_add_distrib, Finset.mul_sum]
        congr 1
        refine Finset.sum_congr rfl fun k _ => by ring
      rw [hmat]
      rcases grid_cases hc with he | hi
      · rw [(C35_matrix_is_operator d nx ny w).2 c he]
        simp [(edge_iff.mp he).2]
      · rw [((C35_matrix_is_operator d nx ny w).1 c hi).2, hLw c hi]
        simp [inside_iff.mp hi]
    · intro c hi
      simp only [inside_iff.mp hi, if_true]
      have := (habs _ _ (hF c hi)).1
      linarith
    · intro c he
      simp only [(edge_iff.mp he).2]
      have h1 := (habs _ _ (hE c he)).2
      have h2 := hwE c he.1
      simp only [Bool.false_eq_true, if_false]
      linarith
  intro c hc
  have h1 := hcomp 1 (Or.inl rfl) c hc
  have h2 := hcomp (-1) (Or.inr rfl) c hc
  have h3 := hwtop c
  rw [abs_le]
  constructor <;> linarith

open Classical in
/-- A case of `C92_stability`: four by five points, zero edge and a right-hand side of alternating sign bounded by one. The bound is
`2`. -/
example : ∃ psi : Arr ℚ, Solves 4 5 (gsSparse ⟨1, 3, 0, 4⟩ 4 5) psi (fun c => if Inside 4 5 c then (-1) ^ (c.1 + c.2) else 0) ∧
    ∀ c, OnGrid 4 5 c → |psi c| ≤ 2 := by
  obtain ⟨psi, h⟩ := (C35_unique_solution (⟨1, 3, 0, 4⟩ : Domain ℚ) 4 5 (by norm_num) (by norm_num) (by norm_num) (by norm_num)
    (by norm_num) (fun c => if Inside 4 5 c then (-1) ^ (c.1 + c.2) else 0)).1
  refine ⟨psi, h, fun c hc => (C92_stability _ 4 5 (by norm_num) (by norm_num) (by norm_num) (by norm_num) (by norm_num) psi _ h 0 1
    (fun c he => ?_) (fun c hi => ?_) (by norm_num) c hc).trans (by norm_num)⟩
  · have : ¬ Inside 4 5 c := fun hi => by rw [OnEdge, OnGrid] at he; rw [Inside] at hi; omega
    rw [if_neg this]; simp
  · rw [if_pos hi]; simp [abs_pow]

end stability

/-- A flux function with derivatives up to the fourth in each direction on the domain: `FR n`, `FZ n` are the `n`-th derivatives. -/
structure SmoothFlux (d : Domain ℝ) (F : ℝ → ℝ → ℝ) (FR FZ : ℕ → ℝ → ℝ → ℝ) : Prop where
  R : ∀ Z ∈ Icc d.Zmin d.Zmax, FourTimes d.Rmin d.Rmax (fun R => F R Z) (fun R => FR 1 R Z) (fun R => FR 2 R Z) (fun R => FR 3 R Z)
    (fun R => FR 4 R Z)
  Z : ∀ R ∈ Icc d.Rmin d.Rmax, FourTimes d.Zmin d.Zmax (F R) (FZ 1 R) (FZ 2 R) (FZ 3 R) (FZ 4 R)

/-- `Δ*F = -mu0 R J` inside the domain. -/
def GradShafranov (mu0 : ℝ) (d : Domain ℝ) (FR FZ : ℕ → ℝ → ℝ → ℝ) (J : ℝ → ℝ → ℝ) : Prop :=
  ∀ R ∈ Ioo d.Rmin d.Rmax, ∀ Z ∈ Ioo d.Zmin d.Zmax, FR 2 R Z - FR 1 R Z / R + FZ 2 R Z = -mu0 * R * J R Z

theorem grid_inside (d : Domain ℝ) {nx ny : ℕ} (hnx : 2 ≤ nx) (hny : 2 ≤ ny) (hR : d.Rmin < d.Rmax) (hZ : d.Zmin < d.Zmax) {c : ℕ × ℕ}
    (hc : Inside nx ny c) :
    d.Rmin ≤ gridR d nx c.1 - stepR d nx ∧ gridR d nx c.1 + stepR d nx ≤ d.Rmax ∧
    d.Zmin ≤ gridZ d ny c.2 - stepZ d ny ∧ gridZ d ny c.2 + stepZ d ny ≤ d.Zmax ∧ 0 < stepR d nx ∧ 0 < stepZ d ny := by
  have sR : 0 < stepR d nx := spacing_pos hR hnx
  have sZ : 0 < stepZ d ny := spacing_pos hZ hny
  have aux : ∀ (lo hi : ℝ) (n i : ℕ), 2 ≤ n → lo < hi → 0 < i → i + 1 < n →
      lo ≤ lo + i * ((hi - lo) / ((n : ℝ) - 1)) - (hi - lo) / ((n : ℝ) - 1) ∧
      lo + i * ((hi - lo) / ((n : ℝ) - 1)) + (hi - lo) / ((n : ℝ) - 1) ≤ hi := by
    intro lo hi n i hn hlt h1 h2
    have hn' : (2 : ℝ) ≤ n := by exact_mod_cast hn
    have hpos : (0 : ℝ) < n - 1 := by linarith
    have hs : 0 < (hi - lo) / ((n : ℝ) - 1) := div_pos (by linarith) hpos
    have he : (hi - lo) / ((n : ℝ) - 1) * ((n : ℝ) - 1) = hi - lo := div_mul_cancel₀ _ hpos.ne'
    have i1 : (1 : ℝ) ≤ i := by exact_mod_cast h1
    have i2 : (i : ℝ) + 2 ≤ n := by exact_mod_cast h2
    constructor <;> nlinarith
  obtain ⟨r1, r2⟩ := aux d.Rmin d.Rmax nx c.1 hnx hR hc.1 hc.2.1
  obtain ⟨z1, z2⟩ := aux d.Zmin d.Zmax ny c.2 hny hZ hc.2.2.1 hc.2.2.2
  exact ⟨r1, r2, z1, z2, sR, sZ⟩

/-- Truncation error of the operator. -/
theorem truncation (mu0 : ℝ) (d : Domain ℝ) (nx ny : ℕ) (hnx : 2 ≤ nx) (hny : 2 ≤ ny) (h0 : 0 < d.Rmin) (hR : d.Rmin < d.Rmax)
    (hZ : d.Zmin < d.Zmax) (F : ℝ → ℝ → ℝ) (FR FZ : ℕ → ℝ → ℝ → ℝ) (J : ℝ → ℝ → ℝ) (hF : SmoothFlux d F FR FZ)
    (hgs : GradShafranov mu0 d FR FZ J) (M3 M4 N4 : ℝ)
    (hM3 : ∀ R ∈ Ioo d.Rmin d.Rmax, ∀ Z ∈ Icc d.Zmin d.Zmax, |FR 3 R Z| ≤ M3)
    (hM4 : ∀ R ∈ Ioo d.Rmin d.Rmax, ∀ Z ∈ Icc d.Zmin d.Zmax, |FR 4 R Z| ≤ M4)
    (hN4 : ∀ R ∈ Icc d.Rmin d.Rmax, ∀ Z ∈ Ioo d.Zmin d.Zmax, |FZ 4 R Z| ≤ N4) (c : ℕ × ℕ) (hc : Inside nx ny c) :
    |centralDelta d nx ny (samples d nx ny F) c - -mu0 * gridR d nx c.1 * J (gridR d nx c.1) (gridZ d ny c.2)| ≤
      stepR d nx ^ 2 * (M4 / 12 + M3 / (6 * d.Rmin)) + stepZ d ny ^ 2 * (N4 / 12) := by
  obtain ⟨r1, r2, z1, z2, sR, sZ⟩ := grid_inside d hnx hny hR hZ hc
  have er1 : gridR d nx (c.1 + 1) = gridR d nx c.1 + stepR d nx := by simp only [gridR]; push_cast; ring
  have er2 : gridR d nx (c.1 - 1) = gridR d nx c.1 - stepR d nx := by
    simp only [gridR]; rw [Nat.cast_sub hc.1]; push_cast; ring
  have ez1 : gridZ d ny (c.2 + 1) = gridZ d ny c.2 + stepZ d ny := by simp only [gridZ]; push_cast; ring
  have ez2 : gridZ d ny (c.2 - 1) = gridZ d ny c.2 - stepZ d ny := by
    simp only [gridZ]; rw [Nat.cast_sub hc.2.2.1]; push_cast; ring
  simp only [centralDelta, samples, er1, er2, ez1, ez2]
  generalize gridR d nx c.1 = R at *
  generalize gridZ d ny c.2 = Z at *
  generalize stepR d nx = h at *
  generalize stepZ d ny = k at *
  have hRi : R ∈ Ioo d.Rmin d.Rmax := ⟨by linarith, by linarith⟩
  have hZi : Z ∈ Ioo d.Zmin d.Zmax := ⟨by linarith, by linarith⟩
  have hRp : 0 < R := lt_trans h0 hRi.1
  have a1 := second_difference (hF.R Z ⟨hZi.1.le, hZi.2.le⟩) (fun x hx => hM4 x hx Z ⟨hZi.1.le, hZi.2.le⟩) sR r1 r2
  have a2 := first_difference (hF.R Z ⟨hZi.1.le, hZi.2.le⟩) (fun x hx => hM3 x hx Z ⟨hZi.1.le, hZi.2.le⟩) sR r1 r2
  have a3 := second_difference (hF.Z R ⟨hRi.1.le, hRi.2.le⟩) (fun x hx => hN4 R ⟨hRi.1.le, hRi.2.le⟩ x hx) sZ z1 z2
  rw [← hgs R hRi Z hZi]
  have hM3' : 0 ≤ M3 := le_trans (abs_nonneg _) (hM3 R hRi Z ⟨hZi.1.le, hZi.2.le⟩)
  have b1 : |(F (R + h) Z - 2 * F R Z + F (R - h) Z) / h ^ 2 - FR 2 R Z| ≤ h ^ 2 * (M4 / 12) := by
    have : (F (R + h) Z - 2 * F R Z + F (R - h) Z) / h ^ 2 - FR 2 R Z =
        (F (R + h) Z - 2 * F R Z + F (R - h) Z - h ^ 2 * FR 2 R Z) / h ^ 2 := by field_simp
    rw [this, abs_div, abs_of_pos (by positivity : (0 : ℝ) < h ^ 2), div_le_iff₀ (by positivity)]
    refine a1.trans (le_of_eq ?_)
    ring
  have b2 : |(F (R + h) Z - F (R - h) Z) / (2 * h) / R - FR 1 R Z / R| ≤ h ^ 2 * (M3 / (6 * d.Rmin)) := by
    have : (F (R + h) Z - F (R - h) Z) / (2 * h) / R - FR 1 R Z / R =
        (F (R + h) Z - F (R - h) Z - 2 * h * FR 1 R Z) / (2 * h * R) := by field_simp
    rw [this, abs_div, abs_of_pos (by positivity : (0 : ℝ) < 2 * h * R), div_le_iff₀ (by positivity)]
    refine a2.trans ?_
    have : h ^ 2 * (M3 / (6 * d.Rmin)) * (2 * h * R) = M3 * h ^ 3 / 3 * (R / d.Rmin) := by field_simp; ring
    rw [this]
    have h1 : 1 ≤ R / d.Rmin := by rw [le_div_iff₀ h0]; linarith [hRi.1]
    have h2 : 0 ≤ M3 * h ^ 3 / 3 := by positivity
    nlinarith
  have b3 : |(F R (Z + k) - 2 * F R Z + F R (Z - k)) / k ^ 2 - FZ 2 R Z| ≤ k ^ 2 * (N4 / 12) := by
    have : (F R (Z + k) - 2 * F R Z + F R (Z - k)) / k ^ 2 - FZ 2 R Z =
        (F R (Z + k) - 2 * F R Z + F R (Z - k) - k ^ 2 * FZ 2 R Z) / k ^ 2 := by field_simp
    rw [this, abs_div, abs_of_pos (by positivity : (0 : ℝ) < k ^ 2), div_le_iff₀ (by positivity)]
    refine a3.trans (le_of_eq ?_)
    ring
  rw [abs_le] at b1 b2 b3 ⊢
  constructor <;> linarith [b1.1, b1.2, b2.1, b2.2, b3.1, b3.2]

/-- **C92** (second order). Let `F` solve the Grad-Shafranov equation for the current density `J`. If the solver is given the current density
within `eps` of `J` and edge values within `delta` of `F`, the flux it returns is within
`delta + H²/8 (dR² (M4/12 + M3/(6 Rmin)) + dZ² N4/12 + mu0 Rmax eps)` of `F` at every grid point, where `H` is the height of the domain and
`M3`, `M4`, `N4` bound the third and fourth derivatives of `F`. -/
theorem C92_second_order (mu0 : ℝ) (hmu : 0 ≤ mu0) (d : Domain ℝ) (nx ny : ℕ) (hnx : 2 ≤ nx) (hny : 2 ≤ ny) (h0 : 0 < d.Rmin)
    (hR : d.Rmin < d.Rmax) (hZ : d.Zmin < d.Zmax) (F : ℝ → ℝ → ℝ) (FR FZ : ℕ → ℝ → ℝ → ℝ) (J : ℝ → ℝ → ℝ) (hF : SmoothFlux d F FR FZ)
    (hgs : GradShafranov mu0 d FR FZ J) (M3 M4 N4 : ℝ)
    (hM3 : ∀ R ∈ Ioo d.Rmin d.Rmax, ∀ Z ∈ Icc d.Zmin d.Zmax, |FR 3 R Z| ≤ M3)
    (hM4 : ∀ R ∈ Ioo d.Rmin d.Rmax, ∀ Z ∈ Icc d.Zmin d.Zmax, |FR 4 R Z| ≤ M4)
    (hN4 : ∀ R ∈ Icc d.Rmin d.Rmax, ∀ Z ∈ Ioo d.Zmin d.Zmax, |FZ 4 R Z| ≤ N4)
    (factorized : (ℕ → ℝ) → ℕ → ℝ) (hfac : ∀ b, ∀ r < nx * ny, matVec (nx * ny) (gsSparse d nx ny) (factorized b) r = b r)
    (boundary : Arr ℝ → Arr ℝ → Arr ℝ) (Jtor psi0 : Arr ℝ) (eps delta : ℝ)
    (hJ : ∀ c, Inside nx ny c → |Jtor c - J (gridR d nx c.1) (gridZ d ny c.2)| ≤ eps)
    (hbnd : ∀ c, OnEdge nx ny c → |boundary Jtor psi0 c - F (gridR d nx c.1) (gridZ d ny c.2)| ≤ delta) (heps : 0 ≤ eps) :
    let psi := solve mu0 nx ny (linspaceAt d.Rmin d.Rmax nx) boundary (fun _ b => mgDirect factorized ny b) Jtor psi0
    ∀ c, OnGrid nx ny c → |psi c - F (gridR d nx c.1) (gridZ d ny c.2)| ≤
      delta + (d.Zmax - d.Zmin) ^ 2 / 8 *
        (stepR d nx ^ 2 * (M4 / 12 + M3 / (6 * d.Rmin)) + stepZ d ny ^ 2 * (N4 / 12) + mu0 * d.Rmax * eps) := by
  intro psi
  obtain ⟨hin, hedge⟩ := (C34_second_order mu0 d nx ny hnx hny h0.le hR hZ).2 factorized hfac boundary Jtor psi0
  set b : Arr ℝ := fun c => matVec (nx * ny) (gsSparse d nx ny) (flat ny fun c => psi c - samples d nx ny F c) (c.1 * ny + c.2) with hb
  have hlin : ∀ c, Inside nx ny c → b c = centralDelta d nx ny psi c - centralDelta d nx ny (samples d nx ny F) c := by
    intro c hc
    simp only [hb]
    rw [((C35_matrix_is_operator d nx ny _).1 c hc).2]
    simp only [centralDelta]
    ring
  have hM4' : 0 ≤ M4 := le_trans (abs_nonneg _) (hM4 ((d.Rmin + d.Rmax) / 2) ⟨by linarith, by linarith⟩ d.Zmin ⟨le_refl _, hZ.le⟩)
  have hM3' : 0 ≤ M3 := le_trans (abs_nonneg _) (hM3 ((d.Rmin + d.Rmax) / 2) ⟨by linarith, by linarith⟩ d.Zmin ⟨le_refl _, hZ.le⟩)
  have hN4' : 0 ≤ N4 := le_trans (abs_nonneg _) (hN4 d.Rmin ⟨le_refl _, hR.le⟩ ((d.Zmin + d.Zmax) / 2) ⟨by linarith, by linarith⟩)
  refine C92_stability d nx ny hnx hny h0.le hR hZ (fun c => psi c - samples d nx ny F c) b (fun c _ => rfl) delta _ ?_ ?_ ?_
  · intro c hc
    simp only [hb]
    rw [(C35_matrix_is_operator d nx ny _).2 c hc]
    simp only [samples]
    rw [show psi c = boundary Jtor psi0 c from hedge c hc]
    exact hbnd c hc
  · intro c hc
    have ht := truncation mu0 d nx ny hnx hny h0 hR hZ F FR FZ J hF hgs M3 M4 N4 hM3 hM4 hN4 c hc
    rw [hlin c hc, show centralDelta d nx ny psi c = -mu0 * gridR d nx c.1 * Jtor c from hin c hc]
    obtain ⟨r1, r2, _, _, sR, _⟩ := grid_inside d hnx hny hR hZ hc
    have hj := hJ c hc
    have e : |-mu0 * gridR d nx c.1 * Jtor c - -mu0 * gridR d nx c.1 * J (gridR d nx c.1) (gridZ d ny c.2)| ≤ mu0 * d.Rmax * eps := by
      have : -mu0 * gridR d nx c.1 * Jtor c - -mu0 * gridR d nx c.1 * J (gridR d nx c.1) (gridZ d ny c.2) =
          -(mu0 * gridR d nx c.1 * (Jtor c - J (gridR d nx c.1) (gridZ d ny c.2))) := by ring
      have hg : 0 ≤ gridR d nx c.1 := by linarith
      rw [this, abs_neg, abs_mul, abs_of_nonneg (mul_nonneg hmu hg)]
      apply mul_le_mul _ hj (abs_nonneg _) (mul_nonneg hmu (by linarith))
      exact mul_le_mul_of_nonneg_left (by linarith) hmu
    rw [abs_le] at ht e ⊢
    constructor <;> linarith [ht.1, ht.2, e.1, e.2]
  · have : 0 ≤ d.Rmax := by linarith
    positivity

/-- **C92** (convergence). With the exact current density and exact edge values the solution on the grid converges to the solution of the
Grad-Shafranov equation, uniformly, as the grid is refined in both directions. -/
theorem C92_converges (mu0 : ℝ) (hmu : 0 ≤ mu0) (d : Domain ℝ) (h0 : 0 < d.Rmin)
    (hR : d.Rmin < d.Rmax) (hZ : d.Zmin < d.Zmax) (F : ℝ → ℝ → ℝ) (FR FZ : ℕ → ℝ → ℝ → ℝ) (J : ℝ → ℝ → ℝ) (hF : SmoothFlux d F FR FZ)
    (hgs : GradShafranov mu0 d FR FZ J) (M3 M4 N4 : ℝ)
    (hM3 : ∀ R ∈ Ioo d.Rmin d.Rmax, ∀ Z ∈ Icc d.Zmin d.Zmax, |FR 3 R Z| ≤ M3)
    (hM4 : ∀ R ∈ Ioo d.Rmin d.Rmax, ∀ Z ∈ Icc d.Zmin d.Zmax, |FR 4 R Z| ≤ M4)
    (hN4 : ∀ R ∈ Icc d.Rmin d.Rmax, ∀ Z ∈ Ioo d.Zmin d.Zmax, |FZ 4 R Z| ≤ N4) (tol : ℝ) (htol : 0 < tol) :
    ∃ N, ∀ nx ≥ N, ∀ ny ≥ N, ∀ factorized : (ℕ → ℝ) → ℕ → ℝ,
      (∀ b, ∀ r < nx * ny, matVec (nx * ny) (gsSparse d nx ny) (factorized b) r = b r) → ∀ psi0 : Arr ℝ,
      let psi := solve mu0 nx ny (linspaceAt d.Rmin d.Rmax nx) (fun _ _ c => F (gridR d nx c.1) (gridZ d ny c.2))
        (fun _ b => mgDirect factorized ny b) (fun c => J (gridR d nx c.1) (gridZ d ny c.2)) psi0
      ∀ c, OnGrid nx ny c → |psi c - F (gridR d nx c.1) (gridZ d ny c.2)| < tol := by
  have hM4' : 0 ≤ M4 := le_trans (abs_nonneg _) (hM4 ((d.Rmin + d.Rmax) / 2) ⟨by linarith, by linarith⟩ d.Zmin ⟨le_refl _, hZ.le⟩)
  have hM3' : 0 ≤ M3 := le_trans (abs_nonneg _) (hM3 ((d.Rmin + d.Rmax) / 2) ⟨by linarith, by linarith⟩ d.Zmin ⟨le_refl _, hZ.le⟩)
  have hN4' : 0 ≤ N4 := le_trans (abs_nonneg _) (hN4 d.Rmin ⟨le_refl _, hR.le⟩ ((d.Zmin + d.Zmax) / 2) ⟨by linarith, by linarith⟩)
  set A := (d.Zmax - d.Zmin) ^ 2 / 8 * ((d.Rmax - d.Rmin) ^ 2 * (M4 / 12 + M3 / (6 * d.Rmin)) + (d.Zmax - d.Zmin) ^ 2 * (N4 / 12)) with hA
  have hA0 : 0 ≤ A := by positivity
  obtain ⟨n, hn⟩ := exists_nat_gt (A / tol)
  refine ⟨n + 2, ?_⟩
  intro nx hnx ny hny factorized hfac psi0 psi c hc
  have main := C92_second_order mu0 hmu d nx ny (by omega) (by omega) h0 hR hZ F FR FZ J hF hgs M3 M4 N4 hM3 hM4 hN4 factorized hfac
    (fun _ _ c => F (gridR d nx c.1) (gridZ d ny c.2)) (fun c => J (gridR d nx c.1) (gridZ d ny c.2)) psi0 0 0
    (fun c _ => by simp) (fun c _ => by simp) (le_refl _) c hc
  refine lt_of_le_of_lt main ?_
  have step : ∀ (L : ℝ) (m : ℕ), n + 2 ≤ m → (L / ((m : ℝ) - 1)) ^ 2 ≤ L ^ 2 / ((n : ℝ) + 1) := by
    intro L m hm
    have hm' : (n : ℝ) + 2 ≤ m := by exact_mod_cast hm
    have hn0 : (0 : ℝ) ≤ n := Nat.cast_nonneg n
    rw [div_pow]
    apply div_le_div_of_nonneg_left (sq_nonneg _) (by positivity)
    nlinarith
  have s1 := step (d.Rmax - d.Rmin) nx hnx
  have s2 := step (d.Zmax - d.Zmin) ny hny
  have hn1 : (0 : ℝ) < (n : ℝ) + 1 := by positivity
  have hc1 : 0 ≤ M4 / 12 + M3 / (6 * d.Rmin) := by positivity
  have hc2 : 0 ≤ N4 / 12 := by positivity
  calc 0 + (d.Zmax - d.Zmin) ^ 2 / 8 *
        (stepR d nx ^ 2 * (M4 / 12 + M3 / (6 * d.Rmin)) + stepZ d ny ^ 2 * (N4 / 12) + mu0 * d.Rmax * 0)
      ≤ (d.Zmax - d.Zmin) ^ 2 / 8 * ((d.Rmax - d.Rmin) ^ 2 / ((n : ℝ) + 1) * (M4 / 12 + M3 / (6 * d.Rmin)) +
          (d.Zmax - d.Zmin) ^ 2 / ((n : ℝ) + 1) * (N4 / 12)) := by
        rw [zero_add, mul_zero, add_zero]
        apply mul_le_mul_of_nonneg_left _ (by positivity)
        exact add_le_add (mul_le_mul_of_nonneg_right s1 hc1) (mul_le_mul_of_nonneg_right s2 hc2)
    _ = A / ((n : ℝ) + 1) := by rw [hA]; ring
    _ < tol := by
        rw [div_lt_iff₀ hn1]
        rw [div_lt_iff₀ htol] at hn
        nlinarith

/-- The flux `R⁴ + Z⁴` of the current density `-(8 R² + 12 Z²) / R` meets the hypotheses. -/
example : SmoothFlux ⟨1, 2, -1, 1⟩ (fun R Z => R ^ 4 + Z ^ 4)
      (fun n R _ => if n = 1 then 4 * R ^ 3 else if n = 2 then 12 * R ^ 2 else if n = 3 then 24 * R else 24)
      (fun n _ Z => if n = 1 then 4 * Z ^ 3 else if n = 2 then 12 * Z ^ 2 else if n = 3 then 24 * Z else 24) ∧
    GradShafranov 1 ⟨1, 2, -1, 1⟩
      (fun n R _ => if n = 1 then 4 * R ^ 3 else if n = 2 then 12 * R ^ 2 else if n = 3 then 24 * R else 24)
      (fun n _ Z => if n = 1 then 4 * Z ^ 3 else if n = 2 then 12 * Z ^ 2 else if n = 3 then 24 * Z else 24)
      (fun R Z => -(8 * R ^ 2 + 12 * Z ^ 2) / R) := by
  have h1 : ∀ x : ℝ, HasDerivAt (fun t : ℝ => 4 * t ^ 3) (12 * x ^ 2) x := fun x =>
    ((hasDerivAt_pow 3 x).const_mul 4).congr_deriv (by norm_num; ring)
  have h2 : ∀ x : ℝ, HasDerivAt (fun t : ℝ => 12 * t ^ 2) (24 * x) x := fun x =>
    ((hasDerivAt_pow 2 x).const_mul 12).congr_deriv (by norm_num; ring)
  have h3 : ∀ x : ℝ, HasDerivAt (fun t : ℝ => 24 * t) 24 x := fun x =>
    ((hasDerivAt_id x).const_mul 24).congr_deriv (by norm_num)
  refine ⟨⟨fun Z _ => ⟨by fun_prop, fun x _ => ?_, fun x _ => ?_, fun x _ => ?_, fun x _ => ?_⟩,
    fun R _ => ⟨by fun_prop, fun x _ => ?_, fun x _ => ?_, fun x _ => ?_, fun x _ => ?_⟩⟩, fun R hR Z _ => ?_⟩
  · exact ((hasDerivAt_pow 4 x).add_const (Z ^ 4)).congr_deriv (by norm_num)
  · simpa using h1 x
  · simpa using h2 x
  · simpa using h3 x
  · exact ((hasDerivAt_pow 4 x).const_add (R ^ 4)).congr_deriv (by norm_num)
  · simpa using h1 x
  · simpa using h2 x
  · simpa using h3 x
  · have : R ≠ 0 := by have := hR.1; simp only at this; linarith
    simp only
    norm_num
    field_simp
    ring

end FreeGS.GS
