import Verif.Props.PicardEquilibrium
import Verif.Props.FourthOrder
import Verif.Props.Boundary
import Verif.Lemmas.Romberg
import Mathlib.Analysis.Real.Sqrt

/-!
# C104 and C70: the Picard iteration with the default fourth-order solver
-/

set_option linter.unusedSectionVars false

namespace FreeGS.Equil

open FreeGS.GS FreeGS.Critical FreeGS.Picard

variable {C : Type}

section
variable {K : Type*} [Field K] [LinearOrder K] [IsStrictOrderedRing K]

theorem row2_le (n : ℕ) (f : ℕ → K) (E : K) (hf : ∀ k, |f k| ≤ E) (k : ℕ) : |row2 n f k| ≤ 64 * E := by
  have h : ∀ k, -E ≤ f k ∧ f k ≤ E := fun k => abs_le.mp (hf k)
  have hE : 0 ≤ E := (abs_nonneg _).trans (hf 0)
  rw [row2, abs_le]
  split
  · constructor <;> linarith [h 0, h 1, h 2, h 3, h 4, h 5, (h 0).1, (h 1).1, (h 2).1, (h 3).1, (h 4).1, (h 5).1, (h 0).2, (h 1).2, (h 2).2, (h 3).2, (h 4).2, (h 5).2]
  · split
    · constructor <;> linarith [(h n).1, (h (n - 1)).1, (h (n - 2)).1, (h (n - 3)).1, (h (n - 4)).1, (h (n - 5)).1, (h n).2, (h (n - 1)).2, (h (n - 2)).2, (h (n - 3)).2, (h (n - 4)).2, (h (n - 5)).2]
    · constructor <;> linarith [(h k).1, (h (k - 1)).1, (h (k - 2)).1, (h (k + 1)).1, (h (k + 2)).1, (h k).2, (h (k - 1)).2, (h (k - 2)).2, (h (k + 1)).2, (h (k + 2)).2]

theorem row1_le (n : ℕ) (f : ℕ → K) (E : K) (hf : ∀ k, |f k| ≤ E) (k : ℕ) : |row1 n f k| ≤ 38 * E := by
  have h : ∀ k, -E ≤ f k ∧ f k ≤ E := fun k => abs_le.mp (hf k)
  have hE : 0 ≤ E := (abs_nonneg _).trans (hf 0)
  rw [row1, abs_le]
  split
  · constructor <;> linarith [(h 0).1, (h 1).1, (h 2).1, (h 3).1, (h 4).1, (h 0).2, (h 1).2, (h 2).2, (h 3).2, (h 4).2]
  · split
    · constructor <;> linarith [(h n).1, (h (n - 1)).1, (h (n - 2)).1, (h (n - 3)).1, (h (n - 4)).1, (h n).2, (h (n - 1)).2, (h (n - 2)).2, (h (n - 3)).2, (h (n - 4)).2]
    · constructor <;> linarith [(h (k - 1)).1, (h (k - 2)).1, (h (k + 1)).1, (h (k + 2)).1, (h (k - 1)).2, (h (k - 2)).2, (h (k + 1)).2, (h (k + 2)).2]

end

/-- The operator of a matrix on arrays. -/
noncomputable def matrixOp (nx ny : ℕ) (A : ℕ → ℕ → ℝ) (psi : Arr ℝ) (c : ℕ × ℕ) : ℝ := matVec (nx * ny) A (flat ny psi) (c.1 * ny + c.2)

/-- The stability constants of the default fourth-order solve: for the right-hand side, and for the edge values. -/
noncomputable def rhsConstant (d : Domain ℝ) (nx : ℕ) : ℝ := Real.sqrt (6 * ((nx : ℝ) - 2)) * (d.Zmax - d.Zmin) ^ 2

noncomputable def edgeConstant (d : Domain ℝ) (nx ny : ℕ) : ℝ :=
  1 + rhsConstant d nx * (16 / (3 * stepZ d ny ^ 2) + 7 / stepR d nx ^ 2)

/-- The fourth-order operator on an array that is bounded by `E`. -/
theorem fourth_order_le (d : Domain ℝ) {nx ny : ℕ} (hnx : 9 ≤ nx) (hny : 9 ≤ ny) (hR : d.Rmin < d.Rmax) (hZ : d.Zmin < d.Zmax)
    (h2 : 2 * stepR d nx ≤ d.Rmin) (A : ℕ → ℕ → ℝ) (hA : gs4Sparse d nx ny = .ok A) (psi : Arr ℝ) (E : ℝ) (hE : ∀ c, |psi c| ≤ E)
    (c : ℕ × ℕ) (hc : Inside nx ny c) : |matrixOp nx ny A psi c| ≤ (16 / (3 * stepZ d ny ^ 2) + 7 / stepR d nx ^ 2) * E := by
  obtain ⟨A', e1, -, e3⟩ := gs4_rows d (show 6 ≤ nx by omega) (show 6 ≤ ny by omega) hR hZ
  rw [hA] at e1
  cases e1
  have hdR : 0 < stepR d nx := spacing_pos hR (by omega)
  have hdZ : 0 < stepZ d ny := spacing_pos hZ (by omega)
  have hg := grid_inside d (show 2 ≤ nx by omega) (show 2 ≤ ny by omega) hR hZ hc
  have hRc : d.Rmin ≤ gridR d nx c.1 := by linarith [hg.1, hg.2.2.2.2.1]
  have hratio : stepR d nx / gridR d nx c.1 ≤ 1 / 2 := by
    rw [div_le_div_iff₀ (by linarith) (by norm_num)]
    linarith
  have hratio0 : 0 ≤ stepR d nx / gridR d nx c.1 := div_nonneg hdR.le (by linarith)
  have r1 := row2_le (ny - 1) (fun y => psi (c.1, y)) E (fun y => hE _) c.2
  have r2 := row2_le (nx - 1) (fun x => psi (x, c.2)) E (fun x => hE _) c.1
  have r3 := row1_le (nx - 1) (fun x => psi (x, c.2)) E (fun x => hE _) c.1
  have hE0 : 0 ≤ E := (abs_nonneg _).trans (hE c)
  have r4 : |stepR d nx / gridR d nx c.1 * row1 (nx - 1) (fun x => psi (x, c.2)) c.1| ≤ 19 * E := by
    rw [abs_mul, abs_of_nonneg hratio0]
    calc _ ≤ 1 / 2 * (38 * E) := mul_le_mul hratio r3 (abs_nonneg _) (by norm_num)
      _ = 19 * E := by ring
  rw [matrixOp, e3 psi c hc]
  refine (abs_add_le _ _).trans ?_
  rw [add_mul]
  apply add_le_add
  · rw [abs_div, abs_of_pos (by positivity : 0 < 12 * stepZ d ny ^ 2), div_mul_eq_mul_div, div_le_div_iff₀ (by positivity) (by positivity)]
    have : 0 < stepZ d ny ^ 2 := by positivity
    nlinarith
  · rw [abs_div, abs_of_pos (by positivity : 0 < 12 * stepR d nx ^ 2), div_mul_eq_mul_div 7, div_le_div_iff₀ (by positivity) (by positivity)]
    have h5 := (abs_sub _ _).trans (add_le_add r2 r4)
    have : 0 < stepR d nx ^ 2 := by positivity
    nlinarith

/-- The default fourth-order operator is stable. -/
theorem stable_fourth_order (d : Domain ℝ) {nx ny : ℕ} (hnx : 9 ≤ nx) (hny : 9 ≤ ny) (hR : d.Rmin < d.Rmax) (hZ : d.Zmin < d.Zmax)
    (h2 : 2 * stepR d nx ≤ d.Rmin) (A : ℕ → ℕ → ℝ) (hA : gs4Sparse d nx ny = .ok A) :
    Stable nx ny (matrixOp nx ny A) (edgeConstant d nx ny) (rhsConstant d nx) := by
  intro u u' E D hD hE hI
  classical
  set Cst := 16 / (3 * stepZ d ny ^ 2) + 7 / stepR d nx ^ 2 with hCst
  have hE0 : 0 ≤ E := (abs_nonneg _).trans (hE (0, 0) (by unfold OnEdge OnGrid; dsimp only; omega))
  set v : Arr ℝ := fun c => u c - u' c with hv
  set l : Arr ℝ := fun c => if OnEdge nx ny c then v c else 0 with hl
  have hlE : ∀ c, |l c| ≤ E := by
    intro c
    simp only [hl]
    split
    · rename_i h; exact hE c h
    · rw [abs_zero]; exact hE0
  have hsub : ∀ a b : Arr ℝ, ∀ c, matrixOp nx ny A (fun c => a c - b c) c = matrixOp nx ny A a c - matrixOp nx ny A b c := by
    intro a b c
    simp only [matrixOp, matVec, flat, mul_sub, Finset.sum_sub_distrib]
  obtain ⟨A', e1, e2, -⟩ := gs4_rows d (show 6 ≤ nx by omega) (show 6 ≤ ny by omega) hR hZ
  rw [hA] at e1
  cases e1
  have hsol : Solves nx ny A (fun c => v c - l c) (fun c => matrixOp nx ny A (fun c => v c - l c) c) := fun c _ => rfl
  have hb : ∀ c, Inside nx ny c → |matrixOp nx ny A (fun c => v c - l c) c| ≤ D + Cst * E := by
    intro c hc
    rw [hsub]
    refine (abs_sub _ _).trans (add_le_add ?_ (fourth_order_le d hnx hny hR hZ h2 A hA l E hlE c hc))
    rw [hv, hsub]
    exact hI c hc
  have h0 := C107_largest d nx ny hnx hny hR hZ h2 A hA _ _ hsol (fun c hc => by
    show matrixOp nx ny A _ c = 0
    rw [matrixOp, e2 _ c hc]
    simp only [hl, if_pos hc, sub_self]) (D + Cst * E) hb
  have hn : (0 : ℝ) ≤ 6 * ((nx : ℝ) - 2) := by
    have : (9 : ℝ) ≤ nx := by exact_mod_cast hnx
    linarith
  have hC0 : 0 ≤ Cst := by rw [hCst]; positivity
  intro c hc
  have h1 := h0 c hc
  have h3 : |v c - l c| ≤ rhsConstant d nx * (D + Cst * E) := by
    apply abs_le_of_sq_le_sq _ (by unfold rhsConstant; positivity)
    rw [rhsConstant, mul_pow, mul_pow, Real.sq_sqrt hn]
    calc _ ≤ _ := h1
      _ = _ := by ring
  have h4 : |v c| ≤ |v c - l c| + |l c| := by
    have := abs_add_le (v c - l c) (l c)
    rwa [sub_add_cancel] at this
  show |v c| ≤ _
  have h5 := hlE c
  rw [edgeConstant, ← hCst]
  linarith

/-- **C70 (fourth order).** The default solver, the direct solver with the fourth-order matrix, meets the hypothesis of C70, with the matrix as operator. -/
theorem C70_fourth_order (d : Domain ℝ) (nx ny : ℕ) (hnx : 9 ≤ nx) (hny : 9 ≤ ny) (hR : d.Rmin < d.Rmax) (hZ : d.Zmin < d.Zmax)
    (h2 : 2 * stepR d nx ≤ d.Rmin) :
    ∃ A, gs4Sparse d nx ny = .ok A ∧ ∃ factorized : (ℕ → ℝ) → ℕ → ℝ,
      (∀ b, ∀ r < nx * ny, matVec (nx * ny) A (factorized b) r = b r) ∧
      Inverts nx ny (matrixOp nx ny A) fun _ b => mgDirect factorized ny b := by
  obtain ⟨A, hA, ⟨f, hf⟩, -⟩ := C107_solvable d nx ny hnx hny hR hZ h2
  obtain ⟨A', e1, e2, -⟩ := gs4_rows d (show 6 ≤ nx by omega) (show 6 ≤ ny by omega) hR hZ
  rw [hA] at e1
  cases e1
  have hs : ∀ b : Arr ℝ, Solves nx ny A (mgDirect f ny b) b := fun b => by
    intro c hc
    have e : flat ny (mgDirect f ny b) = f (flat ny b) := by
      funext r
      show unflat ny _ (r / ny, r % ny) = _
      rw [unflat]
      simp only
      rw [mul_comm, Nat.div_add_mod r ny]
    rw [e, hf _ _ (row_lt hc.1 hc.2), flat_row hc.2]
  refine ⟨A, hA, f, hf, fun _ b => ⟨fun c hc => hs b c (inside_onGrid hc), fun c hc => ?_⟩⟩
  exact (e2 _ c hc).symm.trans (hs b c hc.1)

/-- **C104** (equilibrium, default solver). With the default fourth-order solver on a grid of at least nine points each way whose inner edge is at least
two steps from the axis: `S = √(6 (nx - 2)) (Zmax - Zmin)²`, and `κ = 1 + S (16 / (3 dZ²) + 7 / dR²)`, which does not matter if the edge
values are fixed (`g = 0`). -/
theorem C104_default_solver (e : Env C ℝ) (d : Domain ℝ) (profiles : Profiles C ℝ) (J edge : Arr ℝ → Arr ℝ) (B : Arr ℝ → ℝ) (ℓ g L q : ℝ)
    (A : ℕ → ℕ → ℝ) (hA : gs4Sparse d e.nx e.ny = .ok A) (hnx : 9 ≤ e.nx) (hny : 9 ≤ e.ny) (h2 : 2 * stepR d e.nx ≤ d.Rmin)
    (hreg : Regular e d (matrixOp e.nx e.ny A) profiles J edge B ℓ g L)
    (hq : q = (edgeConstant d e.nx e.ny * g + rhsConstant d e.nx * (|e.mu0| * d.Rmax)) * ℓ) (hq1 : q < 1) (T : C)
    (o : Opts ℝ) (hcl : o.checkLimited = false) (hw : o.waitForLimited = false) (hb0 : 0 ≤ o.blend) (hb1 : o.blend < 1)
    (hatol : 0 < o.atol) (hm : ∀ mx, o.maxits = some mx → mx = 0) :
    ∃ P, SelfConsistent e d (matrixOp e.nx e.ny A) T J edge P ∧
      (∀ P', SelfConsistent e d (matrixOp e.nx e.ny A) T J edge P' → ∀ c, OnGrid e.nx e.ny c → P' c = P c) ∧
      ∀ s0 : State C ℝ, s0.tokamak = T → ∃ fuel s' hist, picard (picardEnv e profiles none) o fuel s0 = .ok (some (s', hist)) ∧
        ∃ dl r, hist.getLast? = some (dl, r) ∧ ∀ c, OnGrid e.nx e.ny c → |psi e s' c - P c| ≤ q / (1 - q) * dl := by
  have hS : 0 ≤ rhsConstant d e.nx := by rw [rhsConstant]; positivity
  exact C104_any_solver e d _ profiles J edge B _ _ ℓ g L q hreg (stable_fourth_order d hnx hny hreg.R hreg.Z h2 A hA)
    (by rw [edgeConstant]; positivity) hS hq hq1 T o hcl hw hb0 hb1 hatol hm

/-! ## The free boundary -/

/-- The edge values of `freeBoundary` change by at most the area of the grid times the largest Green's function times the change of the
current density. -/
theorem free_slope (G : ℝ → ℝ → ℝ → ℝ → ℝ) (a b : ℕ) (R Z : ℕ → ℝ) (Gmax : ℝ) (hdR : 0 ≤ R 1 - R 0) (hdZ : 0 ≤ Z 1 - Z 0)
    (hG : ∀ c p, OnEdge (2 ^ a + 1) (2 ^ b + 1) c → OnGrid (2 ^ a + 1) (2 ^ b + 1) p → p ≠ c →
      |G (R p.1) (Z p.2) (R c.1) (Z c.2)| ≤ Gmax) (hG0 : 0 ≤ Gmax) :
    ∃ edge : Arr ℝ → Arr ℝ,
      (∀ j p, ∃ p', freeBoundary G (2 ^ a + 1) (2 ^ b + 1) R Z j p = .ok p' ∧ ∀ c, OnEdge (2 ^ a + 1) (2 ^ b + 1) c → p' c = edge j c) ∧
      ∀ j j' D, Near (2 ^ a + 1) (2 ^ b + 1) D j j' → ∀ c, OnEdge (2 ^ a + 1) (2 ^ b + 1) c →
        |edge j c - edge j' c| ≤ 2 ^ a * (R 1 - R 0) * (2 ^ b * (Z 1 - Z 0)) * Gmax * D := by
  obtain ⟨wR, pR, hR, eR⟩ := romb_positive (K := ℝ) a
  obtain ⟨wZ, pZ, hZ, eZ⟩ := romb_positive (K := ℝ) b
  refine ⟨gridFlux G (2 ^ a + 1) (2 ^ b + 1) wR wZ R Z, fun j p => ?_, fun j j' D hj c hc => ?_⟩
  · obtain ⟨p', h1, h2⟩ := assignLoop_spec (edgeFlux G (2 ^ a + 1) (2 ^ b + 1) R Z j)
      (gridFlux G (2 ^ a + 1) (2 ^ b + 1) wR wZ R Z j) (edgeIndices (2 ^ a + 1) (2 ^ b + 1)) p fun c _ => edgeFlux_eq G hR hZ R Z j c
    exact ⟨p', h1, fun c hc => by rw [h2, if_pos ((mem_edge (Nat.succ_pos _) (Nat.succ_pos _)).mpr hc)]⟩
  · have hD : 0 ≤ D := (abs_nonneg _).trans (hj c hc.1)
    have sR := eR 1 0
    have sZ := eZ 1 0
    simp only [zero_mul, add_zero, mul_one, zero_div] at sR sZ
    have key : |∑ x ∈ Finset.range (2 ^ a + 1), ∑ y ∈ Finset.range (2 ^ b + 1),
        ((if (x, y) = c then 0 else wR x * wZ y * (G (R x) (Z y) (R c.1) (Z c.2) * j (x, y))) -
          (if (x, y) = c then 0 else wR x * wZ y * (G (R x) (Z y) (R c.1) (Z c.2) * j' (x, y))))| ≤ 2 ^ a * (2 ^ b * (Gmax * D)) := by
      calc _ ≤ ∑ x ∈ Finset.range (2 ^ a + 1), ∑ y ∈ Finset.range (2 ^ b + 1), wR x * (wZ y * (Gmax * D)) := by
            refine (Finset.abs_sum_le_sum_abs _ _).trans (Finset.sum_le_sum fun x hx => ?_)
            refine (Finset.abs_sum_le_sum_abs _ _).trans (Finset.sum_le_sum fun y hy => ?_)
            have hx := Finset.mem_range.mp hx
            have hy := Finset.mem_range.mp hy
            have w1 := (pR x (by omega)).le
            have w2 := (pZ y (by omega)).le
            by_cases h : (x, y) = c
            · rw [if_pos h, if_pos h, sub_self, abs_zero]; positivity
            · rw [if_neg h, if_neg h, ← mul_sub, ← mul_sub, abs_mul, abs_mul, abs_mul, abs_of_nonneg w1, abs_of_nonneg w2, mul_assoc]
              have h1 := hG c (x, y) hc ⟨hx, hy⟩ h
              have h2 := hj (x, y) ⟨hx, hy⟩
              gcongr
        _ = 2 ^ a * (2 ^ b * (Gmax * D)) := by
            simp only [← Finset.mul_sum, ← Finset.sum_mul, sR, sZ]
    simp only [gridFlux]
    rw [← sub_mul, ← sub_mul, ← Finset.sum_sub_distrib]
    simp only [← Finset.sum_sub_distrib]
    rw [abs_mul, abs_mul, abs_of_nonneg hdR, abs_of_nonneg hdZ]
    calc _ ≤ 2 ^ a * (2 ^ b * (Gmax * D)) * (R 1 - R 0) * (Z 1 - Z 0) := by gcongr
      _ = _ := by ring

/-- **C104** (free boundary). On grids of `2^a + 1` by `2^b + 1` points the free boundary has edge values of bounded slope, the area of the domain times the
largest Green's function between an edge point and another grid point, and the plasma current can always be integrated. So C104 holds for
an equilibrium with the free boundary, second order or default solver, as soon as the current density has bounded slope and axis and X-point are always
found. -/
theorem C104_free_boundary (e : Env C ℝ) (d : Domain ℝ) (op : Arr ℝ → ℕ × ℕ → ℝ) (profiles : Profiles C ℝ) (J : Arr ℝ → Arr ℝ) (B : Arr ℝ → ℝ)
    (ℓ L Gmax : ℝ) (G : ℝ → ℝ → ℝ → ℝ → ℝ) (a b : ℕ) (hnx : e.nx = 2 ^ a + 1) (hny : e.ny = 2 ^ b + 1) (h0 : 0 ≤ d.Rmin)
    (hR : d.Rmin < d.Rmax) (hZ : d.Zmin < d.Zmax) (gR : e.R = gridR d e.nx) (gZ : e.Z = gridZ d e.ny)
    (hsolver : Inverts e.nx e.ny op e.solver) (hbnd : e.boundary = freeBoundary G e.nx e.ny e.R e.Z)
    (hG : ∀ c p, OnEdge e.nx e.ny c → OnGrid e.nx e.ny p → p ≠ c → |G (e.R p.1) (e.Z p.2) (e.R c.1) (e.Z c.2)| ≤ Gmax) (hG0 : 0 ≤ Gmax)
    (hprof : ∀ s P b, ∃ s', profiles s P b = .ok (s', J P) ∧ s'.tokamak = s.tokamak ∧ s'.checkLimited = s.checkLimited)
    (hJ : ∀ P P' D, Near e.nx e.ny D P P' → Near e.nx e.ny (ℓ * D) (J P) (J P')) (hℓ : 0 ≤ ℓ)
    (hfind : ∀ P, ∃ o os x xs m, e.find P = .ok (o :: os, x :: xs) ∧ e.core P (o :: os) (x :: xs) none = .ok m ∧ x.2.2 = B P)
    (hB : ∀ P P' D, Near e.nx e.ny D P P' → |B P - B P'| ≤ L * D) :
    ∃ edge : Arr ℝ → Arr ℝ, (∀ j p, ∃ p', freeBoundary G e.nx e.ny e.R e.Z j p = .ok p' ∧ ∀ c, OnEdge e.nx e.ny c → p' c = edge j c) ∧
      Regular e d op profiles J edge B ℓ ((d.Rmax - d.Rmin) * (d.Zmax - d.Zmin) * Gmax) L := by
  have h2 : ∀ k, 1 ≤ 2 ^ k := fun k => Nat.one_le_two_pow
  have hstep : ∀ (lo hi : ℝ) (k : ℕ), (hi - lo) / (((2 ^ k + 1 : ℕ) : ℝ) - 1) * 2 ^ k = hi - lo := by
    intro lo hi k
    push_cast
    rw [add_sub_cancel_right, div_mul_cancel₀ _ (by positivity)]
  have eR : e.R 1 - e.R 0 = stepR d e.nx := by rw [gR, gridR, gridR]; push_cast; ring
  have eZ : e.Z 1 - e.Z 0 = stepZ d e.ny := by rw [gZ, gridZ, gridZ]; push_cast; ring
  have pR : 0 < stepR d e.nx := spacing_pos hR (by rw [hnx]; have := h2 a; omega)
  have pZ : 0 < stepZ d e.ny := spacing_pos hZ (by rw [hny]; have := h2 b; omega)
  have aR : 2 ^ a * (e.R 1 - e.R 0) = d.Rmax - d.Rmin := by rw [eR, stepR, hnx, mul_comm]; exact hstep _ _ a
  have aZ : 2 ^ b * (e.Z 1 - e.Z 0) = d.Zmax - d.Zmin := by rw [eZ, stepZ, hny, mul_comm]; exact hstep _ _ b
  obtain ⟨edge, h3, h4⟩ := free_slope G a b e.R e.Z Gmax (by rw [eR]; exact pR.le) (by rw [eZ]; exact pZ.le)
    (by rw [← hnx, ← hny]; exact hG) hG0
  rw [← hnx, ← hny] at h3 h4
  rw [aR, aZ] at h4
  obtain ⟨w, -, w2, -⟩ := romb2_positive (K := ℝ) a b
  rw [← hnx, ← hny] at w2
  refine ⟨edge, h3, ⟨by rw [hnx]; have := h2 a; omega, by rw [hny]; have := h2 b; omega, h0, hR, hZ, fun i => by rw [gR], hsolver, hprof, hJ,
    fun j p => by rw [hbnd]; exact h3 j p, h4, hfind, hB, fun j => ⟨_, by rw [Jtor.integrate, w2]; rfl⟩, hℓ, ?_⟩⟩
  have : 0 ≤ d.Rmax - d.Rmin := by linarith
  have : 0 ≤ d.Zmax - d.Zmin := by linarith
  positivity

/-! ## A case -/

/-- `1 ≤ R ≤ 2`, `-1 ≤ Z ≤ 1`. -/
def boxDomain : Domain ℝ := ⟨1, 2, -1, 1⟩

theorem box_solver : ∃ A, gs4Sparse boxDomain 9 9 = .ok A ∧ ∃ factorized : (ℕ → ℝ) → ℕ → ℝ,
    (∀ b, ∀ r < 9 * 9, matVec (9 * 9) A (factorized b) r = b r) ∧ Inverts 9 9 (matrixOp 9 9 A) fun _ b => mgDirect factorized 9 b :=
  C70_fourth_order boxDomain 9 9 le_rfl le_rfl (by norm_num [boxDomain]) (by norm_num [boxDomain]) (by norm_num [boxDomain, stepR])

/-- A 9 × 9 grid with the default solver and the free boundary with the Green's function 1, one coil, the X-point at the corner. -/
noncomputable def boxEnv : Env ℝ ℝ :=
  { mu0 := 1
    nx := 9
    ny := 9
    R := gridR boxDomain 9
    Z := gridZ boxDomain 9
    coilPsi := fun T c => T * c.1
    limits := fun _ => none
    find := fun P => .ok ([(3 / 2, 0, P (4, 4))], [(1, -1, P (0, 0))])
    core := fun _ _ _ _ => .ok fun _ => 1
    interp := fun a _ _ => a (0, 0)
    fixed := false
    boundary := freeBoundary (fun _ _ _ _ => 1) 9 9 (gridR boxDomain 9) (gridZ boxDomain 9)
    solver := fun _ b => mgDirect box_solver.choose_spec.2.choose 9 b }

/-- The Picard iteration of this equilibrium, with a current density of `10⁻⁵` times the flux, has one solution and reaches it. -/
example : ∃ edge P, SelfConsistent boxEnv boxDomain (matrixOp 9 9 box_solver.choose) 7 (fun P c => P c / 100000) edge P ∧
    ∀ s0 : State ℝ ℝ, s0.tokamak = 7 → ∃ fuel s' hist,
      picard (picardEnv boxEnv (fun s P _ => .ok (s, fun c => P c / 100000)) none)
        ⟨1 / 1000, 1 / 10000000000, 3 / 10, none, none, false, false, 0⟩ fuel s0 = .ok (some (s', hist)) := by
  obtain ⟨edge, -, hreg⟩ := C104_free_boundary boxEnv boxDomain (matrixOp 9 9 box_solver.choose) (fun s P _ => .ok (s, fun c => P c / 100000))
    (fun P c => P c / 100000) (fun P => P (0, 0)) (1 / 100000) 1 1 (fun _ _ _ _ => 1) 3 3 rfl rfl (by norm_num [boxDomain])
    (by norm_num [boxDomain]) (by norm_num [boxDomain]) rfl rfl box_solver.choose_spec.2.choose_spec.2 rfl (fun _ _ _ _ _ => by simp)
    zero_le_one (fun s P b => ⟨s, rfl, rfl, rfl⟩)
    (fun P P' D h c hc => by
      have := h c hc
      rw [← sub_div, abs_div, abs_of_pos (by norm_num : (0 : ℝ) < 100000)]
      linarith) (by norm_num) (fun P => ⟨_, _, _, _, _, rfl, rfl, rfl⟩)
    (fun P P' D h => by
      have := h (0, 0) ⟨by show 0 < 9; norm_num, by show 0 < 9; norm_num⟩
      rwa [one_mul])
  have hroot : Real.sqrt (6 * (((9 : ℕ) : ℝ) - 2)) ≤ 7 := by
    rw [Real.sqrt_le_left (by norm_num)]; norm_num
  have hroot0 := Real.sqrt_nonneg (6 * (((9 : ℕ) : ℝ) - 2))
  obtain ⟨P, h1, -, h3⟩ := C104_default_solver boxEnv boxDomain _ _ edge _ _ _ _ _ box_solver.choose box_solver.choose_spec.1 le_rfl le_rfl
    (by show 2 * stepR boxDomain 9 ≤ _; norm_num [boxDomain, stepR]) hreg rfl
    (by
      show (edgeConstant boxDomain 9 9 * _ + rhsConstant boxDomain 9 * (|(1 : ℝ)| * _)) * (1 / 100000) < 1
      rw [edgeConstant, rhsConstant]
      set r := Real.sqrt (6 * (((9 : ℕ) : ℝ) - 2))
      norm_num [boxDomain, stepR, stepZ]
      linarith) 7
    ⟨1 / 1000, 1 / 10000000000, 3 / 10, none, none, false, false, 0⟩ rfl rfl (by norm_num) (by norm_num) (by norm_num) (fun mx h => by cases h)
  refine ⟨edge, P, h1, fun s0 hs => ?_⟩
  obtain ⟨fuel, s', hist, a, -⟩ := h3 s0 hs
  exact ⟨fuel, s', hist, a⟩

end FreeGS.Equil
