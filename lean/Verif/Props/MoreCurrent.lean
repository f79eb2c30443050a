import Verif.Props.FourthOrder
import Verif.Props.GreensPhysics
import Verif.Props.Boundary
import Verif.Lemmas.Global

/-!
# C125: more current gives more flux
-/

set_option linter.unusedSectionVars false

namespace FreeGS.GS

open FreeGS.Critical (Domain linspaceAt)

section order
variable {K : Type*} [Field K] [LinearOrder K] [IsStrictOrderedRing K]

/-- If the edge values differ by at least `m` and the currents by at least nothing, the solutions differ by at least `m`. -/
theorem solve_gap (d : Domain K) (nx ny : ℕ) (hnx : 2 ≤ nx) (hny : 2 ≤ ny) (h0 : 0 ≤ d.Rmin) (hR : d.Rmin < d.Rmax) (hZ : d.Zmin < d.Zmax)
    {mu0 : K} (hmu : 0 ≤ mu0) (factorized : (ℕ → K) → ℕ → K)
    (hf : ∀ b, ∀ r < nx * ny, matVec (nx * ny) (gsSparse d nx ny) (factorized b) r = b r) (J J' p p' psi0 psi0' : Arr K) (m : K)
    (hJ : ∀ c, Inside nx ny c → J c ≤ J' c) (hp : ∀ c, OnEdge nx ny c → p c + m ≤ p' c) :
    ∀ c, OnGrid nx ny c →
      solve mu0 nx ny (linspaceAt d.Rmin d.Rmax nx) (fun _ _ => p) (fun _ b => mgDirect factorized ny b) J psi0 c + m ≤
        solve mu0 nx ny (linspaceAt d.Rmin d.Rmax nx) (fun _ _ => p') (fun _ b => mgDirect factorized ny b) J' psi0' c := by
  intro c hc
  obtain ⟨i1, e1⟩ := (C34_second_order mu0 d nx ny hnx hny h0 hR hZ).2 factorized hf (fun _ _ => p) J psi0
  obtain ⟨i2, e2⟩ := (C34_second_order mu0 d nx ny hnx hny h0 hR hZ).2 factorized hf (fun _ _ => p') J' psi0'
  set u := solve mu0 nx ny (linspaceAt d.Rmin d.Rmax nx) (fun _ _ => p) (fun _ b => mgDirect factorized ny b) J psi0
  set u' := solve mu0 nx ny (linspaceAt d.Rmin d.Rmax nx) (fun _ _ => p') (fun _ b => mgDirect factorized ny b) J' psi0'
  have key := C35_minimum_principle d nx ny hnx hny h0 hR hZ (fun c => u' c - u c - m)
    (fun c => matVec (nx * ny) (gsSparse d nx ny) (flat ny fun c => u' c - u c - m) (c.1 * ny + c.2)) (fun _ _ => rfl) ?_ ?_ c hc
  · linarith
  · intro c hc
    rw [((C35_matrix_is_operator d nx ny fun c => u' c - u c - m).1 c hc).2]
    have : centralDelta d nx ny (fun c => u' c - u c - m) c = centralDelta d nx ny u' c - centralDelta d nx ny u c := by
      simp only [centralDelta]
      ring
    rw [this, i1 c hc, i2 c hc]
    have hr : 0 ≤ gridR d nx c.1 := by
      have := (spacing_pos hR hnx).le
      have : 0 ≤ stepR d nx := this
      rw [gridR]
      positivity
    have := mul_nonneg (mul_nonneg hmu hr) (sub_nonneg.mpr (hJ c hc))
    linarith
  · intro c hc
    rw [(C35_matrix_is_operator d nx ny fun c => u' c - u c - m).2 c hc, e1 c hc, e2 c hc]
    linarith [hp c hc]

end order

/-- **C125** (fixed edge, second order). Let `factorized` solve the system of the second-order matrix. If the current density is nowhere
lower, the flux with the edge held at zero is nowhere lower. In particular current that is nowhere negative gives flux that is nowhere
negative. Missing: the default matrix is of fourth order, see `C125_default_fails`. -/
theorem C125_fixed_partial {K : Type*} [Field K] [LinearOrder K] [IsStrictOrderedRing K] (d : Domain K) (nx ny : ℕ) (hnx : 2 ≤ nx) (hny : 2 ≤ ny)
    (h0 : 0 ≤ d.Rmin) (hR : d.Rmin < d.Rmax) (hZ : d.Zmin < d.Zmax) (mu0 : K) (hmu : 0 ≤ mu0) (factorized : (ℕ → K) → ℕ → K)
    (hf : ∀ b, ∀ r < nx * ny, matVec (nx * ny) (gsSparse d nx ny) (factorized b) r = b r) (J J' psi0 psi0' : Arr K)
    (hJ : ∀ c, OnGrid nx ny c → J c ≤ J' c) :
    let flux := fun J psi0 => solve mu0 nx ny (linspaceAt d.Rmin d.Rmax nx) (fun _ psi => fixedBoundary nx ny psi)
      (fun _ b => mgDirect factorized ny b) J psi0
    (∀ c, OnGrid nx ny c → flux J psi0 c ≤ flux J' psi0' c) ∧
      ((∀ c, OnGrid nx ny c → 0 ≤ J c) → ∀ c, OnGrid nx ny c → 0 ≤ flux J psi0 c) := by
  intro flux
  have main : ∀ J J' psi0 psi0' : Arr K, (∀ c, OnGrid nx ny c → J c ≤ J' c) → ∀ c, OnGrid nx ny c → flux J psi0 c ≤ flux J' psi0' c := by
    intro J J' psi0 psi0' hJ c hc
    have := solve_gap d nx ny hnx hny h0 hR hZ hmu factorized hf J J' (fixedBoundary nx ny psi0) (fixedBoundary nx ny psi0') psi0 psi0' 0
      (fun c hc => hJ c (inside_onGrid hc)) (fun c hc => by rw [fixedBoundary, fixedBoundary, setEdge_edge _ _ hc, setEdge_edge _ _ hc, add_zero]) c hc
    rw [add_zero] at this
    exact this
  refine ⟨main J J' psi0 psi0' hJ, fun h c hc => ?_⟩
  have h1 := main (fun _ => 0) J psi0 psi0 h c hc
  have h2 : ∀ c, OnGrid nx ny c → 0 ≤ flux (fun _ => 0) psi0 c := by
    intro c hc
    obtain ⟨i1, e1⟩ := (C34_second_order mu0 d nx ny hnx hny h0 hR hZ).2 factorized hf (fun _ psi => fixedBoundary nx ny psi) (fun _ => 0) psi0
    refine C35_minimum_principle d nx ny hnx hny h0 hR hZ (flux (fun _ => 0) psi0)
      (fun c => matVec (nx * ny) (gsSparse d nx ny) (flat ny (flux (fun _ => 0) psi0)) (c.1 * ny + c.2)) (fun _ _ => rfl) ?_ ?_ c hc
    · intro c hc
      rw [((C35_matrix_is_operator d nx ny _).1 c hc).2]
      exact (i1 c hc).le.trans (by simp)
    · intro c hc
      rw [(C35_matrix_is_operator d nx ny _).2 c hc]
      exact ((e1 c hc).trans (setEdge_edge _ _ hc)).ge
  exact (h2 c hc).trans h1

/-- A solver and current densities that meet the hypotheses. -/
example : ∃ factorized : (ℕ → ℚ) → ℕ → ℚ, ∀ c, OnGrid 3 3 c →
    0 ≤ solve 1 3 3 (linspaceAt 1 3 3) (fun _ psi => fixedBoundary 3 3 psi) (fun _ b => mgDirect factorized 3 b) (fun c => c.1) (fun _ => 7) c := by
  obtain ⟨f, hf⟩ := (C34_second_order 1 (⟨1, 3, 0, 2⟩ : Domain ℚ) 3 3 (by norm_num) (by norm_num) (by norm_num) (by norm_num) (by norm_num)).1
  exact ⟨f, (C125_fixed_partial ⟨1, 3, 0, 2⟩ 3 3 (by norm_num) (by norm_num) (by norm_num) (by norm_num) (by norm_num) 1 (by norm_num) f hf
    (fun c => c.1) (fun c => c.1) (fun _ => 7) (fun _ => 7) fun _ _ => le_refl _).2 fun _ _ => by positivity⟩

/-- **C125** (free edge, second order). The same with the edge values of the free boundary, for domains to the right of the axis; and where
in addition the current is higher at one inner point, the flux is higher at every point. Missing: the fourth-order default, see
`C125_default_fails`. -/
theorem C125_free_partial (d : Domain ℝ) (nx ny : ℕ) (h0 : 0 < d.Rmin) (hR : d.Rmin < d.Rmax) (hZ : d.Zmin < d.Zmax)
    (factorized : (ℕ → ℝ) → ℕ → ℝ)
    (hf : ∀ b, ∀ r < nx * ny, matVec (nx * ny) (gsSparse d nx ny) (factorized b) r = b r) (J J' psi0 psi0' psi1 psi1' : Arr ℝ)
    (hJ : ∀ c, OnGrid nx ny c → J c ≤ J' c)
    (h1 : freeBoundary (greens ellipticK ellipticE) nx ny (linspaceAt d.Rmin d.Rmax nx) (linspaceAt d.Zmin d.Zmax ny) J psi0 = .ok psi1)
    (h2 : freeBoundary (greens ellipticK ellipticE) nx ny (linspaceAt d.Rmin d.Rmax nx) (linspaceAt d.Zmin d.Zmax ny) J' psi0' = .ok psi1') :
    let psi := solve mu0 nx ny (linspaceAt d.Rmin d.Rmax nx) (fun _ _ => psi1) (fun _ b => mgDirect factorized ny b) J psi0
    let psi' := solve mu0 nx ny (linspaceAt d.Rmin d.Rmax nx) (fun _ _ => psi1') (fun _ b => mgDirect factorized ny b) J' psi0'
    (∀ c, OnGrid nx ny c → psi c ≤ psi' c) ∧
      ((∃ q, Inside nx ny q ∧ J q < J' q) → ∀ c, OnGrid nx ny c → psi c < psi' c) := by
  intro psi psi'
  have hempty : ∀ c, OnGrid nx ny c → 2 ≤ nx ∧ 2 ≤ ny ∧
      ∃ m : ℝ, 0 ≤ m ∧ (∀ c, OnEdge nx ny c → psi1 c + m ≤ psi1' c) ∧ ((∃ q, Inside nx ny q ∧ J q < J' q) → 0 < m) := by
    intro c hc
    obtain ⟨hnx, hny⟩ : 0 < nx ∧ 0 < ny := by
      rw [OnGrid] at hc
      omega
    rcases FreeGS.Global.romb2_cases (K := ℝ) nx ny with he | ⟨w, hw, hs, hx2, hy2, -⟩
    · exfalso
      have : edgeIndices nx ny = (0, 0) :: (edgeIndices nx ny).tail := by
        obtain ⟨n, rfl⟩ := Nat.exists_eq_succ_of_ne_zero hnx.ne'
        simp [edgeIndices, List.range_succ_eq_map]
      rw [freeBoundary, this, assignLoop, edgeFlux] at h1
      simp only [he] at h1
      cases h1
    refine ⟨hx2, hy2, ?_⟩
    have hval : ∀ J : Arr ℝ, ∀ c, edgeFlux (greens ellipticK ellipticE) nx ny (linspaceAt d.Rmin d.Rmax nx) (linspaceAt d.Zmin d.Zmax ny) J c =
        .ok ((∑ x ∈ Finset.range nx, ∑ y ∈ Finset.range ny, w (x, y) * ((if (x, y) = c then 0 else
          greens ellipticK ellipticE (linspaceAt d.Rmin d.Rmax nx x) (linspaceAt d.Zmin d.Zmax ny y) (linspaceAt d.Rmin d.Rmax nx c.1)
            (linspaceAt d.Zmin d.Zmax ny c.2)) * J (x, y))) * stepR d nx * stepZ d ny) := by
      intro J c
      simp only [edgeFlux, hs]
      congr 2
      · congr 1
        · refine Finset.sum_congr rfl fun x _ => Finset.sum_congr rfl fun y _ => ?_
          by_cases h : (x, y) = c
          · rw [if_pos h, Arr.set, h, Function.update_self]
          · rw [if_neg h, Arr.set, Function.update_of_ne h]
        · rw [linspace_gridR d hx2, linspace_gridR d hx2, gridR, gridR]
          push_cast
          ring
      · simp only [linspaceAt, if_neg (by omega : ¬ ny ≤ 1), stepZ]
        push_cast
        ring
    obtain ⟨p1, e1, f1⟩ := assignLoop_spec _ _ (edgeIndices nx ny) psi0 fun c _ => hval J c
    obtain ⟨p2, e2, f2⟩ := assignLoop_spec _ _ (edgeIndices nx ny) psi0' fun c _ => hval J' c
    rw [freeBoundary, e1] at h1
    rw [freeBoundary, e2] at h2
    cases h1
    cases h2
    have hgpos : ∀ x, 0 < linspaceAt d.Rmin d.Rmax nx x := by
      intro x
      rw [linspace_gridR d hx2, gridR]
      have := spacing_pos hR hx2
      have : 0 < stepR d nx := this
      positivity
    have hdR : 0 < stepR d nx := spacing_pos hR hx2
    have hdZ : 0 < stepZ d ny := spacing_pos hZ hy2
    have hterm : ∀ c, ∀ x ∈ Finset.range nx, ∀ y ∈ Finset.range ny, w (x, y) * ((if (x, y) = c then 0 else
          greens ellipticK ellipticE (linspaceAt d.Rmin d.Rmax nx x) (linspaceAt d.Zmin d.Zmax ny y) (linspaceAt d.Rmin d.Rmax nx c.1)
            (linspaceAt d.Zmin d.Zmax ny c.2)) * J (x, y)) ≤ w (x, y) * ((if (x, y) = c then 0 else
          greens ellipticK ellipticE (linspaceAt d.Rmin d.Rmax nx x) (linspaceAt d.Zmin d.Zmax ny y) (linspaceAt d.Rmin d.Rmax nx c.1)
            (linspaceAt d.Zmin d.Zmax ny c.2)) * J' (x, y)) := by
      intro c x hx y hy
      rw [Finset.mem_range] at hx hy
      refine mul_le_mul_of_nonneg_left (mul_le_mul_of_nonneg_left (hJ (x, y) ⟨hx, hy⟩) ?_) (hw x hx y hy).le
      split
      · exact le_refl _
      · exact (C67_positive_everywhere _ _ _ _ (hgpos _) (hgpos _)).le
    have hle : ∀ c, OnEdge nx ny c → psi1 c ≤ psi1' c := by
      intro c hc
      have hm := (mem_edge hnx hny).mpr hc
      rw [f1, f2, if_pos hm, if_pos hm]
      exact mul_le_mul_of_nonneg_right (mul_le_mul_of_nonneg_right
        (Finset.sum_le_sum fun x hx => Finset.sum_le_sum fun y hy => hterm c x hx y hy) hdR.le) hdZ.le
    by_cases hq : ∃ q, Inside nx ny q ∧ J q < J' q
    · obtain ⟨q, hq1, hq2⟩ := hq
      have hlt : ∀ c, OnEdge nx ny c → psi1 c < psi1' c := by
        intro c hc
        have hm := (mem_edge hnx hny).mpr hc
        have hqg := inside_onGrid hq1
        have hne : ¬ (q.1, q.2) = c := by
          rintro rfl
          rw [OnEdge] at hc
          rw [Inside] at hq1
          simp only at hc
          omega
        rw [f1, f2, if_pos hm, if_pos hm]
        refine mul_lt_mul_of_pos_right (mul_lt_mul_of_pos_right ?_ hdR) hdZ
        refine Finset.sum_lt_sum (fun x hx => Finset.sum_le_sum fun y hy => hterm c x hx y hy) ⟨q.1, Finset.mem_range.mpr hqg.1, ?_⟩
        refine Finset.sum_lt_sum (fun y hy => hterm c q.1 (Finset.mem_range.mpr hqg.1) y hy) ⟨q.2, Finset.mem_range.mpr hqg.2, ?_⟩
        rw [if_neg hne]
        exact mul_lt_mul_of_pos_left (mul_lt_mul_of_pos_left hq2 (C67_positive_everywhere _ _ _ _ (hgpos _) (hgpos _))) (hw q.1 hqg.1 q.2 hqg.2)
      obtain ⟨c0, h3, h4⟩ := (edgeIndices nx ny).toFinset.exists_min_image (fun c => psi1' c - psi1 c)
        ⟨(0, 0), List.mem_toFinset.mpr ((mem_edge hnx hny).mpr ⟨⟨hnx, hny⟩, Or.inl rfl⟩)⟩
      have h5 := hlt c0 ((mem_edge hnx hny).mp (List.mem_toFinset.mp h3))
      refine ⟨psi1' c0 - psi1 c0, by linarith, fun c hc => ?_, fun _ => by linarith⟩
      linarith [h4 c (List.mem_toFinset.mpr ((mem_edge hnx hny).mpr hc))]
    · exact ⟨0, le_refl _, fun c hc => by linarith [hle c hc], fun h => absurd h hq⟩
  have gap : ∀ c, OnGrid nx ny c → ∃ m : ℝ, 0 ≤ m ∧ ((∃ q, Inside nx ny q ∧ J q < J' q) → 0 < m) ∧ psi c + m ≤ psi' c := by
    intro c hc
    obtain ⟨hx, hy, m, m0, hm, hs⟩ := hempty c hc
    exact ⟨m, m0, hs, solve_gap d nx ny hx hy h0.le hR hZ (show (0:ℝ) ≤ mu0 by unfold mu0; positivity) factorized hf J J' psi1 psi1' psi0 psi0' m
      (fun c hc => hJ c (inside_onGrid hc)) hm c hc⟩
  refine ⟨fun c hc => ?_, fun hq c hc => ?_⟩
  · obtain ⟨m, m0, -, h⟩ := gap c hc
    linarith
  · obtain ⟨m, -, m0, h⟩ := gap c hc
    linarith [m0 hq]

/-- A solver and current densities that meet the hypotheses, the second higher than the first at the middle of the grid: the second flux is
higher on the whole grid. -/
example : ∃ (factorized : (ℕ → ℝ) → ℕ → ℝ) (J J' psi1 psi1' : Arr ℝ),
    (∀ b, ∀ r < 3 * 3, matVec (3 * 3) (gsSparse ⟨1, 3, 0, 2⟩ 3 3) (factorized b) r = b r) ∧ (∀ c, OnGrid 3 3 c → J c ≤ J' c) ∧
    freeBoundary (greens ellipticK ellipticE) 3 3 (linspaceAt 1 3 3) (linspaceAt 0 2 3) J (fun _ => 0) = .ok psi1 ∧
    freeBoundary (greens ellipticK ellipticE) 3 3 (linspaceAt 1 3 3) (linspaceAt 0 2 3) J' (fun _ => 0) = .ok psi1' ∧
    ∀ c, OnGrid 3 3 c →
      solve mu0 3 3 (linspaceAt 1 3 3) (fun _ _ => psi1) (fun _ b => mgDirect factorized 3 b) J (fun _ => 0) c <
        solve mu0 3 3 (linspaceAt 1 3 3) (fun _ _ => psi1') (fun _ b => mgDirect factorized 3 b) J' (fun _ => 0) c := by
  obtain ⟨f, hf⟩ := (C34_second_order mu0 (⟨1, 3, 0, 2⟩ : Domain ℝ) 3 3 (by norm_num) (by norm_num) (by norm_num) (by norm_num) (by norm_num)).1
  obtain ⟨_, _, _, _, h⟩ := C37_free (greens ellipticK ellipticE) 1 1 (linspaceAt 1 3 3) (linspaceAt 0 2 3)
  obtain ⟨p, hp, -, -⟩ := h (fun _ => 1) fun _ => 0
  obtain ⟨p', hp', -, -⟩ := h (fun c => if c = (1, 1) then 5 else 1) fun _ => 0
  have hle : ∀ c, OnGrid 3 3 c → (fun _ => 1 : Arr ℝ) c ≤ (fun c => if c = (1, 1) then 5 else 1 : Arr ℝ) c := by
    intro c _
    simp only
    split <;> norm_num
  exact ⟨f, fun _ => 1, fun c => if c = (1, 1) then 5 else 1, p, p', hf, hle, hp, hp',
    (C125_free_partial ⟨1, 3, 0, 2⟩ 3 3 (by norm_num) (by norm_num) (by norm_num) f hf _ _ _ _ p p' hle hp hp').2
      ⟨(1, 1), by simp [Inside], by norm_num⟩⟩

/-- A flux that is negative next to a corner. -/
def cornerFlux : Arr ℚ := fun c =>
  ((([[0, 0, 0, 0, 0, 0, 0, 0, 0], [0, -72, -15, 14, 19, 16, 11, 6, 0], [0, 597, 227, 97, 54, 35, 23, 12, 0], [0, 287, 209, 124, 77, 50, 32, 16, 0],
    [0, 129, 139, 109, 78, 54, 35, 18, 0], [0, 64, 87, 81, 66, 49, 33, 17, 0], [0, 34, 52, 54, 48, 38, 27, 14, 0],
    [0, 17, 25, 28, 26, 21, 16, 9, 0]] : List (List ℚ))[c.1]?).bind (·[c.2]?)).getD 0

/-- The domain of that flux, with a distance of one between the points of a 9 x 9 grid. -/
def cornerDomain : Domain ℚ := ⟨2, 10, 0, 8⟩

/-- **C125 fails with the default order.** There is a current density that is positive at every inner point of a 9 x 9 grid and a corner of
the domain next to which the default solver, with the edge held at zero, returns a negative flux. -/
theorem C125_default_fails (mu0 : ℚ) (hmu : 0 < mu0) :
    ∃ A, gs4Sparse cornerDomain 9 9 = .ok A ∧ ∃ J : Arr ℚ, (∀ c, Inside 9 9 c → 0 < J c) ∧ (∀ c, OnEdge 9 9 c → J c = 0) ∧
      (∃ factorized : (ℕ → ℚ) → ℕ → ℚ, ∀ b, ∀ r < 9 * 9, matVec (9 * 9) A (factorized b) r = b r) ∧
      ∀ factorized : (ℕ → ℚ) → ℕ → ℚ, (∀ b, ∀ r < 9 * 9, matVec (9 * 9) A (factorized b) r = b r) → ∀ psi0,
        solve mu0 9 9 (linspaceAt cornerDomain.Rmin cornerDomain.Rmax 9) (fun _ psi => fixedBoundary 9 9 psi)
          (fun _ b => mgDirect factorized 9 b) J psi0 (1, 1) = -72 := by
  have dR : cornerDomain.Rmin < cornerDomain.Rmax := by decide +kernel
  have dZ : cornerDomain.Zmin < cornerDomain.Zmax := by decide +kernel
  obtain ⟨A, hA, hedge, hin⟩ := gs4_rows cornerDomain (nx := 9) (ny := 9) (by norm_num) (by norm_num) dR dZ
  obtain ⟨A', hA', hex, huniq⟩ := C107_solvable cornerDomain 9 9 (le_refl _) (le_refl _) dR dZ (by decide +kernel)
  rw [hA] at hA'
  cases hA'
  let S : Arr ℚ := fun c => row2 (9 - 1) (fun y => cornerFlux (c.1, y)) c.2 / (12 * stepZ cornerDomain 9 ^ 2) +
          (row2 (9 - 1) (fun x => cornerFlux (x, c.2)) c.1 -
            stepR cornerDomain 9 / gridR cornerDomain 9 c.1 * row1 (9 - 1) (fun x => cornerFlux (x, c.2)) c.1) / (12 * stepR cornerDomain 9 ^ 2)
  have hS : ∀ x < 9, ∀ y < 9, 0 < x → x < 8 → 0 < y → y < 8 → S (x, y) < 0 := by
    have h : ∀ x ∈ Finset.Ioo 0 8, ∀ y ∈ Finset.Ioo 0 8, S (x, y) < 0 := by decide +kernel
    exact fun x _ y _ h1 h2 h3 h4 => h x (Finset.mem_Ioo.mpr ⟨h1, h2⟩) y (Finset.mem_Ioo.mpr ⟨h3, h4⟩)
  have hR : ∀ x < 9, 0 < gridR cornerDomain 9 x := by decide +kernel
  have hzero : ∀ x < 9, ∀ y < 9, (x = 0 ∨ x = 8 ∨ y = 0 ∨ y = 8) → cornerFlux (x, y) = 0 := by decide +kernel
  have hneg : ∀ c, Inside 9 9 c → S c < 0 := by
    rintro ⟨x, y⟩ ⟨h1, h2, h3, h4⟩
    simp only at h1 h2 h3 h4
    exact hS x (by omega) y (by omega) h1 (by omega) h3 (by omega)
  refine ⟨A, hA, fun c => if c.1 = 0 ∨ c.1 = 8 ∨ c.2 = 0 ∨ c.2 = 8 then 0 else -S c / (mu0 * gridR cornerDomain 9 c.1), ?_, ?_, hex, ?_⟩
  · intro c hc
    have := hneg c hc
    obtain ⟨h1, h2, h3, h4⟩ := hc
    simp only
    rw [if_neg (by omega)]
    have := hR c.1 (by omega)
    exact div_pos (by linarith) (by positivity)
  · rintro c ⟨⟨h1, h2⟩, h⟩
    simp only
    rw [if_pos (by omega)]
  · intro factorized hf psi0
    obtain ⟨a, b⟩ := C34_linear_solve A mu0 cornerDomain 9 9 (by norm_num) (fun _ psi => fixedBoundary 9 9 psi) factorized hf
      (fun c => if c.1 = 0 ∨ c.1 = 8 ∨ c.2 = 0 ∨ c.2 = 8 then 0 else -S c / (mu0 * gridR cornerDomain 9 c.1)) psi0
    have := huniq (solve mu0 9 9 (linspaceAt cornerDomain.Rmin cornerDomain.Rmax 9) (fun _ psi => fixedBoundary 9 9 psi)
      (fun _ b => mgDirect factorized 9 b) (fun c => if c.1 = 0 ∨ c.1 = 8 ∨ c.2 = 0 ∨ c.2 = 8 then 0 else -S c / (mu0 * gridR cornerDomain 9 c.1)) psi0)
      cornerFlux (fun c => matVec (9 * 9) A (flat 9 cornerFlux) (c.1 * 9 + c.2)) (fun c hc => ?_) (fun _ _ => rfl) (1, 1) ⟨by norm_num, by norm_num⟩
    · exact this.trans (by decide +kernel)
    · rcases grid_cases hc with h | h
      · rw [b c h]
        beta_reduce
        rw [hedge _ c h, fixedBoundary, setEdge_edge _ _ h]
        obtain ⟨⟨h1, h2⟩, h⟩ := h
        exact (hzero c.1 h1 c.2 h2 (by omega)).symm
      · rw [a c h]
        beta_reduce
        rw [hin _ c h]
        obtain ⟨h1, h2, h3, h4⟩ := h
        rw [if_neg (by omega)]
        have hr := hR c.1 (by omega)
        change _ = S c
        field_simp

end FreeGS.GS
