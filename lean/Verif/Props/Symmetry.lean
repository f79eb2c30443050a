import Verif.Lemmas.Symmetry
import Verif.Props.CoreMask
import Verif.Props.Equilibrium
import Verif.Props.Greens

/-!
# C93: up-down symmetry
-/

set_option linter.unusedSectionVars false

/-! ## Linear solve and boundary conditions -/

namespace FreeGS.GS

open FreeGS.Critical (Domain)

variable {K : Type*} [Field K] [LinearOrder K]

/-- The solver gives symmetric results for symmetric arguments. -/
def SolverKeeps (nx ny : ℕ) (solver : Arr K → Arr K → Arr K) : Prop :=
  ∀ x b, UpDown nx ny x → UpDown nx ny b → UpDown nx ny (solver x b)

/-- The boundary function gives a symmetric flux for a symmetric current density and flux. -/
def BoundaryKeeps (nx ny : ℕ) (boundary : Arr K → Arr K → Except Err (Arr K)) : Prop :=
  ∀ J psi edge, UpDown nx ny J → UpDown nx ny psi → boundary J psi = .ok edge → UpDown nx ny edge

/-- **C93 (direct solver).** Both discretisations: the solution of a symmetric system is symmetric, whatever the routine that solves
it. -/
theorem C93_solver [IsStrictOrderedRing K] (d : Domain K) (nx ny : ℕ) (hR : d.Rmin < d.Rmax) (hZ : d.Zmin < d.Zmax)
    (A : ℕ → ℕ → K) (hA : A = gsSparse d nx ny ∨ (6 ≤ nx ∧ 6 ≤ ny ∧ gs4Sparse d nx ny = .ok A))
    (factorized : (ℕ → K) → ℕ → K) (hfac : ∀ b, ∀ r < nx * ny, matVec (nx * ny) A (factorized b) r = b r) :
    SolverKeeps nx ny fun _ b => mgDirect factorized ny b := by
  intro x b _ hb
  refine mgDirect_upDown ?_ hfac hb
  rcases hA with rfl | ⟨hx, hy, h⟩
  · exact mirror_second d nx ny
  · exact mirror_fourth d hx hy hR hZ h

theorem upDown_setEdge {nx ny : ℕ} {a f : Arr K} (ha : UpDown nx ny a) (hf : UpDown nx ny f) : UpDown nx ny (setEdge nx ny a f) := by
  intro c hc
  rcases grid_cases hc with he | hi
  · rw [setEdge_edge _ _ he, setEdge_edge _ _ (flip_edge he), hf c hc]
  · rw [setEdge_inside _ _ hi, setEdge_inside _ _ (flip_inside hi), ha c hc]

/-- **C93 (fixed boundary).** -/
theorem C93_fixed_boundary (nx ny : ℕ) : BoundaryKeeps nx ny fun _ psi : Arr K => .ok (fixedBoundary nx ny psi) := by
  intro J psi edge _ hp h
  cases h
  exact upDown_setEdge hp fun c _ => rfl

/-- **C93 (free boundary).** For every kernel that does not change when both points are mirrored. -/
theorem C93_free_boundary [CharZero K] (G : K → K → K → K → K) (nx ny : ℕ) (R Z : ℕ → K) (m : K) (hG : MirrorKernel G m)
    (hZ : EvenHeights ny Z m) : BoundaryKeeps nx ny (freeBoundary G nx ny R Z) := by
  intro J psi edge hJ hp h c hc
  have hx : 0 < nx := by rw [OnGrid] at hc; omega
  have hy : 0 < ny := by rw [OnGrid] at hc; omega
  have hs : (∃ k, nx = 2 ^ k + 1) ∧ ∃ k, ny = 2 ^ k + 1 := by
    by_contra hn
    have : (∀ k, nx ≠ 2 ^ k + 1) ∨ ∀ k, ny ≠ 2 ^ k + 1 := by
      by_contra h'
      push_neg at h'
      exact hn h'
    rw [C37_free_size_error G nx ny hx R Z this] at h
    cases h
  obtain ⟨⟨a, rfl⟩, b, rfl⟩ := hs
  obtain ⟨wR, hR, _⟩ := romb_weights (K := K) a
  obtain ⟨wZ, hZ', _⟩ := romb_weights (K := K) b
  have hval := fun c => edgeFlux_eq G hR hZ' R Z J c
  obtain ⟨psi', h1, h2⟩ := assignLoop_spec (edgeFlux G (2 ^ a + 1) (2 ^ b + 1) R Z J)
    (gridFlux G (2 ^ a + 1) (2 ^ b + 1) wR wZ R Z J) (edgeIndices (2 ^ a + 1) (2 ^ b + 1)) psi fun c _ => hval c
  rw [freeBoundary, h1] at h
  cases h
  rw [h2, h2]
  rcases grid_cases hc with he | hi
  · rw [if_pos ((mem_edge hx hy).mpr he), if_pos ((mem_edge hx hy).mpr (flip_edge he))]
    have := edgeFlux_mirror (R := R) hG hZ hJ hc
    rw [hval, hval] at this
    exact Except.ok.inj this
  · have hn : ∀ c, Inside (2 ^ a + 1) (2 ^ b + 1) c → c ∉ edgeIndices (2 ^ a + 1) (2 ^ b + 1) := by
      intro c hc h
      rw [mem_edge hx hy] at h
      rw [Inside] at hc; rw [OnEdge] at h; omega
    rw [if_neg (hn _ hi), if_neg (hn _ (flip_inside hi)), hp c hc]

theorem displaced_flip {nx ny : ℕ} (hny : 2 ≤ ny) {R Z : ℕ → K} {m : K} (hZ : EvenHeights ny Z m) {c : ℕ × ℕ} (hc : OnEdge nx ny c) :
    displaced nx ny R Z (mirrorRow ny c) = ((displaced nx ny R Z c).1, 2 * m - (displaced nx ny R Z c).2) := by
  obtain ⟨hg, he⟩ := hc
  rw [OnGrid] at hg
  obtain ⟨x, y⟩ := c
  simp only at hg he
  show displaced nx ny R Z (x, ny - 1 - y) = _
  simp only [displaced]
  by_cases h1 : x + 1 = nx
  · rw [if_pos h1, if_pos h1, hZ _ hg.2]
  · rw [if_neg h1, if_neg h1]
    by_cases h2 : x = 0
    · rw [if_pos h2, if_pos h2, hZ _ hg.2]
    · rw [if_neg h2, if_neg h2]
      by_cases h3 : y + 1 = ny
      · rw [if_pos h3, if_neg (by omega), hZ _ hg.2]
        simp only [Prod.mk.injEq, true_and]; ring
      · rw [if_neg h3, if_pos (by omega), hZ _ hg.2]
        simp only [Prod.mk.injEq, true_and]; ring

theorem hagenowNormal_flip {nx ny : ℕ} (hnx : 5 ≤ nx) (hny : 5 ≤ ny) (dR dZ dd : K) {u : Arr K} (hu : UpDown nx ny u) :
    let n := hagenowNormal nx ny dR dZ dd u
    (∀ y < ny, n.L (ny - 1 - y) = n.L y ∧ n.R (ny - 1 - y) = n.R y) ∧ ∀ x < nx, n.D x = n.U x := by
  intro n
  have hsum : ∀ f g : ℕ → ℕ × ℕ, (∀ i < 5, OnGrid nx ny (g i) ∧ f i = mirrorRow ny (g i)) →
      hagenowSum (fun i => u (f i)) = hagenowSum fun i => u (g i) := by
    intro f g h
    refine hagenowSum_congr fun i hi => ?_
    rw [(h i hi).2, hu _ (h i hi).1]
  constructor
  · intro y hy
    constructor
    · simp only [n, hagenowNormal, Function.update_apply]
      by_cases h0 : y = 0
      · rw [if_pos (by omega), if_neg (by omega), if_pos h0]
        rw [hsum (fun i => (i, ny - 1 - i)) (fun i => (i, i)) fun i hi => ⟨⟨by show i < nx; omega, by show i < ny; omega⟩, rfl⟩]
      · by_cases h1 : y = ny - 1
        · rw [if_neg (by omega), if_pos (by omega), if_pos h1]
          rw [hsum (fun i => (i, i)) (fun i => (i, ny - 1 - i)) fun i hi =>
            ⟨⟨by show i < nx; omega, by show ny - 1 - i < ny; omega⟩, by simp only [mirrorRow, Prod.mk.injEq, true_and]; omega⟩]
        · rw [if_neg (by omega), if_neg (by omega), if_neg h1, if_neg h0]
          rw [hsum (fun i => (i, ny - 1 - y)) (fun i => (i, y)) fun i hi => ⟨⟨by show i < nx; omega, hy⟩, rfl⟩]
    · simp only [n, hagenowNormal, Function.update_apply]
      by_cases h0 : y = 0
      · rw [if_pos (by omega), if_neg (by omega), if_pos h0]
        rw [hsum (fun i => (nx - 1 - i, ny - 1 - i)) (fun i => (nx - 1 - i, i)) fun i hi =>
          ⟨⟨by show nx - 1 - i < nx; omega, by show i < ny; omega⟩, rfl⟩]
      · by_cases h1 : y = ny - 1
        · rw [if_neg (by omega), if_pos (by omega), if_pos h1]
          rw [hsum (fun i => (nx - 1 - i, i)) (fun i => (nx - 1 - i, ny - 1 - i)) fun i hi =>
            ⟨⟨by show nx - 1 - i < nx; omega, by show ny - 1 - i < ny; omega⟩, by simp only [mirrorRow, Prod.mk.injEq, true_and]; omega⟩]
        · rw [if_neg (by omega), if_neg (by omega), if_neg h1, if_neg h0]
          rw [hsum (fun i => (nx - 1 - i, ny - 1 - y)) (fun i => (nx - 1 - i, y)) fun i hi => ⟨⟨by show nx - 1 - i < nx; omega, hy⟩, rfl⟩]
  · intro x hx
    simp only [n, hagenowNormal, Function.update_apply]
    by_cases h1 : x = nx - 1
    · rw [if_pos h1, if_pos h1]
      rw [hsum (fun i => (nx - 1 - i, i)) (fun i => (nx - 1 - i, ny - 1 - i)) fun i hi =>
        ⟨⟨by show nx - 1 - i < nx; omega, by show ny - 1 - i < ny; omega⟩, by simp only [mirrorRow, Prod.mk.injEq, true_and]; omega⟩]
    · by_cases h0 : x = 0
      · rw [if_neg h1, if_neg h1, if_pos h0, if_pos h0]
        rw [hsum (fun i => (i, i)) (fun i => (i, ny - 1 - i)) fun i hi =>
          ⟨⟨by show i < nx; omega, by show ny - 1 - i < ny; omega⟩, by simp only [mirrorRow, Prod.mk.injEq, true_and]; omega⟩]
      · rw [if_neg h1, if_neg h1, if_neg h0, if_neg h0]
        rw [hsum (fun i => (x, i)) (fun i => (x, ny - 1 - i)) fun i hi =>
          ⟨⟨hx, by show ny - 1 - i < ny; omega⟩, by simp only [mirrorRow, Prod.mk.injEq, true_and]; omega⟩]

/-- The loop integral seen from the mirrored point. -/
theorem hagenowIntegral_flip [CharZero K] {G : K → K → K → K → K} {nx ny : ℕ} (hny : 5 ≤ ny) {R Z : ℕ → K} {m : K}
    (hG : MirrorKernel G m) (hZ : EvenHeights ny Z m) {n : Normal K}
    (hLR : ∀ y < ny, n.L (ny - 1 - y) = n.L y ∧ n.R (ny - 1 - y) = n.R y) (hDU : ∀ x < nx, n.D x = n.U x) (r z : K) {v w : K}
    (hv : hagenowIntegral G nx ny R Z n r z = .ok v) (hw : hagenowIntegral G nx ny R Z n r (2 * m - z) = .ok w) : w = v := by
  have e1 : romb (fun y => G (R 0) (Z y) r (2 * m - z) * n.L y / R 0) ny = romb (fun y => G (R 0) (Z y) r z * n.L y / R 0) ny := by
    rw [← romb_mirror]
    refine romb_congr fun y hy => ?_
    rw [hZ y hy, (hLR y hy).1, hG]
  have e2 : romb (fun y => G (R (nx - 1)) (Z y) r (2 * m - z) * n.R y / R (nx - 1)) ny =
      romb (fun y => G (R (nx - 1)) (Z y) r z * n.R y / R (nx - 1)) ny := by
    rw [← romb_mirror]
    refine romb_congr fun y hy => ?_
    rw [hZ y hy, (hLR y hy).2, hG]
  have hz0 : Z 0 = 2 * m - Z (ny - 1) := by
    have := hZ (ny - 1) (by omega)
    rwa [Nat.sub_self] at this
  have e3 : romb (fun x => G (R x) (Z 0) r (2 * m - z) * n.D x / R x) nx = romb (fun x => G (R x) (Z (ny - 1)) r z * n.U x / R x) nx := by
    refine romb_congr fun x hx => ?_
    rw [hz0, hG, hDU x hx]
  have e4 : romb (fun x => G (R x) (Z (ny - 1)) r (2 * m - z) * n.U x / R x) nx = romb (fun x => G (R x) (Z 0) r z * n.D x / R x) nx := by
    refine romb_congr fun x hx => ?_
    rw [hz0, hDU x hx, show Z (ny - 1) = 2 * m - (2 * m - Z (ny - 1)) by ring, hG]
    congr 3
    ring
  simp only [hagenowIntegral] at hv hw
  rw [e1, e2, e3, e4] at hw
  revert hv hw
  generalize romb (fun y => G (R 0) (Z y) r z * n.L y / R 0) ny = a
  generalize romb (fun y => G (R (nx - 1)) (Z y) r z * n.R y / R (nx - 1)) ny = b
  generalize romb (fun x => G (R x) (Z 0) r z * n.D x / R x) nx = c
  generalize romb (fun x => G (R x) (Z (ny - 1)) r z * n.U x / R x) nx = d
  intro hv hw
  cases a <;> cases b <;> cases c <;> cases d <;> cases hv <;> cases hw
  ring

/-- **C93 (von Hagenow's boundary).** -/
theorem C93_hagenow_boundary [CharZero K] (sqrt : K → K) (G : K → K → K → K → K) (solver : Arr K → Arr K → Arr K) (a b : ℕ)
    (ha : 2 ≤ a) (hb : 2 ≤ b) (R Z : ℕ → K) (m : K) (hG : MirrorKernel G m) (hZ : EvenHeights (2 ^ b + 1) Z m)
    (hs : SolverKeeps (2 ^ a + 1) (2 ^ b + 1) solver) :
    BoundaryKeeps (2 ^ a + 1) (2 ^ b + 1) (freeBoundaryHagenow sqrt G solver (2 ^ a + 1) (2 ^ b + 1) R Z) := by
  obtain ⟨wR, wZ, _, _, hI, hrun⟩ := hagenow_values sqrt G solver a b ha hb R Z
  have h4 : ∀ k, 2 ≤ k → 4 ≤ 2 ^ k := fun k hk => Nat.pow_le_pow_right (show 0 < 2 by norm_num) hk
  have ha4 := h4 a ha
  have hb4 := h4 b hb
  intro J psi edge hJ hp h c hc
  obtain ⟨psi', rhs, h1, h2, h3⟩ := hrun J psi
  rw [h1] at h
  cases h
  have hrhs : UpDown (2 ^ a + 1) (2 ^ b + 1) rhs := by
    intro c hc
    rcases grid_cases hc with he | hi
    · rw [(h3 c he).1, (h3 _ (flip_edge he)).1]
    · rw [(h2 c hi).1, (h2 _ (flip_inside hi)).1, hJ c hc]; rfl
  rcases grid_cases hc with he | hi
  · rw [(h3 c he).2, (h3 _ (flip_edge he)).2, displaced_flip (by omega) hZ he]
    obtain ⟨f1, f2⟩ := hagenowNormal_flip (by omega) (by omega) (R 1 - R 0) (Z 1 - Z 0)
      (sqrt ((R 1 - R 0) ^ 2 + (Z 1 - Z 0) ^ 2)) (hs _ _ hp hrhs)
    exact hagenowIntegral_flip (by omega) hG hZ f1 f2 (displaced _ _ R Z c).1 (displaced _ _ R Z c).2
      (hI _ _ _) (hI _ _ _)
  · rw [(h2 c hi).2, (h2 _ (flip_inside hi)).2, hp c hc]

/-- The Green's function of the code meets the hypothesis of the free boundary (C15), and the rows of every grid lie symmetrically about
the middle of the domain. -/
theorem C93_kernel (ek ee : ℝ → ℝ) (m : ℝ) : MirrorKernel (fun a b c d => greens ek ee a b c d) m := by
  intro R Z R' Z'
  obtain ⟨_, h1, h2, _⟩ := C15_greens_symmetries ek ee R Z R' Z'
  show greens ek ee R (2 * m - Z) R' (2 * m - Z') = greens ek ee R Z R' Z'
  rw [← h2, ← (C15_greens_symmetries ek ee R (-Z) R' (-Z')).2.1 (2 * m), show -Z + 2 * m = 2 * m - Z by ring,
    show -Z' + 2 * m = 2 * m - Z' by ring]

theorem C93_heights [IsStrictOrderedRing K] (d : Domain K) (ny : ℕ) (hny : 2 ≤ ny) :
    EvenHeights ny (Critical.linspaceAt d.Zmin d.Zmax ny) ((d.Zmin + d.Zmax) / 2) := by
  intro j hj
  have h : ((ny : K) - 1) ≠ 0 := by
    have : (2 : K) ≤ ny := by exact_mod_cast hny
    intro h; linarith
  simp only [Critical.linspaceAt]
  rw [if_neg (by omega), if_neg (by omega), Nat.cast_sub (by omega), Nat.cast_sub (by omega)]
  push_cast
  field_simp
  ring

end FreeGS.GS

/-! ## Core mask -/

namespace FreeGS.Critical

open FreeGS.GS (mirrorRow EvenHeights flip_grid flip_flip OnGrid)

variable {K : Type*} [Field K] [LinearOrder K] [IsStrictOrderedRing K]

/-- No two rows are equally close to the height `z`. -/
def OneNearest (ny : ℕ) (Z : ℕ → K) (z : K) : Prop := ∃ j < ny, ∀ k < ny, k ≠ j → |Z j - z| < |Z k - z|

/-- With every X-point the list has one at the mirrored height, and no X-point is exactly halfway between two rows. -/
def EvenXPoints (g : Mesh K) (m : K) (xs : List (Point K)) : Prop :=
  ∀ x ∈ xs, OneNearest g.ny g.Z x.2.1 ∧ ∃ x' ∈ xs, x'.1 = x.1 ∧ x'.2.1 = 2 * m - x.2.1

theorem flip_dist {ny : ℕ} {Z : ℕ → K} {m : K} (hZ : EvenHeights ny Z m) {j : ℕ} (hj : j < ny) (z : K) :
    |Z (ny - 1 - j) - (2 * m - z)| = |Z j - z| := by
  rw [hZ j hj, ← abs_neg]
  congr 1
  ring

theorem nearest_flip {ny : ℕ} {Z : ℕ → K} {m z : K} (hZ : EvenHeights ny Z m) (hone : OneNearest ny Z z) {j : ℕ}
    (h : Nearest Z ny z j) : Nearest Z ny (2 * m - z) (ny - 1 - j) := by
  obtain ⟨i, hi, hu⟩ := hone
  obtain ⟨hj, hmin, _⟩ := h
  have hij : j = i := by
    by_contra hne
    exact absurd (hu j hj hne) (not_lt.mpr (hmin i hi))
  subst hij
  have key : ∀ k < ny, k ≠ ny - 1 - j → |Z (ny - 1 - j) - (2 * m - z)| < |Z k - (2 * m - z)| := by
    intro k hk hne
    have hk' : ny - 1 - (ny - 1 - k) = k := by omega
    have := flip_dist hZ (j := ny - 1 - k) (by omega) z
    rw [hk'] at this
    rw [flip_dist hZ hj, this]
    exact hu _ (by omega) (by omega)
  refine ⟨by omega, fun k hk => ?_, fun k hk => key k (by omega) (by omega)⟩
  by_cases h : k = ny - 1 - j
  · rw [h]
  · exact (key k hk h).le

theorem nearX_flip {g : Mesh K} {m : K} {xs : List (Point K)} (hZ : EvenHeights g.ny g.Z m) (hx : EvenXPoints g m xs) {c : ℕ × ℕ}
    (h : NearX g xs c) : NearX g xs (mirrorRow g.ny c) := by
  obtain ⟨hc, x, hmem, i, j, hi, hj, h1, h2⟩ := h
  obtain ⟨hone, x', hmem', e1, e2⟩ := hx x hmem
  refine ⟨flip_grid (nx := g.nx) hc, x', hmem', i, g.ny - 1 - j, by rw [e1]; exact hi, by rw [e2]; exact nearest_flip hZ hone hj, h1, ?_⟩
  have := hj.1
  have hc2 := hc.2
  simp only [mirrorRow]
  omega

theorem nearX_flip_iff {g : Mesh K} {m : K} {xs : List (Point K)} (hZ : EvenHeights g.ny g.Z m) (hx : EvenXPoints g m xs) {c : ℕ × ℕ}
    (hc : InGrid g c) : NearX g xs (mirrorRow g.ny c) ↔ NearX g xs c :=
  ⟨fun h => by have := nearX_flip hZ hx h; rwa [flip_flip (nx := g.nx) hc] at this, nearX_flip hZ hx⟩

theorem adjacent_flip {g : Mesh K} {a b : ℕ × ℕ} (ha : InGrid g a) (hb : InGrid g b) (h : Adjacent a b) :
    Adjacent (mirrorRow g.ny a) (mirrorRow g.ny b) := by
  rw [InGrid] at ha hb
  rw [Adjacent] at *
  simp only [mirrorRow]
  omega

theorem connected_flip {g : Mesh K} {m : K} {xs : List (Point K)} (hZ : EvenHeights g.ny g.Z m) (hx : EvenXPoints g m xs)
    {inside : ℕ × ℕ → Prop} (hin : ∀ c, InGrid g c → (inside (mirrorRow g.ny c) ↔ inside c)) {a : ℕ × ℕ} (ha : InGrid g a) {c : ℕ × ℕ}
    (h : Connected g inside xs a c) : InGrid g c ∧ Connected g inside xs (mirrorRow g.ny a) (mirrorRow g.ny c) := by
  induction h with
  | refl => exact ⟨ha, Relation.ReflTransGen.refl⟩
  | tail hab hbc ih =>
    obtain ⟨h1, h2, h3, h4⟩ := hbc
    refine ⟨h2, ih.2.tail ⟨adjacent_flip ih.1 h2 h1, flip_grid (nx := g.nx) h2, (hin _ h2).mpr h3, ?_⟩⟩
    rwa [nearX_flip_iff hZ hx h2]

/-- The row nearest to the middle is the middle row, or the lower one of the two. -/
theorem nearest_middle {ny : ℕ} {Z : ℕ → K} {m : K} (hZ : EvenHeights ny Z m) (hup : ∀ i j, i < j → j < ny → Z i < Z j) {j : ℕ}
    (h : Nearest Z ny m j) : j = (ny - 1) / 2 := by
  obtain ⟨hj, hmin, hfirst⟩ := h
  have hd := flip_dist hZ hj m
  rw [show 2 * m - m = m by ring] at hd
  by_contra hne
  rcases lt_or_gt_of_ne hne with hlt | hgt
  · have h1 := hup j (j + 1) (by omega) (by omega)
    have h2 : Z (j + 1) ≤ m := by
      have e := hZ (j + 1) (by omega)
      have : Z (j + 1) ≤ Z (ny - 1 - (j + 1)) := by
        rcases Nat.lt_or_ge (j + 1) (ny - 1 - (j + 1)) with h' | h'
        · exact (hup _ _ h' (by omega)).le
        · have : ny - 1 - (j + 1) = j + 1 := by omega
          rw [this]
      linarith
    have := hmin (j + 1) (by omega)
    rw [abs_of_nonpos (by linarith), abs_of_nonpos (by linarith)] at this
    linarith
  · have := hfirst (ny - 1 - j) (by omega)
    rw [hd] at this
    exact lt_irrefl _ this

/-- **C93 (core mask).** Let the flux be symmetric, the magnetic axis at the middle height and the list of X-points symmetric. If the number
of rows is odd, or the point nearest to the axis is itself in the core and not next to an X-point, then the mask is symmetric. -/
theorem C93_core_mask (g : Mesh K) (hnx : 0 < g.nx) (hny : 0 < g.ny) (m : K) (hZ : EvenHeights g.ny g.Z m)
    (hup : ∀ i j, i < j → j < g.ny → g.Z i < g.Z j) (psi : ℕ × ℕ → K) (hpsi : ∀ c, InGrid g c → psi (mirrorRow g.ny c) = psi c)
    (o : Point K) (ho : o.2.1 = m) (os xs : List (Point K)) (hx : EvenXPoints g m xs) (psiBndry : Option K) (b : K)
    (hb : BoundaryFlux psiBndry xs b) (hne : b ≠ o.2.2)
    (hstart : g.ny % 2 = 1 ∨ ∀ i, Nearest g.R g.nx o.1 i →
      CoreFlux o.2.2 b (psi (i, (g.ny - 1) / 2)) ∧ ¬ NearX g xs (i, (g.ny - 1) / 2)) :
    ∃ (N : ℕ) (M : Mask), (∀ fuel, N ≤ fuel → coreMask g psi (o :: os) xs psiBndry fuel = .ok (some M)) ∧
      ∀ c, InGrid g c → M (mirrorRow g.ny c) = M c := by
  obtain ⟨N, M, i0, j0, hrun, hi, hj, hM⟩ := C26_core_mask g hnx hny psi o os xs psiBndry b hb hne
  refine ⟨N, M, hrun, ?_⟩
  rw [ho] at hj
  have hj0 := nearest_middle hZ hup hj
  have hs : InGrid g (i0, j0) := ⟨hi.1, hj.1⟩
  have hin : ∀ c, InGrid g c → (CoreFlux o.2.2 b (psi (mirrorRow g.ny c)) ↔ CoreFlux o.2.2 b (psi c)) := fun c hc => by rw [hpsi c hc]
  have hflip : Connected g (fun c => CoreFlux o.2.2 b (psi c)) xs (i0, j0) (mirrorRow g.ny (i0, j0)) := by
    rcases hstart with hodd | h
    · have : mirrorRow g.ny (i0, j0) = (i0, j0) := by
        simp only [mirrorRow, Prod.mk.injEq, true_and]
        omega
      rw [this]
      exact Relation.ReflTransGen.refl
    · rcases Nat.mod_two_eq_zero_or_one g.ny with he | hodd
      · obtain ⟨h1, h2⟩ := h i0 hi
        rw [← hj0] at h1 h2
        refine Relation.ReflTransGen.single ⟨?_, flip_grid (nx := g.nx) hs, (hin _ hs).mpr h1, ?_⟩
        · have : 0 < g.ny := hny
          refine Or.inl ⟨rfl, Or.inl ?_⟩
          show j0 + 1 = g.ny - 1 - j0
          omega
        · rwa [nearX_flip_iff hZ hx hs]
      · have : mirrorRow g.ny (i0, j0) = (i0, j0) := by
          simp only [mirrorRow, Prod.mk.injEq, true_and]
          omega
        rw [this]
        exact Relation.ReflTransGen.refl
  have hcon : ∀ c, Connected g (fun c => CoreFlux o.2.2 b (psi c)) xs (i0, j0) c →
      Connected g (fun c => CoreFlux o.2.2 b (psi c)) xs (i0, j0) (mirrorRow g.ny c) := fun c h =>
    hflip.trans (connected_flip hZ hx (inside := fun c => CoreFlux o.2.2 b (psi c)) hin hs h).2
  intro c hc
  have hiff : M (mirrorRow g.ny c) = 1 ↔ M c = 1 := by
    by_cases hn : NearX g xs c
    · rw [(hM c).2.1 hn, (hM (mirrorRow g.ny c)).2.1 (nearX_flip hZ hx hn), hin c hc]
    · rw [(hM c).2.2 hn, (hM (mirrorRow g.ny c)).2.2 (by rwa [nearX_flip_iff hZ hx hc])]
      refine ⟨fun h => ?_, hcon c⟩
      have := hcon _ h
      rwa [flip_flip (nx := g.nx) hc] at this
  rcases (hM c).1 with h0 | h1
  · rcases (hM (mirrorRow g.ny c)).1 with h0' | h1'
    · rw [h0, h0']
    · have := hiff.mp h1'
      omega
  · rw [h1]
    exact hiff.mpr h1

/-- Five by six points with an even flux: the first rows from above and below are in the private flux, the next ones outside, the middle
ones in the core. -/
def tieMesh : Mesh ℚ := ⟨5, 6, fun i => i, fun j => 2 * j - 5⟩

/-- See `tieMesh`. -/
def tiePsi : ℕ × ℕ → ℚ := fun c => if c.2 = 1 ∨ c.2 = 4 then 2 else 1 / 2

/-- **C93 (halfway X-points).** X-points exactly halfway between two rows are both given to the lower row: the mask of a symmetric
flux with symmetric X-points is not symmetric. -/
theorem C93_tie_fails : EvenHeights tieMesh.ny tieMesh.Z 0 ∧ (∀ c, InGrid tieMesh c → tiePsi (mirrorRow tieMesh.ny c) = tiePsi c) ∧
    (coreMask tieMesh tiePsi [(2, 0, 0)] [(2, -2, 1), (2, 2, 1)] none 60).map
      (fun m => m.map fun m => (m (2, 0), m (2, 5))) = .ok (some (1, 0)) := by
  refine ⟨fun j hj => ?_, fun c hc => ?_, by decide +kernel⟩
  · have h : j < 6 := hj
    show (2 : ℚ) * ((6 - 1 - j : ℕ) : ℚ) - 5 = 2 * 0 - (2 * j - 5)
    rw [Nat.cast_sub (by omega)]
    push_cast
    ring
  · have h : c.2 < 6 := hc.2
    simp only [tiePsi, mirrorRow, tieMesh]
    congr 1
    simp only [eq_iff_iff]
    omega

/-- A case of `C93_core_mask`: seven rows, two X-points. The mask is symmetric. -/
example : EvenXPoints (⟨5, 7, fun i => i, fun j => j - 3⟩ : Mesh ℚ) 0 [(2, -2, 1), (2, 2, 1)] ∧
    (coreMask (⟨5, 7, fun i => i, fun j => j - 3⟩ : Mesh ℚ) (fun c => if c.2 = 1 ∨ c.2 = 5 then 2 else 1 / 2) [(2, 0, 0)]
      [(2, -2, 1), (2, 2, 1)] none 60).map (fun m => m.map fun m => (List.range 7).map fun j => m (1, j)) =
      .ok (some [1, 0, 1, 1, 1, 0, 1]) := by
  refine ⟨fun x hx => ?_, by decide +kernel⟩
  simp only [List.mem_cons, List.not_mem_nil, or_false] at hx
  rcases hx with rfl | rfl
  · exact ⟨⟨1, by norm_num, by decide +kernel⟩, (2, 2, 1), by simp, rfl, by norm_num⟩
  · exact ⟨⟨5, by norm_num, by decide +kernel⟩, (2, -2, 1), by simp, rfl, by norm_num⟩

/-- **C93 (axis away from the middle).** With two magnetic axes, one above the other, the mask of a symmetric flux covers the half around the
first axis only. -/
theorem C93_two_axes : (∀ c, InGrid exMesh c → (fun c : ℕ × ℕ => if c.2 = 2 then (2 : ℚ) else 1 / 2) (mirrorRow exMesh.ny c) =
      (fun c : ℕ × ℕ => if c.2 = 2 then (2 : ℚ) else 1 / 2) c) ∧
    (coreMask exMesh (fun c => if c.2 = 2 then 2 else 1 / 2) [(1, 1, 0), (1, 3, 0)] [] (some 1) 60).map
      (fun m => m.map fun m => (List.range 5).map fun j => m (1, j)) = .ok (some [1, 1, 0, 0, 0]) := by
  refine ⟨fun c hc => ?_, by decide +kernel⟩
  have h : c.2 < 5 := hc.2
  simp only [mirrorRow, exMesh]
  congr 1
  simp only [eq_iff_iff]
  omega

end FreeGS.Critical

/-! ## Profiles, linear solve, Picard iteration -/

namespace FreeGS.Equil

open FreeGS.GS FreeGS.Critical FreeGS.Jtor

universe u
variable {K : Type u} [Field K] [LinearOrder K] {C : Type u}

/-- The core mask of the flux `P` is symmetric, for any boundary flux other than the flux on the axis. -/
def CoreKeeps (e : Env C K) (P : Arr K) : Prop :=
  ∀ o os xpt b v m, e.find P = .ok (o :: os, xpt) → BoundaryFlux b xpt v → v ≠ o.2.2 → e.core P (o :: os) xpt b = .ok m →
    UpDown e.nx e.ny m

/-- The current density found for the flux `P` is symmetric. -/
def ProfilesKeep (e : Env C K) (profiles : Profiles C K) (P : Arr K) : Prop :=
  ∀ s b s' J, profiles s P b = .ok (s', J) → UpDown e.nx e.ny J

/-- Profile objects change neither coils nor plasma flux. -/
def KeepsFlux (profiles : Profiles C K) : Prop :=
  ∀ s P b s' J, profiles s P b = .ok (s', J) → s'.tokamak = s.tokamak ∧ s'.plasmaPsi = s.plasmaPsi

/-- `core` is what `core_mask` returns when its loop has ended, with the values as numbers of `K`. -/
def UsesCoreMask (e : Env C K) : Prop :=
  ∀ P opt xpt b m, e.core P opt xpt b = .ok m → ∃ (N : ℕ) (M : Mask),
    (∀ fuel, N ≤ fuel → coreMask ⟨e.nx, e.ny, e.R, e.Z⟩ P opt xpt b fuel = .ok (some M)) ∧ ∀ c, m c = (M c : K)

/-- The nulls found in the flux `P` are symmetric: the axis is at the height `m`, X-points come in mirrored pairs (or lie at that height)
and none of them is exactly halfway between two rows. -/
def EvenNulls (e : Env C K) (m : K) (P : Arr K) : Prop :=
  ∀ o os xpt, e.find P = .ok (o :: os, xpt) → o.2.1 = m ∧ EvenXPoints ⟨e.nx, e.ny, e.R, e.Z⟩ m xpt

/-- **C93 (core mask in the equilibrium).** On a grid with an odd number of rows, as the integrals need it, the core mask of a
symmetric flux with symmetric nulls is symmetric. -/
theorem C93_core_keeps [IsStrictOrderedRing K] (e : Env C K) (hodd : e.ny % 2 = 1) (hnx : 0 < e.nx) (m : K)
    (hZ : EvenHeights e.ny e.Z m) (hup : ∀ i j, i < j → j < e.ny → e.Z i < e.Z j) (hcore : UsesCoreMask e) (P : Arr K)
    (hP : UpDown e.nx e.ny P) (hn : EvenNulls e m P) : CoreKeeps e P := by
  intro o os xpt b v M hf hv hne hc
  obtain ⟨ho, hx⟩ := hn o os xpt hf
  obtain ⟨N, M1, h1, h2⟩ := hcore _ _ _ _ _ hc
  obtain ⟨N', M2, h3, h4⟩ := C93_core_mask ⟨e.nx, e.ny, e.R, e.Z⟩ hnx (by show 0 < e.ny; omega) m hZ hup P hP o ho os xpt hx b v hv
    hne (Or.inl hodd)
  have e1 := h1 (max N N') (le_max_left _ _)
  rw [h3 (max N N') (le_max_right _ _)] at e1
  cases e1
  intro c hc
  rw [h2, h2, h4 c hc]

theorem locate_mask {opt xpt : List (Point K)} {core : Option K → Except Err (Arr K)} {p00 : K} {b : Option K} {pl : Plasma K}
    (h : locate opt xpt core p00 b = .ok pl) {m : Arr K} (hm : pl.mask = some m) :
    ∃ b' o os, core b' = .ok m ∧ opt = o :: os ∧ pl.psiAxis = o.2.2 ∧ BoundaryFlux b' xpt pl.psiBndry := by
  cases opt with
  | nil => cases h
  | cons o os =>
    cases b with
    | some pb =>
      obtain ⟨m', h1, h2⟩ := bind_ok h
      cases h2
      cases hm
      exact ⟨_, o, os, h1, rfl, rfl, Or.inl rfl⟩
    | none =>
      cases xpt with
      | nil => cases h; cases hm
      | cons x xs =>
        obtain ⟨m', h1, h2⟩ := bind_ok h
        cases h2
        cases hm
        exact ⟨_, o, os, h1, rfl, rfl, Or.inr ⟨rfl, x, xs, rfl, rfl⟩⟩

theorem masked_upDown {nx ny : ℕ} {pl : Plasma K} (hm : ∀ m, pl.mask = some m → UpDown nx ny m) {a : Arr K} (ha : UpDown nx ny a) :
    UpDown nx ny (pl.masked a) := by
  intro c hc
  rw [Plasma.masked]
  cases h : pl.mask with
  | none => exact ha c hc
  | some m => simp only; rw [ha c hc, hm m h c hc]

theorem finish_upDown {pow : K → K → K} {nx ny : ℕ} {R Z : ℕ → K} {p : Params K} {pl : Plasma K} {psi : Arr K} {LB : K} {J : Arr K}
    {k : Consts K} (h : finish pow nx ny R Z p pl psi LB = .ok (J, k)) (hm : ∀ m, pl.mask = some m → UpDown nx ny m)
    (hp : UpDown nx ny psi) : UpDown nx ny J := by
  obtain ⟨_, _, _, _, _, _, _, _, _, _, hJ⟩ := finish_ok h
  have hjs : UpDown nx ny (shapeArray pow p pl psi) := by
    refine masked_upDown hm fun c hc => ?_
    simp only [Plasma.norm, hp c hc]
  intro c hc
  rw [hJ, hJ, hjs c hc]
  rfl

theorem guard_ne {R : ℕ → K} {nx : ℕ} {a b : K}
    (h : ((List.range nx).all (fun i => decide (R i ≠ 0)) && decide (b - a ≠ 0)) = true) : b ≠ a := by
  rw [Bool.and_eq_true] at h
  exact sub_ne_zero.mp (of_decide_eq_true h.2)

theorem divisible_ne {R : ℕ → K} {nx : ℕ} {p : Params K} {pl : Plasma K} (h : divisible nx R p pl = true) :
    pl.psiBndry ≠ pl.psiAxis := by
  rw [divisible, Bool.and_eq_true] at h
  exact sub_ne_zero.mp (of_decide_eq_true h.2)

/-- **C93 (profiles).** All three kinds of profiles give a symmetric current density for a symmetric flux. -/
theorem C93_profiles (e : Env C K) (P : Arr K) (hP : UpDown e.nx e.ny P) (hcore : CoreKeeps e P) (quad : (K → K) → K → K → K) (pow : K → K → K)
    (field : State C K → Arr K × Arr K) (p : Params K) (target : K) (g : Given K) :
    ProfilesKeep e (paxisProfiles quad pow e p target) P ∧ ProfilesKeep e (betapProfiles quad pow e field p target) P ∧
      ProfilesKeep e (givenProfiles e g) P := by
  refine ⟨?_, ?_, ?_⟩
  · intro s b s' J h
    obtain ⟨s1, h1, h⟩ := bind_ok h
    obtain ⟨⟨opt, xpt⟩, hf, h⟩ := bind_ok h
    obtain ⟨⟨J', k⟩, hj, h⟩ := bind_ok h
    cases h
    obtain ⟨pl, hl, hj⟩ := bind_ok hj
    rw [jtorPaxis] at hj
    split at hj
    · rename_i hg
      simp only at hj
      split at hj
      · cases hj
      · refine finish_upDown hj (fun m hm => ?_) hP
        obtain ⟨b', o, os, hb, rfl, ha, hv⟩ := locate_mask hl hm
        exact hcore o os xpt b' _ m hf hv (by rw [← ha]; exact divisible_ne hg) hb
    · cases hj
  · intro s b s' J h
    obtain ⟨s1, h1, h⟩ := bind_ok h
    obtain ⟨⟨opt, xpt⟩, hf, h⟩ := bind_ok h
    obtain ⟨⟨J', k⟩, hj, h⟩ := bind_ok h
    cases h
    obtain ⟨pl, hl, hj⟩ := bind_ok hj
    rw [jtorBetap] at hj
    split at hj
    · rename_i hg
      obtain ⟨pInt, _, hj⟩ := bind_ok hj
      obtain ⟨bInt, _, hj⟩ := bind_ok hj
      split at hj
      · cases hj
      · refine finish_upDown hj (fun m hm => ?_) hP
        obtain ⟨b', o, os, hb, rfl, ha, hv⟩ := locate_mask hl hm
        exact hcore o os xpt b' _ m hf hv (by rw [← ha]; exact divisible_ne hg) hb
    · cases hj
  · intro s b s' J h
    obtain ⟨⟨opt, xpt⟩, hf, h⟩ := bind_ok h
    obtain ⟨⟨J', k⟩, hj, h⟩ := bind_ok h
    cases h
    obtain ⟨pl, hl, hj⟩ := bind_ok hj
    split at hj
    · rename_i hg
      cases hj
      refine masked_upDown (fun m hm => ?_) fun c hc => ?_
      · obtain ⟨b', o, os, hb, rfl, ha, hv⟩ := locate_mask hl hm
        exact hcore o os xpt b' _ m hf hv (by rw [← ha]; exact guard_ne hg) hb
      · simp only [Plasma.norm, hP c hc]
        rfl
    · cases hj

theorem keepsFlux_all (e : Env C K) (quad : (K → K) → K → K → K) (pow : K → K → K)
    (field : State C K → Arr K × Arr K) (p : Params K) (target : K) (g : Given K) :
    KeepsFlux (paxisProfiles quad pow e p target) ∧ KeepsFlux (betapProfiles quad pow e field p target) ∧
      KeepsFlux (givenProfiles e g) := by
  refine ⟨?_, ?_, ?_⟩
  · intro s P b s' J h
    obtain ⟨s1, h1, h⟩ := bind_ok h
    obtain ⟨_, _, h⟩ := bind_ok h
    obtain ⟨_, _, h⟩ := bind_ok h
    cases h
    exact ⟨(updateBoundary_frame h1).1, (updateBoundary_frame h1).2.1⟩
  · intro s P b s' J h
    obtain ⟨s1, h1, h⟩ := bind_ok h
    obtain ⟨_, _, h⟩ := bind_ok h
    obtain ⟨_, _, h⟩ := bind_ok h
    cases h
    exact ⟨(updateBoundary_frame h1).1, (updateBoundary_frame h1).2.1⟩
  · intro s P b s' J h
    obtain ⟨_, _, h⟩ := bind_ok h
    obtain ⟨_, _, h⟩ := bind_ok h
    cases h
    exact ⟨rfl, rfl⟩

/-- Coils and plasma have a symmetric flux. -/
def Even (e : Env C K) (s : State C K) : Prop := UpDown e.nx e.ny (e.coilPsi s.tokamak) ∧ UpDown e.nx e.ny s.plasmaPsi

theorem even_psi {e : Env C K} {s : State C K} (h : Even e s) : UpDown e.nx e.ny (psi e s) := by
  intro c hc
  rw [psi, psi, h.1 c hc, h.2 c hc]

/-- **C93 (one linear solve).** Symmetric coils, symmetric plasma flux and a symmetric flux (or current density) to start from give a
symmetric current density and a symmetric plasma flux. -/
theorem C93_solve (e : Env C K) (profiles : Profiles C K) (hkeep : KeepsFlux profiles) (hbnd : BoundaryKeeps e.nx e.ny e.boundary)
    (hsol : SolverKeeps e.nx e.ny e.solver) (s s' : State C K) (given psi0 : Option (Arr K)) (psiBndry : Option K) (hs : Even e s)
    (hg : ∀ J, given = some J → UpDown e.nx e.ny J) (hp : given = none → ProfilesKeep e profiles (psi0.getD (psi e s)))
    (h : solve e profiles s given psi0 psiBndry = .ok s') :
    Even e s' ∧ s'.tokamak = s.tokamak ∧ ∃ J, s'.jtor = some J ∧ UpDown e.nx e.ny J := by
  obtain ⟨s1, s2, J, edge, s3, I, h1, h2, h3, h4, h5, rfl⟩ := solve_ok h
  have f1 := updateBoundary_frame h1
  have hs1 : Even e s1 := by rw [Even, f1.1, f1.2.1]; exact hs
  have hJ : UpDown e.nx e.ny J ∧ s2.tokamak = s1.tokamak ∧ s2.plasmaPsi = s1.plasmaPsi := by
    cases given with
    | some g => cases h2; exact ⟨hg _ rfl, rfl, rfl⟩
    | none =>
      obtain ⟨k1, k2⟩ := hkeep _ _ _ _ _ h2
      have hpsi : psi e s1 = psi e s := by funext c; simp only [psi, f1.1, f1.2.1]
      refine ⟨hp rfl _ _ _ _ (by rw [← hpsi]; exact h2), k1, k2⟩
  obtain ⟨hJ, t2, p2⟩ := hJ
  have hedge : UpDown e.nx e.ny edge := hbnd J _ edge hJ (by rw [p2]; exact hs1.2) h3
  have f4 := updateBoundary_frame h4
  have htok : s3.tokamak = s.tokamak := by rw [f4.1]; exact t2.trans f1.1
  refine ⟨⟨?_, ?_⟩, htok, J, rfl, hJ⟩
  · show UpDown e.nx e.ny (e.coilPsi s3.tokamak)
    rw [htok]; exact hs.1
  · show UpDown e.nx e.ny s3.plasmaPsi
    rw [f4.2.1]
    refine hsol _ _ hedge (upDown_setEdge (fun c hc => ?_) hedge)
    rw [hJ c hc]
    rfl

/-- The list of values of a symmetric array. -/
def EvenValues (nx ny : ℕ) (l : List K) : Prop := ∃ a : Arr K, UpDown nx ny a ∧ l = values nx ny a

theorem evenValues_ofValues {nx ny : ℕ} {l : List K} (h : EvenValues nx ny l) : UpDown nx ny (ofValues ny l) := by
  obtain ⟨a, ha, rfl⟩ := h
  have key : ∀ c, OnGrid nx ny c → ofValues ny (values nx ny a) c = a c := by
    intro c hc
    have hr := row_lt hc.1 hc.2
    rw [ofValues, unflat, values, List.getD_eq_getElem?_getD, List.getElem?_map, List.getElem?_range hr]
    simp only [Option.map_some, Option.getD_some]
    exact flat_row hc.2 a
  intro c hc
  rw [key c hc, key _ (flip_grid hc), ha c hc]

theorem evenValues_zip {nx ny : ℕ} {l l' : List K} (f : K → K → K) (h : EvenValues nx ny l) (h' : EvenValues nx ny l') :
    EvenValues nx ny (List.zipWith f l l') := by
  obtain ⟨a, ha, rfl⟩ := h
  obtain ⟨b, hb, rfl⟩ := h'
  refine ⟨fun c => f (a c) (b c), fun c hc => by simp only [ha c hc, hb c hc], ?_⟩
  rw [values, values, values, List.zipWith_map, List.zipWith_self]
  rfl

/-- The equilibrium that `picard.solve` returns is the result of a linear solve after a number of steps. -/
theorem picard_run {S : Type*} {E : Picard.Env S K} {o : Picard.Opts K} {fuel : ℕ} {s s' : S} {hist : List (K × Option K)}
    (h : Picard.picard E o fuel s = .ok (some (s', hist))) :
    ∃ n q p l b, Picard.Run E o s n q p l b ∧ Picard.step E o n l q p = .ok s' := by
  rw [Picard.picard] at h
  cases ha : E.adjust s with
  | error err => rw [ha] at h; cases h
  | ok s1 =>
    rw [ha] at h
    obtain ⟨n, v, ⟨b, hr, hi, _, _⟩, hb, _⟩ := Picard.loop_done fuel 0 _ (Picard.start_inv ha) h
    refine ⟨n, v.eq, v.psi, v.hasBeenLimited, b, hr, ?_⟩
    simp only [Picard.body] at hb
    rw [Picard.step_eq E o hi] at hb
    cases hs : Picard.step E o n v.hasBeenLimited v.eq v.psi with
    | error err => rw [hs] at hb; cases hb
    | ok q =>
      rw [hs] at hb
      simp only at hb
      split_ifs at hb with hc
      · cases hb
        rfl
      · cases ha : E.adjust q with
        | error err => rw [ha] at hb; cases hb
        | ok q' =>
          rw [ha] at hb
          simp only at hb
          cases hm : o.maxits with
          | none => rw [hm] at hb; cases hb
          | some m =>
            rw [hm] at hb
            simp only at hb
            split_ifs at hb
            cases hb

/-- **C93 (Picard iteration).** If the coils have a symmetric flux to begin with and the control system keeps it so, and the plasma flux is
symmetric to begin with, then the equilibrium that `picard.solve` returns has a symmetric flux and current density: no
asymmetry can grow, however many steps are made. -/
theorem C93_picard (e : Env C K) (profiles : Profiles C K) (hkeep : KeepsFlux profiles)
    (hbnd : BoundaryKeeps e.nx e.ny e.boundary) (hsol : SolverKeeps e.nx e.ny e.solver)
    (constrain : Option (State C K → Except Err (State C K)))
    (hcon : ∀ f, constrain = some f → ∀ s s', Even e s → f s = .ok s' →
      UpDown e.nx e.ny (e.coilPsi s'.tokamak) ∧ s'.plasmaPsi = s.plasmaPsi ∧ s'.jtor = s.jtor)
    (o : Picard.Opts K) (fuel : ℕ) (s s' : State C K) (hist : List (K × Option K)) (hs : Even e s)
    (hprof : ∀ n q p l b, Picard.Run (picardEnv e profiles constrain) o s n q p l b → UpDown e.nx e.ny (ofValues e.ny p) →
      ProfilesKeep e profiles (ofValues e.ny p))
    (h : Picard.picard (picardEnv e profiles constrain) o fuel s = .ok (some (s', hist))) :
    UpDown e.nx e.ny (psi e s') ∧ UpDown e.nx e.ny s'.plasmaPsi ∧ ∃ J, s'.jtor = some J ∧ UpDown e.nx e.ny J := by
  set E := picardEnv e profiles constrain with hE
  have hadj : ∀ s s', Even e s → E.adjust s = .ok s' → Even e s' := by
    intro s s' hs h
    rw [Picard.Env.adjust] at h
    cases hc : constrain with
    | none =>
      have : E.constrain = none := hc
      rw [this] at h
      cases h
      exact hs
    | some f =>
      have : E.constrain = some f := hc
      rw [this] at h
      obtain ⟨h1, h2, _⟩ := hcon f hc s s' hs h
      exact ⟨h1, by rw [h2]; exact hs.2⟩
  have hval : ∀ s, Even e s → EvenValues e.nx e.ny (E.psi s) := fun s hs => ⟨_, even_psi hs, rfl⟩
  have hsolve : ∀ s s' cl p b, Even e s → ProfilesKeep e profiles (ofValues e.ny p) → E.solve s cl p b = .ok s' →
      Even e s' ∧ ∃ J, s'.jtor = some J ∧ UpDown e.nx e.ny J := by
    intro s s' cl p b hs hp h
    obtain ⟨h1, _, h2⟩ := C93_solve e profiles hkeep hbnd hsol { s with checkLimited := cl } s' none (some (ofValues e.ny p)) b hs
      (fun J h => by cases h) (fun _ => hp) h
    exact ⟨h1, h2⟩
  have hstep : ∀ n l q q' p b, Picard.Run E o s n q p l b → Even e q → EvenValues e.nx e.ny p → Picard.step E o n l q p = .ok q' →
      Even e q' ∧ ∃ J, q'.jtor = some J ∧ UpDown e.nx e.ny J := by
    intro n l q q' p b hr hq hp' h
    have hp := hprof n q p l b hr (evenValues_ofValues hp')
    rw [Picard.step] at h
    split at h
    · exact hsolve _ _ _ _ _ hq hp h
    · exact hsolve _ _ _ _ _ hq hp h
  have hrun : ∀ n q p l b, Picard.Run E o s n q p l b → Even e q ∧ EvenValues e.nx e.ny p := by
    intro n q p l b hr
    induction hr with
    | start ha => exact ⟨hadj _ _ hs ha, hval _ (hadj _ _ hs ha)⟩
    | next hr h1 h2 ih =>
      have h3 := hadj _ _ (hstep _ _ _ _ _ _ hr ih.1 ih.2 h1).1 h2
      exact ⟨h3, evenValues_zip _ (hval _ h3) ih.2⟩
  obtain ⟨n, q, p, l, b, hr, h1⟩ := picard_run h
  obtain ⟨h2, h3⟩ := hrun n q p l b hr
  obtain ⟨h4, h5⟩ := hstep n l q s' p b hr h2 h3 h1
  exact ⟨even_psi h4, h4.2, h5⟩

/-- **C93 (a whole calculation).** Free boundary with the Green's function of the code or fixed boundary, direct solver of either order,
any of the three kinds of profiles: if the coils are symmetric about the middle of the domain and stay so, the magnetic axis is on
that height and the nulls are symmetric, then `picard.solve` returns a symmetric equilibrium. -/
theorem C93_equilibrium {C : Type} (e : Env C ℝ) (d : Domain ℝ) (hR : d.Rmin < d.Rmax) (hZ : d.Zmin < d.Zmax) (hnx : 0 < e.nx)
    (hny : 2 ≤ e.ny) (hodd : e.ny % 2 = 1) (hgrid : e.Z = linspaceAt d.Zmin d.Zmax e.ny)
    (ek ee : ℝ → ℝ) (hbnd : e.boundary = freeBoundary (fun a b c d => greens ek ee a b c d) e.nx e.ny e.R e.Z ∨
      e.boundary = fun _ psi => .ok (fixedBoundary e.nx e.ny psi))
    (A : ℕ → ℕ → ℝ) (hA : A = gsSparse d e.nx e.ny ∨ (6 ≤ e.nx ∧ 6 ≤ e.ny ∧ gs4Sparse d e.nx e.ny = .ok A))
    (factorized : (ℕ → ℝ) → ℕ → ℝ) (hfac : ∀ b, ∀ r < e.nx * e.ny, matVec (e.nx * e.ny) A (factorized b) r = b r)
    (hsol : e.solver = fun _ b => mgDirect factorized e.ny b) (hcore : UsesCoreMask e)
    (quad : (ℝ → ℝ) → ℝ → ℝ → ℝ) (pow : ℝ → ℝ → ℝ) (field : State C ℝ → Arr ℝ × Arr ℝ) (p : Params ℝ) (target : ℝ) (g : Given ℝ)
    (profiles : Profiles C ℝ) (hprof : profiles = paxisProfiles quad pow e p target ∨
      profiles = betapProfiles quad pow e field p target ∨ profiles = givenProfiles e g)
    (constrain : Option (State C ℝ → Except Err (State C ℝ)))
    (hcon : ∀ f, constrain = some f → ∀ s s', Even e s → f s = .ok s' →
      UpDown e.nx e.ny (e.coilPsi s'.tokamak) ∧ s'.plasmaPsi = s.plasmaPsi ∧ s'.jtor = s.jtor)
    (o : Picard.Opts ℝ) (fuel : ℕ) (s s' : State C ℝ) (hist : List (ℝ × Option ℝ)) (hs : Even e s)
    (hn : ∀ n q P l b, Picard.Run (picardEnv e profiles constrain) o s n q P l b →
      EvenNulls e ((d.Zmin + d.Zmax) / 2) (ofValues e.ny P))
    (h : Picard.picard (picardEnv e profiles constrain) o fuel s = .ok (some (s', hist))) :
    UpDown e.nx e.ny (psi e s') ∧ UpDown e.nx e.ny s'.plasmaPsi ∧ ∃ J, s'.jtor = some J ∧ UpDown e.nx e.ny J := by
  have hh : EvenHeights e.ny e.Z ((d.Zmin + d.Zmax) / 2) := by rw [hgrid]; exact C93_heights d e.ny hny
  have hup : ∀ i j, i < j → j < e.ny → e.Z i < e.Z j := by
    intro i j hij _
    rw [hgrid]
    simp only [linspaceAt]
    rw [if_neg (by omega), if_neg (by omega)]
    have h1 : (0 : ℝ) < (d.Zmax - d.Zmin) / ((e.ny : ℝ) - 1) := by
      have : (2 : ℝ) ≤ e.ny := by exact_mod_cast hny
      exact div_pos (by linarith) (by linarith)
    have h2 : (i : ℝ) < j := by exact_mod_cast hij
    nlinarith
  have hF := keepsFlux_all e quad pow field p target g
  have hpk : KeepsFlux profiles ∧ ∀ P, UpDown e.nx e.ny P → EvenNulls e ((d.Zmin + d.Zmax) / 2) P → ProfilesKeep e profiles P := by
    have hP : ∀ P, UpDown e.nx e.ny P → EvenNulls e ((d.Zmin + d.Zmax) / 2) P → _ := fun P h1 h2 =>
      C93_profiles e P h1 (C93_core_keeps e hodd hnx _ hh hup hcore P h1 h2) quad pow field p target g
    rcases hprof with rfl | rfl | rfl
    · exact ⟨hF.1, fun P h1 h2 => (hP P h1 h2).1⟩
    · exact ⟨hF.2.1, fun P h1 h2 => (hP P h1 h2).2.1⟩
    · exact ⟨hF.2.2, fun P h1 h2 => (hP P h1 h2).2.2⟩
  have hb : BoundaryKeeps e.nx e.ny e.boundary := by
    rcases hbnd with hb | hb <;> rw [hb]
    · exact C93_free_boundary _ _ _ _ _ _ (C93_kernel ek ee _) hh
    · exact C93_fixed_boundary _ _
  have hsk : SolverKeeps e.nx e.ny e.solver := by
    rw [hsol]
    exact C93_solver d e.nx e.ny hR hZ A hA factorized hfac
  exact C93_picard e profiles hpk.1 hb hsk constrain hcon o fuel s s' hist hs
    (fun n q P l b hr hu => hpk.2 _ hu (hn n q P l b hr)) h

/-- What `core_mask` returns when its loop has ended. -/
noncomputable def endedMask (g : Mesh ℝ) (P : Arr ℝ) (opt xpt : List (Point ℝ)) (b : Option ℝ) : Except Err (Arr ℝ) :=
  open Classical in
  if h : ∃ (M : Mask) (N : ℕ), ∀ fuel, N ≤ fuel → coreMask g P opt xpt b fuel = .ok (some M) then .ok fun c => (h.choose c : ℝ)
  else .error .runtime

/-- An equilibrium with nine grid points and a fixed boundary. -/
noncomputable def evenEnv (factorized : (ℕ → ℝ) → ℕ → ℝ) : Env Unit ℝ :=
  { mu0 := 1, nx := 3, ny := 3, R := linspaceAt 1 2 3, Z := linspaceAt (-1) 1 3, coilPsi := fun _ _ => 0, limits := fun _ => none
    find := fun _ => .ok ([(3 / 2, 0, 1)], []), core := endedMask ⟨3, 3, linspaceAt 1 2 3, linspaceAt (-1) 1 3⟩
    interp := fun _ _ _ => 0, fixed := true, boundary := fun _ psi => .ok (fixedBoundary 3 3 psi)
    solver := fun _ b => mgDirect factorized 3 b }

/-- A case meeting the hypotheses of `C93_equilibrium`: with the direct solver there is an iteration that returns. -/
example : ∃ (factorized : (ℕ → ℝ) → ℕ → ℝ) (o : Picard.Opts ℝ) (s s' : State Unit ℝ) (hist : List (ℝ × Option ℝ)),
    (∀ b, ∀ r < 3 * 3, matVec (3 * 3) (gsSparse ⟨1, 2, -1, 1⟩ 3 3) (factorized b) r = b r) ∧ UsesCoreMask (evenEnv factorized) ∧
    Even (evenEnv factorized) s ∧ (∀ P, EvenNulls (evenEnv factorized) 0 P) ∧
    Picard.picard (picardEnv (evenEnv factorized) (givenProfiles (evenEnv factorized) ⟨fun x => 1 - x, fun _ => 1, 1, none, none⟩) none)
      o 1 s = .ok (some (s', hist)) := by
  have hfac : ∀ b : ℕ → ℝ, ∃ v : ℕ → ℝ, ∀ r < 3 * 3, matVec (3 * 3) (gsSparse (⟨1, 2, -1, 1⟩ : Domain ℝ) 3 3) v r = b r := by
    intro b
    obtain ⟨psi, h⟩ := (C35_unique_solution (⟨1, 2, -1, 1⟩ : Domain ℝ) 3 3 (by norm_num) (by norm_num) (by norm_num) (by norm_num)
      (by norm_num) (unflat 3 b)).1
    refine ⟨flat 3 psi, fun r hr => ?_⟩
    have := h (r / 3, r % 3) ⟨by omega, by omega⟩
    rw [show (r / 3, r % 3).1 * 3 + (r / 3, r % 3).2 = r by show r / 3 * 3 + r % 3 = r; omega] at this
    rw [this, unflat]
    congr 1
    show r / 3 * 3 + r % 3 = r
    omega
  choose fac hfac using hfac
  set e := evenEnv fac with he
  set g : Given ℝ := ⟨fun x => 1 - x, fun _ => 1, 1, none, none⟩
  set s0 : State Unit ℝ := ⟨(), fun _ => 0, fun _ => 0, 0, none, false, none, none, none, none, none, false, none⟩ with hs0
  have hub : ∀ s P, updateBoundary e s P =
      .ok { s with psiAxis := some 1, psiBndry := some (P (0, 0)), isLimited := false, mask := none } := by
    intro s P
    obtain ⟨tok, pp, sp, cur, jt, cl, pa, pb, px, pl, ct, il, mk⟩ := s
    cases cl <;> rfl
  have hcore : ∀ P, ∃ m, e.core P [(3 / 2, 0, 1)] [] (some 0) = .ok m := by
    intro P
    obtain ⟨N, M, _, _, h, _⟩ := C26_core_mask (⟨3, 3, linspaceAt 1 2 3, linspaceAt (-1) 1 3⟩ : Mesh ℝ) (by norm_num) (by norm_num) P
      (3 / 2, 0, 1) [] [] (some 0) 0 (Or.inl rfl) (by norm_num)
    exact ⟨_, dif_pos ⟨M, N, h⟩⟩
  have hprof : ∀ s P, ∃ J, givenProfiles e g s P (some 0) = .ok (s, J) := by
    intro s P
    obtain ⟨m, hm⟩ := hcore P
    have hR : (List.range 3).all (fun i => decide ((linspaceAt (1 : ℝ) 2 3) i ≠ 0)) = true := by
      rw [List.all_eq_true]
      intro i _
      rw [decide_eq_true_eq, linspaceAt]
      norm_num
      positivity
    have hl : locate [((3 / 2 : ℝ), (0 : ℝ), (1 : ℝ))] [] (e.core P [(3 / 2, 0, 1)] []) (P (0, 0)) (some 0) =
        .ok ⟨1, 0, some m⟩ := by
      show (e.core P [(3 / 2, 0, 1)] [] (some 0) >>= fun m => Except.ok (⟨1, 0, some m⟩ : Plasma ℝ)) = _
      rw [hm]
      rfl
    obtain ⟨J, k, hJ⟩ : ∃ J k, Jtor.givenJtor e.mu0 e.nx e.R g [(3 / 2, 0, 1)] [] (e.core P [(3 / 2, 0, 1)] []) P (some 0) =
        .ok (J, k) := by
      rw [givenJtor, hl]
      simp only [bind, Except.bind]
      rw [if_pos]
      · exact ⟨_, _, rfl⟩
      · rw [Bool.and_eq_true]
        exact ⟨hR, by norm_num⟩
    refine ⟨J, ?_⟩
    show (Jtor.givenJtor e.mu0 e.nx e.R g [(3 / 2, 0, 1)] [] (e.core P [(3 / 2, 0, 1)] []) P (some 0) >>= fun r => .ok (s, r.1)) = _
    rw [hJ]
    rfl
  have hsolve : ∀ s P, ∃ s' : State Unit ℝ, solve e (givenProfiles e g) s none (some P) (some 0) = .ok s' ∧
      ∃ b, s'.psiBndry = some b := by
    intro s P
    rw [solve, hub]
    obtain ⟨J, hJ⟩ := hprof { s with psiAxis := some 1, psiBndry := some (psi e s (0, 0)), isLimited := false, mask := none } P
    have hd : density e (givenProfiles e g)
        { s with psiAxis := some 1, psiBndry := some (psi e s (0, 0)), isLimited := false, mask := none } none (some P) (some 0) =
        .ok ({ s with psiAxis := some 1, psiBndry := some (psi e s (0, 0)), isLimited := false, mask := none }, J) := hJ
    have hbd : ∀ J p, e.boundary J p = .ok (fixedBoundary 3 3 p) := fun _ _ => rfl
    have hint : integrate e.nx e.ny e.R e.Z J = _ := integrate_three _ _ _
    simp only [bind, Except.bind, hd, updatePlasmaPsi, hub, hbd, hint]
    exact ⟨_, rfl, _, rfl⟩
  obtain ⟨s', hs', b, hb⟩ := hsolve { s0 with checkLimited := false } (ofValues 3 (values 3 3 (psi e s0)))
  set A : ℝ := max (Picard.maxChange (values 3 3 (psi e s0)) (values 3 3 (psi e s'))) |0 - b| + 1 with hA
  have hA1 : Picard.maxChange (values 3 3 (psi e s0)) (values 3 3 (psi e s')) < A := (le_max_left _ _).trans_lt (lt_add_one _)
  have hA2 : |0 - b| < A := (le_max_right _ _).trans_lt (lt_add_one _)
  obtain ⟨hist, hh⟩ : ∃ hist, Picard.picard (picardEnv e (givenProfiles e g) none) ⟨0, A, 0, some 0, none, false, false, 0⟩ 1 s0 =
      .ok (some (s', hist)) := by
    have hbn : (picardEnv e (givenProfiles e g) none).bndry s' = some b := hb
    have hps : (picardEnv e (givenProfiles e g) none).psi = fun s => values 3 3 (psi e s) := rfl
    have hsl : (picardEnv e (givenProfiles e g) none).solve s0 false (values 3 3 (psi e s0)) (some 0) = .ok s' := hs'
    simp only [Picard.picard, Picard.Env.adjust, Picard.loop, Picard.body]
    rw [show (picardEnv e (givenProfiles e g) none).constrain = none from rfl]
    simp only [Bool.and_false, Bool.false_eq_true, if_false, hps, hsl, hbn, decide_eq_true hA1, decide_eq_true hA2, Bool.true_or,
      Bool.or_true, Bool.not_false, Bool.and_self, if_true]
    exact ⟨_, rfl⟩
  refine ⟨fac, ⟨0, A, 0, some 0, none, false, false, 0⟩, s0, s', hist, hfac, ?_, ⟨fun _ _ => rfl, fun _ _ => rfl⟩, ?_, hh⟩
  · intro P opt xpt b m h
    rw [show (evenEnv fac).core P opt xpt b = endedMask ⟨3, 3, linspaceAt 1 2 3, linspaceAt (-1) 1 3⟩ P opt xpt b from rfl,
      endedMask] at h
    split_ifs at h with hx
    · cases h
      exact ⟨hx.choose_spec.choose, hx.choose, hx.choose_spec.choose_spec, fun _ => rfl⟩
  · intro P o os xpt h
    cases h
    exact ⟨rfl, fun x hx => by cases hx⟩

/-- A case meeting the hypotheses of `C93_picard`: the run of C71. -/
example : (∀ P, UpDown 3 3 P → ProfilesKeep runEnv (paxisProfiles quadR powR runEnv runParams 0) P) ∧
    BoundaryKeeps 3 3 runEnv.boundary ∧ SolverKeeps 3 3 runEnv.solver ∧
    Even runEnv ⟨(), fun _ => 0, fun _ => 0, 0, none, false, none, none, none, none, none, false, none⟩ ∧
    ∃ s' hist, Picard.picard (picardEnv runEnv (paxisProfiles quadR powR runEnv runParams 0) none)
      ⟨1 / 1000, 1 / 10000000000, 0, none, some 50, false, false, 0⟩ 2
      ⟨(), fun _ => 0, fun _ => 0, 0, none, false, none, none, none, none, none, false, none⟩ = .ok (some (s', hist)) := by
  refine ⟨fun P hP => (C93_profiles runEnv P hP ?_ quadR powR (fun _ => (0, 0)) runParams 0 ⟨id, id, 0, none, none⟩).1, ?_, ?_,
    ⟨fun _ _ => rfl, fun _ _ => rfl⟩, run_returns⟩
  · intro o os xpt b v m _ _ _ h
    cases h
    exact fun _ _ => rfl
  · intro J psi edge _ h1 h2
    cases h2
    exact h1
  · intro x b _ hb
    exact hb

end FreeGS.Equil
