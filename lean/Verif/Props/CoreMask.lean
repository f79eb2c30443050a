import Verif.Lemmas.CoreMask

/-!
# C26: the core mask
-/

set_option linter.unusedSectionVars false

namespace FreeGS.Critical

variable {K : Type*} [Field K] [LinearOrder K] [IsStrictOrderedRing K]

theorem psin_lt_one (axis b v : K) (h : b ≠ axis) : (v - axis) / (b - axis) < 1 ↔ CoreFlux axis b v := by
  rcases lt_or_gt_of_ne h with h | h
  · have h1 : b - axis < 0 := by linarith
    rw [div_lt_one_of_neg h1]
    constructor
    · intro h2; exact Or.inr ⟨h, by linarith⟩
    · rintro (⟨h2, _⟩ | ⟨_, h2⟩)
      · exact absurd h2 (not_lt.mpr h.le)
      · linarith
  · have h1 : 0 < b - axis := by linarith
    rw [div_lt_one h1]
    constructor
    · intro h2; exact Or.inl ⟨h, by linarith⟩
    · rintro (⟨_, h2⟩ | ⟨h2, _⟩)
      · linarith
      · exact absurd h2 (not_lt.mpr h.le)

/-- **C26.** For every grid, flux, axis, list of X-points and boundary flux different from the axis flux, `core_mask`
ends and returns a mask of zeros and ones. A grid point next to an X-point is marked exactly when its
flux is on the axis side of the boundary flux; any other point is marked exactly when it can be reached from the grid point
nearest to the axis through neighbouring grid points that have flux on the axis side and are not next to an X-point. -/
theorem C26_core_mask (g : Mesh K) (hnx : 0 < g.nx) (hny : 0 < g.ny) (psi : ℕ × ℕ → K) (o : Point K)
    (os xs : List (Point K)) (psiBndry : Option K) (b : K) (hb : BoundaryFlux psiBndry xs b)
    (hne : b ≠ o.2.2) :
    ∃ (N : ℕ) (m : Mask) (i0 j0 : ℕ),
      (∀ fuel, N ≤ fuel → coreMask g psi (o :: os) xs psiBndry fuel = .ok (some m)) ∧
      Nearest g.R g.nx o.1 i0 ∧ Nearest g.Z g.ny o.2.1 j0 ∧
      ∀ c, (m c = 0 ∨ m c = 1) ∧
        (NearX g xs c → (m c = 1 ↔ CoreFlux o.2.2 b (psi c))) ∧
        (¬ NearX g xs c →
          (m c = 1 ↔ Connected g (fun c => CoreFlux o.2.2 b (psi c)) xs (i0, j0) c)) := by
  obtain ⟨Ro, Zo, axis⟩ := o
  simp only at hne ⊢
  set inside : ℕ × ℕ → Bool := fun c => decide ((psi c - axis) / (b - axis) < 1) with hin
  set inds := xs.map fun x => (nearest g.R g.nx x.1, nearest g.Z g.ny x.2.1) with hinds
  set start := (nearest g.R g.nx Ro, nearest g.Z g.ny Zo) with hstart
  have hcall : ∀ fuel, coreMask g psi ((Ro, Zo, axis) :: os) xs psiBndry fuel =
      .ok ((fill inside g.nx g.ny fuel ⟨blockMask g.nx g.ny inds fun _ => 0, [start]⟩).map
        (unblockMask inside g.nx g.ny inds)) := by
    intro fuel
    rcases hb with rfl | ⟨rfl, x, rest, rfl, rfl⟩
    · cases xs <;> rfl
    · rfl
  have hX : ∀ c, NearX g xs c ↔ inBlocks g.nx g.ny inds c := by
    intro c
    simp only [NearX, inBlocks, hinds, List.mem_map, InGrid]
    constructor
    · rintro ⟨h1, x, hx, i, j, hi, hj, h2, h3⟩
      refine ⟨(i, j), ⟨x, hx, ?_⟩, (mem_block _ _ _ _ hi.1 hj.1).mpr ⟨h1, h2, h3⟩⟩
      rw [(nearest_spec g.R hnx x.1).unique hi, (nearest_spec g.Z hny x.2.1).unique hj]
    · rintro ⟨p, ⟨x, hx, rfl⟩, hc⟩
      have hi := nearest_spec g.R hnx x.1
      have hj := nearest_spec g.Z hny x.2.1
      obtain ⟨h1, h2, h3⟩ := (mem_block _ _ _ _ hi.1 hj.1).mp hc
      exact ⟨h1, x, hx, _, _, hi, hj, h2, h3⟩
  have h0 : start.1 < g.nx ∧ start.2 < g.ny :=
    ⟨(nearest_spec g.R hnx Ro).1, (nearest_spec g.Z hny Zo).1⟩
  have hbm := foldl_blocks (fun _ => 2) g.nx g.ny inds (fun _ => 0)
  have hI : Inv inside g.nx g.ny (NearX g xs) start ⟨blockMask g.nx g.ny inds fun _ => 0, [start]⟩ := by
    refine ⟨fun c hc => ?_, fun c hc => ?_, fun c hc => ?_, fun c hc => ?_⟩
    · by_cases h : inBlocks g.nx g.ny inds c
      · have := (hbm c).1 h
        simp only [blockMask] at hc
        omega
      · have := (hbm c).2 h
        simp only [blockMask] at hc
        omega
    · rw [List.mem_singleton.mp hc]; exact Relation.ReflTransGen.refl
    · have := (hbm c).1 ((hX c).mp hc)
      simp only [blockMask]
      omega
    · have := (hbm c).2 (fun h => hc ((hX c).mpr h))
      simp only [blockMask]
      omega
  have hC : Closed inside g.nx g.ny (NearX g xs) start (fun _ => False)
      ⟨blockMask g.nx g.ny inds fun _ => 0, [start]⟩ := by
    refine ⟨fun c d hc => ?_, Or.inr (Or.inl (by simp))⟩
    exfalso
    by_cases h : inBlocks g.nx g.ny inds c
    · have := (hbm c).1 h
      simp only [blockMask] at hc
      omega
    · have := (hbm c).2 h
      simp only [blockMask] at hc
      omega
  obtain ⟨N, m, h1, h2, h3⟩ := fill_spec h0 _ _ rfl hI hC
  have hub := foldl_blocks (fun c => if inside c then 1 else 0) g.nx g.ny inds m
  have hcore : ∀ c, inside c = true ↔ CoreFlux axis b (psi c) := by
    intro c; rw [hin]; simp only [decide_eq_true_eq]; exact psin_lt_one axis b (psi c) hne
  refine ⟨N, unblockMask inside g.nx g.ny inds m, start.1, start.2, fun fuel hf => ?_,
    nearest_spec g.R hnx Ro, nearest_spec g.Z hny Zo, fun c => ⟨?_, fun hc => ?_, fun hc => ?_⟩⟩
  · rw [hcall, h1 fuel hf]; rfl
  · by_cases h : inBlocks g.nx g.ny inds c
    · have := (hub c).1 h
      simp only [unblockMask, this]
      split <;> simp
    · have := (hub c).2 h
      simp only [unblockMask, this]
      exact h2.free c fun h' => h ((hX c).mp h')
  · have := (hub c).1 ((hX c).mp hc)
    simp only [unblockMask, this]
    rw [← hcore]
    split
    · rename_i h; simp [h]
    · rename_i h; simp [h]
  · have := (hub c).2 (fun h => hc ((hX c).mpr h))
    simp only [unblockMask, this]
    rw [final_mask h2 h3 c, Reach, Connected]
    have e : (fun a b_1 => Adjacent a b_1 ∧ Free inside g.nx g.ny (NearX g xs) b_1) =
        fun a b_1 => Adjacent a b_1 ∧ InGrid g b_1 ∧ CoreFlux axis b (psi b_1) ∧ ¬ NearX g xs b_1 := by
      funext a d
      simp only [Free, InGrid, hcore]
    rw [e]

/-- **C26 (missing points).** Without an O-point, or without boundary flux and X-points, `IndexError` is raised. -/
theorem C26_index_error (g : Mesh K) (psi : ℕ × ℕ → K) (fuel : ℕ) :
    (∀ xs pb, coreMask g psi [] xs pb fuel = .error .index) ∧
    (∀ o os, coreMask g psi (o :: os) [] none fuel = .error .index) := ⟨fun _ _ => rfl, fun _ _ => rfl⟩

/-- A 4 x 5 grid with an X-point in the corner and a region (row 3) below the boundary flux that is not
connected with the core. -/
def exMesh : Mesh ℚ := ⟨4, 5, fun i => i, fun j => j⟩

/-- The flux: rows 0, 1 and 3 below one. -/
def exPsi : ℕ × ℕ → ℚ := fun c => if c.1 = 2 ∨ c = (1, 1) then 2 else 1 / 2

example : (coreMask exMesh exPsi [(0, 1, 0)] [(3, 4, 1)] none 30).map
      (fun m => m.map fun m => (List.range 4).map fun i => (List.range 5).map fun j => m (i, j)) =
    .ok (some [[1, 1, 1, 1, 1], [1, 0, 1, 1, 1], [0, 0, 0, 0, 0], [0, 0, 0, 1, 1]]) ∧
    (1 : ℚ) ≠ 0 ∧ 0 < exMesh.nx ∧ 0 < exMesh.ny := by decide +kernel

end FreeGS.Critical
