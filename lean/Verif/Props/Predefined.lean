import Verif.Lemmas.Predefined
import Verif.Model.Greens
import Verif.Spec.Symmetry
import Verif.Spec.Machine

set_option linter.unusedSectionVars false

/-!
# C94: predefined machines
-/

namespace FreeGS.Predefined

open FreeGS.GS (UpDown EvenHeights mirrorRow OnGrid)

variable {K : Type*} [Field K] [LinearOrder K]

/-- **C94 (Green's function).** The Green's function of the code is mirror symmetric, whatever the elliptic integrals are. -/
theorem C94_kernel (ek ee : ℝ → ℝ) : (realEnv ek ee).Mirror := by
  intro Rc Zc R Z
  have h1 : (-Z - -Zc) ^ 2 = (Z - Zc) ^ 2 := by ring
  simp only [realEnv, greens, h1]

/-- **C94 (labels).** In every predefined machine the labels are distinct, also within each circuit, so that `machine[label]` reaches
every coil and the table of Green's functions is right (C17). -/
theorem C94_labels : (emptyTokamak : Machine K).LabelsDistinct ∧ (mast : Machine K).LabelsDistinct ∧ (mastSym : Machine K).LabelsDistinct ∧
    (mastuSimple : Machine K).LabelsDistinct ∧ (∀ m : Machine K, mastu = .ok m → m.LabelsDistinct) ∧
    (∀ m, testTokamak = .ok (some m) → m.LabelsDistinct) ∧ ∀ m, diiid = .ok (some m) → m.LabelsDistinct := by
  have circ : ∀ {U L : String} {a b : AnyCoil K} {s : K} {c : Circuit K}, U ≠ L → Entry.circuit c = pair U a L b s →
      (c.coils.map Prod.fst).Nodup := by
    intro U L a b s c hne h
    rw [pair_labels h.symm]
    simpa using hne
  refine ⟨⟨by simp [emptyTokamak], by simp [emptyTokamak]⟩, ⟨by simp only [mast, List.map_cons, List.map_nil]; decide, ?_⟩,
    ⟨by simp only [mastSym, List.map_cons, List.map_nil]; decide, ?_⟩,
    ⟨by simp only [mastuSimple, List.map_cons, List.map_nil]; decide, ?_⟩, ?_, ?_, ?_⟩
  · intro l c h
    simp [mast, solenoid] at h
  · intro l c h
    simp only [mastSym, solenoid, List.mem_cons, List.not_mem_nil, or_false, Prod.mk.injEq, reduceCtorEq, and_false] at h
    rcases h with ⟨-, h⟩ | ⟨-, h⟩ | ⟨-, h⟩ | ⟨-, h⟩ | ⟨-, h⟩ <;> exact circ (by decide) h
  · intro l c h
    simp only [mastuSimple, solenoid, List.mem_cons, List.not_mem_nil, or_false, Prod.mk.injEq, reduceCtorEq, and_false, false_or] at h
    rcases h with ⟨-, h⟩ | ⟨-, h⟩ | ⟨-, h⟩ | ⟨-, h⟩ | ⟨-, h⟩ | ⟨-, h⟩ | ⟨-, h⟩ | ⟨-, h⟩ | ⟨-, h⟩ | ⟨-, h⟩ | ⟨-, h⟩ | ⟨-, h⟩ <;>
      exact circ (by decide) h
  · intro m hm
    rw [mastu] at hm
    cases hs : sequence (mastuEntries : List (String × Except Err (Entry K))) with
    | error err => rw [hs] at hm; cases hm
    | ok cs =>
      rw [hs] at hm
      cases hm
      refine ⟨?_, fun l c hx => ?_⟩
      · show (cs.map Prod.fst).Nodup
        rw [sequence_labels hs]
        simp only [mastuEntries, List.map_cons, List.map_nil]
        decide
      · have hx := sequence_mem hs hx
        simp only [mastuEntries, List.mem_cons, List.not_mem_nil, or_false, Prod.mk.injEq] at hx
        have two : ∀ {U L : String} {r z : List ℚ} {s : K}, U ≠ L → Except.ok (Entry.circuit c) = strandPair U L r z s →
            (c.coils.map Prod.fst).Nodup := by
          intro U L r z s hne h
          obtain ⟨a, b, s, h⟩ := strandPair_isPair h.symm
          exact circ hne h
        rcases hx with ⟨-, hx⟩ | ⟨-, hx⟩ | ⟨-, hx⟩ | ⟨-, hx⟩ | ⟨-, hx⟩ | ⟨-, hx⟩ | ⟨-, hx⟩ | ⟨-, hx⟩ | ⟨-, hx⟩ |
          ⟨-, hx⟩ | ⟨-, hx⟩ | ⟨-, hx⟩ | ⟨-, hx⟩
        · cases hx
        · cases hp : (strands pcR pcZ : Except Err (FilamentCoil K)) with
          | error err => rw [hp] at hx; cases hx
          | ok a => rw [hp] at hx; cases hx
        all_goals exact two (by decide) hx
  · intro m hm
    rw [testTokamak] at hm
    split at hm <;> cases hm
    exact ⟨by simp only [List.map_cons, List.map_nil]; decide, fun l c h => by simp at h⟩
  · intro m hm
    rw [diiid] at hm
    split at hm <;> cases hm
    rename_i cs hcs
    obtain ⟨h1, h2⟩ := shapedCoils_labels hcs
    exact ⟨h1 ▸ by decide, fun l c h => absurd h (h2 l c)⟩

/-- **C94 (construction).** Every predefined machine can be made: no constructor raises an exception or fails to return. -/
theorem C94_made : (∃ m, testTokamak = .ok (some m)) ∧ (∃ m, diiid = .ok (some m)) ∧ ∃ m : Machine K, mastu = .ok m := by
  refine ⟨?_, ?_, ?_⟩
  · have h : (match testTokamak with | .ok (some _) => true | _ => false) = true := by decide +kernel
    split at h
    · rename_i m hm
      exact ⟨m, hm⟩
    · cases h
  · have h : (match diiid with | .ok (some _) => true | _ => false) = true := by decide +kernel
    split at h
    · rename_i m hm
      exact ⟨m, hm⟩
    · cases h
  · have : ∃ cs : List (String × Entry K), sequence mastuEntries = .ok cs := by
      refine sequence_ok fun x hx => ?_
      simp only [mastuEntries, List.mem_cons, List.not_mem_nil, or_false] at hx
      rcases hx with rfl | rfl | rfl | rfl | rfl | rfl | rfl | rfl | rfl | rfl | rfl | rfl | rfl
      · exact ⟨_, rfl⟩
      · obtain ⟨a, ha⟩ := strands_ok (K := K) (r := pcR) (z := pcZ) (List.cons_ne_nil _ _) (List.cons_ne_nil _ _)
        exact ⟨.coil (.filament a), by rw [ha]; rfl⟩
      all_goals exact strandPair_ok _ _ (List.cons_ne_nil _ _) (List.cons_ne_nil _ _) _
    obtain ⟨cs, hcs⟩ := this
    exact ⟨⟨cs⟩, by rw [mastu, hcs]; rfl⟩

/-- **C94 (MAST).** With equal currents in upper and lower coils the flux of the coils is symmetric. -/
theorem C94_mast [CharZero K] (e : Env K) (he : e.Mirror) (I : String → K) (h2 : I "P2U" = I "P2L") (h3 : I "P3U" = I "P3L")
    (h4 : I "P4U" = I "P4L") (h5 : I "P5U" = I "P5L") (h6 : I "P6U" = I "P6L") : (mast.withCurrents I).EvenFlux e := by
  intro R Z
  rw [Machine.field_withCurrents, Machine.field_withCurrents]
  have hc : ∀ r z : ℚ, ∀ Z : K, (Entry.coil (coil r z) : Entry K).response e .psi R (-Z) =
      (Entry.coil (coil r (-z)) : Entry K).response e .psi R Z := fun r z Z => coil_flip he r z 1 R Z
  simp only [mast, List.map_cons, List.map_nil, List.sum_cons, List.sum_nil, hc, neg_neg, h2, h3, h4, h5, h6,
    solenoid_even he _ _ 100 (by norm_num)]
  ring

/-- **C94 (MAST_sym).** The flux of all circuits but P6 is symmetric whatever their currents are, and the flux of P6 is
antisymmetric. -/
theorem C94_mast_sym [CharZero K] (e : Env K) (he : e.Mirror) (I : String → K) :
    (I "P6" = 0 → (mastSym.withCurrents I).EvenFlux e) ∧
    ((∀ l, l ≠ "P6" → I l = 0) → (mastSym.withCurrents I).OddFlux e) := by
  refine ⟨fun h => even_of_entries e _ I fun x hx => ?_, fun h => odd_of_entries e _ I fun x hx => ?_⟩
  · simp only [mastSym, List.mem_cons, List.not_mem_nil, or_false] at hx
    rcases hx with rfl | rfl | rfl | rfl | rfl | rfl
    iterate 4 exact Or.inr fun R Z => coilPair_even he _ _ _ _ _ R Z
    · exact Or.inl h
    · exact Or.inr fun R Z => solenoid_even he _ _ _ (by norm_num) _ R Z
  · simp only [mastSym, List.mem_cons, List.not_mem_nil, or_false] at hx
    rcases hx with rfl | rfl | rfl | rfl | rfl | rfl
    iterate 4 exact Or.inl (h _ (by dsimp only; decide))
    · exact Or.inr fun R Z => coilPair_odd he _ _ _ _ _ R Z
    · exact Or.inl (h _ (by dsimp only; decide))

/-- **C94 (MASTU_simple).** The flux of all circuits but P61 and P62 is symmetric whatever their currents are, and the flux of
these two is antisymmetric. -/
theorem C94_mastu_simple [CharZero K] (e : Env K) (he : e.Mirror) (I : String → K) :
    (I "P61" = 0 → I "P62" = 0 → (mastuSimple.withCurrents I).EvenFlux e) ∧
    ((∀ l, l ≠ "P61" → l ≠ "P62" → I l = 0) → (mastuSimple.withCurrents I).OddFlux e) := by
  refine ⟨fun h h' => even_of_entries e _ I fun x hx => ?_, fun h => odd_of_entries e _ I fun x hx => ?_⟩
  · simp only [mastuSimple, List.mem_cons, List.not_mem_nil, or_false] at hx
    rcases hx with rfl | rfl | rfl | rfl | rfl | rfl | rfl | rfl | rfl | rfl | rfl | rfl | rfl | rfl
    iterate 2 exact Or.inr fun R Z => solenoid_even he _ _ _ (by norm_num) _ R Z
    iterate 10 exact Or.inr fun R Z => coilPair_even he _ _ _ _ _ R Z
    · exact Or.inl h
    · exact Or.inl h'
  · simp only [mastuSimple, List.mem_cons, List.not_mem_nil, or_false] at hx
    rcases hx with rfl | rfl | rfl | rfl | rfl | rfl | rfl | rfl | rfl | rfl | rfl | rfl | rfl | rfl
    iterate 12 exact Or.inl (h _ (by dsimp only; decide) (by dsimp only; decide))
    iterate 2 exact Or.inr fun R Z => coilPair_odd he _ _ _ _ _ R Z

/-- **C94 (MASTU).** The flux of all coils but Pc and P6 is symmetric whatever their currents are, and the flux of P6 is
antisymmetric. Missing: the coil Pc, for which it is false (`C94_mastu_fails`). -/
theorem C94_mastu_partial [CharZero K] (e : Env K) (he : e.Mirror) (I : String → K) (m : Machine K) (hm : mastu = .ok m) :
    (I "Pc" = 0 → I "P6" = 0 → (m.withCurrents I).EvenFlux e) ∧
    ((∀ l, l ≠ "P6" → I l = 0) → (m.withCurrents I).OddFlux e) := by
  rw [mastu] at hm
  cases hs : sequence (mastuEntries : List (String × Except Err (Entry K))) with
  | error err => rw [hs] at hm; cases hm
  | ok cs =>
    rw [hs] at hm
    cases hm
    refine ⟨fun h h' => even_of_entries e _ I fun x hx => ?_, fun h => odd_of_entries e _ I fun x hx => ?_⟩
    · replace hx := sequence_mem hs hx
      obtain ⟨l, x⟩ := x
      simp only [mastuEntries, List.mem_cons, List.not_mem_nil, or_false, Prod.mk.injEq] at hx
      rcases hx with ⟨rfl, hx⟩ | ⟨rfl, hx⟩ | ⟨rfl, hx⟩ | ⟨rfl, hx⟩ | ⟨rfl, hx⟩ | ⟨rfl, hx⟩ | ⟨rfl, hx⟩ | ⟨rfl, hx⟩ | ⟨rfl, hx⟩ |
        ⟨rfl, hx⟩ | ⟨rfl, hx⟩ | ⟨rfl, hx⟩ | ⟨rfl, hx⟩
      · cases hx
        exact Or.inr fun R Z => solenoid_even he _ _ _ (by norm_num) _ R Z
      · exact Or.inl h
      iterate 10 exact Or.inr fun R Z => strandPair_even he hx.symm R Z
      · exact Or.inl h'
    · replace hx := sequence_mem hs hx
      obtain ⟨l, x⟩ := x
      simp only [mastuEntries, List.mem_cons, List.not_mem_nil, or_false, Prod.mk.injEq] at hx
      rcases hx with ⟨rfl, hx⟩ | ⟨rfl, hx⟩ | ⟨rfl, hx⟩ | ⟨rfl, hx⟩ | ⟨rfl, hx⟩ | ⟨rfl, hx⟩ | ⟨rfl, hx⟩ | ⟨rfl, hx⟩ | ⟨rfl, hx⟩ |
        ⟨rfl, hx⟩ | ⟨rfl, hx⟩ | ⟨rfl, hx⟩ | ⟨rfl, hx⟩
      iterate 12 exact Or.inl (h _ (by dsimp only; decide))
      · exact Or.inr fun R Z => strandPair_odd he hx.symm R Z

/-- An environment with a mirror-symmetric Green's function. -/
def powEnv : Env ℚ := ⟨fun _ a b _ d => a ^ 3 * (b - d) ^ 4, 3, 1, id, id⟩

/-- **C94 (TestTokamak, failure).** The coils P1L and P1U are mirror images of each other, but not the filaments that represent
them: with the same current in all coils the flux is not symmetric. -/
theorem C94_test_tokamak_fails : p1Upper = p1Lower.map (fun p => (p.1, -p.2)) ∧ powEnv.Mirror ∧
    ∃ m, testTokamak = .ok (some m) ∧ ¬ (m.withCurrents fun _ => 1).EvenFlux powEnv := by
  have h : (match testTokamak with
    | .ok (some m) => decide (((m.withCurrents fun _ => 1).field powEnv .psi 1 (-1)).1 ≠ ((m.withCurrents fun _ => 1).field powEnv .psi 1 1).1)
    | _ => false) = true := by decide +kernel
  refine ⟨by decide +kernel, fun Rc Zc R Z => by simp only [powEnv]; ring, ?_⟩
  split at h
  · rename_i m hm
    exact ⟨m, hm, fun hE => of_decide_eq_true h (hE 1 1)⟩
  · cases h

/-- **C94 (TestTokamak).** Without current in P1L and P1U and with equal currents in P2L and P2U the flux is symmetric.
Missing: the coils P1L and P1U, for which it is false (`C94_test_tokamak_fails`). -/
theorem C94_test_tokamak_partial (e : Env ℚ) (he : e.Mirror) (I : String → ℚ) (h1 : I "P1L" = 0) (h2 : I "P1U" = 0)
    (h3 : I "P2L" = I "P2U") (m : Machine ℚ) (hm : testTokamak = .ok (some m)) : (m.withCurrents I).EvenFlux e := by
  intro R Z
  rw [testTokamak] at hm
  split at hm <;> cases hm
  rw [Machine.field_withCurrents, Machine.field_withCurrents]
  have hc : ∀ r z : ℚ, ∀ Z : ℚ, (Entry.coil (coil r z) : Entry ℚ).response e .psi R (-Z) =
    (Entry.coil (coil r (-z)) : Entry ℚ).response e .psi R Z := fun r z Z => coil_flip he r z 1 R Z
  simp only [List.map_cons, List.map_nil, List.sum_cons, List.sum_nil, hc, neg_neg, h1, h2, h3]
  ring

/-- **C94 (MASTU, failure).** The coil Pc of MASTU is not symmetric: no strand is the mirror image of a strand, and with current
in this coil only the flux is not symmetric. -/
theorem C94_mastu_fails : (∀ p ∈ pcR.zip pcZ, (p.1, -p.2) ∉ pcR.zip pcZ) ∧
    ∃ m : Machine ℚ, mastu = .ok m ∧ ¬ (m.withCurrents fun l => if l = "Pc" then 1 else 0).EvenFlux powEnv := by
  have h : (match (mastu : Except Err (Machine ℚ)) with
    | .ok m => decide (((m.withCurrents fun l => if l = "Pc" then 1 else 0).field powEnv .psi 1 (-1)).1 ≠
        ((m.withCurrents fun l => if l = "Pc" then 1 else 0).field powEnv .psi 1 1).1)
    | _ => false) = true := by decide +kernel
  refine ⟨by decide +kernel, ?_⟩
  split at h
  · rename_i m hm
    exact ⟨m, hm, fun hE => of_decide_eq_true h (hE 1 1)⟩
  · cases h

/-- **C94 (on the grid).** On a grid that is symmetric about the midplane a symmetric machine gives an array that is symmetric in
the sense of C93. -/
theorem C94_grid (e : Env K) (m : Machine K) (h : m.EvenFlux e) (nx ny : ℕ) (R Z : ℕ → K) (hZ : EvenHeights ny Z 0) :
    UpDown nx ny (fun c => (m.field e .psi (R c.1) (Z c.2)).1) := by
  intro c hc
  simp only [mirrorRow, hZ c.2 hc.2, mul_zero, zero_sub]
  exact h _ _

/-! The hypotheses of these theorems are met. -/

section Examples

/-- The Green's functions of the code are mirror symmetric, so the theorems hold for them. -/
noncomputable example (ek ee : ℝ → ℝ) : ((mast : Machine ℝ).withCurrents fun l => if l = "P1" then 7 else 3).EvenFlux
    (realEnv ek ee) :=
  C94_mast _ (C94_kernel ek ee) _ rfl rfl rfl rfl rfl

/-- The result is not trivial: the flux is not constant. -/
example : (((mast : Machine ℚ).withCurrents fun _ => 1).field powEnv .psi 1 1).1 ≠ (((mast : Machine ℚ).withCurrents fun _ => 1).field powEnv .psi 1 2).1 := by
  decide +kernel

/-- With other currents in upper and lower coils it is not symmetric. -/
example : ¬ ((mast : Machine ℚ).withCurrents fun l => if l = "P2U" then 1 else 0).EvenFlux powEnv :=
  fun h => absurd (h 1 1) (by decide +kernel)

example : (((mastSym : Machine ℚ).withCurrents fun l => if l = "P6" then 1 else 0).field powEnv .psi 1 1).1 ≠ 0 := by decide +kernel

example : ∃ m : Machine ℚ, mastu = .ok m ∧ (m.withCurrents fun l => if l = "P6" then 1 else 0).OddFlux powEnv ∧
    ((m.withCurrents fun l => if l = "P6" then 1 else 0).field powEnv .psi 1 1).1 ≠ 0 := by
  have h : (match (mastu : Except Err (Machine ℚ)) with
    | .ok m => decide (((m.withCurrents fun l => if l = "P6" then 1 else 0).field powEnv .psi 1 1).1 ≠ 0)
    | _ => false) = true := by decide +kernel
  split at h
  · rename_i m hm
    refine ⟨m, hm, (C94_mastu_partial powEnv ?_ _ m hm).2 fun l hl => if_neg hl, of_decide_eq_true h⟩
    intro Rc Zc R Z
    simp only [powEnv]
    ring
  · cases h

end Examples

end FreeGS.Predefined
