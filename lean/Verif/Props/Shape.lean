import Verif.Lemmas.Global
import Mathlib.Tactic.NormNum

/-!
# C49: shape parameters of the plasma

Everything is stated from the list of separatrix points alone.
-/

set_option linter.unusedSectionVars false

namespace FreeGS.Global

open FreeGS.GS FreeGS.Equil

variable {K : Type*} [Field K] [LinearOrder K]

/-- The smallest rectangle around a list of points is `[r0, r1] × [z0, z1]`. -/
structure Box (l : List (K × K)) (r0 r1 z0 z1 : K) : Prop where
  left : ∃ q ∈ l, q.1 = r0
  right : ∃ q ∈ l, q.1 = r1
  bottom : ∃ q ∈ l, q.2 = z0
  top : ∃ q ∈ l, q.2 = z1
  inside : ∀ q ∈ l, r0 ≤ q.1 ∧ q.1 ≤ r1 ∧ z0 ≤ q.2 ∧ q.2 ≤ z1

variable [IsStrictOrderedRing K]

theorem Box.extremes {l : List (K × K)} {r0 r1 z0 z1 : K} (b : Box l r0 r1 z0 z1) :
    ∃ P1 P2 P3 P4 : K × K, outermost l = .ok P1 ∧ uppermost l = .ok P2 ∧ innermost l = .ok P3 ∧ lowest l = .ok P4 ∧
      P1.1 = r1 ∧ P2.2 = z1 ∧ P3.1 = r0 ∧ P4.2 = z0 ∧ P1 ∈ l ∧ P2 ∈ l ∧ P3 ∈ l ∧ P4 ∈ l := by
  have hne : l ≠ [] := by
    obtain ⟨q, hq, _⟩ := b.left
    exact List.ne_nil_of_mem hq
  obtain ⟨P1, h1⟩ := first_exists (fun q : K × K => q.1) hne
  obtain ⟨P2, h2⟩ := first_exists (fun q : K × K => q.2) hne
  obtain ⟨P3, h3⟩ := first_exists (fun q : K × K => -q.1) hne
  obtain ⟨P4, h4⟩ := first_exists (fun q : K × K => -q.2) hne
  obtain ⟨m1, g1⟩ := first_ok h1
  obtain ⟨m2, g2⟩ := first_ok h2
  obtain ⟨m3, g3⟩ := first_ok h3
  obtain ⟨m4, g4⟩ := first_ok h4
  refine ⟨P1, P2, P3, P4, h1, h2, h3, h4, ?_, ?_, ?_, ?_, m1, m2, m3, m4⟩
  · obtain ⟨q, hq, e⟩ := b.right
    exact le_antisymm (b.inside _ m1).2.1 (e ▸ g1 q hq)
  · obtain ⟨q, hq, e⟩ := b.top
    exact le_antisymm (b.inside _ m2).2.2.2 (e ▸ g2 q hq)
  · obtain ⟨q, hq, e⟩ := b.left
    exact le_antisymm (e ▸ neg_le_neg_iff.mp (g3 q hq)) (b.inside _ m3).1
  · obtain ⟨q, hq, e⟩ := b.bottom
    exact le_antisymm (e ▸ neg_le_neg_iff.mp (g4 q hq)) (b.inside _ m4).2.2.1

/-- The major radius is the middle, the minor radius half the width of the separatrix, and the ratios are the ratios of its sides. -/
theorem C49_formulas (p : Plasma K) (n : ℕ) {r0 r1 z0 z1 : K} (b : Box (p.sep n) r0 r1 z0 z1) :
    Rgeometric p n = .ok ((r0 + r1) / 2) ∧
    minorRadius p n = .ok ((r1 - r0) / 2) ∧
    (r0 < r1 → aspectRatio p n = .ok ((r0 + r1) / (r1 - r0)) ∧ elongation p n = .ok ((z1 - z0) / (r1 - r0))) ∧
    (r0 + r1 ≠ 0 → inverseAspectRatio p n = .ok ((r1 - r0) / (r0 + r1))) := by
  obtain ⟨P1, P2, P3, P4, h1, h2, h3, h4, rfl, rfl, rfl, rfl, -⟩ := b.extremes
  have eR : Rgeometric p n = .ok ((P3.1 + P1.1) / 2) := by
    rw [Rgeometric, geometricAxis, h1, h3]
    show Except.ok _ = Except.ok _
    congr 1; ring
  have ea : minorRadius p n = .ok ((P1.1 - P3.1) / 2) := by
    rw [minorRadius, h1, h3]
    show Except.ok _ = Except.ok _
    congr 1; ring
  refine ⟨eR, ea, fun hlt => ⟨?_, ?_⟩, fun hne => ?_⟩
  · have : (P1.1 - P3.1) / 2 ≠ 0 := by linarith [show 0 < (P1.1 - P3.1) / 2 by linarith]
    rw [aspectRatio, eR, ea]
    show quotient _ _ = _
    rw [quotient_eq this]
    congr 1
    have : P1.1 - P3.1 ≠ 0 := by intro h; linarith
    field_simp
  · have : (P1.1 - P3.1) / 2 ≠ 0 := by linarith [show 0 < (P1.1 - P3.1) / 2 by linarith]
    rw [elongation, h2, h4, ea]
    show quotient _ _ = _
    rw [quotient_eq this]
    congr 1
    have : P1.1 - P3.1 ≠ 0 := by intro h; linarith
    field_simp
  · have : (P3.1 + P1.1) / 2 ≠ 0 := by
      intro h; apply hne; linarith
    rw [inverseAspectRatio, eR, ea]
    show quotient _ _ = _
    rw [quotient_eq this]
    congr 1
    field_simp

/-- A separatrix of positive width at positive radius: the aspect ratio and its inverse multiply to one, elongation and triangularity
are the means of their upper and lower values, the triangularities lie in `[-1, 1]`, the elongations are not negative, and the
geometric axis lies inside the rectangle. -/
theorem C49_consistent (p : Plasma K) (n : ℕ) {r0 r1 z0 z1 : K} (b : Box (p.sep n) r0 r1 z0 z1) (hr0 : 0 < r0) (hlt : r0 < r1) :
    ∃ (A I k ku kl d du dl : K) (C : K × K),
      aspectRatio p n = .ok A ∧ inverseAspectRatio p n = .ok I ∧ A * I = 1 ∧ 1 < A ∧
      elongation p n = .ok k ∧ elongationUpper p n = .ok ku ∧ elongationLower p n = .ok kl ∧ k = (ku + kl) / 2 ∧ 0 ≤ ku ∧ 0 ≤ kl ∧
      triangularity p n = .ok d ∧ triangularityUpper p n = .ok du ∧ triangularityLower p n = .ok dl ∧ d = (du + dl) / 2 ∧
      (-1 ≤ du ∧ du ≤ 1) ∧ (-1 ≤ dl ∧ dl ≤ 1) ∧ (-1 ≤ d ∧ d ≤ 1) ∧
      geometricAxis p n = .ok C ∧ (r0 < C.1 ∧ C.1 < r1) ∧ (z0 ≤ C.2 ∧ C.2 ≤ z1) := by
  obtain ⟨eR, ea, hA, hI⟩ := C49_formulas p n b
  obtain ⟨eA, ek⟩ := hA hlt
  have eI := hI (by linarith)
  obtain ⟨P1, P2, P3, P4, h1, h2, h3, h4, e1, e2, e3, e4, m1, m2, m3, m4⟩ := b.extremes
  have hw : 0 < r1 - r0 := by linarith
  have hw2 : (r1 - r0) / 2 ≠ 0 := by positivity
  have eC : geometricAxis p n = .ok (P3.1 + 1 / 2 * (P1.1 - P3.1), 1 / 2 * (P1.2 + P3.2)) := by
    rw [geometricAxis, h1, h3]; rfl
  have eZ : Zgeometric p n = .ok (1 / 2 * (P1.2 + P3.2)) := by rw [Zgeometric, eC]; rfl
  have eku : elongationUpper p n = .ok ((P2.2 - 1 / 2 * (P1.2 + P3.2)) / ((r1 - r0) / 2)) := by
    rw [elongationUpper, h2, eZ, ea]; exact quotient_eq hw2
  have ekl : elongationLower p n = .ok ((1 / 2 * (P1.2 + P3.2) - P4.2) / ((r1 - r0) / 2)) := by
    rw [elongationLower, h4, eZ, ea]; exact quotient_eq hw2
  have edu : triangularityUpper p n = .ok (((r0 + r1) / 2 - P2.1) / ((r1 - r0) / 2)) := by
    rw [triangularityUpper, h2, eR, ea]; exact quotient_eq hw2
  have edl : triangularityLower p n = .ok (((r0 + r1) / 2 - P4.1) / ((r1 - r0) / 2)) := by
    rw [triangularityLower, h4, eR, ea]; exact quotient_eq hw2
  have ed : triangularity p n = .ok (1 / 2 * (((r0 + r1) / 2 - P2.1) / ((r1 - r0) / 2) + ((r0 + r1) / 2 - P4.1) / ((r1 - r0) / 2))) := by
    rw [triangularity, edu, edl]; rfl
  have hp : 0 < (r1 - r0) / 2 := by positivity
  obtain ⟨a1, a2, a3, a4⟩ := b.inside _ m1
  obtain ⟨b1, b2, b3, b4⟩ := b.inside _ m2
  obtain ⟨c1, c2, c3, c4⟩ := b.inside _ m3
  obtain ⟨d1, d2, d3, d4⟩ := b.inside _ m4
  have du1 : -1 ≤ ((r0 + r1) / 2 - P2.1) / ((r1 - r0) / 2) := by rw [le_div_iff₀ hp]; linarith
  have du2 : ((r0 + r1) / 2 - P2.1) / ((r1 - r0) / 2) ≤ 1 := by rw [div_le_iff₀ hp]; linarith
  have dl1 : -1 ≤ ((r0 + r1) / 2 - P4.1) / ((r1 - r0) / 2) := by rw [le_div_iff₀ hp]; linarith
  have dl2 : ((r0 + r1) / 2 - P4.1) / ((r1 - r0) / 2) ≤ 1 := by rw [div_le_iff₀ hp]; linarith
  refine ⟨_, _, _, _, _, _, _, _, _, eA, eI, ?_, ?_, ek, eku, ekl, ?_, ?_, ?_, ed, edu, edl, ?_, ⟨du1, du2⟩, ⟨dl1, dl2⟩,
    ⟨by linarith, by linarith⟩, eC, ⟨?_, ?_⟩, ?_, ?_⟩
  · have : r0 + r1 ≠ 0 := by linarith
    have : r1 - r0 ≠ 0 := by linarith
    field_simp
  · rw [lt_div_iff₀ hw]; linarith
  · rw [e2, e4]
    have : r1 - r0 ≠ 0 := by linarith
    field_simp
    ring
  · exact div_nonneg (by linarith) hp.le
  · exact div_nonneg (by linarith) hp.le
  · ring
  · rw [e1, e3]; simp only; linarith
  · rw [e1, e3]; simp only; linarith
  · simp only; linarith
  · simp only; linarith

/-- Non-vacuity: a diamond of points with upper triangularity 1/2. -/
def diamond : Plasma ℚ :=
  { pi := 3, mu0 := 1, nx := 3, ny := 3, R := fun i => i + 1, Z := fun i => (i : ℚ) - 1, mask := none, Br := fun _ => 1, Bz := fun _ => 2,
    Btor := fun _ => 3, pressure := fun _ => 2, current := 5, sep := fun _ => [(3, 0), (3 / 2, 2), (1, 1), (2, -1)], axis := (2, 0),
    btorAt := fun _ _ => 3, fvac := 6 }

example : Box (diamond.sep 360) 1 3 (-1) 2 :=
  ⟨⟨(1, 1), by decide +kernel⟩, ⟨(3, 0), by decide +kernel⟩, ⟨(2, -1), by decide +kernel⟩, ⟨(3 / 2, 2), by decide +kernel⟩, by decide +kernel⟩

example : aspectRatio diamond 360 = .ok 2 ∧ elongation diamond 360 = .ok (3 / 2) ∧ triangularity diamond 360 = .ok (1 / 4) ∧
    geometricAxis diamond 360 = .ok (2, 1 / 2) := by decide +kernel

/-! ## Moving the plasma -/

/-- The separatrix of `p'` is that of `p` under the map `m`. -/
def SepMap (p p' : Plasma K) (m : K × K → K × K) : Prop := ∀ n, p'.sep n = (p.sep n).map m

/-- Lifting the separatrix by `h` changes no shape parameter but the height of the geometric axis, which is lifted by `h`. -/
theorem C49_shift (p p' : Plasma K) (h : K) (hm : SepMap p p' fun q => (q.1, q.2 + h)) (n : ℕ) :
    aspectRatio p' n = aspectRatio p n ∧ inverseAspectRatio p' n = inverseAspectRatio p n ∧
    Rgeometric p' n = Rgeometric p n ∧ minorRadius p' n = minorRadius p n ∧
    Zgeometric p' n = (Zgeometric p n).map (· + h) ∧
    elongation p' n = elongation p n ∧ elongationUpper p' n = elongationUpper p n ∧ elongationLower p' n = elongationLower p n ∧
    triangularityUpper p' n = triangularityUpper p n ∧ triangularityLower p' n = triangularityLower p n ∧
    triangularity p' n = triangularity p n := by
  have m1 : outermost (p'.sep n) = (outermost (p.sep n)).map fun q => (q.1, q.2 + h) := by
    rw [hm n]; exact first_map _ _ _ (fun a b => Iff.rfl) _
  have m2 : uppermost (p'.sep n) = (uppermost (p.sep n)).map fun q => (q.1, q.2 + h) := by
    rw [hm n]; exact first_map _ _ _ (fun a b => add_lt_add_iff_right h) _
  have m3 : innermost (p'.sep n) = (innermost (p.sep n)).map fun q => (q.1, q.2 + h) := by
    rw [hm n]; exact first_map _ _ _ (fun a b => Iff.rfl) _
  have m4 : lowest (p'.sep n) = (lowest (p.sep n)).map fun q => (q.1, q.2 + h) := by
    rw [hm n]; exact first_map _ _ _ (fun a b => by simp only [neg_lt_neg_iff, add_lt_add_iff_right]) _
  have eR : Rgeometric p' n = Rgeometric p n := by
    rw [Rgeometric, Rgeometric, geometricAxis, geometricAxis, m1, m3]
    cases outermost (p.sep n) <;> cases innermost (p.sep n) <;> rfl
  have ea : minorRadius p' n = minorRadius p n := by
    rw [minorRadius, minorRadius, m1, m3]
    cases outermost (p.sep n) <;> cases innermost (p.sep n) <;> rfl
  have eZ : Zgeometric p' n = (Zgeometric p n).map (· + h) := by
    rw [Zgeometric, Zgeometric, geometricAxis, geometricAxis, m1, m3]
    cases outermost (p.sep n) <;> cases innermost (p.sep n) <;> try rfl
    show Except.ok _ = Except.ok _
    congr 1
    simp only
    ring
  have etu : triangularityUpper p' n = triangularityUpper p n := by
    rw [triangularityUpper, triangularityUpper, m2, eR, ea]
    cases uppermost (p.sep n) <;> rfl
  have etl : triangularityLower p' n = triangularityLower p n := by
    rw [triangularityLower, triangularityLower, m4, eR, ea]
    cases lowest (p.sep n) <;> rfl
  refine ⟨by rw [aspectRatio, aspectRatio, eR, ea], by rw [inverseAspectRatio, inverseAspectRatio, eR, ea], eR, ea, eZ, ?_, ?_, ?_,
    etu, etl, by rw [triangularity, triangularity, etu, etl]⟩
  · rw [elongation, elongation, m2, m4, ea]
    cases uppermost (p.sep n) <;> cases lowest (p.sep n) <;> try rfl
    simp only [Except.map, bind, Except.bind, add_sub_add_right_eq_sub]
  · rw [elongationUpper, elongationUpper, m2, eZ, ea]
    cases uppermost (p.sep n) <;> cases Zgeometric p n <;> try rfl
    simp only [Except.map, bind, Except.bind, add_sub_add_right_eq_sub]
  · rw [elongationLower, elongationLower, m4, eZ, ea]
    cases lowest (p.sep n) <;> cases Zgeometric p n <;> try rfl
    simp only [Except.map, bind, Except.bind, add_sub_add_right_eq_sub]

example : SepMap diamond { diamond with sep := fun _ => [(3, 10), (3 / 2, 12), (1, 11), (2, 9)] } fun q => (q.1, q.2 + 10) := by
  intro n; norm_num [diamond]

/-- Turning the separatrix upside down exchanges upper and lower values. -/
theorem C49_mirror (p p' : Plasma K) (hm : SepMap p p' fun q => (q.1, -q.2)) (n : ℕ) :
    aspectRatio p' n = aspectRatio p n ∧ minorRadius p' n = minorRadius p n ∧ elongation p' n = elongation p n ∧
    Zgeometric p' n = (Zgeometric p n).map (- ·) ∧
    elongationUpper p' n = elongationLower p n ∧ elongationLower p' n = elongationUpper p n ∧
    triangularityUpper p' n = triangularityLower p n ∧ triangularityLower p' n = triangularityUpper p n := by
  have m1 : outermost (p'.sep n) = (outermost (p.sep n)).map fun q => (q.1, -q.2) := by
    rw [hm n]; exact first_map _ _ _ (fun a b => Iff.rfl) _
  have m2 : uppermost (p'.sep n) = (lowest (p.sep n)).map fun q => (q.1, -q.2) := by
    rw [hm n]; exact first_map _ _ _ (fun a b => Iff.rfl) _
  have m3 : innermost (p'.sep n) = (innermost (p.sep n)).map fun q => (q.1, -q.2) := by
    rw [hm n]; exact first_map _ _ _ (fun a b => Iff.rfl) _
  have m4 : lowest (p'.sep n) = (uppermost (p.sep n)).map fun q => (q.1, -q.2) := by
    rw [hm n]; exact first_map _ _ _ (fun a b => by simp) _
  have eR : Rgeometric p' n = Rgeometric p n := by
    rw [Rgeometric, Rgeometric, geometricAxis, geometricAxis, m1, m3]
    cases outermost (p.sep n) <;> cases innermost (p.sep n) <;> rfl
  have ea : minorRadius p' n = minorRadius p n := by
    rw [minorRadius, minorRadius, m1, m3]
    cases outermost (p.sep n) <;> cases innermost (p.sep n) <;> rfl
  have eZ : Zgeometric p' n = (Zgeometric p n).map (- ·) := by
    rw [Zgeometric, Zgeometric, geometricAxis, geometricAxis, m1, m3]
    cases outermost (p.sep n) <;> cases innermost (p.sep n) <;> try rfl
    show Except.ok _ = Except.ok _
    congr 1
    simp only
    ring
  refine ⟨by rw [aspectRatio, aspectRatio, eR, ea], ea, ?_, eZ, ?_, ?_, ?_, ?_⟩
  · rw [elongation, elongation, m2, m4, ea]
    cases h1 : lowest (p.sep n) with
    | error e =>
      have : p.sep n = [] := by
        cases hs : p.sep n with
        | nil => rfl
        | cons a l => rw [hs] at h1; cases h1
      rw [this] at h1 ⊢
      cases h1; rfl
    | ok a =>
      cases uppermost (p.sep n) with
      | error e => rfl
      | ok b =>
        show (minorRadius p n >>= fun a' => quotient (1 / 2 * (-a.2 - -b.2)) a') = (minorRadius p n >>= fun a' => quotient (1 / 2 * (b.2 - a.2)) a')
        rw [show -a.2 - -b.2 = b.2 - a.2 by ring]
  · rw [elongationUpper, elongationLower, m2, eZ, ea]
    cases lowest (p.sep n) <;> cases Zgeometric p n <;> try rfl
    simp only [Except.map, bind, Except.bind]
    rw [neg_sub_neg]
  · rw [elongationLower, elongationUpper, m4, eZ, ea]
    cases uppermost (p.sep n) <;> cases Zgeometric p n <;> try rfl
    simp only [Except.map, bind, Except.bind]
    rw [neg_sub_neg]
  · rw [triangularityUpper, triangularityLower, m2, eR, ea]
    cases lowest (p.sep n) <;> rfl
  · rw [triangularityLower, triangularityUpper, m4, eR, ea]
    cases uppermost (p.sep n) <;> rfl

example : SepMap diamond { diamond with sep := fun _ => [(3, 0), (3 / 2, -2), (1, -1), (2, 1)] } fun q => (q.1, -q.2) := by
  intro n; norm_num [diamond]

/-- A separatrix of another size has the same ratios. -/
theorem C49_scale (p p' : Plasma K) {s : K} (hs : 0 < s) (hm : SepMap p p' fun q => (s * q.1, s * q.2)) (n : ℕ) :
    Rgeometric p' n = (Rgeometric p n).map (s * ·) ∧ Zgeometric p' n = (Zgeometric p n).map (s * ·) ∧
    minorRadius p' n = (minorRadius p n).map (s * ·) ∧
    aspectRatio p' n = aspectRatio p n ∧ inverseAspectRatio p' n = inverseAspectRatio p n ∧
    elongation p' n = elongation p n ∧ elongationUpper p' n = elongationUpper p n ∧ elongationLower p' n = elongationLower p n ∧
    triangularityUpper p' n = triangularityUpper p n ∧ triangularityLower p' n = triangularityLower p n ∧
    triangularity p' n = triangularity p n := by
  have hne : s ≠ 0 := hs.ne'
  have m1 : outermost (p'.sep n) = (outermost (p.sep n)).map fun q => (s * q.1, s * q.2) := by
    rw [hm n]; exact first_map _ _ _ (fun a b => mul_lt_mul_iff_right₀ hs) _
  have m2 : uppermost (p'.sep n) = (uppermost (p.sep n)).map fun q => (s * q.1, s * q.2) := by
    rw [hm n]; exact first_map _ _ _ (fun a b => mul_lt_mul_iff_right₀ hs) _
  have m3 : innermost (p'.sep n) = (innermost (p.sep n)).map fun q => (s * q.1, s * q.2) := by
    rw [hm n]; exact first_map _ _ _ (fun a b => by simp only [neg_lt_neg_iff]; exact mul_lt_mul_iff_right₀ hs) _
  have m4 : lowest (p'.sep n) = (lowest (p.sep n)).map fun q => (s * q.1, s * q.2) := by
    rw [hm n]; exact first_map _ _ _ (fun a b => by simp only [neg_lt_neg_iff]; exact mul_lt_mul_iff_right₀ hs) _
  have eR : Rgeometric p' n = (Rgeometric p n).map (s * ·) := by
    rw [Rgeometric, Rgeometric, geometricAxis, geometricAxis, m1, m3]
    cases outermost (p.sep n) <;> cases innermost (p.sep n) <;> try rfl
    show Except.ok _ = Except.ok _
    congr 1
    simp only
    ring
  have ea : minorRadius p' n = (minorRadius p n).map (s * ·) := by
    rw [minorRadius, minorRadius, m1, m3]
    cases outermost (p.sep n) <;> cases innermost (p.sep n) <;> try rfl
    show Except.ok _ = Except.ok _
    congr 1
    simp only
    ring
  have eZ : Zgeometric p' n = (Zgeometric p n).map (s * ·) := by
    rw [Zgeometric, Zgeometric, geometricAxis, geometricAxis, m1, m3]
    cases outermost (p.sep n) <;> cases innermost (p.sep n) <;> try rfl
    show Except.ok _ = Except.ok _
    congr 1
    simp only
    ring
  have etu : triangularityUpper p' n = triangularityUpper p n := by
    rw [triangularityUpper, triangularityUpper, m2, eR, ea]
    cases uppermost (p.sep n) <;> cases Rgeometric p n <;> cases minorRadius p n <;> try rfl
    simp only [Except.map, bind, Except.bind, ← mul_sub]
    exact quotient_scale hne _ _
  have etl : triangularityLower p' n = triangularityLower p n := by
    rw [triangularityLower, triangularityLower, m4, eR, ea]
    cases lowest (p.sep n) <;> cases Rgeometric p n <;> cases minorRadius p n <;> try rfl
    simp only [Except.map, bind, Except.bind, ← mul_sub]
    exact quotient_scale hne _ _
  refine ⟨eR, eZ, ea, ?_, ?_, ?_, ?_, ?_, etu, etl, by rw [triangularity, triangularity, etu, etl]⟩
  · rw [aspectRatio, aspectRatio, eR, ea]
    cases Rgeometric p n <;> cases minorRadius p n <;> try rfl
    exact quotient_scale hne _ _
  · rw [inverseAspectRatio, inverseAspectRatio, eR, ea]
    cases minorRadius p n <;> cases Rgeometric p n <;> try rfl
    exact quotient_scale hne _ _
  · rw [elongation, elongation, m2, m4, ea]
    cases uppermost (p.sep n) <;> cases lowest (p.sep n) <;> cases minorRadius p n <;> try rfl
    simp only [Except.map, bind, Except.bind, ← mul_sub]
    rw [mul_left_comm]
    exact quotient_scale hne _ _
  · rw [elongationUpper, elongationUpper, m2, eZ, ea]
    cases uppermost (p.sep n) <;> cases Zgeometric p n <;> cases minorRadius p n <;> try rfl
    simp only [Except.map, bind, Except.bind, ← mul_sub]
    exact quotient_scale hne _ _
  · rw [elongationLower, elongationLower, m4, eZ, ea]
    cases lowest (p.sep n) <;> cases Zgeometric p n <;> cases minorRadius p n <;> try rfl
    simp only [Except.map, bind, Except.bind, ← mul_sub]
    exact quotient_scale hne _ _

example : SepMap diamond { diamond with sep := fun _ => [(6, 0), (3, 4), (2, 2), (4, -2)] } fun q => (2 * q.1, 2 * q.2) := by
  intro n; norm_num [diamond]

/-! ## The order of the points -/

theorem Box.of_mem_iff {l l' : List (K × K)} {r0 r1 z0 z1 : K} (b : Box l r0 r1 z0 z1) (h : ∀ q, q ∈ l' ↔ q ∈ l) :
    Box l' r0 r1 z0 z1 := by
  obtain ⟨⟨a, ha, ea⟩, ⟨b, hb, eb⟩, ⟨c, hc, ec⟩, ⟨d, hd, ed⟩, hi⟩ := b
  exact ⟨⟨a, (h a).mpr ha, ea⟩, ⟨b, (h b).mpr hb, eb⟩, ⟨c, (h c).mpr hc, ec⟩, ⟨d, (h d).mpr hd, ed⟩, fun q hq => hi q ((h q).mp hq)⟩

/-- The major and minor radius, the aspect ratio and the elongation do not depend on the order in which the separatrix points are
listed nor on repeated points. -/
theorem C49_order (p p' : Plasma K) (n : ℕ) {r0 r1 z0 z1 : K} (b : Box (p.sep n) r0 r1 z0 z1) (hlt : r0 < r1)
    (hm : ∀ q, q ∈ p'.sep n ↔ q ∈ p.sep n) :
    Rgeometric p' n = Rgeometric p n ∧ minorRadius p' n = minorRadius p n ∧ aspectRatio p' n = aspectRatio p n ∧
    elongation p' n = elongation p n := by
  obtain ⟨a1, a2, a3, _⟩ := C49_formulas p n b
  obtain ⟨b1, b2, b3, _⟩ := C49_formulas p' n (b.of_mem_iff hm)
  rw [a1, a2, (a3 hlt).1, (a3 hlt).2, b1, b2, (b3 hlt).1, (b3 hlt).2]
  exact ⟨rfl, rfl, rfl, rfl⟩

example : ∀ q, q ∈ ({ diamond with sep := fun _ => [(1, 1), (2, -1), (3, 0), (3 / 2, 2)] } : Plasma ℚ).sep 360 ↔ q ∈ diamond.sep 360 := by
  intro q
  simp only [diamond, List.mem_cons, List.not_mem_nil, or_false]
  tauto

/-- The triangularity does: with two points at the greatest height the first one listed decides. -/
theorem C49_triangularity_order :
    ∃ p p' : Plasma ℚ, (p'.sep 4).Perm (p.sep 4) ∧ triangularityUpper p 4 = .ok 1 ∧ triangularityUpper p' 4 = .ok (-1) :=
  ⟨{ diamond with sep := fun _ => [(1, 1), (3, 1), (3, -1), (1, -1)] }, { diamond with sep := fun _ => [(3, 1), (3, -1), (1, -1), (1, 1)] },
    by decide +kernel, by decide +kernel, by decide +kernel⟩

/-! ## C87: the Shafranov shift -/

/-- The Shafranov shift leads from the geometric axis found with 360 points to the magnetic axis, and its radial part is measured from the
middle of the separatrix. Partial: for the default number of points; a different number given to `shafranovShift` is not used, see
`C87_npoints_ignored`. -/
theorem C87_joins_axes_partial (p : Plasma K) (n : ℕ) {s : K × K} (h : shafranovShift p n = .ok s) :
    (∃ c, geometricAxis p 360 = .ok c ∧ c.1 + s.1 = p.axis.1 ∧ c.2 + s.2 = p.axis.2) ∧
    ∀ r0 r1 z0 z1, Box (p.sep 360) r0 r1 z0 z1 → (r0 + r1) / 2 + s.1 = p.axis.1 := by
  have key : ∃ c, geometricAxis p 360 = .ok c ∧ c.1 + s.1 = p.axis.1 ∧ c.2 + s.2 = p.axis.2 := by
    rw [shafranovShift, Rgeometric, Zgeometric] at h
    cases hc : geometricAxis p 360 with
    | error e => rw [hc] at h; cases h
    | ok c =>
      rw [hc] at h
      cases h
      exact ⟨c, rfl, by simp, by simp⟩
  refine ⟨key, fun r0 r1 z0 z1 b => ?_⟩
  obtain ⟨c, hc, h1, -⟩ := key
  have hR := (C49_formulas p 360 b).1
  rw [Rgeometric, hc] at hR
  rw [← h1, show c.1 = (r0 + r1) / 2 from Except.ok.inj hR]

example : ∃ s, shafranovShift diamond 360 = .ok s := ⟨(diamond.axis.1 - 2, diamond.axis.2 - 1 / 2), by decide +kernel⟩

/-- The shift is found whenever the separatrix has points, and moving the magnetic axis alone moves the shift by the same amount. -/
theorem C87_follows_axis (p : Plasma K) (n : ℕ) (hne : p.sep 360 ≠ []) (a : K × K) :
    ∃ s, shafranovShift p n = .ok s ∧
      shafranovShift { p with axis := (p.axis.1 + a.1, p.axis.2 + a.2) } n = .ok (s.1 + a.1, s.2 + a.2) := by
  obtain ⟨P1, h1⟩ := first_exists (fun q : K × K => q.1) hne
  obtain ⟨P3, h3⟩ := first_exists (fun q : K × K => -q.1) hne
  have hc : geometricAxis p 360 = .ok (P3.1 + 1 / 2 * (P1.1 - P3.1), 1 / 2 * (P1.2 + P3.2)) := by
    rw [geometricAxis, outermost, innermost, h1, h3]; rfl
  have hc' : geometricAxis { p with axis := (p.axis.1 + a.1, p.axis.2 + a.2) } 360 = geometricAxis p 360 := rfl
  refine ⟨_, by rw [shafranovShift, Rgeometric, Zgeometric, hc]; rfl, ?_⟩
  rw [shafranovShift, Rgeometric, Zgeometric, hc', hc]
  simp only [bind, Except.bind, Except.ok.injEq, Prod.mk.injEq]
  exact ⟨add_sub_right_comm _ _ _, add_sub_right_comm _ _ _⟩

example : diamond.sep 360 ≠ [] := by decide +kernel

/-- **C87 is false for other numbers of points:** the number given to `shafranovShift` has no effect, so with 4 points the shift does not
lead from the geometric axis found with 4 points to the magnetic axis. -/
theorem C87_npoints_ignored : (∀ (p : Plasma K) (n m : ℕ), shafranovShift p n = shafranovShift p m) ∧
    ∃ (p : Plasma ℚ) (c s : ℚ × ℚ), geometricAxis p 4 = .ok c ∧ shafranovShift p 4 = .ok s ∧ c.1 + s.1 ≠ p.axis.1 :=
  ⟨fun _ _ _ => rfl, { diamond with sep := fun n => if n = 360 then diamond.sep 360 else [(1, 0), (5, 0)] }, (3, 0),
    (diamond.axis.1 - 2, diamond.axis.2 - 1 / 2), by decide +kernel, by decide +kernel, by decide +kernel⟩

end FreeGS.Global
