import Verif.Model.Filaments
import Mathlib.Data.List.GetD
import Mathlib.Algebra.Order.Archimedean.Basic
import Mathlib.Analysis.SpecificLimits.Basic
import Mathlib.Tactic.Linarith

/-!
# C89: filaments of a coil cross section
-/

set_option linter.unusedSectionVars false

namespace FreeGS.Filaments

theorem mem_inside {contains : ℝ × ℝ → Bool} {shape : List (ℝ × ℝ)} {d : ℝ} {p : ℕ × ℝ × ℝ} :
    p ∈ inside contains shape d ↔ contains p.2 = true ∧
      p.1 < ⌈(highest (shape.map Prod.snd) - lowest (shape.map Prod.snd)) / d⌉₊ ∧
      p.2.2 = lowest (shape.map Prod.snd) + p.1 * d ∧
      ∃ j < ⌈(highest (shape.map Prod.fst) - lowest (shape.map Prod.fst)) / d⌉₊,
        p.2.1 = lowest (shape.map Prod.fst) + j * d + if p.1 % 2 = 1 then 1 / 2 * d else 0 := by
  simp only [inside, List.mem_filter, List.mem_flatMap, List.mem_range, row, List.mem_map, arange, List.length_map, List.length_range]
  constructor
  · rintro ⟨⟨i, hi, r, ⟨j, hj, rfl⟩, rfl⟩, hc⟩
    refine ⟨hc, hi, ?_, j, hj, rfl⟩
    rw [List.getD_eq_getElem _ _ (by simpa using hi)]
    simp
  · rintro ⟨hc, hi, hz, j, hj, hr⟩
    refine ⟨⟨p.1, hi, _, ⟨j, hj, rfl⟩, ?_⟩, hc⟩
    rw [List.getD_eq_getElem _ _ (by simpa using hi)]
    simp only [List.getElem_map, List.getElem_range]
    rw [← hr, ← hz]

/-- All points of the square with lower left corner `(r, z)` and side `w` are inside, and the square is within the bounding box. -/
structure HasSquare (contains : ℝ × ℝ → Bool) (shape : List (ℝ × ℝ)) (r z w : ℝ) : Prop where
  pos : 0 < w
  mem : ∀ x y, r ≤ x → x ≤ r + w → z ≤ y → y ≤ z + w → contains (x, y) = true
  left : lowest (shape.map Prod.fst) ≤ r
  right : r + w ≤ highest (shape.map Prod.fst)
  bottom : lowest (shape.map Prod.snd) ≤ z
  top : z + w ≤ highest (shape.map Prod.snd)

/-- With a spacing that is small enough there are enough points inside. -/
theorem inside_length {contains : ℝ × ℝ → Bool} {shape : List (ℝ × ℝ)} {r z w : ℝ} (h : HasSquare contains shape r z w) (N : ℕ) {d : ℝ}
    (hd : 0 < d) (hw : (N + 1) * d < w) : N ≤ (inside contains shape d).length := by
  obtain ⟨_, hmem, hl, hr, hb, ht⟩ := h
  set rmin := lowest (shape.map Prod.fst)
  set rmax := highest (shape.map Prod.fst)
  set zmin := lowest (shape.map Prod.snd)
  set zmax := highest (shape.map Prod.snd)
  have hN : (0 : ℝ) ≤ N := Nat.cast_nonneg N
  set i := ⌈(z - zmin) / d⌉₊ with hi
  have hi1 : (z - zmin) / d ≤ i := Nat.le_ceil _
  have hi2 : (i : ℝ) < (z - zmin) / d + 1 := Nat.ceil_lt_add_one (div_nonneg (by linarith) hd.le)
  rw [div_le_iff₀ hd] at hi1
  rw [← sub_lt_iff_lt_add, lt_div_iff₀ hd] at hi2
  set off : ℝ := if i % 2 = 1 then 1 / 2 * d else 0 with hoff
  have ho : 0 ≤ off ∧ off ≤ d := by
    rw [hoff]; split_ifs
    · constructor <;> linarith
    · exact ⟨le_refl _, hd.le⟩
  set j0 := ⌈(r - rmin) / d⌉₊ with hj
  have hj1 : (r - rmin) / d ≤ j0 := Nat.le_ceil _
  have hj2 : (j0 : ℝ) < (r - rmin) / d + 1 := Nat.ceil_lt_add_one (div_nonneg (by linarith) hd.le)
  rw [div_le_iff₀ hd] at hj1
  rw [← sub_lt_iff_lt_add, lt_div_iff₀ hd] at hj2
  have hsub : ∀ p ∈ (List.range N).map (fun k : ℕ => (i, rmin + ((j0 + k : ℕ) : ℝ) * d + off, zmin + i * d)),
      p ∈ inside contains shape d := by
    intro p hp
    simp only [List.mem_map, List.mem_range] at hp
    obtain ⟨k, hk, rfl⟩ := hp
    have hk' : (k : ℝ) + 1 ≤ N := by exact_mod_cast hk
    have hkd : ((k : ℝ) + 1) * d ≤ N * d := mul_le_mul_of_nonneg_right hk' hd.le
    have hk0 : 0 ≤ (k : ℝ) * d := by positivity
    have hNd : 0 ≤ (N : ℝ) * d := by positivity
    rw [mem_inside]
    refine ⟨hmem _ _ ?_ ?_ ?_ ?_, ?_, rfl, j0 + k, ?_, ?_⟩
    · push_cast; nlinarith [ho.1]
    · push_cast; nlinarith [ho.2]
    · linarith
    · nlinarith
    · rw [Nat.lt_ceil, lt_div_iff₀ hd]
      show (i : ℝ) * d < zmax - zmin
      nlinarith
    · rw [Nat.lt_ceil, lt_div_iff₀ hd]
      show ((j0 + k : ℕ) : ℝ) * d < rmax - rmin
      push_cast; nlinarith
    · rfl
  have hnd : ((List.range N).map fun k : ℕ => (i, rmin + ((j0 + k : ℕ) : ℝ) * d + off, zmin + i * d)).Nodup := by
    refine List.Nodup.map ?_ List.nodup_range
    intro a b hab
    simp only [Prod.mk.injEq, true_and, and_true, add_left_inj, add_right_inj, mul_eq_mul_right_iff, hd.ne', or_false] at hab
    have : j0 + a = j0 + b := by exact_mod_cast hab
    omega
  have := (List.subperm_of_subset hnd hsub).length_le
  simpa using this

/-! ## The loop over spacings -/

/-- What the loop has collected: the last number is large enough, the ones before it are not, all spacings are positive and at most `d0`. -/
structure Collected (N : ℕ) (d0 : ℝ) (data : List (ℕ × ℝ)) : Prop where
  ne : data ≠ []
  enough : ∀ p ∈ data.getLast?, N ≤ p.1
  before : ∀ p ∈ data.dropLast, p.1 < N
  spacing : ∀ p ∈ data, 0 < p.2 ∧ p.2 ≤ d0

theorem scan_spec (count : ℝ → ℕ) (N : ℕ) (hN : 1 ≤ N) (δ d0 : ℝ) (hδ : 0 < δ) (hc : ∀ d, 0 < d → d ≤ δ → N ≤ count d) (h0 : 0 < d0) :
    ∃ F data, Collected N d0 data ∧ (∀ p ∈ data, p.1 = count p.2) ∧ ∀ fuel, F ≤ fuel → scan count N fuel d0 0 [] = some data := by
  have key : ∀ k : ℕ, ∀ (d : ℝ) (n : ℕ) (acc : List (ℕ × ℝ)), 0 < d → d ≤ d0 → d * (995 / 1000) ^ k ≤ δ → n < N →
      (∀ p ∈ acc, p.1 < N ∧ 0 < p.2 ∧ p.2 ≤ d0 ∧ p.1 = count p.2) →
      ∃ F data, Collected N d0 data ∧ (∀ p ∈ data, p.1 = count p.2) ∧ ∀ fuel, F ≤ fuel → scan count N fuel d n acc = some data := by
    intro k
    induction k with
    | zero =>
      intro d n acc hd hd0 hk hn hacc
      have hcd : N ≤ count d := hc d hd (by simpa using hk)
      refine ⟨1, acc ++ [(count d, d)], ⟨by simp, ?_, ?_, ?_⟩, ?_, ?_⟩
      · intro p hp; simp at hp; rw [← hp]; exact hcd
      · intro p hp; simp at hp; exact (hacc p hp).1
      · intro p hp
        rcases List.mem_append.mp hp with hp | hp
        · exact ⟨(hacc p hp).2.1, (hacc p hp).2.2.1⟩
        · rw [List.mem_singleton.mp hp]; exact ⟨hd, hd0⟩
      · intro p hp
        rcases List.mem_append.mp hp with hp | hp
        · exact (hacc p hp).2.2.2
        · rw [List.mem_singleton.mp hp]
      · intro fuel hf
        obtain ⟨m, rfl⟩ : ∃ m, fuel = m + 1 := ⟨fuel - 1, by omega⟩
        rw [scan, if_pos hn]
        show scan count N m _ _ _ = _
        rw [scan.eq_def]; exact if_neg (by omega)
    | succ k ih =>
      intro d n acc hd hd0 hk hn hacc
      by_cases hcd : N ≤ count d
      · refine ⟨1, acc ++ [(count d, d)], ⟨by simp, ?_, ?_, ?_⟩, ?_, ?_⟩
        · intro p hp; simp at hp; rw [← hp]; exact hcd
        · intro p hp; simp at hp; exact (hacc p hp).1
        · intro p hp
          rcases List.mem_append.mp hp with hp | hp
          · exact ⟨(hacc p hp).2.1, (hacc p hp).2.2.1⟩
          · rw [List.mem_singleton.mp hp]; exact ⟨hd, hd0⟩
        · intro p hp
          rcases List.mem_append.mp hp with hp | hp
          · exact (hacc p hp).2.2.2
          · rw [List.mem_singleton.mp hp]
        · intro fuel hf
          obtain ⟨m, rfl⟩ : ∃ m, fuel = m + 1 := ⟨fuel - 1, by omega⟩
          rw [scan, if_pos hn]
          show scan count N m _ _ _ = _
          rw [scan.eq_def]; exact if_neg (by omega)
      · rw [not_le] at hcd
        obtain ⟨F, data, h1, h2, h3⟩ := ih (d * (995 / 1000)) (count d) (acc ++ [(count d, d)]) (by positivity) (by nlinarith)
          (by rw [mul_assoc, ← pow_succ']; exact hk) hcd (by
            intro p hp
            rcases List.mem_append.mp hp with hp | hp
            · exact hacc p hp
            · rw [List.mem_singleton.mp hp]; exact ⟨hcd, hd, hd0, rfl⟩)
        refine ⟨F + 1, data, h1, h2, fun fuel hf => ?_⟩
        obtain ⟨m, rfl⟩ : ∃ m, fuel = m + 1 := ⟨fuel - 1, by omega⟩
        rw [scan, if_pos hn]
        exact h3 m (by omega)
  obtain ⟨k, hk⟩ := exists_pow_lt_of_lt_one (show 0 < δ / d0 by positivity) (show (995 / 1000 : ℝ) < 1 by norm_num)
  rw [lt_div_iff₀ h0] at hk
  exact key k d0 0 [] h0 (le_refl _) (by linarith) (by omega) (by simp)

/-- An interpolation that stays between the smallest and the largest of the spacings. -/
def Between (interp : ℝ → List (ℕ × ℝ) → ℝ) : Prop :=
  ∀ x data, data ≠ [] → (∃ p ∈ data, p.2 ≤ interp x data) ∧ ∃ p ∈ data, interp x data ≤ p.2

/-- **C89.** For every outline with an area, a square inside and a wanted number of at least one, the search for a spacing ends: from some
number of rounds on the outcome is the same. The points it is made from are those inside with some spacing `0 < d ≤ sqrt (A / N)`: either
the call raises `ValueError`, or the filaments are all of these points. -/
theorem C89_ends (contains : ℝ × ℝ → Bool) (interp : ℝ → List (ℕ × ℝ) → ℝ) (hi : Between interp) (shape : List (ℝ × ℝ)) (N : ℕ) (hN : 1 ≤ N)
    (hA : Polygons.area shape ≠ 0) {r z w : ℝ} (hsq : HasSquare contains shape r z w) :
    ∃ F d, 0 < d ∧ d ≤ Real.sqrt (|Polygons.area shape| / N) ∧ ∀ fuel, F ≤ fuel → populate contains interp shape N fuel =
      if (∃ p ∈ inside contains shape d, p.1 % 2 = 0) ∧ (∃ p ∈ inside contains shape d, p.1 % 2 = 1) then some (.error .value)
      else some (.ok ((inside contains shape d).map Prod.snd)) := by
  have hNpos : (0 : ℝ) < N := by exact_mod_cast hN
  have hd0 : 0 < Real.sqrt (|Polygons.area shape| / N) := Real.sqrt_pos.mpr (div_pos (abs_pos.mpr hA) hNpos)
  obtain ⟨F, data, h1, -, h3⟩ := scan_spec (fun d => (inside contains shape d).length) N hN (w / (N + 2)) _ (div_pos hsq.pos (by positivity))
    (fun d hd hle => inside_length hsq N hd (by
      rw [le_div_iff₀ (by positivity)] at hle
      nlinarith)) hd0
  obtain ⟨⟨p, hp, hp2⟩, q, hq, hq2⟩ := hi (N * (11 / 10)) data h1.ne
  refine ⟨F, interp (N * (11 / 10)) data, lt_of_lt_of_le (h1.spacing p hp).1 hp2, le_trans hq2 (h1.spacing q hq).2, fun fuel hf => ?_⟩
  rw [populate]
  simp only [hd0.ne', if_false]
  rw [h3 fuel hf]
  cases data with
  | nil => exact absurd rfl h1.ne
  | cons x xs =>
    simp only
    set pts := inside contains shape (interp (N * (11 / 10)) (x :: xs))
    have hiff : ((pts.any fun p => p.1 % 2 = 0) && (pts.any fun p => p.1 % 2 = 1)) = true ↔
        (∃ p ∈ pts, p.1 % 2 = 0) ∧ ∃ p ∈ pts, p.1 % 2 = 1 := by
      rw [Bool.and_eq_true, List.any_eq_true, List.any_eq_true]
      simp only [decide_eq_true_eq]
    by_cases hb : (∃ p ∈ pts, p.1 % 2 = 0) ∧ ∃ p ∈ pts, p.1 % 2 = 1
    · rw [if_pos hb, if_pos (hiff.mpr hb)]
    · rw [if_neg hb, if_neg fun hh => hb (hiff.mp hh)]

/-- **C89.** If filaments are found they are all inside the outline, no two at the same place, equally spaced in rows of the same kind: all in
the rows that are shifted or all in those that are not. Missing: outlines for which both kinds of rows have points (`C89_fails`), and any
statement on the number of filaments. -/
theorem C89_inside_partial (contains : ℝ × ℝ → Bool) (interp : ℝ → List (ℕ × ℝ) → ℝ) (hi : Between interp) (shape : List (ℝ × ℝ)) (N : ℕ)
    (hN : 1 ≤ N) (hA : Polygons.area shape ≠ 0) {r z w : ℝ} (hsq : HasSquare contains shape r z w) (fuel : ℕ) (l : List (ℝ × ℝ))
    (hfuel : ∀ m ≥ fuel, populate contains interp shape N m = some (.ok l)) :
    (∀ q ∈ l, contains q = true) ∧ l.Nodup ∧ ∃ d > 0, ∃ k : ℕ, k < 2 ∧ ∀ q ∈ l, ∃ i j : ℕ,
      q = (lowest (shape.map Prod.fst) + (j + (k : ℝ) / 2) * d, lowest (shape.map Prod.snd) + (2 * i + k) * d) := by
  obtain ⟨F, d, hd, -, h⟩ := C89_ends contains interp hi shape N hN hA hsq
  have h' := h (max F fuel) (le_max_left _ _)
  rw [hfuel _ (le_max_right _ _)] at h'
  by_cases hb : (∃ p ∈ inside contains shape d, p.1 % 2 = 0) ∧ ∃ p ∈ inside contains shape d, p.1 % 2 = 1
  · rw [if_pos hb] at h'; simp at h'
  rw [if_neg hb] at h'
  simp only [Option.some.injEq, Except.ok.injEq] at h'
  subst h'
  have hrow : ∀ p ∈ inside contains shape d, p.2.2 = lowest (shape.map Prod.snd) + p.1 * d := fun p hp => (mem_inside.mp hp).2.2.1
  refine ⟨?_, ?_, d, hd, ?_⟩
  · intro q hq
    obtain ⟨p, hp, rfl⟩ := List.mem_map.mp hq
    exact (mem_inside.mp hp).1
  · have hnd : (inside contains shape d).Nodup := by
      rw [inside]
      refine List.Nodup.filter _ ?_
      rw [List.nodup_flatMap]
      refine ⟨fun i _ => ?_, ?_⟩
      · rw [row]
        refine List.Nodup.map ?_ ?_
        · intro a b hab
          simpa using hab
        · rw [arange]
          refine List.Nodup.map ?_ List.nodup_range
          intro a b hab
          simpa [hd.ne'] using hab
      · refine List.Nodup.pairwise_of_forall_ne List.nodup_range fun a _ b _ hab => ?_
        rw [Function.onFun, List.disjoint_left]
        intro p hpa hpb
        simp only [row, List.mem_map] at hpa hpb
        obtain ⟨_, _, rfl⟩ := hpa
        obtain ⟨_, _, h2⟩ := hpb
        simp only [Prod.mk.injEq] at h2
        exact hab h2.1.symm
    refine (List.nodup_map_iff_inj_on hnd).mpr fun p hp q hq hpq => ?_
    have e1 := hrow p hp
    have e2 := hrow q hq
    rw [hpq, e2, add_right_inj, mul_eq_mul_right_iff] at e1
    have e3 : p.1 = q.1 := by
      rcases e1 with e1 | e1
      · exact_mod_cast e1.symm
      · exact absurd e1 hd.ne'
    exact Prod.ext e3 hpq
  · have hk : ∃ k : ℕ, k < 2 ∧ ∀ p ∈ inside contains shape d, p.1 % 2 = k := by
      by_cases h0 : ∃ p ∈ inside contains shape d, p.1 % 2 = 0
      · refine ⟨0, by norm_num, fun p hp => ?_⟩
        by_contra hne
        exact hb ⟨h0, p, hp, by omega⟩
      · refine ⟨1, by norm_num, fun p hp => ?_⟩
        by_contra hne
        exact h0 ⟨p, hp, by omega⟩
    obtain ⟨k, hk2, hk⟩ := hk
    refine ⟨k, hk2, fun q hq => ?_⟩
    obtain ⟨p, hp, rfl⟩ := List.mem_map.mp hq
    obtain ⟨-, -, h2, j, -, h3⟩ := mem_inside.mp hp
    have hpk := hk p hp
    have hp1 : (p.1 : ℝ) = 2 * (p.1 / 2 : ℕ) + k := by
      have : p.1 = 2 * (p.1 / 2) + k := by omega
      exact_mod_cast this
    refine ⟨p.1 / 2, j, Prod.ext ?_ ?_⟩
    · rw [h3, hpk]
      interval_cases k
      · simp
      · simp; ring
    · rw [h2, hp1]

/-- The outline of the rectangle `[a, b] × [c, e]`. -/
def rectangle (a b c e : ℝ) : List (ℝ × ℝ) := [(a, c), (a, e), (b, e), (b, c)]

/-- **C89 is false for ordinary coils:** for a rectangle with sides longer than twice `sqrt (A / N)`, and any test for which the points inside
the rectangle but not on its outline are inside, the call raises `ValueError`. -/
theorem C89_fails (a b c e : ℝ) (contains : ℝ × ℝ → Bool) (hc : ∀ x y, a < x → x < b → c < y → y < e → contains (x, y) = true)
    (interp : ℝ → List (ℕ × ℝ) → ℝ) (hi : Between interp) (N : ℕ) (hN : 1 ≤ N)
    (h1 : 2 * Real.sqrt ((b - a) * (e - c) / N) < b - a) (h2 : 2 * Real.sqrt ((b - a) * (e - c) / N) < e - c) :
    ∃ F, ∀ fuel, F ≤ fuel → populate contains interp (rectangle a b c e) N fuel = some (.error .value) := by
  have hs := Real.sqrt_nonneg ((b - a) * (e - c) / N)
  have hab : a < b := by linarith
  have hce : c < e := by linarith
  have hr : (rectangle a b c e).map Prod.fst = [a, a, b, b] := rfl
  have hz : (rectangle a b c e).map Prod.snd = [c, e, e, c] := rfl
  have r0 : lowest ((rectangle a b c e).map Prod.fst) = a := by rw [hr]; simp [lowest, hab.le]
  have r1 : highest ((rectangle a b c e).map Prod.fst) = b := by rw [hr]; simp [highest, hab.le]
  have z0 : lowest ((rectangle a b c e).map Prod.snd) = c := by rw [hz]; simp [lowest, hce.le]
  have z1 : highest ((rectangle a b c e).map Prod.snd) = e := by rw [hz]; simp [highest, hce.le]
  have hA : Polygons.area (rectangle a b c e) = (b - a) * (e - c) := by
    simp [Polygons.area, Polygons.edges, rectangle, List.range_succ]
    ring
  have hAne : Polygons.area (rectangle a b c e) ≠ 0 := by rw [hA]; exact (mul_pos (by linarith) (by linarith)).ne'
  have hsq : HasSquare contains (rectangle a b c e) (a + min (b - a) (e - c) / 3) (c + min (b - a) (e - c) / 3) (min (b - a) (e - c) / 3) := by
    have m0 : 0 < min (b - a) (e - c) := lt_min (by linarith) (by linarith)
    have m1 := min_le_left (b - a) (e - c)
    have m2 := min_le_right (b - a) (e - c)
    refine ⟨by linarith, fun x y _ _ _ _ => hc x y (by linarith) (by linarith) (by linarith) (by linarith), ?_, ?_, ?_, ?_⟩
    · rw [r0]; linarith
    · rw [r1]; linarith
    · rw [z0]; linarith
    · rw [z1]; linarith
  obtain ⟨F, d, hd, hle, h⟩ := C89_ends contains interp hi _ N hN hAne hsq
  rw [hA, abs_of_pos (mul_pos (by linarith) (by linarith))] at hle
  refine ⟨F, fun fuel hf => ?_⟩
  rw [h fuel hf, if_pos]
  have hrow : ∀ i : ℕ, i ≤ 2 → (i : ℝ) < (e - c) / d := by
    intro i hi
    rw [lt_div_iff₀ hd]
    have : (i : ℝ) ≤ 2 := by exact_mod_cast hi
    nlinarith
  have hcol : ((1 : ℕ) : ℝ) < (b - a) / d := by
    rw [lt_div_iff₀ hd]; push_cast; linarith
  refine ⟨⟨(2, a + 1 * d, c + 2 * d), ?_, by norm_num⟩, (1, a + 1 * d + 1 / 2 * d, c + 1 * d), ?_, by norm_num⟩
  · rw [mem_inside, r0, r1, z0, z1]
    refine ⟨hc _ _ (by linarith) (by linarith) (by linarith) (by linarith), Nat.lt_ceil.mpr (hrow 2 (le_refl _)), by push_cast; ring, 1,
      Nat.lt_ceil.mpr hcol, by simp⟩
  · rw [mem_inside, r0, r1, z0, z1]
    refine ⟨hc _ _ (by linarith) (by linarith) (by linarith) (by linarith), Nat.lt_ceil.mpr (hrow 1 (by norm_num)), by push_cast; ring, 1,
      Nat.lt_ceil.mpr hcol, by simp⟩

/-- Non-vacuity of C89_fails: the unit square with 16 filaments, and an interpolation that takes the last spacing. -/
example : 2 * Real.sqrt (((2 : ℝ) - 1) * (1 - 0) / (16 : ℕ)) < 2 - 1 := by
  rw [show ((2 : ℝ) - 1) * (1 - 0) / (16 : ℕ) = (1 / 4) ^ 2 by norm_num, Real.sqrt_sq (by norm_num)]
  norm_num

example : Between fun _ data => (data.getLast?.map Prod.snd).getD 0 := by
  intro x data h
  have : data.getLast? = some (data.getLast h) := List.getLast?_eq_some_getLast h
  simp only [this, Option.map_some, Option.getD_some]
  exact ⟨⟨_, List.getLast_mem h, le_refl _⟩, _, List.getLast_mem h, le_refl _⟩

/-- The points inside the unit square. -/
noncomputable def unit : ℝ × ℝ → Bool := fun p => decide (0 < p.1 ∧ p.1 < 1 ∧ 0 < p.2 ∧ p.2 < 1)

theorem unit_box : lowest ((rectangle 0 1 0 1).map Prod.fst) = 0 ∧ highest ((rectangle 0 1 0 1).map Prod.fst) = 1 ∧
    lowest ((rectangle 0 1 0 1).map Prod.snd) = 0 ∧ highest ((rectangle 0 1 0 1).map Prod.snd) = 1 := by
  simp [rectangle, lowest, highest]

/-- Non-vacuity of C89_ends and C89_inside_partial: one filament in the unit square. -/
example : HasSquare unit (rectangle 0 1 0 1) (1 / 4) (1 / 4) (1 / 2) ∧ Polygons.area (rectangle 0 1 0 1) = 1 ∧
    ∀ m ≥ 2, populate unit (fun _ data => (data.getLast?.map Prod.snd).getD 0) (rectangle 0 1 0 1) 1 m =
      some (.ok [(1 / 2 * (995 / 1000), 995 / 1000)]) := by
  obtain ⟨b1, b2, b3, b4⟩ := unit_box
  have hA : Polygons.area (rectangle 0 1 0 1) = 1 := by
    simp [Polygons.area, Polygons.edges, rectangle, List.range_succ]
    norm_num
  refine ⟨⟨by norm_num, fun x y h1 h2 h3 h4 => ?_, by rw [b1]; norm_num, by rw [b2]; norm_num, by rw [b3]; norm_num, by rw [b4]; norm_num⟩, hA, ?_⟩
  · simp only [unit, decide_eq_true_eq]
    refine ⟨by linarith, by linarith, by linarith, by linarith⟩
  · intro m hm
    obtain ⟨k, rfl⟩ : ∃ k, m = k + 2 := ⟨m - 2, by omega⟩
    have i1 : inside unit (rectangle 0 1 0 1) 1 = [] := by
      simp [inside, b1, b2, b3, b4, arange, row, unit]
    have hceil : ⌈((1 : ℝ) - 0) / (995 / 1000)⌉₊ = 2 := by
      rw [Nat.ceil_eq_iff (by norm_num)]; norm_num
    have i2 : inside unit (rectangle 0 1 0 1) (995 / 1000) = [(1, 1 / 2 * (995 / 1000), 995 / 1000)] := by
      simp only [inside, b1, b2, b3, b4, arange, hceil, row, unit]
      simp [List.range_succ]
      norm_num
    rw [populate, hA]
    simp only [abs_one, Nat.cast_one, div_one, Real.sqrt_one, one_ne_zero, if_false]
    rw [scan, if_pos (by norm_num)]
    show (match scan _ 1 (k + 1) _ _ _ with | none => _ | some [] => _ | some (x :: xs) => _) = _
    rw [scan, if_pos (by rw [i1]; norm_num)]
    show (match scan _ 1 k _ _ _ with | none => _ | some [] => _ | some (x :: xs) => _) = _
    have e3 : scan (fun d => (inside unit (rectangle 0 1 0 1) d).length) 1 k (1 * (995 / 1000) * (995 / 1000))
        ((fun d => (inside unit (rectangle 0 1 0 1) d).length) (1 * (995 / 1000)))
        ([] ++ [((fun d => (inside unit (rectangle 0 1 0 1) d).length) 1, 1)] ++
          [((fun d => (inside unit (rectangle 0 1 0 1) d).length) (1 * (995 / 1000)), 1 * (995 / 1000))]) =
        some [(0, 1), (1, 995 / 1000)] := by
      rw [scan.eq_def]
      simp only [one_mul, i1, i2]
      simp
    rw [e3]
    simp [i2]

end FreeGS.Filaments
