import Verif.Model.Limits
import Verif.Spec.Polygons
import Verif.Props.Surface

/-!
# Limiter points (C52)
-/

set_option linter.unusedSectionVars false

namespace FreeGS.Limits

open FreeGS.Critical FreeGS.Spec

variable {K : Type*} [Field K] [LinearOrder K] [IsStrictOrderedRing K]

/-- The length of the wall from its first point to point `i`, along the wall. -/
def arc (sqrt : K → K) (wall : List (K × K)) (i : ℕ) : K :=
  ∑ j ∈ Finset.range i, sqrt (((wall.getD (j + 1) (0, 0)).1 - (wall.getD j (0, 0)).1) ^ 2 +
    ((wall.getD (j + 1) (0, 0)).2 - (wall.getD j (0, 0)).2) ^ 2)

theorem cumulated_eq (sqrt : K → K) (wall : List (K × K)) (i : ℕ) : cumulated sqrt wall i = arc sqrt wall i := by
  induction i with
  | zero => rfl
  | succ i ih => rw [cumulated, ih, arc, arc, Finset.sum_range_succ]; rfl

/-- A square root: not negative, and positive for positive numbers. -/
structure IsRoot (sqrt : K → K) : Prop where
  nonneg : ∀ x, 0 ≤ sqrt x
  pos : ∀ x, 0 < x → 0 < sqrt x

theorem cumulated_mono {sqrt : K → K} (h : IsRoot sqrt) (wall : List (K × K)) : Monotone (cumulated sqrt wall) :=
  monotone_nat_of_le_succ fun i => by
    rw [cumulated]
    exact le_add_of_nonneg_right (h.nonneg _)

/-- One value: the interval that is found, and the place in it. -/
theorem interp1d_spec {n : ℕ} (hn : 2 ≤ n) {x : ℕ → K} (y : ℕ → K × K) (hmono : Monotone x) (h01 : x 0 < x 1) {v : K} (h0 : x 0 ≤ v)
    (h1 : v ≤ x (n - 1)) : ∃ i t, i + 1 < n ∧ 0 ≤ t ∧ t ≤ 1 ∧ x i + t * (x (i + 1) - x i) = v ∧ (v = x 0 → i = 0) ∧
      (v = x (n - 1) → t = 1 ∧ x (i + 1) = v ∧ ∀ j ≤ i, x j < v) ∧
      interp1d n x y v = .ok ((y i).1 + t * ((y (i + 1)).1 - (y i).1), (y i).2 + t * ((y (i + 1)).2 - (y i).2)) := by
  have hspec := firstTrue_spec (fun i => decide (v ≤ x i)) n 0
  have key : ∀ hi, hi = min (max ((firstTrue (fun i => decide (v ≤ x i)) n 0).getD n) 1) (n - 1) →
      1 ≤ hi ∧ hi ≤ n - 1 ∧ v ≤ x hi ∧ x (hi - 1) ≤ v ∧ x (hi - 1) < x hi ∧ (v = x 0 → hi = 1) ∧ (v ≠ x 0 → ∀ j < hi, x j < v) := by
    intro hi hhi
    cases hf : firstTrue (fun i => decide (v ≤ x i)) n 0 with
    | none =>
      have := (hspec.2.mp hf) (n - 1) (by omega) (by omega)
      simp only [decide_eq_false_iff_not] at this
      exact absurd h1 this
    | some m =>
      obtain ⟨_, a1, a2, a3⟩ := (hspec.1 m).mp hf
      simp only [decide_eq_true_eq, decide_eq_false_iff_not, not_le] at a2 a3
      rw [hf, Option.getD_some] at hhi
      by_cases hm : m = 0
      · subst hm
        have e1 : hi = 1 := by omega
        have e2 : v = x 0 := le_antisymm a2 h0
        subst e1
        exact ⟨le_refl _, by omega, by rw [e2]; exact le_of_lt h01, by rw [e2], h01, fun _ => rfl, fun h => absurd e2 h⟩
      · have e1 : hi = m := by omega
        subst e1
        have a4 := a3 (hi - 1) (by omega) (by omega)
        refine ⟨by omega, by omega, a2, le_of_lt a4, lt_of_lt_of_le a4 a2, fun h => ?_, fun _ j hj => a3 j (by omega) hj⟩
        have := a3 0 (le_refl _) (by omega)
        rw [h] at this
        exact absurd this (lt_irrefl _)
  obtain ⟨b1, b2, b3, b4, b5, b6, b7⟩ := key _ rfl
  rw [interp1d, if_neg (by rw [not_or]; exact ⟨not_lt.mpr h0, not_lt.mpr h1⟩)]
  simp only
  generalize min (max ((firstTrue (fun i => decide (v ≤ x i)) n 0).getD n) 1) (n - 1) = hi at *
  obtain ⟨i, rfl⟩ : ∃ i, hi = i + 1 := ⟨hi - 1, by omega⟩
  rw [Nat.add_sub_cancel] at *
  have hd : 0 < x (i + 1) - x i := sub_pos.mpr b5
  rw [if_neg (ne_of_gt hd)]
  refine ⟨i, (v - x i) / (x (i + 1) - x i), by omega, div_nonneg (sub_nonneg.mpr b4) (le_of_lt hd), ?_, ?_, ?_, ?_, ?_⟩
  · rw [div_le_one hd]
    exact sub_le_sub_right b3 _
  · rw [div_mul_cancel₀ _ (ne_of_gt hd)]
    ring
  · intro h
    have := b6 h
    omega
  · intro h
    have e : x (i + 1) = v := le_antisymm (by rw [h]; exact hmono (by omega)) b3
    refine ⟨by rw [e, div_self]; rw [← e]; exact ne_of_gt hd, e, fun j hj => b7 (fun h0' => ?_) j (by omega)⟩
    have : x 1 ≤ x (n - 1) := hmono (by omega)
    rw [← h, h0'] at this
    exact absurd (lt_of_lt_of_le h01 this) (lt_irrefl _)
  · congr 2 <;> ring

theorem collect_ok {f : K → Except Err (K × K)} : ∀ {l : List K}, (∀ v ∈ l, ∃ q, f v = .ok q) →
    ∃ qs, collect f l = .ok qs ∧ qs.length = l.length ∧ ∀ k (h : k < l.length) (h' : k < qs.length), f l[k] = .ok qs[k] := by
  intro l
  induction l with
  | nil => exact fun _ => ⟨[], rfl, rfl, fun k h => absurd h (by simp)⟩
  | cons v l ih =>
    intro h
    obtain ⟨q, hq⟩ := h v List.mem_cons_self
    obtain ⟨qs, h1, h2, h3⟩ := ih fun w hw => h w (List.mem_cons_of_mem _ hw)
    refine ⟨q :: qs, by rw [collect, hq]; simp only [h1], by simp [h2], fun k hk hk' => ?_⟩
    cases k with
    | zero => exact hq
    | succ k => exact h3 k (by simpa using hk) (by simpa using hk')

/-- **C52.** For a wall of at least two points, the first two of them different, `generate_limit_points(nlimit)` returns `nlimit` points.
Each lies on the straight line between two consecutive wall points, and they are equally spaced: point `k` is `k / (nlimit - 1)` of the
length of the wall from the first wall point, measured along the wall. The first is the first wall point and the last the last one.
What is missing of the full statement: the side from the last wall point back to the first gets no limiter points
(`C52_closing_side`). -/
theorem C52_points_on_wall_partial (sqrt : K → K) (hroot : IsRoot sqrt) (wall : List (K × K)) (hlen : 2 ≤ wall.length)
    (hfirst : wall[0] ≠ wall[1]) (nlimit : ℕ) (hn : 2 ≤ nlimit) :
    ∃ pts, limitPoints sqrt wall nlimit = .ok pts ∧ ∃ hl : pts.length = nlimit,
      (∀ k (hk : k < nlimit), ∃ i t, ∃ hi : i + 1 < wall.length, 0 ≤ t ∧ t ≤ 1 ∧
        pts[k] = (wall[i].1 + t * (wall[i + 1].1 - wall[i].1), wall[i].2 + t * (wall[i + 1].2 - wall[i].2)) ∧
        arc sqrt wall i + t * (arc sqrt wall (i + 1) - arc sqrt wall i) = k / (nlimit - 1) * arc sqrt wall (wall.length - 1)) ∧
      pts[0] = wall[0] ∧ ((wall[wall.length - 2] ≠ wall[wall.length - 1]) → pts[nlimit - 1] = wall[wall.length - 1]) := by
  have hpt : ∀ i (h : i < wall.length), pt wall i = wall[i] := by
    intro i h
    rw [pt, List.getD_eq_getElem?_getD, List.getElem?_eq_getElem h, Option.getD_some]
  have hne : ∀ i (h : i + 1 < wall.length), wall[i] ≠ wall[i + 1] → cumulated sqrt wall i < cumulated sqrt wall (i + 1) := by
    intro i h hw
    rw [cumulated]
    refine lt_add_of_pos_right _ (hroot.pos _ ?_)
    rw [hpt i (by omega), hpt (i + 1) h]
    by_contra hc
    have e1 := sq_nonneg (wall[i + 1].1 - wall[i].1)
    have e2 := sq_nonneg (wall[i + 1].2 - wall[i].2)
    have e3 : (wall[i + 1].1 - wall[i].1) ^ 2 = 0 := by linarith
    have e4 : (wall[i + 1].2 - wall[i].2) ^ 2 = 0 := by linarith
    apply hw
    ext
    · linarith [pow_eq_zero_iff (two_ne_zero) |>.mp e3]
    · linarith [pow_eq_zero_iff (two_ne_zero) |>.mp e4]
  have h01 := hne 0 (by omega) hfirst
  have hmono := cumulated_mono hroot wall
  set total := cumulated sqrt wall (wall.length - 1) with ht
  have htot : 0 < total := lt_of_lt_of_le h01 (hmono (by omega))
  have hxm : Monotone fun i => cumulated sqrt wall i / total := fun a b hab => div_le_div_of_nonneg_right (hmono hab) (le_of_lt htot)
  have hx01 : cumulated sqrt wall 0 / total < cumulated sqrt wall 1 / total := div_lt_div_of_pos_right h01 htot
  have hx0 : cumulated sqrt wall 0 / total = 0 := by rw [cumulated, zero_div]
  have hx1 : cumulated sqrt wall (wall.length - 1) / total = 1 := div_self (ne_of_gt htot)
  have hn1 : (0 : K) < (nlimit : K) - 1 := by
    have : (2 : K) ≤ nlimit := by exact_mod_cast hn
    linarith
  have hv : ∀ k, linspaceAt (0 : K) 1 nlimit k = k / (nlimit - 1) := by
    intro k
    rw [linspaceAt, if_neg (by omega)]
    ring
  have hv1 : ∀ k < nlimit, (k : K) / (nlimit - 1) ≤ 1 := by
    intro k hk
    rw [div_le_one hn1, le_sub_iff_add_le]
    exact_mod_cast hk
  have hspec := fun k (hk : k < nlimit) => interp1d_spec (n := wall.length) hlen (pt wall) hxm hx01 (v := (k : K) / (nlimit - 1))
    (by simp only [hx0]; positivity) (by simp only [hx1]; exact hv1 k hk)
  obtain ⟨pts, h1, h2, h3⟩ := collect_ok (f := interp1d wall.length (fun i => cumulated sqrt wall i / total) (pt wall))
    (l := (List.range nlimit).map (linspaceAt 0 1 nlimit)) (by
      intro v hv'
      obtain ⟨k, hk, rfl⟩ := List.mem_map.mp hv'
      rw [hv]
      obtain ⟨i, t, _, _, _, _, _, _, h⟩ := hspec k (List.mem_range.mp hk)
      exact ⟨_, h⟩)
  rw [List.length_map, List.length_range] at h2
  refine ⟨pts, ?_, h2, ?_⟩
  · rw [limitPoints]
    simp only
    rw [if_neg (by omega), if_neg (ne_of_gt htot)]
    exact h1
  have hk3 : ∀ k (hk : k < nlimit), interp1d wall.length (fun i => cumulated sqrt wall i / total) (pt wall) ((k : K) / (nlimit - 1)) =
      .ok (pts[k]'(by omega)) := by
    intro k hk
    have := h3 k (by simpa using hk) (by omega)
    rw [List.getElem_map, List.getElem_range, hv] at this
    exact this
  refine ⟨fun k hk => ?_, ?_, ?_⟩
  · obtain ⟨i, t, hi, t0, t1, hval, _, _, h⟩ := hspec k hk
    rw [hk3 k hk] at h
    refine ⟨i, t, hi, t0, t1, ?_, ?_⟩
    · rw [Except.ok.inj h, hpt i (by omega), hpt (i + 1) hi]
    · rw [← cumulated_eq, ← cumulated_eq, ← cumulated_eq, ← ht, ← hval]
      field_simp
  · obtain ⟨i, t, hi, t0, t1, hval, hz, _, h⟩ := hspec 0 (by omega)
    have hz' := hz (by simp only [hx0]; simp)
    subst hz'
    rw [hk3 0 (by omega)] at h
    have ht0 : t = 0 := by
      simp only [hx0, Nat.cast_zero, zero_div, zero_add, sub_zero] at hval
      rcases mul_eq_zero.mp hval with h | h
      · exact h
      · rw [← hx0] at h
        exact absurd h (ne_of_gt hx01)
    rw [Except.ok.inj h, ht0, hpt 0 (by omega)]
    simp
  · intro hlast
    obtain ⟨i, t, hi, t0, t1, hval, _, hz, h⟩ := hspec (nlimit - 1) (by omega)
    have hc : ((nlimit - 1 : ℕ) : K) / (nlimit - 1) = 1 := by
      rw [Nat.cast_sub (by omega), Nat.cast_one, div_self (ne_of_gt hn1)]
    obtain ⟨e1, e2, e3⟩ := hz (by simp only [hx1]; exact hc)
    rw [hk3 (nlimit - 1) (by omega)] at h
    have hend : i + 1 = wall.length - 1 := by
      by_contra hcon
      have hl := hne (wall.length - 2) (by omega) (by
        have : wall.length - 2 + 1 = wall.length - 1 := by omega
        simpa only [this] using hlast)
      have e4 : cumulated sqrt wall (i + 1) / total = 1 := by rw [e2, hc]
      have e5 : cumulated sqrt wall (i + 1) = total := by
        rw [div_eq_one_iff_eq (ne_of_gt htot)] at e4
        exact e4
      have e6 : cumulated sqrt wall (i + 1) ≤ cumulated sqrt wall (wall.length - 2) := hmono (by omega)
      rw [show wall.length - 2 + 1 = wall.length - 1 by omega, ← ht] at hl
      rw [e5] at e6
      exact absurd (lt_of_le_of_lt e6 hl) (lt_irrefl _)
    rw [Except.ok.inj h, e1, hend, hpt (wall.length - 1) (by omega)]
    simp

/-- The wall of `TestTokamak` (machine.py:893-895). -/
def testWall : List (ℚ × ℚ) :=
  [(75 / 100, -85 / 100), (75 / 100, 85 / 100), (15 / 10, 85 / 100), (18 / 10, 25 / 100), (18 / 10, -25 / 100), (15 / 10, -85 / 100)]

/-- A case meeting the hypotheses of C52, with a crude square root. -/
example : IsRoot (fun x : ℚ => max x 0) ∧ 2 ≤ testWall.length ∧ testWall[0] ≠ testWall[1] ∧
    limitPoints (fun x : ℚ => max x 0) [(1, 0), (2, 0), (2, 1)] 5 = .ok [(1, 0), (3 / 2, 0), (2, 0), (2, 1 / 2), (2, 1)] :=
  ⟨⟨fun x => le_max_right _ _, fun x h => lt_max_of_lt_left h⟩, by decide +kernel, by decide +kernel, by decide +kernel⟩

/-- **C52 (finding).** However many limiter points are asked for, none is on the bottom side of the wall of `TestTokamak`, except at its
ends: this is the side from the last wall point back to the first. -/
theorem C52_closing_side (sqrt : ℚ → ℚ) (hroot : IsRoot sqrt) (nlimit : ℕ) (hn : 2 ≤ nlimit) :
    ∃ pts, limitPoints sqrt testWall nlimit = .ok pts ∧
      ∀ q ∈ pts, q.2 = -85 / 100 → q = testWall[0] ∨ q = testWall[testWall.length - 1] := by
  obtain ⟨pts, h1, hl, h2, _⟩ := C52_points_on_wall_partial sqrt hroot testWall (by decide) (by decide +kernel) nlimit hn
  refine ⟨pts, h1, fun q hq hz => ?_⟩
  obtain ⟨k, hk, rfl⟩ := List.mem_iff_getElem.mp hq
  obtain ⟨i, t, hi, t0, t1, hp, _⟩ := h2 k (by omega)
  have hi' : i + 1 < 6 := hi
  rw [hp] at hz ⊢
  have e0 : testWall[0] = (75 / 100, -85 / 100) := rfl
  have e5 : testWall[testWall.length - 1] = (15 / 10, -85 / 100) := rfl
  rw [e0, e5]
  have hcases : i = 0 ∨ i = 1 ∨ i = 2 ∨ i = 3 ∨ i = 4 := by omega
  rcases hcases with rfl | rfl | rfl | rfl | rfl <;> simp only [testWall, List.getElem_cons_zero, List.getElem_cons_succ] at hz ⊢
  · left
    have : t = 0 := by linarith
    rw [this]; norm_num
  · exfalso; linarith
  · exfalso; linarith
  · exfalso; linarith
  · right
    have : t = 1 := by linarith
    rw [this]; norm_num

/-- **C52 (finding).** Reading a G-EQDSK file with a limiter replaces the wall of the machine, but not the limiter points: none of them needs to be
on the new wall. A machine made without a wall has a wall then, but no limiter points at all. -/
theorem C52_stale_after_read :
    (∃ (m : Walled ℚ) (lim pts : List (ℚ × ℚ)), Walled.make (fun x => max x 0) (some testWall) 2 = .ok m ∧
      (m.readLimiter lim).wall = some lim ∧ (m.readLimiter lim).points = some pts ∧ pts ≠ [] ∧
      ∀ q ∈ pts, ∀ A B, ClosedEdge lim A B → ∀ t : ℚ, 0 ≤ t → t ≤ 1 →
        q ≠ (A.1 + t * (B.1 - A.1), A.2 + t * (B.2 - A.2))) ∧
    ∀ (sqrt : K → K) (nlimit : ℕ) (lim : List (K × K)), 3 < lim.length → ∃ m, Walled.make sqrt none nlimit = .ok m ∧
      (m.readLimiter lim).wall = some lim ∧ (m.readLimiter lim).points = none := by
  constructor
  · refine ⟨⟨some testWall, some [(75 / 100, -85 / 100), (15 / 10, -85 / 100)]⟩, [(1, -2), (2, -2), (2, 2), (1, 2)],
      [(75 / 100, -85 / 100), (15 / 10, -85 / 100)], ?_, rfl, rfl, by simp, ?_⟩
    · rw [Walled.make]
      have : limitPoints (fun x : ℚ => max x 0) testWall 2 = .ok [(75 / 100, -85 / 100), (15 / 10, -85 / 100)] := by decide +kernel
      simp only [this]
    · rintro q hq A B ⟨i, hi, rfl, rfl⟩ t h0 h1 he
      have hi' : i < 4 := hi
      have hc : i = 0 ∨ i = 1 ∨ i = 2 ∨ i = 3 := by omega
      simp only [List.mem_cons, List.not_mem_nil, or_false] at hq
      rcases hq with rfl | rfl <;> rcases hc with rfl | rfl | rfl | rfl <;>
        simp only [List.length_cons, List.length_nil, List.getElem_cons_zero, List.getElem_cons_succ, Prod.mk.injEq, zero_add, Nat.reduceAdd,
          Nat.reduceMod] at he <;>
        linarith [he.1, he.2]
  · intro sqrt nlimit lim h
    exact ⟨⟨none, none⟩, rfl, by rw [Walled.readLimiter, if_pos h], by rw [Walled.readLimiter, if_pos h]⟩

end FreeGS.Limits
