import Verif.Lemmas.Convex

set_option linter.unusedSectionVars false

/-!
# Properties of `freegs/polygons.py`
-/

namespace FreeGS.Polygons

open FreeGS.Spec

variable {K : Type*} [Field K] [LinearOrder K] [IsStrictOrderedRing K]

/-- **C07.** On two closed polygons `intersect` returns `True` exactly when an edge of the first and an
edge of the second, whose direction cross product is at least `1e-6` in magnitude, have a common point strictly
inside both. Coordinate lists of different lengths raise `AssertionError`. -/
theorem C07_intersect_closed (r1 z1 r2 z2 : List K) :
    (r1.length = z1.length → r2.length = z2.length →
      ∃ b, intersect r1 z1 r2 z2 = .ok b ∧
        (b = true ↔ ∃ A B C D, ClosedEdge (r1.zip z1) A B ∧ ClosedEdge (r2.zip z2) C D ∧
          1 / 10 ^ 6 ≤ |dirCross A B C D| ∧ CrossInside A B C D)) ∧
    (r1.length ≠ z1.length ∨ r2.length ≠ z2.length → intersect r1 z1 r2 z2 = .error .assertion) := by
  refine ⟨fun h1 h2 => ⟨intersectPts (r1.zip z1) (r2.zip z2) true true, ?_, intersectPts_closed_iff _ _⟩, ?_⟩
  · rw [intersect, if_pos h1, if_pos h2]
  · intro h
    rw [intersect]
    by_cases h1 : r1.length = z1.length
    · have h2 : r2.length ≠ z2.length := h.resolve_left (not_not.2 h1)
      rw [if_pos h1, if_neg h2]
    · rw [if_neg h1]

/-- Non-vacuous: two triangles that cross, two that do not, and lists that do not match. -/
example : intersect [0, 2, 0] [0, 0, 2] [1, 3, 3] [(-1 : ℚ), 1, 3] = .ok true := by decide +kernel
example : intersect [0, 2, 0] [0, 0, 2] [5, 7, 5] [(0 : ℚ), 0, 2] = .ok false := by decide +kernel
example : intersect [0, 2, 0] [0, 0] [5, 7, 5] [(0 : ℚ), 0, 2] = .error .assertion := by decide +kernel

/-- **C07.** The test is symmetric in the two polygons. -/
theorem C07_intersect_symm (r1 z1 r2 z2 : List K) :
    intersect r1 z1 r2 z2 = intersect r2 z2 r1 z1 := by
  simp only [intersect, intersectPts_symm (r1.zip z1)]
  split <;> split <;> rfl

/-- **C07.** Moving both polygons by the same vector does not change the result (open or closed). -/
theorem C07_intersect_translate (v : K × K) (r1 z1 r2 z2 : List K) (c1 c2 : Bool) :
    intersect (r1.map (· + v.1)) (z1.map (· + v.2)) (r2.map (· + v.1)) (z2.map (· + v.2)) c1 c2 =
      intersect r1 z1 r2 z2 c1 c2 := by
  have hz : ∀ r z : List K, (r.map (· + v.1)).zip (z.map (· + v.2)) = shift v (r.zip z) := by
    intro r z
    rw [List.zip_map]; rfl
  simp only [intersect, hz, intersectPts_shift, List.length_map]

/-- Non-vacuous: the crossing triangles moved by `(10, -3)`, and with the arguments exchanged. -/
example : intersect ([0, 2, 0].map (· + 10)) ([0, 0, 2].map (· + -3)) ([1, 3, 3].map (· + 10))
    ([(-1 : ℚ), 1, 3].map (· + -3)) = .ok true := by
  rw [C07_intersect_translate ((10 : ℚ), (-3 : ℚ)), C07_intersect_symm]
  decide +kernel

/-- **C08 (refuted).** Full claim: with both polylines open, `intersect` is `True` exactly when a segment of
one crosses a segment of the other. Two single segments that cross at right angles are reported as not
crossing, and two polylines of which no segments cross are reported as crossing. -/
theorem C08_open_intersect_wrong :
    (∃ A B C D : ℚ × ℚ, OpenEdge [A, B] A B ∧ OpenEdge [C, D] C D ∧ CrossInside A B C D ∧
      1 / 10 ^ 6 ≤ |dirCross A B C D| ∧
      intersect [A.1, B.1] [A.2, B.2] [C.1, D.1] [C.2, D.2] false false = .ok false) ∧
    (∃ p q : List (ℚ × ℚ), intersect (p.map Prod.fst) (p.map Prod.snd) (q.map Prod.fst) (q.map Prod.snd)
        false false = .ok true ∧
      ∀ A B C D, OpenEdge p A B → OpenEdge q C D → ¬ CrossInside A B C D) := by
  constructor
  · refine ⟨(0, 0), (2, 2), (0, 2), (2, 0), ⟨0, by simp, rfl, rfl⟩, ⟨0, by simp, rfl, rfl⟩, ?_, ?_, ?_⟩
    · rw [crossInside_iff _ _ _ _ (by norm_num [dirCross])]
      norm_num [dirCross]
    · norm_num [dirCross]
    · decide +kernel
  · refine ⟨[(0, 0), (4, 0), (4, 4), (5, 4)], [(1, 3), (3, 1), (3, 2)], by decide +kernel, ?_⟩
    rintro A B C D ⟨i, hi, rfl, rfl⟩ ⟨j, hj, rfl, rfl⟩ ⟨X, ⟨a, b, ha, hb, hab, h⟩, ⟨c, d, hc, hd, hcd, h'⟩⟩
    have h1 := congrArg Prod.fst (h.trans h'.symm)
    have h2 := congrArg Prod.snd (h.trans h'.symm)
    simp only [List.length_cons, List.length_nil] at hi hj
    have hi3 : i < 3 := by omega
    have hj2 : j < 2 := by omega
    interval_cases i <;> interval_cases j <;> norm_num at h1 h2 <;> linarith

/-- **C08 (partial).** What the open test does decide: it is the closed test on the two polylines without
their last points. In particular a proper crossing between segments that are not the last of their
polyline is always reported. Missing from the full claim: the last segment of each polyline is
replaced by the chord back to its first point. -/
theorem C08_open_intersect_partial (p q : List (K × K)) :
    ∃ b, intersect (p.map Prod.fst) (p.map Prod.snd) (q.map Prod.fst) (q.map Prod.snd) false false = .ok b ∧
      (b = true ↔ ∃ A B C D, ClosedEdge p.dropLast A B ∧ ClosedEdge q.dropLast C D ∧
          1 / 10 ^ 6 ≤ |dirCross A B C D| ∧ CrossInside A B C D) ∧
      ((∃ A B C D, OpenEdge p.dropLast A B ∧ OpenEdge q.dropLast C D ∧
          1 / 10 ^ 6 ≤ |dirCross A B C D| ∧ CrossInside A B C D) → b = true) := by
  have hz : ∀ l : List (K × K), (l.map Prod.fst).zip (l.map Prod.snd) = l := by
    intro l
    rw [← List.unzip_fst, ← List.unzip_snd, List.zip_unzip]
  have ho : ∀ (l : List (K × K)) (A B : K × K), OpenEdge l A B → ClosedEdge l A B := by
    rintro l A B ⟨i, hi, rfl, rfl⟩
    exact ⟨i, by omega, rfl, by simp only [Nat.mod_eq_of_lt hi]⟩
  have hb : intersectPts p q false false = true ↔ _ :=
    (intersectPts_open p q) ▸ intersectPts_closed_iff p.dropLast q.dropLast
  refine ⟨intersectPts p q false false, ?_, hb, ?_⟩
  · rw [intersect, if_pos (by simp), if_pos (by simp), hz, hz]
  · rintro ⟨A, B, C, D, h1, h2, h3, h4⟩
    exact hb.2 ⟨A, B, C, D, ho _ _ _ h1, ho _ _ _ h2, h3, h4⟩

/-- Non-vacuous: a crossing between the first segments of two polylines of three points is found. -/
example : intersect [0, 2, 5] [0, 2, 9] [0, 2, 7] [(2 : ℚ), 0, -9] false false = .ok true := by decide +kernel

/-- **C09.** The area does not depend on the starting vertex or the position of the polygon; it changes sign
with the direction and scales with the square of the size. -/
theorem C09_area_invariance (p : List (K × K)) (k : ℕ) (v : K × K) (c : K) :
    area (p.rotate k) = area p ∧ area (p.map fun q => (q.1 + v.1, q.2 + v.2)) = area p ∧
      area p.reverse = -area p ∧ area (p.map fun q => (c * q.1, c * q.2)) = c ^ 2 * area p :=
  ⟨area_rotate p k, area_shift v p, area_reverse p, area_scale c p⟩

/-- **C09.** Cutting a polygon along the diagonal from its first vertex `a` to another vertex `b` adds up the
areas; a triangle has half the usual cross product as its area, positive for clockwise order. -/
theorem C09_area_additive (a b : K × K) (l1 l2 : List (K × K)) :
    area (a :: l1 ++ b :: l2) = area (a :: l1 ++ [b]) + area (a :: b :: l2) ∧
      area [a, b] = 0 ∧ (∀ d, area [a, b, d] = turn a b d / 2) ∧
      (clockwise (a :: l1) = true ↔ 0 < area (a :: l1)) := by
  refine ⟨area_cut a l1 b l2, ?_, area_triple a b, by simp [clockwise]⟩
  rw [area_cons]; simp only [List.cons_append, List.nil_append, pathSum, trap]; ring

/-- Non-vacuous: the unit square, clockwise and anticlockwise, and an L-shaped polygon. -/
example : area [((0 : ℚ), (0 : ℚ)), (0, 1), (1, 1), (1, 0)] = 1 := by decide +kernel
example : clockwise [((0 : ℚ), (0 : ℚ)), (1, 0), (1, 1), (0, 1)] = false := by decide +kernel
example : area [((0 : ℚ), (0 : ℚ)), (0, 2), (1, 2), (1, 1), (2, 1), (2, 0)] = 3 := by decide +kernel

/-- **C10.** Whenever `triangulate` returns for a polygon of `n ≥ 3` vertices, it returns `n - 2` triangles with
corners among the vertices, of areas that add up to the absolute area of the polygon, all but the last
of non-negative area. Fewer vertices raise `AssertionError`. -/
theorem C10_triangulate_conserves (p : List (K × K)) :
    (p.length < 3 → triangulate p = .error .assertion) ∧
    ∀ T, triangulate p = .ok (some T) →
      T.length + 2 = p.length ∧ (∀ t ∈ T, t.length = 3 ∧ ∀ x ∈ t, x ∈ p) ∧
        (T.map area).sum = |area p| ∧ ∀ t ∈ T.dropLast, 0 ≤ area t := by
  refine ⟨fun h => by rw [triangulate, if_neg (by omega)], fun T hT => ?_⟩
  rw [triangulate] at hT
  by_cases h2 : p.length > 2
  · rw [if_pos h2] at hT
    obtain ⟨s, hs, hl, rfl⟩ := inv_loop (orient p) p.length ⟨orient p, []⟩
      (inv_init _ (by rw [orient_length]; exact h2)) T (Except.ok.inj hT)
    refine ⟨?_, ?_, ?_, ?_⟩
    · have := hs.count
      rw [orient_length] at this
      simp only [List.length_append, List.length_cons, List.length_nil]; omega
    · intro t ht
      rcases List.mem_append.1 ht with ht | ht
      · exact ⟨(hs.tri t ht).1, fun x hx => (mem_orient p x).1 ((hs.tri t ht).2.1 x hx)⟩
      · rw [List.mem_singleton] at ht; subst ht
        exact ⟨hl, fun x hx => (mem_orient p x).1 (hs.mem x hx)⟩
    · rw [← area_orient, ← hs.total]; simp
    · intro t ht
      rw [List.dropLast_concat] at ht
      exact (hs.tri t ht).2.2
  · rw [if_neg h2] at hT; simp at hT

/-- Non-vacuous: an L-shaped polygon given anticlockwise is cut into four triangles, of which
the last one has area `-1/2`. -/
example : triangulate [((2 : ℚ), (0 : ℚ)), (2, 1), (1, 1), (1, 2), (0, 2), (0, 0)] =
    .ok (some [[(2, 0), (0, 0), (0, 2)], [(2, 0), (0, 2), (1, 2)], [(2, 1), (2, 0), (1, 2)],
      [(1, 2), (1, 1), (2, 1)]]) := by decide +kernel
example : triangulate [((2 : ℚ), (0 : ℚ)), (2, 1)] = .error .assertion := by decide +kernel

/-- A tactic for `SimplePolygon` on explicit rational vertices: all pairs of edges are compared. -/
local macro "simple_polygon" : tactic => `(tactic| (
  refine ⟨by decide +kernel, ?_⟩
  rintro i j hi hj hij X ⟨a, b, ha, hb, hab, h⟩ ⟨c, d, hc, hd, hcd, h'⟩
  have e1 := congrArg Prod.fst h
  have e2 := congrArg Prod.snd h
  have e3 := congrArg Prod.fst h'
  have e4 := congrArg Prod.snd h'
  clear h h'
  simp only [List.length_cons, List.length_nil] at hi hj
  norm_num at hi hj
  interval_cases j <;> interval_cases i <;>
    norm_num at e1 e2 e3 e4 <;>
    first
    | (exfalso; linarith)
    | (refine Or.inl ⟨rfl, Prod.ext ?_ ?_⟩ <;> norm_num <;> linarith)
    | (refine Or.inr ⟨rfl, rfl, Prod.ext ?_ ?_⟩ <;> norm_num <;> linarith)))

/-- **C11 (refuted).** Full claim: for every simple polygon `triangulate` returns and all triangles have
non-negative area. There is a simple pentagon on which the loop never ends, and for an L-shaped
hexagon a triangle outside of the polygon, of negative area, is returned. -/
theorem C11_triangulate_wrong :
    (∃ p : List (ℚ × ℚ), SimplePolygon p ∧ 3 ≤ p.length ∧ triangulate p = .ok none) ∧
    (∃ p : List (ℚ × ℚ), SimplePolygon p ∧ 3 ≤ p.length ∧
      ∃ T, triangulate p = .ok (some T) ∧ ∃ t ∈ T, area t < 0) := by
  constructor
  · refine ⟨[(0, 5), (1, 3), (1, 2), (0, 0), (4, 3)], ?_, by simp, by decide +kernel⟩
    simple_polygon
  · refine ⟨[(2, 0), (2, 1), (1, 1), (1, 2), (0, 2), (0, 0)], ?_, by simp,
      [[(2, 0), (0, 0), (0, 2)], [(2, 0), (0, 2), (1, 2)], [(2, 1), (2, 0), (1, 2)],
      [(1, 2), (1, 1), (2, 1)]], by decide +kernel, [(1, 2), (1, 1), (2, 1)], by simp, by decide +kernel⟩
    simple_polygon

/-- **C11 (partial).** For every convex polygon of non-zero area, in either direction, `triangulate` returns and
all triangles have non-negative area. Missing from the full claim: polygons that are simple but not
convex, for which it is false. -/
theorem C11_triangulate_convex_partial (p : List (K × K)) (h3 : 3 ≤ p.length) (ha : area p ≠ 0)
    (hc : ConvexCW p ∨ ConvexCW p.reverse) :
    ∃ T, triangulate p = .ok (some T) ∧ ∀ t ∈ T, 0 ≤ area t := by
  have hco : ConvexCW (orient p) := by
    rw [orient, clockwise]
    rcases hc with hc | hc
    · have : area p > 0 := lt_of_le_of_ne (convex_area_nonneg p hc) (Ne.symm ha)
      rw [if_pos (decide_eq_true this)]; exact hc
    · have h0 := convex_area_nonneg _ hc
      rw [area_reverse] at h0
      rw [if_neg (by simp only [decide_eq_true_eq]; linarith)]; exact hc
  obtain ⟨s, hs, hsc⟩ := convex_loop p.length (⟨orient p, []⟩ : TState K)
    (by simp only [orient_length]; omega) (by simp only [orient_length]; exact h3) hco
  have hT : triangulate p = .ok (some (s.tris ++ [s.poly])) := by
    rw [triangulate, if_pos (by omega), hs]
  refine ⟨_, hT, fun t ht => ?_⟩
  rcases List.mem_append.1 ht with ht | ht
  · exact ((C10_triangulate_conserves p).2 _ hT).2.2.2 t (by rw [List.dropLast_concat]; exact ht)
  · rw [List.mem_singleton] at ht; subst ht
    exact convex_area_nonneg _ hsc

/-- Non-vacuous: a convex pentagon listed anticlockwise meets the hypotheses. -/
example : 3 ≤ [((3 : ℚ), (-1 : ℚ)), (5, 2), (3, 5), (0, 4), (0, 0)].length ∧
    area [((3 : ℚ), (-1 : ℚ)), (5, 2), (3, 5), (0, 4), (0, 0)] ≠ 0 ∧
    ConvexCW [((3 : ℚ), (-1 : ℚ)), (5, 2), (3, 5), (0, 4), (0, 0)].reverse := by
  refine ⟨by simp, by decide +kernel, fun A B C h => ?_⟩
  obtain ⟨i, j, k, h1, h2, h3, a, b, c⟩ := sublist_three _ _ _ _ h
  simp only [List.length_reverse, List.length_cons, List.length_nil] at h3
  interval_cases k <;> interval_cases j <;> interval_cases i <;> simp at a b c <;> subst a b c <;>
    norm_num [turn]

end FreeGS.Polygons
