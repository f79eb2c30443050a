import Verif.Lemmas.PolygonQuad
import Verif.Model.ShapedCoil

set_option linter.unusedSectionVars false

/-!
# Properties of `freegs/quadrature.py` and of the shaped coil built on it
-/

namespace FreeGS.Quadrature

open FreeGS.Spec FreeGS.Polygons

variable {K : Type*} [Field K] [LinearOrder K] [IsStrictOrderedRing K]

/-- **C12.** For `n = 1, 3, 6` and a triangle, `triangle_quad` returns `n` points whose weights add up to one, to
within `1e-15` for the six-point rule. Any other `n` raises `ValueError`; a list that is not
a triangle raises `AssertionError`. -/
theorem C12_weights (t : List (K × K)) (n : ℕ) :
    (t.length ≠ 3 → triangleQuad t n = .error .assertion) ∧
    (t.length = 3 → n ≠ 1 → n ≠ 3 → n ≠ 6 → triangleQuad t n = .error .value) ∧
    (t.length = 3 → n = 1 ∨ n = 3 ∨ n = 6 → ∃ q, triangleQuad t n = .ok q ∧ q.length = n ∧
      (n ≠ 6 → (q.map fun x => x.2.2).sum = 1) ∧
      |(q.map fun x => x.2.2).sum - 1| ≤ 1 / 10 ^ 15) := by
  refine ⟨fun h => ?_, fun h h1 h3 h6 => ?_, fun h hn => ?_⟩
  · match t, h with
    | [], _ => rfl
    | [_], _ => rfl
    | [_, _], _ => rfl
    | _ :: _ :: _ :: _ :: _, _ => rfl
    | [_, _, _], h => exact absurd rfl h
  · obtain ⟨A, B, C, rfl⟩ := List.length_eq_three.1 h
    simp [triangleQuad, h1, h3, h6]
  · obtain ⟨q, h1, h2, h3, -⟩ := triangleQuad_ok t h n hn
    refine ⟨q, h1, h2, fun h6 => by rw [h3, wsum, if_neg h6], ?_⟩
    rw [h3, wsum]
    split
    · rw [sub_sub_cancel_left, abs_neg, abs_of_nonneg (by positivity)]
    · simp

/-- Non-vacuous: the three-point rule on a right triangle, and a rejected number of points. -/
example : triangleQuad [((0 : ℚ), (0 : ℚ)), (6, 0), (0, 6)] 3 =
    .ok [(1, 1, 1 / 3), (4, 1, 1 / 3), (1, 4, 1 / 3)] := by decide +kernel
example : triangleQuad [((0 : ℚ), (0 : ℚ)), (6, 0), (0, 6)] 4 = .error .value := by decide +kernel

/-- **C12.** The one-point rule gives the exact mean over the triangle of every polynomial of degree one. -/
theorem C12_one_point_exact (P1 P2 P3 : ℝ × ℝ) (c0 c1 c2 : ℝ) :
    ∃ q, triangleQuad [P1, P2, P3] 1 = .ok q ∧
      average (fun r z => c0 + c1 * r + c2 * z) q =
        meanTri P1 P2 P3 fun r z => c0 + c1 * r + c2 * z := by
  refine ⟨_, rfl, ?_⟩
  rw [meanTri_of_poly P1 P2 P3 _ 1 (fun i j =>
    match i, j with
    | 0, 0 => c0 + c1 * P1.1 + c2 * P1.2
    | 1, 0 => c1 * (P2.1 - P1.1) + c2 * (P2.2 - P1.2)
    | 0, 1 => c1 * (P3.1 - P1.1) + c2 * (P3.2 - P1.2)
    | _, _ => 0)
    (by intro u v; simp [poly, Finset.sum_range_succ]; ring)]
  simp [average, Finset.sum_range_succ, Nat.factorial]
  ring

/-- **C12.** The three-point rule gives the exact mean over the triangle of every polynomial of degree
two. -/
theorem C12_three_point_exact (P1 P2 P3 : ℝ × ℝ) (c0 c1 c2 c3 c4 c5 : ℝ) :
    ∃ q, triangleQuad [P1, P2, P3] 3 = .ok q ∧
      average (quadratic c0 c1 c2 c3 c4 c5) q = meanTri P1 P2 P3 (quadratic c0 c1 c2 c3 c4 c5) := by
  refine ⟨_, rfl, ?_⟩
  rw [meanTri_of_poly P1 P2 P3 _ 2 (fun i j =>
    match i, j with
    | 0, 0 => quadratic c0 c1 c2 c3 c4 c5 P1.1 P1.2
    | 1, 0 => c1 * (P2.1 - P1.1) + c2 * (P2.2 - P1.2) + 2 * c3 * P1.1 * (P2.1 - P1.1)
        + c4 * (P1.1 * (P2.2 - P1.2) + P1.2 * (P2.1 - P1.1)) + 2 * c5 * P1.2 * (P2.2 - P1.2)
    | 0, 1 => c1 * (P3.1 - P1.1) + c2 * (P3.2 - P1.2) + 2 * c3 * P1.1 * (P3.1 - P1.1)
        + c4 * (P1.1 * (P3.2 - P1.2) + P1.2 * (P3.1 - P1.1)) + 2 * c5 * P1.2 * (P3.2 - P1.2)
    | 2, 0 => c3 * (P2.1 - P1.1) ^ 2 + c4 * (P2.1 - P1.1) * (P2.2 - P1.2) + c5 * (P2.2 - P1.2) ^ 2
    | 1, 1 => 2 * c3 * (P2.1 - P1.1) * (P3.1 - P1.1) + c4 * ((P2.1 - P1.1) * (P3.2 - P1.2)
        + (P2.2 - P1.2) * (P3.1 - P1.1)) + 2 * c5 * (P2.2 - P1.2) * (P3.2 - P1.2)
    | 0, 2 => c3 * (P3.1 - P1.1) ^ 2 + c4 * (P3.1 - P1.1) * (P3.2 - P1.2) + c5 * (P3.2 - P1.2) ^ 2
    | _, _ => 0)
    (by intro u v; simp [poly, Finset.sum_range_succ, quadratic]; ring)]
  simp [average, Finset.sum_range_succ, Nat.factorial, quadratic]
  ring

/-- **C12.** The six-point rule gives the mean over the triangle of every polynomial of degree four in `(r, z)`, up to
the rounding of its tabulated constants: the error is at most `1e-15` times the sum of the absolute
coefficients of the polynomial in the affine coordinates of the triangle. -/
theorem C12_six_point_error (P1 P2 P3 : ℝ × ℝ) (k : ℕ → ℕ → ℝ) :
    ∃ q, triangleQuad [P1, P2, P3] 6 = .ok q ∧
      ∃ c, (∀ u v, poly 4 k (P1.1 + u * (P2.1 - P1.1) + v * (P3.1 - P1.1))
          (P1.2 + u * (P2.2 - P1.2) + v * (P3.2 - P1.2)) = poly 4 c u v) ∧
        |average (poly 4 k) q - meanTri P1 P2 P3 (poly 4 k)| ≤ 1 / 10 ^ 15 * coeffNorm 4 c := by
  obtain ⟨c, hc⟩ := poly_affine 4 k P1 P2 P3
  refine ⟨_, rfl, c, hc, ?_⟩
  have hb : ∀ x y z : ℝ, x + y + z = 1 →
      poly 4 k (bary P1 P2 P3 x y z).1 (bary P1 P2 P3 x y z).2 = poly 4 c y z := by
    intro x y z h
    rw [← hc y z]
    have hx : x = 1 - y - z := by linarith
    subst hx
    congr 1 <;> simp only [bary] <;> ring
  have hq1 : (qa : ℝ) + qb + qb = 1 := by simp only [qb]; ring
  have hq2 : (qc : ℝ) + qd + qd = 1 := by simp only [qd]; ring
  rw [meanTri_of_poly P1 P2 P3 _ 4 c hc]
  simp only [average, List.map_cons, List.map_nil, List.sum_cons, List.sum_nil]
  rw [hb _ _ _ hq1, hb qb qa qb (by linarith), hb qb qb qa (by linarith), hb _ _ _ hq2,
    hb qd qc qd (by linarith), hb qd qd qc (by linarith)]
  have key : ∀ i j : ℕ, i + j ≤ 4 → ∀ t : ℝ,
      |t * ((qw1 * (qb ^ i * qb ^ j + qa ^ i * qb ^ j + qb ^ i * qa ^ j)
        + qw2 * (qd ^ i * qd ^ j + qc ^ i * qd ^ j + qd ^ i * qc ^ j)) -
        (2 * (i.factorial * j.factorial : ℝ) / (i + j + 2).factorial))| ≤ 1 / 10 ^ 15 * |t| := by
    intro i j hij t
    rw [abs_mul, mul_comm]
    refine mul_le_mul_of_nonneg_right ?_ (abs_nonneg t)
    have hi : i ≤ 4 := by omega
    have hj : j ≤ 4 := by omega
    rw [abs_le]
    interval_cases i <;> interval_cases j <;> first | omega | skip
    all_goals
      simp only [qb, qd, qa, qc, qw1, qw2]
      norm_num [Nat.factorial]
  have e : poly 4 c qb qb * qw1 + (poly 4 c qa qb * qw1 + (poly 4 c qb qa * qw1 + (poly 4 c qd qd * qw2 +
      (poly 4 c qc qd * qw2 + (poly 4 c qd qc * qw2 + 0))))) -
      ∑ i ∈ Finset.range (4 + 1), ∑ j ∈ Finset.range (4 + 1 - i),
        c i j * (2 * (i.factorial * j.factorial : ℝ) / (i + j + 2).factorial) =
      ∑ i ∈ Finset.range (4 + 1), ∑ j ∈ Finset.range (4 + 1 - i),
        c i j * ((qw1 * (qb ^ i * qb ^ j + qa ^ i * qb ^ j + qb ^ i * qa ^ j)
        + qw2 * (qd ^ i * qd ^ j + qc ^ i * qd ^ j + qd ^ i * qc ^ j)) -
        (2 * (i.factorial * j.factorial : ℝ) / (i + j + 2).factorial)) := by
    simp only [poly, Finset.sum_mul, ← Finset.sum_add_distrib, ← Finset.sum_sub_distrib, add_zero]
    refine Finset.sum_congr rfl fun i _ => Finset.sum_congr rfl fun j _ => by ring
  rw [e, coeffNorm, Finset.mul_sum]
  refine (Finset.abs_sum_le_sum_abs _ _).trans (Finset.sum_le_sum fun i hi => ?_)
  rw [Finset.mul_sum]
  refine (Finset.abs_sum_le_sum_abs _ _).trans (Finset.sum_le_sum fun j hj => ?_)
  rw [Finset.mem_range] at hi hj
  exact key i j (by omega) _

/-- Non-vacuous: `r² z²` on the reference triangle has mean `1/90`; the rule is within `1e-15`. -/
example : meanTri (0, 0) (1, 0) (0, 1) (fun r z => r ^ 2 * z ^ 2) = 1 / 90 := by
  rw [meanTri_of_poly (0, 0) (1, 0) (0, 1) _ 4 (fun i j => if i = 2 ∧ j = 2 then 1 else 0)
    (by intro u v; simp [poly, Finset.sum_range_succ])]
  simp [Finset.sum_range_succ, Nat.factorial]
  norm_num

/-- **C13.** For every polygon of non-zero area on which the triangulation returns, `polygon_quad` returns `n` points
for each of the `len - 2` triangles; the weights add up to one (to within `1e-15` for `n = 6`); and the
average of a linear function, divided by the sum of the weights, is its value at the
centroid of the polygon, `moment / (2 area)`. -/
theorem C13_polygon_quad (p : List (K × K)) (n : ℕ) (hn : n = 1 ∨ n = 3 ∨ n = 6) (ha : area p ≠ 0)
    (T : List (List (K × K))) (hT : triangulate p = .ok (some T)) :
    ∃ q, polygonQuad p n = .ok (some q) ∧ q.length = n * (p.length - 2) ∧
      (n ≠ 6 → (q.map fun x => x.2.2).sum = 1) ∧ |(q.map fun x => x.2.2).sum - 1| ≤ 1 / 10 ^ 15 ∧
      ∀ c0 c1 c2 : K, average (fun r z => c0 + c1 * r + c2 * z) q =
        (q.map fun x => x.2.2).sum *
          (c0 + c1 * ((moment p).1 / (2 * area p)) + c2 * ((moment p).2 / (2 * area p))) := by
  have h3 : p.length > 2 := by
    by_contra h
    rw [triangulate, if_neg h] at hT; simp at hT
  obtain ⟨s, hs, hl, hTs⟩ := inv_loop (orient p) p.length ⟨orient p, []⟩
    (inv_init _ (by rw [orient_length]; exact h3)) T (by
      rw [triangulate, if_pos h3] at hT; exact Except.ok.inj hT)
  have hlen : T.length = p.length - 2 := by
    have := hs.count
    rw [orient_length] at this
    rw [hTs]; simp; omega
  have htri : ∀ t ∈ T, t.length = 3 := by
    intro t ht
    rw [hTs] at ht
    rcases List.mem_append.1 ht with ht | ht
    · exact (hs.tri t ht).1
    · rw [List.mem_singleton] at ht; subst ht; exact hl
  have hsum : (T.map area).sum = area (orient p) := by rw [← hs.total, hTs]; simp
  obtain ⟨ε, hε, hεa, hcyc⟩ := triangulate_cyc p T hT
  have hε0 : ε ≠ 0 := by rcases hε with h | h <;> rw [h] <;> norm_num
  have htot : (T.map area).sum ≠ 0 := by rw [hsum, hεa]; exact mul_ne_zero hε0 ha
  obtain ⟨q, h1, h2, h4, h5⟩ := quadLoop_ok (T.map area).sum htot n hn T htri
  rw [div_self htot, mul_one] at h4
  have hm : ∀ f : K × K → K × K → K, (∀ a b, f b a = -f a b) →
      (T.map fun t => cyc f t / 3).sum = ε * (cyc f p / 3) := by
    intro f hf
    have : (T.map fun t => cyc f t / 3).sum = (T.map (cyc f)).sum / 3 := by
      simp only [div_eq_mul_inv, List.sum_map_mul_right]
    rw [this, hcyc f hf]; ring
  have hr : (T.map fun t => (moment t).1).sum = ε * (moment p).1 := by
    simp only [moment_eq]; exact hm mr (by intro a b; simp only [mr]; ring)
  have hz : (T.map fun t => (moment t).2).sum = ε * (moment p).2 := by
    simp only [moment_eq]; exact hm mz (by intro a b; simp only [mz]; ring)
  refine ⟨q, ?_, by rw [h2, hlen], ?_, ?_, ?_⟩
  · rw [polygonQuad, hT]; simp only [h1]
  · intro h6; rw [h4, wsum, if_neg h6]
  · rw [h4, wsum]
    split
    · rw [sub_sub_cancel_left, abs_neg, abs_of_nonneg (by positivity)]
    · simp
  · intro c0 c1 c2
    rw [h5, h4, hr, hz, hsum, hεa]
    field_simp

/-- Non-vacuous: a trapezium, with the three-point rule; the average of `r` is the radius of the centroid, `7/9`. -/
example : (polygonQuad [((0 : ℚ), (0 : ℚ)), (0, 1), (1, 1), (2, 0)] 3).map
    (Option.map fun q => (q.length, average (fun r _ => r) q)) = .ok (some (6, 7 / 9)) := by decide +kernel

/-- **C13.** The error cases of `polygon_quad`: too few vertices, an unavailable rule, zero area. -/
theorem C13_polygon_quad_errors (p : List (K × K)) (n : ℕ) :
    (p.length < 3 → polygonQuad p n = .error .assertion) ∧
    (∀ T, triangulate p = .ok (some T) → n ≠ 1 → n ≠ 3 → n ≠ 6 → polygonQuad p n = .error .value) ∧
    (∀ T, triangulate p = .ok (some T) → n = 1 ∨ n = 3 ∨ n = 6 → area p = 0 →
      polygonQuad p n = .error .zeroDivision) := by
  refine ⟨fun h => ?_, fun T hT h1 h3 h6 => ?_, fun T hT hn ha => ?_⟩
  · rw [polygonQuad, triangulate, if_neg (by omega)]
  all_goals
    have hp : p.length > 2 := by
      by_contra h
      rw [triangulate, if_neg h] at hT; simp at hT
    obtain ⟨s, hs, hl, hTs⟩ := inv_loop (orient p) p.length ⟨orient p, []⟩
      (inv_init _ (by rw [orient_length]; exact hp)) T (by
        rw [triangulate, if_pos hp] at hT; exact Except.ok.inj hT)
    have htri : ∀ t ∈ T, t.length = 3 := by
      intro t ht
      rw [hTs] at ht
      rcases List.mem_append.1 ht with ht | ht
      · exact (hs.tri t ht).1
      · rw [List.mem_singleton] at ht; subst ht; exact hl
    obtain ⟨t, T', rfl⟩ : ∃ t T', T = t :: T' := List.exists_cons_of_ne_nil (by rw [hTs]; simp)
    rw [polygonQuad, hT]
  · simp only [quadLoop_error _ n (by simp [h1, h3, h6]) t T' (htri t (by simp))]
  · have hsum : ((t :: T').map area).sum = 0 := by
      rw [hTs]
      have := hs.total
      rw [area_orient, ha, abs_zero] at this
      simpa using this
    obtain ⟨q, hq, -⟩ := triangleQuad_ok t (htri t (by simp)) n hn
    simp only [quadLoop, hq, hsum, if_true]

/-- Non-vacuous: a rule with two points, and a polygon of zero area. -/
example : polygonQuad [((0 : ℚ), (0 : ℚ)), (0, 1), (1, 1)] 2 = .error .value := by decide +kernel
example : polygonQuad [((0 : ℚ), (0 : ℚ)), (1, 1), (2, 2)] 3 = .error .zeroDivision := by decide +kernel

end FreeGS.Quadrature

namespace FreeGS.ShapedCoil

open FreeGS.Spec FreeGS.Polygons FreeGS.Quadrature

variable {K : Type*} [Field K] [LinearOrder K] [IsStrictOrderedRing K]

/-- **C14.** Take a shaped coil `c` built from an outline, set its `R` and then its `Z` to any values, and let `c'` be
built from the outline translated by the same amount. Then the moved coil reads back the values, and its response is
that of `c'` for every Green's function (flux, radial and vertical field) at every point; current, turns, control flag and area are those of `c'`
too. -/
theorem C14_move_is_rebuild (shape : List (K × K)) (current turns : K) (control : Bool) (npoints : ℕ)
    (c : ShapedCoil K) (hc : make shape current turns control npoints = .ok (some c)) (Rnew Znew : K) :
    ∃ c', make (shape.map fun q => (q.1 + (Rnew - c.rCentre), q.2 + (Znew - c.zCentre))) current turns
        control npoints = .ok (some c') ∧
      ((c.setR Rnew).setZ Znew).rCentre = Rnew ∧ ((c.setR Rnew).setZ Znew).zCentre = Znew ∧
      c'.rCentre = Rnew ∧ c'.zCentre = Znew ∧
      (∀ G R Z, ((c.setR Rnew).setZ Znew).response G R Z = c'.response G R Z) ∧
      ((c.setR Rnew).setZ Znew).current = c'.current ∧ ((c.setR Rnew).setZ Znew).turns = c'.turns ∧
      ((c.setR Rnew).setZ Znew).control = c'.control ∧ ((c.setR Rnew).setZ Znew).area = c'.area := by
  rw [make] at hc
  by_cases h : shape.length > 2
  · rw [if_pos h] at hc
    cases hq : polygonQuad shape npoints with
    | error e => rw [hq] at hc; simp at hc
    | ok o =>
      cases o with
      | none => rw [hq] at hc; simp at hc
      | some pts =>
        rw [hq] at hc
        simp only [Except.ok.injEq, Option.some.injEq] at hc
        subst hc
        have hlen : (shape.length : K) ≠ 0 := by
          have : 0 < shape.length := by omega
          positivity
        set v : K × K := (Rnew - (shape.map Prod.fst).sum / shape.length,
          Znew - (shape.map Prod.snd).sum / shape.length) with hv
        have hs := polygonQuad_shift v shape npoints
        rw [hq] at hs
        simp only [Except.map, Option.map] at hs
        have hmk : shape.map (fun q => (q.1 + v.1, q.2 + v.2)) = shift v shape := rfl
        have hsum : ∀ (f : K × K → K) (d : K), (shape.map fun q => f q + d).sum =
            (shape.map f).sum + shape.length * d := by
          intro f d
          rw [List.sum_map_add]; simp
        refine ⟨{
            rCentre := ((shift v shape).map Prod.fst).sum / (shift v shape).length
            zCentre := ((shift v shape).map Prod.snd).sum / (shift v shape).length
            current, turns, control
            area := |Polygons.area (shift v shape)|
            shape := shift v shape, npoints, points := shiftQ v pts }, ?_, rfl, rfl, ?_, ?_, ?_, rfl, rfl, rfl, ?_⟩
        · rw [← hmk] at hs ⊢
          rw [make, if_pos (by simpa using h), hs]
        · simp only [shift, List.map_map, List.length_map]
          have := hsum Prod.fst v.1
          simp only [Function.comp_def, this]
          rw [hv]; field_simp; ring
        · simp only [shift, List.map_map, List.length_map]
          have := hsum Prod.snd v.2
          simp only [Function.comp_def, this]
          rw [hv]; field_simp; ring
        · intro G R Z
          simp only [response, setZ, setR, shiftQ, List.map_map, hv]
          rfl
        · simp only [setZ, setR, area_shift]
  · rw [if_neg h] at hc; simp at hc

/-- Non-vacuous: a trapezium coil can be built. -/
example : (make [((1 : ℚ), (0 : ℚ)), (1, 1), (2, 1), (3, 0)] 5 2 true 3).map
    (Option.map fun c => (c.rCentre, c.zCentre, c.points.length)) = .ok (some (7 / 4, 1 / 2, 6)) := by
  decide +kernel

/-- **C66.** The response of a `ShapedCoil` is its number of turns times the average of the Green's function over
the outline: exactly `turns * average(G, polygon_quad(shape, npoints))`, and, if the Green's function is a linear
function of the position of the source, `turns` times its value at the centroid of the outline (up to the sum
of the weights, which is one to within `1e-15`). The centroid is `moment / (2 area)`. -/
theorem C66_response_is_outline_average (shape : List (K × K)) (current turns : K) (control : Bool) (npoints : ℕ)
    (c : ShapedCoil K) (hc : make shape current turns control npoints = .ok (some c)) :
    ∃ (q : List (QPt K)) (w : K), polygonQuad shape npoints = .ok (some q) ∧ |w - 1| ≤ 1 / 10 ^ 15 ∧
      (∀ G R Z, c.response G R Z = turns * average (fun r z => G r z R Z) q) ∧
      ∀ (G : K → K → K → K → K) (R Z a b d : K), (∀ r z, G r z R Z = a + b * r + d * z) →
        c.response G R Z = turns * w * (a + b * ((moment shape).1 / (2 * Polygons.area shape)) +
          d * ((moment shape).2 / (2 * Polygons.area shape))) := by
  rw [make] at hc
  by_cases h : shape.length > 2
  swap
  · rw [if_neg h] at hc; simp at hc
  rw [if_pos h] at hc
  cases hq : polygonQuad shape npoints with
  | error e => rw [hq] at hc; simp at hc
  | ok o =>
    cases o with
    | none => rw [hq] at hc; simp at hc
    | some pts =>
      rw [hq] at hc
      simp only [Except.ok.injEq, Option.some.injEq] at hc
      subst hc
      have herr := C13_polygon_quad_errors shape npoints
      have hT : ∃ T, triangulate shape = .ok (some T) := by
        rw [polygonQuad] at hq
        split at hq
        · simp at hq
        · simp at hq
        · rename_i T hT; exact ⟨T, hT⟩
      obtain ⟨T, hT⟩ := hT
      have hn : npoints = 1 ∨ npoints = 3 ∨ npoints = 6 := by
        by_contra hn
        push Not at hn
        have := herr.2.1 T hT hn.1 hn.2.1 hn.2.2
        rw [hq] at this; simp at this
      have ha : Polygons.area shape ≠ 0 := by
        intro ha
        have := herr.2.2 T hT hn ha
        rw [hq] at this; simp at this
      obtain ⟨q, hq', -, -, hw, hav⟩ := C13_polygon_quad shape npoints hn ha T hT
      rw [hq] at hq'
      simp only [Except.ok.injEq, Option.some.injEq] at hq'
      subst hq'
      have h1 : ∀ (G : K → K → K → K → K) (R Z : K),
          (pts.map fun q => G q.1 q.2.1 R Z * q.2.2).sum * turns =
            turns * average (fun r z => G r z R Z) pts := by
        intro G R Z
        rw [mul_comm, average]
      refine ⟨pts, _, rfl, hw, h1, fun G R Z a b d hG => ?_⟩
      rw [response, h1]
      simp only [hG]
      rw [hav a b d]
      ring

/-- Non-vacuous: the trapezium of C13 with two turns and a Green's function that is linear in the source radius: the
response is twice the radius of the centroid. -/
example : (make [((0 : ℚ), (0 : ℚ)), (0, 1), (1, 1), (2, 0)] 5 2 true 3).map
    (Option.map fun c => c.response (fun r _ _ _ => r) 1 1) = .ok (some (2 * (7 / 9))) := by
  decide +kernel

/-- An assignment `coil.R = v` or `coil.Z = v`. -/
inductive Move (K : Type*) where
  | toR (v : K)
  | toZ (v : K)

/-- The assignment. -/
def move (c : ShapedCoil K) : Move K → ShapedCoil K
  | .toR v => c.setR v
  | .toZ v => c.setZ v

/-- The last value assigned to `R`, or the one it had. -/
def lastR (r : K) (ms : List (Move K)) : K := ms.foldl (fun a m => match m with | .toR v => v | .toZ _ => a) r
/-- The last value assigned to `Z`, or the one it had. -/
def lastZ (z : K) (ms : List (Move K)) : K := ms.foldl (fun a m => match m with | .toR _ => a | .toZ v => v) z

theorem moves_eq (c : ShapedCoil K) (ms : List (Move K)) :
    ms.foldl move c = (c.setR (lastR c.rCentre ms)).setZ (lastZ c.zCentre ms) := by
  induction ms using List.reverseRecOn with
  | nil => simp [lastR, lastZ, setR, setZ]
  | append_singleton ms m ih =>
    rw [List.foldl_append, List.foldl_cons, List.foldl_nil, ih]
    simp only [lastR, lastZ, List.foldl_append, List.foldl_cons, List.foldl_nil]
    cases m with
    | toR v =>
      simp only [move, setR, setZ, ShapedCoil.mk.injEq, List.map_map, and_true, true_and]
      refine List.map_congr_left fun q _ => ?_
      simp only [Function.comp, Prod.mk.injEq, and_true]
      ring
    | toZ v =>
      simp only [move, setR, setZ, ShapedCoil.mk.injEq, List.map_map, and_true, true_and]
      refine List.map_congr_left fun q _ => ?_
      simp only [Function.comp, Prod.mk.injEq, and_true, true_and]
      ring

/-- **C14 (any sequence of moves).** After any sequence of assignments to `R` and `Z` the coil reads back the last value assigned to each (or the
original one), and responds like a coil built from the outline translated by the total displacement: the way there does not matter. -/
theorem C14_any_sequence (shape : List (K × K)) (current turns : K) (control : Bool) (npoints : ℕ)
    (c : ShapedCoil K) (hc : make shape current turns control npoints = .ok (some c)) (ms : List (Move K)) :
    ∃ c', make (shape.map fun q => (q.1 + (lastR c.rCentre ms - c.rCentre), q.2 + (lastZ c.zCentre ms - c.zCentre))) current turns
        control npoints = .ok (some c') ∧
      (ms.foldl move c).rCentre = lastR c.rCentre ms ∧ (ms.foldl move c).zCentre = lastZ c.zCentre ms ∧
      c'.rCentre = lastR c.rCentre ms ∧ c'.zCentre = lastZ c.zCentre ms ∧
      (∀ G R Z, (ms.foldl move c).response G R Z = c'.response G R Z) ∧
      (ms.foldl move c).current = c'.current ∧ (ms.foldl move c).turns = c'.turns ∧
      (ms.foldl move c).control = c'.control ∧ (ms.foldl move c).area = c'.area := by
  rw [moves_eq]
  exact C14_move_is_rebuild shape current turns control npoints c hc _ _

-- three moves, of which the first is overwritten
example : lastR (1 : ℚ) [.toR 5, .toZ 2, .toR 3] = 3 ∧ lastZ (0 : ℚ) [.toR 5, .toZ 2, .toR 3] = 2 ∧
    (make [((0 : ℚ), (0 : ℚ)), (0, 1), (1, 1), (2, 0)] 5 2 true 3).map
      (Option.map fun c => ([.toR 5, .toZ 2, .toR 3].foldl move c).response (fun r _ _ _ => r) 1 1) =
    (make [((9 / 4 : ℚ), (3 / 2 : ℚ)), (9 / 4, 5 / 2), (13 / 4, 5 / 2), (17 / 4, 3 / 2)] 5 2 true 3).map
      (Option.map fun c => c.response (fun r _ _ _ => r) 1 1) := by
  decide +kernel

end FreeGS.ShapedCoil
