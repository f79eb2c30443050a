import Verif.Model.WallTest
import Verif.Lemmas.Parity
import Verif.Lemmas.Polygons
import Verif.Props.FieldTracer
import Verif.Props.Separatrix

/-!
# C82 for arbitrary walls; C100: does the plasma touch the wall
-/

set_option linter.unusedSectionVars false

namespace FreeGS

open Spec Polygons

variable {K : Type*} [Field K] [LinearOrder K] [IsStrictOrderedRing K]

theorem edges_eq_sides (w : List (K × K)) : edges w true = sides w := by
  refine List.ext_getElem (by simp [edges, sides]) fun i h1 h2 => ?_
  have hi : i < w.length := by simpa [edges] using h1
  have hm : (i + 1) % w.length < w.length := Nat.mod_lt _ (by omega)
  simp [edges, sides, List.getElem_rotate, hi, hm]

theorem mem_sides_iff (w : List (K × K)) (s : (K × K) × (K × K)) : s ∈ sides w ↔ ClosedEdge w s.1 s.2 := by
  rw [← edges_eq_sides, mem_edges_closed]

/-! ## Which points are inside by the even-odd rule -/

/-- **C82 (the rule is sensible).** Points above, below, left or right of all corners are not inside. -/
theorem C82_far (w : List (K × K)) (x : K × K)
    (h : (∀ p ∈ w, p.2 ≤ x.2) ∨ (∀ p ∈ w, x.2 < p.2) ∨ (∀ p ∈ w, p.1 ≤ x.1) ∨ (∀ p ∈ w, x.1 < p.1)) : ¬ Within w x := by
  have hm : ∀ s ∈ sides w, s.1 ∈ w ∧ s.2 ∈ w := fun s hs =>
    ⟨(List.of_mem_zip hs).1, List.mem_rotate.1 (List.of_mem_zip hs).2⟩
  have zero : (∀ s ∈ sides w, ¬ RayMeets x s) → ¬ Within w x := by
    intro h
    have : (sides w).countP (fun s => RayMeets x s) = 0 := by
      rw [List.countP_eq_zero]
      intro s hs
      simpa using h s hs
    unfold Within
    rw [this]
    decide
  rcases h with h | h | h | h
  · refine zero fun s hs => ?_
    rintro ⟨g, -⟩
    have a := not_lt.2 (h _ (hm s hs).1)
    have b := not_lt.2 (h _ (hm s hs).2)
    exact a (g.2 b)
  · refine zero fun s hs => ?_
    rintro ⟨g, -⟩
    exact g.1 (h _ (hm s hs).1) (h _ (hm s hs).2)
  · refine zero fun s hs => ?_
    rintro hs'
    obtain ⟨u, v⟩ := s
    have hu := h _ (hm _ hs).1
    have hv := h _ (hm _ hs).2
    rw [rayMeets_iff] at hs'
    obtain ⟨g, g'⟩ := hs'
    rw [mul_pos_iff] at g'
    simp only [sd] at g'
    by_cases c : x.2 < u.2
    · have d := not_lt.1 (g.1 c)
      rcases g' with ⟨-, g'⟩ | ⟨g', -⟩
      · linarith
      · nlinarith [mul_nonneg (sub_nonneg.2 hv) (sub_nonneg.2 c.le), mul_nonneg (sub_nonneg.2 hu) (sub_nonneg.2 d)]
    · have d : x.2 < v.2 := by by_contra d; exact c (g.2 d)
      rcases g' with ⟨g', -⟩ | ⟨-, g'⟩
      · nlinarith [mul_nonneg (sub_nonneg.2 hv) (sub_nonneg.2 (not_lt.1 c)), mul_nonneg (sub_nonneg.2 hu) (sub_nonneg.2 d.le)]
      · linarith [not_lt.1 c]
  · have e : (sides w).countP (fun s => RayMeets x s) = (sides w).countP (fun s => (x.2 < s.1.2 ↔ ¬ x.2 < s.2.2)) := by
      apply List.countP_congr
      rintro ⟨u, v⟩ hs
      have hu := h _ (hm _ hs).1
      have hv := h _ (hm _ hs).2
      simp only [decide_eq_true_eq]
      rw [rayMeets_iff]
      unfold RayS
      refine and_iff_left_of_imp fun g => ?_
      simp only [sd]
      by_cases c : x.2 < u.2
      · have d := not_lt.1 (g.1 c)
        refine mul_pos_of_neg_of_neg ?_ (by linarith)
        nlinarith [mul_pos (sub_pos.2 hv) (sub_pos.2 c), mul_nonneg (sub_pos.2 hu).le (sub_nonneg.2 d)]
      · have d : x.2 < v.2 := by by_contra d; exact c (g.2 d)
        refine mul_pos ?_ (by linarith [not_lt.1 c])
        nlinarith [mul_nonneg (sub_pos.2 hv).le (sub_nonneg.2 (not_lt.1 c)), mul_pos (sub_pos.2 hu) (sub_pos.2 d)]
    unfold Within
    rw [e, Nat.not_odd_iff_even, ← ZMod.natCast_eq_zero_iff_even, countP_cast, ← sum_sides w fun u => ind (x.2 < u.2)]
    congr 1
    refine List.map_congr_left fun s _ => ?_
    by_cases a : x.2 < s.1.2 <;> by_cases b : x.2 < s.2.2 <;> simp only [ind, a, b] <;> decide

namespace Tracer

theorem side_eq_sd (p q x : K × K) : side p q x = sd p q x := rfl

/-- **C82.** For every wall, of any shape: if the line of sight from the middle of the domain to a point is in general position and no
side that it crosses has a determinant of at most `1e-6`, then the point is taken to be outside exactly if one of the two is inside the wall by
the even-odd rule and the other is not. -/
theorem C82_even_odd (wall : List (K × K)) (mid x : K × K) (hg : General wall mid x)
    (hd : ∀ s ∈ sides wall, CrossInside mid x s.1 s.2 → 1 / 1000000 < |dirCross mid x s.1 s.2|) :
    outside wall mid x = true ↔ ¬ (Within wall mid ↔ Within wall x) := by
  rw [← parity hg]
  unfold outside
  rw [foldl_xor (fun i => crosses mid x (wall.getD i (0, 0)) (wall.getD ((i + 1) % wall.length) (0, 0)))]
  have e : (List.range wall.length).countP (fun i => crosses mid x (wall.getD i (0, 0)) (wall.getD ((i + 1) % wall.length) (0, 0))) =
      (sides wall).countP (fun s => Proper mid x s.1 s.2) := by
    rw [← edges_eq_sides]
    simp only [edges, if_true, List.countP_map]
    apply List.countP_congr
    intro i hi
    have hs : (wall.getD i (0, 0), wall.getD ((i + 1) % wall.length) (0, 0)) ∈ sides wall := by
      rw [← edges_eq_sides]
      simp only [edges, if_true]
      exact List.mem_map_of_mem hi
    simp only [Function.comp, decide_eq_true_eq]
    rw [crosses_iff]
    constructor
    · rintro ⟨-, h1, h2⟩
      exact ⟨h2, h1⟩
    · intro h
      have := hd _ hs ((proper_iff _ _ _ _).1 h).1
      rw [dirCross_sd] at this
      exact ⟨this, h.2, h.1⟩
  rw [e]
  simp

/-- **C82.** With the middle of the domain inside the wall, exactly the points that are not inside the wall are taken to be outside. -/
theorem C82_any_wall (wall : List (K × K)) (mid x : K × K) (hm : Within wall mid) (hg : General wall mid x)
    (hd : ∀ s ∈ sides wall, CrossInside mid x s.1 s.2 → 1 / 1000000 < |dirCross mid x s.1 s.2|) :
    outside wall mid x = true ↔ ¬ Within wall x := by
  rw [C82_even_odd wall mid x hg hd]
  simp [hm]

/-- A wall that is not convex: a box with a notch from above. -/
def notched : List (ℚ × ℚ) := [(0, 0), (6, 0), (6, 4), (4, 4), (3, 1), (2, 4), (0, 4)]

/-- The notch hides a part of the inside: the line of sight from `(1, 3)` to `(5, 3)` crosses two sides. -/
example : Within notched (1, 3) ∧ Within notched (5, 3) ∧ ¬ Within notched (3, 3) ∧ ¬ Within notched (7, 1) ∧
    outside notched (1, 3) (5, 3) = false ∧ outside notched (1, 3) (3, 3) = true ∧ outside notched (1, 3) (7, 1) = true := by decide +kernel

theorem notched_general : General notched (1, 3) (5, 3) := by
  intro s hs
  have hs' : s = ((0, 0), (6, 0)) ∨ s = ((6, 0), (6, 4)) ∨ s = ((6, 4), (4, 4)) ∨ s = ((4, 4), (3, 1)) ∨ s = ((3, 1), (2, 4)) ∨
      s = ((2, 4), (0, 4)) ∨ s = ((0, 4), (0, 0)) := by
    have : sides notched = [((0, 0), (6, 0)), ((6, 0), (6, 4)), ((6, 4), (4, 4)), ((4, 4), (3, 1)), ((3, 1), (2, 4)),
      ((2, 4), (0, 4)), ((0, 4), (0, 0))] := by decide +kernel
    rw [this] at hs
    simpa using hs
  rcases hs' with rfl | rfl | rfl | rfl | rfl | rfl | rfl <;> refine ⟨?_, ?_, ?_⟩ <;>
    (rintro ⟨a, b, ha, hb, hab, h⟩
     have h1 := congrArg Prod.fst h
     have h2 := congrArg Prod.snd h
     simp only [Prod.fst_add, Prod.snd_add, Prod.smul_fst, Prod.smul_snd, smul_eq_mul] at h1 h2
     linarith)

/-- A case meeting the hypotheses of `C82_any_wall`. -/
example : Within notched (1, 3) ∧ General notched (1, 3) (5, 3) ∧
    ∀ s ∈ sides notched, CrossInside (1, 3) (5, 3) s.1 s.2 → 1 / 1000000 < |dirCross (1, 3) (5, 3) s.1 s.2| := by
  refine ⟨by decide +kernel, notched_general, fun s hs hc => ?_⟩
  by_contra hn
  have h0 : ∀ s ∈ sides notched, 1 / 1000000 < |dirCross (1, 3) (5, 3) s.1 s.2| ∨ s.1.2 = s.2.2 ∧ s.1.2 ≠ 3 := by decide +kernel
  rcases h0 s hs with h | ⟨h, h'⟩
  · exact hn h
  · obtain ⟨p, ⟨a, b, ha, hb, hab, hp⟩, ⟨c, d, hc, hd, hcd, hp'⟩⟩ := hc
    have e1 := congrArg Prod.snd hp
    have e2 := congrArg Prod.snd hp'
    simp only [Prod.snd_add, Prod.smul_snd, smul_eq_mul] at e1 e2
    rw [← h] at e2
    apply h'
    have : (c + d) * s.1.2 = (a + b) * 3 := by linarith
    rw [hcd, hab] at this
    linarith

end Tracer

namespace WallTest

theorem intersects_ok {s : List (K × K)} {R Z : List K} (h : R.length = Z.length) :
    intersectsWall (.ok s) (some (R, Z)) = .ok (intersectPts s (R.zip Z) true true) := by
  have hz : (s.map Prod.fst).zip (s.map Prod.snd) = s := by
    rw [← List.unzip_fst, ← List.unzip_snd, List.zip_unzip]
  rw [intersectsWall, intersect, if_pos (by simp), if_pos h, hz]

/-- **C100 (what is reported is a crossing).** The call returns for every separatrix and wall; `True` means that a side of the separatrix
and a side of the wall have a common point, and the score of the optimiser is infinite exactly then. -/
theorem C100_sound (s : List (K × K)) (R Z : List K) (h : R.length = Z.length) :
    ∃ b, intersectsWall (.ok s) (some (R, Z)) = .ok b ∧
      (b = true → ∃ A B C D, ClosedEdge s A B ∧ ClosedEdge (R.zip Z) C D ∧ CrossInside A B C D) ∧
      noWallIntersection (.ok s) (some (R, Z)) = .ok (if b = true then ⊤ else 0) := by
  refine ⟨_, intersects_ok h, fun hb => ?_, ?_⟩
  · obtain ⟨A, B, C, D, h1, h2, -, h3⟩ := (intersectPts_closed_iff _ _).1 hb
    exact ⟨A, B, C, D, h1, h2, h3⟩
  · rw [noWallIntersection, intersects_ok h]
    cases intersectPts s (R.zip Z) true true <;> rfl

theorem exists_change {α : Type*} (P : α → Prop) (l : List α) {i j : ℕ} (hi : i < l.length) (hj : j < l.length) (h1 : P l[i]) (h2 : ¬ P l[j]) :
    ∃ k, ∃ hk : k < l.length, ¬ (P l[k] ↔ P (l[(k + 1) % l.length]'(Nat.mod_lt _ (by omega)))) := by
  by_contra hn
  have hn : ∀ k (hk : k < l.length), (P l[k] ↔ P (l[(k + 1) % l.length]'(Nat.mod_lt _ (by omega)))) := by
    intro k hk
    by_contra h
    exact hn ⟨k, hk, h⟩
  have : ∀ k (hk : k < l.length), P l[k] ↔ P (l[0]'(by omega)) := by
    intro k
    induction k with
    | zero => intro _; rfl
    | succ k ih =>
      intro hk
      have := hn k (by omega)
      simp only [Nat.mod_eq_of_lt hk] at this
      rw [← this]
      exact ih (by omega)
  exact h2 ((this j hj).2 ((this i hi).1 h1))

/-- **C100 (what leaves the wall is reported).** For every wall, of any shape, and every separatrix with a point inside the wall and
another that is not: if the sides of the separatrix are in general position and no two sides cross with a determinant below `1e-6`, the
answer is `True` and the score of the optimiser is infinite. -/
theorem C100_leaving (s : List (K × K)) (R Z : List K) (h : R.length = Z.length)
    (hg : ∀ A B, ClosedEdge s A B → General (R.zip Z) A B)
    (hd : ∀ A B C D, ClosedEdge s A B → ClosedEdge (R.zip Z) C D → CrossInside A B C D → 1 / 10 ^ 6 ≤ |dirCross A B C D|)
    {x y : K × K} (hx : x ∈ s) (hy : y ∈ s) (hin : Within (R.zip Z) x) (hout : ¬ Within (R.zip Z) y) :
    intersectsWall (.ok s) (some (R, Z)) = .ok true ∧ noWallIntersection (.ok s) (some (R, Z)) = .ok ⊤ := by
  obtain ⟨i, hi, rfl⟩ := List.getElem_of_mem hx
  obtain ⟨j, hj, rfl⟩ := List.getElem_of_mem hy
  obtain ⟨k, hk, hch⟩ := exists_change (Within (R.zip Z)) s hi hj hin hout
  have he : ClosedEdge s s[k] (s[(k + 1) % s.length]'(Nat.mod_lt _ (by omega))) := ⟨k, hk, rfl, rfl⟩
  have hodd := (parity (hg _ _ he)).2 hch
  have hpos : 0 < (sides (R.zip Z)).countP fun t => Proper s[k] (s[(k + 1) % s.length]'(Nat.mod_lt _ (by omega))) t.1 t.2 := hodd.pos
  rw [List.countP_pos_iff] at hpos
  obtain ⟨t, ht, hp⟩ := hpos
  have hp := (proper_iff _ _ _ _).1 (of_decide_eq_true hp)
  have ht := (mem_sides_iff _ _).1 ht
  have hb : intersectPts s (R.zip Z) true true = true :=
    (intersectPts_closed_iff _ _).2 ⟨_, _, _, _, he, ht, hd _ _ _ _ he ht hp.1, hp.1⟩
  have hr : intersectsWall (.ok s) (some (R, Z)) = .ok true := by rw [intersects_ok h, hb]
  exact ⟨hr, by rw [noWallIntersection, hr]⟩

/-- **C100 (no report).** If the answer is `False`, with the same provisos, then either all points of the separatrix are inside the wall or
none is. -/
theorem C100_no_report (s : List (K × K)) (R Z : List K) (h : R.length = Z.length)
    (hg : ∀ A B, ClosedEdge s A B → General (R.zip Z) A B)
    (hd : ∀ A B C D, ClosedEdge s A B → ClosedEdge (R.zip Z) C D → CrossInside A B C D → 1 / 10 ^ 6 ≤ |dirCross A B C D|)
    (hr : intersectsWall (.ok s) (some (R, Z)) = .ok false) : (∀ x ∈ s, Within (R.zip Z) x) ∨ ∀ x ∈ s, ¬ Within (R.zip Z) x := by
  by_contra hn
  rw [not_or] at hn
  simp only [not_forall, not_not] at hn
  obtain ⟨⟨y, hy, hy'⟩, x, hx, hx'⟩ := hn
  have := (C100_leaving s R Z h hg hd hx hy hx' hy').1
  rw [hr] at this
  cases this

/-- **C100 fails for a plasma outside the wall.** A plasma that is wholly beside the wall is not reported, and the optimiser takes it as
acceptable. -/
theorem C100_beside_fails (s : List (K × K)) (R Z : List K) (h : R.length = Z.length) (c : K) (hs : ∀ p ∈ s, c < p.1) (hw : ∀ r ∈ R, r < c) :
    intersectsWall (.ok s) (some (R, Z)) = .ok false ∧ noWallIntersection (.ok s) (some (R, Z)) = .ok (0 : K) := by
  obtain ⟨b, h1, h2, h3⟩ := C100_sound s R Z h
  have hb : b = false := by
    cases b with
    | false => rfl
    | true =>
      exfalso
      obtain ⟨A, B, C, D, ⟨i, hi, rfl, rfl⟩, ⟨j, hj, rfl, rfl⟩, p, ⟨a, b, ha, hb, hab, rfl⟩, ⟨c', d, hc, hd, hcd, hp⟩⟩ := h2 rfl
      have e := congrArg Prod.fst hp
      simp only [Prod.fst_add, Prod.smul_fst, smul_eq_mul] at e
      have g1 := hs _ (List.getElem_mem hi)
      have g2 := hs _ (List.getElem_mem (Nat.mod_lt (i + 1) (Nat.lt_of_le_of_lt (Nat.zero_le _) hi)))
      have g3 := hw _ (List.of_mem_zip (List.getElem_mem hj)).1
      have g4 := hw _ (List.of_mem_zip (List.getElem_mem (Nat.mod_lt (j + 1) (Nat.lt_of_le_of_lt (Nat.zero_le _) hj)))).1
      have e1 := mul_lt_mul_of_pos_left g1 ha
      have e2 := mul_lt_mul_of_pos_left g2 hb
      have e3 := mul_lt_mul_of_pos_left g3 hc
      have e4 := mul_lt_mul_of_pos_left g4 hd
      have e5 : a * c + b * c = c := by rw [← add_mul, hab, one_mul]
      have e6 : c' * c + d * c = c := by rw [← add_mul, hcd, one_mul]
      simp only [List.get_eq_getElem] at e3 e4
      linarith
  subst hb
  exact ⟨h1, h3⟩

/-- **C100 fails for fine polygons.** If the sides of separatrix and wall are so short that `2 d₁ d₂` is below `1e-6` square metres (lengths in R
and Z at most `d₁` and `d₂`), no crossing is ever reported. -/
theorem C100_fine_fails (s : List (K × K)) (R Z : List K) (h : R.length = Z.length) (d1 d2 : K)
    (h1 : ∀ A B, ClosedEdge s A B → |B.1 - A.1| ≤ d1 ∧ |B.2 - A.2| ≤ d1)
    (h2 : ∀ A B, ClosedEdge (R.zip Z) A B → |B.1 - A.1| ≤ d2 ∧ |B.2 - A.2| ≤ d2) (h3 : 2 * (d1 * d2) < 1 / 10 ^ 6) :
    intersectsWall (.ok s) (some (R, Z)) = .ok false := by
  rw [intersects_ok h]
  congr 1
  rw [← Bool.not_eq_true, intersectPts_closed_iff]
  rintro ⟨A, B, C, D, e1, e2, e3, -⟩
  obtain ⟨a1, a2⟩ := h1 A B e1
  obtain ⟨b1, b2⟩ := h2 C D e2
  have : |dirCross A B C D| ≤ 2 * (d1 * d2) := by
    unfold dirCross
    refine (abs_sub _ _).trans ?_
    rw [abs_mul, abs_mul]
    have c1 := mul_le_mul a1 b2 (abs_nonneg _) ((abs_nonneg _).trans a1)
    have c2 := mul_le_mul b1 a2 (abs_nonneg _) ((abs_nonneg _).trans b1)
    linarith
  linarith

/-- **C100 fails for limited plasmas.** Without an X-point the question is never answered, although a limited plasma touches the wall;
without a wall it raises `AttributeError`. -/
theorem C100_limited_fails (eq : Separatrix.Eq) (opoint xpoint : List (Critical.Point ℝ)) (wall : Option (List ℝ × List ℝ)) (b : Bool) :
    ofEquilibrium eq opoint [] wall ≠ .ok b ∧ ofEquilibrium eq opoint xpoint none ≠ .ok b := by
  unfold ofEquilibrium
  constructor
  · cases hs : Separatrix.separatrix eq opoint [] 360 with
    | error err => simp [intersectsWall]
    | ok s => exact absurd hs (Separatrix.C84_no_xpoint eq opoint 360 s)
  · cases hs : Separatrix.separatrix eq opoint xpoint 360 with
    | error err => simp [intersectsWall]
    | ok s => simp [intersectsWall]

/-- **C100 fails at corners and around the wall.** A plasma that leaves the wall through corners only, one that touches the wall with a
point, and one that encloses the wall are not reported. -/
theorem C100_touching_fails :
    -- a diamond with the corners of the wall on its sides
    intersectsWall (.ok [(2, 0), (0, 2), (-2, 0), (0, -2)]) (some ([1, -1, -1, 1], [1, 1, -1, (-1 : ℚ)])) = .ok false ∧
    -- a triangle that leaves a square through two of its corners
    (intersectsWall (.ok [(0, 0), (3, 3), (3, -3)]) (some ([1, -1, -1, 1], [1, 1, -1, (-1 : ℚ)])) = .ok false ∧
      Within [(1, 1), (-1, 1), (-1, -1), (1, (-1 : ℚ))] (0, 0) ∧ ¬ Within [(1, 1), (-1, 1), (-1, -1), (1, (-1 : ℚ))] (3, 3)) ∧
    -- a triangle with a corner on the wall
    intersectsWall (.ok [(1, 0), (0, 1 / 2), (0, -1 / 2)]) (some ([1, -1, -1, 1], [1, 1, -1, (-1 : ℚ)])) = .ok false ∧
    -- a square around the wall
    intersectsWall (.ok [(2, 2), (-2, 2), (-2, -2), (2, -2)]) (some ([1, -1, -1, 1], [1, 1, -1, (-1 : ℚ)])) = .ok false := by
  decide +kernel

/-- The hypotheses of `C100_leaving` are met by a triangle that leaves a square through its sides. -/
example : Within [(1, 1), (-1, 1), (-1, -1), (1, (-1 : ℚ))] (0, 0) ∧ ¬ Within [(1, 1), (-1, 1), (-1, -1), (1, (-1 : ℚ))] (3, 1) ∧
    intersectsWall (.ok [(0, 0), (3, 1), (3, -1)]) (some ([1, -1, -1, 1], [1, 1, -1, (-1 : ℚ)])) = .ok true ∧
    noWallIntersection (.ok [(0, 0), (3, 1), (3, -1)]) (some ([1, -1, -1, 1], [1, 1, -1, (-1 : ℚ)])) = .ok ⊤ := by decide +kernel

end WallTest

end FreeGS
