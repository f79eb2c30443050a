import Verif.Model.Polygons
import Verif.Spec.Polygons
import Mathlib.Data.List.Rotate

set_option linter.unusedSectionVars false

namespace FreeGS.Polygons

open FreeGS.Spec

variable {K : Type*} [Field K] [LinearOrder K] [IsStrictOrderedRing K]

/-! ### Segment crossing -/

theorem crossInside_iff (P1 P2 Q1 Q2 : Pt K) (hdet : dirCross P1 P2 Q1 Q2 ≠ 0) :
    CrossInside P1 P2 Q1 Q2 ↔
      (0 < ((Q2.2 - Q1.2) * (Q2.1 - P1.1) - (Q2.1 - Q1.1) * (Q2.2 - P1.2)) / dirCross P1 P2 Q1 Q2 ∧
       ((Q2.2 - Q1.2) * (Q2.1 - P1.1) - (Q2.1 - Q1.1) * (Q2.2 - P1.2)) / dirCross P1 P2 Q1 Q2 < 1 ∧
       0 < ((P2.1 - P1.1) * (Q2.2 - P1.2) - (P2.2 - P1.2) * (Q2.1 - P1.1)) / dirCross P1 P2 Q1 Q2 ∧
       ((P2.1 - P1.1) * (Q2.2 - P1.2) - (P2.2 - P1.2) * (Q2.1 - P1.1)) / dirCross P1 P2 Q1 Q2 < 1) := by
  constructor
  · rintro ⟨X, ⟨a, s, ha, hs, has, hX⟩, ⟨t, b, ht, hb, htb, hY⟩⟩
    have ea : a = 1 - s := by linarith
    have eb : b = 1 - t := by linarith
    have h1 := congrArg Prod.fst (hX.trans hY.symm)
    have h2 := congrArg Prod.snd (hX.trans hY.symm)
    simp only [Prod.fst_add, Prod.snd_add, Prod.smul_fst, Prod.smul_snd, smul_eq_mul, ea, eb] at h1 h2
    have e1 : ((Q2.2 - Q1.2) * (Q2.1 - P1.1) - (Q2.1 - Q1.1) * (Q2.2 - P1.2))
        = s * dirCross P1 P2 Q1 Q2 := by
      unfold dirCross
      linear_combination (-(Q2.2 - Q1.2)) * h1 + (Q2.1 - Q1.1) * h2
    have e2 : ((P2.1 - P1.1) * (Q2.2 - P1.2) - (P2.2 - P1.2) * (Q2.1 - P1.1))
        = t * dirCross P1 P2 Q1 Q2 := by
      unfold dirCross
      linear_combination (P2.2 - P1.2) * h1 - (P2.1 - P1.1) * h2
    rw [e1, e2, mul_div_assoc, mul_div_assoc, div_self hdet, mul_one, mul_one]
    exact ⟨hs, by linarith, ht, by linarith⟩
  · rintro ⟨h1, h2, h3, h4⟩
    obtain ⟨s, hs⟩ : ∃ s, s = ((Q2.2 - Q1.2) * (Q2.1 - P1.1) - (Q2.1 - Q1.1) * (Q2.2 - P1.2)) /
      dirCross P1 P2 Q1 Q2 := ⟨_, rfl⟩
    obtain ⟨t, ht⟩ : ∃ t, t = ((P2.1 - P1.1) * (Q2.2 - P1.2) - (P2.2 - P1.2) * (Q2.1 - P1.1)) /
      dirCross P1 P2 Q1 Q2 := ⟨_, rfl⟩
    rw [← hs] at h1 h2
    rw [← ht] at h3 h4
    have e1 : s * dirCross P1 P2 Q1 Q2 = (Q2.2 - Q1.2) * (Q2.1 - P1.1) - (Q2.1 - Q1.1) * (Q2.2 - P1.2) := by
      rw [hs, div_mul_cancel₀ _ hdet]
    have e2 : t * dirCross P1 P2 Q1 Q2 = (P2.1 - P1.1) * (Q2.2 - P1.2) - (P2.2 - P1.2) * (Q2.1 - P1.1) := by
      rw [ht, div_mul_cancel₀ _ hdet]
    refine ⟨(1 - s) • P1 + s • P2, ⟨1 - s, s, by linarith, h1, by ring, rfl⟩,
      ⟨t, 1 - t, h3, by linarith, by ring, ?_⟩⟩
    have f1 : t * Q1.1 + (1 - t) * Q2.1 = (1 - s) * P1.1 + s * P2.1 := by
      refine mul_right_cancel₀ hdet ?_
      have g1 : (t * Q1.1 + (1 - t) * Q2.1) * dirCross P1 P2 Q1 Q2
        = Q2.1 * dirCross P1 P2 Q1 Q2 - (t * dirCross P1 P2 Q1 Q2) * (Q2.1 - Q1.1) := by ring
      have g2 : ((1 - s) * P1.1 + s * P2.1) * dirCross P1 P2 Q1 Q2
        = P1.1 * dirCross P1 P2 Q1 Q2 + (s * dirCross P1 P2 Q1 Q2) * (P2.1 - P1.1) := by ring
      rw [g1, g2, e1, e2]
      unfold dirCross
      ring
    have f2 : t * Q1.2 + (1 - t) * Q2.2 = (1 - s) * P1.2 + s * P2.2 := by
      refine mul_right_cancel₀ hdet ?_
      have g1 : (t * Q1.2 + (1 - t) * Q2.2) * dirCross P1 P2 Q1 Q2
        = Q2.2 * dirCross P1 P2 Q1 Q2 - (t * dirCross P1 P2 Q1 Q2) * (Q2.2 - Q1.2) := by ring
      have g2 : ((1 - s) * P1.2 + s * P2.2) * dirCross P1 P2 Q1 Q2
        = P1.2 * dirCross P1 P2 Q1 Q2 + (s * dirCross P1 P2 Q1 Q2) * (P2.2 - P1.2) := by ring
      rw [g1, g2, e1, e2]
      unfold dirCross
      ring
    ext
    · simpa using f1
    · simpa using f2

theorem segCross_iff (P1 P2 Q1 Q2 : Pt K) :
    segCross P1 P2 Q1 Q2 = true ↔
      1 / 10 ^ 6 ≤ |dirCross P1 P2 Q1 Q2| ∧ CrossInside P1 P2 Q1 Q2 := by
  simp only [segCross]
  by_cases h : |dirCross P1 P2 Q1 Q2| < 1 / 10 ^ 6
  · have h' : |(P2.1 - P1.1) * (Q2.2 - Q1.2) - (Q2.1 - Q1.1) * (P2.2 - P1.2)| < 1 / 10 ^ 6 := h
    rw [if_pos h']
    constructor
    · intro hf; exact absurd hf (by simp)
    · intro hc; exact absurd hc.1 (not_le.2 h)
  · have h' : ¬ |(P2.1 - P1.1) * (Q2.2 - Q1.2) - (Q2.1 - Q1.1) * (P2.2 - P1.2)| < 1 / 10 ^ 6 := h
    rw [if_neg h']
    have hdet : dirCross P1 P2 Q1 Q2 ≠ 0 := by
      intro h0
      rw [h0] at h
      exact h (by rw [abs_zero]; positivity)
    rw [crossInside_iff _ _ _ _ hdet]
    simp only [Bool.and_eq_true, decide_eq_true_eq, gt_iff_lt]
    unfold dirCross at *
    have := not_lt.1 h
    tauto

theorem mem_edges_closed (p : List (Pt K)) (e : Pt K × Pt K) :
    e ∈ edges p true ↔ ClosedEdge p e.1 e.2 := by
  simp only [edges, if_true, List.mem_map, List.mem_range, ClosedEdge]
  constructor
  · rintro ⟨i, hi, rfl⟩
    refine ⟨i, hi, ?_, ?_⟩
    · simp [hi]
    · have := Nat.mod_lt (i + 1) (Nat.lt_of_le_of_lt (Nat.zero_le _) hi)
      simp [this]
  · rintro ⟨i, hi, h1, h2⟩
    refine ⟨i, hi, ?_⟩
    have := Nat.mod_lt (i + 1) (Nat.lt_of_le_of_lt (Nat.zero_le _) hi)
    ext1
    · simp [hi, h1]
    · simp [this, h2]

theorem intersectPts_closed_iff (p1 p2 : List (Pt K)) :
    intersectPts p1 p2 true true = true ↔
      ∃ A B C D, ClosedEdge p1 A B ∧ ClosedEdge p2 C D ∧
        1 / 10 ^ 6 ≤ |dirCross A B C D| ∧ CrossInside A B C D := by
  simp only [intersectPts, List.any_eq_true]
  constructor
  · rintro ⟨e, he, f, hf, h⟩
    exact ⟨e.1, e.2, f.1, f.2, (mem_edges_closed _ _).1 he, (mem_edges_closed _ _).1 hf,
      (segCross_iff _ _ _ _).1 h⟩
  · rintro ⟨A, B, C, D, h1, h2, h3⟩
    exact ⟨(A, B), (mem_edges_closed _ _).2 h1, (C, D), (mem_edges_closed _ _).2 h2,
      (segCross_iff _ _ _ _).2 h3⟩

theorem edges_open (p : List (Pt K)) : edges p false = edges p.dropLast true := by
  simp only [edges, List.length_dropLast]
  refine List.map_congr_left fun i hi => ?_
  simp only [Bool.false_eq_true, if_false, if_true, List.mem_range] at hi ⊢
  have h2 := Nat.mod_lt (i + 1) (Nat.lt_of_le_of_lt (Nat.zero_le _) hi)
  ext1
  · simp only [List.getD_eq_getElem?_getD, List.getElem?_dropLast]
    rw [if_pos hi]
  · simp only [List.getD_eq_getElem?_getD, List.getElem?_dropLast]
    rw [if_pos h2]

theorem intersectPts_open (p1 p2 : List (Pt K)) :
    intersectPts p1 p2 false false = intersectPts p1.dropLast p2.dropLast true true := by
  simp only [intersectPts, edges_open]

theorem dirCross_comm (A B C D : Pt K) : dirCross C D A B = -dirCross A B C D := by
  unfold dirCross; ring

theorem crossInside_comm (A B C D : Pt K) : CrossInside C D A B ↔ CrossInside A B C D := by
  unfold CrossInside; rw [Set.inter_comm]

theorem intersectPts_symm (p1 p2 : List (Pt K)) :
    intersectPts p1 p2 true true = intersectPts p2 p1 true true := by
  rw [Bool.eq_iff_iff, intersectPts_closed_iff, intersectPts_closed_iff]
  constructor
  · rintro ⟨A, B, C, D, h1, h2, h3, h4⟩
    exact ⟨C, D, A, B, h2, h1, by rw [dirCross_comm, abs_neg]; exact h3, (crossInside_comm _ _ _ _).2 h4⟩
  · rintro ⟨A, B, C, D, h1, h2, h3, h4⟩
    exact ⟨C, D, A, B, h2, h1, by rw [dirCross_comm, abs_neg]; exact h3, (crossInside_comm _ _ _ _).2 h4⟩

theorem edges_map (g : Pt K → Pt K) (p : List (Pt K)) (c : Bool) :
    edges (p.map g) c = (edges p c).map fun e => (g e.1, g e.2) := by
  simp only [edges, List.length_map, List.map_map]
  refine List.map_congr_left fun i hi => ?_
  simp only [List.mem_range] at hi
  have hn : (if c = true then p.length else p.length - 1) ≤ p.length := by split <;> omega
  have h1 : i < p.length := by omega
  have h2 := Nat.mod_lt (i + 1) (Nat.lt_of_le_of_lt (Nat.zero_le _) hi)
  have h2' : (i + 1) % (if c = true then p.length else p.length - 1) < p.length := by omega
  simp [h1, h2']

theorem segCross_shift (v P1 P2 Q1 Q2 : Pt K) :
    segCross (P1.1 + v.1, P1.2 + v.2) (P2.1 + v.1, P2.2 + v.2) (Q1.1 + v.1, Q1.2 + v.2)
      (Q2.1 + v.1, Q2.2 + v.2) = segCross P1 P2 Q1 Q2 := by
  simp only [segCross, add_sub_add_right_eq_sub]

theorem intersectPts_shift (v : Pt K) (p1 p2 : List (Pt K)) (c1 c2 : Bool) :
    intersectPts (shift v p1) (shift v p2) c1 c2 = intersectPts p1 p2 c1 c2 := by
  simp only [intersectPts, shift, edges_map, List.any_map]
  congr 1; funext e; simp only [Function.comp_apply]
  congr 1; funext f; simp only [Function.comp_apply, segCross_shift]

/-! ### Area -/

/-- Sum of `f` over consecutive elements. -/
def pathSum (f : Pt K → Pt K → K) : List (Pt K) → K
  | [] => 0
  | [_] => 0
  | a :: b :: l => f a b + pathSum f (b :: l)

theorem pathSum_append (f : Pt K → Pt K → K) (l1 : List (Pt K)) (x : Pt K) (l2 : List (Pt K)) :
    pathSum f (l1 ++ x :: l2) = pathSum f (l1 ++ [x]) + pathSum f (x :: l2) := by
  induction l1 with
  | nil => simp [pathSum]
  | cons a l1 ih =>
    cases l1 with
    | nil => simp [pathSum]
    | cons b l1 =>
      simp only [List.cons_append, pathSum] at ih ⊢
      rw [ih]; ring

/-- The summand of `area`. -/
def trap (a b : Pt K) : K := (b.1 - a.1) * (a.2 + b.2)

theorem pathSum_eq_range (f : Pt K → Pt K → K) (l : List (Pt K)) :
    pathSum f l = ((List.range (l.length - 1)).map
      fun i => f (l.getD i (0, 0)) (l.getD (i + 1) (0, 0))).sum := by
  induction l with
  | nil => simp [pathSum]
  | cons a l ih =>
    cases l with
    | nil => simp [pathSum]
    | cons b l =>
      rw [pathSum, ih]
      simp only [List.length_cons, Nat.add_sub_cancel]
      rw [List.range_succ_eq_map, List.map_cons, List.sum_cons, List.map_map]
      rfl

theorem area_cons (a : Pt K) (l : List (Pt K)) :
    area (a :: l) = (1 / 2) * pathSum trap (a :: l ++ [a]) := by
  rw [pathSum_eq_range, area, edges, List.map_map]
  congr 2
  simp only [List.cons_append, List.length_cons, List.length_append, List.length_nil, if_true]
  refine List.map_congr_left fun i hi => ?_
  have hi' := List.mem_range.1 hi
  simp only [Function.comp_apply, trap]
  have e1 : (a :: (l ++ [a])).getD i (0, 0) = (a :: l).getD i (0, 0) := by
    simp only [List.getD_eq_getElem?_getD]
    rw [show a :: (l ++ [a]) = (a :: l) ++ [a] from rfl, List.getElem?_append_left (by simpa using hi')]
  have e2 : (a :: (l ++ [a])).getD (i + 1) (0, 0) = (a :: l).getD ((i + 1) % (l.length + 1)) (0, 0) := by
    by_cases hlt : i + 1 < l.length + 1
    · rw [Nat.mod_eq_of_lt hlt]
      simp only [List.getD_eq_getElem?_getD]
      rw [show a :: (l ++ [a]) = (a :: l) ++ [a] from rfl, List.getElem?_append_left (by simpa using hlt)]
    · have : i + 1 = l.length + 1 := by omega
      rw [this, Nat.mod_self]
      simp
  rw [e1, e2]

theorem area_nil : area ([] : List (Pt K)) = 0 := by simp [area, edges]

theorem area_append_comm (l1 l2 : List (Pt K)) : area (l1 ++ l2) = area (l2 ++ l1) := by
  cases l1 with
  | nil => simp
  | cons a l1 =>
    cases l2 with
    | nil => simp
    | cons b l2 =>
      simp only [List.cons_append]
      rw [area_cons, area_cons]
      congr 1
      have e1 : a :: (l1 ++ b :: l2) ++ [a] = (a :: l1) ++ b :: (l2 ++ [a]) := by simp
      have e2 : b :: (l2 ++ a :: l1) ++ [b] = (b :: l2) ++ a :: (l1 ++ [b]) := by simp
      rw [e1, e2, pathSum_append _ (a :: l1), pathSum_append _ (b :: l2)]
      simp only [List.cons_append]
      ring

theorem area_rotate (p : List (Pt K)) (k : ℕ) : area (p.rotate k) = area p := by
  rw [List.rotate_eq_drop_append_take_mod, area_append_comm, List.take_append_drop]

theorem pathSum_reverse (l : List (Pt K)) : pathSum trap l.reverse = -pathSum trap l := by
  induction l with
  | nil => simp [pathSum]
  | cons a l ih =>
    cases l with
    | nil => simp [pathSum]
    | cons b l =>
      rw [pathSum, List.reverse_cons, List.reverse_cons, List.append_assoc, List.singleton_append,
        pathSum_append, ← List.reverse_cons, ih]
      simp only [pathSum, trap]
      ring

theorem area_reverse (p : List (Pt K)) : area p.reverse = -area p := by
  cases p with
  | nil => simp [area_nil]
  | cons a l =>
    rw [List.reverse_cons, area_append_comm, List.singleton_append, area_cons, area_cons]
    have : a :: l.reverse ++ [a] = (a :: l ++ [a]).reverse := by simp
    rw [this, pathSum_reverse]; ring

theorem area_map (g : Pt K → Pt K) (p : List (Pt K)) :
    area (p.map g) = (1 / 2) * ((edges p true).map fun e => trap (g e.1) (g e.2)).sum := by
  simp only [area, edges_map, List.map_map]; rfl

theorem pathSum_telescope (h : Pt K → K) (a : Pt K) (l : List (Pt K)) (b : Pt K) :
    pathSum (fun x y => h y - h x) (a :: l ++ [b]) = h b - h a := by
  induction l generalizing a with
  | nil => simp [pathSum]
  | cons c l ih =>
    simp only [List.cons_append, pathSum] at ih ⊢
    rw [ih]; ring

theorem pathSum_add (f g : Pt K → Pt K → K) (l : List (Pt K)) :
    pathSum (fun x y => f x y + g x y) l = pathSum f l + pathSum g l := by
  induction l with
  | nil => simp [pathSum]
  | cons a l ih =>
    cases l with
    | nil => simp [pathSum]
    | cons b l => simp only [pathSum] at ih ⊢; rw [ih]; ring

theorem pathSum_map (f : Pt K → Pt K → K) (g : Pt K → Pt K) (l : List (Pt K)) :
    pathSum f (l.map g) = pathSum (fun x y => f (g x) (g y)) l := by
  induction l with
  | nil => simp [pathSum]
  | cons a l ih =>
    cases l with
    | nil => simp [pathSum]
    | cons b l => simp only [List.map_cons, pathSum] at ih ⊢; rw [ih]

theorem area_shift (v : Pt K) (p : List (Pt K)) : area (shift v p) = area p := by
  cases p with
  | nil => simp [shift]
  | cons a l =>
    have e : shift v (a :: l) = (a.1 + v.1, a.2 + v.2) :: shift v l := by simp [shift]
    rw [e, area_cons, area_cons]
    congr 1
    have e2 : (a.1 + v.1, a.2 + v.2) :: shift v l ++ [(a.1 + v.1, a.2 + v.2)]
        = (a :: l ++ [a]).map (fun q => (q.1 + v.1, q.2 + v.2)) := by simp [shift]
    rw [e2, pathSum_map]
    have e3 : (fun x y : Pt K => trap (x.1 + v.1, x.2 + v.2) (y.1 + v.1, y.2 + v.2))
        = fun x y => trap x y + ((2 * v.2 * y.1) - (2 * v.2 * x.1)) := by
      funext x y; simp only [trap]; ring
    rw [e3, pathSum_add trap (fun x y => (fun q : Pt K => 2 * v.2 * q.1) y - (fun q : Pt K => 2 * v.2 * q.1) x),
      pathSum_telescope]
    ring

theorem pathSum_smul (f : Pt K → Pt K → K) (c : K) (l : List (Pt K)) :
    pathSum (fun x y => c * f x y) l = c * pathSum f l := by
  induction l with
  | nil => simp [pathSum]
  | cons a l ih =>
    cases l with
    | nil => simp [pathSum]
    | cons b l => simp only [pathSum] at ih ⊢; rw [ih]; ring

theorem area_scale (c : K) (p : List (Pt K)) :
    area (p.map fun q => (c * q.1, c * q.2)) = c ^ 2 * area p := by
  cases p with
  | nil => simp [area_nil]
  | cons a l =>
    rw [List.map_cons, area_cons, area_cons]
    have e2 : (c * a.1, c * a.2) :: l.map (fun q => (c * q.1, c * q.2)) ++ [(c * a.1, c * a.2)]
        = (a :: l ++ [a]).map (fun q => (c * q.1, c * q.2)) := by simp
    rw [e2, pathSum_map]
    have e3 : (fun x y : Pt K => trap (c * x.1, c * x.2) (c * y.1, c * y.2))
        = fun x y => c ^ 2 * trap x y := by
      funext x y; simp only [trap]; ring
    rw [e3, pathSum_smul]; ring

/-- Cutting along the diagonal between two vertices. -/
theorem area_cut (a : Pt K) (l1 : List (Pt K)) (b : Pt K) (l2 : List (Pt K)) :
    area (a :: l1 ++ b :: l2) = area (a :: l1 ++ [b]) + area (a :: b :: l2) := by
  simp only [List.cons_append]
  rw [area_cons, area_cons, area_cons]
  have e1 : a :: (l1 ++ b :: l2) ++ [a] = (a :: l1) ++ b :: (l2 ++ [a]) := by simp
  have e2 : a :: (l1 ++ [b]) ++ [a] = (a :: l1) ++ b :: [a] := by simp
  rw [e1, e2, pathSum_append, pathSum_append _ (a :: l1) b [a]]
  simp only [List.cons_append, pathSum, trap]
  ring

theorem area_triple (A B C : Pt K) : area [A, B, C] = turn A B C / 2 := by
  rw [area_cons]; simp only [List.cons_append, List.nil_append, pathSum, trap, turn]; ring

theorem cross_eq_turn (A B C : Pt K) : cross A B C = turn A B C := by
  simp only [cross, turn]; ring

/-- Removing one vertex removes the triangle it forms with its neighbours. -/
theorem area_remove (v : Pt K) (m : List (Pt K)) (hm : m ≠ []) :
    area (v :: m) = area m + area [m.getLast hm, v, m.head hm] := by
  cases m with
  | nil => exact absurd rfl hm
  | cons n m =>
    induction m using List.reverseRecOn with
    | nil =>
      rw [area_cons, area_cons, area_cons]; simp only [List.cons_append, List.nil_append, pathSum, trap, List.getLast_singleton, List.head_cons]; ring
    | append_singleton m p _ =>
      have hl : (n :: (m ++ [p])).getLast hm = p := by
        rw [List.getLast_cons (by simp)]; simp
      rw [hl, List.head_cons, area_triple]
      rw [area_cons, area_cons]
      have e1 : v :: n :: (m ++ [p]) ++ [v] = (v :: n :: m) ++ p :: [v] := by simp
      have e2 : n :: (m ++ [p]) ++ [n] = (n :: m) ++ p :: [n] := by simp
      rw [e1, e2, pathSum_append, pathSum_append _ (n :: m) p [n]]
      simp only [List.cons_append, pathSum, trap, turn]
      ring

end FreeGS.Polygons
