import Verif.Lemmas.Quadrature

set_option linter.unusedSectionVars false
set_option linter.unusedSimpArgs false

namespace FreeGS.Quadrature

open FreeGS.Spec FreeGS.Polygons

variable {K : Type*} [Field K] [LinearOrder K] [IsStrictOrderedRing K]

/-! ### Cyclic sums of antisymmetric edge functions -/

/-- Sum of an edge function around a closed polygon. -/
def cyc (f : Pt K → Pt K → K) : List (Pt K) → K
  | [] => 0
  | a :: l => pathSum f (a :: l ++ [a])

theorem cyc_append_comm (f : Pt K → Pt K → K) (l1 l2 : List (Pt K)) :
    cyc f (l1 ++ l2) = cyc f (l2 ++ l1) := by
  cases l1 with
  | nil => simp
  | cons a l1 =>
    cases l2 with
    | nil => simp
    | cons b l2 =>
      simp only [List.cons_append, cyc]
      have e1 : a :: (l1 ++ b :: l2 ++ [a]) = (a :: l1) ++ b :: (l2 ++ [a]) := by simp
      have e2 : b :: (l2 ++ a :: l1 ++ [b]) = (b :: l2) ++ a :: (l1 ++ [b]) := by simp
      rw [e1, e2, pathSum_append _ (a :: l1), pathSum_append _ (b :: l2)]
      simp only [List.cons_append]
      ring

theorem pathSum_reverse_anti (f : Pt K → Pt K → K) (hf : ∀ a b, f b a = -f a b) (l : List (Pt K)) :
    pathSum f l.reverse = -pathSum f l := by
  induction l with
  | nil => simp [pathSum]
  | cons a l ih =>
    cases l with
    | nil => simp [pathSum]
    | cons b l =>
      rw [pathSum, List.reverse_cons, List.reverse_cons, List.append_assoc, List.singleton_append,
        pathSum_append, ← List.reverse_cons, ih]
      simp only [pathSum, hf a b]
      ring

theorem cyc_reverse (f : Pt K → Pt K → K) (hf : ∀ a b, f b a = -f a b) (p : List (Pt K)) :
    cyc f p.reverse = -cyc f p := by
  cases p with
  | nil => simp [cyc]
  | cons a l =>
    rw [List.reverse_cons, cyc_append_comm, List.singleton_append, cyc, cyc]
    have : a :: l.reverse ++ [a] = (a :: l ++ [a]).reverse := by simp
    rw [this, pathSum_reverse_anti f hf]

theorem cyc_remove (f : Pt K → Pt K → K) (hf : ∀ a b, f b a = -f a b) (v : Pt K) (m : List (Pt K))
    (hm : m ≠ []) : cyc f (v :: m) = cyc f m + cyc f [m.getLast hm, v, m.head hm] := by
  have h0 : ∀ a, f a a = 0 := fun a => by
    have := hf a a
    linarith
  obtain ⟨n, m', rfl⟩ := List.exists_cons_of_ne_nil hm
  by_cases hm' : m' = []
  · subst hm'
    simp only [cyc, List.cons_append, List.nil_append, pathSum, List.getLast_singleton, List.head_cons, h0]
    rw [hf n v]; ring
  · obtain ⟨q, l, rfl⟩ : ∃ q l, m' = q ++ [l] :=
      ⟨m'.dropLast, m'.getLast hm', (List.dropLast_append_getLast hm').symm⟩
    have hl : (n :: (q ++ [l])).getLast hm = l := by rw [List.getLast_cons (by simp)]; simp
    rw [hl, List.head_cons]
    simp only [cyc]
    have e1 : v :: n :: (q ++ [l]) ++ [v] = (v :: n :: q) ++ l :: [v] := by simp
    have e2 : n :: (q ++ [l]) ++ [n] = (n :: q) ++ l :: [n] := by simp
    rw [e1, e2, pathSum_append _ (v :: n :: q), pathSum_append _ (n :: q)]
    simp only [List.cons_append, List.nil_append, pathSum, hf l n]
    ring

theorem cyc_eraseIdx (f : Pt K → Pt K → K) (hf : ∀ a b, f b a = -f a b) (p : List (Pt K)) (i : ℕ)
    (hi : i < p.length) (h : 2 ≤ p.length) :
    cyc f p = cyc f (p.eraseIdx i) + cyc f [prevVert p i, p.getD i (0, 0), nextVert p i] := by
  have e1 : cyc f p = cyc f (p[i] :: restOf p i) := by
    conv_lhs => rw [split_at p i hi]
    rw [cyc_append_comm]; rfl
  rw [e1, cyc_remove f hf _ _ (restOf_ne_nil p i hi h), prevVert_eq p i hi h, nextVert_eq p i hi h,
    getD_eq p i hi, eraseIdx_eq, cyc_append_comm f (List.take i p)]
  rfl

theorem loop_cyc (f : Pt K → Pt K → K) (hf : ∀ a b, f b a = -f a b) (n : ℕ) (s : TState K)
    (T : List (List (Pt K))) (h : loop n s = some T) :
    (T.map (cyc f)).sum = (s.tris.map (cyc f)).sum + cyc f s.poly := by
  induction n generalizing s with
  | zero =>
    rw [loop] at h
    by_cases h3 : s.poly.length > 3
    · simp [h3] at h
    · rw [if_neg h3] at h
      rw [← Option.some.inj h]; simp
  | succ n ih =>
    rw [loop] at h
    by_cases h3 : s.poly.length > 3
    · rw [if_pos h3] at h
      rw [ih _ h, body]
      cases he : findEar s.poly with
      | none => rfl
      | some i =>
        obtain ⟨hi, -⟩ := findEar_some _ _ he
        rw [cyc_eraseIdx f hf s.poly i hi (by omega)]
        simp only [List.map_append, List.sum_append, List.map_cons, List.map_nil, List.sum_cons,
          List.sum_nil]
        ring
    · rw [if_neg h3] at h
      rw [← Option.some.inj h]; simp

/-- Sums of antisymmetric edge functions over the triangles, up to the direction of the polygon. -/
theorem triangulate_cyc (p : List (Pt K)) (T : List (List (Pt K))) (h : triangulate p = .ok (some T)) :
    ∃ ε : K, (ε = 1 ∨ ε = -1) ∧ area (orient p) = ε * area p ∧
      ∀ f : Pt K → Pt K → K, (∀ a b, f b a = -f a b) → (T.map (cyc f)).sum = ε * cyc f p := by
  rw [triangulate] at h
  by_cases h2 : p.length > 2
  · rw [if_pos h2] at h
    have hl := Except.ok.inj h
    by_cases hc : clockwise p = true
    · refine ⟨1, Or.inl rfl, by rw [orient, if_pos hc, one_mul], fun f hf => ?_⟩
      rw [loop_cyc f hf _ _ _ hl]; simp [orient, hc]
    · refine ⟨-1, Or.inr rfl, by rw [orient, if_neg hc, area_reverse]; ring, fun f hf => ?_⟩
      rw [loop_cyc f hf _ _ _ hl]
      simp only [orient, if_neg hc, List.map_nil, List.sum_nil, cyc_reverse f hf]; ring
  · rw [if_neg h2] at h; simp at h

theorem zip_sum (f : Pt K → Pt K → K) (x : Pt K) (l : List (Pt K)) (b : Pt K) :
    (((x :: l).zip (l ++ [b])).map fun e => f e.1 e.2).sum = pathSum f (x :: (l ++ [b])) := by
  induction l generalizing x with
  | nil => simp [pathSum]
  | cons y l ih =>
    simp only [List.cons_append, List.zip_cons_cons, List.map_cons, List.sum_cons, pathSum]
    rw [← ih y]

/-- Edge functions of the first moments. -/
def mr (a b : Pt K) : K := (a.1 + b.1) * (a.2 * b.1 - a.1 * b.2)
/-- Edge functions of the first moments. -/
def mz (a b : Pt K) : K := (a.2 + b.2) * (a.2 * b.1 - a.1 * b.2)

theorem moment_eq (p : List (Pt K)) : moment p = (cyc mr p / 3, cyc mz p / 3) := by
  cases p with
  | nil => simp [moment, cyc]
  | cons a l =>
    simp only [moment, List.tail_cons, List.head?_cons, Option.toList_some, cyc, List.cons_append]
    rw [← zip_sum mr, ← zip_sum mz]
    rfl

theorem moment_triangle (A B C : Pt K) :
    moment [A, B, C] = (2 * area [A, B, C] * ((A.1 + B.1 + C.1) / 3),
      2 * area [A, B, C] * ((A.2 + B.2 + C.2) / 3)) := by
  rw [moment_eq, area_triple]
  simp only [cyc, List.cons_append, List.nil_append, pathSum, mr, mz, turn]
  refine Prod.ext ?_ ?_ <;> simp only <;> ring

theorem area_eq_cyc (p : List (Pt K)) : area p = (1 / 2) * cyc trap p := by
  cases p with
  | nil => simp [area_nil, cyc]
  | cons a l => rw [area_cons, cyc]

/-! ### The quadrature of a polygon -/

/-- The sum of the weights of the `n`-point rule. -/
def wsum (n : ℕ) : K := if n = 6 then 1 - 1 / 10 ^ 15 else 1

theorem triangleQuad_ok (t : List (Pt K)) (ht : t.length = 3) (n : ℕ) (hn : n = 1 ∨ n = 3 ∨ n = 6) :
    ∃ q, triangleQuad t n = .ok q ∧ q.length = n ∧ (q.map fun x => x.2.2).sum = wsum n ∧
      ∀ c0 c1 c2 : K, average (fun r z => c0 + c1 * r + c2 * z) q * (2 * area t) =
        wsum n * (c0 * (2 * area t) + c1 * (moment t).1 + c2 * (moment t).2) := by
  obtain ⟨A, B, C, rfl⟩ := List.length_eq_three.1 ht
  rw [moment_triangle]
  rcases hn with rfl | rfl | rfl
  · refine ⟨_, rfl, rfl, by simp [wsum], fun c0 c1 c2 => ?_⟩
    simp [average, wsum]; ring
  · refine ⟨_, rfl, rfl, ?_, fun c0 c1 c2 => ?_⟩
    · simp [wsum]; norm_num
    · simp [average, wsum]; ring
  · refine ⟨_, rfl, rfl, ?_, fun c0 c1 c2 => ?_⟩
    · simp [wsum, qw1, qw2]; norm_num
    · simp [average, wsum, bary, qb, qd, qa, qc, qw1, qw2]; ring

theorem quadLoop_ok (total : K) (ht : total ≠ 0) (n : ℕ) (hn : n = 1 ∨ n = 3 ∨ n = 6)
    (T : List (List (Pt K))) (hT : ∀ t ∈ T, t.length = 3) :
    ∃ q, quadLoop total n T = .ok q ∧ q.length = n * T.length ∧
      (q.map fun x => x.2.2).sum = wsum n * ((T.map area).sum / total) ∧
      ∀ c0 c1 c2 : K, average (fun r z => c0 + c1 * r + c2 * z) q =
        wsum n * (c0 * (T.map area).sum + c1 * ((T.map fun t => (moment t).1).sum / 2)
          + c2 * ((T.map fun t => (moment t).2).sum / 2)) / total := by
  induction T with
  | nil => exact ⟨[], rfl, by simp, by simp, by simp [average]⟩
  | cons t T ih =>
    obtain ⟨q, h1, h2, h3, h4⟩ := ih fun t h => hT t (by simp [h])
    obtain ⟨p, g1, g2, g3, g4⟩ := triangleQuad_ok t (hT t (by simp)) n hn
    refine ⟨p.map (fun q => (q.1, q.2.1, q.2.2 * area t / total)) ++ q, ?_, ?_, ?_, ?_⟩
    · rw [quadLoop]; simp only [g1, if_neg ht, h1]
    · simp [h2, g2]; ring
    · rw [List.map_append, List.sum_append, h3, List.map_map]
      have : (p.map ((fun x : QPt K => x.2.2) ∘ fun q => (q.1, q.2.1, q.2.2 * area t / total))).sum =
          (p.map fun x => x.2.2).sum * (area t / total) := by
        rw [← List.sum_map_mul_right]
        congr 1
        refine List.map_congr_left fun x _ => ?_
        simp only [Function.comp_apply]; ring
      rw [this, g3]
      simp only [List.map_cons, List.sum_cons]; ring
    · intro c0 c1 c2
      have e : average (fun r z => c0 + c1 * r + c2 * z)
          (p.map (fun q => (q.1, q.2.1, q.2.2 * area t / total))) =
          average (fun r z => c0 + c1 * r + c2 * z) p * (area t / total) := by
        simp only [average, List.map_map]
        rw [← List.sum_map_mul_right]
        congr 1
        refine List.map_congr_left fun x _ => ?_
        simp only [Function.comp_apply]; ring
      have hg := g4 c0 c1 c2
      have hsplit : ∀ q1 q2 : List (QPt K), average (fun r z => c0 + c1 * r + c2 * z) (q1 ++ q2) =
          average (fun r z => c0 + c1 * r + c2 * z) q1 + average (fun r z => c0 + c1 * r + c2 * z) q2 := by
        intro q1 q2; simp [average]
      rw [hsplit, e, h4]
      simp only [List.map_cons, List.sum_cons]
      field_simp
      linear_combination hg

theorem quadLoop_error (total : K) (n : ℕ) (hn : ¬ (n = 1 ∨ n = 3 ∨ n = 6)) (t : List (Pt K))
    (T : List (List (Pt K))) (ht : t.length = 3) : quadLoop total n (t :: T) = .error .value := by
  obtain ⟨A, B, C, rfl⟩ := List.length_eq_three.1 ht
  rw [quadLoop, triangleQuad]
  simp only [not_or] at hn
  simp [hn.1, hn.2.1, hn.2.2]

/-! ### Translation -/

/-- Translate quadrature points. -/
def shiftQ (v : Pt K) (q : List (QPt K)) : List (QPt K) :=
  q.map fun x => (x.1 + v.1, x.2.1 + v.2, x.2.2)

theorem triangleQuad_shift (v : Pt K) (t : List (Pt K)) (n : ℕ) :
    triangleQuad (shift v t) n = (triangleQuad t n).map (shiftQ v) := by
  match t with
  | [] => rfl
  | [_] => rfl
  | [_, _] => rfl
  | _ :: _ :: _ :: _ :: _ => rfl
  | [A, B, C] =>
    simp only [shift, List.map_cons, List.map_nil, triangleQuad]
    by_cases h1 : n = 1
    · simp only [h1, if_true, Except.map, shiftQ, List.map_cons, List.map_nil]
      congr 3 <;> ring_nf
    · by_cases h3 : n = 3
      · simp only [h3, if_true, Except.map, shiftQ, List.map_cons, List.map_nil]
        norm_num
        refine ⟨⟨?_, ?_⟩, ⟨?_, ?_⟩, ?_, ?_⟩ <;> ring
      · by_cases h6 : n = 6
        · simp only [h6, if_true, Except.map, shiftQ, List.map_cons, List.map_nil, bary, qb, qd]
          norm_num
          refine ⟨⟨?_, ?_⟩, ⟨?_, ?_⟩, ⟨?_, ?_⟩, ⟨?_, ?_⟩, ⟨?_, ?_⟩, ?_, ?_⟩ <;> ring
        · simp [h1, h3, h6, Except.map]

theorem quadLoop_shift (v : Pt K) (total : K) (n : ℕ) (T : List (List (Pt K))) :
    quadLoop total n (T.map (shift v)) = (quadLoop total n T).map (shiftQ v) := by
  induction T with
  | nil => rfl
  | cons t T ih =>
    simp only [List.map_cons, quadLoop, triangleQuad_shift, area_shift, ih]
    cases triangleQuad t n with
    | error e => rfl
    | ok pts =>
      simp only [Except.map]
      split
      · rfl
      · cases quadLoop total n T with
        | error e => rfl
        | ok rest => simp [shiftQ]

theorem polygonQuad_shift (v : Pt K) (p : List (Pt K)) (n : ℕ) :
    polygonQuad (shift v p) n = (polygonQuad p n).map (Option.map (shiftQ v)) := by
  rw [polygonQuad, polygonQuad, triangulate_shift]
  cases triangulate p with
  | error e => rfl
  | ok o =>
    cases o with
    | none => rfl
    | some T =>
      have : (List.map area (T.map (shift v))) = T.map area := by
        rw [List.map_map]
        refine List.map_congr_left fun t _ => ?_
        simp [area_shift]
      simp only [Except.map, Option.map, this, quadLoop_shift]
      cases quadLoop (T.map area).sum n T <;> rfl

end FreeGS.Quadrature
