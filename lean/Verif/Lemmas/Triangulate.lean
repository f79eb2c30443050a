import Verif.Lemmas.Polygons

set_option linter.unusedSectionVars false

namespace FreeGS.Polygons

open FreeGS.Spec

variable {K : Type*} [Field K] [LinearOrder K] [IsStrictOrderedRing K]

/-! ### Ear clipping -/

theorem eraseIdx_eq (p : List (Pt K)) (i : ℕ) : p.eraseIdx i = p.take i ++ p.drop (i + 1) :=
  List.eraseIdx_eq_take_drop_succ p i

theorem split_at (p : List (Pt K)) (i : ℕ) (hi : i < p.length) :
    p = p.take i ++ p[i] :: p.drop (i + 1) := by
  rw [List.getElem_cons_drop hi, List.take_append_drop]

theorem restOf_length (p : List (Pt K)) (i : ℕ) (hi : i < p.length) :
    (restOf p i).length = p.length - 1 := by
  simp [restOf]; omega

theorem restOf_ne_nil (p : List (Pt K)) (i : ℕ) (hi : i < p.length) (h : 2 ≤ p.length) :
    restOf p i ≠ [] := by
  intro h0
  have := restOf_length p i hi
  rw [h0] at this
  simp at this; omega

theorem nextVert_eq (p : List (Pt K)) (i : ℕ) (hi : i < p.length) (h : 2 ≤ p.length) :
    nextVert p i = (restOf p i).head (restOf_ne_nil p i hi h) := by
  rw [List.head_eq_getElem]
  simp only [nextVert, restOf, List.getD_eq_getElem?_getD]
  by_cases h1 : i + 1 < p.length
  · rw [Nat.mod_eq_of_lt h1, List.getElem_append_left (by simp; omega)]
    simp [h1]
  · have : i + 1 = p.length := by omega
    rw [List.getElem_append_right (by simp; omega)]
    simp [this, show 0 < p.length by omega]

theorem prevVert_eq (p : List (Pt K)) (i : ℕ) (hi : i < p.length) (h : 2 ≤ p.length) :
    prevVert p i = (restOf p i).getLast (restOf_ne_nil p i hi h) := by
  rw [List.getLast_eq_getElem]
  simp only [prevVert, restOf, List.getD_eq_getElem?_getD]
  by_cases h1 : i = 0
  · subst h1
    simp [show p.length - 1 < p.length by omega]
    congr 1
    omega
  · rw [if_neg h1, List.getElem_append_right (by simp; omega)]
    simp [show i - 1 < p.length by omega]
    congr 1
    omega

theorem mem_restOf (p : List (Pt K)) (i : ℕ) (x : Pt K) (h : x ∈ restOf p i) : x ∈ p := by
  rcases List.mem_append.1 h with h | h
  · exact List.mem_of_mem_drop h
  · exact List.mem_of_mem_take h

theorem getD_eq (p : List (Pt K)) (i : ℕ) (hi : i < p.length) : p.getD i (0, 0) = p[i] := by
  simp [hi]

theorem area_eraseIdx (p : List (Pt K)) (i : ℕ) (hi : i < p.length) (h : 2 ≤ p.length) :
    area p = area (p.eraseIdx i) + area [prevVert p i, p.getD i (0, 0), nextVert p i] := by
  have e1 : area p = area (p[i] :: restOf p i) := by
    conv_lhs => rw [split_at p i hi]
    rw [area_append_comm]; rfl
  rw [e1, area_remove _ _ (restOf_ne_nil p i hi h), prevVert_eq p i hi h, nextVert_eq p i hi h,
    getD_eq p i hi, eraseIdx_eq, area_append_comm (List.take i p)]
  rfl

theorem findEar_some (p : List (Pt K)) (i : ℕ) (h : findEar p = some i) :
    i < p.length ∧ isEar p i = true :=
  ⟨List.mem_range.1 (List.mem_of_find?_eq_some h), List.find?_some h⟩

theorem isEar_cross (p : List (Pt K)) (i : ℕ) (h : isEar p i = true) :
    0 ≤ cross (prevVert p i) (p.getD i (0, 0)) (nextVert p i) := by
  rw [isEar] at h
  split at h
  · simp at h
  · rename_i hc; exact not_lt.1 hc

/-- What the loop keeps invariant. -/
structure Inv (q : List (Pt K)) (s : TState K) : Prop where
  count : s.poly.length + s.tris.length = q.length
  three : 3 ≤ s.poly.length
  mem : ∀ x ∈ s.poly, x ∈ q
  tri : ∀ t ∈ s.tris, t.length = 3 ∧ (∀ x ∈ t, x ∈ q) ∧ 0 ≤ area t
  total : (s.tris.map area).sum + area s.poly = area q

theorem inv_body (q : List (Pt K)) (s : TState K) (h : Inv q s) (h4 : s.poly.length > 3) :
    Inv q (body s) := by
  rw [body]
  cases he : findEar s.poly with
  | none => exact h
  | some i =>
    obtain ⟨hi, hear⟩ := findEar_some _ _ he
    have hc := isEar_cross _ _ hear
    have hm : ∀ x ∈ [prevVert s.poly i, s.poly.getD i (0, 0), nextVert s.poly i], x ∈ s.poly := by
      intro x hx
      simp only [List.mem_cons, List.not_mem_nil, or_false] at hx
      rcases hx with rfl | rfl | rfl
      · rw [prevVert_eq _ _ hi (by omega)]; exact mem_restOf _ _ _ (List.getLast_mem _)
      · rw [getD_eq _ _ hi]; exact List.getElem_mem hi
      · rw [nextVert_eq _ _ hi (by omega)]; exact mem_restOf _ _ _ (List.head_mem _)
    refine ⟨?_, ?_, ?_, ?_, ?_⟩
    · have := h.count
      simp only [List.length_append, List.length_cons, List.length_nil, List.length_eraseIdx, if_pos hi]
      omega
    · simp only [List.length_eraseIdx, if_pos hi]; omega
    · intro x hx; exact h.mem x (List.mem_of_mem_eraseIdx hx)
    · intro t ht
      rcases List.mem_append.1 ht with ht | ht
      · exact h.tri t ht
      · rw [List.mem_singleton] at ht
        subst ht
        refine ⟨rfl, fun x hx => h.mem x (hm x hx), ?_⟩
        rw [area_triple, ← cross_eq_turn]
        linarith
    · have := area_eraseIdx s.poly i hi (by omega)
      rw [← h.total, this]
      simp only [List.map_append, List.sum_append, List.map_cons, List.map_nil, List.sum_cons,
        List.sum_nil]
      ring

theorem inv_loop (q : List (Pt K)) (n : ℕ) (s : TState K) (h : Inv q s) (T : List (List (Pt K)))
    (hT : loop n s = some T) : ∃ s', Inv q s' ∧ s'.poly.length = 3 ∧ T = s'.tris ++ [s'.poly] := by
  induction n generalizing s with
  | zero =>
    rw [loop] at hT
    by_cases h3 : s.poly.length > 3
    · simp [h3] at hT
    · rw [if_neg h3] at hT
      exact ⟨s, h, by have := h.three; omega, (Option.some.inj hT).symm⟩
  | succ n ih =>
    rw [loop] at hT
    by_cases h3 : s.poly.length > 3
    · rw [if_pos h3] at hT
      exact ih _ (inv_body q s h h3) hT
    · rw [if_neg h3] at hT
      exact ⟨s, h, by have := h.three; omega, (Option.some.inj hT).symm⟩

theorem inv_init (q : List (Pt K)) (h : q.length > 2) : Inv q ⟨q, []⟩ :=
  ⟨by simp, h, fun _ hx => hx, by simp, by simp⟩

theorem orient_length (p : List (Pt K)) : (orient p).length = p.length := by
  rw [orient]; split <;> simp

theorem mem_orient (p : List (Pt K)) (x : Pt K) : x ∈ orient p ↔ x ∈ p := by
  rw [orient]; split <;> simp

theorem area_orient (p : List (Pt K)) : area (orient p) = |area p| := by
  rw [orient, clockwise]
  by_cases h : area p > 0
  · simp [h, abs_of_pos h]
  · simp only [h, decide_false, Bool.false_eq_true, if_false]
    rw [area_reverse, abs_of_nonpos (not_lt.1 h)]

/-! ### The bound used by the model is enough -/

theorem body_length (s : TState K) : (body s).poly.length + 1 = s.poly.length ∨ body s = s := by
  rw [body]
  cases he : findEar s.poly with
  | none => exact Or.inr rfl
  | some i =>
    obtain ⟨hi, -⟩ := findEar_some _ _ he
    left
    simp only [List.length_eraseIdx, if_pos hi]; omega

theorem iterate_fixed (s : TState K) (h : body s = s) (n : ℕ) : body^[n] s = s :=
  Function.iterate_fixed h n

/-- The bounded loop gives up only if the real loop never ends. -/
theorem loop_none (n : ℕ) (s : TState K) (hn : s.poly.length ≤ n + 3) (h : loop n s = none) :
    ∀ k, 3 < (body^[k] s).poly.length := by
  induction n generalizing s with
  | zero =>
    rw [loop, if_neg (by omega)] at h
    simp at h
  | succ n ih =>
    rw [loop] at h
    by_cases h3 : s.poly.length > 3
    · rw [if_pos h3] at h
      rcases body_length s with hb | hb
      · intro k
        cases k with
        | zero => exact h3
        | succ k => rw [Function.iterate_succ_apply]; exact ih _ (by omega) h k
      · intro k; rw [iterate_fixed s hb]; exact h3
    · rw [if_neg h3] at h; simp at h

theorem loop_some (n : ℕ) (s : TState K) (T : List (List (Pt K))) (h : loop n s = some T) :
    ∃ k, (∀ j < k, 3 < (body^[j] s).poly.length) ∧ ¬ 3 < (body^[k] s).poly.length ∧
      T = (body^[k] s).tris ++ [(body^[k] s).poly] := by
  induction n generalizing s with
  | zero =>
    rw [loop] at h
    by_cases h3 : s.poly.length > 3
    · simp [h3] at h
    · rw [if_neg h3] at h
      exact ⟨0, by simp, h3, (Option.some.inj h).symm⟩
  | succ n ih =>
    rw [loop] at h
    by_cases h3 : s.poly.length > 3
    · rw [if_pos h3] at h
      obtain ⟨k, h1, h2, h4⟩ := ih _ h
      refine ⟨k + 1, ?_, by simpa [Function.iterate_succ_apply] using h2,
        by simpa [Function.iterate_succ_apply] using h4⟩
      intro j hj
      cases j with
      | zero => exact h3
      | succ j => rw [Function.iterate_succ_apply]; exact h1 j (by omega)
    · rw [if_neg h3] at h
      exact ⟨0, by simp, h3, (Option.some.inj h).symm⟩

/-- The `.ok none` result of the model means exactly that the `while` loop of the code never ends. -/
theorem triangulate_none_iff (p : List (Pt K)) :
    triangulate p = .ok none ↔ p.length > 2 ∧ ∀ k, 3 < (body^[k] ⟨orient p, []⟩).poly.length := by
  rw [triangulate]
  by_cases h : p.length > 2
  · rw [if_pos h]
    constructor
    · intro hh
      refine ⟨h, loop_none p.length _ ?_ (Except.ok.inj hh)⟩
      simp only [orient_length]; omega
    · rintro ⟨-, hk⟩
      cases hl : loop p.length (⟨orient p, []⟩ : TState K) with
      | none => rfl
      | some T =>
        obtain ⟨k, -, h2, -⟩ := loop_some _ _ _ hl
        exact absurd (hk k) h2
  · rw [if_neg h]
    constructor
    · intro hh; simp at hh
    · rintro ⟨h', -⟩; exact absurd h' h

/-- The `.ok (some T)` result of the model means exactly that the loop ends after some number of
executions of its body and `T` is the list of triangles then. -/
theorem triangulate_some_iff (p : List (Pt K)) (T : List (List (Pt K))) :
    triangulate p = .ok (some T) ↔ p.length > 2 ∧ ∃ k,
      (∀ j < k, 3 < (body^[j] ⟨orient p, []⟩).poly.length) ∧
      ¬ 3 < (body^[k] ⟨orient p, []⟩).poly.length ∧
      T = (body^[k] ⟨orient p, []⟩).tris ++ [(body^[k] ⟨orient p, []⟩).poly] := by
  constructor
  · intro h
    rw [triangulate] at h
    by_cases h2 : p.length > 2
    · rw [if_pos h2] at h
      exact ⟨h2, loop_some _ _ _ (Except.ok.inj h)⟩
    · rw [if_neg h2] at h; simp at h
  · rintro ⟨h2, k, h3, h4, h5⟩
    have hne : triangulate p ≠ .ok none := by
      intro hn
      exact h4 (((triangulate_none_iff p).1 hn).2 k)
    rw [triangulate, if_pos h2] at hne ⊢
    cases hl : loop p.length (⟨orient p, []⟩ : TState K) with
    | none => exact absurd (by rw [hl]) hne
    | some T' =>
      obtain ⟨k', g1, g2, g3⟩ := loop_some _ _ _ hl
      have : k = k' := by
        rcases lt_trichotomy k k' with hlt | heq | hgt
        · exact absurd (g1 k hlt) h4
        · exact heq
        · exact absurd (h3 k' hgt) g2
      subst this
      rw [g3, h5]

end FreeGS.Polygons
