import Mathlib.Data.List.NodupEquivFin
import Verif.Lemmas.Triangulate

set_option linter.unusedSectionVars false

namespace FreeGS.Polygons

open FreeGS.Spec

variable {K : Type*} [Field K] [LinearOrder K] [IsStrictOrderedRing K]

/-! ### Convex polygons -/

theorem turn_rot (A B C : Pt K) : turn B C A = turn A B C := by unfold turn; ring

theorem turn_self (A B : Pt K) : turn A B A = 0 := by unfold turn; ring

/-- A segment with both ends on the right of the line through `P`, `Q` does not cross `P Q` properly. -/
theorem no_cross (P Q U W : Pt K) (hU : 0 ≤ turn P Q U) (hW : 0 ≤ turn P Q W) :
    segCross P Q U W = false := by
  by_contra hne
  rw [Bool.not_eq_false, segCross_iff] at hne
  obtain ⟨hd, X, ⟨a, s, ha, hs, has, hX⟩, ⟨t, b, ht, hb, htb, hY⟩⟩ := hne
  have h1 := congrArg Prod.fst (hX.trans hY.symm)
  have h2 := congrArg Prod.snd (hX.trans hY.symm)
  simp only [Prod.fst_add, Prod.snd_add, Prod.smul_fst, Prod.smul_snd, smul_eq_mul] at h1 h2
  have ea : a = 1 - s := by linarith
  have eb : b = 1 - t := by linarith
  have key : t * turn P Q U + b * turn P Q W = 0 := by
    rw [ea] at h1 h2
    rw [eb] at h1 h2 ⊢
    unfold turn
    linear_combination (-(Q.2 - P.2)) * h1 + (Q.1 - P.1) * h2
  have hU0 : turn P Q U = 0 := by
    have := mul_nonneg hb.le hW
    have h3 : t * turn P Q U ≤ 0 := by linarith
    have h4 := mul_nonneg ht.le hU
    have h5 : t * turn P Q U = 0 := le_antisymm h3 h4
    rcases mul_eq_zero.1 h5 with h | h
    · exact absurd h ht.ne'
    · exact h
  have hW0 : turn P Q W = 0 := by
    rw [hU0] at key
    rcases mul_eq_zero.1 (by linarith : b * turn P Q W = 0) with h | h
    · exact absurd h hb.ne'
    · exact h
  have hdz : dirCross P Q U W = 0 := by
    have : dirCross P Q U W = turn P Q U - turn P Q W := by unfold dirCross turn; ring
    rw [this, hU0, hW0, sub_zero]
  rw [hdz, abs_zero] at hd
  have : (0 : K) < 1 / 10 ^ 6 := by positivity
  linarith

theorem sublist_three {α : Type*} (l : List α) (A B C : α) (h : List.Sublist [A, B, C] l) :
    ∃ i j k, i < j ∧ j < k ∧ k < l.length ∧ l[i]? = some A ∧ l[j]? = some B ∧ l[k]? = some C := by
  obtain ⟨f, hf⟩ := List.sublist_iff_exists_orderEmbedding_getElem?_eq.1 h
  refine ⟨f 0, f 1, f 2, f.lt_iff_lt.2 (by omega), f.lt_iff_lt.2 (by omega), ?_, ?_, ?_, ?_⟩
  · have := hf 2
    simp at this
    exact (List.getElem?_eq_some_iff.1 this.symm).1
  · simpa using (hf 0).symm
  · simpa using (hf 1).symm
  · simpa using (hf 2).symm

theorem convex_sublist (p q : List (Pt K)) (h : ConvexCW p) (hq : List.Sublist q p) : ConvexCW q :=
  fun A B C hs => h A B C (hs.trans hq)

theorem edges_mem (p : List (Pt K)) (c : Bool) (e : Pt K × Pt K) (he : e ∈ edges p c) :
    e.1 ∈ p ∧ e.2 ∈ p := by
  simp only [edges, List.mem_map, List.mem_range] at he
  obtain ⟨i, hi, rfl⟩ := he
  have hn : (if c = true then p.length else p.length - 1) ≤ p.length := by split <;> omega
  have h2 := Nat.mod_lt (i + 1) (Nat.lt_of_le_of_lt (Nat.zero_le _) hi)
  constructor
  · simp only; rw [getD_eq p i (by omega)]; exact List.getElem_mem _
  · simp only; rw [getD_eq p _ (by omega)]; exact List.getElem_mem _

theorem convex_first_ear (v : Pt K) (m : List (Pt K)) (hm : 2 ≤ m.length) (h : ConvexCW (v :: m)) :
    isEar (v :: m) 0 = true := by
  obtain ⟨n, m', rfl⟩ : ∃ n m', m = n :: m' := by
    cases m with
    | nil => simp at hm
    | cons n m' => exact ⟨n, m', rfl⟩
  have hm' : m' ≠ [] := by rintro rfl; simp at hm
  obtain ⟨m'', l, rfl⟩ : ∃ m'' l, m' = m'' ++ [l] := ⟨m'.dropLast, m'.getLast hm', (List.dropLast_append_getLast hm').symm⟩
  have hp : prevVert (v :: n :: (m'' ++ [l])) 0 = l := by
    simp [prevVert]
  have hn : nextVert (v :: n :: (m'' ++ [l])) 0 = n := by
    simp [nextVert]
  have hr : restOf (v :: n :: (m'' ++ [l])) 0 = n :: (m'' ++ [l]) := by simp [restOf]
  have hside : ∀ x ∈ n :: (m'' ++ [l]), 0 ≤ turn l v x := by
    intro x hx
    have hx' : x ∈ n :: m'' ∨ x = l := by
      simpa [or_assoc] using hx
    rcases hx' with hx | rfl
    · rw [← turn_rot l v x]
      refine h v x l ?_
      refine List.Sublist.cons_cons v ?_
      have e : n :: (m'' ++ [l]) = (n :: m'') ++ [l] := by simp
      rw [e]
      exact List.Sublist.append (List.singleton_sublist.2 hx) (List.Sublist.refl [l])
    · rw [turn_self]
  rw [isEar]
  simp only [hp, hn, hr, List.getD_cons_zero]
  rw [if_neg (not_lt.2 (by rw [cross_eq_turn]; exact hside n (by simp)))]
  rw [Bool.not_eq_true', ← Bool.not_eq_true, intersectPts, List.any_eq_true]
  rintro ⟨e, he, hany⟩
  rw [List.any_eq_true] at hany
  obtain ⟨f, hf, hc⟩ := hany
  obtain ⟨hf1, hf2⟩ := edges_mem _ _ _ hf
  have he' : e = (l, v) ∨ e = (v, l) := by
    rw [edges_open] at he
    simpa [edges, List.range_succ] using he
  rcases he' with rfl | rfl
  · rw [no_cross _ _ _ _ (hside _ hf1) (hside _ hf2)] at hc
    simp at hc
  · rw [segCross_iff] at hc
    have hc' : segCross l v f.1 f.2 = true := by
      rw [segCross_iff]
      refine ⟨?_, ?_⟩
      · have : dirCross l v f.1 f.2 = -dirCross v l f.1 f.2 := by unfold dirCross; ring
        rw [this, abs_neg]; exact hc.1
      · have := hc.2
        unfold CrossInside at this ⊢
        rw [openSegment_symm]; exact this
    rw [no_cross _ _ _ _ (hside _ hf1) (hside _ hf2)] at hc'
    simp at hc'

theorem findEar_zero (p : List (Pt K)) (hp : 0 < p.length) (h : isEar p 0 = true) :
    findEar p = some 0 := by
  obtain ⟨n, hn⟩ : ∃ n, p.length = n + 1 := ⟨p.length - 1, by omega⟩
  rw [findEar, hn, List.range_succ_eq_map, List.find?_cons_of_pos h]

theorem convex_loop (n : ℕ) (s : TState K) (hn : s.poly.length ≤ n + 3) (h3 : 3 ≤ s.poly.length)
    (hc : ConvexCW s.poly) : ∃ s' : TState K, loop n s = some (s'.tris ++ [s'.poly]) ∧ ConvexCW s'.poly := by
  induction n generalizing s with
  | zero => exact ⟨s, by rw [loop, if_neg (by omega)], hc⟩
  | succ n ih =>
    rw [loop]
    by_cases h4 : s.poly.length > 3
    · rw [if_pos h4]
      obtain ⟨v, m, hv⟩ : ∃ v m, s.poly = v :: m := by
        cases hs : s.poly with
        | nil => rw [hs] at h4; simp at h4
        | cons v m => exact ⟨v, m, rfl⟩
      have hear : findEar s.poly = some 0 := by
        rw [hv] at h4 hc ⊢
        have hm : 2 ≤ m.length := by simp at h4; omega
        exact findEar_zero _ (by simp) (convex_first_ear v m hm hc)
      have hb : (body s).poly = s.poly.eraseIdx 0 := by rw [body, hear]
      refine ih (body s) ?_ ?_ ?_
      · rw [hb, List.length_eraseIdx, if_pos (by omega)]; omega
      · rw [hb, List.length_eraseIdx, if_pos (by omega)]; omega
      · rw [hb]; exact convex_sublist _ _ hc (List.eraseIdx_sublist _ _)
    · rw [if_neg h4]; exact ⟨s, rfl, hc⟩

theorem convex_area_nonneg (p : List (Pt K)) (h : ConvexCW p) : 0 ≤ area p := by
  induction p with
  | nil => rw [area_nil]
  | cons v m ih =>
    by_cases hm : m = []
    · subst hm; rw [area_cons]; simp [pathSum, trap]
    · rw [area_remove v m hm]
      refine add_nonneg (ih (convex_sublist _ _ h (List.sublist_cons_self v m))) ?_
      rw [area_triple]
      refine div_nonneg ?_ (by norm_num)
      obtain ⟨n, m', rfl⟩ : ∃ n m', m = n :: m' := List.exists_cons_of_ne_nil hm
      rw [List.head_cons]
      by_cases hm' : m' = []
      · subst hm'
        rw [List.getLast_singleton]
        exact le_of_eq (by unfold turn; ring)
      · rw [List.getLast_cons hm', ← turn_rot]
        refine h v n _ (List.Sublist.cons_cons v (List.Sublist.cons_cons n ?_))
        exact List.singleton_sublist.2 (List.getLast_mem hm')

/-! ### Translation -/

theorem shift_length (v : Pt K) (p : List (Pt K)) : (shift v p).length = p.length := by simp [shift]

theorem shift_getD (v : Pt K) (p : List (Pt K)) (i : ℕ) (hi : i < p.length) :
    (shift v p).getD i (0, 0) = ((p.getD i (0, 0)).1 + v.1, (p.getD i (0, 0)).2 + v.2) := by
  simp [shift, hi]

theorem prevVert_shift (v : Pt K) (p : List (Pt K)) (i : ℕ) (hi : i < p.length) :
    prevVert (shift v p) i = ((prevVert p i).1 + v.1, (prevVert p i).2 + v.2) := by
  simp only [prevVert, shift_length]
  split
  · exact shift_getD v p _ (by omega)
  · exact shift_getD v p _ (by omega)

theorem nextVert_shift (v : Pt K) (p : List (Pt K)) (i : ℕ) (hi : i < p.length) :
    nextVert (shift v p) i = ((nextVert p i).1 + v.1, (nextVert p i).2 + v.2) := by
  simp only [nextVert, shift_length]
  exact shift_getD v p _ (Nat.mod_lt _ (by omega))

theorem restOf_shift (v : Pt K) (p : List (Pt K)) (i : ℕ) :
    restOf (shift v p) i = shift v (restOf p i) := by
  simp [restOf, shift]

theorem isEar_shift (v : Pt K) (p : List (Pt K)) (i : ℕ) (hi : i < p.length) :
    isEar (shift v p) i = isEar p i := by
  simp only [isEar, prevVert_shift v p i hi, nextVert_shift v p i hi, shift_getD v p i hi,
    restOf_shift]
  have hc : ∀ A B C : Pt K, cross (A.1 + v.1, A.2 + v.2) (B.1 + v.1, B.2 + v.2) (C.1 + v.1, C.2 + v.2)
      = cross A B C := by intro A B C; simp only [cross]; ring
  rw [hc]
  have he : ∀ A B C : Pt K, [(A.1 + v.1, A.2 + v.2), (B.1 + v.1, B.2 + v.2), (C.1 + v.1, C.2 + v.2)]
      = shift v [A, B, C] := by intro A B C; simp [shift]
  rw [he, intersectPts_shift]

theorem findEar_shift (v : Pt K) (p : List (Pt K)) : findEar (shift v p) = findEar p := by
  simp only [findEar, shift_length]
  have : ∀ l : List ℕ, (∀ i ∈ l, i < p.length) → l.find? (isEar (shift v p)) = l.find? (isEar p) := by
    intro l
    induction l with
    | nil => intro _; rfl
    | cons a l ih =>
      intro h
      rw [List.find?_cons, List.find?_cons, isEar_shift v p a (h a (by simp)),
        ih (fun i hi => h i (by simp [hi]))]
  exact this _ (fun i hi => List.mem_range.1 hi)

/-- Translate a loop state. -/
def shiftState (v : Pt K) (s : TState K) : TState K := ⟨shift v s.poly, s.tris.map (shift v)⟩

theorem body_shift (v : Pt K) (s : TState K) : body (shiftState v s) = shiftState v (body s) := by
  rw [body, body]
  simp only [shiftState, findEar_shift]
  cases he : findEar s.poly with
  | none => rfl
  | some i =>
    obtain ⟨hi, -⟩ := findEar_some _ _ he
    simp only [prevVert_shift v _ i hi, nextVert_shift v _ i hi, shift_getD v _ i hi]
    congr 1
    · simp [shift, List.eraseIdx_map]
    · simp [shift]

theorem loop_shift (v : Pt K) (n : ℕ) (s : TState K) :
    loop n (shiftState v s) = (loop n s).map (List.map (shift v)) := by
  induction n generalizing s with
  | zero =>
    simp only [loop, shiftState, shift_length]
    split <;> simp
  | succ n ih =>
    rw [loop, loop]
    have hl : (shiftState v s).poly.length = s.poly.length := shift_length v _
    rw [hl]
    split
    · rw [body_shift, ih]
    · simp [shiftState]

theorem orient_shift (v : Pt K) (p : List (Pt K)) : orient (shift v p) = shift v (orient p) := by
  have hc : clockwise (shift v p) = clockwise p := by simp only [clockwise, area_shift]
  rw [orient, orient, hc]
  split
  · rfl
  · simp [shift]

theorem triangulate_shift (v : Pt K) (p : List (Pt K)) :
    triangulate (shift v p) = (triangulate p).map (Option.map (List.map (shift v))) := by
  simp only [triangulate, shift_length]
  split
  · rw [orient_shift]
    have := loop_shift v p.length ⟨orient p, []⟩
    simp only [shiftState, List.map_nil] at this
    rw [this]; rfl
  · rfl

end FreeGS.Polygons
