import Verif.Props.Critical
import Mathlib.Tactic.LinearCombination

/-!
# C90, C91: what `find_critical` depends on and what it finds
-/

set_option linter.unusedSectionVars false

namespace FreeGS.Critical

variable {K : Type*} [Field K] [LinearOrder K]

/-- The second flux is `s` times the first plus `c`, moved up by `h` together with the grid; the same holds for the spline through it. -/
structure Moved (s h c : K) (g g' : Mesh K) (f f' : Spline K) (psi psi' : ℕ × ℕ → K) : Prop where
  nx : g'.nx = g.nx
  ny : g'.ny = g.ny
  R : ∀ i, g'.R i = g.R i
  Z : ∀ j, g'.Z j = g.Z j + h
  psi : ∀ a, psi' a = s * psi a + c
  flux : ∀ R Z, f'.f R (Z + h) = s * f.f R Z + c
  dR : ∀ R Z, f'.dR R (Z + h) = s * f.dR R Z
  dZ : ∀ R Z, f'.dZ R (Z + h) = s * f.dZ R Z
  dRR : ∀ R Z, f'.dRR R (Z + h) = s * f.dRR R Z
  dRZ : ∀ R Z, f'.dRZ R (Z + h) = s * f.dRZ R Z
  dZZ : ∀ R Z, f'.dZZ R (Z + h) = s * f.dZZ R Z

/-- Where a critical point of the first flux is found in the second. -/
def movePoint (s h c : K) (p : Point K) : Point K := (p.1, p.2.1 + h, s * p.2.2 + c)

section moved
variable {s h c : K} {g g' : Mesh K} {f f' : Spline K} {psi psi' : ℕ × ℕ → K}

theorem moved_Bp2 (m : Moved s h c g g' f f' psi psi') (hs : s * s = 1) (R Z : K) : f'.Bp2 R (Z + h) = f.Bp2 R Z := by
  simp only [Spline.Bp2, m.dR, m.dZ]
  congr 1
  linear_combination (f.dR R Z ^ 2 + f.dZ R Z ^ 2) * hs

theorem moved_step (m : Moved s h c g g' f f' psi psi') (hs : s * s = 1) (R Z : K) :
    newtonStep f' R (Z + h) = (newtonStep f R Z).map fun p => (p.1, p.2 + h) := by
  have hBr : f'.Br R (Z + h) = s * f.Br R Z := by simp only [Spline.Br, m.dZ]; ring
  have hBz : f'.Bz R (Z + h) = s * f.Bz R Z := by simp only [Spline.Bz, m.dR]; ring
  simp only [newtonStep, hBr, hBz, m.dRR, m.dRZ, m.dZZ]
  generalize f.Br R Z = b
  generalize f.Bz R Z = d
  generalize f.dRR R Z = u
  generalize f.dRZ R Z = v
  generalize f.dZZ R Z = w
  have hdet : (-(s * b) / R - s * v / R) * (s * v / R) - -(s * w) / R * (-(s * d) / R + s * u / R) =
      (-b / R - v / R) * (v / R) - -w / R * (-d / R + u / R) := by
    linear_combination ((-b / R - v / R) * (v / R) - -w / R * (-d / R + u / R)) * hs
  rw [hdet]
  by_cases hd : (-b / R - v / R) * (v / R) - -w / R * (-d / R + u / R) = 0
  · rw [if_pos hd, if_pos hd]; rfl
  · rw [if_neg hd, if_neg hd]
    have h1 : s * v / R * (s * b) - -(s * w) / R * (s * d) = v / R * b - -w / R * d := by
      linear_combination (v / R * b - -w / R * d) * hs
    have h2 : -(-(s * d) / R + s * u / R) * (s * b) + (-(s * b) / R - s * v / R) * (s * d) =
        -(-d / R + u / R) * b + (-b / R - v / R) * d := by
      linear_combination (-(-d / R + u / R) * b + (-b / R - v / R) * d) * hs
    rw [h1, h2]
    simp only [Except.map, Except.ok.injEq, Prod.mk.injEq, true_and]
    ring

theorem moved_newton (m : Moved s h c g g' f f' psi psi') (hs : s * s = 1) (radiusSq R0 Z0 : K) : ∀ (k : ℕ) (R1 Z1 : K),
    newton f' radiusSq R0 (Z0 + h) k R1 (Z1 + h) =
      (newton f radiusSq R0 Z0 k R1 Z1).map fun o => o.map fun p => (p.1, p.2 + h) := by
  intro k
  induction k with
  | zero =>
    intro R1 Z1
    have hB : f'.Br R1 (Z1 + h) ^ 2 + f'.Bz R1 (Z1 + h) ^ 2 = f.Br R1 Z1 ^ 2 + f.Bz R1 Z1 ^ 2 := by
      simp only [Spline.Br, Spline.Bz, m.dR, m.dZ]
      linear_combination ((-f.dZ R1 Z1 / R1) ^ 2 + (f.dR R1 Z1 / R1) ^ 2) * hs
    rw [newton, newton, hB]
    by_cases h0 : R1 = 0
    · rw [if_pos h0, if_pos h0]; rfl
    · rw [if_neg h0, if_neg h0]
      by_cases h1 : f.Br R1 Z1 ^ 2 + f.Bz R1 Z1 ^ 2 < 1 / 1000000
      · rw [if_pos h1, if_pos h1]; rfl
      · rw [if_neg h1, if_neg h1]; rfl
  | succ k ih =>
    intro R1 Z1
    have hB : f'.Br R1 (Z1 + h) ^ 2 + f'.Bz R1 (Z1 + h) ^ 2 = f.Br R1 Z1 ^ 2 + f.Bz R1 Z1 ^ 2 := by
      simp only [Spline.Br, Spline.Bz, m.dR, m.dZ]
      linear_combination ((-f.dZ R1 Z1 / R1) ^ 2 + (f.dR R1 Z1 / R1) ^ 2) * hs
    rw [newton, newton, hB]
    by_cases h0 : R1 = 0
    · rw [if_pos h0, if_pos h0]; rfl
    · rw [if_neg h0, if_neg h0]
      by_cases h1 : f.Br R1 Z1 ^ 2 + f.Bz R1 Z1 ^ 2 < 1 / 1000000
      · rw [if_pos h1, if_pos h1]; rfl
      · rw [if_neg h1, if_neg h1]
        simp only [moved_step m hs]
        cases newtonStep f R1 Z1 with
        | error e => rfl
        | ok p =>
          obtain ⟨R2, Z2⟩ := p
          have hz : Z2 + h - (Z0 + h) = Z2 - Z0 := by ring
          simp only [Except.map, hz]
          by_cases h2 : (R2 - R0) ^ 2 + (Z2 - Z0) ^ 2 > radiusSq ∨ k = 0
          · rw [if_pos h2, if_pos h2]; rfl
          · rw [if_neg h2, if_neg h2, ih]; rfl

theorem moved_discriminant (m : Moved s h c g g' f f' psi psi') (hs : s * s = 1) (i j : ℕ) :
    discriminant g' psi' i j = discriminant g psi i j := by
  have hz : g.Z 1 + h - (g.Z 0 + h) = g.Z 1 - g.Z 0 := by ring
  simp only [discriminant, m.R, m.Z, m.psi, hz]
  generalize (g.R 1 - g.R 0) = a
  generalize (g.Z 1 - g.Z 0) = b
  linear_combination ((psi (i + 2, j) - 2 * psi (i, j) + psi (i - 2, j)) / (2 * a) ^ 2 *
    ((psi (i, j + 2) - 2 * psi (i, j) + psi (i, j - 2)) / (2 * b) ^ 2) -
    (((psi (i + 2, j + 2) - psi (i + 2, j - 2)) / (4 * b) - (psi (i - 2, j + 2) - psi (i - 2, j - 2)) / (4 * b)) / (4 * a)) ^ 2) * hs

theorem moved_candidate (m : Moved s h c g g' f f' psi psi') (hs : s * s = 1) (i j : ℕ) :
    candidate g' f' psi' i j = (candidate g f psi i j).map fun o => o.map fun q => (q.1, movePoint s h c q.2) := by
  have hz : g.Z 1 + h - (g.Z 0 + h) = g.Z 1 - g.Z 0 := by ring
  have hb : (fun i j => f'.Bp2 (g'.R i) (g'.Z j)) = fun i j => f.Bp2 (g.R i) (g.Z j) := by
    funext i j; rw [m.R, m.Z, moved_Bp2 m hs]
  rw [candidate, candidate, hb]
  simp only [m.R, m.Z, hz, moved_newton m hs, moved_discriminant m hs]
  by_cases hl : isLocalMin (fun i j => f.Bp2 (g.R i) (g.Z j)) i j = true
  · rw [if_pos hl, if_pos hl]
    cases newton f (9 * ((g.R 1 - g.R 0) ^ 2 + (g.Z 1 - g.Z 0) ^ 2)) (g.R i) (g.Z j) 101 (g.R i) (g.Z j) with
    | error e => rfl
    | ok o =>
      cases o with
      | none => rfl
      | some p => simp [Except.map, movePoint, m.flux]
  · rw [if_neg hl, if_neg hl]; rfl

theorem moved_candidates (m : Moved s h c g g' f f' psi psi') (hs : s * s = 1) : ∀ cells : List (ℕ × ℕ),
    candidates g' f' psi' cells = (candidates g f psi cells).map fun l => l.map fun q => (q.1, movePoint s h c q.2) := by
  intro cells
  induction cells with
  | nil => rfl
  | cons a cells ih =>
    obtain ⟨i, j⟩ := a
    rw [candidates, candidates, moved_candidate m hs, ih]
    cases candidate g f psi i j with
    | error e => rfl
    | ok o =>
      simp only [Except.map]
      cases candidates g f psi cells with
      | error e => rfl
      | ok l => cases o <;> rfl

theorem removeDupLoop_move (s h c : K) : ∀ ps result : List (Point K),
    removeDupLoop (result.map (movePoint s h c)) (ps.map (movePoint s h c)) = (removeDupLoop result ps).map (movePoint s h c) := by
  intro ps
  induction ps with
  | nil => intro result; rfl
  | cons p ps ih =>
    intro result
    have hd : ∀ q : Point K, dist2 (movePoint s h c p) (movePoint s h c q) = dist2 p q := by
      intro q; simp only [dist2, movePoint]; ring
    have ha : ((result.map (movePoint s h c)).any fun p2 => decide (dist2 (movePoint s h c p) p2 < 1 / 100000)) =
        result.any fun p2 => decide (dist2 p p2 < 1 / 100000) := by
      rw [List.any_map]; congr 1; funext q; simp only [Function.comp, hd]
    rw [List.map_cons, removeDupLoop, removeDupLoop, ha]
    split
    · exact ih result
    · rw [← ih]; simp

theorem removeDup_move (s h c : K) (ps : List (Point K)) : removeDup (ps.map (movePoint s h c)) = (removeDup ps).map (movePoint s h c) :=
  removeDupLoop_move s h c ps []

theorem sortBy_map (T : Point K → Point K) (key key' : Point K → K) (hk : ∀ p, key' (T p) = key p) (l : List (Point K)) :
    sortBy key' (l.map T) = (sortBy key l).map T := by
  rw [sortBy, sortBy]
  refine (List.map_insertionSort (fun a b => key a ≤ key b) (fun a b => key' a ≤ key' b) T l fun a _ b _ => ?_).symm
  simp only [hk]

theorem filter_move (s h c : K) (b : Bool) (cs : List (Bool × Point K)) :
    ((cs.map fun q => (q.1, movePoint s h c q.2)).filter fun q => q.1 == b).map Prod.snd =
      ((cs.filter fun q => q.1 == b).map Prod.snd).map (movePoint s h c) := by
  rw [List.filter_map, List.map_map, List.map_map]
  rfl

variable [IsStrictOrderedRing K]

theorem maxLoop_add (p : ℕ → K) (d : K) : ∀ n, maxLoop (fun k => p k + d) n = maxLoop p n + d := by
  intro n
  induction n with
  | zero => rfl
  | succ n ih => rw [maxLoop, maxLoop, ih, max_add_add_right]

theorem argminLoop_add (p : ℕ → K) (d : K) : ∀ k i b, argminLoop (fun k => p k + d) k i b = argminLoop p k i b := by
  intro k
  induction k with
  | zero => intro i b; rfl
  | succ k ih => intro i b; rw [argminLoop, argminLoop, ih]; simp only [add_lt_add_iff_right]

theorem keepX_move (m : Moved s h c g g' f f' psi psi') (hs : s = 1 ∨ s = -1) (o x : Point K) (hne : s = 1 ∨ x.2.2 ≠ o.2.2) :
    keepX f' (movePoint s h c o) (movePoint s h c x) = keepX f o x := by
  have hlin : ∀ a b : K, linspaceAt (a + h) (b + h) 50 = fun k => linspaceAt a b 50 k + h := by
    intro a b; funext k; simp only [linspaceAt_50]; ring
  have hp : ∃ d : K, (if (movePoint s h c x).2.2 < (movePoint s h c o).2.2 then
        (fun k => f'.f (linspaceAt (movePoint s h c o).1 (movePoint s h c x).1 50 k)
          (linspaceAt (movePoint s h c o).2.1 (movePoint s h c x).2.1 50 k) * -1)
      else fun k => f'.f (linspaceAt (movePoint s h c o).1 (movePoint s h c x).1 50 k)
          (linspaceAt (movePoint s h c o).2.1 (movePoint s h c x).2.1 50 k)) =
      fun k => (if x.2.2 < o.2.2 then
        (fun k => f.f (linspaceAt o.1 x.1 50 k) (linspaceAt o.2.1 x.2.1 50 k) * -1)
      else fun k => f.f (linspaceAt o.1 x.1 50 k) (linspaceAt o.2.1 x.2.1 50 k)) k + d := by
    simp only [movePoint, hlin, m.flux, add_lt_add_iff_right]
    rcases hs with rfl | rfl
    · simp only [one_mul]
      by_cases hx : x.2.2 < o.2.2
      · simp only [if_pos hx]; exact ⟨-c, by funext k; ring⟩
      · simp only [if_neg hx]; exact ⟨c, rfl⟩
    · have hne : x.2.2 ≠ o.2.2 := by
        rcases hne with h1 | h1
        · norm_num at h1
        · exact h1
      simp only [neg_mul, one_mul, neg_lt_neg_iff]
      rcases lt_or_gt_of_ne hne with hx | hx
      · simp only [if_pos hx, if_neg (not_lt.mpr hx.le)]; exact ⟨c, by funext k; ring⟩
      · simp only [if_pos hx, if_neg (not_lt.mpr hx.le)]; exact ⟨-c, by funext k; ring⟩
  obtain ⟨d, hp⟩ := hp
  simp only [keepX]
  rw [hp]
  generalize (if x.2.2 < o.2.2 then
        (fun k => f.f (linspaceAt o.1 x.1 50 k) (linspaceAt o.2.1 x.2.1 50 k) * -1)
      else fun k => f.f (linspaceAt o.1 x.1 50 k) (linspaceAt o.2.1 x.2.1 50 k)) = p
  rw [maxLoop_add, argmin, argmin, argminLoop_add]
  simp only [movePoint, hlin, add_sub_add_right_eq_sub]

/-- All of the search at once. -/
theorem findCritical_move (m : Moved s h c g g' f f' psi psi') (hs : s = 1 ∨ s = -1) (discard : Bool)
    (hne : s = 1 ∨ discard = false ∨ ∀ o rest xs, findCritical g f psi false = .ok (o :: rest, xs) → ∀ x ∈ xs, x.2.2 ≠ o.2.2) :
    findCritical g' f' psi' discard =
      (findCritical g f psi discard).map fun r => (r.1.map (movePoint s h c), r.2.map (movePoint s h c)) := by
  have hss : s * s = 1 := by rcases hs with rfl | rfl <;> ring
  have eT : (fun q : Bool × Point K => q.1) = fun q => q.1 == true := by funext q; simp
  have eF : (fun q : Bool × Point K => !q.1) = fun q => q.1 == false := by funext q; simp
  simp only [findCritical] at hne ⊢
  rw [m.nx, m.ny, moved_candidates m hss]
  cases hcs : candidates g f psi (interior g.nx g.ny) with
  | error e => rfl
  | ok cs =>
    simp only [hcs] at hne
    simp only [Except.map, eT, eF, filter_move, removeDup_move] at hne ⊢
    generalize hO : removeDup ((cs.filter fun q => q.1 == false).map Prod.snd) = ol at hne
    generalize hX : removeDup ((cs.filter fun q => q.1 == true).map Prod.snd) = xl at hne
    cases ol with
    | nil => rfl
    | cons o os =>
      simp only [List.map_cons] at hne ⊢
      rw [← List.map_cons]
      have hkey : ∀ p : Point K, ((movePoint s h c p).1 - 1 / 2 * (g'.R (g.nx - 1) + g'.R 0)) ^ 2 +
          ((movePoint s h c p).2.1 - 1 / 2 * (g'.Z (g.ny - 1) + g'.Z 0)) ^ 2 =
          (p.1 - 1 / 2 * (g.R (g.nx - 1) + g.R 0)) ^ 2 + (p.2.1 - 1 / 2 * (g.Z (g.ny - 1) + g.Z 0)) ^ 2 := by
        intro p; simp only [movePoint, m.R, m.Z]; ring
      rw [sortBy_map (movePoint s h c) _ _ hkey]
      cases hs' : sortBy (fun p : Point K => (p.1 - 1 / 2 * (g.R (g.nx - 1) + g.R 0)) ^ 2 +
          (p.2.1 - 1 / 2 * (g.Z (g.ny - 1) + g.Z 0)) ^ 2) (o :: os) with
      | nil => rfl
      | cons o1 os1 =>
        simp only [hs', List.map_cons, Except.ok.injEq, Prod.mk.injEq, true_and] at hne ⊢
        have hx : (if discard = true then (xl.map (movePoint s h c)).filter (keepX f' (movePoint s h c o1)) else xl.map (movePoint s h c)) =
            (if discard = true then xl.filter (keepX f o1) else xl).map (movePoint s h c) := by
          cases discard with
          | false => rfl
          | true =>
            simp only [if_true]
            rw [List.filter_map]
            congr 1
            apply List.filter_congr
            intro x hx
            apply keepX_move m hs
            rcases hne with h1 | h1 | h1
            · exact Or.inl h1
            · cases h1
            · right
              refine h1 o1 os1 _ ⟨rfl, rfl⟩ x ?_
              simpa using (sortBy_perm _ xl).mem_iff.mpr hx
        rw [hx]
        exact sortBy_map (movePoint s h c) _ _ (fun p => by
          simp only [movePoint]; linear_combination (p.2.2 - o1.2.2) ^ 2 * hss) _

/-- **C90.** A constant added to the flux is added to the flux of the critical points and changes nothing else; if grid and flux are moved
vertically, the critical points move with them. The same points are found, in the same order, or the same exception is raised. -/
theorem C90_offset_and_height (m : Moved 1 h c g g' f f' psi psi') (discard : Bool) :
    findCritical g' f' psi' discard = (findCritical g f psi discard).map fun r =>
      (r.1.map fun p => (p.1, p.2.1 + h, p.2.2 + c), r.2.map fun p => (p.1, p.2.1 + h, p.2.2 + c)) := by
  rw [findCritical_move m (Or.inl rfl) discard (Or.inl rfl)]
  have : movePoint 1 h c = fun p : Point K => (p.1, p.2.1 + h, p.2.2 + c) := by
    funext p; rw [movePoint, one_mul]
  rw [this]

/-- **C90** (sign). The critical points of `-psi` are those of `psi`, in the same order. Missing: X-points whose flux equals that of the
axis, for which the test of visibility does not see which sign to take. -/
theorem C90_sign_partial (m : Moved (-1) 0 0 g g' f f' psi psi') (discard : Bool)
    (hne : discard = true → ∀ o rest xs, findCritical g f psi false = .ok (o :: rest, xs) → ∀ x ∈ xs, x.2.2 ≠ o.2.2) :
    findCritical g' f' psi' discard = (findCritical g f psi discard).map fun r =>
      (r.1.map fun p => (p.1, p.2.1, -p.2.2), r.2.map fun p => (p.1, p.2.1, -p.2.2)) := by
  rw [findCritical_move m (Or.inr rfl) discard (Or.inr (by
    cases discard with
    | false => exact Or.inl rfl
    | true => exact Or.inr (hne rfl)))]
  have : movePoint (-1) 0 0 = fun p : Point K => (p.1, p.2.1, -p.2.2) := by
    funext p; rw [movePoint, add_zero, add_zero, neg_one_mul]
  rw [this]

end moved

/-- The flux of `exSpline` times `s` plus `c`, moved up by `h`. -/
def exMoved (s h c : ℚ) : Spline ℚ where
  f R Z := s * exSpline.f R (Z - h) + c
  dR R Z := s * exSpline.dR R (Z - h)
  dZ R Z := s * exSpline.dZ R (Z - h)
  dRR R Z := s * exSpline.dRR R (Z - h)
  dRZ R Z := s * exSpline.dRZ R (Z - h)
  dZZ R Z := s * exSpline.dZZ R (Z - h)

/-- Its grid. -/
def exMovedGrid (h : ℚ) : Mesh ℚ := ⟨9, 7, fun i => i + 1, fun j => j + h⟩

theorem exMoved_moved (s h c : ℚ) : Moved s h c exGrid (exMovedGrid h) exSpline (exMoved s h c)
    (fun a => exSpline.f (exGrid.R a.1) (exGrid.Z a.2)) (fun a => s * exSpline.f (exGrid.R a.1) (exGrid.Z a.2) + c) := by
  constructor <;> intros <;> simp [exMoved, exMovedGrid, exGrid]

example : findCritical (exMovedGrid 5) (exMoved 1 5 7) (fun a => 1 * exSpline.f (exGrid.R a.1) (exGrid.Z a.2) + 7) =
    .ok ([(3, 8, -31 / 2)], [(6, 8, -11)]) := by
  rw [C90_offset_and_height (exMoved_moved 1 5 7)]
  decide +kernel

example : findCritical (exMovedGrid 0) (exMoved (-1) 0 0) (fun a => -1 * exSpline.f (exGrid.R a.1) (exGrid.Z a.2) + 0) =
    .ok ([(3, 3, 45 / 2)], [(6, 3, 18)]) := by
  rw [C90_sign_partial (exMoved_moved (-1) 0 0)]
  · decide +kernel
  · intro _ o rest xs h
    have : findCritical exGrid exSpline (fun a => exSpline.f (exGrid.R a.1) (exGrid.Z a.2)) false =
      .ok ([(3, 3, -45 / 2)], [(6, 3, -18)]) := by decide +kernel
    rw [this] at h
    simp only [Except.ok.injEq, Prod.mk.injEq, List.cons.injEq] at h
    obtain ⟨⟨rfl, _⟩, rfl⟩ := h
    decide +kernel

/-! ## Weak fields -/

variable [IsStrictOrderedRing K]

theorem candidate_weak (g : Mesh K) (f : Spline K) (psi : ℕ × ℕ → K) (i j : ℕ) (hR : g.R i ≠ 0)
    (hw : f.Bp2 (g.R i) (g.Z j) < 1 / 1000000) :
    candidate g f psi i j = .ok (if isLocalMin (fun i j => f.Bp2 (g.R i) (g.Z j)) i j = true then
      some (decide (discriminant g psi i j < 0), g.R i, g.Z j, f.f (g.R i) (g.Z j)) else none) := by
  have hB : f.Br (g.R i) (g.Z j) ^ 2 + f.Bz (g.R i) (g.Z j) ^ 2 < 1 / 1000000 := by
    have : f.Br (g.R i) (g.Z j) ^ 2 + f.Bz (g.R i) (g.Z j) ^ 2 = f.Bp2 (g.R i) (g.Z j) := by
      simp only [Spline.Br, Spline.Bz, Spline.Bp2]; ring
    rw [this]; exact hw
  rw [candidate]
  by_cases hl : isLocalMin (fun i j => f.Bp2 (g.R i) (g.Z j)) i j = true
  · simp only [if_pos hl]
    rw [newton, if_neg hR, if_pos hB]
  · simp only [if_neg hl]

theorem candidates_total (g : Mesh K) (f : Spline K) (psi : ℕ × ℕ → K) (P : Bool × Point K → Prop) : ∀ cells : List (ℕ × ℕ),
    (∀ c ∈ cells, ∃ o, candidate g f psi c.1 c.2 = .ok o ∧ ∀ q, o = some q → P q) →
    ∃ l, candidates g f psi cells = .ok l ∧ ∀ q ∈ l, P q := by
  intro cells
  induction cells with
  | nil => intro _; exact ⟨[], rfl, by simp⟩
  | cons c cells ih =>
    intro hc
    obtain ⟨i, j⟩ := c
    obtain ⟨o, ho, hP⟩ := hc (i, j) List.mem_cons_self
    obtain ⟨l, hl, hl2⟩ := ih fun c h => hc c (List.mem_cons_of_mem _ h)
    rw [candidates, ho, hl]
    cases o with
    | none => exact ⟨l, rfl, hl2⟩
    | some q =>
      refine ⟨q :: l, rfl, fun r hr => ?_⟩
      rcases List.mem_cons.mp hr with rfl | hr
      · exact hP r rfl
      · exact hl2 r hr

theorem candidates_mem (g : Mesh K) (f : Spline K) (psi : ℕ × ℕ → K) : ∀ (cells : List (ℕ × ℕ)) (l : List (Bool × Point K)),
    candidates g f psi cells = .ok l → ∀ c ∈ cells, ∀ q, candidate g f psi c.1 c.2 = .ok (some q) → q ∈ l := by
  intro cells
  induction cells with
  | nil => intro l _ c hc; simp at hc
  | cons a cells ih =>
    intro l h c hc q hq
    obtain ⟨i, j⟩ := a
    rw [candidates] at h
    split at h
    · cases h
    rename_i o ho
    split at h
    · cases h
    rename_i l' hl'
    simp only [Except.ok.injEq] at h
    rcases List.mem_cons.mp hc with rfl | hc
    · rw [ho] at hq
      simp only [Except.ok.injEq] at hq
      subst hq
      subst h
      exact List.mem_cons_self
    · have := ih l' hl' c hc q hq
      subst h
      cases o with
      | none => exact this
      | some p => exact List.mem_cons_of_mem _ this

theorem interior_mem (nx ny i j : ℕ) (hi : 2 ≤ i ∧ i + 2 < nx) (hj : 2 ≤ j ∧ j + 2 < ny) : (i, j) ∈ interior nx ny := by
  simp only [interior, List.mem_flatMap, List.mem_map, List.mem_range'_1, Prod.mk.injEq]
  exact ⟨i, by omega, j, by omega, rfl, rfl⟩

/-- Every point returned comes from the search. -/
theorem findCritical_from (g : Mesh K) (f : Spline K) (psi : ℕ × ℕ → K) (discard : Bool) (cs : List (Bool × Point K))
    (hcs : candidates g f psi (interior g.nx g.ny) = .ok cs) :
    ∃ os xs, findCritical g f psi discard = .ok (os, xs) ∧ (∀ p ∈ os, (false, p) ∈ cs) ∧ (∀ p ∈ xs, (true, p) ∈ cs) ∧
      (∀ p, (false, p) ∈ cs → ∃ q ∈ os, p = q ∨ Close p q) ∧
      (discard = false → ∀ p, (true, p) ∈ cs → ∃ q ∈ xs, p = q ∨ Close p q) := by
  have hO := C27_remove_dup ((cs.filter fun c => !c.1).map Prod.snd)
  have hX := C27_remove_dup ((cs.filter fun c => c.1).map Prod.snd)
  have mO : ∀ p, p ∈ (cs.filter fun c => !c.1).map Prod.snd ↔ (false, p) ∈ cs := by
    intro p
    simp only [List.mem_map, List.mem_filter]
    constructor
    · rintro ⟨⟨b, q⟩, ⟨h1, h2⟩, rfl⟩
      cases b
      · exact h1
      · simp at h2
    · intro h; exact ⟨_, ⟨h, rfl⟩, rfl⟩
  have mX : ∀ p, p ∈ (cs.filter fun c => c.1).map Prod.snd ↔ (true, p) ∈ cs := by
    intro p
    simp only [List.mem_map, List.mem_filter]
    constructor
    · rintro ⟨⟨b, q⟩, ⟨h1, h2⟩, rfl⟩
      cases b
      · simp at h2
      · exact h1
    · intro h; exact ⟨_, ⟨h, rfl⟩, rfl⟩
  simp only [findCritical, hcs]
  cases ho : removeDup ((cs.filter fun c => !c.1).map Prod.snd) with
  | nil =>
    refine ⟨[], _, rfl, by simp, fun p hp => (mX p).mp (hX.1.subset hp), fun p hp => ?_, fun _ p hp => hX.2.2.1 p ((mX p).mpr hp)⟩
    have := hO.2.2.1 p ((mO p).mpr hp)
    rwa [ho] at this
  | cons o os =>
    simp only
    cases hs : sortBy (fun p : Point K => (p.1 - 1 / 2 * (g.R (g.nx - 1) + g.R 0)) ^ 2 +
        (p.2.1 - 1 / 2 * (g.Z (g.ny - 1) + g.Z 0)) ^ 2) (o :: os) with
    | nil =>
      have := (sortBy_perm (fun p : Point K => (p.1 - 1 / 2 * (g.R (g.nx - 1) + g.R 0)) ^ 2 +
        (p.2.1 - 1 / 2 * (g.Z (g.ny - 1) + g.Z 0)) ^ 2) (o :: os)).length_eq
      rw [hs] at this
      simp at this
    | cons o1 os1 =>
      have hp := sortBy_perm (fun p : Point K => (p.1 - 1 / 2 * (g.R (g.nx - 1) + g.R 0)) ^ 2 +
        (p.2.1 - 1 / 2 * (g.Z (g.ny - 1) + g.Z 0)) ^ 2) (o :: os)
      rw [hs] at hp
      refine ⟨_, _, rfl, fun p h => (mO p).mp (hO.1.subset (by rw [ho]; exact hp.subset h)), fun p h => ?_, fun p h => ?_, fun hd p h => ?_⟩
      · have h := (sortBy_perm _ _).subset h
        apply (mX p).mp
        apply hX.1.subset
        split at h
        · exact (List.mem_filter.mp h).1
        · exact h
      · obtain ⟨q, hq, hc⟩ := hO.2.2.1 p ((mO p).mpr h)
        rw [ho] at hq
        exact ⟨q, hp.symm.subset hq, hc⟩
      · obtain ⟨q, hq, hc⟩ := hX.2.2.1 p ((mX p).mpr h)
        refine ⟨q, (sortBy_perm _ _).symm.subset ?_, hc⟩
        rw [hd]
        exact hq

/-- **C90** (scale). The field-null test has the fixed limit of one millitesla. Where the poloidal field is weaker than that on the whole grid,
`find_critical` takes every strict local minimum of the field strength for a null: it never fails and all points returned are grid points,
whatever the position of the nulls. -/
theorem C90_weak_field (g : Mesh K) (f : Spline K) (psi : ℕ × ℕ → K) (discard : Bool) (hR : ∀ i, g.R i ≠ 0)
    (hw : ∀ i < g.nx, ∀ j < g.ny, f.Bp2 (g.R i) (g.Z j) < 1 / 1000000) :
    ∃ os xs, findCritical g f psi discard = .ok (os, xs) ∧
      ∀ p ∈ os ++ xs, ∃ i < g.nx, ∃ j < g.ny, p = (g.R i, g.Z j, f.f (g.R i) (g.Z j)) := by
  obtain ⟨cs, hcs, hP⟩ := candidates_total g f psi
    (fun q => ∃ i < g.nx, ∃ j < g.ny, q.2 = (g.R i, g.Z j, f.f (g.R i) (g.Z j))) (interior g.nx g.ny) (by
      rintro ⟨i, j⟩ hc
      obtain ⟨h1, h2⟩ := interior_spec _ _ _ hc
      simp only at h1 h2
      refine ⟨_, candidate_weak g f psi i j (hR i) (hw i (by omega) j (by omega)), ?_⟩
      intro q hq
      split at hq
      · simp only [Option.some.injEq] at hq
        subst hq
        exact ⟨i, by omega, j, by omega, rfl⟩
      · simp at hq)
  obtain ⟨os, xs, h, h1, h2, _⟩ := findCritical_from g f psi discard cs hcs
  refine ⟨os, xs, h, fun p hp => ?_⟩
  rcases List.mem_append.mp hp with hp | hp
  · exact hP _ (h1 p hp)
  · exact hP _ (h2 p hp)

/-- A flux with `Bz = e (1 + (R - 4)^2 + (Z - 4)^2)`: there is no null. -/
def noNull (e : ℚ) : Spline ℚ where
  f R Z := e * (R ^ 2 / 2 + R ^ 4 / 4 - 8 * R ^ 3 / 3 + 8 * R ^ 2 + (Z - 4) ^ 2 * R ^ 2 / 2)
  dR R Z := e * R * (1 + (R - 4) ^ 2 + (Z - 4) ^ 2)
  dZ R Z := e * R ^ 2 * (Z - 4)
  dRR R Z := e * (1 + (R - 4) ^ 2 + (Z - 4) ^ 2 + 2 * R * (R - 4))
  dRZ R Z := e * 2 * R * (Z - 4)
  dZZ R _ := e * R ^ 2

/-- The grid for `noNull`. -/
def noNullGrid : Mesh ℚ := ⟨7, 7, fun i => i + 1, fun j => j + 1⟩

/-- **C90** (scale). A flux without any null and with an O-point according to `find_critical`; a million times the same flux raises
`LinAlgError`. -/
theorem C90_scale_fails :
    (∀ R Z : ℚ, R ≠ 0 → ∀ e : ℚ, e ≠ 0 → 0 < (noNull e).Bp2 R Z) ∧
    findCritical noNullGrid (noNull (1 / 1000000)) (fun a => (noNull (1 / 1000000)).f (noNullGrid.R a.1) (noNullGrid.Z a.2)) =
      .ok ([(4, 4, 11 / 375000)], []) ∧
    findCritical noNullGrid (noNull 1) (fun a => (noNull 1).f (noNullGrid.R a.1) (noNullGrid.Z a.2)) = .error .linalg := by
  refine ⟨fun R Z hR e he => ?_, by decide +kernel, by decide +kernel⟩
  have h1 : (noNull e).Bp2 R Z = e ^ 2 * ((1 + (R - 4) ^ 2 + (Z - 4) ^ 2) ^ 2 + R ^ 2 * (Z - 4) ^ 2) := by
    simp only [Spline.Bp2, noNull]; field_simp
  rw [h1]
  positivity

/-! ## Nulls that are found and nulls that are not -/

/-- **C91.** A null of the field that lies exactly on a grid point, at least two points away from the edge, with non-zero field on the eight
neighbours, is found: unless an exception is raised, a point within the tolerance for duplicates is in the list of O-points or,
if the discriminant is negative, in the unfiltered list of X-points. Missing: nulls between grid points, for which see `C91_even_rows_missed`. -/
theorem C91_node_found_partial (g : Mesh K) (f : Spline K) (psi : ℕ × ℕ → K) (discard : Bool) (os xs : List (Point K))
    (h : findCritical g f psi discard = .ok (os, xs)) (i j : ℕ) (hi : 2 ≤ i ∧ i + 2 < g.nx) (hj : 2 ≤ j ∧ j + 2 < g.ny)
    (hR : g.R i ≠ 0) (hnull : f.dR (g.R i) (g.Z j) = 0 ∧ f.dZ (g.R i) (g.Z j) = 0)
    (hnb : ∀ a b, a ≤ i + 1 → i ≤ a + 1 → b ≤ j + 1 → j ≤ b + 1 → (a, b) ≠ (i, j) →
      g.R a ≠ 0 ∧ (f.dR (g.R a) (g.Z b) ≠ 0 ∨ f.dZ (g.R a) (g.Z b) ≠ 0)) :
    (0 ≤ discriminant g psi i j → ∃ q ∈ os, q = (g.R i, g.Z j, f.f (g.R i) (g.Z j)) ∨ Close (g.R i, g.Z j, f.f (g.R i) (g.Z j)) q) ∧
    (discriminant g psi i j < 0 → discard = false →
      ∃ q ∈ xs, q = (g.R i, g.Z j, f.f (g.R i) (g.Z j)) ∨ Close (g.R i, g.Z j, f.f (g.R i) (g.Z j)) q) := by
  have h0 : f.Bp2 (g.R i) (g.Z j) = 0 := by simp [Spline.Bp2, hnull.1, hnull.2]
  have hpos : ∀ a b, a ≤ i + 1 → i ≤ a + 1 → b ≤ j + 1 → j ≤ b + 1 → (a, b) ≠ (i, j) → 0 < f.Bp2 (g.R a) (g.Z b) := by
    intro a b h1 h2 h3 h4 h5
    obtain ⟨h6, h7⟩ := hnb a b h1 h2 h3 h4 h5
    rw [Spline.Bp2]
    apply div_pos
    · rcases h7 with h7 | h7
      · have := sq_pos_of_ne_zero h7; positivity
      · have := sq_pos_of_ne_zero h7; positivity
    · exact sq_pos_of_ne_zero h6
  have hl : isLocalMin (fun i j => f.Bp2 (g.R i) (g.Z j)) i j = true := by
    simp only [isLocalMin, h0, Bool.and_eq_true, decide_eq_true_eq]
    refine ⟨⟨⟨⟨⟨⟨⟨?_, ?_⟩, ?_⟩, ?_⟩, ?_⟩, ?_⟩, ?_⟩, ?_⟩ <;> apply hpos <;> first | omega | (simp only [ne_eq, Prod.mk.injEq]; omega)
  have hcand := candidate_weak g f psi i j hR (by rw [h0]; norm_num)
  rw [if_pos hl] at hcand
  cases hcs : candidates g f psi (interior g.nx g.ny) with
  | error e => simp only [findCritical, hcs] at h; cases h
  | ok cs =>
    obtain ⟨os', xs', h', _, _, h3, h4⟩ := findCritical_from g f psi discard cs hcs
    rw [h] at h'
    simp only [Except.ok.injEq, Prod.mk.injEq] at h'
    obtain ⟨rfl, rfl⟩ := h'
    have hmem := candidates_mem g f psi (interior g.nx g.ny) cs hcs (i, j) (interior_mem _ _ i j hi hj) _ hcand
    constructor
    · intro hd
      rw [decide_eq_false (not_lt.mpr hd)] at hmem
      obtain ⟨q, hq, hc⟩ := h3 _ hmem
      exact ⟨q, hq, hc.imp Eq.symm id⟩
    · intro hd hdis
      rw [decide_eq_true hd] at hmem
      obtain ⟨q, hq, hc⟩ := h4 hdis _ hmem
      exact ⟨q, hq, hc.imp Eq.symm id⟩

/-- A quadratic flux and its derivatives (reproduced exactly by a cubic spline). -/
def quadratic (a b c d e k : K) : Spline K where
  f R Z := a * R ^ 2 + b * R * Z + c * Z ^ 2 + d * R + e * Z + k
  dR R Z := 2 * a * R + b * Z + d
  dZ R Z := b * R + 2 * c * Z + e
  dRR _ _ := 2 * a
  dRZ _ _ := b
  dZZ _ _ := 2 * c

theorem quadratic_discriminant (a b c d e k R0 Z0 dR dZ : K) (hdR : dR ≠ 0) (hdZ : dZ ≠ 0) (nx ny i j : ℕ) (hi : 2 ≤ i) (hj : 2 ≤ j) :
    discriminant (⟨nx, ny, fun i => R0 + i * dR, fun j => Z0 + j * dZ⟩ : Mesh K)
      (fun x => (quadratic a b c d e k).f (R0 + x.1 * dR) (Z0 + x.2 * dZ)) i j = 4 * a * c - b ^ 2 := by
  have e1 : ((i - 2 : ℕ) : K) = i - 2 := by rw [Nat.cast_sub hi]; norm_num
  have e2 : ((j - 2 : ℕ) : K) = j - 2 := by rw [Nat.cast_sub hj]; norm_num
  simp only [discriminant, quadratic, e1, e2]
  push_cast
  have r1 : R0 + 1 * dR - (R0 + 0 * dR) = dR := by ring
  have r2 : Z0 + 1 * dZ - (Z0 + 0 * dZ) = dZ := by ring
  rw [r1, r2]
  field_simp
  ring

/-- **C91** (quadratic flux). On a uniform grid, the critical point of a quadratic flux with non-singular second derivatives that falls on a
grid point away from the edge is returned as an O-point if the second derivatives are definite and as an X-point if they are indefinite. -/
theorem C91_quadratic_partial (a b c d e k R0 Z0 dR dZ : K) (hR0 : 0 < R0) (hdR : 0 < dR) (hdZ : 0 < dZ) (nx ny : ℕ) (discard : Bool)
    (os xs : List (Point K))
    (h : findCritical ⟨nx, ny, fun i => R0 + i * dR, fun j => Z0 + j * dZ⟩ (quadratic a b c d e k)
      (fun x => (quadratic a b c d e k).f (R0 + x.1 * dR) (Z0 + x.2 * dZ)) discard = .ok (os, xs))
    (i j : ℕ) (hi : 2 ≤ i ∧ i + 2 < nx) (hj : 2 ≤ j ∧ j + 2 < ny)
    (hnull : 2 * a * (R0 + i * dR) + b * (Z0 + j * dZ) + d = 0 ∧ b * (R0 + i * dR) + 2 * c * (Z0 + j * dZ) + e = 0) :
    (0 < 4 * a * c - b ^ 2 → ∃ q ∈ os, (q.1 - (R0 + i * dR)) ^ 2 + (q.2.1 - (Z0 + j * dZ)) ^ 2 < 1 / 100000) ∧
    (4 * a * c - b ^ 2 < 0 → discard = false → ∃ q ∈ xs, (q.1 - (R0 + i * dR)) ^ 2 + (q.2.1 - (Z0 + j * dZ)) ^ 2 < 1 / 100000) := by
  have hRpos : ∀ n : ℕ, (R0 + n * dR) ≠ 0 := fun n => by positivity
  have hmain : 4 * a * c - b ^ 2 ≠ 0 → _ := fun hns => C91_node_found_partial _ _ _ discard os xs h i j hi hj (hRpos i)
    (by simpa only [quadratic] using hnull) (by
      intro p q _ _ _ _ hpq
      refine ⟨hRpos p, ?_⟩
      by_contra hcon
      rw [not_or, not_not, not_not] at hcon
      simp only [quadratic] at hcon
      apply hpq
      have e1 : 2 * a * (((p : K) - i) * dR) + b * (((q : K) - j) * dZ) = 0 := by linear_combination hcon.1 - hnull.1
      have e2 : b * (((p : K) - i) * dR) + 2 * c * (((q : K) - j) * dZ) = 0 := by linear_combination hcon.2 - hnull.2
      have f1 : (4 * a * c - b ^ 2) * (((p : K) - i) * dR) = 0 := by linear_combination 2 * c * e1 - b * e2
      have f2 : (4 * a * c - b ^ 2) * (((q : K) - j) * dZ) = 0 := by linear_combination 2 * a * e2 - b * e1
      have g1 : (p : K) = i := by
        rcases mul_eq_zero.mp f1 with h1 | h1
        · exact absurd h1 hns
        · rcases mul_eq_zero.mp h1 with h2 | h2
          · exact sub_eq_zero.mp h2
          · exact absurd h2 hdR.ne'
      have g2 : (q : K) = j := by
        rcases mul_eq_zero.mp f2 with h1 | h1
        · exact absurd h1 hns
        · rcases mul_eq_zero.mp h1 with h2 | h2
          · exact sub_eq_zero.mp h2
          · exact absurd h2 hdZ.ne'
      rw [Nat.cast_inj] at g1 g2
      rw [g1, g2])
  have hD := quadratic_discriminant a b c d e k R0 Z0 dR dZ hdR.ne' hdZ.ne' nx ny i j hi.1 hj.1
  have hclose : ∀ q : Point K, (q = (R0 + i * dR, Z0 + j * dZ, (quadratic a b c d e k).f (R0 + i * dR) (Z0 + j * dZ)) ∨
      Close (R0 + i * dR, Z0 + j * dZ, (quadratic a b c d e k).f (R0 + i * dR) (Z0 + j * dZ)) q) →
      (q.1 - (R0 + i * dR)) ^ 2 + (q.2.1 - (Z0 + j * dZ)) ^ 2 < 1 / 100000 := by
    rintro q (rfl | hq)
    · simp only [sub_self]; norm_num
    · rw [close_comm] at hq; exact hq
  constructor
  · intro hpos
    obtain ⟨q, hq, hc⟩ := (hmain hpos.ne').1 (by rw [hD]; exact hpos.le)
    exact ⟨q, hq, hclose q hc⟩
  · intro hneg hd
    obtain ⟨q, hq, hc⟩ := (hmain hneg.ne).2 (by rw [hD]; exact hneg) hd
    exact ⟨q, hq, hclose q hc⟩

example : findCritical (⟨7, 7, fun i => 1 + i * 1, fun j => 0 + j * 1⟩ : Mesh ℚ) (quadratic 1 0 2 (-8) (-12) 0)
      (fun x => (quadratic 1 0 2 (-8) (-12) 0).f (1 + x.1 * 1) (0 + x.2 * 1)) false = .ok ([(4, 3, -34)], []) ∧
    findCritical (⟨7, 7, fun i => 1 + i * 1, fun j => 0 + j * 1⟩ : Mesh ℚ) (quadratic 1 0 (-2) (-8) 12 0)
      (fun x => (quadratic 1 0 (-2) (-8) 12 0).f (1 + x.1 * 1) (0 + x.2 * 1)) false = .ok ([], [(4, 3, 2)]) := by decide +kernel

/-- **C91** (missed nulls). On a grid with an even number of rows, symmetric about the midplane, the field strength of any quadratic flux with
its critical point on the midplane is the same on the two rows next to the midplane. No strict local minimum exists and `find_critical`
returns no point at all, wherever on the midplane the null is and whether it is an O-point or an X-point. -/
theorem C91_even_rows_missed (a b d k : K) (hb : b ≠ 0) (nx m : ℕ) (R : ℕ → K) (hR : ∀ i, 0 < R i) (dZ : K) (hdZ : 0 < dZ) (discard : Bool) :
    findCritical ⟨nx, 2 * m, R, fun j => (2 * j - (2 * m - 1)) / 2 * dZ⟩ (quadratic a 0 b d 0 k)
      (fun x => (quadratic a 0 b d 0 k).f (R x.1) ((2 * x.2 - (2 * m - 1)) / 2 * dZ)) discard = .ok ([], []) := by
  set g : Mesh K := ⟨nx, 2 * m, R, fun j => (2 * j - (2 * m - 1)) / 2 * dZ⟩ with hg
  set f : Spline K := quadratic a 0 b d 0 k with hf
  set psi : ℕ × ℕ → K := fun x => f.f (R x.1) ((2 * x.2 - (2 * m - 1)) / 2 * dZ) with hpsi
  have hB : ∀ i j, f.Bp2 (g.R i) (g.Z j) = ((2 * a * R i + d) ^ 2 + b ^ 2 * dZ ^ 2 * (2 * j - (2 * m - 1)) ^ 2) / R i ^ 2 := by
    intro i j
    simp only [Spline.Bp2, hf, hg, quadratic]
    congr 1
    ring
  have hnone : ∀ i j, 2 ≤ j → candidate g f psi i j = .ok none := by
    intro i j hj
    have hl : ¬ isLocalMin (fun i j => f.Bp2 (g.R i) (g.Z j)) i j = true := by
      intro hl
      simp only [isLocalMin, Bool.and_eq_true, decide_eq_true_eq, hB] at hl
      obtain ⟨⟨_, hup⟩, hdn⟩ := hl
      have hR2 : 0 < R i ^ 2 := by have := hR i; positivity
      rw [div_lt_div_iff_of_pos_right hR2, add_lt_add_iff_left] at hup hdn
      have hbd : 0 < b ^ 2 * dZ ^ 2 := by positivity
      rw [mul_lt_mul_iff_right₀ hbd] at hup hdn
      have e1 : ((j - 1 : ℕ) : K) = j - 1 := by rw [Nat.cast_sub (by omega)]; norm_num
      rw [e1] at hdn
      push_cast at hup hdn
      have u1 : ((2 * m : ℕ) : K) < ((2 * j + 2 : ℕ) : K) := by push_cast; nlinarith
      have u2 : ((2 * j : ℕ) : K) < ((2 * m : ℕ) : K) := by push_cast; nlinarith
      rw [Nat.cast_lt] at u1 u2
      omega
    rw [candidate]
    simp only [if_neg hl]
  obtain ⟨cs, hcs, hP⟩ := candidates_total g f psi (fun _ => False) (interior g.nx g.ny) (by
    rintro ⟨i, j⟩ hc
    obtain ⟨h1, h2⟩ := interior_spec _ _ _ hc
    exact ⟨none, hnone i j h2.1, by simp⟩)
  obtain ⟨os, xs, h, h1, h2, _⟩ := findCritical_from g f psi discard cs hcs
  rw [h]
  have e1 : os = [] := List.eq_nil_iff_forall_not_mem.mpr fun p hp => hP _ (h1 p hp)
  have e2 : xs = [] := List.eq_nil_iff_forall_not_mem.mpr fun p hp => hP _ (h2 p hp)
  rw [e1, e2]

/-- The critical point `(4, 0)` of the flux is well inside the grid of 7 by 8 points. -/
example : (quadratic (1 : ℚ) 0 1 (-8) 0 0).dR 4 0 = 0 ∧ (quadratic (1 : ℚ) 0 1 (-8) 0 0).dZ 4 0 = 0 ∧
    findCritical (⟨7, 2 * 4, fun i => i + 1, fun j => (2 * j - (2 * 4 - 1)) / 2 * 1⟩ : Mesh ℚ) (quadratic 1 0 1 (-8) 0 0)
      (fun x => (quadratic 1 0 1 (-8) 0 0).f (x.1 + 1) ((2 * x.2 - (2 * 4 - 1)) / 2 * 1)) = .ok ([], []) := by decide +kernel

/-- **C91** (missed nulls). For every flux whose field strength is up-down symmetric, on a symmetric grid with an even number of rows, the search
never starts next to the midplane: each point returned is within three grid diagonals of a grid point on another row. -/
theorem C91_middle_rows_not_searched (g : Mesh K) (f : Spline K) (psi : ℕ × ℕ → K) (discard : Bool) (m : ℕ) (hny : g.ny = 2 * m)
    (hZ : ∀ j < 2 * m, g.Z (2 * m - 1 - j) = -g.Z j) (hsym : ∀ R Z, f.dR R (-Z) = f.dR R Z ∧ f.dZ R (-Z) = -f.dZ R Z)
    (os xs : List (Point K)) (h : findCritical g f psi discard = .ok (os, xs)) :
    ∀ p ∈ os ++ xs, ∃ i j, 2 ≤ i ∧ i + 2 < g.nx ∧ 2 ≤ j ∧ j + 2 < g.ny ∧ j ≠ m ∧ j + 1 ≠ m ∧
      (p.1 - g.R i) ^ 2 + (p.2.1 - g.Z j) ^ 2 ≤ 9 * ((g.R 1 - g.R 0) ^ 2 + (g.Z 1 - g.Z 0) ^ 2) := by
  have hB : ∀ R Z, f.Bp2 R (-Z) = f.Bp2 R Z := by
    intro R Z; simp only [Spline.Bp2, (hsym R Z).1, (hsym R Z).2, neg_sq]
  obtain ⟨hO, hX, _⟩ := C28_find_critical g f psi discard os xs h
  intro p hp
  have hfound : ∃ b, Found g f psi b p := by
    rcases List.mem_append.mp hp with hp | hp
    · exact ⟨_, hO p hp⟩
    · exact ⟨_, hX p hp⟩
  obtain ⟨b, hF⟩ := hfound
  obtain ⟨i, j, hi1, hi2, hj1, hj2, hd, _, hmin⟩ := hF.near
  refine ⟨i, j, hi1, hi2, hj1, hj2, ?_, ?_, hd⟩
  · rintro rfl
    have h1 := hmin i (j - 1) (by omega) (by omega) (by omega) (by omega) (by simp only [ne_eq, Prod.mk.injEq]; omega)
    have h2 := hZ j (by omega)
    have h3 : 2 * j - 1 - j = j - 1 := by omega
    rw [h3] at h2
    rw [h2, hB] at h1
    exact lt_irrefl _ h1
  · rintro rfl
    have h1 := hmin i (j + 1) (by omega) (by omega) (by omega) (by omega) (by simp only [ne_eq, Prod.mk.injEq]; omega)
    have h2 := hZ j (by omega)
    have h3 : 2 * (j + 1) - 1 - j = j + 1 := by omega
    rw [h3] at h2
    rw [h2, hB] at h1
    exact lt_irrefl _ h1

/-- A flux with O-points at `(4, ±5/2)` and an X-point at `(4, 0)`. -/
def doublet : Spline ℚ where
  f R Z := (R - 4) ^ 2 + Z ^ 4 / 4 - 25 / 8 * Z ^ 2
  dR R _ := 2 * (R - 4)
  dZ _ Z := Z ^ 3 - 25 / 4 * Z
  dRR _ _ := 2
  dRZ _ _ := 0
  dZZ _ Z := 3 * Z ^ 2 - 25 / 4

/-- With ten rows the O-points, which are on grid points, are found and the X-point on the midplane is not. With eleven rows it is. -/
example : findCritical (⟨7, 10, fun i => i + 1, fun j => j - 9 / 2⟩ : Mesh ℚ) doublet (fun x => doublet.f (x.1 + 1) (x.2 - 9 / 2)) false =
      .ok ([(4, -5 / 2, -625 / 64), (4, 5 / 2, -625 / 64)], []) ∧
    (∀ R Z : ℚ, doublet.dR R (-Z) = doublet.dR R Z ∧ doublet.dZ R (-Z) = -doublet.dZ R Z) ∧
    findCritical (⟨7, 11, fun i => i + 1, fun j => (j - 5) / 2⟩ : Mesh ℚ) doublet (fun x => doublet.f (x.1 + 1) ((x.2 - 5) / 2)) false =
      .ok ([], [(4, 0, 0)]) := by
  refine ⟨by decide +kernel, fun R Z => ⟨rfl, ?_⟩, by decide +kernel⟩
  simp only [doublet]; ring

end FreeGS.Critical
