import Verif.Lemmas.FieldTracer

set_option linter.unusedSectionVars false

/-!
# Field line tracing (C50, C82, C83)
-/

namespace FreeGS.Tracer

open FreeGS.Critical (Domain linspaceAt)

variable {K : Type*} [Field K] [LinearOrder K] [IsStrictOrderedRing K]

/-! ### A worked example -/

/-- A square wall, counter-clockwise. -/
def exWall : List (ℚ × ℚ) := [(1, -1), (3, -1), (3, 1), (1, 1)]

/-- A uniform field `(2, 3, 6)` of strength 7, in the domain `[0, 4] × [-2, 2]`. -/
def exEq (wall : Option (List (ℚ × ℚ))) : Eq ℚ :=
  { Br := fun _ _ => 2, Bz := fun _ _ => 3, Btor := fun _ _ => 6, dom := ⟨0, 4, -2, 2⟩, wall, sqrt := fun x => if x = 49 then 7 else 0 }

/-! ### C50 -/

/-- The position stops a line: without a wall it is beyond a margin of one centimetre inside the edges of the domain, with a wall it is
found to be outside the wall (see C82). -/
def Stops (eq : Eq K) (p : K × K) : Prop :=
  match eq.wall with
  | none => ¬ (eq.dom.Rmin + 1 / 100 ≤ p.1 ∧ p.1 ≤ eq.dom.Rmax - 1 / 100 ∧ eq.dom.Zmin + 1 / 100 ≤ p.2 ∧ p.2 ≤ eq.dom.Zmax - 1 / 100)
  | some w => outside w (middle eq.dom) p = true

theorem update_eq (eq : Eq K) (p : K × K) (e : K) [Decidable (Stops eq p)] :
    updateEvolving eq p.1 p.2 e = if Stops eq p then 0 else e := by
  unfold updateEvolving
  cases hw : eq.wall with
  | some w =>
    have : Stops eq p ↔ outside w (middle eq.dom) p = true := by unfold Stops; rw [hw]
    simp only [wallDomain, this, Prod.mk.eta]
  | none =>
    have : Stops eq p ↔ (p.1 < eq.dom.Rmin + 1 / 100 ∨ p.1 > eq.dom.Rmax - 1 / 100 ∨ p.2 < eq.dom.Zmin + 1 / 100 ∨
        p.2 > eq.dom.Zmax - 1 / 100) := by
      unfold Stops
      rw [hw]
      simp only [not_and_or, not_le, gt_iff_lt]
    simp only [eqDomain, this]

/-- The flag of line `k` after a list of evaluations. -/
theorem flags_get (eq : Eq K) (b : Bool) {n k : ℕ} (hk : k < n) (evals : List (List (K × K))) :
    ∀ (ev : List K) (e : K), (∀ pos ∈ evals, pos.length = n) → ev.length = n → ev[k]? = some e →
      (flags eq b ev evals).length = n ∧
      (((∃ pos ∈ evals, ∃ p, pos[k]? = some p ∧ Stops eq p) ∧ (flags eq b ev evals)[k]? = some 0) ∨
        ((∀ pos ∈ evals, ∀ p, pos[k]? = some p → ¬ Stops eq p) ∧ (flags eq b ev evals)[k]? = some e)) := by
  classical
  induction evals with
  | nil => intro ev e _ h1 h2; exact ⟨h1, .inr ⟨by simp, h2⟩⟩
  | cons pos evals ih =>
    intro ev e hl h1 h2
    have hpl := hl pos List.mem_cons_self
    have hstep : (fieldDirection eq b pos ev).2.length = n := by simp [fieldDirection, hpl, h1]
    obtain ⟨p, hp⟩ : ∃ p, pos[k]? = some p := ⟨pos[k]'(by omega), List.getElem?_eq_getElem _⟩
    have hget : (fieldDirection eq b pos ev).2[k]? = some (if Stops eq p then 0 else e) := by
      simp only [fieldDirection, List.getElem?_zipWith, hp, h2, Option.map_some, Option.bind_some]
      rw [← update_eq eq p e]
    obtain ⟨h3, h4⟩ := ih _ _ (fun q hq => hl q (List.mem_cons_of_mem _ hq)) hstep hget
    refine ⟨h3, ?_⟩
    show _ ∨ (_ ∧ (flags eq b (fieldDirection eq b pos ev).2 evals)[k]? = some e)
    have hfold : (flags eq b ev (pos :: evals))[k]? = (flags eq b (fieldDirection eq b pos ev).2 evals)[k]? := rfl
    rw [hfold]
    rcases h4 with ⟨⟨q, hq, hstop⟩, h5⟩ | ⟨h5, h6⟩
    · exact .inl ⟨⟨q, List.mem_cons_of_mem _ hq, hstop⟩, h5⟩
    · by_cases hs : Stops eq p
      · rw [if_pos hs] at h6
        exact .inl ⟨⟨pos, List.mem_cons_self, p, hp, hs⟩, h6⟩
      · rw [if_neg hs] at h6
        refine .inr ⟨?_, h6⟩
        intro q hq r hr
        rcases List.mem_cons.mp hq with rfl | hq
        · rw [hp, Option.some.injEq] at hr; rwa [← hr]
        · exact h5 q hq r hr

/-- **C50 (never restarts).** For any number of lines, any fields, wall or domain, and any sequence of evaluations: the flag of a line is
1 as long as none of its evaluated positions was outside, and 0 from the first such evaluation on for ever, wherever the line is
evaluated afterwards. Whether the tracing is backward makes no difference. -/
theorem C50_never_restarts (eq : Eq K) (b : Bool) {n k : ℕ} (hk : k < n) (evals : List (List (K × K)))
    (hl : ∀ pos ∈ evals, pos.length = n) :
    ((∃ pos ∈ evals, ∃ p, pos[k]? = some p ∧ Stops eq p) → (flags eq b (List.replicate n 1) evals)[k]? = some 0) ∧
    ((∀ pos ∈ evals, ∀ p, pos[k]? = some p → ¬ Stops eq p) → (flags eq b (List.replicate n 1) evals)[k]? = some 1) ∧
    (∀ more : List (List (K × K)), (∀ pos ∈ more, pos.length = n) → (flags eq b (List.replicate n 1) evals)[k]? = some 0 →
      (flags eq b (List.replicate n 1) (evals ++ more))[k]? = some 0) ∧
    flags eq (!b) (List.replicate n 1) evals = flags eq b (List.replicate n 1) evals := by
  have h1 : (List.replicate n (1 : K)).length = n := List.length_replicate
  have h2 : (List.replicate n (1 : K))[k]? = some 1 := by simp [List.getElem?_replicate, hk]
  obtain ⟨h0, h3⟩ := flags_get eq b hk evals _ _ hl h1 h2
  refine ⟨?_, ?_, ?_, rfl⟩
  · rintro ⟨pos, hp, p, hpk, hs⟩
    rcases h3 with h | h
    · exact h.2
    · exact absurd hs (h.1 pos hp p hpk)
  · intro h
    rcases h3 with ⟨⟨pos, hp, p, hpk, hs⟩, -⟩ | h'
    · exact absurd hs (h pos hp p hpk)
    · exact h'.2
  · intro more hm hz
    have hsplit : flags eq b (List.replicate n 1) (evals ++ more) = flags eq b (flags eq b (List.replicate n 1) evals) more := by
      simp [flags, List.foldl_append]
    rw [hsplit]
    obtain ⟨-, h⟩ := flags_get eq b hk more _ _ hm h0 hz
    rcases h with h | h
    · exact h.2
    · exact h.2

example : flags (exEq none) false (List.replicate 2 1) [[(1, 0), (2, 0)], [(399 / 100, 0), (2, 1)], [(1, 0), (2, 0)]] = [1, 1] ∧
    flags (exEq none) false (List.replicate 2 1) [[(1, 0), (2, 0)], [(399 / 100 + 1 / 1000, 0), (2, 1)], [(1, 0), (2, 0)]] = [0, 1] ∧
    flags (exEq (some exWall)) true (List.replicate 2 1) [[(3 / 2, 0), (2, 0)], [(1 / 2, 0), (2, 1)], [(3 / 2, 0), (2, 0)]] = [0, 1] := by
  decide +kernel

/-- **C50 (a stopped line stands still).** Once the flag of a line is zero, every later evaluation, anywhere, returns zero rates of
change of radius, height and length (unless the toroidal field vanishes at the point, when the rates are not numbers). -/
theorem C50_stopped (eq : Eq K) (b : Bool) {n k : ℕ} (hk : k < n) (evals : List (List (K × K))) (hl : ∀ pos ∈ evals, pos.length = n)
    (hs : ∃ pos ∈ evals, ∃ p, pos[k]? = some p ∧ Stops eq p) (pos : List (K × K)) (hp : pos.length = n) {p : K × K}
    (hpk : pos[k]? = some p) :
    (fieldDirection eq b pos (flags eq b (List.replicate n 1) evals)).1[k]? =
      some (if eq.Btor p.1 p.2 = 0 then .error .nonfinite else .ok (0, 0, 0)) := by
  classical
  have h1 := (C50_never_restarts eq b hk (evals ++ [pos]) (by
    intro q hq
    rcases List.mem_append.mp hq with h | h
    · exact hl q h
    · rw [List.mem_singleton] at h; rw [h]; exact hp)).1 (by
    obtain ⟨q, hq, r⟩ := hs
    exact ⟨q, List.mem_append_left _ hq, r⟩)
  have hsplit : flags eq b (List.replicate n 1) (evals ++ [pos]) =
      (fieldDirection eq b pos (flags eq b (List.replicate n 1) evals)).2 := by simp [flags, List.foldl_append]
  rw [hsplit] at h1
  have h2 : (fieldDirection eq b pos (flags eq b (List.replicate n 1) evals)).1[k]? =
      some (rates eq b p.1 p.2 0) := by
    have h1' := h1
    simp only [fieldDirection] at h1' ⊢
    rw [List.getElem?_zipWith, hpk, h1']
  rw [h2]
  unfold rates
  by_cases hB : eq.Btor p.1 p.2 = 0
  · simp [hB]
  · cases b <;> simp [hB]

example : (fieldDirection (exEq none) false [(2, 0)] (flags (exEq none) false (List.replicate 1 1) [[(5, 0)]])).1.map
      (fun r => r.toOption) = [some (0, 0, 0)] ∧
    (fieldDirection (exEq none) false [(2, 0)] (List.replicate 1 1)).1.map (fun r => r.toOption) = [some (2 / 3, 1, 7 / 3)] := by
  decide +kernel

/-- **C50 (direction).** A moving line follows the field: the rates of change with toroidal angle satisfy
`dR : dZ : R = Br : Bz : Btor`, and the rate of change of length is, up to sign, that of the arc length. -/
theorem C50_follows_field (eq : Eq K) {R Z : K} (hB : eq.Btor R Z ≠ 0)
    (hsq : eq.sqrt (eq.Br R Z ^ 2 + eq.Bz R Z ^ 2 + eq.Btor R Z ^ 2) ^ 2 = eq.Br R Z ^ 2 + eq.Bz R Z ^ 2 + eq.Btor R Z ^ 2) :
    ∃ dR dZ dl, rates eq false R Z 1 = .ok (dR, dZ, dl) ∧ dR * eq.Btor R Z = R * eq.Br R Z ∧ dZ * eq.Btor R Z = R * eq.Bz R Z ∧
      dl ^ 2 = dR ^ 2 + dZ ^ 2 + R ^ 2 := by
  refine ⟨1 * R / eq.Btor R Z * eq.Br R Z, 1 * R / eq.Btor R Z * eq.Bz R Z,
    1 * R / eq.Btor R Z * eq.sqrt (eq.Br R Z ^ 2 + eq.Bz R Z ^ 2 + eq.Btor R Z ^ 2), by simp [rates, hB], ?_, ?_, ?_⟩
  · field_simp
  · field_simp
  · rw [mul_pow, hsq]
    field_simp

example : rates (exEq none) false 2 0 1 = .ok (2 / 3, 1, 7 / 3) ∧ (7 / 3 : ℚ) ^ 2 = (2 / 3) ^ 2 + 1 ^ 2 + 2 ^ 2 := by decide +kernel

/-- **C50 (backward).** Tracing backward negates the rates of radius and height and leaves the rate of length as it is. -/
theorem C50_backward (eq : Eq K) (R Z ev : K) :
    rates eq true R Z ev = (rates eq false R Z ev).map fun d => (-d.1, -d.2.1, d.2.2) := by
  unfold rates
  by_cases hB : eq.Btor R Z = 0
  · simp [hB, Except.map]
  · simp [hB, Except.map]

example : rates (exEq none) true 2 0 1 = .ok (-2 / 3, -1, 7 / 3) := by decide +kernel

/-- **C50 (length, part).** With a positive toroidal field the length of a moving line grows, forward and backward. The full claim, that
length always grows, is false: see `C50_length_shrinks`. -/
theorem C50_length_partial (eq : Eq K) (b : Bool) {R Z : K} (hR : 0 < R) (hB : 0 < eq.Btor R Z)
    (hs : 0 < eq.sqrt (eq.Br R Z ^ 2 + eq.Bz R Z ^ 2 + eq.Btor R Z ^ 2)) :
    ∃ dR dZ dl, rates eq b R Z 1 = .ok (dR, dZ, dl) ∧ 0 < dl := by
  cases b
  · exact ⟨_, _, _, by simp only [rates, if_neg hB.ne']; rfl, by rw [one_mul]; exact mul_pos (div_pos hR hB) hs⟩
  · exact ⟨_, _, _, by simp only [rates, if_neg hB.ne']; rfl, by rw [one_mul]; exact mul_pos (div_pos hR hB) hs⟩

/-- **C50 fails (length).** With a negative toroidal field the length of a moving line decreases, forward and backward. -/
theorem C50_length_shrinks (eq : Eq K) (b : Bool) {R Z : K} (hR : 0 < R) (hB : eq.Btor R Z < 0)
    (hs : 0 < eq.sqrt (eq.Br R Z ^ 2 + eq.Bz R Z ^ 2 + eq.Btor R Z ^ 2)) :
    ∃ dR dZ dl, rates eq b R Z 1 = .ok (dR, dZ, dl) ∧ dl < 0 := by
  cases b
  · exact ⟨_, _, _, by simp only [rates, if_neg hB.ne]; rfl, by
      rw [one_mul]; exact mul_neg_of_neg_of_pos (div_neg_of_pos_of_neg hR hB) hs⟩
  · exact ⟨_, _, _, by simp only [rates, if_neg hB.ne]; rfl, by
      rw [one_mul]; exact mul_neg_of_neg_of_pos (div_neg_of_pos_of_neg hR hB) hs⟩

example : rates { exEq none with Btor := fun _ _ => -6 } true 2 0 1 = .ok (2 / 3, 1, -7 / 3) := by decide +kernel

/-! ### C82 -/

/-- **C82 (inside).** For every wall and every middle of the domain that lies strictly on the inner side of all the sides of the wall, a
point on the inner side (or on the line) of all of them is never taken to be outside. -/
theorem C82_inside (σ : K) (wall : List (K × K)) (mid x : K × K) (hm : Inside σ wall mid)
    (hx : ∀ i < wall.length, 0 ≤ σ * side (corner wall i) (corner wall (i + 1)) x) : outside wall mid x = false := by
  apply outside_none
  intro i hi
  rw [← Bool.not_eq_true, crosses_iff]
  rintro ⟨-, h, -⟩
  have h1 := mul_nonneg (hm i hi).le (hx i hi)
  have h2 : σ * side (corner wall i) (corner wall (i + 1)) mid * (σ * side (corner wall i) (corner wall (i + 1)) x) =
      σ ^ 2 * (side (corner wall i) (corner wall (i + 1)) mid * side (corner wall i) (corner wall (i + 1)) x) := by ring
  rw [h2] at h1
  have hσ : σ ≠ 0 := by
    rintro rfl
    have := hm i hi
    simp at this
  exact absurd (mul_neg_of_pos_of_neg (pow_pos_of_ne hσ) h) (not_lt.mpr h1)
where
  pow_pos_of_ne {σ : K} (h : σ ≠ 0) : 0 < σ ^ 2 := lt_of_le_of_ne (sq_nonneg σ) (pow_ne_zero 2 h).symm

/-- **C82 (outside).** For every strictly convex wall, of any number of corners and either sense, with the middle of the domain strictly
inside: a point strictly outside is always recognised, provided the line of sight from the middle meets no corner and no side it passes
has a determinant of at most `1e-6`. Both provisos are needed: see `C82_behind_corner` and `C82_small_wall`. Walls that are not convex
are not covered. -/
theorem C82_outside_partial {σ : K} (hσ : σ = 1 ∨ σ = -1) {wall : List (K × K)} (hw : Convex σ wall) {mid x : K × K}
    (hm : Inside σ wall mid) (hx : Beyond σ wall x) (hv : ∀ i < wall.length, side mid x (corner wall i) ≠ 0)
    (hd : ∀ i < wall.length, σ * side (corner wall i) (corner wall (i + 1)) x < 0 →
      1 / 1000000 < |side (corner wall i) (corner wall (i + 1)) mid - side (corner wall i) (corner wall (i + 1)) x|) :
    outside wall mid x = true := outside_of_beyond hσ hw hm hx hv hd

instance (σ : ℚ) (wall : List (ℚ × ℚ)) : Decidable (Convex σ wall) := by unfold Convex; infer_instance
instance (σ : ℚ) (wall : List (ℚ × ℚ)) (x : ℚ × ℚ) : Decidable (Inside σ wall x) := by unfold Inside; infer_instance
instance (σ : ℚ) (wall : List (ℚ × ℚ)) (x : ℚ × ℚ) : Decidable (Beyond σ wall x) := by unfold Beyond; infer_instance

example : Convex 1 exWall ∧ Inside 1 exWall (2, 0) ∧ Beyond 1 exWall (7 / 2, 1 / 2) ∧
    (∀ i < exWall.length, side (2, 0) (7 / 2, 1 / 2) (corner exWall i) ≠ 0) ∧
    outside exWall (2, 0) (7 / 2, 1 / 2) = true ∧ outside exWall (2, 0) (5 / 2, 1 / 2) = false := by decide +kernel

example : Convex (-1) exWall.reverse ∧ Inside (-1) exWall.reverse (2, 0) ∧ Beyond (-1) exWall.reverse (7 / 2, 1 / 2) ∧
    outside exWall.reverse (2, 0) (7 / 2, 1 / 2) = true := by decide +kernel

/-- **C82 fails (corners).** For every strictly convex wall with the middle of the domain strictly inside, every point straight behind a
corner, as seen from the middle, is outside and is not recognised: neither of the two sides that meet at the corner counts. -/
theorem C82_behind_corner {σ : K} (hσ : σ = 1 ∨ σ = -1) {wall : List (K × K)} (hw : Convex σ wall) {mid : K × K}
    (hm : Inside σ wall mid) {k : ℕ} (hk : k < wall.length) {t : K} (ht : 1 < t) :
    Beyond σ wall (mid.1 + t * ((corner wall k).1 - mid.1), mid.2 + t * ((corner wall k).2 - mid.2)) ∧
      outside wall mid (mid.1 + t * ((corner wall k).1 - mid.1), mid.2 + t * ((corner wall k).2 - mid.2)) = false := by
  refine ⟨⟨k, hk, ?_⟩, behind_corner hσ hw hm hk ht⟩
  have h : σ * side (corner wall k) (corner wall (k + 1))
      (mid.1 + t * ((corner wall k).1 - mid.1), mid.2 + t * ((corner wall k).2 - mid.2)) =
      (1 - t) * (σ * side (corner wall k) (corner wall (k + 1)) mid) := by unfold side; ring
  rw [h]
  exact mul_neg_of_neg_of_pos (by linarith) (hm k hk)

example : Beyond 1 exWall (4, 2) ∧ outside exWall (2, 0) (4, 2) = false := by decide +kernel

/-- **C82 fails (middle outside the wall).** If the middle of the domain is strictly outside a convex wall, then points strictly inside
the wall are taken to be outside (with the same provisos), so that a line in the vessel never moves. -/
theorem C82_middle_outside {σ : K} (hσ : σ = 1 ∨ σ = -1) {wall : List (K × K)} (hw : Convex σ wall) {mid x : K × K}
    (hx : Inside σ wall x) (hm : Beyond σ wall mid) (hv : ∀ i < wall.length, side x mid (corner wall i) ≠ 0)
    (hd : ∀ i < wall.length, σ * side (corner wall i) (corner wall (i + 1)) mid < 0 →
      1 / 1000000 < |side (corner wall i) (corner wall (i + 1)) x - side (corner wall i) (corner wall (i + 1)) mid|) :
    outside wall mid x = true := by
  rw [outside_symm]
  exact outside_of_beyond hσ hw hx hm hv hd

example : Inside 1 exWall (2, 0) ∧ Beyond 1 exWall (7 / 2, 1 / 2) ∧ outside exWall (7 / 2, 1 / 2) (2, 0) = true := by decide +kernel

/-- **C82 fails (small walls).** A point is never recognised as outside if the determinant of every side is at most `1e-6`. -/
theorem C82_small_wall (wall : List (K × K)) (mid x : K × K)
    (h : ∀ i < wall.length,
      |side (corner wall i) (corner wall (i + 1)) mid - side (corner wall i) (corner wall (i + 1)) x| ≤ 1 / 1000000) :
    outside wall mid x = false := by
  apply outside_none
  intro i hi
  rw [← Bool.not_eq_true, crosses_iff]
  rintro ⟨h1, -⟩
  exact absurd h1 (not_lt.mpr (h i hi))

example : (Convex 1 [(-1 / 2000, -1 / 2000), (1 / 2000, -1 / 2000), (1 / 2000, 1 / 2000), ((-1 / 2000 : ℚ), 1 / 2000)]) ∧
    Beyond 1 [(-1 / 2000, -1 / 2000), (1 / 2000, -1 / 2000), (1 / 2000, 1 / 2000), ((-1 / 2000 : ℚ), 1 / 2000)] (1 / 1500, 0) ∧
    outside [(-1 / 2000, -1 / 2000), (1 / 2000, -1 / 2000), (1 / 2000, 1 / 2000), ((-1 / 2000 : ℚ), 1 / 2000)] (0, 0) (1 / 1500, 0) =
      false := by decide +kernel

/-- **C82 (symmetry).** Whether the wall separates two points does not depend on which of them is the middle of the domain. -/
theorem C82_symmetric (wall : List (K × K)) (x y : K × K) : outside wall x y = outside wall y x := outside_symm wall x y

/-! ### C83 -/

/-- **C83 (starting points).** The field lines of `traceFieldLines` start at `nlines` radii that divide the width of the scrape-off layer
evenly: line `k` starts at `rmid + solwidth · (k+1)/nlines`. So for a positive width all starts are outside the separatrix, the last is
exactly at the width, and the radii increase. No lines at all is an error. -/
theorem C83_starts (rmid w : K) {n : ℕ} (hn : n ≠ 0) :
    ∃ r, startRadii rmid w n = .ok r ∧ r.length = n ∧ (∀ k < n, r[k]? = some (rmid + w * (((k + 1 : ℕ) : K) / (n : K)))) := by
  have hK : (n : K) ≠ 0 := Nat.cast_ne_zero.mpr hn
  refine ⟨_, by rw [startRadii, if_neg hn], by simp, ?_⟩
  intro k hk
  rw [List.getElem?_map, List.getElem?_range hk, Option.map_some, Option.some.injEq, linspaceAt]
  by_cases h1 : n ≤ 1
  · have hn1 : n = 1 := by omega
    have hk0 : k = 0 := by omega
    subst hn1; subst hk0
    simp
  · rw [if_neg h1]
    have : (n : K) - 1 ≠ 0 := by
      have : (1 : K) < n := by exact_mod_cast (by omega : 1 < n)
      linarith
    push_cast
    field_simp
    ring

/-- **C83 (order).** For a positive width all starts are outside the separatrix and within the width, in increasing order, and the last
is at the full width. -/
theorem C83_order (rmid : K) {w : K} (hw : 0 < w) {n : ℕ} {r : List K} (h : startRadii rmid w n = .ok r) :
    (∀ (k : ℕ) (x : K), r[k]? = some x → rmid < x ∧ x ≤ rmid + w) ∧
    (∀ (j k : ℕ) (x y : K), j < k → r[j]? = some x → r[k]? = some y → x < y) ∧ r[n - 1]? = some (rmid + w) := by
  have hn : n ≠ 0 := by
    rintro rfl
    simp [startRadii] at h
  obtain ⟨r', h1, h2, h3⟩ := C83_starts rmid w hn
  rw [h1, Except.ok.injEq] at h
  subst h
  have hpos : (0 : K) < n := Nat.cast_pos.mpr (Nat.pos_of_ne_zero hn)
  have hlt : ∀ (k : ℕ) (x : K), r'[k]? = some x → k < n := by
    intro k x hx
    rw [← h2]
    exact (List.getElem?_eq_some_iff.mp hx).1
  refine ⟨?_, ?_, ?_⟩
  · intro k x hx
    have hk := hlt k x hx
    rw [h3 k hk, Option.some.injEq] at hx
    rw [← hx]
    have h4 : (0 : K) < ((k + 1 : ℕ) : K) / n := div_pos (Nat.cast_pos.mpr (Nat.succ_pos k)) hpos
    have h5 : ((k + 1 : ℕ) : K) / n ≤ 1 := by
      rw [div_le_one hpos]
      exact_mod_cast hk
    have h6 := mul_pos hw h4
    have h7 : w * (((k + 1 : ℕ) : K) / n) ≤ w := by
      have := mul_le_mul_of_nonneg_left h5 hw.le
      rwa [mul_one] at this
    exact ⟨by linarith, by linarith⟩
  · intro j k x y hjk hx hy
    rw [h3 j (hlt j x hx), Option.some.injEq] at hx
    rw [h3 k (hlt k y hy), Option.some.injEq] at hy
    rw [← hx, ← hy]
    have : ((j + 1 : ℕ) : K) / n < ((k + 1 : ℕ) : K) / n := by
      apply div_lt_div_of_pos_right _ hpos
      exact_mod_cast (by omega : j + 1 < k + 1)
    have := mul_lt_mul_of_pos_left this hw
    linarith
  · rw [h3 (n - 1) (by omega), Nat.sub_add_cancel (by omega), div_self hpos.ne', mul_one]

example : startRadii (3 : ℚ) (1 / 10) 5 = .ok [151 / 50, 76 / 25, 153 / 50, 77 / 25, 31 / 10] := by decide +kernel

example : startRadii (3 : ℚ) (1 / 10) 0 = .error .zeroDivision := by decide +kernel

end FreeGS.Tracer
