import Verif.Lemmas.CoreMask

/-!
# C27-C29, C55: critical points and flux surface search
-/

set_option linter.unusedSectionVars false

namespace FreeGS.Critical

variable {K : Type*} [Field K] [LinearOrder K]

/-! ## Removal of duplicates -/

/-- Two points are duplicates: their squared distance in the (R, Z) plane is below `1e-5`. -/
def Close (p q : Point K) : Prop := (p.1 - q.1) ^ 2 + (p.2.1 - q.2.1) ^ 2 < 1 / 100000

theorem close_comm (p q : Point K) : Close p q ↔ Close q p := by
  rw [Close, Close]
  constructor <;> intro h <;> (convert h using 2 <;> ring)

theorem removeDupLoop_spec : ∀ (ps result : List (Point K)),
    result.Pairwise (fun p q => ¬ Close p q) →
    ∃ kept, removeDupLoop result ps = result ++ kept ∧ kept.Sublist ps ∧
      (result ++ kept).Pairwise (fun p q => ¬ Close p q) ∧
      ∀ p ∈ ps, ∃ q ∈ result ++ kept, p = q ∨ Close p q := by
  intro ps
  induction ps with
  | nil => intro result h; exact ⟨[], by simp [removeDupLoop], List.Sublist.refl _, by simpa using h, by simp⟩
  | cons p ps ih =>
    intro result h
    rw [removeDupLoop]
    split
    · rename_i hany
      obtain ⟨kept, h1, h2, h3, h4⟩ := ih result h
      refine ⟨kept, h1, h2.trans (List.sublist_cons_self _ _), h3, fun q hq => ?_⟩
      rcases List.mem_cons.mp hq with rfl | hq
      · simp only [List.any_eq_true, decide_eq_true_eq] at hany
        obtain ⟨r, hr, hc⟩ := hany
        exact ⟨r, List.mem_append_left _ hr, Or.inr hc⟩
      · exact h4 q hq
    · rename_i hany
      simp only [List.any_eq_true, decide_eq_true_eq, not_exists, not_and] at hany
      have hp : (result ++ [p]).Pairwise (fun p q => ¬ Close p q) := by
        rw [List.pairwise_append]
        refine ⟨h, List.pairwise_singleton _ _, fun a ha b hb => ?_⟩
        rw [List.mem_singleton.mp hb, close_comm]
        exact hany a ha
      obtain ⟨kept, h1, h2, h3, h4⟩ := ih (result ++ [p]) hp
      refine ⟨p :: kept, by rw [h1]; simp, h2.cons_cons p, by simpa using h3, fun q hq => ?_⟩
      rcases List.mem_cons.mp hq with rfl | hq
      · exact ⟨q, by simp, Or.inl rfl⟩
      · obtain ⟨r, hr, hc⟩ := h4 q hq
        exact ⟨r, by simpa using hr, hc⟩

theorem removeDupLoop_id : ∀ (ps result : List (Point K)),
    (result ++ ps).Pairwise (fun p q => ¬ Close p q) → removeDupLoop result ps = result ++ ps := by
  intro ps
  induction ps with
  | nil => intro result _; simp [removeDupLoop]
  | cons p ps ih =>
    intro result h
    rw [removeDupLoop, if_neg]
    · rw [ih (result ++ [p]) (by simpa using h)]; simp
    · simp only [List.any_eq_true, decide_eq_true_eq, not_exists, not_and]
      intro q hq
      have := (List.pairwise_append.mp h).2.2 q hq p List.mem_cons_self
      rw [close_comm] at this
      exact this

/-- **C27.** The removal of duplicates returns a sub-list, in the same order, in which no two points are closer than the
tolerance; every input point is kept or closer than the tolerance to a kept one; doing it again changes nothing. -/
theorem C27_remove_dup (points : List (Point K)) :
    (removeDup points).Sublist points ∧ (removeDup points).Pairwise (fun p q => ¬ Close p q) ∧
    (∀ p ∈ points, ∃ q ∈ removeDup points, p = q ∨ Close p q) ∧
    removeDup (removeDup points) = removeDup points := by
  obtain ⟨kept, h1, h2, h3, h4⟩ := removeDupLoop_spec points [] List.Pairwise.nil
  simp only [List.nil_append] at h1 h3 h4
  rw [removeDup, h1]
  refine ⟨h2, h3, h4, ?_⟩
  rw [removeDup, removeDupLoop_id kept [] (by simpa using h3)]
  simp

example : removeDup [((1 : ℚ), 2, 5), (1, 2, 6), (3, 4, 7), (1 + 1 / 1000, 2, 8), (3, 4 + 1 / 100, 9)] =
    [(1, 2, 5), (3, 4, 7), (3, 4 + 1 / 100, 9)] := by decide +kernel

/-! ## find_critical -/

section sort
variable [IsStrictOrderedRing K]

theorem sortBy_sorted (key : Point K → K) (l : List (Point K)) :
    (sortBy key l).Pairwise fun a b => key a ≤ key b := by
  have : Std.Total (fun a b : Point K => key a ≤ key b) := ⟨fun a b => le_total _ _⟩
  have : IsTrans (Point K) (fun a b => key a ≤ key b) := ⟨fun a b c h1 h2 => le_trans h1 h2⟩
  exact List.pairwise_insertionSort _ l

theorem sortBy_perm (key : Point K → K) (l : List (Point K)) : (sortBy key l).Perm l :=
  List.perm_insertionSort _ l

end sort

theorem newton_spec (f : Spline K) (radiusSq R0 Z0 : K) : ∀ (k : ℕ) (R1 Z1 : K) (p : K × K),
    (R1 - R0) ^ 2 + (Z1 - Z0) ^ 2 ≤ radiusSq → newton f radiusSq R0 Z0 k R1 Z1 = .ok (some p) →
    p.1 ≠ 0 ∧ f.Br p.1 p.2 ^ 2 + f.Bz p.1 p.2 ^ 2 < 1 / 1000000 ∧
      (p.1 - R0) ^ 2 + (p.2 - Z0) ^ 2 ≤ radiusSq := by
  intro k
  induction k with
  | zero =>
    intro R1 Z1 p hr h
    rw [newton] at h
    split at h
    · simp at h
    split at h
    · simp only [Except.ok.injEq, Option.some.injEq] at h
      subst h
      exact ⟨by assumption, by assumption, hr⟩
    · simp at h
  | succ k ih =>
    intro R1 Z1 p hr h
    rw [newton] at h
    split at h
    · simp at h
    split at h
    · simp only [Except.ok.injEq, Option.some.injEq] at h
      subst h
      exact ⟨by assumption, by assumption, hr⟩
    · split at h
      · cases h
      · split at h
        · simp at h
        · rename_i hn
          rw [not_or] at hn
          exact ih _ _ p (not_lt.mp hn.1) h

/-- What is known about a point found by the search: it is within three grid diagonals of a grid point of the interior
that is a strict local minimum of the poloidal field, and passed the field-null test. -/
structure Found (g : Mesh K) (f : Spline K) (psi : ℕ × ℕ → K) (isX : Bool) (p : Point K) : Prop where
  null : p.1 ≠ 0 ∧ (f.dZ p.1 p.2.1 / p.1) ^ 2 + (f.dR p.1 p.2.1 / p.1) ^ 2 < 1 / 1000000
  flux : p.2.2 = f.f p.1 p.2.1
  near : ∃ i j, 2 ≤ i ∧ i + 2 < g.nx ∧ 2 ≤ j ∧ j + 2 < g.ny ∧
    (p.1 - g.R i) ^ 2 + (p.2.1 - g.Z j) ^ 2 ≤ 9 * ((g.R 1 - g.R 0) ^ 2 + (g.Z 1 - g.Z 0) ^ 2) ∧
    (isX = true ↔ discriminant g psi i j < 0) ∧
    ∀ a b, a ≤ i + 1 → i ≤ a + 1 → b ≤ j + 1 → j ≤ b + 1 → (a, b) ≠ (i, j) →
      f.Bp2 (g.R i) (g.Z j) < f.Bp2 (g.R a) (g.Z b)

/-- Along 50 equally spaced points of the straight line from the O-point to the X-point the flux (with the sign that makes the
X-point the higher end) ends within 0.1% of its maximum, and a minimum is within one centimetre of the O-point. -/
def Visible (f : Spline K) (o x : Point K) : Prop :=
  let s : K := if x.2.2 < o.2.2 then -1 else 1
  let r : ℕ → K := fun k => o.1 + (k : K) / 49 * (x.1 - o.1)
  let z : ℕ → K := fun k => o.2.1 + (k : K) / 49 * (x.2.1 - o.2.1)
  (∃ m ≤ 49, (∀ k ≤ 49, s * f.f (r k) (z k) ≤ s * f.f (r m) (z m)) ∧
    s * f.f (r m) (z m) - s * f.f (r 49) (z 49) ≤ 1 / 1000 * (s * f.f (r m) (z m) - s * f.f (r 0) (z 0))) ∧
  (∃ m ≤ 49, (∀ k ≤ 49, s * f.f (r m) (z m) ≤ s * f.f (r k) (z k)) ∧
    (r m - o.1) ^ 2 + (z m - o.2.1) ^ 2 ≤ 1 / 10000)

variable [IsStrictOrderedRing K]

theorem maxLoop_spec (f : ℕ → K) : ∀ n, (∃ m ≤ n, maxLoop f n = f m) ∧ ∀ k ≤ n, f k ≤ maxLoop f n := by
  intro n
  induction n with
  | zero => exact ⟨⟨0, le_refl _, rfl⟩, fun k hk => by rw [Nat.le_zero.mp hk]; exact le_refl _⟩
  | succ n ih =>
    obtain ⟨⟨m, hm, h1⟩, h2⟩ := ih
    refine ⟨?_, fun k hk => ?_⟩
    · rw [maxLoop]
      rcases le_total (maxLoop f n) (f (n + 1)) with h | h
      · exact ⟨n + 1, le_refl _, max_eq_right h⟩
      · exact ⟨m, by omega, by rw [max_eq_left h, h1]⟩
    · rw [maxLoop]
      rcases Nat.lt_or_ge k (n + 1) with h | h
      · exact le_trans (h2 k (by omega)) (le_max_left _ _)
      · have : k = n + 1 := by omega
        rw [this]; exact le_max_right _ _

theorem linspaceAt_50 (a b : K) (k : ℕ) : linspaceAt a b 50 k = a + (k : K) / 49 * (b - a) := by
  rw [linspaceAt, if_neg (by norm_num)]
  norm_num
  ring

theorem keepX_spec (f : Spline K) (o x : Point K) (h : keepX f o x = true) : Visible f o x := by
  have hp : ∀ k, (if x.2.2 < o.2.2 then
        (fun k => f.f (linspaceAt o.1 x.1 50 k) (linspaceAt o.2.1 x.2.1 50 k) * -1)
      else fun k => f.f (linspaceAt o.1 x.1 50 k) (linspaceAt o.2.1 x.2.1 50 k)) k =
      (if x.2.2 < o.2.2 then (-1 : K) else 1) *
        f.f (o.1 + (k : K) / 49 * (x.1 - o.1)) (o.2.1 + (k : K) / 49 * (x.2.1 - o.2.1)) := by
    intro k
    split <;> simp only [linspaceAt_50] <;> ring
  simp only [keepX, Bool.and_eq_true, Bool.not_eq_true', decide_eq_false_iff_not, not_lt, gt_iff_lt] at h
  generalize hpf : (if x.2.2 < o.2.2 then
        (fun k => f.f (linspaceAt o.1 x.1 50 k) (linspaceAt o.2.1 x.2.1 50 k) * -1)
      else fun k => f.f (linspaceAt o.1 x.1 50 k) (linspaceAt o.2.1 x.2.1 50 k)) = p at h hp
  obtain ⟨h1, h2⟩ := h
  simp only [Visible, ← hp]
  constructor
  · obtain ⟨⟨m, hm, hmax⟩, hle⟩ := maxLoop_spec p 49
    refine ⟨m, hm, fun k hk => by rw [← hmax]; exact hle k hk, ?_⟩
    rw [← hmax]
    have h0 : 0 ≤ maxLoop p 49 - p 0 := by have := hle 0 (by omega); linarith
    have h49 : 0 ≤ maxLoop p 49 - p 49 := by have := hle 49 (le_refl _); linarith
    split at h1
    · rename_i hz
      rw [decide_eq_false_iff_not, not_lt] at h1
      rw [hz]; linarith
    · rename_i hz
      rw [decide_eq_false_iff_not, not_lt] at h1
      have hpos : 0 < maxLoop p 49 - p 0 := lt_of_le_of_ne h0 (Ne.symm hz)
      rwa [div_le_iff₀ hpos] at h1
  · obtain ⟨a1, a2, _⟩ := argmin_spec p (n := 50) (by omega)
    refine ⟨argmin p 50, by omega, fun k hk => a2 k (by omega), ?_⟩
    rw [linspaceAt_50, linspaceAt_50] at h2
    exact h2

theorem isLocalMin_spec (b : ℕ → ℕ → K) (i j : ℕ) (hi : 1 ≤ i) (hj : 1 ≤ j) (h : isLocalMin b i j = true) :
    ∀ x y, x ≤ i + 1 → i ≤ x + 1 → y ≤ j + 1 → j ≤ y + 1 → (x, y) ≠ (i, j) → b i j < b x y := by
  simp only [isLocalMin, Bool.and_eq_true, decide_eq_true_eq] at h
  obtain ⟨⟨⟨⟨⟨⟨⟨h1, h2⟩, h3⟩, h4⟩, h5⟩, h6⟩, h7⟩, h8⟩ := h
  intro x y hx1 hx2 hy1 hy2 hne
  have hx : x = i - 1 ∨ x = i ∨ x = i + 1 := by omega
  have hy : y = j - 1 ∨ y = j ∨ y = j + 1 := by omega
  rcases hx with rfl | rfl | rfl <;> rcases hy with rfl | rfl | rfl <;> first | assumption | exact absurd rfl hne

theorem candidate_spec (g : Mesh K) (f : Spline K) (psi : ℕ × ℕ → K) (i j : ℕ) (hi : 2 ≤ i ∧ i + 2 < g.nx)
    (hj : 2 ≤ j ∧ j + 2 < g.ny) (isX : Bool) (p : Point K)
    (h : candidate g f psi i j = .ok (some (isX, p))) : Found g f psi isX p := by
  rw [candidate] at h
  split at h
  · rename_i hmin
    split at h
    · cases h
    · simp at h
    · rename_i R1 Z1 hn
      simp only [Except.ok.injEq, Option.some.injEq, Prod.mk.injEq] at h
      obtain ⟨rfl, rfl⟩ := h
      have hr : (g.R i - g.R i) ^ 2 + (g.Z j - g.Z j) ^ 2 ≤ 9 * ((g.R 1 - g.R 0) ^ 2 + (g.Z 1 - g.Z 0) ^ 2) := by
        have h9 : 0 ≤ 9 * ((g.R 1 - g.R 0) ^ 2 + (g.Z 1 - g.Z 0) ^ 2) := by positivity
        rw [sub_self, sub_self]
        have h00 : (0 : K) ^ 2 + 0 ^ 2 = 0 := by ring
        rw [h00]; exact h9
      obtain ⟨h1, h2, h3⟩ := newton_spec f _ _ _ 101 _ _ _ hr hn
      refine ⟨⟨h1, ?_⟩, rfl, i, j, hi.1, hi.2, hj.1, hj.2, h3, by simp,
        isLocalMin_spec _ i j (by omega) (by omega) hmin⟩
      simp only [Spline.Br, Spline.Bz] at h2
      convert h2 using 2
      ring
  · simp at h

theorem candidates_spec (g : Mesh K) (f : Spline K) (psi : ℕ × ℕ → K) : ∀ (cells : List (ℕ × ℕ)) l,
    (∀ c ∈ cells, (2 ≤ c.1 ∧ c.1 + 2 < g.nx) ∧ (2 ≤ c.2 ∧ c.2 + 2 < g.ny)) →
    candidates g f psi cells = .ok l → ∀ q ∈ l, Found g f psi q.1 q.2 := by
  intro cells
  induction cells with
  | nil =>
    intro l _ h q hq
    simp only [candidates, Except.ok.injEq] at h
    subst h
    simp at hq
  | cons c cells ih =>
    intro l hc h q hq
    obtain ⟨i, j⟩ := c
    rw [candidates] at h
    split at h
    · cases h
    rename_i c hcand
    split at h
    · cases h
    rename_i l' hl'
    simp only [Except.ok.injEq] at h
    have hrest := ih l' (fun c h => hc c (List.mem_cons_of_mem _ h)) hl'
    cases c with
    | none =>
      simp only at h
      subst h
      exact hrest q hq
    | some p =>
      simp only at h
      subst h
      rcases List.mem_cons.mp hq with rfl | hq
      · obtain ⟨h1, h2⟩ := hc (i, j) List.mem_cons_self
        exact candidate_spec g f psi i j h1 h2 q.1 q.2 hcand
      · exact hrest q hq

theorem interior_spec (nx ny : ℕ) : ∀ c ∈ interior nx ny, (2 ≤ c.1 ∧ c.1 + 2 < nx) ∧ (2 ≤ c.2 ∧ c.2 + 2 < ny) := by
  rintro ⟨i, j⟩ hc
  simp only [interior, List.mem_flatMap, List.mem_map, List.mem_range'_1, Prod.mk.injEq] at hc
  obtain ⟨a, ha, b, hb, rfl, rfl⟩ := hc
  constructor <;> constructor <;> omega

/-- **C28.** Whatever the spline: every point returned by `find_critical` passed the field-null test, carries the interpolated
flux, lies within three grid diagonals of a strict local minimum of the field strength, and is classified by the sign of the
discriminant there. No two O-points and no two X-points are duplicates. The O-points are in order of distance
from the middle of the domain; if there is one, the X-points are in order of distance in flux from the first, and with
`discard_xpoints` each is visible from it along a straight line of increasing flux. -/
theorem C28_find_critical (g : Mesh K) (f : Spline K) (psi : ℕ × ℕ → K) (discard : Bool)
    (opt xpt : List (Point K)) (h : findCritical g f psi discard = .ok (opt, xpt)) :
    (∀ p ∈ opt, Found g f psi false p) ∧ (∀ p ∈ xpt, Found g f psi true p) ∧
    opt.Pairwise (fun p q => ¬ Close p q) ∧ xpt.Pairwise (fun p q => ¬ Close p q) ∧
    opt.Pairwise (fun p q =>
      (p.1 - (g.R 0 + g.R (g.nx - 1)) / 2) ^ 2 + (p.2.1 - (g.Z 0 + g.Z (g.ny - 1)) / 2) ^ 2 ≤
      (q.1 - (g.R 0 + g.R (g.nx - 1)) / 2) ^ 2 + (q.2.1 - (g.Z 0 + g.Z (g.ny - 1)) / 2) ^ 2) ∧
    (∀ o rest, opt = o :: rest → xpt.Pairwise fun p q => |p.2.2 - o.2.2| ≤ |q.2.2 - o.2.2|) ∧
    (discard = true → ∀ o rest, opt = o :: rest → ∀ x ∈ xpt, Visible f o x) := by
  rw [findCritical] at h
  split at h
  · cases h
  rename_i cs hcs
  have hf := candidates_spec g f psi _ cs (interior_spec g.nx g.ny) hcs
  have hO : ∀ p ∈ removeDup ((cs.filter fun c => !c.1).map Prod.snd), Found g f psi false p := by
    intro p hp
    have := (C27_remove_dup _).1.subset hp
    simp only [List.mem_map, List.mem_filter, Bool.not_eq_eq_eq_not, Bool.not_true] at this
    obtain ⟨q, ⟨hq, hq1⟩, rfl⟩ := this
    rw [← hq1]; exact hf q hq
  have hX : ∀ p ∈ removeDup ((cs.filter fun c => c.1).map Prod.snd), Found g f psi true p := by
    intro p hp
    have := (C27_remove_dup _).1.subset hp
    simp only [List.mem_map, List.mem_filter] at this
    obtain ⟨q, ⟨hq, hq1⟩, rfl⟩ := this
    rw [← hq1]; exact hf q hq
  have hOd := (C27_remove_dup ((cs.filter fun c => !c.1).map Prod.snd)).2.1
  have hXd := (C27_remove_dup ((cs.filter fun c => c.1).map Prod.snd)).2.1
  have hsymm : Std.Symm (fun p q : Point K => ¬ Close p q) := ⟨fun p q h => by rwa [close_comm]⟩
  simp only at h
  split at h
  · simp only [Except.ok.injEq, Prod.mk.injEq] at h
    obtain ⟨rfl, rfl⟩ := h
    exact ⟨by simp, hX, List.Pairwise.nil, hXd, List.Pairwise.nil, by simp, by simp⟩
  · rename_i o os ho
    rw [← ho] at h
    split at h
    · cases h
    · rename_i o1 os1 ho1
      simp only [Except.ok.injEq, Prod.mk.injEq] at h
      obtain ⟨rfl, rfl⟩ := h
      have hsort := sortBy_sorted (fun p : Point K => (p.1 - 1 / 2 * (g.R (g.nx - 1) + g.R 0)) ^ 2 +
        (p.2.1 - 1 / 2 * (g.Z (g.ny - 1) + g.Z 0)) ^ 2) (removeDup ((cs.filter fun c => !c.1).map Prod.snd))
      have hperm := sortBy_perm (fun p : Point K => (p.1 - 1 / 2 * (g.R (g.nx - 1) + g.R 0)) ^ 2 +
        (p.2.1 - 1 / 2 * (g.Z (g.ny - 1) + g.Z 0)) ^ 2) (removeDup ((cs.filter fun c => !c.1).map Prod.snd))
      rw [ho1] at hsort hperm
      set xs := if discard then
        (removeDup ((cs.filter fun c => c.1).map Prod.snd)).filter (keepX f o1)
        else removeDup ((cs.filter fun c => c.1).map Prod.snd) with hxs
      have hsub : xs.Sublist (removeDup ((cs.filter fun c => c.1).map Prod.snd)) := by
        rw [hxs]; split
        · exact List.filter_sublist
        · exact List.Sublist.refl _
      have hpermX := sortBy_perm (fun p : Point K => (p.2.2 - o1.2.2) ^ 2) xs
      refine ⟨fun p hp => hO p (hperm.subset hp), fun p hp => hX p (hsub.subset (hpermX.subset hp)),
        (hperm.pairwise_iff (fun {p q} h => by rwa [close_comm])).mpr hOd,
        (hpermX.pairwise_iff (fun {p q} h => by rwa [close_comm])).mpr (hXd.sublist hsub), ?_, ?_, ?_⟩
      · refine hsort.imp fun {p q} h => ?_
        have e1 : (g.R 0 + g.R (g.nx - 1)) / 2 = 1 / 2 * (g.R (g.nx - 1) + g.R 0) := by ring
        have e2 : (g.Z 0 + g.Z (g.ny - 1)) / 2 = 1 / 2 * (g.Z (g.ny - 1) + g.Z 0) := by ring
        rw [e1, e2]
        exact h
      · intro o rest ho2
        obtain ⟨rfl, rfl⟩ := List.cons_eq_cons.mp ho2
        refine (sortBy_sorted _ xs).imp fun {p q} h => ?_
        exact sq_le_sq.mp h
      · intro hd o rest ho2 x hx
        obtain ⟨rfl, rfl⟩ := List.cons_eq_cons.mp ho2
        have := hpermX.subset hx
        rw [hxs, if_pos hd, List.mem_filter] at this
        exact keepX_spec f o1 x this.2

/-- A flux with an O-point at `(3, 3)` and an X-point at `(6, 3)`. -/
def exSpline : Spline ℚ where
  f R Z := -R ^ 3 / 3 + 9 * R ^ 2 / 2 - 18 * R + (Z - 3) ^ 2
  dR R _ := -R ^ 2 + 9 * R - 18
  dZ _ Z := 2 * (Z - 3)
  dRR R _ := -2 * R + 9
  dRZ _ _ := 0
  dZZ _ _ := 2

/-- The grid for `exSpline`. -/
def exGrid : Mesh ℚ := ⟨9, 7, fun i => i + 1, fun j => j⟩

example : findCritical exGrid exSpline (fun c => exSpline.f (exGrid.R c.1) (exGrid.Z c.2)) =
    .ok ([(3, 3, -45 / 2)], [(6, 3, -18)]) := by decide +kernel

end FreeGS.Critical
