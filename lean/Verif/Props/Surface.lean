import Verif.Lemmas.CoreMask

/-!
# C29, C55: searching a flux surface along a line and in the midplane
-/

set_option linter.unusedSectionVars false

namespace FreeGS.Critical

variable {K : Type*} [Field K] [LinearOrder K] [IsStrictOrderedRing K]

/-- The point lies in the rectangle of the domain. -/
def Domain.Contains (d : Domain K) (p : K × K) : Prop :=
  (d.Rmin ≤ p.1 ∧ p.1 ≤ d.Rmax) ∧ (d.Zmin ≤ p.2 ∧ p.2 ≤ d.Zmax)

/-- The point lies on one of the four lines that bound the domain. -/
def Domain.OnEdge (d : Domain K) (p : K × K) : Prop :=
  p.1 = d.Rmin ∨ p.1 = d.Rmax ∨ p.2 = d.Zmin ∨ p.2 = d.Zmax

/-- The point `start + t * (end - start)`. -/
def along (r0 z0 r1 z1 t : K) : K × K := (r0 + t * (r1 - r0), z0 + t * (z1 - z0))

theorem clip_spec (x0 x1 lo hi : K) (h1 : lo ≤ x0) (h2 : x0 ≤ hi) (hne : x1 - x0 ≠ 0) :
    ∃ t, |(clip x1 lo hi - x0) / (x1 - x0)| = t ∧ 0 ≤ t ∧ t ≤ 1 ∧ clip x1 lo hi = x0 + t * (x1 - x0) ∧
      lo ≤ clip x1 lo hi ∧ clip x1 lo hi ≤ hi ∧ (lo ≤ x1 → x1 ≤ hi → t = 1) ∧
      (t ≠ 1 → clip x1 lo hi = lo ∨ clip x1 lo hi = hi) := by
  have key : ∀ c t : K, c = x0 + t * (x1 - x0) → 0 ≤ t → |(c - x0) / (x1 - x0)| = t := by
    intro c t h ht
    rw [h]
    have : (x0 + t * (x1 - x0) - x0) / (x1 - x0) = t := by field_simp; ring
    rw [this, abs_of_nonneg ht]
  rcases lt_or_ge x1 lo with hl | hl
  · -- below
    have hc : clip x1 lo hi = lo := by
      rw [clip, max_eq_right hl.le, min_eq_left (le_trans h1 h2)]
    have hd : x1 - x0 < 0 := by linarith
    have ht : lo = x0 + (lo - x0) / (x1 - x0) * (x1 - x0) := by field_simp; ring
    have ht0 : 0 ≤ (lo - x0) / (x1 - x0) := div_nonneg_of_nonpos (by linarith) hd.le
    refine ⟨(lo - x0) / (x1 - x0), by rw [hc]; exact key _ _ ht ht0, ht0, ?_, by rw [hc]; exact ht, by rw [hc],
      by rw [hc]; linarith, fun h => absurd h (not_le.mpr hl), fun _ => Or.inl hc⟩
    rw [div_le_one_of_neg hd]; linarith
  · rcases lt_or_ge hi x1 with hh | hh
    · have hc : clip x1 lo hi = hi := by
        rw [clip, max_eq_left hl, min_eq_right hh.le]
      have hd : 0 < x1 - x0 := by linarith
      have ht : hi = x0 + (hi - x0) / (x1 - x0) * (x1 - x0) := by field_simp; ring
      have ht0 : 0 ≤ (hi - x0) / (x1 - x0) := div_nonneg (by linarith) hd.le
      refine ⟨(hi - x0) / (x1 - x0), by rw [hc]; exact key _ _ ht ht0, ht0, ?_, by rw [hc]; exact ht,
        by rw [hc]; linarith, by rw [hc], fun _ h => absurd h (not_le.mpr hh), fun _ => Or.inr hc⟩
      rw [div_le_one hd]; linarith
    · have hc : clip x1 lo hi = x1 := by rw [clip, max_eq_left hl, min_eq_left hh]
      refine ⟨1, by rw [hc]; exact key _ _ (by ring) zero_le_one, zero_le_one, le_refl _, by rw [hc]; ring,
        by rw [hc]; exact hl, by rw [hc]; exact hh, fun _ _ => rfl, fun h => absurd rfl h⟩

theorem between_mul (a x t lo hi : K) (h1 : lo ≤ a) (h2 : a ≤ hi) (h3 : lo ≤ x) (h4 : x ≤ hi) (h5 : 0 ≤ t)
    (h6 : t ≤ 1) : lo ≤ a + t * (x - a) ∧ a + t * (x - a) ≤ hi := by
  constructor <;> nlinarith

theorem clipEnd_spec (d : Domain K) (r0 z0 r1 z1 : K)
    (hr : d.Rmin + 1 / 1000000 ≤ r0 ∧ r0 + 1 / 1000000 ≤ d.Rmax)
    (hz : d.Zmin + 1 / 1000000 ≤ z0 ∧ z0 + 1 / 1000000 ≤ d.Zmax) :
    ∃ t, 0 ≤ t ∧ t ≤ 1 ∧ clipEnd d r0 z0 r1 z1 = along r0 z0 r1 z1 t ∧
      d.Contains (clipEnd d r0 z0 r1 z1) ∧ (d.Contains (r1, z1) → t = 1) ∧
      (t ≠ 1 → d.OnEdge (clipEnd d r0 z0 r1 z1)) := by
  have e6 : (0 : K) < 1 / 1000000 := by norm_num
  -- first stage
  have s1 : ∃ t p, 0 ≤ t ∧ t ≤ 1 ∧ p = (if |r1 - r0| > 1 / 1000000 then
      (clip r1 d.Rmin d.Rmax, z0 + (z1 - z0) * |(clip r1 d.Rmin d.Rmax - r0) / (r1 - r0)|)
    else (r1, z1)) ∧ p = along r0 z0 r1 z1 t ∧ (d.Rmin ≤ p.1 ∧ p.1 ≤ d.Rmax) ∧
      (d.Contains (r1, z1) → t = 1) ∧ (t ≠ 1 → p.1 = d.Rmin ∨ p.1 = d.Rmax) := by
    by_cases h : |r1 - r0| > 1 / 1000000
    · have hne : r1 - r0 ≠ 0 := by
        intro h0; rw [h0, abs_zero] at h; linarith
      obtain ⟨t, ht, h1, h2, h3, h4, h5, h6, h7⟩ :=
        clip_spec r0 r1 d.Rmin d.Rmax (by linarith) (by linarith) hne
      refine ⟨t, _, h1, h2, rfl, ?_, ?_, fun hc => h6 hc.1.1 hc.1.2, ?_⟩
      · rw [if_pos h, ht, along, Prod.mk.injEq]
        exact ⟨h3, by ring⟩
      · rw [if_pos h]; exact ⟨h4, h5⟩
      · rw [if_pos h]; exact h7
    · refine ⟨1, _, zero_le_one, le_refl _, rfl, ?_, ?_, fun _ => rfl, fun h => absurd rfl h⟩
      · rw [if_neg h, along, Prod.mk.injEq]; constructor <;> ring
      · rw [if_neg h]
        rw [gt_iff_lt, not_lt, abs_le] at h
        simp only
        constructor <;> linarith
  obtain ⟨t1, p, a1, a2, hp, a3, a4, a5, a6⟩ := s1
  have hpe : p.1 = r0 + t1 * (r1 - r0) ∧ p.2 = z0 + t1 * (z1 - z0) := by rw [a3]; exact ⟨rfl, rfl⟩
  have hce : clipEnd d r0 z0 r1 z1 = if |p.2 - z0| > 1 / 1000000 then
      (r0 + (p.1 - r0) * |(clip p.2 d.Zmin d.Zmax - z0) / (p.2 - z0)|, clip p.2 d.Zmin d.Zmax) else p := by
    rw [hp]; rfl
  rw [hce]
  by_cases h : |p.2 - z0| > 1 / 1000000
  · rw [if_pos h]
    have hne : p.2 - z0 ≠ 0 := by
      intro h0; rw [h0, abs_zero] at h; linarith
    obtain ⟨t, ht, h1, h2, h3, h4, h5, h6, h7⟩ :=
      clip_spec z0 p.2 d.Zmin d.Zmax (by linarith) (by linarith) hne
    have hb := between_mul r0 p.1 t d.Rmin d.Rmax (by linarith) (by linarith) a4.1 a4.2 h1 h2
    refine ⟨t * t1, mul_nonneg h1 a1, mul_le_one₀ h2 a1 a2, ?_, ⟨?_, h4, h5⟩, ?_, ?_⟩
    · rw [ht, along, Prod.mk.injEq]
      refine ⟨?_, ?_⟩
      · rw [hpe.1]; ring
      · rw [h3, hpe.2]; ring
    · rw [ht]
      simp only
      rw [mul_comm (p.1 - r0) t]
      exact hb
    · intro hc
      have t1e := a5 hc
      rw [t1e] at hpe
      have : p.2 = z1 := by rw [hpe.2]; ring
      rw [h6 (by rw [this]; exact hc.2.1) (by rw [this]; exact hc.2.2), t1e, one_mul]
    · intro hne1
      by_cases htt : t = 1
      · rw [htt, one_mul] at hne1
        rw [ht, htt]
        rcases a6 hne1 with h | h
        · exact Or.inl (by simp only; rw [← h]; ring)
        · exact Or.inr (Or.inl (by simp only; rw [← h]; ring))
      · rcases h7 htt with h | h
        · exact Or.inr (Or.inr (Or.inl h))
        · exact Or.inr (Or.inr (Or.inr h))
  · rw [if_neg h]
    refine ⟨t1, a1, a2, a3, ⟨a4, ?_⟩, a5, fun h1 => ?_⟩
    · rw [gt_iff_lt, not_lt, abs_le] at h
      constructor <;> linarith
    · rcases a6 h1 with h | h
      · exact Or.inl h
      · exact Or.inr (Or.inl h)

theorem firstTrue_spec (b : ℕ → Bool) : ∀ k i,
    (∀ m, firstTrue b k i = some m ↔ i ≤ m ∧ m < i + k ∧ b m = true ∧ ∀ a, i ≤ a → a < m → b a = false) ∧
    (firstTrue b k i = none ↔ ∀ a, i ≤ a → a < i + k → b a = false) := by
  intro k
  induction k with
  | zero =>
    intro i
    refine ⟨fun m => ⟨fun h => by simp [firstTrue] at h, fun h => by omega⟩,
      ⟨fun _ a h1 h2 => by omega, fun _ => rfl⟩⟩
  | succ k ih =>
    intro i
    obtain ⟨h1, h2⟩ := ih (i + 1)
    cases hb : b i
    · have e : firstTrue b (k + 1) i = firstTrue b k (i + 1) := by simp [firstTrue, hb]
      rw [e]
      refine ⟨fun m => ?_, ?_⟩
      · rw [h1 m]
        constructor
        · rintro ⟨a1, a2, a3, a4⟩
          refine ⟨by omega, by omega, a3, fun a h3 h4 => ?_⟩
          rcases Nat.eq_or_lt_of_le h3 with rfl | h5
          · exact hb
          · exact a4 a h5 h4
        · rintro ⟨a1, a2, a3, a4⟩
          have : m ≠ i := by rintro rfl; rw [hb] at a3; cases a3
          exact ⟨by omega, by omega, a3, fun a h3 h4 => a4 a (by omega) h4⟩
      · rw [h2]
        constructor
        · intro h a h3 h4
          rcases Nat.eq_or_lt_of_le h3 with rfl | h5
          · exact hb
          · exact h a h5 (by omega)
        · intro h a h3 h4; exact h a (by omega) (by omega)
    · have e : firstTrue b (k + 1) i = some i := by simp [firstTrue, hb]
      rw [e]
      refine ⟨fun m => ?_, ?_⟩
      · simp only [Option.some.injEq]
        constructor
        · rintro rfl; exact ⟨le_refl _, by omega, hb, fun a h3 h4 => by omega⟩
        · rintro ⟨a1, a2, a3, a4⟩
          by_contra hne
          have := a4 i (le_refl _) (by omega)
          rw [hb] at this; cases this
      · simp only [reduceCtorEq, false_iff, not_forall]
        exact ⟨i, le_refl _, by omega, by simp [hb]⟩

/-- The point between two neighbouring samples at which linear interpolation gives the value. -/
theorem interp (p0 p1 v : K) (h0 : p0 ≤ v) (h1 : v < p1) :
    0 ≤ 1 - (p1 - v) / (p1 - p0) ∧ 1 - (p1 - v) / (p1 - p0) < 1 ∧
      p0 + (1 - (p1 - v) / (p1 - p0)) * (p1 - p0) = v := by
  have hd : 0 < p1 - p0 := by linarith
  refine ⟨?_, ?_, ?_⟩
  · rw [sub_nonneg, div_le_one hd]; linarith
  · have : 0 < (p1 - v) / (p1 - p0) := div_pos (by linarith) hd
    linarith
  · field_simp; ring

/-- **C29.** Let the start be at least `1e-6` inside the domain and `n ≥ 2`. The search line runs from the start
towards the given end; it is cut only where it leaves the domain (`T = 1` if the end is inside, otherwise it stops at the
edge). The samples are `n` equally spaced points of that line. If some sample after the start is the first one above the
value, the returned point lies between that sample and the one before it, where linear interpolation of the sampled
flux gives exactly the value; if no sample or already the start is above the value, the start is returned. In any case
the point is in the domain. Missing: starts within `1e-6` of the edge (`C29_leaves_domain`). -/
theorem C29_psisurface_partial (d : Domain K) (psifunc : K → K → K) (r0 z0 r1 z1 v : K) (n : ℕ) (hn : 2 ≤ n)
    (hr : d.Rmin + 1 / 1000000 ≤ r0 ∧ r0 + 1 / 1000000 ≤ d.Rmax)
    (hz : d.Zmin + 1 / 1000000 ≤ z0 ∧ z0 + 1 / 1000000 ≤ d.Zmax) :
    ∃ T p, findPsiSurface d psifunc r0 z0 r1 z1 v n = .ok p ∧ 0 ≤ T ∧ T ≤ 1 ∧
      (d.Contains (r1, z1) → T = 1) ∧ (T ≠ 1 → d.OnEdge (along r0 z0 r1 z1 T)) ∧ d.Contains p ∧
      (let P : K → K × K := fun x => along r0 z0 r1 z1 (T * (x / ((n : K) - 1)))
       let flux : ℕ → K := fun k => psifunc (P k).1 (P k).2
       (∀ i, i + 1 < n → (∀ k ≤ i, flux k ≤ v) → v < flux (i + 1) →
          ∃ s, 0 ≤ s ∧ s < 1 ∧ p = P (i + s) ∧ flux i + s * (flux (i + 1) - flux i) = v) ∧
       ((∀ k < n, flux k ≤ v) ∨ v < flux 0 → p = (r0, z0))) := by
  obtain ⟨T, h1, h2, h3, h4, h5, h6⟩ := clipEnd_spec d r0 z0 r1 z1 hr hz
  have e6 : (0 : K) < 1 / 1000000 := by norm_num
  have hn1 : (0 : K) < (n : K) - 1 := by
    have : (2 : K) ≤ n := by exact_mod_cast hn
    linarith
  set P : K → K × K := fun x => along r0 z0 r1 z1 (T * (x / ((n : K) - 1))) with hP
  have hrk : ∀ k : ℕ, linspaceAt r0 (clipEnd d r0 z0 r1 z1).1 n k = (P k).1 := by
    intro k
    rw [linspaceAt, if_neg (by omega), h3, hP]
    simp only [along]
    ring
  have hzk : ∀ k : ℕ, linspaceAt z0 (clipEnd d r0 z0 r1 z1).2 n k = (P k).2 := by
    intro k
    rw [linspaceAt, if_neg (by omega), h3, hP]
    simp only [along]
    ring
  have hcont : ∀ x : K, 0 ≤ x → x ≤ (n : K) - 1 → d.Contains (P x) := by
    intro x hx0 hx1
    have hu0 : 0 ≤ x / ((n : K) - 1) := div_nonneg hx0 hn1.le
    have hu1 : x / ((n : K) - 1) ≤ 1 := by rw [div_le_one hn1]; exact hx1
    rw [h3] at h4
    have b1 := between_mul r0 (along r0 z0 r1 z1 T).1 _ d.Rmin d.Rmax (by linarith) (by linarith) h4.1.1 h4.1.2 hu0 hu1
    have b2 := between_mul z0 (along r0 z0 r1 z1 T).2 _ d.Zmin d.Zmax (by linarith) (by linarith) h4.2.1 h4.2.2 hu0 hu1
    have e1 : (P x).1 = r0 + x / ((n : K) - 1) * ((along r0 z0 r1 z1 T).1 - r0) := by
      simp only [hP, along]; ring
    have e2 : (P x).2 = z0 + x / ((n : K) - 1) * ((along r0 z0 r1 z1 T).2 - z0) := by
      simp only [hP, along]; ring
    exact ⟨by rw [e1]; exact b1, by rw [e2]; exact b2⟩
  have hP0 : P ((0 : ℕ) : K) = (r0, z0) := by simp [hP, along]
  have hcall : findPsiSurface d psifunc r0 z0 r1 z1 v n =
      match (firstTrue (fun k => decide (psifunc (P k).1 (P k).2 > v)) n 0).getD 0 with
      | 0 => .ok ((P (0 : ℕ)).1, (P (0 : ℕ)).2)
      | ind + 1 =>
        let f := (psifunc (P (ind + 1 : ℕ)).1 (P (ind + 1 : ℕ)).2 - v) /
          (psifunc (P (ind + 1 : ℕ)).1 (P (ind + 1 : ℕ)).2 - psifunc (P ind).1 (P ind).2)
        .ok ((1 - f) * (P (ind + 1 : ℕ)).1 + f * (P ind).1, (1 - f) * (P (ind + 1 : ℕ)).2 + f * (P ind).2) := by
    rw [findPsiSurface, if_neg (by omega)]
    simp only [hrk, hzk]
    generalize (firstTrue (fun k => decide (psifunc (P k).1 (P k).2 > v)) n 0).getD 0 = k
    cases k <;> rfl
  obtain ⟨f1, f2⟩ := firstTrue_spec (fun k => decide (psifunc (P k).1 (P k).2 > v)) n 0
  simp only [zero_add, Nat.zero_le, forall_const, true_and, decide_eq_true_eq, gt_iff_lt,
    decide_eq_false_iff_not, not_lt] at f1 f2
  set flux : ℕ → K := fun k => psifunc (P k).1 (P k).2 with hflux
  have hedge : T ≠ 1 → d.OnEdge (along r0 z0 r1 z1 T) := by rw [← h3]; exact h6
  cases hft : firstTrue (fun k => decide (psifunc (P k).1 (P k).2 > v)) n 0 with
  | none =>
    have hall := f2.mp hft
    rw [hft] at hcall
    simp only [Option.getD_none, hP0] at hcall
    refine ⟨T, _, hcall, h1, h2, h5, hedge, ?_, ?_, fun _ => rfl⟩
    · have := hcont 0 (le_refl _) hn1.le
      have e : P (0 : K) = (r0, z0) := by simp [hP, along]
      rwa [e] at this
    · intro i hi _ hgt
      exact absurd hgt (not_lt.mpr (hall (i + 1) (by omega)))
  | some m =>
    obtain ⟨m1, m2, m3⟩ := (f1 m).mp hft
    rw [hft] at hcall
    simp only [Option.getD_some] at hcall
    cases m with
    | zero =>
      simp only [hP0] at hcall
      refine ⟨T, _, hcall, h1, h2, h5, hedge, ?_, ?_, fun _ => rfl⟩
      · have := hcont 0 (le_refl _) hn1.le
        have e : P (0 : K) = (r0, z0) := by simp [hP, along]
        rwa [e] at this
      · intro i _ hle _
        exact absurd m2 (not_lt.mpr (hle 0 (by omega)))
    | succ ind =>
      simp only at hcall
      obtain ⟨s1, s2, s3⟩ := interp (flux ind) (flux (ind + 1)) v (m3 ind (by omega)) m2
      set s := 1 - (flux (ind + 1) - v) / (flux (ind + 1) - flux ind) with hs
      have hpt : ((1 - (flux (ind + 1) - v) / (flux (ind + 1) - flux ind)) * (P (ind + 1 : ℕ)).1 +
            (flux (ind + 1) - v) / (flux (ind + 1) - flux ind) * (P ind).1,
          (1 - (flux (ind + 1) - v) / (flux (ind + 1) - flux ind)) * (P (ind + 1 : ℕ)).2 +
            (flux (ind + 1) - v) / (flux (ind + 1) - flux ind) * (P ind).2) = P (ind + s) := by
        rw [hs]
        simp only [hP, along, Nat.cast_add, Nat.cast_one, Prod.mk.injEq]
        constructor <;> ring
      refine ⟨T, P (ind + s), by rw [hcall, ← hpt], h1, h2, h5, hedge, ?_, ?_, ?_⟩
      · refine hcont _ (by positivity) ?_
        have : ((ind + 1 + 1 : ℕ) : K) ≤ n := by exact_mod_cast m1
        push_cast at this
        linarith
      · intro i hi hle hgt
        have hii : i = ind := by
          by_contra hne
          rcases Nat.lt_or_ge i ind with h | h
          · exact absurd hgt (not_lt.mpr (m3 (i + 1) (by omega)))
          · exact absurd m2 (not_lt.mpr (hle (ind + 1) (by omega)))
        subst hii
        exact ⟨s, s1, s2, rfl, s3⟩
      · rintro (h | h)
        · exact absurd m2 (not_lt.mpr (h (ind + 1) m1))
        · exact absurd h (not_lt.mpr (m3 0 (by omega)))

/-- **C29 refuted at the edge.** From a start on the edge of the domain, an end less than `1e-6` further out is not
clipped and the returned point can lie outside the domain. -/
theorem C29_leaves_domain : ∃ (d : Domain ℚ) (psifunc : ℚ → ℚ → ℚ) (r0 z0 r1 z1 v : ℚ) (n : ℕ) (p : ℚ × ℚ),
    d.Contains (r0, z0) ∧ findPsiSurface d psifunc r0 z0 r1 z1 v n = .ok p ∧ ¬ d.Contains p :=
  ⟨⟨0, 1, 0, 1⟩, fun r _ => 10000000 * (r - 1), 1, 1 / 2, 1 + 1 / 10000000, 1 / 2, 1 / 2, 3,
    (1 + 1 / 20000000, 1 / 2), by simp only [Domain.Contains]; norm_num, by decide +kernel,
    by simp only [Domain.Contains]; norm_num⟩

/-- A case meeting the hypotheses: the line is cut at the edge of the domain, the value is met between the samples. -/
example : findPsiSurface (⟨0, 2, 0, 2⟩ : Domain ℚ) (fun r z => r ^ 2 + z ^ 2) 1 1 4 3 5 4 =
    .ok (262 / 155, 679 / 465) := by decide +kernel

/-! ## Midplane radii -/

theorem lastTrue_spec (b : ℕ → Bool) : ∀ n,
    (∀ m, lastTrue b n = some m ↔ m < n ∧ b m = true ∧ ∀ a, m < a → a < n → b a = false) ∧
    (lastTrue b n = none ↔ ∀ a < n, b a = false) := by
  intro n
  induction n with
  | zero => simp [lastTrue]
  | succ n ih =>
    obtain ⟨h1, h2⟩ := ih
    cases hb : b n
    · have e : lastTrue b (n + 1) = lastTrue b n := by simp [lastTrue, hb]
      rw [e]
      refine ⟨fun m => ?_, ?_⟩
      · rw [h1 m]
        constructor
        · rintro ⟨a1, a2, a3⟩
          refine ⟨by omega, a2, fun a h3 h4 => ?_⟩
          rcases Nat.lt_succ_iff_lt_or_eq.mp h4 with h | rfl
          · exact a3 a h3 h
          · exact hb
        · rintro ⟨a1, a2, a3⟩
          have : m ≠ n := by rintro rfl; rw [hb] at a2; cases a2
          exact ⟨by omega, a2, fun a h3 h4 => a3 a h3 (by omega)⟩
      · rw [h2]
        constructor
        · intro h a h4
          rcases Nat.lt_succ_iff_lt_or_eq.mp h4 with h' | rfl
          · exact h a h'
          · exact hb
        · intro h a h4; exact h a (by omega)
    · have e : lastTrue b (n + 1) = some n := by simp [lastTrue, hb]
      rw [e]
      refine ⟨fun m => ?_, ?_⟩
      · simp only [Option.some.injEq]
        constructor
        · rintro rfl; exact ⟨by omega, hb, fun a h3 h4 => by omega⟩
        · rintro ⟨a1, a2, a3⟩
          by_contra hne
          have := a3 n (by omega) (by omega)
          rw [hb] at this; cases this
      · simp only [reduceCtorEq, false_iff, not_forall]
        exact ⟨n, by omega, by simp [hb]⟩

/-- `x` lies between two grid radii and linear interpolation of the normalised flux between them gives one. -/
def CrossesOne (Ra Rb pa pb x : K) : Prop :=
  ∃ s, 0 < s ∧ s ≤ 1 ∧ x = Ra + s * (Rb - Ra) ∧ pa + s * (pb - pa) = 1

theorem crosses (Ra Rb pa pb : K) (h1 : 1 < pa) (h2 : pb ≤ 1) :
    CrossesOne Ra Rb pa pb ((Ra * (1 - pb) + Rb * (pa - 1)) / (pa - pb)) := by
  have hd : 0 < pa - pb := by linarith
  refine ⟨(pa - 1) / (pa - pb), div_pos (by linarith) hd, by rw [div_le_one hd]; linarith, ?_, ?_⟩
  · field_simp; ring
  · field_simp; ring

/-- **C55.** On a grid of increasing radii, if the flux at the grid radius nearest to the axis is not outside the boundary: the inner
radius is at most, the outer at least that grid radius. If any grid point further in (further out) is outside, the inner (outer)
radius lies between the outside point closest to the axis and its neighbour, where linear interpolation of the normalised flux gives
one; otherwise it is the domain limit. Missing: if the flux at the axis radius is outside (requested height far from the
axis) the result is not bracketed (`C55_outside_axis`). -/
theorem C55_bracketed_partial (g : Mesh K) (d : Domain K) (psinorm : ℕ → K) (Raxis : K) (hnx : 0 < g.nx)
    (hR : ∀ i j, i < j → j < g.nx → g.R i < g.R j) (hdom : d.Rmin ≤ g.R 0 ∧ g.R (g.nx - 1) ≤ d.Rmax)
    (ia : ℕ) (hia : Nearest g.R g.nx Raxis ia) (hin : psinorm ia ≤ 1) :
    let r := innerOuter g d psinorm Raxis
    r.1 ≤ g.R ia ∧ g.R ia ≤ r.2 ∧
    (∀ i, i < ia → 1 < psinorm i → (∀ k, i < k → k < ia → psinorm k ≤ 1) →
      CrossesOne (g.R i) (g.R (i + 1)) (psinorm i) (psinorm (i + 1)) r.1) ∧
    ((∀ i < ia, psinorm i ≤ 1) → r.1 = d.Rmin) ∧
    (∀ i, ia < i → i < g.nx → 1 < psinorm i → (∀ k, ia < k → k < i → psinorm k ≤ 1) →
      CrossesOne (g.R i) (g.R (i - 1)) (psinorm i) (psinorm (i - 1)) r.2) ∧
    ((∀ i, ia < i → i < g.nx → psinorm i ≤ 1) → r.2 = d.Rmax) := by
  have hR' : ∀ i j, i ≤ j → j < g.nx → g.R i ≤ g.R j := by
    intro i j h1 h2
    rcases Nat.eq_or_lt_of_le h1 with rfl | h
    · exact le_refl _
    · exact (hR i j h h2).le
  have eia : nearest g.R g.nx Raxis = ia := (nearest_spec g.R hnx Raxis).unique hia
  have hlt := hia.1
  simp only [innerOuter, eia]
  obtain ⟨l1, l2⟩ := lastTrue_spec (fun i => decide (psinorm i > 1)) ia
  obtain ⟨f1, f2⟩ := firstTrue_spec (fun i => decide (psinorm i > 1)) (g.nx - ia) ia
  simp only [decide_eq_true_eq, gt_iff_lt, decide_eq_false_iff_not, not_lt] at l1 l2 f1 f2
  have hsum : ia + (g.nx - ia) = g.nx := by omega
  rw [hsum] at f2
  simp only [hsum] at f1
  -- the inner radius
  have inner : ∀ Rin, Rin = (match lastTrue (fun i => decide (psinorm i > 1)) ia with
      | none => d.Rmin
      | some i => (g.R i * (1 - psinorm (i + 1)) + g.R (i + 1) * (psinorm i - 1)) / (psinorm i - psinorm (i + 1))) →
      Rin ≤ g.R ia ∧ (∀ i, i < ia → 1 < psinorm i → (∀ k, i < k → k < ia → psinorm k ≤ 1) →
        CrossesOne (g.R i) (g.R (i + 1)) (psinorm i) (psinorm (i + 1)) Rin) ∧
      ((∀ i < ia, psinorm i ≤ 1) → Rin = d.Rmin) := by
    intro Rin hRin
    cases hl : lastTrue (fun i => decide (psinorm i > 1)) ia with
    | none =>
      rw [hl] at hRin
      simp only at hRin
      have hall := l2.mp hl
      refine ⟨?_, fun i hi h1 _ => absurd h1 (not_lt.mpr (hall i hi)), fun _ => hRin⟩
      rw [hRin]
      exact le_trans hdom.1 (hR' 0 ia (Nat.zero_le _) hlt)
    | some m =>
      rw [hl] at hRin
      simp only at hRin
      obtain ⟨m1, m2, m3⟩ := (l1 m).mp hl
      have hnext : psinorm (m + 1) ≤ 1 := by
        rcases Nat.lt_or_ge (m + 1) ia with h | h
        · exact m3 _ (by omega) h
        · have : m + 1 = ia := by omega
          rw [this]; exact hin
      have hc := crosses (g.R m) (g.R (m + 1)) _ _ m2 hnext
      rw [← hRin] at hc
      refine ⟨?_, fun i hi h1 h2 => ?_, fun h => absurd m2 (not_lt.mpr (h m m1))⟩
      · obtain ⟨s, s1, s2, s3, _⟩ := hc
        have h3 := hR m (m + 1) (by omega) (by omega)
        have h4 := hR' (m + 1) ia (by omega) hlt
        rw [s3]; nlinarith
      · have : i = m := by
          by_contra hne
          rcases Nat.lt_or_ge i m with h | h
          · exact absurd m2 (not_lt.mpr (h2 m h m1))
          · exact absurd h1 (not_lt.mpr (m3 i (by omega) hi))
        rw [this]; exact hc
  have outer : ∀ Rout, Rout = (match firstTrue (fun i => decide (psinorm i > 1)) (g.nx - ia) ia with
      | none => d.Rmax
      | some i => (g.R i * (1 - psinorm (prevIndex i g.nx)) + g.R (prevIndex i g.nx) * (psinorm i - 1)) /
          (psinorm i - psinorm (prevIndex i g.nx))) →
      g.R ia ≤ Rout ∧ (∀ i, ia < i → i < g.nx → 1 < psinorm i → (∀ k, ia < k → k < i → psinorm k ≤ 1) →
        CrossesOne (g.R i) (g.R (i - 1)) (psinorm i) (psinorm (i - 1)) Rout) ∧
      ((∀ i, ia < i → i < g.nx → psinorm i ≤ 1) → Rout = d.Rmax) := by
    intro Rout hRout
    cases hl : firstTrue (fun i => decide (psinorm i > 1)) (g.nx - ia) ia with
    | none =>
      rw [hl] at hRout
      simp only at hRout
      have hall := f2.mp hl
      refine ⟨?_, fun i hi hi2 h1 _ => absurd h1 (not_lt.mpr (hall i hi.le hi2)), fun _ => hRout⟩
      rw [hRout]
      exact le_trans (hR' ia (g.nx - 1) (by omega) (by omega)) hdom.2
    | some m =>
      rw [hl] at hRout
      simp only at hRout
      obtain ⟨m1, m2, m3, m4⟩ := (f1 m).mp hl
      have hmia : ia < m := by
        rcases Nat.eq_or_lt_of_le m1 with h | h
        · rw [← h] at m3; exact absurd m3 (not_lt.mpr hin)
        · exact h
      have hprev : prevIndex m g.nx = m - 1 := by rw [prevIndex, if_neg (by omega)]
      have hpp : psinorm (m - 1) ≤ 1 := m4 _ (by omega) (by omega)
      rw [hprev] at hRout
      have hc := crosses (g.R m) (g.R (m - 1)) _ _ m3 hpp
      rw [← hRout] at hc
      refine ⟨?_, fun i hi hi2 h1 h2 => ?_, fun h => absurd m3 (not_lt.mpr (h m hmia m2))⟩
      · obtain ⟨s, s1, s2, s3, _⟩ := hc
        have h3 := hR (m - 1) m (by omega) m2
        have h4 := hR' ia (m - 1) (by omega) (by omega)
        rw [s3]; nlinarith
      · have : i = m := by
          by_contra hne
          rcases Nat.lt_or_ge i m with h | h
          · exact absurd h1 (not_lt.mpr (m4 i hi.le h))
          · exact absurd m3 (not_lt.mpr (h2 m hmia (by omega)))
        rw [this]; exact hc
  obtain ⟨i1, i2, i3⟩ := inner _ rfl
  obtain ⟨o1, o2, o3⟩ := outer _ rfl
  exact ⟨i1, o1, i2, i3, o2, o3⟩

/-- **C55 refuted off the axis.** If the flux at the axis radius is outside the boundary (a height above the plasma),
the "outer" radius is smaller than the radius of the axis. -/
theorem C55_outside_axis : ∃ (g : Mesh ℚ) (d : Domain ℚ) (psinorm : ℕ → ℚ) (Raxis : ℚ) (ia : ℕ),
    (∀ i j, i < j → j < g.nx → g.R i < g.R j) ∧ Nearest g.R g.nx Raxis ia ∧
    (innerOuter g d psinorm Raxis).2 < g.R ia := by
  refine ⟨⟨4, 1, fun i => i + 1, fun _ => 0⟩, ⟨1, 4, 0, 0⟩, fun i => 2 + i, 3, 2, ?_, ?_, by decide +kernel⟩
  · intro i j h _
    have : (i : ℚ) < j := by exact_mod_cast h
    simpa using this
  · have h := nearest_spec (fun i : ℕ => (i : ℚ) + 1) (n := 4) (by omega) 3
    have e : nearest (fun i : ℕ => (i : ℚ) + 1) 4 3 = 2 := by decide +kernel
    rwa [e] at h

/-- **C55 refuted at the edge of the grid.** If the axis is nearest to the first column and the flux there is outside the boundary, the "outer"
radius is interpolated between the first and the last column of the grid, which are not neighbours. -/
theorem C55_first_column_wraps (g : Mesh K) (d : Domain K) (psinorm : ℕ → K) (Raxis : K) (hn : 0 < g.nx)
    (hia : nearest g.R g.nx Raxis = 0) (hout : 1 < psinorm 0) :
    (innerOuter g d psinorm Raxis).2 =
      (g.R 0 * (1 - psinorm (g.nx - 1)) + g.R (g.nx - 1) * (psinorm 0 - 1)) / (psinorm 0 - psinorm (g.nx - 1)) := by
  obtain ⟨k, hk⟩ : ∃ k, g.nx = k + 1 := ⟨g.nx - 1, by omega⟩
  simp only [innerOuter, hia, Nat.sub_zero]
  have hf : firstTrue (fun i => decide (psinorm i > 1)) g.nx 0 = some 0 := by
    rw [hk, firstTrue, if_pos (by simpa using hout)]
  rw [hf]
  simp only [prevIndex, if_true]

/-- A case: four columns, the flux falls outwards through the boundary between the second and the third. -/
example : nearest (fun i : ℕ => (i : ℚ) + 1) 4 1 = 0 ∧
    (innerOuter (⟨4, 1, fun i => i + 1, fun _ => 0⟩ : Mesh ℚ) ⟨1, 4, 0, 0⟩ (fun i => 7 / 4 - i / 2) 1).2 = 5 / 2 := by decide +kernel

/-- A case meeting the hypotheses of C55. -/
example : innerOuter (⟨6, 1, fun i => i + 1, fun _ => 0⟩ : Mesh ℚ) ⟨1, 6, 0, 0⟩
    (fun i => ((i : ℚ) - 2) ^ 2 / 2) 3 = (5 / 3, 13 / 3) ∧
    nearest (fun i : ℕ => (i : ℚ) + 1) 6 3 = 2 := by decide +kernel

end FreeGS.Critical
