import Mathlib.Algebra.Order.Field.Basic
import Mathlib.Data.Finset.Max
import Mathlib.Tactic.FieldSimp
import Mathlib.Tactic.Linarith
import Mathlib.Tactic.LinearCombination
import Verif.Spec.FieldTracer

set_option linter.unusedSectionVars false

/-!
# Lemmas on the wall test of the field line tracer
-/

namespace FreeGS.Tracer

variable {K : Type*} [Field K] [LinearOrder K] [IsStrictOrderedRing K]

theorem frac_iff {u v : K} (h : u - v ≠ 0) : (0 < u / (u - v) ∧ u / (u - v) < 1) ↔ u * v < 0 := by
  constructor
  · rintro ⟨h1, h2⟩
    rcases lt_or_gt_of_ne h with hn | hp
    · have hu : u < 0 := by
        by_contra hu
        exact absurd h1 (not_lt.mpr (div_nonpos_of_nonneg_of_nonpos (not_lt.mp hu) hn.le))
      rw [div_lt_one_of_neg hn] at h2
      exact mul_neg_of_neg_of_pos hu (by linarith)
    · have hu : 0 < u := by
        by_contra hu
        exact absurd h1 (not_lt.mpr (div_nonpos_of_nonpos_of_nonneg (not_lt.mp hu) hp.le))
      rw [div_lt_one hp] at h2
      exact mul_neg_of_pos_of_neg hu (by linarith)
  · intro h3
    rcases mul_neg_iff.mp h3 with ⟨hu, hv⟩ | ⟨hu, hv⟩
    · have : 0 < u - v := by linarith
      exact ⟨div_pos hu this, by rw [div_lt_one this]; linarith⟩
    · have : u - v < 0 := by linarith
      exact ⟨div_pos_of_neg_of_neg hu this, by rw [div_lt_one_of_neg this]; linarith⟩

/-- The test for one side in terms of orientation: the side and the segment from the middle to the point each separate the ends of
the other. -/
theorem crosses_iff (mid x p q : K × K) : crosses mid x p q = true ↔
    1 / 1000000 < |side p q mid - side p q x| ∧ side p q mid * side p q x < 0 ∧ side mid x p * side mid x q < 0 := by
  have h1 : (x.1 - mid.1) * (q.2 - p.2) - (q.1 - p.1) * (x.2 - mid.2) = side p q mid - side p q x := by unfold side; ring
  have h2 : (q.2 - p.2) * (q.1 - mid.1) - (q.1 - p.1) * (q.2 - mid.2) = side p q mid := by unfold side; ring
  have h3 : (x.1 - mid.1) * (q.2 - mid.2) - (x.2 - mid.2) * (q.1 - mid.1) = side mid x q := by unfold side; ring
  have h4 : side p q mid - side p q x = side mid x q - side mid x p := by unfold side; ring
  unfold crosses
  simp only [h1, h2, h3, Bool.and_eq_true, decide_eq_true_eq, gt_iff_lt, and_assoc]
  refine and_congr_right fun hd => ?_
  have hne : side p q mid - side p q x ≠ 0 := by
    intro h
    rw [h, abs_zero] at hd
    exact absurd hd (by norm_num)
  have k1 := frac_iff hne
  have k2 := frac_iff (u := side mid x q) (v := side mid x p) (by rw [← h4]; exact hne)
  rw [← and_assoc, k1, h4, k2, mul_comm (side mid x q)]

theorem foldl_xor (f : ℕ → Bool) (l : List ℕ) : ∀ o, l.foldl (fun o i => xor o (f i)) o = xor o (decide (Odd (l.countP f))) := by
  induction l with
  | nil => intro o; simp
  | cons a l ih =>
    intro o
    rw [List.foldl_cons, ih, List.countP_cons]
    cases hf : f a
    · simp
    · simp only [if_true, Nat.odd_add_one, Bool.xor_true]
      by_cases h : Odd (l.countP f) <;> simp [h]

theorem outside_none (wall : List (K × K)) (mid x : K × K)
    (h : ∀ i < wall.length, crosses mid x (corner wall i) (corner wall (i + 1)) = false) : outside wall mid x = false := by
  unfold outside
  rw [foldl_xor (fun i => crosses mid x (wall.getD i (0, 0)) (wall.getD ((i + 1) % wall.length) (0, 0)))]
  have : (List.range wall.length).countP
      (fun i => crosses mid x (wall.getD i (0, 0)) (wall.getD ((i + 1) % wall.length) (0, 0))) = 0 := by
    rw [List.countP_eq_zero]
    intro i hi
    rw [List.mem_range] at hi
    have := h i hi
    rw [corner, corner, Nat.mod_eq_of_lt hi] at this
    simp only [this, Bool.false_eq_true, not_false_eq_true]
  rw [this]
  rfl

theorem countP_unique (f : ℕ → Bool) (n i : ℕ) (hi : i < n) (hf : f i = true) (hu : ∀ j < n, f j = true → j = i) :
    (List.range n).countP f = 1 := by
  have : (List.range n).countP f = (List.range n).count i := by
    rw [List.count]
    apply List.countP_congr
    intro j hj
    rw [List.mem_range] at hj
    constructor
    · intro h; simp [hu j hj h]
    · intro h
      have : j = i := by simpa using h
      rw [this]; exact hf
  rw [this, List.count_eq_one_of_mem List.nodup_range (List.mem_range.mpr hi)]

theorem outside_one (wall : List (K × K)) (mid x : K × K) (i : ℕ) (hi : i < wall.length)
    (hf : crosses mid x (corner wall i) (corner wall (i + 1)) = true)
    (hu : ∀ j < wall.length, crosses mid x (corner wall j) (corner wall (j + 1)) = true → j = i) : outside wall mid x = true := by
  unfold outside
  rw [foldl_xor (fun i => crosses mid x (wall.getD i (0, 0)) (wall.getD ((i + 1) % wall.length) (0, 0)))]
  have hc : ∀ j < wall.length, crosses mid x (wall.getD j (0, 0)) (wall.getD ((j + 1) % wall.length) (0, 0)) =
      crosses mid x (corner wall j) (corner wall (j + 1)) := by
    intro j hj
    rw [corner, corner, Nat.mod_eq_of_lt hj]
  rw [countP_unique _ _ i hi (by rw [hc i hi]; exact hf) (by intro j hj h; rw [hc j hj] at h; exact hu j hj h)]
  rfl

/-- The corners of the sides, in terms of a convex wall. -/
theorem convex_nonneg {σ : K} {wall : List (K × K)} (h : Convex σ wall) {i k : ℕ} (hi : i < wall.length) (hk : k < wall.length) :
    0 ≤ σ * side (corner wall i) (corner wall (i + 1)) (corner wall k) ∧
      (σ * side (corner wall i) (corner wall (i + 1)) (corner wall k) = 0 → k = i ∨ k = (i + 1) % wall.length) := by
  by_cases h1 : k = i
  · subst h1
    have : side (corner wall k) (corner wall (k + 1)) (corner wall k) = 0 := by unfold side; ring
    rw [this]; simp
  by_cases h2 : k = (i + 1) % wall.length
  · have : corner wall k = corner wall (i + 1) := by rw [h2, corner, corner, Nat.mod_mod]
    rw [this]
    have : side (corner wall i) (corner wall (i + 1)) (corner wall (i + 1)) = 0 := by unfold side; ring
    rw [this]; simp [h2]
  · have := h.2 i hi k hk h1 h2
    exact ⟨this.le, fun h0 => absurd h0 this.ne'⟩

theorem corner_mod (wall : List (K × K)) (i : ℕ) : corner wall (i % wall.length) = corner wall i := by
  rw [corner, corner, Nat.mod_mod]

theorem corner_succ_mod (wall : List (K × K)) (i : ℕ) : corner wall (i % wall.length + 1) = corner wall (i + 1) := by
  rw [corner, corner, Nat.mod_add_mod]

theorem same_side {n i j : ℕ} (h3n : 3 ≤ n) (hi : i < n) (hj : j < n) (c1 : j = i ∨ j = (i + 1) % n)
    (c2 : (j + 1) % n = i ∨ (j + 1) % n = (i + 1) % n) : j = i := by
  rcases c1 with h | h
  · exact h
  · exfalso
    rcases c2 with h' | h'
    · -- j = i+1 and j+1 = i: only two corners
      rcases Nat.lt_or_ge (i + 1) n with h'' | h''
      · rw [Nat.mod_eq_of_lt h''] at h
        subst h
        rcases Nat.lt_or_ge (i + 1 + 1) n with h5 | h5
        · rw [Nat.mod_eq_of_lt h5] at h'; omega
        · rw [Nat.mod_eq_sub_mod h5, Nat.mod_eq_of_lt (by omega)] at h'; omega
      · have hin : i + 1 = n := by omega
        rw [hin, Nat.mod_self] at h
        subst h
        rw [Nat.mod_eq_of_lt (by omega)] at h'
        omega
    · rw [← h'] at h
      rcases Nat.lt_or_ge (j + 1) n with h'' | h''
      · rw [Nat.mod_eq_of_lt h''] at h; omega
      · have hin : j + 1 = n := by omega
        rw [hin, Nat.mod_self] at h; omega

/-- Every point strictly outside a convex wall is seen as outside from any point strictly inside, if the line of sight meets no
corner and does not cross a side at too small an angle. -/
theorem outside_of_beyond {σ : K} (hσ : σ = 1 ∨ σ = -1) {wall : List (K × K)} (hw : Convex σ wall) {mid x : K × K}
    (hm : Inside σ wall mid) (hx : Beyond σ wall x) (hv : ∀ i < wall.length, side mid x (corner wall i) ≠ 0)
    (hd : ∀ i < wall.length, σ * side (corner wall i) (corner wall (i + 1)) x < 0 →
      1 / 1000000 < |side (corner wall i) (corner wall (i + 1)) mid - side (corner wall i) (corner wall (i + 1)) x|) :
    outside wall mid x = true := by
  classical
  have hσ2 : σ * σ = 1 := by rcases hσ with rfl | rfl <;> ring
  have hn : 0 < wall.length := by have := hw.1; omega
  set n := wall.length with hndef
  set M : ℕ → K := fun i => σ * side (corner wall i) (corner wall (i + 1)) mid with hM
  set P : ℕ → K := fun i => σ * side (corner wall i) (corner wall (i + 1)) x with hP
  set T : ℕ → K := fun i => side mid x (corner wall i) with hT
  have hMpos : ∀ i, i < n → 0 < M i := hm
  -- the first side met
  obtain ⟨i0, hi0, hP0⟩ := hx
  obtain ⟨i, hiS, hmin⟩ := Finset.exists_min_image ((Finset.range n).filter fun i => P i < 0) (fun i => M i / (M i - P i))
    ⟨i0, by simp only [Finset.mem_filter, Finset.mem_range]; exact ⟨hi0, hP0⟩⟩
  simp only [Finset.mem_filter, Finset.mem_range] at hiS hmin
  obtain ⟨hi, hPi⟩ := hiS
  have hMi := hMpos i hi
  set α := M i / (M i - P i) with hα
  have hDi : 0 < M i - P i := by linarith
  have hα0 : 0 < α := div_pos hMi hDi
  have hα1 : α < 1 := by rw [hα, div_lt_one hDi]; linarith
  -- at the first crossing all sides are weakly satisfied
  have hX : ∀ k, k < n → 0 ≤ (1 - α) * M k + α * P k := by
    intro k hk
    by_cases hPk : P k < 0
    · have hle := hmin k ⟨hk, hPk⟩
      have hDk : 0 < M k - P k := by have := hMpos k hk; linarith
      have : α * (M k - P k) ≤ M k := by
        have := mul_le_mul_of_nonneg_right hle hDk.le
        rwa [div_mul_cancel₀ _ hDk.ne'] at this
      linarith
    · have h1 : 0 ≤ (1 - α) * M k := mul_nonneg (by linarith) (hMpos k hk).le
      have h2 : 0 ≤ α * P k := mul_nonneg hα0.le (not_lt.mp hPk)
      linarith
  have hTdiff : ∀ k, σ * (T (k + 1) - T k) = M k - P k := by
    intro k
    simp only [hT, hM, hP]
    unfold side
    ring
  -- the crossing is within side i
  have hβ : ∀ k, (1 - α) * M k + α * P k = M k - α * (M k - P k) := by intro k; ring
  have hnext : σ * T (i + 1) * (σ * side (corner wall i) (corner wall (i + 1)) (corner wall (i + 2))) =
      (M i - P i) * (M (i + 1) - α * (M (i + 1) - P (i + 1))) := by
    have h1 : α * (M i - P i) = M i := div_mul_cancel₀ _ hDi.ne'
    have h2 : (M i - P i) * (M (i + 1) - α * (M (i + 1) - P (i + 1))) =
        (M i - P i) * M (i + 1) - M i * (M (i + 1) - P (i + 1)) := by
      linear_combination (-(M (i + 1) - P (i + 1))) * h1
    rw [h2]
    simp only [hT, hM, hP]
    unfold side
    ring
  have hprev : ∀ k, k + 1 = i ∨ corner wall (k + 1) = corner wall i →
      σ * T i * (σ * side (corner wall k) (corner wall (k + 1)) (corner wall (i + 1))) =
      - ((M i - P i) * (M k - α * (M k - P k))) := by
    intro k hk
    have hk' : corner wall (k + 1) = corner wall i := by
      rcases hk with h | h
      · rw [h]
      · exact h
    have h1 : α * (M i - P i) = M i := div_mul_cancel₀ _ hDi.ne'
    have h2 : (M i - P i) * (M k - α * (M k - P k)) = (M i - P i) * M k - M i * (M k - P k) := by
      linear_combination (-(M k - P k)) * h1
    rw [h2]
    simp only [hT, hM, hP]
    rw [hk']
    unfold side
    ring
  have hmod : ∀ k, corner wall (k % n) = corner wall k := corner_mod wall
  -- sign at the end of side i
  have hend : 0 < σ * T (i + 1) := by
    have hj : (i + 1) % n < n := Nat.mod_lt _ hn
    have hpos : 0 < σ * side (corner wall i) (corner wall (i + 1)) (corner wall (i + 2)) := by
      have h2 : (i + 2) % n < n := Nat.mod_lt _ hn
      have h3 : (i + 2) % n ≠ i := by
        have h3n := hw.1
        rcases Nat.lt_or_ge (i + 2) n with h | h
        · rw [Nat.mod_eq_of_lt h]; omega
        · have : (i + 2) % n = i + 2 - n := by rw [Nat.mod_eq_sub_mod h, Nat.mod_eq_of_lt (by omega)]
          omega
      have h4 : (i + 2) % n ≠ (i + 1) % n := by
        have h3n := hw.1
        rcases Nat.lt_or_ge (i + 2) n with h | h
        · rw [Nat.mod_eq_of_lt h, Nat.mod_eq_of_lt (by omega)]; omega
        · rw [Nat.mod_eq_sub_mod h, Nat.mod_eq_of_lt (a := i + 2 - n) (by omega)]
          rcases Nat.lt_or_ge (i + 1) n with h' | h'
          · rw [Nat.mod_eq_of_lt h']; omega
          · rw [Nat.mod_eq_sub_mod h', Nat.mod_eq_of_lt (by omega)]; omega
      have := hw.2 i hi _ h2 h3 h4
      rwa [hmod] at this
    have hXn := hX ((i + 1) % n) hj
    have hMe : M ((i + 1) % n) = M (i + 1) := by simp only [hM, hmod, corner_succ_mod, ← hndef]; rw [hndef, corner_succ_mod]
    have hPe : P ((i + 1) % n) = P (i + 1) := by simp only [hP, hmod]; rw [hndef, corner_succ_mod]
    rw [hMe, hPe, hβ] at hXn
    have hge : 0 ≤ σ * T (i + 1) := by
      by_contra hneg
      have := mul_neg_of_neg_of_pos (not_le.mp hneg) hpos
      rw [hnext] at this
      exact absurd this (not_lt.mpr (mul_nonneg hDi.le hXn))
    refine lt_of_le_of_ne hge fun h0 => ?_
    have hne : T (i + 1) ≠ 0 := by
      have := hv _ hj
      simp only [hT]
      rwa [hmod] at this
    rcases hσ with rfl | rfl
    · rw [one_mul] at h0; exact hne h0.symm
    · apply hne; linarith
  have hstart : σ * T i < 0 := by
    have h3n := hw.1
    obtain ⟨k, hk, hki⟩ : ∃ k, k < n ∧ (k + 1) % n = i := by
      by_cases h0 : i = 0
      · exact ⟨n - 1, by omega, by rw [Nat.sub_add_cancel (by omega), Nat.mod_self, h0]⟩
      · exact ⟨i - 1, by omega, by rw [Nat.sub_add_cancel (by omega), Nat.mod_eq_of_lt hi]⟩
    have hck : corner wall (k + 1) = corner wall i := by rw [← hmod, hki]
    have hpos : 0 < σ * side (corner wall k) (corner wall (k + 1)) (corner wall (i + 1)) := by
      have h2 : (i + 1) % n < n := Nat.mod_lt _ hn
      have h3 : (i + 1) % n ≠ k := by
        intro h
        rcases Nat.lt_or_ge (i + 1) n with h' | h'
        · rw [Nat.mod_eq_of_lt h'] at h
          subst h
          rcases Nat.lt_or_ge (i + 2) n with h'' | h''
          · rw [Nat.mod_eq_of_lt (by omega)] at hki; omega
          · rw [Nat.mod_eq_sub_mod (by omega), Nat.mod_eq_of_lt (by omega)] at hki; omega
        · have hin : i + 1 = n := by omega
          rw [hin, Nat.mod_self] at h
          subst h
          rw [Nat.mod_eq_of_lt (by omega)] at hki
          omega
      have h4 : (i + 1) % n ≠ (k + 1) % n := by
        rw [hki]
        intro h
        rcases Nat.lt_or_ge (i + 1) n with h' | h'
        · rw [Nat.mod_eq_of_lt h'] at h; omega
        · have hin : i + 1 = n := by omega
          rw [hin, Nat.mod_self] at h; omega
      have := hw.2 k hk _ h2 h3 h4
      rwa [hmod] at this
    have hXk := hX k hk
    rw [hβ] at hXk
    have hle : σ * T i ≤ 0 := by
      by_contra hpos'
      have := mul_pos (not_le.mp hpos') hpos
      rw [hprev k (.inr hck)] at this
      have h0 := mul_nonneg hDi.le hXk
      linarith
    refine lt_of_le_of_ne hle fun h0 => ?_
    have hne : T i ≠ 0 := hv _ hi
    rcases hσ with rfl | rfl
    · rw [one_mul] at h0; exact hne h0
    · apply hne; linarith
  have hsq : ∀ u v : K, (σ * u) * (σ * v) = u * v := by intro u v; linear_combination u * v * hσ2
  refine outside_one wall mid x i hi ?_ ?_
  · rw [crosses_iff]
    refine ⟨hd i hi hPi, ?_, ?_⟩
    · rw [← hsq]; exact mul_neg_of_pos_of_neg hMi hPi
    · rw [← hsq]; exact mul_neg_of_neg_of_pos hstart hend
  · intro j hj hcj
    rw [crosses_iff] at hcj
    obtain ⟨-, hc1, hc2⟩ := hcj
    have hMj := hMpos j hj
    have hPj : P j < 0 := by
      by_contra hneg
      have := mul_nonneg hMj.le (not_lt.mp hneg)
      simp only [hM, hP, hsq] at this
      exact absurd hc1 (not_lt.mpr this)
    have hDj : 0 < M j - P j := by linarith
    have hle := hmin j ⟨hj, hPj⟩
    set αj := M j / (M j - P j) with hαj
    -- side i at the crossing with side j
    have hj1 : (j + 1) % n < n := Nat.mod_lt _ hn
    obtain ⟨ha, ha0⟩ := convex_nonneg hw hi hj
    obtain ⟨hb, hb0⟩ := convex_nonneg hw hi hj1
    rw [hmod] at hb hb0
    set A := σ * side (corner wall i) (corner wall (i + 1)) (corner wall j) with hA
    set B := σ * side (corner wall i) (corner wall (i + 1)) (corner wall (j + 1)) with hB
    have hid : (M j - P j) * (M i - αj * (M i - P i)) = σ * T (j + 1) * A - σ * T j * B := by
      have h1 : αj * (M j - P j) = M j := div_mul_cancel₀ _ hDj.ne'
      have h2 : (M j - P j) * (M i - αj * (M i - P i)) = (M j - P j) * M i - M j * (M i - P i) := by
        linear_combination (-(M i - P i)) * h1
      rw [h2]
      simp only [hT, hM, hP, hA, hB]
      unfold side
      ring
    have hneg : (M j - P j) * (M i - αj * (M i - P i)) ≤ 0 := by
      apply mul_nonpos_of_nonneg_of_nonpos hDj.le
      have h1 : α * (M i - P i) = M i := div_mul_cancel₀ _ hDi.ne'
      have := mul_le_mul_of_nonneg_right hle hDi.le
      linarith
    have hTj : σ * T j < 0 ∧ 0 < σ * T (j + 1) := by
      have hs : (σ * T j) * (σ * T (j + 1)) < 0 := by rw [hsq]; exact hc2
      have hdiff := hTdiff j
      rcases mul_neg_iff.mp hs with ⟨h1, h2⟩ | h
      · exfalso
        have : σ * T (j + 1) - σ * T j = M j - P j := by rw [← hdiff]; ring
        linarith
      · exact h
    rw [hid] at hneg
    have t1 : 0 ≤ σ * T (j + 1) * A := mul_nonneg hTj.2.le ha
    have t2 : 0 ≤ -(σ * T j * B) := by have := mul_nonneg (neg_pos.mpr hTj.1).le hb; linarith
    have e1 : σ * T (j + 1) * A = 0 := by linarith
    have e2 : σ * T j * B = 0 := by linarith
    have hA0 : A = 0 := (mul_eq_zero.mp e1).resolve_left hTj.2.ne'
    have hB0 : B = 0 := (mul_eq_zero.mp e2).resolve_left hTj.1.ne
    have c1 := ha0 hA0
    have c2 := hb0 hB0
    exact same_side hw.1 hi hj c1 c2

theorem crosses_symm (mid x p q : K × K) : crosses mid x p q = crosses x mid p q := by
  rw [Bool.eq_iff_iff, crosses_iff, crosses_iff, abs_sub_comm, mul_comm (side p q mid)]
  have h : ∀ y : K × K, side x mid y = -side mid x y := by intro y; unfold side; ring
  rw [h p, h q, neg_mul_neg]

theorem outside_symm (wall : List (K × K)) (mid x : K × K) : outside wall mid x = outside wall x mid := by
  unfold outside
  congr 1
  funext o i
  rw [crosses_symm]

/-- Points straight behind a corner are not seen as outside. -/
theorem behind_corner {σ : K} (hσ : σ = 1 ∨ σ = -1) {wall : List (K × K)} (hw : Convex σ wall) {mid : K × K} (hm : Inside σ wall mid)
    {k : ℕ} (hk : k < wall.length) {t : K} (ht : 1 < t) :
    outside wall mid (mid.1 + t * ((corner wall k).1 - mid.1), mid.2 + t * ((corner wall k).2 - mid.2)) = false := by
  have hσ2 : σ * σ = 1 := by rcases hσ with rfl | rfl <;> ring
  have hsq : ∀ u v : K, (σ * u) * (σ * v) = u * v := by intro u v; linear_combination u * v * hσ2
  set x : K × K := (mid.1 + t * ((corner wall k).1 - mid.1), mid.2 + t * ((corner wall k).2 - mid.2)) with hx
  set M : ℕ → K := fun i => σ * side (corner wall i) (corner wall (i + 1)) mid with hM
  set P : ℕ → K := fun i => σ * side (corner wall i) (corner wall (i + 1)) x with hP
  set T : ℕ → K := fun i => side mid x (corner wall i) with hT
  have hMpos : ∀ i, i < wall.length → 0 < M i := hm
  apply outside_none
  intro j hj
  rw [← Bool.not_eq_true, crosses_iff]
  rintro ⟨-, hc1, hc2⟩
  have hMj := hMpos j hj
  have hMk := hMpos k hk
  have hPj : P j < 0 := by
    by_contra hneg
    have := mul_nonneg hMj.le (not_lt.mp hneg)
    simp only [hM, hP, hsq] at this
    exact absurd hc1 (not_lt.mpr this)
  have hPk : P k = (1 - t) * M k := by simp only [hP, hM, hx]; unfold side; ring
  have hj1 : (j + 1) % wall.length < wall.length := Nat.mod_lt _ (by omega)
  obtain ⟨ha, ha0⟩ := convex_nonneg hw hk hj
  obtain ⟨hb, hb0⟩ := convex_nonneg hw hk hj1
  obtain ⟨hc, -⟩ := convex_nonneg hw hj hk
  rw [corner_mod] at hb hb0
  set A := σ * side (corner wall k) (corner wall (k + 1)) (corner wall j) with hA
  set B := σ * side (corner wall k) (corner wall (k + 1)) (corner wall (j + 1)) with hB
  have hid : M k * ((M j - P j) - M j * t) = σ * T (j + 1) * A - σ * T j * B := by
    have h2 : (M j - P j) * M k - M j * (M k - P k) = M k * ((M j - P j) - M j * t) := by rw [hPk]; ring
    rw [← h2]
    simp only [hT, hM, hP, hA, hB]
    unfold side
    ring
  have hck : t * (σ * side (corner wall j) (corner wall (j + 1)) (corner wall k)) = M j * t - (M j - P j) := by
    simp only [hM, hP, hx]; unfold side; ring
  have hge : 0 ≤ M j * t - (M j - P j) := by rw [← hck]; exact mul_nonneg (by linarith) hc
  have hTdiff : σ * T (j + 1) - σ * T j = M j - P j := by simp only [hT, hM, hP]; unfold side; ring
  have hTj : σ * T j < 0 ∧ 0 < σ * T (j + 1) := by
    have hs : (σ * T j) * (σ * T (j + 1)) < 0 := by rw [hsq]; exact hc2
    rcases mul_neg_iff.mp hs with ⟨h1, h2⟩ | h
    · exfalso; linarith
    · exact h
  have t1 : 0 ≤ σ * T (j + 1) * A := mul_nonneg hTj.2.le ha
  have t2 : 0 ≤ -(σ * T j * B) := by have := mul_nonneg (neg_pos.mpr hTj.1).le hb; linarith
  have hneg : M k * ((M j - P j) - M j * t) ≤ 0 := mul_nonpos_of_nonneg_of_nonpos hMk.le (by linarith)
  have hA0 : A = 0 := (mul_eq_zero.mp (by linarith : σ * T (j + 1) * A = 0)).resolve_left hTj.2.ne'
  have hB0 : B = 0 := (mul_eq_zero.mp (by linarith : σ * T j * B = 0)).resolve_left hTj.1.ne
  have hjk := same_side hw.1 hk hj (ha0 hA0) (hb0 hB0)
  subst hjk
  have : T j = 0 := by simp only [hT, hx]; unfold side; ring
  rw [this, mul_zero] at hTj
  exact lt_irrefl _ hTj.1

end FreeGS.Tracer
