import Verif.Model.GradShafranov
import Mathlib.Algebra.BigOperators.Intervals
import Mathlib.Algebra.BigOperators.Ring.Finset
import Mathlib.Tactic.LinearCombination

set_option linter.unusedSectionVars false

namespace FreeGS.GS

variable {K : Type*} [Field K] [LinearOrder K]

/-! ## Romberg integration as a weighted sum -/

theorem rombLevels_spec (N : ℕ) : ∀ fuel n k, n = 2 ^ k →
    (rombLevels N fuel n k).1 = 2 ^ (rombLevels N fuel n k).2 ∧
    (N ≤ n + fuel → N ≤ (rombLevels N fuel n k).1) ∧
    ((rombLevels N fuel n k).1 = n ∨ (rombLevels N fuel n k).1 < 2 * N) := by
  intro fuel
  induction fuel with
  | zero => intro n k h; exact ⟨h, fun h => h, Or.inl rfl⟩
  | succ f ih =>
    intro n k h
    rw [rombLevels]
    by_cases hlt : n < N
    · rw [if_pos hlt]
      obtain ⟨a, b, c⟩ := ih (2 * n) (k + 1) (by rw [h, pow_succ]; ring)
      have hpos : 0 < n := by rw [h]; positivity
      refine ⟨a, fun h => b (by omega), ?_⟩
      rcases c with c | c
      · right; rw [c]; omega
      · exact Or.inr c
    · rw [if_neg hlt]
      exact ⟨h, fun _ => by simp only; omega, Or.inl rfl⟩

/-- On `2^k + 1` samples the Romberg table of level `k` is returned. -/
theorem romb_pow (y : ℕ → K) (k : ℕ) : romb y (2 ^ k + 1) = .ok (rombTable y (2 ^ k) k k) := by
  rw [romb]
  simp only [Nat.add_sub_cancel]
  obtain ⟨a, b, c⟩ := rombLevels_spec (2 ^ k) (2 ^ k) 1 0 (by simp)
  have h1 := b (by omega)
  have hk : (rombLevels (2 ^ k) (2 ^ k) 1 0).2 = k := by
    rw [a] at h1 c
    have l1 : k ≤ (rombLevels (2 ^ k) (2 ^ k) 1 0).2 := (Nat.pow_le_pow_iff_right (by norm_num)).mp h1
    rcases c with c | c
    · have : (rombLevels (2 ^ k) (2 ^ k) 1 0).2 = 0 := by
        by_contra hne
        have := Nat.one_lt_pow hne (show 1 < 2 by norm_num)
        omega
      omega
    · have : (rombLevels (2 ^ k) (2 ^ k) 1 0).2 < k + 1 := by
        refine (Nat.pow_lt_pow_iff_right (show 1 < 2 by norm_num)).mp ?_
        rw [pow_succ 2 k, mul_comm]; exact c
      omega
  rw [a, hk, if_pos rfl]

/-- A number of samples that is not `2^k + 1` is rejected. -/
theorem romb_error (y : ℕ → K) (n : ℕ) (h : ∀ k, n ≠ 2 ^ k + 1) : romb y n = .error .value := by
  rw [romb]
  obtain ⟨a, _, _⟩ := rombLevels_spec (n - 1) (n - 1) 1 0 (by simp)
  simp only
  rw [if_neg]
  intro e
  rw [a] at e
  have : 0 < 2 ^ (rombLevels (n - 1) (n - 1) 1 0).2 := by positivity
  exact h _ (by rw [e]; omega)

section exact
variable [CharZero K]

theorem sum_range_affine (a b s : K) (n : ℕ) :
    ((List.range n).map fun m : ℕ => a + b * (s + (m : K))).sum = n * a + b * (n * s + n * (n - 1) / 2) := by
  induction n with
  | zero => simp
  | succ n ih =>
    rw [List.range_succ, List.map_append, List.sum_append, ih]
    simp only [List.map_cons, List.map_nil, List.sum_cons, List.sum_nil]
    push_cast; ring

/-- The trapezium rule and its halvings are weighted sums that integrate affine functions exactly. -/
theorem rombTrap_weights (k : ℕ) : ∀ i ≤ k, ∃ w : ℕ → K,
    (∀ y, rombTrap y (2 ^ k) i = ∑ m ∈ Finset.range (2 ^ k + 1), w m * y m) ∧
    (∀ a b : K, rombTrap (fun m => a + b * m) (2 ^ k) i = 2 ^ k * a + b * (2 ^ k) ^ 2 / 2) := by
  intro i
  induction i with
  | zero =>
    intro _
    have h0 : (0 : ℕ) < 2 ^ k := by positivity
    refine ⟨fun m => if m = 0 ∨ m = 2 ^ k then 2 ^ k / 2 else 0, ?_, ?_⟩
    · intro y
      rw [rombTrap, Finset.sum_range_succ]
      have : ∑ m ∈ Finset.range (2 ^ k), (if m = 0 ∨ m = 2 ^ k then (2 : K) ^ k / 2 else 0) * y m = 2 ^ k / 2 * y 0 := by
        rw [Finset.sum_eq_single 0]
        · simp
        · intro m hm hne
          have := Finset.mem_range.mp hm
          rw [if_neg (by omega), zero_mul]
        · intro h; exact absurd (Finset.mem_range.mpr h0) h
      rw [this]
      simp only [or_true, if_true]
      push_cast
      ring
    · intro a b
      rw [rombTrap]; push_cast; ring
  | succ i ih =>
    intro hi
    obtain ⟨w, hw, hex⟩ := ih (by omega)
    have hdiv : ∀ j, j ≤ k → 2 ^ k / 2 ^ j = 2 ^ (k - j) := fun j hj => Nat.pow_div hj (by norm_num)
    have hidx : ∀ m < 2 ^ i, 2 ^ k / 2 ^ (i + 1) + m * (2 ^ k / 2 ^ i) < 2 ^ k + 1 := by
      intro m hm
      rw [hdiv _ hi, hdiv _ (by omega)]
      have e : 2 ^ k = 2 ^ i * 2 ^ (k - i) := by rw [← pow_add]; congr 1; omega
      have e2 : 2 ^ (k - i) = 2 * 2 ^ (k - (i + 1)) := by rw [← pow_succ']; congr 1; omega
      have hp : 0 < 2 ^ (k - (i + 1)) := by positivity
      have : m * 2 ^ (k - i) + 2 ^ (k - i) ≤ 2 ^ i * 2 ^ (k - i) := by
        rw [← Nat.succ_mul]; exact Nat.mul_le_mul_right _ hm
      omega
    refine ⟨fun j => 1 / 2 * (w j + (2 ^ k : K) / 2 ^ i *
      (((List.range (2 ^ i)).map fun m => if 2 ^ k / 2 ^ (i + 1) + m * (2 ^ k / 2 ^ i) = j then (1 : K) else 0).sum)), ?_, ?_⟩
    · intro y
      rw [rombTrap, hw]
      have hs : ∀ (l : List ℕ), (∀ m ∈ l, m < 2 ^ i) →
          ∑ j ∈ Finset.range (2 ^ k + 1), (l.map fun m =>
            if 2 ^ k / 2 ^ (i + 1) + m * (2 ^ k / 2 ^ i) = j then (1 : K) else 0).sum * y j =
          (l.map fun m => y (2 ^ k / 2 ^ (i + 1) + m * (2 ^ k / 2 ^ i))).sum := by
        intro l
        induction l with
        | nil => intro _; simp
        | cons m l ihl =>
          intro h
          simp only [List.map_cons, List.sum_cons, add_mul, Finset.sum_add_distrib]
          rw [ihl fun m hm => h m (List.mem_cons_of_mem _ hm)]
          congr 1
          rw [Finset.sum_eq_single (2 ^ k / 2 ^ (i + 1) + m * (2 ^ k / 2 ^ i))]
          · simp
          · intro j _ hj; rw [if_neg (Ne.symm hj), zero_mul]
          · intro hn
            exact absurd (Finset.mem_range.mpr (hidx m (h m List.mem_cons_self))) hn
      rw [← hs _ fun m hm => List.mem_range.mp hm]
      push_cast
      rw [Finset.mul_sum, ← Finset.sum_add_distrib, Finset.mul_sum]
      refine Finset.sum_congr rfl fun j _ => ?_
      ring
    · intro a b
      rw [rombTrap, hex]
      have hc : ∀ m : ℕ, (((2 ^ k / 2 ^ (i + 1) + m * (2 ^ k / 2 ^ i) : ℕ)) : K) =
          (2 ^ k / 2 ^ i : K) * (1 / 2 + (m : K)) := by
        intro m
        rw [hdiv _ hi, hdiv _ (by omega)]
        have e : (2 : K) ^ k = 2 ^ i * 2 ^ (k - i) := by rw [← pow_add]; congr 1; omega
        have e2 : (2 : K) ^ (k - i) = 2 * 2 ^ (k - (i + 1)) := by rw [← pow_succ']; congr 1; omega
        push_cast
        rw [e, e2]
        field_simp
      have hsum : ((List.range (2 ^ i)).map fun m : ℕ =>
            a + b * (((2 ^ k / 2 ^ (i + 1) + m * (2 ^ k / 2 ^ i) : ℕ)) : K)).sum =
          (2 ^ i : ℕ) * a + (b * (2 ^ k / 2 ^ i)) * ((2 ^ i : ℕ) * (1 / 2) + (2 ^ i : ℕ) * ((2 ^ i : ℕ) - 1) / 2) := by
        rw [← sum_range_affine]
        congr 1
        refine List.map_congr_left fun m _ => ?_
        rw [hc]; ring
      rw [hsum]
      push_cast
      field_simp
      ring

/-- The same for every entry of the table. -/
theorem rombTable_weights (k : ℕ) : ∀ j i, i ≤ k → ∃ w : ℕ → K,
    (∀ y, rombTable y (2 ^ k) j i = ∑ m ∈ Finset.range (2 ^ k + 1), w m * y m) ∧
    (∀ a b : K, rombTable (fun m => a + b * m) (2 ^ k) j i = 2 ^ k * a + b * (2 ^ k) ^ 2 / 2) := by
  intro j
  induction j with
  | zero => intro i hi; exact rombTrap_weights k i hi
  | succ j ih =>
    intro i hi
    obtain ⟨w1, h1, e1⟩ := ih i hi
    obtain ⟨w2, h2, e2⟩ := ih (i - 1) (by omega)
    refine ⟨fun m => w1 m + (w1 m - w2 m) / (4 ^ (j + 1) - 1), ?_, ?_⟩
    · intro y
      rw [rombTable, h1, h2, ← Finset.sum_sub_distrib, div_eq_mul_inv, Finset.sum_mul, ← Finset.sum_add_distrib]
      refine Finset.sum_congr rfl fun m _ => ?_
      simp only [div_eq_mul_inv]; ring
    · intro a b
      rw [rombTable, e1, e2, sub_self, zero_div, add_zero]

theorem sum_range_cubic (c d s : K) (n : ℕ) :
    ((List.range n).map fun m : ℕ => c * (s * (1 / 2 + (m : K))) ^ 2 + d * (s * (1 / 2 + (m : K))) ^ 3).sum =
      c * s ^ 2 * ((n : K) ^ 3 / 3 - n / 12) + d * s ^ 3 * ((n : K) ^ 4 / 4 - (n : K) ^ 2 / 8) := by
  induction n with
  | zero => simp
  | succ n ih =>
    rw [List.range_succ, List.map_append, List.sum_append, ih]
    simp only [List.map_cons, List.map_nil, List.sum_cons, List.sum_nil]
    push_cast; field_simp; ring

/-- The trapezium rule on a quadratic and cubic, with its error. -/
theorem rombTrap_cubic (k : ℕ) (c d : K) : ∀ i ≤ k,
    rombTrap (fun m => c * (m : K) ^ 2 + d * (m : K) ^ 3) (2 ^ k) i =
      c * ((2 ^ k) ^ 3 / 3 + (2 ^ k / 2 ^ i) ^ 2 * 2 ^ k / 6) + d * ((2 ^ k) ^ 4 / 4 + (2 ^ k / 2 ^ i) ^ 2 * (2 ^ k) ^ 2 / 4) := by
  intro i
  induction i with
  | zero => intro _; rw [rombTrap]; push_cast; field_simp; ring
  | succ i ih =>
    intro hi
    have hdiv : ∀ j, j ≤ k → 2 ^ k / 2 ^ j = 2 ^ (k - j) := fun j hj => Nat.pow_div hj (by norm_num)
    have hc : ∀ m : ℕ, (((2 ^ k / 2 ^ (i + 1) + m * (2 ^ k / 2 ^ i) : ℕ)) : K) =
        (2 ^ k / 2 ^ i : K) * (1 / 2 + (m : K)) := by
      intro m
      rw [hdiv _ hi, hdiv _ (by omega)]
      have e : (2 : K) ^ k = 2 ^ i * 2 ^ (k - i) := by rw [← pow_add]; congr 1; omega
      have e2 : (2 : K) ^ (k - i) = 2 * 2 ^ (k - (i + 1)) := by rw [← pow_succ']; congr 1; omega
      push_cast
      rw [e, e2]
      field_simp
    rw [rombTrap, ih (by omega)]
    simp only [hc]
    rw [sum_range_cubic]
    push_cast
    rw [pow_succ 2 i]
    field_simp
    ring

/-- Beyond the first column cubics are integrated exactly. -/
theorem rombTable_cubic (k : ℕ) (c d : K) : ∀ j i, 1 ≤ j → j ≤ i → i ≤ k →
    rombTable (fun m => c * (m : K) ^ 2 + d * (m : K) ^ 3) (2 ^ k) j i = c * (2 ^ k) ^ 3 / 3 + d * (2 ^ k) ^ 4 / 4 := by
  intro j
  induction j with
  | zero => intro i h; omega
  | succ j ih =>
    intro i _ hji hik
    rw [rombTable]
    by_cases hj : j = 0
    · subst hj
      rw [rombTable, rombTable, rombTrap_cubic k c d i hik, rombTrap_cubic k c d (i - 1) (by omega)]
      obtain ⟨l, rfl⟩ : ∃ l, i = l + 1 := ⟨i - 1, by omega⟩
      rw [Nat.add_sub_cancel, pow_succ 2 l]
      have : (4 : K) ^ (0 + 1) - 1 = 3 := by norm_num
      rw [this]
      field_simp
      ring
    · rw [ih i (by omega) (by omega) hik, ih (i - 1) (by omega) (by omega) (by omega), sub_self, zero_div, add_zero]

/-- Romberg integration is a weighted sum whose weights integrate affine functions exactly, and cubics if there are at least
three samples. -/
theorem romb_weights (k : ℕ) : ∃ w : ℕ → K,
    (∀ y, romb y (2 ^ k + 1) = .ok (∑ m ∈ Finset.range (2 ^ k + 1), w m * y m)) ∧
    ∑ m ∈ Finset.range (2 ^ k + 1), w m = 2 ^ k ∧
    ∑ m ∈ Finset.range (2 ^ k + 1), w m * m = (2 ^ k) ^ 2 / 2 ∧
    (1 ≤ k → ∑ m ∈ Finset.range (2 ^ k + 1), w m * (m : K) ^ 2 = (2 ^ k) ^ 3 / 3 ∧
      ∑ m ∈ Finset.range (2 ^ k + 1), w m * (m : K) ^ 3 = (2 ^ k) ^ 4 / 4) := by
  obtain ⟨w, h, e⟩ := rombTable_weights (K := K) k k k (le_refl _)
  refine ⟨w, fun y => by rw [romb_pow, h], ?_, ?_, fun hk => ⟨?_, ?_⟩⟩
  · have := e 1 0
    rw [h] at this
    simpa using this
  · have := e 0 1
    rw [h] at this
    simpa using this
  · have := rombTable_cubic (K := K) k 1 0 k k hk (le_refl _) (le_refl _)
    rw [h] at this
    simpa using this
  · have := rombTable_cubic (K := K) k 0 1 k k hk (le_refl _) (le_refl _)
    rw [h] at this
    simpa using this

end exact

/-! ## Loops of assignments -/

theorem assignLoop_spec (value : ℕ × ℕ → Except Err K) (v : ℕ × ℕ → K) : ∀ (l : List (ℕ × ℕ)) (psi : Arr K),
    (∀ c ∈ l, value c = .ok (v c)) →
    ∃ psi', assignLoop value l psi = .ok psi' ∧ ∀ c, psi' c = if c ∈ l then v c else psi c := by
  intro l
  induction l with
  | nil => intro psi _; exact ⟨psi, rfl, fun c => by simp⟩
  | cons a l ih =>
    intro psi h
    obtain ⟨psi', h1, h2⟩ := ih (psi.set a (v a)) fun c hc => h c (List.mem_cons_of_mem _ hc)
    refine ⟨psi', ?_, fun c => ?_⟩
    · rw [assignLoop, h a List.mem_cons_self]; exact h1
    · rw [h2]
      by_cases hc : c ∈ l
      · simp [hc]
      · by_cases hca : c = a
        · subst hca; simp [hc, Arr.set]
        · simp [hc, hca, Arr.set]

theorem mem_edgeIndices {nx ny : ℕ} {c : ℕ × ℕ} :
    c ∈ edgeIndices nx ny ↔
      (c.1 < nx ∧ (c.2 = 0 ∨ c.2 = ny - 1)) ∨ (c.2 < ny ∧ (c.1 = 0 ∨ c.1 = nx - 1)) := by
  obtain ⟨x, y⟩ := c
  simp only [edgeIndices, List.mem_append, List.mem_map, List.mem_range, Prod.mk.injEq]
  constructor
  · rintro (((⟨a, h, rfl, rfl⟩ | ⟨a, h, rfl, rfl⟩) | ⟨a, h, rfl, rfl⟩) | ⟨a, h, rfl, rfl⟩)
    · exact Or.inl ⟨h, Or.inl rfl⟩
    · exact Or.inl ⟨h, Or.inr rfl⟩
    · exact Or.inr ⟨h, Or.inl rfl⟩
    · exact Or.inr ⟨h, Or.inr rfl⟩
  · rintro (⟨h, rfl | rfl⟩ | ⟨h, rfl | rfl⟩)
    · exact Or.inl (Or.inl (Or.inl ⟨x, h, rfl, rfl⟩))
    · exact Or.inl (Or.inl (Or.inr ⟨x, h, rfl, rfl⟩))
    · exact Or.inl (Or.inr ⟨y, h, rfl, rfl⟩)
    · exact Or.inr ⟨y, h, rfl, rfl⟩

/-- The loop of von Hagenow's method: the value at an edge point is that of its last visit. -/
theorem hagenowLoop_spec (value : K → K → Except Err K) (v : K → K → K) (R Z : ℕ → K)
    (hv : ∀ r z, value r z = .ok (v r z)) : ∀ (l : List ((ℕ × ℕ) × K × K)) (psi : Arr K),
    ∃ psi', hagenowLoop value R Z l psi = .ok psi' ∧
      ∀ c, (∀ e, (c, e) ∉ l) → psi' c = psi c := by
  intro l
  induction l with
  | nil => intro psi; exact ⟨psi, rfl, fun _ _ => rfl⟩
  | cons a l ih =>
    obtain ⟨c, er, ez⟩ := a
    intro psi
    obtain ⟨psi', h1, h2⟩ := ih (psi.set c (v (R c.1 + er) (Z c.2 + ez)))
    refine ⟨psi', by rw [hagenowLoop, hv]; exact h1, fun c' hc' => ?_⟩
    rw [h2 c' fun e he => hc' e (List.mem_cons_of_mem _ he)]
    have hne : c' ≠ c := by rintro rfl; exact hc' (er, ez) List.mem_cons_self
    rw [Arr.set, Function.update_of_ne hne]

theorem hagenowLoop_append (value : K → K → Except Err K) (v : K → K → K) (R Z : ℕ → K)
    (hv : ∀ r z, value r z = .ok (v r z)) : ∀ (l m : List ((ℕ × ℕ) × K × K)) (psi : Arr K),
    ∃ psi1, hagenowLoop value R Z l psi = .ok psi1 ∧
      hagenowLoop value R Z (l ++ m) psi = hagenowLoop value R Z m psi1 := by
  intro l m
  induction l with
  | nil => intro psi; exact ⟨psi, rfl, rfl⟩
  | cons a l ih =>
    obtain ⟨c, er, ez⟩ := a
    intro psi
    obtain ⟨psi1, h1, h2⟩ := ih (psi.set c (v (R c.1 + er) (Z c.2 + ez)))
    exact ⟨psi1, by rw [hagenowLoop, hv]; exact h1, by rw [List.cons_append, hagenowLoop, hv]; exact h2⟩

/-- Value after the loop at a point all of whose visits have the same displacement. -/
theorem hagenowLoop_const (value : K → K → Except Err K) (v : K → K → K) (R Z : ℕ → K)
    (hv : ∀ r z, value r z = .ok (v r z)) (c : ℕ × ℕ) (e : K × K) : ∀ (m : List ((ℕ × ℕ) × K × K)) (psi psi' : Arr K),
    hagenowLoop value R Z m psi = .ok psi' → (∀ e', (c, e') ∈ m → e' = e) →
    ((∃ e', (c, e') ∈ m) ∨ psi c = v (R c.1 + e.1) (Z c.2 + e.2)) → psi' c = v (R c.1 + e.1) (Z c.2 + e.2) := by
  intro m
  induction m with
  | nil =>
    intro psi psi' h _ h2
    rw [hagenowLoop] at h
    cases h
    rcases h2 with ⟨_, h2⟩ | h2
    · cases h2
    · exact h2
  | cons a m ih =>
    obtain ⟨c', er, ez⟩ := a
    intro psi psi' h h1 h2
    rw [hagenowLoop, hv] at h
    refine ih _ psi' h (fun e' he' => h1 e' (List.mem_cons_of_mem _ he')) ?_
    by_cases hc : c = c'
    · subst hc
      right
      have := h1 (er, ez) List.mem_cons_self
      rw [Arr.set, Function.update_self, ← this]
    · rcases h2 with ⟨e', h2⟩ | h2
      · rcases List.mem_cons.mp h2 with h2 | h2
        · cases h2; exact absurd rfl hc
        · exact Or.inl ⟨e', h2⟩
      · right; rw [Arr.set, Function.update_of_ne hc, h2]

end FreeGS.GS
