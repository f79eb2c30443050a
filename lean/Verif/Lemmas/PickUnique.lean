import Verif.Lemmas.Optimiser
import Mathlib.Order.Interval.Finset.Nat
import Mathlib.Data.Finset.Card

/-! Which indices `optimiser.pickUnique` can return. -/

set_option linter.unusedSectionVars false

namespace FreeGS.Optimiser

variable {K : Type*}

/-- Everything the skip loop passes over is taken. -/
theorem skip_between (l : List ℕ) (n y : ℕ) (h1 : n ≤ y) (h2 : y < skip n l) : y ∈ l := by
  induction l generalizing n with
  | nil => simp [skip] at h2; omega
  | cons a l ih =>
    have hs : skip n (a :: l) = skip (if n = a then n + 1 else n) l := rfl
    rw [hs] at h2
    by_cases hn : n = a
    · rw [if_pos hn] at h2
      by_cases hy : y = n
      · simp [hy, hn]
      · exact List.mem_cons_of_mem _ (ih (n + 1) (by omega) h2)
    · rw [if_neg hn] at h2
      exact List.mem_cons_of_mem _ (ih n h1 h2)

/-- The indices from `a` up to `t` that are not in the list. -/
def freeIn (a t : ℕ) (l : List ℕ) : Finset ℕ := (Finset.Ico a t).filter (· ∉ l)

theorem freeIn_insort (a t p : ℕ) (l : List ℕ) : freeIn a t (insort p l) = (freeIn a t l).erase p := by
  ext y
  simp only [freeIn, Finset.mem_filter, Finset.mem_Ico, mem_insort, Finset.mem_erase]
  tauto

/-- One draw of `randint` in the loop. -/
theorem draw_step (N ne i : ℕ) (hi : ne + i + 1 < N) (r : Rng K) :
    (if (N : ℤ) - 1 - i - ne > 0 then randint ((N : ℤ) - 1 - i - ne) r else Except.ok (0, r)) =
      .ok (r.ints 0 % (N - 1 - i - ne), { r with ints := fun n => r.ints (n + 1) }) := by
  have hpos : (N : ℤ) - 1 - i - ne > 0 := by omega
  rw [if_pos hpos, randint, if_neg (not_le.2 hpos)]
  have : ((N : ℤ) - 1 - i - ne).toNat = N - 1 - i - ne := by omega
  rw [this]

theorem pickLoop_only (N ne k i : ℕ) (inds others : List ℕ) (r : Rng K) (v : List ℕ) (r' : Rng K) (hk : ne + i + k < N)
    (h : pickLoop N ne k i inds others r = .ok (v, r')) (t : ℕ) (ht : t ∈ v) :
    t ∈ others ∨ ∃ j < k, (freeIn (N - 2 - ne - (i + j)) t inds).card ≤ j := by
  induction k generalizing i inds others r with
  | zero => simp only [pickLoop, Except.ok.injEq, Prod.mk.injEq] at h; exact Or.inl (h.1 ▸ ht)
  | succ k ih =>
    rw [pickLoop, draw_step N ne i (by omega)] at h
    simp only at h
    set p := skip (r.ints 0 % (N - 1 - i - ne)) inds with hp
    have hx : r.ints 0 % (N - 1 - i - ne) ≤ N - 2 - ne - i := by
      have := Nat.mod_lt (r.ints 0) (show 0 < N - 1 - i - ne by omega)
      omega
    rcases ih (i + 1) _ _ _ (by omega) h with h1 | ⟨j, hj, h1⟩
    · rw [List.mem_append, List.mem_singleton] at h1
      rcases h1 with h1 | rfl
      · exact Or.inl h1
      · refine Or.inr ⟨0, by omega, ?_⟩
        have : freeIn (N - 2 - ne - (i + 0)) p inds = ∅ := by
          rw [Finset.eq_empty_iff_forall_notMem]
          intro y hy
          simp only [freeIn, Finset.mem_filter, Finset.mem_Ico] at hy
          exact hy.2 (skip_between inds _ y (by omega) hy.1.2)
        rw [this]; simp
    · refine Or.inr ⟨j + 1, by omega, ?_⟩
      rw [freeIn_insort] at h1
      have := Finset.pred_card_le_card_erase (s := freeIn (N - 2 - ne - (i + 1 + j)) t inds) (a := p)
      rw [show i + (j + 1) = i + 1 + j by omega]
      omega

theorem pickLoop_reach (N ne j : ℕ) : ∀ (k i : ℕ) (inds others : List ℕ) (r : Rng K) (t : ℕ), inds.Pairwise (· < ·) →
    inds.length = ne + i → ne + i + k < N → j < k → t ∉ inds → (freeIn (N - 2 - ne - (i + j)) t inds).card ≤ j →
    ∃ ints v r', pickLoop N ne k i inds others { r with ints := ints } = .ok (v, r') ∧ t ∈ v := by
  induction j with
  | zero =>
    intro k i inds others r t hs hlen hk hj ht hc
    obtain ⟨k, rfl⟩ : ∃ m, k = m + 1 := ⟨k - 1, by omega⟩
    -- the draw that leads to `t`
    obtain ⟨x, hx, hskip⟩ : ∃ x, x ≤ N - 2 - ne - i ∧ skip x inds = t := by
      by_cases hle : t ≤ N - 2 - ne - i
      · exact ⟨t, hle, skip_of_not_mem inds t ht⟩
      · refine ⟨N - 2 - ne - i, le_rfl, ?_⟩
        rcases lt_trichotomy (skip (N - 2 - ne - i) inds) t with hlt | he | hgt
        · exfalso
          have hmem : skip (N - 2 - ne - i) inds ∈ freeIn (N - 2 - ne - (i + 0)) t inds := by
            simp only [freeIn, Finset.mem_filter, Finset.mem_Ico]
            exact ⟨⟨le_skip _ _, hlt⟩, skip_not_mem inds _ hs⟩
          have := Finset.card_pos.2 ⟨_, hmem⟩
          omega
        · exact he
        · exact absurd (skip_between inds _ t (by omega) hgt) ht
    obtain ⟨new, r', h1, -⟩ := pickLoop_spec N ne { r with ints := fun _ => x } k (i + 1) (insort t inds) (others ++ [t])
      (insort_sorted _ _ hs ht) (by rw [insort_length]; omega) (by omega)
    refine ⟨fun _ => x, (others ++ [t]) ++ new, r', ?_, by simp⟩
    rw [pickLoop, draw_step N ne i (by omega)]
    simp only
    rw [Nat.mod_eq_of_lt (show x < N - 1 - i - ne by omega), hskip, h1]
  | succ j ih =>
    intro k i inds others r t hs hlen hk hj ht hc
    obtain ⟨k, rfl⟩ : ∃ m, k = m + 1 := ⟨k - 1, by omega⟩
    by_cases hdone : ∃ x, x ≤ N - 2 - ne - i ∧ skip x inds = t
    · obtain ⟨x, hx, hskip⟩ := hdone
      obtain ⟨new, r', h1, -⟩ := pickLoop_spec N ne { r with ints := fun _ => x } k (i + 1) (insort t inds) (others ++ [t])
        (insort_sorted _ _ hs ht) (by rw [insort_length]; omega) (by omega)
      refine ⟨fun _ => x, (others ++ [t]) ++ new, r', ?_, by simp⟩
      rw [pickLoop, draw_step N ne i (by omega)]
      simp only
      rw [Nat.mod_eq_of_lt (show x < N - 1 - i - ne by omega), hskip, h1]
    · push Not at hdone
      have hlt : N - 2 - ne - i < t := by
        by_contra hle
        exact hdone t (by omega) (skip_of_not_mem inds t ht)
      set p := skip (N - 2 - ne - i) inds with hp
      have hpt : p < t := by
        rcases lt_trichotomy p t with h | h | h
        · exact h
        · exact absurd h (hdone _ le_rfl)
        · exact absurd (skip_between inds _ t (by omega) h) ht
      have hmem : p ∈ freeIn (N - 2 - ne - (i + (j + 1))) t inds := by
        simp only [freeIn, Finset.mem_filter, Finset.mem_Ico]
        have := le_skip inds (N - 2 - ne - i)
        exact ⟨⟨by omega, hpt⟩, skip_not_mem inds _ hs⟩
      obtain ⟨ints, v, r', h1, h2⟩ := ih k (i + 1) (insort p inds) (others ++ [p]) r t
        (insort_sorted _ _ hs (skip_not_mem inds _ hs)) (by rw [insort_length]; omega) (by omega) (by omega)
        (by rw [mem_insort]; rintro (h | h); exacts [by omega, ht h])
        (by rw [freeIn_insort, show i + 1 + j = i + (j + 1) by omega, Finset.card_erase_of_mem hmem]; omega)
      refine ⟨fun n => Nat.casesOn n (N - 2 - ne - i) ints, v, r', ?_, h2⟩
      rw [pickLoop, draw_step N ne i (by omega)]
      change pickLoop N ne k (i + 1) (insort (skip ((N - 2 - ne - i) % (N - 1 - i - ne)) inds) inds)
        (others ++ [skip ((N - 2 - ne - i) % (N - 1 - i - ne)) inds]) { r with ints := ints } = _
      rw [Nat.mod_eq_of_lt (show N - 2 - ne - i < N - 1 - i - ne by omega)]
      exact h1

end FreeGS.Optimiser
