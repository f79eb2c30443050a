import Verif.Spec.Critical
import Mathlib.Data.Fintype.Prod
import Mathlib.Order.WellFounded
import Mathlib.Data.Finset.Card
import Mathlib.Data.Prod.Lex

/-!
# Helper lemmas: argmin and the flood fill of `core_mask`
-/

set_option linter.unusedSectionVars false

namespace FreeGS.Critical

variable {K : Type*} [Field K] [LinearOrder K]

/-! ## argmin -/

theorem argminLoop_spec (f : ℕ → K) : ∀ k i best, best < i →
    (∀ m < i, f best ≤ f m) → (∀ m < best, f best < f m) →
    argminLoop f k i best < i + k ∧ (∀ m < i + k, f (argminLoop f k i best) ≤ f m) ∧
      ∀ m < argminLoop f k i best, f (argminLoop f k i best) < f m := by
  intro k
  induction k with
  | zero => intro i best h1 h2 h3; exact ⟨h1, h2, h3⟩
  | succ k ih =>
    intro i best h1 h2 h3
    rw [argminLoop]
    have e : i + (k + 1) = i + 1 + k := by omega
    rw [e]
    split
    · rename_i hlt
      refine ih (i + 1) i (by omega) (fun m hm => ?_) (fun m hm => ?_)
      · rcases Nat.lt_succ_iff_lt_or_eq.mp hm with h | rfl
        · exact le_trans hlt.le (h2 m h)
        · exact le_refl _
      · exact lt_of_lt_of_le hlt (h2 m hm)
    · rename_i hlt
      refine ih (i + 1) best (by omega) (fun m hm => ?_) h3
      rcases Nat.lt_succ_iff_lt_or_eq.mp hm with h | rfl
      · exact h2 m h
      · exact not_lt.mp hlt

theorem argmin_spec (f : ℕ → K) {n : ℕ} (hn : 0 < n) :
    argmin f n < n ∧ (∀ m < n, f (argmin f n) ≤ f m) ∧ ∀ m < argmin f n, f (argmin f n) < f m := by
  have := argminLoop_spec f (n - 1) 1 0 (by omega) (fun m hm => by simp [Nat.lt_one_iff.mp hm]) (by simp)
  have e : 1 + (n - 1) = n := by omega
  rw [e] at this
  exact this

theorem nearest_spec (x : ℕ → K) {n : ℕ} (hn : 0 < n) (v : K) : Nearest x n v (nearest x n v) :=
  argmin_spec (fun i => |x i - v|) hn

theorem Nearest.unique {x : ℕ → K} {n : ℕ} {v : K} {i j : ℕ} (hi : Nearest x n v i) (hj : Nearest x n v j) :
    i = j := by
  obtain ⟨hi1, hi2, hi3⟩ := hi
  obtain ⟨hj1, hj2, hj3⟩ := hj
  rcases lt_trichotomy i j with h | h | h
  · exact absurd (hj3 i h) (not_lt.mpr (hi2 j hj1))
  · exact h
  · exact absurd (hi3 j h) (not_lt.mpr (hj2 i hi1))

/-! ## X-point neighbourhoods -/

theorem mem_clip3 (ix n i : ℕ) (h : ix < n) : i ∈ clip3 ix n ↔ i < n ∧ i ≤ ix + 1 ∧ ix ≤ i + 1 := by
  simp only [clip3, List.mem_cons, List.not_mem_nil, or_false]
  omega

theorem mem_block (nx ny : ℕ) (p c : ℕ × ℕ) (h1 : p.1 < nx) (h2 : p.2 < ny) : c ∈ block nx ny p ↔
    (c.1 < nx ∧ c.2 < ny) ∧ (c.1 ≤ p.1 + 1 ∧ p.1 ≤ c.1 + 1) ∧ (c.2 ≤ p.2 + 1 ∧ p.2 ≤ c.2 + 1) := by
  obtain ⟨i, j⟩ := c
  simp only [block, List.mem_flatMap, List.mem_map, Prod.mk.injEq]
  constructor
  · rintro ⟨a, ha, b, hb, rfl, rfl⟩
    rw [mem_clip3 _ _ _ h1] at ha
    rw [mem_clip3 _ _ _ h2] at hb
    tauto
  · rintro ⟨⟨a1, a2⟩, a3, a4⟩
    exact ⟨i, (mem_clip3 _ _ _ h1).mpr ⟨a1, a3⟩, j, (mem_clip3 _ _ _ h2).mpr ⟨a2, a4⟩, rfl, rfl⟩

/-- The cells of all neighbourhoods of the listed indices. -/
def inBlocks (nx ny : ℕ) (inds : List (ℕ × ℕ)) (c : ℕ × ℕ) : Prop := ∃ p ∈ inds, c ∈ block nx ny p

theorem foldl_set (v : ℕ × ℕ → ℕ) : ∀ (l : List (ℕ × ℕ)) (m : Mask) (c : ℕ × ℕ),
    (c ∈ l → l.foldl (fun m c => m.set c (v c)) m c = v c) ∧
    (c ∉ l → l.foldl (fun m c => m.set c (v c)) m c = m c) := by
  intro l
  induction l with
  | nil => intro m c; simp
  | cons a l ih =>
    intro m c
    have := ih (m.set a (v a)) c
    refine ⟨fun hc => ?_, fun hc => ?_⟩
    · by_cases h : c ∈ l
      · exact this.1 h
      · have hca : c = a := by
          rcases List.mem_cons.mp hc with h' | h'
          · exact h'
          · exact absurd h' h
        subst hca
        rw [List.foldl_cons, this.2 h]
        simp [Mask.set]
    · simp only [List.mem_cons, not_or] at hc
      rw [List.foldl_cons, this.2 hc.2]
      simp [Mask.set, Function.update_of_ne hc.1]

theorem foldl_blocks (v : ℕ × ℕ → ℕ) (nx ny : ℕ) : ∀ (inds : List (ℕ × ℕ)) (m : Mask) (c : ℕ × ℕ),
    (inBlocks nx ny inds c →
      inds.foldl (fun m p => (block nx ny p).foldl (fun m c => m.set c (v c)) m) m c = v c) ∧
    (¬ inBlocks nx ny inds c →
      inds.foldl (fun m p => (block nx ny p).foldl (fun m c => m.set c (v c)) m) m c = m c) := by
  intro inds
  induction inds with
  | nil => intro m c; simp [inBlocks]
  | cons p inds ih =>
    intro m c
    have := ih ((block nx ny p).foldl (fun m c => m.set c (v c)) m) c
    have h2 := foldl_set v (block nx ny p) m c
    refine ⟨fun hc => ?_, fun hc => ?_⟩
    · by_cases h : inBlocks nx ny inds c
      · exact this.1 h
      · rw [List.foldl_cons, this.2 h]
        obtain ⟨q, hq, hcq⟩ := hc
        rcases List.mem_cons.mp hq with rfl | hq
        · exact h2.1 hcq
        · exact absurd ⟨q, hq, hcq⟩ h
    · rw [List.foldl_cons, this.2 fun ⟨q, hq, hcq⟩ => hc ⟨q, List.mem_cons_of_mem _ hq, hcq⟩]
      exact h2.2 fun h => hc ⟨p, List.mem_cons_self, h⟩

/-! ## The flood fill -/

section Fill

variable (inside : ℕ × ℕ → Bool) (nx ny : ℕ) (X : ℕ × ℕ → Prop) (start : ℕ × ℕ)

/-- Cells that the fill may enter. -/
def Free (c : ℕ × ℕ) : Prop := (c.1 < nx ∧ c.2 < ny) ∧ inside c = true ∧ ¬ X c

/-- Reachable cells. -/
def Reach : ℕ × ℕ → Prop := Relation.ReflTransGen (fun a b => Adjacent a b ∧ Free inside nx ny X b) start

/-- The part of the invariant that does not depend on what is pending. -/
structure Inv (s : Fill) : Prop where
  marked : ∀ c, s.mask c = 1 → Reach inside nx ny X start c
  stacked : ∀ c ∈ s.stack, Reach inside nx ny X start c
  blocked : ∀ c, X c → s.mask c ≠ 0
  free : ∀ c, ¬ X c → s.mask c = 0 ∨ s.mask c = 1

/-- Everything adjacent to a marked cell is marked, on the stack, or pending; the same for the start. -/
def Closed (P : ℕ × ℕ → Prop) (s : Fill) : Prop :=
  (∀ c d, s.mask c = 1 → Adjacent c d → Free inside nx ny X d → s.mask d = 1 ∨ d ∈ s.stack ∨ P d) ∧
  (s.mask start = 1 ∨ start ∈ s.stack ∨ P start)

variable {inside nx ny X start}

theorem Reach.inGrid (h0 : start.1 < nx ∧ start.2 < ny) {c : ℕ × ℕ} (h : Reach inside nx ny X start c) :
    c.1 < nx ∧ c.2 < ny := by
  induction h with
  | refl => exact h0
  | tail _ h _ => exact h.2.1

theorem push_inv {s : Fill} (hs : Inv inside nx ny X start s) {b : Bool} {c a : ℕ × ℕ}
    (ha : Reach inside nx ny X start a) (hac : b = true → Adjacent a c ∧ c.1 < nx ∧ c.2 < ny) :
    Inv inside nx ny X start (s.push inside b c) := by
  rw [Fill.push]
  split
  · rename_i h
    simp only [Bool.and_eq_true, beq_iff_eq] at h
    refine ⟨hs.marked, fun d hd => ?_, hs.blocked, hs.free⟩
    rcases List.mem_cons.mp hd with rfl | hd
    · obtain ⟨h1, h2⟩ := hac h.1.1
      exact Relation.ReflTransGen.tail ha ⟨h1, h2, h.1.2, fun hX => hs.blocked _ hX h.2⟩
    · exact hs.stacked d hd
  · exact hs

@[simp] theorem push_mask (s : Fill) (b : Bool) (c : ℕ × ℕ) : (s.push inside b c).mask = s.mask := by
  rw [Fill.push]; split <;> rfl

theorem push_stack_mono {s : Fill} {b : Bool} {c d : ℕ × ℕ} (h : d ∈ s.stack) :
    d ∈ (s.push inside b c).stack := by
  rw [Fill.push]; split
  · exact List.mem_cons_of_mem _ h
  · exact h

theorem push_closed {s : Fill} {P : ℕ × ℕ → Prop} (hs : Closed inside nx ny X start P s) (b : Bool) (c : ℕ × ℕ) :
    Closed inside nx ny X start P (s.push inside b c) := by
  refine ⟨fun a d h1 h2 h3 => ?_, ?_⟩
  · rw [push_mask] at h1 ⊢
    rcases hs.1 a d h1 h2 h3 with h | h | h
    · exact Or.inl h
    · exact Or.inr (Or.inl (push_stack_mono h))
    · exact Or.inr (Or.inr h)
  · rw [push_mask]
    rcases hs.2 with h | h | h
    · exact Or.inl h
    · exact Or.inr (Or.inl (push_stack_mono h))
    · exact Or.inr (Or.inr h)

theorem push_done {s : Fill} (hs : Inv inside nx ny X start s) {b : Bool} {c : ℕ × ℕ} (hb : b = true)
    (hc : Free inside nx ny X c) : s.mask c = 1 ∨ c ∈ (s.push inside b c).stack := by
  rcases hs.free c hc.2.2 with h | h
  · right
    rw [Fill.push, if_pos (by simp [hb, hc.2.1, h])]
    exact List.mem_cons_self
  · exact Or.inl h

theorem mark_inv {s : Fill} (hs : Inv inside nx ny X start s) {a : ℕ × ℕ} (ha : Reach inside nx ny X start a) :
    Inv inside nx ny X start { s with mask := s.mask.set a 1 } := by
  refine ⟨fun c hc => ?_, hs.stacked, fun c hc => ?_, fun c hc => ?_⟩
  · by_cases h : c = a
    · rw [h]; exact ha
    · exact hs.marked c (by simpa [Mask.set, Function.update_of_ne h] using hc)
  · by_cases h : c = a
    · subst h; simp [Mask.set]
    · simpa [Mask.set, Function.update_of_ne h] using hs.blocked c hc
  · by_cases h : c = a
    · subst h; simp [Mask.set]
    · simpa [Mask.set, Function.update_of_ne h] using hs.free c hc

/-- Body of the scan: mark the cell, push the cells above and below. -/
def visit (inside : ℕ × ℕ → Bool) (nx i j : ℕ) (s : Fill) : Fill :=
  (({ s with mask := s.mask.set (i, j) 1 } : Fill).push inside (decide (i < nx - 1)) (i + 1, j)).push inside
    (decide (i > 0)) (i - 1, j)

theorem scan_zero (i j : ℕ) (s : Fill) : scan inside nx i 0 j s = visit inside nx i j s := by
  rw [scan]; rfl

theorem scan_succ (k i j : ℕ) (s : Fill) : scan inside nx i (k + 1) j s =
    if !inside (i, j + 1) || (visit inside nx i j s).mask (i, j + 1) != 0 then visit inside nx i j s
    else scan inside nx i k (j + 1) (visit inside nx i j s) := by
  rw [scan]; rfl

@[simp] theorem visit_mask (i j : ℕ) (s : Fill) : (visit inside nx i j s).mask = s.mask.set (i, j) 1 := by
  simp [visit]

theorem visit_stack_mono {i j : ℕ} {s : Fill} {c : ℕ × ℕ} (h : c ∈ s.stack) :
    c ∈ (visit inside nx i j s).stack := push_stack_mono (push_stack_mono h)

theorem mask_set_mono {m : Mask} {a c : ℕ × ℕ} (h : m c = 1) : m.set a 1 c = 1 := by
  by_cases hc : c = a
  · subst hc; simp [Mask.set]
  · simpa [Mask.set, Function.update_of_ne hc] using h

theorem visit_spec {i j : ℕ} {s : Fill} (hi : i < nx) (hj : j < ny) (hs : Inv inside nx ny X start s)
    (hr : Reach inside nx ny X start (i, j)) (hc : Closed inside nx ny X start (· = (i, j)) s)
    (hl : 0 < j → Free inside nx ny X (i, j - 1) → s.mask (i, j - 1) = 1 ∨ (i, j - 1) ∈ s.stack) :
    Inv inside nx ny X start (visit inside nx i j s) ∧
    (∀ c d, (visit inside nx i j s).mask c = 1 → Adjacent c d → Free inside nx ny X d → d ≠ (i, j + 1) →
      (visit inside nx i j s).mask d = 1 ∨ d ∈ (visit inside nx i j s).stack) ∧
    ((visit inside nx i j s).mask start = 1 ∨ start ∈ (visit inside nx i j s).stack) := by
  have h1 := mark_inv hs hr
  have hup : decide (i < nx - 1) = true → Adjacent (i, j) (i + 1, j) ∧ (i + 1, j).1 < nx ∧ (i + 1, j).2 < ny := by
    intro h
    simp only [decide_eq_true_eq] at h
    refine ⟨?_, ?_, hj⟩
    · simp [Adjacent]
    · show i + 1 < nx; omega
  have hdn : decide (i > 0) = true → Adjacent (i, j) (i - 1, j) ∧ (i - 1, j).1 < nx ∧ (i - 1, j).2 < ny := by
    intro h
    simp only [decide_eq_true_eq] at h
    refine ⟨?_, ?_, hj⟩
    · exact Or.inr ⟨rfl, Or.inr (by show i - 1 + 1 = i; omega)⟩
    · show i - 1 < nx; omega
  have h2 := push_inv h1 hr hup
  have h3 := push_inv h2 hr hdn
  refine ⟨h3, fun c d hcm hcd hd hne => ?_, ?_⟩
  · by_cases hcij : c = (i, j)
    · subst hcij
      obtain ⟨d1, d2⟩ := d
      simp only [Adjacent] at hcd
      rcases hcd with ⟨e1, e2 | e2⟩ | ⟨e1, e2 | e2⟩
      · exact absurd (by rw [← e1, ← e2]) hne
      · -- left
        have e : (d1, d2) = (i, j - 1) := by rw [Prod.mk.injEq]; omega
        rw [e] at hd ⊢
        rcases hl (by omega) hd with h | h
        · exact Or.inl (by rw [visit_mask]; exact mask_set_mono h)
        · exact Or.inr (visit_stack_mono h)
      · -- up
        have e : (d1, d2) = (i + 1, j) := by rw [Prod.mk.injEq]; omega
        rw [e] at hd ⊢
        have hlt : i + 1 < nx := hd.1.1
        rcases push_done (b := decide (i < nx - 1)) h1 (by simp; omega) hd with h | h
        · exact Or.inl (by rw [visit_mask]; exact h)
        · exact Or.inr (push_stack_mono h)
      · -- down
        have e : (d1, d2) = (i - 1, j) := by rw [Prod.mk.injEq]; omega
        rw [e] at hd ⊢
        rcases push_done (b := decide (i > 0)) h2 (by simp; omega) hd with h | h
        · exact Or.inl (by rw [visit_mask]; simpa using h)
        · exact Or.inr h
    · have hcm' : s.mask c = 1 := by
        rw [visit_mask] at hcm
        simpa [Mask.set, Function.update_of_ne hcij] using hcm
      rcases hc.1 c d hcm' hcd hd with h | h | h
      · exact Or.inl (by rw [visit_mask]; exact mask_set_mono h)
      · exact Or.inr (visit_stack_mono h)
      · exact Or.inl (by rw [visit_mask, h]; simp [Mask.set])
  · rcases hc.2 with h | h | h
    · exact Or.inl (by rw [visit_mask]; exact mask_set_mono h)
    · exact Or.inr (visit_stack_mono h)
    · exact Or.inl (by rw [visit_mask, h]; simp [Mask.set])

theorem scan_spec : ∀ (k i j : ℕ) (s : Fill), i < nx → j + k + 1 = ny → Inv inside nx ny X start s →
    Reach inside nx ny X start (i, j) → Closed inside nx ny X start (· = (i, j)) s →
    (0 < j → Free inside nx ny X (i, j - 1) → s.mask (i, j - 1) = 1 ∨ (i, j - 1) ∈ s.stack) →
    Inv inside nx ny X start (scan inside nx i k j s) ∧
      Closed inside nx ny X start (fun _ => False) (scan inside nx i k j s) := by
  intro k
  induction k with
  | zero =>
    intro i j s hi hj hs hr hc hl
    obtain ⟨h1, h2, h3⟩ := visit_spec hi (by omega) hs hr hc hl
    rw [scan_zero]
    refine ⟨h1, fun c d hcm hcd hd => ?_, ?_⟩
    · rcases h2 c d hcm hcd hd (by rintro rfl; have := hd.1.2; simp at this; omega) with h | h
      · exact Or.inl h
      · exact Or.inr (Or.inl h)
    · rcases h3 with h | h
      · exact Or.inl h
      · exact Or.inr (Or.inl h)
  | succ k ih =>
    intro i j s hi hj hs hr hc hl
    obtain ⟨h1, h2, h3⟩ := visit_spec hi (by omega) hs hr hc hl
    rw [scan_succ]
    split
    · rename_i hstop
      refine ⟨h1, fun c d hcm hcd hd => ?_, ?_⟩
      · by_cases hne : d = (i, j + 1)
        · left
          subst hne
          rcases h1.free _ hd.2.2 with h | h
          · simp [hd.2.1] at hstop
            rw [visit_mask] at h
            exact absurd h hstop
          · exact h
        · rcases h2 c d hcm hcd hd hne with h | h
          · exact Or.inl h
          · exact Or.inr (Or.inl h)
      · rcases h3 with h | h
        · exact Or.inl h
        · exact Or.inr (Or.inl h)
    · rename_i hgo
      simp only [Bool.or_eq_true, Bool.not_eq_true', bne_iff_ne, ne_eq, not_or, Bool.not_eq_false,
        Decidable.not_not] at hgo
      have hfree : Free inside nx ny X (i, j + 1) :=
        ⟨⟨hi, by show j + 1 < ny; omega⟩, hgo.1, fun hX => h1.blocked _ hX hgo.2⟩
      refine ih i (j + 1) _ hi (by omega) h1 (Relation.ReflTransGen.tail hr ⟨by simp [Adjacent], hfree⟩) ?_ ?_
      · refine ⟨fun c d hcm hcd hd => ?_, ?_⟩
        · by_cases hne : d = (i, j + 1)
          · exact Or.inr (Or.inr hne)
          · rcases h2 c d hcm hcd hd hne with h | h
            · exact Or.inl h
            · exact Or.inr (Or.inl h)
        · rcases h3 with h | h
          · exact Or.inl h
          · exact Or.inr (Or.inl h)
      · intro _ _
        left
        simp [Mask.set]

/-! ### Termination -/

/-- Number of unmarked grid cells. -/
def zeros (nx ny : ℕ) (m : Mask) : ℕ :=
  ((Finset.range nx ×ˢ Finset.range ny).filter fun c => m c = 0).card

/-- Number of stack entries that are marked already. -/
def stale (s : Fill) : ℕ := s.stack.countP fun c => s.mask c ≠ 0

theorem zeros_set_le (m : Mask) (c : ℕ × ℕ) : zeros nx ny (m.set c 1) ≤ zeros nx ny m := by
  refine Finset.card_le_card fun d hd => ?_
  simp only [Finset.mem_filter] at hd ⊢
  refine ⟨hd.1, ?_⟩
  by_cases h : d = c
  · subst h; simp [Mask.set] at hd
  · simpa [Mask.set, Function.update_of_ne h] using hd.2

theorem zeros_set_lt (m : Mask) {c : ℕ × ℕ} (h1 : c.1 < nx ∧ c.2 < ny) (h2 : m c = 0) :
    zeros nx ny (m.set c 1) < zeros nx ny m := by
  refine Finset.card_lt_card ⟨fun d hd => ?_, fun hsub => ?_⟩
  · simp only [Finset.mem_filter] at hd ⊢
    refine ⟨hd.1, ?_⟩
    by_cases h : d = c
    · subst h; simp [Mask.set] at hd
    · simpa [Mask.set, Function.update_of_ne h] using hd.2
  · have := @hsub c (by simp [h1, h2])
    rw [Finset.mem_filter] at this
    simp [Mask.set] at this

theorem set_ne_zero_iff (m : Mask) {c : ℕ × ℕ} (h : m c ≠ 0) (d : ℕ × ℕ) : m.set c 1 d = 0 ↔ m d = 0 := by
  by_cases hd : d = c
  · subst hd; simp [Mask.set, h]
  · simp [Mask.set, Function.update_of_ne hd]

theorem stale_push (s : Fill) (b : Bool) (c : ℕ × ℕ) : stale (s.push inside b c) = stale s := by
  rw [Fill.push]
  split
  · rename_i h
    simp only [Bool.and_eq_true, beq_iff_eq] at h
    simp [stale, h.2]
  · rfl

theorem stale_visit (i j : ℕ) (s : Fill) (h : s.mask (i, j) ≠ 0) :
    stale (visit inside nx i j s) = stale s := by
  rw [visit, stale_push, stale_push]
  simp only [stale]
  congr 1
  funext d
  simp [set_ne_zero_iff s.mask h d]

theorem scan_zeros_le : ∀ (k i j : ℕ) (s : Fill),
    zeros nx ny (scan inside nx i k j s).mask ≤ zeros nx ny (s.mask.set (i, j) 1) := by
  intro k
  induction k with
  | zero => intro i j s; rw [scan_zero, visit_mask]
  | succ k ih =>
    intro i j s
    rw [scan_succ]
    split
    · rw [visit_mask]
    · refine (ih i (j + 1) _).trans ?_
      rw [visit_mask]
      exact zeros_set_le _ _

theorem scan_measure (k i j : ℕ) (s : Fill) (hi : i < nx) (hj : j + k + 1 = ny) :
    zeros nx ny (scan inside nx i k j s).mask < zeros nx ny s.mask ∨
    (zeros nx ny (scan inside nx i k j s).mask = zeros nx ny s.mask ∧ s.mask (i, j) ≠ 0 ∧
      stale (scan inside nx i k j s) = stale s) := by
  by_cases h0 : s.mask (i, j) = 0
  · left
    exact lt_of_le_of_lt (scan_zeros_le k i j s) (zeros_set_lt _ ⟨hi, by show j < ny; omega⟩ h0)
  · have he : zeros nx ny (s.mask.set (i, j) 1) = zeros nx ny s.mask := by
      unfold zeros
      congr 1
      ext d
      simp [set_ne_zero_iff s.mask h0 d]
    cases k with
    | zero =>
      right
      rw [scan_zero]
      exact ⟨by rw [visit_mask, he], h0, stale_visit i j s h0⟩
    | succ k =>
      rw [scan_succ]
      split
      · right
        exact ⟨by rw [visit_mask, he], h0, stale_visit i j s h0⟩
      · rename_i hgo
        left
        simp only [Bool.or_eq_true, Bool.not_eq_true', bne_iff_ne, ne_eq, not_or, Bool.not_eq_false,
          Decidable.not_not] at hgo
        refine lt_of_le_of_lt (scan_zeros_le k i (j + 1) _) ?_
        refine lt_of_lt_of_le (zeros_set_lt _ ⟨hi, by show j + 1 < ny; omega⟩ hgo.2) ?_
        rw [visit_mask, he]

/-- The loop ends, and in the final mask exactly the reachable cells are marked with 1. -/
theorem fill_spec (h0 : start.1 < nx ∧ start.2 < ny) : ∀ (p : ℕ ×ₗ ℕ) (s : Fill),
    toLex (zeros nx ny s.mask, stale s) = p →
    Inv inside nx ny X start s → Closed inside nx ny X start (fun _ => False) s →
    ∃ (N : ℕ) (m : Mask), (∀ fuel, N ≤ fuel → fill inside nx ny fuel s = some m) ∧
      Inv inside nx ny X start ⟨m, []⟩ ∧ Closed inside nx ny X start (fun _ => False) ⟨m, []⟩ := by
  intro p
  induction p using WellFoundedLT.induction with
  | ind p ih =>
    intro s hp hs hc
    obtain ⟨mask, stack⟩ := s
    cases stack with
    | nil => exact ⟨0, mask, fun fuel _ => by cases fuel <;> rfl, hs, hc⟩
    | cons a rest =>
      obtain ⟨i, j⟩ := a
      have hr : Reach inside nx ny X start (i, j) := hs.stacked _ List.mem_cons_self
      have hg := hr.inGrid h0
      simp only at hg
      set s1 : Fill := ⟨mask, rest⟩ with hs1
      set s2 := s1.push inside (decide (j > 0)) (i, j - 1) with hs2
      have i1 : Inv inside nx ny X start s1 :=
        ⟨hs.marked, fun c h => hs.stacked c (List.mem_cons_of_mem _ h), hs.blocked, hs.free⟩
      have c1 : Closed inside nx ny X start (· = (i, j)) s1 := by
        refine ⟨fun c d h1 h2 h3 => ?_, ?_⟩
        · rcases hc.1 c d h1 h2 h3 with h | h | h
          · exact Or.inl h
          · rcases List.mem_cons.mp h with h | h
            · exact Or.inr (Or.inr h)
            · exact Or.inr (Or.inl h)
          · exact absurd h id
        · rcases hc.2 with h | h | h
          · exact Or.inl h
          · rcases List.mem_cons.mp h with h | h
            · exact Or.inr (Or.inr h)
            · exact Or.inr (Or.inl h)
          · exact absurd h id
      have hleft : decide (j > 0) = true → Adjacent (i, j) (i, j - 1) ∧ (i, j - 1).1 < nx ∧ (i, j - 1).2 < ny := by
        intro h
        simp only [decide_eq_true_eq] at h
        refine ⟨?_, hg.1, ?_⟩
        · exact Or.inl ⟨rfl, Or.inr (by show j - 1 + 1 = j; omega)⟩
        · show j - 1 < ny; omega
      have i2 : Inv inside nx ny X start s2 := push_inv i1 hr hleft
      have c2 : Closed inside nx ny X start (· = (i, j)) s2 := push_closed c1 _ _
      have hl : 0 < j → Free inside nx ny X (i, j - 1) → s2.mask (i, j - 1) = 1 ∨ (i, j - 1) ∈ s2.stack := by
        intro h1 h2
        rw [hs2, push_mask]
        exact push_done i1 (by simpa using h1) h2
      obtain ⟨i3, c3⟩ := scan_spec (ny - 1 - j) i j s2 hg.1 (by omega) i2 hr c2 hl
      have hm : toLex (zeros nx ny (scan inside nx i (ny - 1 - j) j s2).mask,
          stale (scan inside nx i (ny - 1 - j) j s2)) < p := by
        rw [← hp, Prod.Lex.toLex_lt_toLex]
        have e1 : zeros nx ny s2.mask = zeros nx ny mask := by rw [hs2, push_mask]
        rcases scan_measure (inside := inside) (ny := ny) (ny - 1 - j) i j s2 hg.1 (by omega) with h | ⟨h1, h2, h3⟩
        · left; rwa [e1] at h
        · right
          refine ⟨by rw [h1, e1], ?_⟩
          rw [h3, hs2, stale_push]
          rw [hs2, push_mask] at h2
          simp only [stale, hs1]
          rw [List.countP_cons_of_pos (by simpa using h2)]
          exact Nat.lt_succ_self _
      obtain ⟨N, m, h1, h2, h3⟩ := ih _ hm _ rfl i3 c3
      refine ⟨N + 1, m, fun fuel hf => ?_, h2, h3⟩
      obtain ⟨fuel, rfl⟩ : ∃ f, fuel = f + 1 := ⟨fuel - 1, by omega⟩
      rw [fill]
      exact h1 fuel (by omega)

theorem final_mask {m : Mask} (h1 : Inv inside nx ny X start ⟨m, []⟩)
    (h2 : Closed inside nx ny X start (fun _ => False) ⟨m, []⟩) (c : ℕ × ℕ) :
    m c = 1 ↔ Reach inside nx ny X start c := by
  refine ⟨h1.marked c, fun h => ?_⟩
  induction h with
  | refl => simpa using h2.2
  | tail _ h ih => simpa using h2.1 _ _ ih h.1 h.2

end Fill

end FreeGS.Critical
