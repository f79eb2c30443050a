import Verif.Model.Global
import Verif.Lemmas.Romberg

/-! # Helper lemmas for the shape parameters and figures of merit -/

set_option linter.unusedSectionVars false

namespace FreeGS.Global

open FreeGS.GS FreeGS.Equil
open FreeGS.Jtor (bind_ok)

variable {K : Type*} [Field K] [LinearOrder K]

theorem argmaxLoop_mem (f : K × K → K) : ∀ (l : List (K × K)) (b : K × K), argmaxLoop f l b = b ∨ argmaxLoop f l b ∈ l := by
  intro l
  induction l with
  | nil => intro b; exact Or.inl rfl
  | cons q l ih =>
    intro b
    rw [argmaxLoop]
    rcases ih (if f b < f q then q else b) with h | h
    · rw [h]
      split_ifs
      · exact Or.inr (List.mem_cons_self ..)
      · exact Or.inl rfl
    · exact Or.inr (List.mem_cons_of_mem _ h)

theorem argmaxLoop_le (f : K × K → K) : ∀ (l : List (K × K)) (b : K × K),
    f b ≤ f (argmaxLoop f l b) ∧ ∀ q ∈ l, f q ≤ f (argmaxLoop f l b) := by
  intro l
  induction l with
  | nil => intro b; exact ⟨le_refl _, fun q hq => by cases hq⟩
  | cons q l ih =>
    intro b
    rw [argmaxLoop]
    obtain ⟨h1, h2⟩ := ih (if f b < f q then q else b)
    refine ⟨le_trans ?_ h1, fun r hr => ?_⟩
    · split_ifs with h
      · exact h.le
      · exact le_refl _
    · rcases List.mem_cons.mp hr with rfl | hr
      · refine le_trans ?_ h1
        split_ifs with h
        · exact le_refl _
        · exact not_lt.mp h
      · exact h2 r hr

theorem first_ok {f : K × K → K} {l : List (K × K)} {q : K × K} (h : first f l = .ok q) :
    q ∈ l ∧ ∀ r ∈ l, f r ≤ f q := by
  cases l with
  | nil => cases h
  | cons a l =>
    cases h
    obtain ⟨h1, h2⟩ := argmaxLoop_le f l a
    constructor
    · rcases argmaxLoop_mem f l a with h | h
      · rw [h]; exact List.mem_cons_self ..
      · exact List.mem_cons_of_mem _ h
    · intro r hr
      rcases List.mem_cons.mp hr with rfl | hr
      · exact h1
      · exact h2 r hr

theorem first_exists (f : K × K → K) {l : List (K × K)} (h : l ≠ []) : ∃ q, first f l = .ok q := by
  cases l with
  | nil => exact absurd rfl h
  | cons a l => exact ⟨_, rfl⟩

/-- A map of the points that keeps the order of the values moves the point found. -/
theorem argmaxLoop_map (f g : K × K → K) (m : K × K → K × K) (h : ∀ a b, f (m a) < f (m b) ↔ g a < g b) :
    ∀ (l : List (K × K)) (b : K × K), argmaxLoop f (l.map m) (m b) = m (argmaxLoop g l b) := by
  intro l
  induction l with
  | nil => intro b; rfl
  | cons q l ih =>
    intro b
    rw [List.map_cons, argmaxLoop, argmaxLoop, ← ih]
    congr 1
    by_cases hc : g b < g q
    · rw [if_pos hc, if_pos ((h b q).mpr hc)]
    · rw [if_neg hc, if_neg fun hh => hc ((h b q).mp hh)]

theorem first_map (f g : K × K → K) (m : K × K → K × K) (h : ∀ a b, f (m a) < f (m b) ↔ g a < g b) (l : List (K × K)) :
    first f (l.map m) = (first g l).map m := by
  cases l with
  | nil => rfl
  | cons a l => rw [List.map_cons, first, first, argmaxLoop_map f g m h]; rfl

theorem quotient_ok {a b v : K} (h : quotient a b = .ok v) : b ≠ 0 ∧ v = a / b := by
  rw [quotient] at h
  by_cases hb : b = 0
  · rw [if_pos hb] at h; cases h
  · rw [if_neg hb] at h; cases h; exact ⟨hb, rfl⟩

theorem quotient_eq {a b : K} (h : b ≠ 0) : quotient a b = .ok (a / b) := by rw [quotient, if_neg h]

theorem quotient_scale {s : K} (hs : s ≠ 0) (a b : K) : quotient (s * a) (s * b) = quotient a b := by
  rw [quotient, quotient]
  by_cases hb : b = 0
  · rw [if_pos hb, if_pos (by rw [hb, mul_zero])]
  · rw [if_neg hb, if_neg (mul_ne_zero hs hb), mul_div_mul_left _ _ hs]

section ordered
variable [IsStrictOrderedRing K]

/-- Either the number of points is wrong, whatever is integrated, or the integral is a sum with positive weights. -/
theorem romb2_cases (nx ny : ℕ) :
    (∀ f : Arr K, romb2 nx ny f = .error .value) ∨
    ∃ w : ℕ × ℕ → K, (∀ x < nx, ∀ y < ny, 0 < w (x, y)) ∧
      (∀ f : Arr K, romb2 nx ny f = .ok (∑ x ∈ Finset.range nx, ∑ y ∈ Finset.range ny, w (x, y) * f (x, y))) ∧
      2 ≤ nx ∧ 2 ≤ ny ∧
      (∀ c d : K, ∑ x ∈ Finset.range nx, ∑ y ∈ Finset.range ny, w (x, y) * (c + d * x) =
        ((ny : K) - 1) * (((nx : K) - 1) * c + d * ((nx : K) - 1) ^ 2 / 2)) := by
  by_cases hy : ∃ b, ny = 2 ^ b + 1
  · obtain ⟨b, rfl⟩ := hy
    by_cases hx : ∃ a, nx = 2 ^ a + 1
    · obtain ⟨a, rfl⟩ := hx
      right
      obtain ⟨w, hw, hf, he⟩ := romb2_positive (K := K) a b
      have h1 : 1 ≤ 2 ^ a := Nat.one_le_two_pow
      have h2 : 1 ≤ 2 ^ b := Nat.one_le_two_pow
      refine ⟨w, fun x hx y hy => hw x (by omega) y (by omega), hf, by omega, by omega, fun c d => ?_⟩
      rw [he]; push_cast; ring
    · left
      intro f
      rw [romb2, romb_pow]
      simp only
      rw [romb_error _ nx fun k e => hx ⟨k, e⟩]
  · left
    intro f
    rw [romb2, romb_error _ ny fun k e => hy ⟨k, e⟩]

theorem romb2_mono {nx ny : ℕ} {f g : Arr K} {u v : K} (hf : romb2 nx ny f = .ok u) (hg : romb2 nx ny g = .ok v)
    (h : ∀ x < nx, ∀ y < ny, f (x, y) ≤ g (x, y)) : u ≤ v := by
  rcases romb2_cases (K := K) nx ny with he | ⟨w, hw, hs, -⟩
  · rw [he] at hf; cases hf
  · rw [hs] at hf hg
    cases hf; cases hg
    refine Finset.sum_le_sum fun x hx => Finset.sum_le_sum fun y hy => ?_
    have hx := Finset.mem_range.mp hx
    have hy := Finset.mem_range.mp hy
    exact mul_le_mul_of_nonneg_left (h x hx y hy) (hw x hx y hy).le

theorem romb2_lt {nx ny : ℕ} {f g : Arr K} {u v : K} (hf : romb2 nx ny f = .ok u) (hg : romb2 nx ny g = .ok v)
    (h : ∀ x < nx, ∀ y < ny, f (x, y) ≤ g (x, y)) (hlt : ∃ x < nx, ∃ y < ny, f (x, y) < g (x, y)) : u < v := by
  rcases romb2_cases (K := K) nx ny with he | ⟨w, hw, hs, -⟩
  · rw [he] at hf; cases hf
  · rw [hs] at hf hg
    cases hf; cases hg
    have hle : ∀ x < nx, ∀ y < ny, w (x, y) * f (x, y) ≤ w (x, y) * g (x, y) := fun x hx y hy =>
      mul_le_mul_of_nonneg_left (h x hx y hy) (hw x hx y hy).le
    obtain ⟨x, hx, y, hy, hl⟩ := hlt
    refine Finset.sum_lt_sum (fun x hx => Finset.sum_le_sum fun y hy => hle x (Finset.mem_range.mp hx) y (Finset.mem_range.mp hy))
      ⟨x, Finset.mem_range.mpr hx, Finset.sum_lt_sum (fun y hy => hle x hx y (Finset.mem_range.mp hy))
        ⟨y, Finset.mem_range.mpr hy, mul_lt_mul_of_pos_left hl (hw x hx y hy)⟩⟩

theorem romb2_congr {nx ny : ℕ} {f g : Arr K} (h : ∀ x < nx, ∀ y < ny, f (x, y) = g (x, y)) : romb2 nx ny f = romb2 nx ny g := by
  rcases romb2_cases (K := K) nx ny with he | ⟨w, hw, hs, -⟩
  · rw [he, he]
  · rw [hs, hs]
    congr 1
    refine Finset.sum_congr rfl fun x hx => Finset.sum_congr rfl fun y hy => ?_
    rw [h x (Finset.mem_range.mp hx) y (Finset.mem_range.mp hy)]

theorem romb2_smul (nx ny : ℕ) (k : K) (f : Arr K) : romb2 nx ny (fun c => k * f c) = (romb2 nx ny f).map (k * ·) := by
  rcases romb2_cases (K := K) nx ny with he | ⟨w, hw, hs, -⟩
  · rw [he, he]; rfl
  · rw [hs, hs]
    show Except.ok _ = Except.ok _
    congr 1
    simp only [Finset.mul_sum]
    refine Finset.sum_congr rfl fun x _ => Finset.sum_congr rfl fun y _ => ?_
    ring

theorem romb2_add {nx ny : ℕ} {f g : Arr K} {u v : K} (hf : romb2 nx ny f = .ok u) (hg : romb2 nx ny g = .ok v) :
    romb2 nx ny (fun c => f c + g c) = .ok (u + v) := by
  rcases romb2_cases (K := K) nx ny with he | ⟨w, hw, hs, -⟩
  · rw [he] at hf; cases hf
  · rw [hs] at hf hg
    cases hf; cases hg
    rw [hs]
    congr 1
    simp only [← Finset.sum_add_distrib]
    refine Finset.sum_congr rfl fun x _ => Finset.sum_congr rfl fun y _ => ?_
    ring

end ordered

end FreeGS.Global
