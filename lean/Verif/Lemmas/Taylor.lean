import Verif.Lemmas.Convergence
import Verif.Lemmas.Energy
import Mathlib.Data.Nat.Factorial.Basic

/-!
# Truncation errors of the fourth-order differences
-/

set_option linter.unusedSectionVars false

namespace FreeGS.GS

open Set

/-- A function that is continuous on `[a, b]` and has six derivatives between: `D k` is the `k`-th. -/
structure SixTimes (a b : ℝ) (D : ℕ → ℝ → ℝ) : Prop where
  cont : ContinuousOn (D 0) (Icc a b)
  deriv : ∀ k < 6, ∀ x ∈ Ioo a b, HasDerivAt (D k) (D (k + 1) x) x

/-- Taylor's formula inside the interval. -/
theorem taylor_open {a b x M : ℝ} (hx : x ∈ Ioo a b) (m : ℕ) : ∀ (D : ℕ → ℝ → ℝ),
    (∀ k < m, ∀ y ∈ Ioo a b, HasDerivAt (D k) (D (k + 1) y) y) → (∀ y ∈ Ioo a b, |D m y| ≤ M) → ∀ t, 0 ≤ t → x + t < b →
    |D 0 (x + t) - ∑ k ∈ Finset.range m, D k x * t ^ k / k.factorial| ≤ M * t ^ m / m.factorial := by
  induction m with
  | zero =>
    intro D _ hM t h0 h1
    simpa using hM (x + t) ⟨by linarith [hx.1], h1⟩
  | succ m ih =>
    intro D hD hM t h0 h1
    have hder : ∀ s, 0 ≤ s → s ≤ t → HasDerivAt (fun s => D 0 (x + s) - ∑ k ∈ Finset.range (m + 1), D k x * s ^ k / k.factorial)
        (D 1 (x + s) - ∑ k ∈ Finset.range m, D (k + 1) x * s ^ k / k.factorial) s := by
      intro s s0 s1
      refine (shift_plus (hD 0 (by omega) (x + s) ⟨by linarith [hx.1], by linarith⟩)).sub ?_
      have e : (fun s : ℝ => ∑ k ∈ Finset.range (m + 1), D k x * s ^ k / k.factorial) =
          fun s => ∑ k ∈ Finset.range m, D (k + 1) x * s ^ (k + 1) / (k + 1).factorial + D 0 x := by
        funext s
        rw [Finset.sum_range_succ']
        simp
      rw [e]
      apply HasDerivAt.add_const
      apply HasDerivAt.fun_sum
      intro k _
      refine (((hasDerivAt_pow (k + 1) s).const_mul (D (k + 1) x)).div_const ((k + 1).factorial : ℝ)).congr_deriv ?_
      rw [Nat.factorial_succ]
      have : (k.factorial : ℝ) ≠ 0 := by exact_mod_cast k.factorial_ne_zero
      have : (k : ℝ) + 1 ≠ 0 := by positivity
      push_cast
      field_simp
    have key := integrate_bound (T := t) (c := M / m.factorial)
      (g := fun s => D 0 (x + s) - ∑ k ∈ Finset.range (m + 1), D k x * s ^ k / k.factorial)
      (g' := fun s => D 1 (x + s) - ∑ k ∈ Finset.range m, D (k + 1) x * s ^ k / k.factorial) m (by
        simp [Finset.sum_range_succ'])
      (fun s hs => (hder s hs.1 hs.2).continuousAt.continuousWithinAt) (fun s hs => hder s hs.1.le hs.2.le)
      (hder 0 le_rfl h0).hasDerivWithinAt (fun s hs => by
        have := ih (fun k => D (k + 1)) (fun k hk => hD (k + 1) (by omega)) hM s hs.1 (by linarith [hs.2])
        refine this.trans (le_of_eq ?_)
        ring) t ⟨h0, le_rfl⟩
    refine key.trans (le_of_eq ?_)
    rw [Nat.factorial_succ]
    have : (m.factorial : ℝ) ≠ 0 := by exact_mod_cast m.factorial_ne_zero
    have : (m : ℝ) + 1 ≠ 0 := by positivity
    push_cast
    field_simp

/-- Taylor's formula up to the end of the interval, by continuity. -/
theorem taylor_closed {a b x M : ℝ} (hx : x ∈ Ioo a b) (m : ℕ) (D : ℕ → ℝ → ℝ) (hc : ContinuousOn (D 0) (Icc a b))
    (hD : ∀ k < m, ∀ y ∈ Ioo a b, HasDerivAt (D k) (D (k + 1) y) y) (hM : ∀ y ∈ Ioo a b, |D m y| ≤ M) (t : ℝ) (h0 : 0 ≤ t)
    (h1 : x + t ≤ b) :
    |D 0 (x + t) - ∑ k ∈ Finset.range m, D k x * t ^ k / k.factorial| ≤ M * t ^ m / m.factorial := by
  rcases eq_or_lt_of_le h0 with rfl | h0
  · exact taylor_open hx m D hD hM 0 le_rfl (by linarith [hx.2])
  have hcl : closure (Ico (0 : ℝ) t) = Icc 0 t := closure_Ico h0.ne
  have c1 : ContinuousOn (fun s => |D 0 (x + s) - ∑ k ∈ Finset.range m, D k x * s ^ k / k.factorial|) (closure (Ico 0 t)) := by
    rw [hcl]
    have : ContinuousOn (fun s => D 0 (x + s)) (Icc 0 t) :=
      hc.comp (by fun_prop) (fun s hs => ⟨by linarith [hs.1, hx.1], by linarith [hs.2]⟩)
    exact (this.sub (by fun_prop)).abs
  have c2 : ContinuousOn (fun s : ℝ => M * s ^ m / m.factorial) (closure (Ico 0 t)) := by fun_prop
  exact le_on_closure (fun s hs => taylor_open hx m D hD hM s hs.1 (by linarith [hs.2])) c1 c2 (x := t)
    (by rw [hcl]; exact ⟨h0.le, le_rfl⟩)

/-- The mirrored function. -/
theorem SixTimes.mirror {a b : ℝ} {D : ℕ → ℝ → ℝ} (h : SixTimes a b D) : SixTimes (-b) (-a) fun k x => (-1) ^ k * D k (-x) where
  cont := by
    have : ContinuousOn (fun x => D 0 (-x)) (Icc (-b) (-a)) :=
      h.cont.comp (by fun_prop) (fun x hx => ⟨by linarith [hx.2], by linarith [hx.1]⟩)
    simpa using this
  deriv := by
    intro k hk x hx
    have e := (h.deriv k hk (-x) ⟨by linarith [hx.2], by linarith [hx.1]⟩)
    have := (HasDerivAt.comp x e (hasDerivAt_neg x)).const_mul ((-1 : ℝ) ^ k)
    refine this.congr_deriv ?_
    rw [pow_succ]; ring

/-- Values to the right and to the left of a point. -/
theorem taylor_both {a b x M : ℝ} {D : ℕ → ℝ → ℝ} (hf : SixTimes a b D) (hx : x ∈ Ioo a b) {m : ℕ} (hm : m ≤ 6)
    (hM : ∀ y ∈ Ioo a b, |D m y| ≤ M) {t : ℝ} (h0 : 0 ≤ t) :
    (x + t ≤ b → |D 0 (x + t) - ∑ k ∈ Finset.range m, D k x * t ^ k / k.factorial| ≤ M * t ^ m / m.factorial) ∧
    (a ≤ x - t → |D 0 (x - t) - ∑ k ∈ Finset.range m, (-1) ^ k * D k x * t ^ k / k.factorial| ≤ M * t ^ m / m.factorial) := by
  constructor
  · exact taylor_closed hx m D hf.cont (fun k hk => hf.deriv k (by omega)) hM t h0
  · intro h
    have := taylor_closed (x := -x) (M := M) ⟨by linarith [hx.2], by linarith [hx.1]⟩ m _ hf.mirror.cont
      (fun k hk => hf.mirror.deriv k (by omega)) (fun y hy => by
        rw [abs_mul, abs_pow, abs_neg, abs_one, one_pow, one_mul]
        exact hM _ ⟨by linarith [hy.2], by linarith [hy.1]⟩) t h0 (by linarith)
    simp only [pow_zero, one_mul, neg_neg] at this
    rw [show -(-x + t) = x - t by ring] at this
    exact this

variable {a b x M h : ℝ} {D : ℕ → ℝ → ℝ}

theorem lin (p q e : ℝ) (h : |p - q| ≤ e) : p ≤ q + e ∧ q - e ≤ p := by
  rw [abs_le] at h; constructor <;> linarith [h.1, h.2]

/-- Centred second difference. -/
theorem centred2_error (hf : SixTimes a b D) (hM : ∀ y ∈ Ioo a b, |D 6 y| ≤ M) (hh : 0 < h) (hl : a ≤ x - 2 * h) (hr : x + 2 * h ≤ b) :
    |-D 0 (x - 2 * h) + 16 * D 0 (x - h) - 30 * D 0 x + 16 * D 0 (x + h) - D 0 (x + 2 * h) - 12 * h ^ 2 * D 2 x| ≤
      14 * h ^ 6 * M := by
  have hx : x ∈ Ioo a b := ⟨by linarith, by linarith⟩
  have hM0 : 0 ≤ M := le_trans (abs_nonneg _) (hM x hx)
  have p1 := lin _ _ _ ((taylor_both hf hx le_rfl hM hh.le).1 (by linarith))
  have m1 := lin _ _ _ ((taylor_both hf hx le_rfl hM hh.le).2 (by linarith))
  have p2 := lin _ _ _ ((taylor_both hf hx le_rfl hM (t := 2 * h) (by linarith)).1 (by linarith))
  have m2 := lin _ _ _ ((taylor_both hf hx le_rfl hM (t := 2 * h) (by linarith)).2 (by linarith))
  simp only [Finset.sum_range_succ, Finset.sum_range_zero, Nat.factorial] at p1 p2 m1 m2
  norm_num at p1 p2 m1 m2
  have hMh : 0 ≤ M * h ^ 6 := by positivity
  ring_nf at p1 p2 m1 m2 hMh ⊢
  rw [abs_le]
  constructor <;> linarith [p1.1, p1.2, p2.1, p2.2, m1.1, m1.2, m2.1, m2.2]

/-- Second difference next to the left end. -/
theorem offset2_error (hf : SixTimes a b D) (hM : ∀ y ∈ Ioo a b, |D 6 y| ≤ M) (hh : 0 < h) (hl : a ≤ x - h) (hr : x + 4 * h ≤ b) :
    |10 * D 0 (x - h) - 15 * D 0 x - 4 * D 0 (x + h) + 14 * D 0 (x + 2 * h) - 6 * D 0 (x + 3 * h) + D 0 (x + 4 * h) -
      12 * h ^ 2 * D 2 x| ≤ 14 * h ^ 6 * M := by
  have hx : x ∈ Ioo a b := ⟨by linarith, by linarith⟩
  have hM0 : 0 ≤ M := le_trans (abs_nonneg _) (hM x hx)
  have m1 := lin _ _ _ ((taylor_both hf hx le_rfl hM hh.le).2 (by linarith))
  have p1 := lin _ _ _ ((taylor_both hf hx le_rfl hM hh.le).1 (by linarith))
  have p2 := lin _ _ _ ((taylor_both hf hx le_rfl hM (t := 2 * h) (by linarith)).1 (by linarith))
  have p3 := lin _ _ _ ((taylor_both hf hx le_rfl hM (t := 3 * h) (by linarith)).1 (by linarith))
  have p4 := lin _ _ _ ((taylor_both hf hx le_rfl hM (t := 4 * h) (by linarith)).1 (by linarith))
  simp only [Finset.sum_range_succ, Finset.sum_range_zero, Nat.factorial] at p1 p2 p3 p4 m1
  norm_num at p1 p2 p3 p4 m1
  have hMh : 0 ≤ M * h ^ 6 := by positivity
  ring_nf at p1 p2 p3 p4 m1 hMh ⊢
  rw [abs_le]
  constructor <;> linarith [p1.1, p1.2, p2.1, p2.2, p3.1, p3.2, p4.1, p4.2, m1.1, m1.2]

/-- Centred first difference. -/
theorem centred1_error (hf : SixTimes a b D) (hM : ∀ y ∈ Ioo a b, |D 5 y| ≤ M) (hh : 0 < h) (hl : a ≤ x - 2 * h) (hr : x + 2 * h ≤ b) :
    |D 0 (x - 2 * h) - 8 * D 0 (x - h) + 8 * D 0 (x + h) - D 0 (x + 2 * h) - 12 * h * D 1 x| ≤ 4 * h ^ 5 * M := by
  have hx : x ∈ Ioo a b := ⟨by linarith, by linarith⟩
  have hM0 : 0 ≤ M := le_trans (abs_nonneg _) (hM x hx)
  have p1 := lin _ _ _ ((taylor_both hf hx (m := 5) (by norm_num) hM hh.le).1 (by linarith))
  have m1 := lin _ _ _ ((taylor_both hf hx (m := 5) (by norm_num) hM hh.le).2 (by linarith))
  have p2 := lin _ _ _ ((taylor_both hf hx (m := 5) (by norm_num) hM (t := 2 * h) (by linarith)).1 (by linarith))
  have m2 := lin _ _ _ ((taylor_both hf hx (m := 5) (by norm_num) hM (t := 2 * h) (by linarith)).2 (by linarith))
  simp only [Finset.sum_range_succ, Finset.sum_range_zero, Nat.factorial] at p1 p2 m1 m2
  norm_num at p1 p2 m1 m2
  have hMh : 0 ≤ M * h ^ 5 := by positivity
  ring_nf at p1 p2 m1 m2 hMh ⊢
  rw [abs_le]
  constructor <;> linarith [p1.1, p1.2, p2.1, p2.2, m1.1, m1.2, m2.1, m2.2]

/-- First difference next to the left end. -/
theorem offset1_error (hf : SixTimes a b D) (hM : ∀ y ∈ Ioo a b, |D 5 y| ≤ M) (hh : 0 < h) (hl : a ≤ x - h) (hr : x + 3 * h ≤ b) :
    |-3 * D 0 (x - h) - 10 * D 0 x + 18 * D 0 (x + h) - 6 * D 0 (x + 2 * h) + D 0 (x + 3 * h) - 12 * h * D 1 x| ≤ 4 * h ^ 5 * M := by
  have hx : x ∈ Ioo a b := ⟨by linarith, by linarith⟩
  have hM0 : 0 ≤ M := le_trans (abs_nonneg _) (hM x hx)
  have m1 := lin _ _ _ ((taylor_both hf hx (m := 5) (by norm_num) hM hh.le).2 (by linarith))
  have p1 := lin _ _ _ ((taylor_both hf hx (m := 5) (by norm_num) hM hh.le).1 (by linarith))
  have p2 := lin _ _ _ ((taylor_both hf hx (m := 5) (by norm_num) hM (t := 2 * h) (by linarith)).1 (by linarith))
  have p3 := lin _ _ _ ((taylor_both hf hx (m := 5) (by norm_num) hM (t := 3 * h) (by linarith)).1 (by linarith))
  simp only [Finset.sum_range_succ, Finset.sum_range_zero, Nat.factorial] at p1 p2 p3 m1
  norm_num at p1 p2 p3 m1
  have hMh : 0 ≤ M * h ^ 5 := by positivity
  ring_nf at p1 p2 p3 m1 hMh ⊢
  rw [abs_le]
  constructor <;> linarith [p1.1, p1.2, p2.1, p2.2, p3.1, p3.2, m1.1, m1.2]

/-- The rows of the matrix on samples of a function: `lo + k h` for `k` from zero to `n`. -/
theorem row2_error {lo hi : ℝ} {n : ℕ} (hn : 5 ≤ n) (hf : SixTimes lo hi D) (hM : ∀ y ∈ Ioo lo hi, |D 6 y| ≤ M) (hh : 0 < h)
    (hend : lo + n * h = hi) {k : ℕ} (h1 : 1 ≤ k) (h2 : k < n) :
    |row2 n (fun k => D 0 (lo + k * h)) k - 12 * h ^ 2 * D 2 (lo + k * h)| ≤ 14 * h ^ 6 * M := by
  have kn : ∀ j : ℕ, j ≤ n → ((n - j : ℕ) : ℝ) = n - j := fun j hj => by rw [Nat.cast_sub hj]
  have hnR : (5 : ℝ) ≤ n := by exact_mod_cast hn
  unfold row2
  beta_reduce
  split_ifs with c1 c2
  · subst c1
    have := offset2_error (x := lo + (1 : ℕ) * h) hf hM hh (by push_cast; linarith) (by push_cast; nlinarith)
    push_cast at this ⊢
    rw [show lo + 1 * h - h = lo + 0 * h by ring, show lo + 1 * h + h = lo + 2 * h by ring, show lo + 1 * h + 2 * h = lo + 3 * h by ring,
      show lo + 1 * h + 3 * h = lo + 4 * h by ring, show lo + 1 * h + 4 * h = lo + 5 * h by ring] at this
    exact this
  · obtain rfl : k = n - 1 := by omega
    have := offset2_error (x := -(lo + ((n - 1 : ℕ) : ℝ) * h)) hf.mirror (M := M) (fun y hy => by
        rw [abs_mul, abs_pow, abs_neg, abs_one, one_pow, one_mul]
        exact hM _ ⟨by linarith [hy.2], by linarith [hy.1]⟩) hh (by rw [kn 1 (by omega)]; push_cast; linarith)
        (by rw [kn 1 (by omega)]; push_cast; nlinarith)
    simp only [pow_zero, one_mul] at this
    rw [kn 1 (by omega)] at this ⊢
    rw [kn 2 (by omega), kn 3 (by omega), kn 4 (by omega), kn 5 (by omega)]
    push_cast at this ⊢
    rw [show -(-(lo + ((n : ℝ) - 1) * h) - h) = lo + n * h by ring, show -(-(lo + ((n : ℝ) - 1) * h)) = lo + (n - 1) * h by ring,
      show -(-(lo + ((n : ℝ) - 1) * h) + h) = lo + (n - 2) * h by ring,
      show -(-(lo + ((n : ℝ) - 1) * h) + 2 * h) = lo + (n - 3) * h by ring,
      show -(-(lo + ((n : ℝ) - 1) * h) + 3 * h) = lo + (n - 4) * h by ring,
      show -(-(lo + ((n : ℝ) - 1) * h) + 4 * h) = lo + (n - 5) * h by ring] at this
    norm_num at this
    convert this using 3
  · have e : ((k - 2 : ℕ) : ℝ) = k - 2 := by rw [Nat.cast_sub (by omega)]; norm_num
    have e1 : ((k - 1 : ℕ) : ℝ) = k - 1 := by rw [Nat.cast_sub (by omega)]; norm_num
    have hk : (2 : ℝ) ≤ k := by exact_mod_cast (by omega : 2 ≤ k)
    have hk2 : (k : ℝ) + 2 ≤ n := by exact_mod_cast (by omega : k + 2 ≤ n)
    have := centred2_error (x := lo + k * h) hf hM hh (by nlinarith) (by rw [← hend]; nlinarith)
    rw [e, e1]
    push_cast
    rw [show lo + (k : ℝ) * h - 2 * h = lo + (k - 2) * h by ring, show lo + (k : ℝ) * h - h = lo + (k - 1) * h by ring,
      show lo + (k : ℝ) * h + h = lo + (k + 1) * h by ring, show lo + (k : ℝ) * h + 2 * h = lo + (k + 2) * h by ring] at this
    exact this

theorem row1_error {lo hi : ℝ} {n : ℕ} (hn : 5 ≤ n) (hf : SixTimes lo hi D) (hM : ∀ y ∈ Ioo lo hi, |D 5 y| ≤ M) (hh : 0 < h)
    (hend : lo + n * h = hi) {k : ℕ} (h1 : 1 ≤ k) (h2 : k < n) :
    |row1 n (fun k => D 0 (lo + k * h)) k - 12 * h * D 1 (lo + k * h)| ≤ 4 * h ^ 5 * M := by
  have kn : ∀ j : ℕ, j ≤ n → ((n - j : ℕ) : ℝ) = n - j := fun j hj => by rw [Nat.cast_sub hj]
  have hnR : (5 : ℝ) ≤ n := by exact_mod_cast hn
  unfold row1
  beta_reduce
  split_ifs with c1 c2
  · subst c1
    have := offset1_error (x := lo + (1 : ℕ) * h) hf hM hh (by push_cast; linarith) (by push_cast; nlinarith)
    push_cast at this ⊢
    rw [show lo + 1 * h - h = lo + 0 * h by ring, show lo + 1 * h + h = lo + 2 * h by ring, show lo + 1 * h + 2 * h = lo + 3 * h by ring,
      show lo + 1 * h + 3 * h = lo + 4 * h by ring] at this
    exact this
  · obtain rfl : k = n - 1 := by omega
    have := offset1_error (x := -(lo + ((n - 1 : ℕ) : ℝ) * h)) hf.mirror (M := M) (fun y hy => by
        rw [abs_mul, abs_pow, abs_neg, abs_one, one_pow, one_mul]
        exact hM _ ⟨by linarith [hy.2], by linarith [hy.1]⟩) hh (by rw [kn 1 (by omega)]; push_cast; linarith)
        (by rw [kn 1 (by omega)]; push_cast; nlinarith)
    simp only [pow_zero, one_mul, pow_one] at this
    rw [kn 1 (by omega)] at this ⊢
    rw [kn 2 (by omega), kn 3 (by omega), kn 4 (by omega)]
    push_cast at this ⊢
    rw [show -(-(lo + ((n : ℝ) - 1) * h) - h) = lo + n * h by ring, show -(-(lo + ((n : ℝ) - 1) * h)) = lo + (n - 1) * h by ring,
      show -(-(lo + ((n : ℝ) - 1) * h) + h) = lo + (n - 2) * h by ring,
      show -(-(lo + ((n : ℝ) - 1) * h) + 2 * h) = lo + (n - 3) * h by ring,
      show -(-(lo + ((n : ℝ) - 1) * h) + 3 * h) = lo + (n - 4) * h by ring] at this
    rw [← abs_neg] at this
    convert this using 2
    ring
  · have e : ((k - 2 : ℕ) : ℝ) = k - 2 := by rw [Nat.cast_sub (by omega)]; norm_num
    have e1 : ((k - 1 : ℕ) : ℝ) = k - 1 := by rw [Nat.cast_sub (by omega)]; norm_num
    have hk : (2 : ℝ) ≤ k := by exact_mod_cast (by omega : 2 ≤ k)
    have hk2 : (k : ℝ) + 2 ≤ n := by exact_mod_cast (by omega : k + 2 ≤ n)
    have := centred1_error (x := lo + k * h) hf hM hh (by nlinarith) (by rw [← hend]; nlinarith)
    rw [e, e1]
    push_cast
    rw [show lo + (k : ℝ) * h - 2 * h = lo + (k - 2) * h by ring, show lo + (k : ℝ) * h - h = lo + (k - 1) * h by ring,
      show lo + (k : ℝ) * h + h = lo + (k + 1) * h by ring, show lo + (k : ℝ) * h + 2 * h = lo + (k + 2) * h by ring] at this
    exact this

end FreeGS.GS
