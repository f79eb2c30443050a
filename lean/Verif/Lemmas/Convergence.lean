import Verif.Props.GradShafranov
import Mathlib.Analysis.Calculus.MeanValue
import Mathlib.Analysis.Calculus.Deriv.Pow
import Mathlib.Analysis.Calculus.Deriv.Add
import Mathlib.Analysis.Calculus.Deriv.Shift

/-!
# Truncation errors of the central differences
-/

set_option linter.unusedSectionVars false

namespace FreeGS.GS

open Set

/-- If `g` vanishes at zero and its derivative grows at most like `c t^k`, then `g` grows at most like `c t^(k+1) / (k+1)`. -/
theorem integrate_bound {g g' : ℝ → ℝ} {c T : ℝ} (k : ℕ) (h0 : g 0 = 0) (hcont : ContinuousOn g (Icc 0 T))
    (hd : ∀ t ∈ Ioo 0 T, HasDerivAt g (g' t) t) (hd0 : HasDerivWithinAt g (g' 0) (Ici 0) 0)
    (hb : ∀ t ∈ Ico 0 T, |g' t| ≤ c * t ^ k) :
    ∀ t ∈ Icc 0 T, |g t| ≤ c * t ^ (k + 1) / (k + 1) := by
  have hB : ∀ x : ℝ, HasDerivAt (fun t => c * t ^ (k + 1) / (k + 1)) (c * x ^ k) x := by
    intro x
    have h := ((hasDerivAt_pow (k + 1) x).const_mul c).div_const ((k : ℝ) + 1)
    refine h.congr_deriv ?_
    have : (k : ℝ) + 1 ≠ 0 := by positivity
    push_cast
    field_simp
  intro t ht
  have := image_norm_le_of_norm_deriv_right_le_deriv_boundary (f := g) (f' := g') (a := 0) (b := T) hcont
    (fun x hx => by
      rcases hx.1.eq_or_lt with h | h
      · rw [← h]; exact hd0
      · exact (hd x ⟨h, hx.2⟩).hasDerivWithinAt)
    (B := fun t => c * t ^ (k + 1) / (k + 1)) (B' := fun t => c * t ^ k) (by simp [h0]) hB (fun x hx => by
      rw [Real.norm_eq_abs]; exact hb x hx) ht
  simpa [Real.norm_eq_abs] using this

/-- A function that is continuous on `[a, b]` and has the derivatives `f1`, `f2`, `f3`, `f4` between. -/
structure FourTimes (a b : ℝ) (f f1 f2 f3 f4 : ℝ → ℝ) : Prop where
  cont : ContinuousOn f (Icc a b)
  d1 : ∀ x ∈ Ioo a b, HasDerivAt f (f1 x) x
  d2 : ∀ x ∈ Ioo a b, HasDerivAt f1 (f2 x) x
  d3 : ∀ x ∈ Ioo a b, HasDerivAt f2 (f3 x) x
  d4 : ∀ x ∈ Ioo a b, HasDerivAt f3 (f4 x) x

variable {a b : ℝ} {f f1 f2 f3 f4 : ℝ → ℝ}

theorem shift_plus {f f1 : ℝ → ℝ} {x t : ℝ} (h : HasDerivAt f (f1 (x + t)) (x + t)) : HasDerivAt (fun s => f (x + s)) (f1 (x + t)) t :=
  h.comp_const_add x t

theorem shift_minus {f f1 : ℝ → ℝ} {x t : ℝ} (h : HasDerivAt f (f1 (x - t)) (x - t)) : HasDerivAt (fun s => f (x - s)) (-f1 (x - t)) t :=
  h.comp_const_sub x t

/-- Second central difference. -/
theorem second_difference (hf : FourTimes a b f f1 f2 f3 f4) {M : ℝ} (hM : ∀ x ∈ Ioo a b, |f4 x| ≤ M) {x h : ℝ} (hh : 0 < h)
    (hl : a ≤ x - h) (hr : x + h ≤ b) :
    |f (x + h) - 2 * f x + f (x - h) - h ^ 2 * f2 x| ≤ M * h ^ 4 / 12 := by
  have ip : ∀ t ∈ Ico 0 h, x + t ∈ Ioo a b := fun t ht => ⟨by linarith [ht.1, ht.2], by linarith [ht.1, ht.2]⟩
  have im : ∀ t ∈ Ico 0 h, x - t ∈ Ioo a b := fun t ht => ⟨by linarith [ht.1, ht.2], by linarith [ht.1, ht.2]⟩
  -- the four functions, each the derivative of the one before
  have e3 : ∀ t ∈ Ico 0 h, HasDerivAt (fun t => f3 (x + t) - f3 (x - t)) (f4 (x + t) + f4 (x - t)) t := by
    intro t ht
    refine ((shift_plus (hf.d4 _ (ip t ht))).sub (shift_minus (hf.d4 _ (im t ht)))).congr_deriv ?_
    ring
  have e2 : ∀ t ∈ Ico 0 h, HasDerivAt (fun t => f2 (x + t) + f2 (x - t) - 2 * f2 x) (f3 (x + t) - f3 (x - t)) t := by
    intro t ht
    refine (((shift_plus (hf.d3 _ (ip t ht))).add (shift_minus (hf.d3 _ (im t ht)))).sub_const (2 * f2 x)).congr_deriv ?_
    ring
  have e1 : ∀ t ∈ Ico 0 h, HasDerivAt (fun t => f1 (x + t) - f1 (x - t) - 2 * t * f2 x) (f2 (x + t) + f2 (x - t) - 2 * f2 x) t := by
    intro t ht
    refine (((shift_plus (hf.d2 _ (ip t ht))).sub (shift_minus (hf.d2 _ (im t ht)))).sub
      (((hasDerivAt_id t).const_mul 2).mul_const (f2 x))).congr_deriv ?_
    ring
  have e0 : ∀ t ∈ Ico 0 h, HasDerivAt (fun t => f (x + t) + f (x - t) - 2 * f x - t ^ 2 * f2 x)
      (f1 (x + t) - f1 (x - t) - 2 * t * f2 x) t := by
    intro t ht
    refine ((((shift_plus (hf.d1 _ (ip t ht))).add (shift_minus (hf.d1 _ (im t ht)))).sub_const (2 * f x)).sub
      ((hasDerivAt_pow 2 t).mul_const (f2 x))).congr_deriv ?_
    norm_num
    ring
  have z : (0 : ℝ) ∈ Ico 0 h := ⟨le_refl _, hh⟩
  -- bounds on a smaller interval
  have key : ∀ t ∈ Ico 0 h, |f1 (x + t) - f1 (x - t) - 2 * t * f2 x| ≤ M / 3 * t ^ 3 := by
    intro t ht
    have sub : ∀ s ∈ Icc 0 t, s ∈ Ico 0 h := fun s hs => ⟨hs.1, lt_of_le_of_lt hs.2 ht.2⟩
    have b3 := integrate_bound (c := 2 * M) 0 (by simp) (fun s hs => (e3 s (sub s hs)).continuousAt.continuousWithinAt)
      (fun s hs => e3 s (sub s ⟨hs.1.le, hs.2.le⟩)) (e3 0 z).hasDerivWithinAt (fun s hs => by
        have h1 := hM _ (ip s (sub s ⟨hs.1, hs.2.le⟩))
        have h2 := hM _ (im s (sub s ⟨hs.1, hs.2.le⟩))
        calc |f4 (x + s) + f4 (x - s)| ≤ |f4 (x + s)| + |f4 (x - s)| := abs_add_le _ _
          _ ≤ 2 * M * s ^ 0 := by rw [pow_zero]; linarith)
    have b2 := integrate_bound (c := 2 * M) 1 (by simp; ring) (fun s hs => (e2 s (sub s hs)).continuousAt.continuousWithinAt)
      (fun s hs => e2 s (sub s ⟨hs.1.le, hs.2.le⟩)) (e2 0 z).hasDerivWithinAt (fun s hs => by
        have := b3 s ⟨hs.1, hs.2.le⟩
        simpa using this)
    have b1 := integrate_bound (c := M) 2 (by simp) (fun s hs => (e1 s (sub s hs)).continuousAt.continuousWithinAt)
      (fun s hs => e1 s (sub s ⟨hs.1.le, hs.2.le⟩)) (e1 0 z).hasDerivWithinAt (fun s hs => by
        have := b2 s ⟨hs.1, hs.2.le⟩
        refine this.trans (le_of_eq ?_)
        norm_num
        ring)
    have := b1 t ⟨ht.1, le_refl _⟩
    refine this.trans (le_of_eq ?_)
    norm_num
    ring
  have hcont : ContinuousOn (fun t => f (x + t) + f (x - t) - 2 * f x - t ^ 2 * f2 x) (Icc 0 h) := by
    have c1 : ContinuousOn (fun t => f (x + t)) (Icc 0 h) :=
      hf.cont.comp (by fun_prop) (fun t ht => ⟨by linarith [ht.1, ht.2], by linarith [ht.1, ht.2]⟩)
    have c2 : ContinuousOn (fun t => f (x - t)) (Icc 0 h) :=
      hf.cont.comp (by fun_prop) (fun t ht => ⟨by linarith [ht.1, ht.2], by linarith [ht.1, ht.2]⟩)
    exact ((c1.add c2).sub continuousOn_const).sub (by fun_prop)
  have fin := integrate_bound (c := M / 3) 3 (by simp; ring) hcont (fun s hs => e0 s ⟨hs.1.le, hs.2⟩) (e0 0 z).hasDerivWithinAt key
    h ⟨hh.le, le_refl _⟩
  have heq : f (x + h) - 2 * f x + f (x - h) - h ^ 2 * f2 x = f (x + h) + f (x - h) - 2 * f x - h ^ 2 * f2 x := by ring
  rw [heq]
  refine fin.trans (le_of_eq ?_)
  norm_num
  ring

/-- First central difference. -/
theorem first_difference (hf : FourTimes a b f f1 f2 f3 f4) {M : ℝ} (hM : ∀ x ∈ Ioo a b, |f3 x| ≤ M) {x h : ℝ} (hh : 0 < h)
    (hl : a ≤ x - h) (hr : x + h ≤ b) :
    |f (x + h) - f (x - h) - 2 * h * f1 x| ≤ M * h ^ 3 / 3 := by
  have ip : ∀ t ∈ Ico 0 h, x + t ∈ Ioo a b := fun t ht => ⟨by linarith [ht.1, ht.2], by linarith [ht.1, ht.2]⟩
  have im : ∀ t ∈ Ico 0 h, x - t ∈ Ioo a b := fun t ht => ⟨by linarith [ht.1, ht.2], by linarith [ht.1, ht.2]⟩
  have e2 : ∀ t ∈ Ico 0 h, HasDerivAt (fun t => f2 (x + t) - f2 (x - t)) (f3 (x + t) + f3 (x - t)) t := by
    intro t ht
    refine ((shift_plus (hf.d3 _ (ip t ht))).sub (shift_minus (hf.d3 _ (im t ht)))).congr_deriv ?_
    ring
  have e1 : ∀ t ∈ Ico 0 h, HasDerivAt (fun t => f1 (x + t) + f1 (x - t) - 2 * f1 x) (f2 (x + t) - f2 (x - t)) t := by
    intro t ht
    refine (((shift_plus (hf.d2 _ (ip t ht))).add (shift_minus (hf.d2 _ (im t ht)))).sub_const (2 * f1 x)).congr_deriv ?_
    ring
  have e0 : ∀ t ∈ Ico 0 h, HasDerivAt (fun t => f (x + t) - f (x - t) - 2 * t * f1 x) (f1 (x + t) + f1 (x - t) - 2 * f1 x) t := by
    intro t ht
    refine (((shift_plus (hf.d1 _ (ip t ht))).sub (shift_minus (hf.d1 _ (im t ht)))).sub
      (((hasDerivAt_id t).const_mul 2).mul_const (f1 x))).congr_deriv ?_
    ring
  have z : (0 : ℝ) ∈ Ico 0 h := ⟨le_refl _, hh⟩
  have key : ∀ t ∈ Ico 0 h, |f1 (x + t) + f1 (x - t) - 2 * f1 x| ≤ M * t ^ 2 := by
    intro t ht
    have sub : ∀ s ∈ Icc 0 t, s ∈ Ico 0 h := fun s hs => ⟨hs.1, lt_of_le_of_lt hs.2 ht.2⟩
    have b2 := integrate_bound (c := 2 * M) 0 (by simp) (fun s hs => (e2 s (sub s hs)).continuousAt.continuousWithinAt)
      (fun s hs => e2 s (sub s ⟨hs.1.le, hs.2.le⟩)) (e2 0 z).hasDerivWithinAt (fun s hs => by
        have h1 := hM _ (ip s (sub s ⟨hs.1, hs.2.le⟩))
        have h2 := hM _ (im s (sub s ⟨hs.1, hs.2.le⟩))
        calc |f3 (x + s) + f3 (x - s)| ≤ |f3 (x + s)| + |f3 (x - s)| := abs_add_le _ _
          _ ≤ 2 * M * s ^ 0 := by rw [pow_zero]; linarith)
    have b1 := integrate_bound (c := 2 * M) 1 (by simp; ring) (fun s hs => (e1 s (sub s hs)).continuousAt.continuousWithinAt)
      (fun s hs => e1 s (sub s ⟨hs.1.le, hs.2.le⟩)) (e1 0 z).hasDerivWithinAt (fun s hs => by
        have := b2 s ⟨hs.1, hs.2.le⟩
        simpa using this)
    have := b1 t ⟨ht.1, le_refl _⟩
    refine this.trans (le_of_eq ?_)
    norm_num
    ring
  have hcont : ContinuousOn (fun t => f (x + t) - f (x - t) - 2 * t * f1 x) (Icc 0 h) := by
    have c1 : ContinuousOn (fun t => f (x + t)) (Icc 0 h) :=
      hf.cont.comp (by fun_prop) (fun t ht => ⟨by linarith [ht.1, ht.2], by linarith [ht.1, ht.2]⟩)
    have c2 : ContinuousOn (fun t => f (x - t)) (Icc 0 h) :=
      hf.cont.comp (by fun_prop) (fun t ht => ⟨by linarith [ht.1, ht.2], by linarith [ht.1, ht.2]⟩)
    exact (c1.sub c2).sub (by fun_prop)
  have fin := integrate_bound (c := M) 2 (by simp) hcont (fun s hs => e0 s ⟨hs.1.le, hs.2⟩) (e0 0 z).hasDerivWithinAt key
    h ⟨hh.le, le_refl _⟩
  refine fin.trans (le_of_eq ?_)
  norm_num

end FreeGS.GS
