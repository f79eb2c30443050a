import Verif.Lemmas.Vcycle

/-!
# Lemmas on how a V-cycle increases errors that alternate in sign
-/

set_option linter.unusedSectionVars false

namespace FreeGS.MG

open FreeGS.GS
open FreeGS.Critical (Domain)

variable {K : Type*} [Field K] [LinearOrder K] [IsStrictOrderedRing K]

/-- The domain of the example. -/
def box : Domain K := ⟨1, 2, 0, 1⟩

/-- The radius of a point of the grid with `n + 1` points in each direction. -/
def rad (n i : ℕ) : K := 1 + i / n

/-- The mean of the four neighbours with the weights of a Jacobi step. -/
def mean (n : ℕ) (u : Arr K) (c : ℕ × ℕ) : K :=
  if isInterior (n + 1) (n + 1) c then
    (u (c.1, c.2 - 1) + (1 + 1 / (2 * rad n c.1 * n)) * u (c.1 - 1, c.2) + (1 - 1 / (2 * rad n c.1 * n)) * u (c.1 + 1, c.2) + u (c.1, c.2 + 1)) / 4
  else 0

theorem box_step {n : ℕ} (hn : 1 ≤ n) : spacingR (box : Domain K) (n + 1) = 1 / n ∧ spacingZ (box : Domain K) (n + 1) = 1 / n := by
  simp only [spacingR, spacingZ, box]
  push_cast
  constructor <;> congr 1 <;> ring

/-- The matrix by the mean of the neighbours. -/
theorem box_apply {n : ℕ} (hn : 1 ≤ n) (u : Arr K) {x y : ℕ} (hx : x < n + 1) (hy : y < n + 1) :
    matVec ((n + 1) * (n + 1)) (gsSparse box (n + 1) (n + 1)) (GS.flat (n + 1) u) (x * (n + 1) + y) =
      if isInterior (n + 1) (n + 1) (x, y) then 4 * (n : K) ^ 2 * (mean n u (x, y) - u (x, y)) else u (x, y) := by
  rw [gsSparse_apply _ _ _ _ hx hy]
  by_cases hi : isInterior (n + 1) (n + 1) (x, y) = true
  · simp only [hi, if_true, elliptic, mean]
    have hn' : (n : K) ≠ 0 := by exact_mod_cast (by omega : n ≠ 0)
    have hr : (rad n x : K) ≠ 0 := by
      have : (0 : K) < rad n x := by rw [rad]; positivity
      exact this.ne'
    rw [(box_step (K := K) hn).1, (box_step (K := K) hn).2]
    have e : (box : Domain K).Rmin + 1 / n * (x : K) = rad n x := by simp only [box, rad]; ring
    rw [e]
    field_simp
    ring
  · simp only [hi, Bool.false_eq_true, if_false]

/-- A Jacobi step for the right-hand side zero. -/
theorem box_jacobi {n : ℕ} (hn : 1 ≤ n) (u : ℕ → K) : ∃ u', jacobiStep ⟨(n + 1) * (n + 1), gsSparse box (n + 1) (n + 1)⟩ (fun _ => (0 : K)) u = .ok u' ∧
    ∀ x y, x < n + 1 → y < n + 1 → u' (x * (n + 1) + y) = mean n (unflat (n + 1) u) (x, y) := by
  have hd := (gs_generates (box : Domain K) (by simp [box]) (by simp [box]) (n + 1) (n + 1) ⟨(n + 1) * (n + 1), gsSparse box (n + 1) (n + 1)⟩
    (by rw [gsGen, if_neg (by omega)])).2
  refine ⟨_, jacobiStep_ok hd _ _, fun x y hx hy => ?_⟩
  have hn' : (n : K) ≠ 0 := by exact_mod_cast (by omega : n ≠ 0)
  simp only
  rw [← matVec_congr (u := GS.flat (n + 1) (unflat (n + 1) u)) (fun i _ => flat_unflat u i (by omega)), box_apply hn _ hx hy, gsSparse_diag _ hx hy]
  have e : ∀ i, unflat (n + 1) u (x, i) = u (x * (n + 1) + i) := fun i => rfl
  by_cases hi : isInterior (n + 1) (n + 1) (x, y) = true
  · simp only [hi, if_true]
    rw [(box_step (K := K) hn).1, (box_step (K := K) hn).2, e]
    field_simp
    ring
  · simp only [hi, Bool.false_eq_true, if_false, mean]
    rw [e]
    ring

theorem weights {n : ℕ} (hn : 1 ≤ n) (i : ℕ) : (0 : K) ≤ 1 / (2 * rad n i * n) ∧ (1 / (2 * rad n i * n) : K) * (2 * n) ≤ 1 := by
  have hn' : (1 : K) ≤ n := by exact_mod_cast hn
  have hr : (1 : K) ≤ rad n i := by
    rw [rad]
    have : (0 : K) ≤ i / n := by positivity
    linarith
  have h0 : (0 : K) < 2 * rad n i * n := by positivity
  refine ⟨by positivity, ?_⟩
  rw [div_mul_eq_mul_div, one_mul, div_le_one h0]
  nlinarith

theorem mean_mono {n : ℕ} (hn : 1 ≤ n) {u v : Arr K} (h : ∀ x y, x < n + 1 → y < n + 1 → u (x, y) ≤ v (x, y)) {x y : ℕ} (hx : x < n + 1)
    (hy : y < n + 1) : mean n u (x, y) ≤ mean n v (x, y) := by
  by_cases hi : isInterior (n + 1) (n + 1) (x, y) = true
  · simp only [mean, hi, if_true]
    obtain ⟨h1, h2, h3, h4⟩ := isInterior_iff.mp hi
    simp only at h1 h2 h3 h4
    obtain ⟨w0, w1⟩ := weights (K := K) hn x
    have hn' : (1 : K) ≤ n := by exact_mod_cast hn
    have w2 : (1 / (2 * rad n x * n) : K) ≤ 1 := by nlinarith
    have a1 := h x (y - 1) hx (by omega)
    have a2 := mul_le_mul_of_nonneg_left (h (x - 1) y (by omega) hy) (show (0 : K) ≤ 1 + 1 / (2 * rad n x * n) by linarith)
    have a3 := mul_le_mul_of_nonneg_left (h (x + 1) y (by omega) hy) (show (0 : K) ≤ 1 - 1 / (2 * rad n x * n) by linarith)
    have a4 := h x (y + 1) hx (by omega)
    linarith
  · simp only [mean, hi, Bool.false_eq_true, if_false, le_refl]

theorem mean_add (n : ℕ) (u v : Arr K) (a b : K) (c : ℕ × ℕ) : mean n (fun c => a * u c + b * v c) c = a * mean n u c + b * mean n v c := by
  simp only [mean]
  split_ifs <;> ring

theorem mean_congr {n : ℕ} {u v : Arr K} (h : ∀ x y, x < n + 1 → y < n + 1 → u (x, y) = v (x, y)) {x y : ℕ} (hx : x < n + 1)
    (hy : y < n + 1) : mean n u (x, y) = mean n v (x, y) := by
  simp only [mean]
  by_cases hi : isInterior (n + 1) (n + 1) (x, y) = true
  · obtain ⟨h1, h2, h3, h4⟩ := isInterior_iff.mp hi
    simp only at h1 h2 h3 h4
    rw [h _ _ hx (by omega), h _ _ (by omega) hy, h _ _ (by omega) hy, h _ _ hx (by omega)]
  · simp only [hi, Bool.false_eq_true, if_false]

theorem mean_bound {n : ℕ} (hn : 1 ≤ n) {u : Arr K} {S : K} (hS : 0 ≤ S) (h : ∀ x y, x < n + 1 → y < n + 1 → |u (x, y)| ≤ S) {x y : ℕ}
    (hx : x < n + 1) (hy : y < n + 1) : |mean n u (x, y)| ≤ S := by
  have e : ∀ a : K, mean n (fun _ => a) (x, y) = if isInterior (n + 1) (n + 1) (x, y) then a else 0 := by
    intro a
    simp only [mean]
    split_ifs
    · ring
    · rfl
  have h1 := mean_mono (u := u) (v := fun _ => S) hn (fun x y hx hy => (abs_le.mp (h x y hx hy)).2) hx hy
  have h2 := mean_mono (u := fun _ => -S) (v := u) hn (fun x y hx hy => (abs_le.mp (h x y hx hy)).1) hx hy
  rw [e] at h1 h2
  rw [abs_le]
  split_ifs at h1 h2 <;> constructor <;> linarith

/-- One and minus one by turns. -/
def chess (c : ℕ × ℕ) : K := (-1) ^ (c.1 + c.2)

theorem chess_sq (c : ℕ × ℕ) : (chess c : K) * chess c = 1 := by
  rw [chess, ← mul_pow]; norm_num

theorem mean_chess (n : ℕ) (u : Arr K) (c : ℕ × ℕ) : mean n (fun c => chess c * u c) c = -(chess c * mean n u c) := by
  simp only [mean]
  by_cases hi : isInterior (n + 1) (n + 1) c = true
  · simp only [hi, if_true]
    obtain ⟨h1, h2, h3, h4⟩ := isInterior_iff.mp hi
    obtain ⟨x, y⟩ := c
    simp only at h1 h2 h3 h4
    obtain ⟨x, rfl⟩ : ∃ z, x = z + 1 := ⟨x - 1, by omega⟩
    obtain ⟨y, rfl⟩ : ∃ z, y = z + 1 := ⟨y - 1, by omega⟩
    simp only [chess, Nat.add_sub_cancel]
    ring
  · simp only [hi, Bool.false_eq_true, if_false]
    ring

/-- The hill `i (n - i) j (n - j)`. -/
def hill (n : ℕ) (c : ℕ × ℕ) : K := (c.1 * (n - c.1)) * (c.2 * (n - c.2))

theorem parabola_bounds {n i : ℕ} (h1 : 1 ≤ i) (h2 : i + 1 ≤ n) : ((n : K) - 1) ≤ i * (n - i) := by
  have a : (1 : K) ≤ i := by exact_mod_cast h1
  have b : (i : K) + 1 ≤ n := by exact_mod_cast h2
  nlinarith

theorem parabola_nonneg {n i : ℕ} (h2 : i ≤ n) : (0 : K) ≤ i * (n - i) := by
  have b : (i : K) ≤ n := by exact_mod_cast h2
  have a : (0 : K) ≤ i := Nat.cast_nonneg i
  exact mul_nonneg a (by linarith)

/-- The mean of the hill, from below. -/
theorem mean_hill {n : ℕ} (hn : 2 ≤ n) {x y : ℕ} (hi : isInterior (n + 1) (n + 1) (x, y) = true) :
    hill n (x, y) - 3 / 4 * (y * (n - y)) - 1 / 2 * (x * (n - x)) ≤ mean n (hill n : Arr K) (x, y) := by
  obtain ⟨h1, h2, h3, h4⟩ := isInterior_iff.mp hi
  simp only at h1 h2 h3 h4
  obtain ⟨w0, w1⟩ := weights (K := K) (by omega : 1 ≤ n) x
  simp only [mean, hi, if_true, hill]
  have g0 : (0 : K) ≤ y * (n - y) := parabola_nonneg (by omega)
  rw [Nat.cast_sub h3, Nat.cast_sub h1]
  push_cast
  generalize (1 / (2 * rad n x * n) : K) = t at w0 w1
  have hx : (x : K) + 1 ≤ n := by exact_mod_cast (by omega : x + 1 ≤ n)
  have hx0 : (1 : K) ≤ x := by exact_mod_cast h1
  have key : t * (2 * ((n : K) - 2 * x)) ≤ 1 := by nlinarith
  have := mul_le_mul_of_nonneg_right key g0
  nlinarith

/-- The factor by which the mean reduces the hill. -/
def decay (n : ℕ) : K := 1 - 5 / 4 / ((n : K) - 1)

theorem decay_hill {n : ℕ} (hn : 2 ≤ n) {x y : ℕ} (hx : x < n + 1) (hy : y < n + 1) : decay n * hill n (x, y) ≤ mean n (hill n : Arr K) (x, y) := by
  have hn1 : (0 : K) < (n : K) - 1 := by
    have : (2 : K) ≤ n := by exact_mod_cast hn
    linarith
  by_cases hi : isInterior (n + 1) (n + 1) (x, y) = true
  · refine le_trans ?_ (mean_hill hn hi)
    obtain ⟨h1, h2, h3, h4⟩ := isInterior_iff.mp hi
    simp only at h1 h2 h3 h4
    have f := parabola_bounds (K := K) h1 (by omega : x + 1 ≤ n)
    have g := parabola_bounds (K := K) h3 (by omega : y + 1 ≤ n)
    simp only [hill, decay]
    generalize (x : K) * (n - x) = f' at *
    generalize (y : K) * (n - y) = g' at *
    generalize (n : K) - 1 = m at *
    have e1 : g' ≤ f' * g' / m := by rw [le_div_iff₀ hn1]; nlinarith
    have e2 : f' ≤ f' * g' / m := by rw [le_div_iff₀ hn1]; nlinarith
    have e3 : (1 - 5 / 4 / m) * (f' * g') = f' * g' - 5 / 4 * (f' * g' / m) := by ring
    rw [e3]
    linarith
  · simp only [mean, hi, Bool.false_eq_true, if_false]
    have : hill n (x, y) = (0 : K) := by
      have hi' := mt isInterior_iff.mpr hi
      simp only at hi'
      have : x = 0 ∨ x = n ∨ y = 0 ∨ y = n := by omega
      rcases this with rfl | rfl | rfl | rfl <;> simp [hill]
    rw [this, mul_zero]

theorem hill_nonneg {n x y : ℕ} (hx : x < n + 1) (hy : y < n + 1) : (0 : K) ≤ hill n (x, y) :=
  mul_nonneg (parabola_nonneg (by omega)) (parabola_nonneg (by omega))

/-- The top of the hill. -/
theorem hill_le {N x y : ℕ} (hx : x < 2 * N + 1) (hy : y < 2 * N + 1) : (hill (2 * N) (x, y) : K) ≤ hill (2 * N) (N, N) := by
  have p : ∀ i : ℕ, (i : K) * ((2 * N : ℕ) - i) ≤ N * ((2 * N : ℕ) - N) := by
    intro i
    push_cast
    nlinarith [sq_nonneg ((i : K) - N)]
  exact mul_le_mul (p x) (p y) (parabola_nonneg (by omega)) (parabola_nonneg (by omega))

/-- Steps before the correction: the sign alternates. -/
theorem steps_chess {n : ℕ} (hn : 2 ≤ n) (hd : (0 : K) ≤ decay n) {S : K} : ∀ (k : ℕ) (u : ℕ → K) (v : Arr K) (a c : K), a * a = 1 → 0 ≤ c →
    (∀ x y, x < n + 1 → y < n + 1 → u (x * (n + 1) + y) = a * (chess (x, y) * v (x, y))) →
    (∀ x y, x < n + 1 → y < n + 1 → c * hill n (x, y) ≤ v (x, y) ∧ v (x, y) ≤ S) →
    ∃ (u' : ℕ → K) (v' : Arr K), repeatE (jacobiStep ⟨(n + 1) * (n + 1), gsSparse box (n + 1) (n + 1)⟩ fun _ => (0 : K)) k u = .ok u' ∧
      (∀ x y, x < n + 1 → y < n + 1 → u' (x * (n + 1) + y) = (-1) ^ k * a * (chess (x, y) * v' (x, y))) ∧
      ∀ x y, x < n + 1 → y < n + 1 → decay n ^ k * c * hill n (x, y) ≤ v' (x, y) ∧ v' (x, y) ≤ S := by
  intro k
  induction k with
  | zero => exact fun u v a c ha hc h1 h2 => ⟨u, v, rfl, by simpa using h1, by simpa using h2⟩
  | succ k ih =>
    intro u v a c ha hc h1 h2
    obtain ⟨u1, e1, h3⟩ := box_jacobi (K := K) (by omega : 1 ≤ n) u
    have hS : 0 ≤ S := by
      have h := h2 0 0 (by omega) (by omega)
      have : (hill n (0, 0) : K) = 0 := by simp [hill]
      rw [this, mul_zero] at h
      linarith
    obtain ⟨u', v', e2, h4, h5⟩ := ih u1 (mean n v) (-a) (decay n * c) (by rw [neg_mul_neg]; exact ha) (mul_nonneg hd hc)
      (fun x y hx hy => by
        rw [h3 x y hx hy, mean_congr (v := fun c => a * (chess c * v c) + 0 * v c) (fun x y hx hy => by
          simp only [zero_mul, add_zero]; exact h1 x y hx hy) hx hy, mean_add n (fun c => chess c * v c) v, mean_chess]
        ring)
      (fun x y hx hy => by
        constructor
        · have m := mean_mono (u := fun p => c * hill n p + 0 * hill n p) (v := v) (by omega : 1 ≤ n) (fun x y hx hy => by
            simp only [zero_mul, add_zero]; exact (h2 x y hx hy).1) hx hy
          rw [mean_add] at m
          have := mul_le_mul_of_nonneg_left (decay_hill (K := K) hn hx hy) hc
          nlinarith
        · refine le_trans (le_abs_self _) (mean_bound (by omega) hS (fun x y hx hy => ?_) hx hy)
          rw [abs_of_nonneg (le_trans (mul_nonneg hc (hill_nonneg hx hy)) (h2 x y hx hy).1)]
          exact (h2 x y hx hy).2)
    refine ⟨u', v', by rw [repeatE, e1]; exact e2, fun x y hx hy => ?_, fun x y hx hy => ?_⟩
    · rw [h4 x y hx hy]; ring
    · have := h5 x y hx hy
      refine ⟨le_trans (le_of_eq ?_) this.1, this.2⟩
      ring

/-- Steps after the correction. -/
theorem steps_sum {n : ℕ} (hn : 2 ≤ n) (hd : (0 : K) ≤ decay n) {S : K} (hS : 0 ≤ S) : ∀ (k : ℕ) (u : ℕ → K) (v w : Arr K) (c : K), 0 ≤ c →
    (∀ x y, x < n + 1 → y < n + 1 → u (x * (n + 1) + y) = v (x, y) + w (x, y)) →
    (∀ x y, x < n + 1 → y < n + 1 → |v (x, y)| ≤ S ∧ c * hill n (x, y) ≤ w (x, y)) →
    ∃ u', repeatE (jacobiStep ⟨(n + 1) * (n + 1), gsSparse box (n + 1) (n + 1)⟩ fun _ => (0 : K)) k u = .ok u' ∧
      ∀ x y, x < n + 1 → y < n + 1 → decay n ^ k * c * hill n (x, y) - S ≤ u' (x * (n + 1) + y) := by
  intro k
  induction k with
  | zero =>
    intro u v w c hc h1 h2
    refine ⟨u, rfl, fun x y hx hy => ?_⟩
    have := h2 x y hx hy
    have := (abs_le.mp this.1).1
    rw [h1 x y hx hy]
    simp only [pow_zero, one_mul]
    linarith
  | succ k ih =>
    intro u v w c hc h1 h2
    obtain ⟨u1, e1, h3⟩ := box_jacobi (K := K) (by omega : 1 ≤ n) u
    obtain ⟨u', e2, h4⟩ := ih u1 (mean n v) (mean n w) (decay n * c) (mul_nonneg hd hc)
      (fun x y hx hy => by
        rw [h3 x y hx hy, mean_congr (v := fun c => 1 * v c + 1 * w c) (fun x y hx hy => by
          simp only [one_mul]; exact h1 x y hx hy) hx hy, mean_add]
        ring)
      (fun x y hx hy => by
        constructor
        · exact mean_bound (by omega) hS (fun x y hx hy => (h2 x y hx hy).1) hx hy
        · have m := mean_mono (u := fun p => c * hill n p + 0 * hill n p) (v := w) (by omega : 1 ≤ n) (fun x y hx hy => by
            simp only [zero_mul, add_zero]; exact (h2 x y hx hy).2) hx hy
          rw [mean_add] at m
          have := mul_le_mul_of_nonneg_left (decay_hill (K := K) hn hx hy) hc
          nlinarith)
    refine ⟨u', by rw [repeatE, e1]; exact e2, fun x y hx hy => ?_⟩
    refine le_trans (le_of_eq ?_) (h4 x y hx hy)
    ring

/-- The solution on the coarse grid is as high as the comparison function. -/
theorem coarse_bound {N : ℕ} (hN : 2 ≤ N) {z b : Arr K} (hz : Solves (N + 1) (N + 1) (gsSparse box (N + 1) (N + 1)) z b) {c : K} (hc : 0 ≤ c)
    (hin : ∀ x y, isInterior (N + 1) (N + 1) (x, y) = true → b (x, y) ≤ -(c * (5 * (N : K) ^ 2 / ((N : K) - 1)) * hill N (x, y)))
    (hedge : ∀ p, OnEdge (N + 1) (N + 1) p → b p = 0) :
    ∀ x y, x < N + 1 → y < N + 1 → c * hill N (x, y) ≤ z (x, y) := by
  intro x y hx hy
  have hN0 : (0 : K) < N := by exact_mod_cast (by omega : 0 < N)
  have hz' : Solves (N + 1) (N + 1) (gsSparse box (N + 1) (N + 1)) (fun p => z p - c * hill N p)
      (fun p => b p - c * matVec ((N + 1) * (N + 1)) (gsSparse box (N + 1) (N + 1)) (GS.flat (N + 1) (hill N)) (p.1 * (N + 1) + p.2)) := by
    intro p hp
    have := matVec_combine ((N + 1) * (N + 1)) (gsSparse box (N + 1) (N + 1)) (GS.flat (N + 1) z) (GS.flat (N + 1) (hill N)) (-c)
      (p.1 * (N + 1) + p.2)
    rw [hz p hp] at this
    rw [show GS.flat (N + 1) (fun p => z p - c * hill N p) = fun i => GS.flat (N + 1) z i + -c * GS.flat (N + 1) (hill N) i by
      funext i; simp only [GS.flat]; ring, this]
    ring
  have key := C35_minimum_principle (box : Domain K) (N + 1) (N + 1) (by omega) (by omega) (by simp [box]) (by simp [box]) (by simp [box]) _ _
    hz' ?_ ?_ (x, y) ⟨hx, hy⟩
  · linarith
  · rintro ⟨p, q⟩ hp
    have hi := inside_iff.mp hp
    obtain ⟨h1, h2, h3, h4⟩ := isInterior_iff.mp hi
    simp only at h1 h2 h3 h4
    simp only
    rw [box_apply (by omega) _ (by omega) (by omega), if_pos hi]
    have m := decay_hill (K := K) hN (by omega : p < N + 1) (by omega : q < N + 1)
    have b1 := hin p q hi
    have e : 4 * (N : K) ^ 2 * (decay N * hill N (p, q) - hill N (p, q)) = -((5 * (N : K) ^ 2 / ((N : K) - 1)) * hill N (p, q)) := by
      rw [decay]; ring
    have m2 := mul_le_mul_of_nonneg_left (sub_le_sub_right m (hill N (p, q))) (show (0 : K) ≤ 4 * (N : K) ^ 2 by positivity)
    rw [e] at m2
    have m3 := mul_le_mul_of_nonneg_left m2 hc
    nlinarith
  · rintro ⟨p, q⟩ hp
    have hp' := hp
    simp only [OnEdge, OnGrid] at hp'
    simp only
    rw [hedge _ hp, box_apply (by omega) _ (by omega) (by omega), if_neg]
    · have : (hill N (p, q) : K) = 0 := by
        have : p = 0 ∨ p = N ∨ q = 0 ∨ q = N := by omega
        rcases this with rfl | rfl | rfl | rfl <;> simp [hill]
      rw [this]
      simp
    · intro hi
      have := isInterior_iff.mp hi
      simp only at this
      omega

/-- Interpolation of something above the hill of the coarse grid. -/
theorem interpolate_hill {N : ℕ} (hN : 2 ≤ N) {g : Grid K} (hg : Shape g (N + 1) (N + 1)) {c : K} (hc : 0 ≤ c)
    (h : ∀ x y, x < N + 1 → y < N + 1 → c * hill N (x, y) ≤ g.val (x, y)) :
    ∀ x y, x < 2 * N + 1 → y < 2 * N + 1 → c / 64 * hill (2 * N) (x, y) ≤ (interpolate g).val (x, y) := by
  have hz : ∀ x y, x < N + 1 → y < N + 1 → c * ((x * (N - x)) * (y * (N - y))) ≤ zeroEdge g (x, y) := by
    intro x y hx hy
    rw [zeroEdge]
    split_ifs with hi
    · exact h x y hx hy
    · have : ((x : K) * (N - x)) * (y * (N - y)) = 0 := by
        have hi' := hi
        simp only [hg.1, hg.2] at hi'
        have : x = 0 ∨ x = N ∨ y = 0 ∨ y = N := by omega
        rcases this with rfl | rfl | rfl | rfl <;> simp
      rw [this, mul_zero]
  have hf : ∀ i : ℕ, i ≤ N → (0 : K) ≤ i * (N - i) := fun i hi => parabola_nonneg hi
  -- one direction: a quarter of the parabola of the fine grid is at most twice the mean
  have even : ∀ i : ℕ, ((2 * i : ℕ) : K) * ((2 * N : ℕ) - (2 * i : ℕ)) = 4 * (i * (N - i)) := by intro i; push_cast; ring
  have odd' : ∀ i : ℕ, i + 1 ≤ N → ((2 * i + 1 : ℕ) : K) * ((2 * N : ℕ) - (2 * i + 1 : ℕ)) ≤ 4 * (i * (N - i) + (i + 1 : ℕ) * (N - (i + 1 : ℕ))) := by
    intro i hi
    have h1 : (i : K) + 1 ≤ N := by exact_mod_cast hi
    have h0 : (0 : K) ≤ i := Nat.cast_nonneg i
    have h2 : (2 : K) ≤ N := by exact_mod_cast hN
    push_cast
    nlinarith
  intro x y hx hy
  obtain ⟨i1, i2, i3, i4⟩ := interpolate_eq g (x / 2) (y / 2)
  have pos : ∀ n i : ℕ, i ≤ n → (0 : K) ≤ i * (n - i) := fun n i h => parabola_nonneg h
  rcases Nat.mod_two_eq_zero_or_one x with hx' | hx' <;> rcases Nat.mod_two_eq_zero_or_one y with hy' | hy'
  · obtain ⟨i, rfl⟩ : ∃ i, x = 2 * i := ⟨x / 2, by omega⟩
    obtain ⟨j, rfl⟩ : ∃ j, y = 2 * j := ⟨y / 2, by omega⟩
    rw [show 2 * i / 2 = i by omega, show 2 * j / 2 = j by omega] at i1
    rw [i1, hill, even, even]
    have z := hz i j (by omega) (by omega)
    have f := hf i (by omega)
    have g' := hf j (by omega)
    have := mul_nonneg hc (mul_nonneg f g')
    nlinarith
  · obtain ⟨i, rfl⟩ : ∃ i, x = 2 * i := ⟨x / 2, by omega⟩
    obtain ⟨j, rfl⟩ : ∃ j, y = 2 * j + 1 := ⟨y / 2, by omega⟩
    rw [show 2 * i / 2 = i by omega, show (2 * j + 1) / 2 = j by omega] at i3
    rw [i3, hill, even]
    have z := hz i j (by omega) (by omega)
    have z2 := hz i (j + 1) (by omega) (by omega)
    have f := hf i (by omega)
    have g1 := hf j (by omega)
    have g2 := hf (j + 1) (by omega)
    have o := odd' j (by omega)
    have t1 := mul_le_mul_of_nonneg_left o (mul_nonneg hc f)
    have p1 := mul_nonneg hc (mul_nonneg f g1)
    have p2 := mul_nonneg hc (mul_nonneg f g2)
    simp only
    generalize ((2 * j + 1 : ℕ) : K) * ((2 * N : ℕ) - (2 * j + 1 : ℕ)) = o1 at *
    generalize (i : K) * (N - i) = f1 at *
    generalize (j : K) * (N - j) = f2 at *
    generalize ((j + 1 : ℕ) : K) * (N - (j + 1 : ℕ)) = f3 at *
    nlinarith
  · obtain ⟨i, rfl⟩ : ∃ i, x = 2 * i + 1 := ⟨x / 2, by omega⟩
    obtain ⟨j, rfl⟩ : ∃ j, y = 2 * j := ⟨y / 2, by omega⟩
    rw [show (2 * i + 1) / 2 = i by omega, show 2 * j / 2 = j by omega] at i2
    rw [i2, hill, even]
    have z := hz i j (by omega) (by omega)
    have z2 := hz (i + 1) j (by omega) (by omega)
    have f := hf j (by omega)
    have g1 := hf i (by omega)
    have g2 := hf (i + 1) (by omega)
    have o := odd' i (by omega)
    have t1 := mul_le_mul_of_nonneg_left o (mul_nonneg hc f)
    have p1 := mul_nonneg hc (mul_nonneg f g1)
    have p2 := mul_nonneg hc (mul_nonneg f g2)
    simp only
    generalize ((2 * i + 1 : ℕ) : K) * ((2 * N : ℕ) - (2 * i + 1 : ℕ)) = o1 at *
    generalize (j : K) * (N - j) = f1 at *
    generalize (i : K) * (N - i) = f2 at *
    generalize ((i + 1 : ℕ) : K) * (N - (i + 1 : ℕ)) = f3 at *
    nlinarith
  · obtain ⟨i, rfl⟩ : ∃ i, x = 2 * i + 1 := ⟨x / 2, by omega⟩
    obtain ⟨j, rfl⟩ : ∃ j, y = 2 * j + 1 := ⟨y / 2, by omega⟩
    rw [show (2 * i + 1) / 2 = i by omega, show (2 * j + 1) / 2 = j by omega] at i4
    rw [i4, hill]
    have z1 := hz i j (by omega) (by omega)
    have z2 := hz (i + 1) j (by omega) (by omega)
    have z3 := hz i (j + 1) (by omega) (by omega)
    have z4 := hz (i + 1) (j + 1) (by omega) (by omega)
    have o1 := odd' i (by omega)
    have o2 := odd' j (by omega)
    have p2 := pos (2 * N) (2 * j + 1) (by omega)
    have q1 := hf i (by omega)
    have q2 := hf (i + 1) (by omega)
    simp only
    have t := mul_le_mul o1 o2 p2 (mul_nonneg (by norm_num) (add_nonneg q1 q2))
    have t1 := mul_le_mul_of_nonneg_left t hc
    generalize ((2 * i + 1 : ℕ) : K) * ((2 * N : ℕ) - (2 * i + 1 : ℕ)) = a1 at *
    generalize ((2 * j + 1 : ℕ) : K) * ((2 * N : ℕ) - (2 * j + 1 : ℕ)) = a2 at *
    generalize (j : K) * (N - j) = f1 at *
    generalize (i : K) * (N - i) = f2 at *
    generalize ((i + 1 : ℕ) : K) * (N - (i + 1 : ℕ)) = f3 at *
    generalize ((j + 1 : ℕ) : K) * (N - (j + 1 : ℕ)) = f4 at *
    linarith

end FreeGS.MG
