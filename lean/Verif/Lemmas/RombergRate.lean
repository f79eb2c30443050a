import Verif.Spec.RombergRate
import Verif.Lemmas.SmoothKernel
import Verif.Lemmas.Taylor

set_option linter.unusedSectionVars false

/-!
# The error of Romberg integration of smooth functions

The entry in column `r` of the table is exact for polynomials of degree `2 r + 1`. A table over two intervals is the sum of the tables over
each of them, so the error in column `r` is of order `2 r + 2`; later columns keep this order.
-/

namespace FreeGS.GS

open Set Finset

theorem Times.mono {n : ℕ} {a b a' b' : ℝ} {D : ℕ → ℝ → ℝ} {M : ℝ} (h : Times n a b D M) (h1 : a ≤ a') (h2 : b' ≤ b) : Times n a' b' D M :=
  ⟨h.cont.mono fun _ hx => ⟨h1.trans hx.1, hx.2.trans h2⟩, fun k hk x hx => h.deriv k hk x ⟨h1.trans_lt hx.1, hx.2.trans_le h2⟩,
    fun x hx => h.le x ⟨h1.trans_lt hx.1, hx.2.trans_le h2⟩⟩

theorem Times.mirror {n : ℕ} {a b : ℝ} {D : ℕ → ℝ → ℝ} {M : ℝ} (h : Times n a b D M) : Times n (-b) (-a) (fun k x => (-1) ^ k * D k (-x)) M where
  cont := by
    have : ContinuousOn (fun x => D 0 (-x)) (Set.Icc (-b) (-a)) :=
      h.cont.comp (by fun_prop) (fun x hx => ⟨by linarith [hx.2], by linarith [hx.1]⟩)
    simpa using this
  deriv := by
    intro k hk x hx
    have e := (h.deriv k hk (-x) ⟨by linarith [hx.2], by linarith [hx.1]⟩)
    have := (HasDerivAt.comp x e (hasDerivAt_neg x)).const_mul ((-1 : ℝ) ^ k)
    refine this.congr_deriv ?_
    rw [pow_succ]; ring
  le := fun x hx => by
    rw [abs_mul, abs_pow, abs_neg, abs_one, one_pow, one_mul]
    exact h.le _ ⟨by linarith [hx.2], by linarith [hx.1]⟩

/-- Taylor's polynomial around the middle. -/
theorem taylor_near {n : ℕ} {a b : ℝ} (h : a < b) {D : ℕ → ℝ → ℝ} {M : ℝ} (hD : Times n a b D M) :
    ∃ P : Polynomial ℝ, P.natDegree ≤ n - 1 ∧ ∀ x ∈ Set.Icc a b, |D 0 x - P.eval x| ≤ M * ((b - a) / 2) ^ n / n.factorial := by
  set m := (a + b) / 2 with hm
  have hmI : m ∈ Set.Ioo a b := ⟨by rw [hm]; linarith, by rw [hm]; linarith⟩
  have hM : 0 ≤ M := (abs_nonneg _).trans (hD.le m hmI)
  refine ⟨∑ k ∈ range n, Polynomial.C (D k m / k.factorial) * (Polynomial.X - Polynomial.C m) ^ k, ?_, fun x hx => ?_⟩
  · refine Polynomial.natDegree_sum_le_of_forall_le _ _ fun k hk => ?_
    refine (Polynomial.natDegree_C_mul_le _ _).trans ((Polynomial.natDegree_pow_le).trans ?_)
    rw [Polynomial.natDegree_X_sub_C]
    have := mem_range.mp hk
    omega
  have ev : (∑ k ∈ range n, Polynomial.C (D k m / k.factorial) * (Polynomial.X - Polynomial.C m) ^ k).eval x =
      ∑ k ∈ range n, D k m * (x - m) ^ k / k.factorial := by
    rw [Polynomial.eval_finsetSum]
    refine sum_congr rfl fun k _ => ?_
    simp
    ring
  rw [ev]
  have mono : ∀ t : ℝ, 0 ≤ t → t ≤ (b - a) / 2 → M * t ^ n / n.factorial ≤ M * ((b - a) / 2) ^ n / n.factorial := fun t h0 h1 =>
    div_le_div_of_nonneg_right (mul_le_mul_of_nonneg_left (pow_le_pow_left₀ h0 h1 n) hM) (by positivity)
  rcases le_total m x with hmx | hmx
  · have := taylor_closed hmI n D hD.cont hD.deriv hD.le (x - m) (by linarith) (by linarith [hx.2])
    rw [add_sub_cancel] at this
    exact this.trans (mono _ (by linarith) (by rw [hm]; linarith [hx.2]))
  · have := taylor_closed (x := -m) ⟨by linarith [hmI.2], by linarith [hmI.1]⟩ n _ hD.mirror.cont hD.mirror.deriv hD.mirror.le (m - x) (by linarith)
      (by linarith [hx.1])
    simp only [pow_zero, one_mul, neg_neg] at this
    rw [show -(-m + (m - x)) = x by ring] at this
    have e : ∀ k, (-1 : ℝ) ^ k * D k m * (m - x) ^ k / k.factorial = D k m * (x - m) ^ k / k.factorial := fun k => by
      rw [show (x - m) ^ k = (-1 : ℝ) ^ k * (m - x) ^ k by rw [← mul_pow]; congr 1; ring]; ring
    simp only [e] at this
    exact this.trans (mono _ (by linarith) (by rw [hm]; linarith [hx.1]))

/-- Column `r` on one panel. -/
theorem quad1_panel (r : ℕ) {a b : ℝ} (h : a ≤ b) {D : ℕ → ℝ → ℝ} {M : ℝ} (hD : Times (2 * r + 2) a b D M) :
    |quad1 a b r (D 0) - ∫ x in a..b, D 0 x| ≤ 2 * (b - a) * (M * ((b - a) / 2) ^ (2 * r + 2) / (2 * r + 2).factorial) := by
  rcases h.eq_or_lt with rfl | hlt
  · simp [quad1]
  obtain ⟨P, hP, near⟩ := taylor_near hlt hD
  have e := quad1_poly a b r P (by omega)
  have h1 := quad1_close h r (f := D 0) (g := fun x => P.eval x) near
  have h2 := integral_close h hD.cont (P.continuous.continuousOn (s := Set.Icc a b)) near
  rw [e] at h1
  have := abs_sub_le (quad1 a b r (D 0)) (∫ x in a..b, P.eval x) (∫ x in a..b, D 0 x)
  rw [abs_sub_comm (∫ x in a..b, P.eval x)] at this
  linarith

theorem sum_pairs (f : ℕ → ℝ) (n : ℕ) : ∑ m ∈ range (2 * n), f m = ∑ m ∈ range n, (f (2 * m) + f (2 * m + 1)) := by
  induction n with
  | zero => simp
  | succ n ih => rw [show 2 * (n + 1) = 2 * n + 1 + 1 by ring, sum_range_succ, sum_range_succ, ih, sum_range_succ]; ring

/-- The first column of the table as a sum over panels. -/
theorem rombTrap_panels (y : ℕ → ℝ) (k : ℕ) : ∀ i ≤ k,
    rombTrap y (2 ^ k) i = 2 ^ (k - i) * ∑ m ∈ range (2 ^ i), (y (m * 2 ^ (k - i)) + y ((m + 1) * 2 ^ (k - i))) / 2 := by
  intro i
  induction i with
  | zero =>
    intro _
    simp [rombTrap]
    ring
  | succ i ih =>
    intro hi
    obtain ⟨e, rfl⟩ : ∃ e, k = e + i + 1 := ⟨k - i - 1, by omega⟩
    rw [rombTrap, ih (by omega), show e + i + 1 - i = e + 1 by omega, show e + i + 1 - (i + 1) = e by omega, sum_list_range,
      pow_succ' 2 i, sum_pairs]
    have d1 : 2 ^ (e + i + 1) / (2 * 2 ^ i) = 2 ^ e := by
      rw [show e + i + 1 = e + (i + 1) by ring, pow_add, pow_succ' 2 i]; exact Nat.mul_div_cancel _ (by positivity)
    have d2 : 2 ^ (e + i + 1) / 2 ^ i = 2 ^ (e + 1) := by
      rw [show e + i + 1 = e + 1 + i by ring, pow_add _ (e + 1) i]; exact Nat.mul_div_cancel _ (by positivity)
    have d3 : ((2 ^ (e + i + 1) : ℕ) : ℝ) / 2 ^ i = 2 ^ (e + 1) := by
      push_cast; rw [show e + i + 1 = e + 1 + i by ring, pow_add _ (e + 1) i]; field_simp
    rw [d1, d2, d3, ← mul_add, ← sum_add_distrib, mul_sum, mul_sum, mul_sum]
    refine sum_congr rfl fun m _ => ?_
    rw [show (2 * m) * 2 ^ e = m * 2 ^ (e + 1) by ring, show (2 * m + 1 + 1) * 2 ^ e = (m + 1) * 2 ^ (e + 1) by ring,
      show (2 * m + 1) * 2 ^ e = 2 ^ e + m * 2 ^ (e + 1) by ring]
    rw [pow_succ]
    ring

/-- A table over every `2 ^ e`-th sample. -/
theorem table_thin (y : ℕ → ℝ) (e k : ℕ) (j : ℕ) : ∀ i, j ≤ i → i ≤ k →
    rombTable y (2 ^ (k + e)) j i = 2 ^ e * rombTable (fun m => y (m * 2 ^ e)) (2 ^ k) j i := by
  induction j with
  | zero =>
    intro i _ hi
    simp only [rombTable]
    rw [rombTrap_panels _ _ _ (by omega), rombTrap_panels _ _ _ hi, ← mul_assoc]
    have d : k + e - i = e + (k - i) := by omega
    have d' : ∀ m : ℕ, m * 2 ^ (k + e - i) = m * 2 ^ (k - i) * 2 ^ e := fun m => by rw [d, pow_add]; ring
    rw [d, pow_add, ← d]
    simp only [d']
  | succ j ih =>
    intro i hji hi
    simp only [rombTable]
    rw [ih i (by omega) hi, ih (i - 1) (by omega) (by omega)]
    ring

/-- A table over two intervals. -/
theorem table_split (y : ℕ → ℝ) (k : ℕ) (j : ℕ) : ∀ i, j ≤ i → i ≤ k →
    rombTable y (2 ^ (k + 1)) j (i + 1) = rombTable y (2 ^ k) j i + rombTable (fun m => y (m + 2 ^ k)) (2 ^ k) j i := by
  induction j with
  | zero =>
    intro i _ hi
    simp only [rombTable]
    rw [rombTrap_panels _ _ _ (by omega), rombTrap_panels _ _ _ hi, rombTrap_panels _ _ _ hi, ← mul_add, show k + 1 - (i + 1) = k - i by omega,
      pow_succ 2 i, mul_two, sum_range_add]
    have d : 2 ^ i * 2 ^ (k - i) = 2 ^ k := by rw [← pow_add]; congr 1; omega
    have d1 : ∀ m : ℕ, (2 ^ i + m) * 2 ^ (k - i) = m * 2 ^ (k - i) + 2 ^ k := fun m => by rw [add_mul, d]; ring
    have d2 : ∀ m : ℕ, (2 ^ i + m + 1) * 2 ^ (k - i) = (m + 1) * 2 ^ (k - i) + 2 ^ k := fun m => by rw [add_assoc, d1]
    simp only [d1, d2]
  | succ j ih =>
    intro i hji hi
    obtain ⟨i, rfl⟩ : ∃ i', i = i' + 1 := ⟨i - 1, by omega⟩
    simp only [rombTable, Nat.add_sub_cancel]
    rw [ih (i + 1) (by omega) hi, ih i (by omega) (by omega)]
    ring

/-- Column `j` of the table over `2 ^ i` intervals, times the spacing. -/
noncomputable def column (a b : ℝ) (f : ℝ → ℝ) (j i : ℕ) : ℝ :=
  rombTable (fun m => f (a + m * ((b - a) / 2 ^ i))) (2 ^ i) j i * ((b - a) / 2 ^ i)

theorem column_quad (a b : ℝ) (f : ℝ → ℝ) (i : ℕ) : column a b f i i = quad1 a b i f := by
  have e := (rule a b i).romb fun m => f (a + m * ((b - a) / 2 ^ i))
  rw [romb_pow] at e
  rw [column, Except.ok.inj e, quad1]

theorem column_step (a b : ℝ) (f : ℝ → ℝ) (j i : ℕ) (h : j ≤ i) :
    column a b f (j + 1) (i + 1) = column a b f j (i + 1) + (column a b f j (i + 1) - column a b f j i) / (4 ^ (j + 1) - 1) := by
  have e : column a b f j i = rombTable (fun m => f (a + m * ((b - a) / 2 ^ (i + 1)))) (2 ^ (i + 1)) j i * ((b - a) / 2 ^ (i + 1)) := by
    rw [table_thin _ 1 i j i h le_rfl, column]
    have : ∀ m : ℕ, a + ((m * 2 ^ 1 : ℕ) : ℝ) * ((b - a) / 2 ^ (i + 1)) = a + m * ((b - a) / 2 ^ i) := fun m => by
      rw [pow_succ 2 i]; push_cast; field_simp
    simp only [this]
    generalize rombTable (fun m => f (a + m * ((b - a) / 2 ^ i))) (2 ^ i) j i = T
    rw [pow_succ 2 i]
    field_simp
  rw [e]
  simp only [column, rombTable, Nat.add_sub_cancel]
  ring

theorem column_halves (a b : ℝ) (f : ℝ → ℝ) (j i : ℕ) (h : j ≤ i) :
    column a b f j (i + 1) = column a ((a + b) / 2) f j i + column ((a + b) / 2) b f j i := by
  rw [column, table_split _ i j i h le_rfl, column, column]
  have e1 : (b - a) / 2 ^ (i + 1) = ((a + b) / 2 - a) / 2 ^ i := by rw [pow_succ]; field_simp; ring
  have e2 : (b - a) / 2 ^ (i + 1) = (b - (a + b) / 2) / 2 ^ i := by rw [pow_succ]; field_simp; ring
  have e3 : ∀ m : ℕ, a + ((m + 2 ^ i : ℕ) : ℝ) * ((b - a) / 2 ^ (i + 1)) = (a + b) / 2 + m * ((b - (a + b) / 2) / 2 ^ i) := fun m => by
    rw [pow_succ]; push_cast; field_simp; ring
  simp only [e3]
  rw [add_mul, e1, ← e1, e2]

/-- The error of column `r`. -/
theorem column_rate (r : ℕ) (n : ℕ) : ∀ {a b : ℝ}, a ≤ b → ∀ {D : ℕ → ℝ → ℝ} {M : ℝ}, Times (2 * r + 2) a b D M →
    |column a b (D 0) r (r + n) - ∫ x in a..b, D 0 x| ≤
      2 * (b - a) * (M * ((b - a) / 2) ^ (2 * r + 2) / (2 * r + 2).factorial) / 4 ^ ((r + 1) * n) := by
  induction n with
  | zero =>
    intro a b h D M hD
    rw [add_zero, mul_zero, pow_zero, div_one, column_quad]
    exact quad1_panel r h hD
  | succ n ih =>
    intro a b h D M hD
    have m1 : a ≤ (a + b) / 2 := by linarith
    have m2 : (a + b) / 2 ≤ b := by linarith
    have h1 := ih m1 (hD.mono le_rfl m2)
    have h2 := ih m2 (hD.mono m1 le_rfl)
    have i1 := (hD.mono le_rfl m2).cont.intervalIntegrable_of_Icc m1 (μ := MeasureTheory.volume)
    have i2 := (hD.mono m1 le_rfl).cont.intervalIntegrable_of_Icc m2 (μ := MeasureTheory.volume)
    rw [← add_assoc, column_halves _ _ _ _ _ (by omega), ← intervalIntegral.integral_add_adjacent_intervals i1 i2]
    set H := b - a with hH
    rw [show (a + b) / 2 - a = H / 2 by rw [hH]; ring] at h1
    rw [show b - (a + b) / 2 = H / 2 by rw [hH]; ring] at h2
    have e : 2 * H * (M * (H / 2) ^ (2 * r + 2) / (2 * r + 2).factorial) / 4 ^ ((r + 1) * (n + 1)) =
        2 * (2 * (H / 2) * (M * (H / 2 / 2) ^ (2 * r + 2) / (2 * r + 2).factorial) / 4 ^ ((r + 1) * n)) := by
      have e2 : (2 : ℝ) ^ (2 * r + 2) = 4 ^ (r + 1) := by rw [show 2 * r + 2 = 2 * (r + 1) by ring, pow_mul]; norm_num
      rw [div_pow (H / 2) 2, e2, mul_add, mul_one, pow_add 4]
      have : ((2 * r + 2).factorial : ℝ) ≠ 0 := by positivity
      field_simp
    rw [e]
    rw [abs_le] at h1 h2 ⊢
    constructor <;> linarith [h1.1, h1.2, h2.1, h2.2]

/-- Later columns keep the order. -/
theorem later_columns (r : ℕ) {a b : ℝ} {f : ℝ → ℝ} {I B : ℝ} (hB : 0 ≤ B) (h0 : ∀ n, |column a b f r (r + n) - I| ≤ B / 4 ^ ((r + 1) * n)) (j : ℕ) :
    ∀ n, j ≤ n → |column a b f (r + j) (r + n) - I| ≤ 6 / (1 + 5 / 4 ^ j) * (B / 4 ^ ((r + 1) * n)) := by
  induction j with
  | zero =>
    intro n _
    have := h0 n
    norm_num
    exact this
  | succ j ih =>
    intro n hn
    obtain ⟨n, rfl⟩ : ∃ n', n = n' + 1 := ⟨n - 1, by omega⟩
    have p := ih (n + 1) (by omega)
    have q := ih n (by omega)
    rw [← add_assoc, ← add_assoc, column_step _ _ _ _ _ (by omega)]
    rw [← add_assoc] at p
    set t := B / 4 ^ ((r + 1) * (n + 1)) with ht
    have ht0 : 0 ≤ t := by positivity
    set Q : ℝ := 4 ^ (r + 1) with hQ
    have hQ0 : Q ≠ 0 := by rw [hQ]; positivity
    have et : B / 4 ^ ((r + 1) * n) = Q * t := by
      rw [ht, mul_add, mul_one, pow_add, ← hQ]
      field_simp
    rw [et] at q
    have hQ4 : 4 ≤ Q := by rw [hQ, pow_succ']; have : (1 : ℝ) ≤ 4 ^ r := one_le_pow₀ (by norm_num); linarith
    have hx1 : (1 : ℝ) ≤ 4 ^ j := one_le_pow₀ (by norm_num)
    have eX : (4 : ℝ) ^ (r + j + 1) = Q * 4 ^ j := by rw [hQ, ← pow_add]; congr 1; ring
    rw [eX, pow_succ' 4 j]
    generalize (4 : ℝ) ^ j = X at *
    have hX : 0 < X := by linarith
    have hQX : 4 ≤ Q * X := by nlinarith
    have hd : 0 < Q * X - 1 := by linarith
    set u := column a b f (r + j) (r + n + 1) - I with hu
    set v := column a b f (r + j) (r + n) - I with hv
    have e : column a b f (r + j) (r + n + 1) + (column a b f (r + j) (r + n + 1) - column a b f (r + j) (r + n)) / (Q * X - 1) - I =
        (Q * X * u - v) / (Q * X - 1) := by
      rw [hu, hv]; field_simp; ring
    rw [e, abs_div, abs_of_pos hd, div_le_iff₀ hd]
    have h1 : |Q * X * u - v| ≤ Q * X * |u| + |v| := by
      refine (abs_sub _ _).trans (le_of_eq ?_)
      rw [abs_mul, abs_of_pos (by positivity : 0 < Q * X)]
    have h2 : Q * X * |u| ≤ Q * X * (6 / (1 + 5 / X) * t) := mul_le_mul_of_nonneg_left p (by positivity)
    refine h1.trans ((add_le_add h2 q).trans ?_)
    have e1 : 6 / (1 + 5 / X) = 6 * X / (X + 5) := by field_simp
    have e2 : 6 / (1 + 5 / (4 * X)) = 24 * X / (4 * X + 5) := by field_simp; ring
    rw [e1, e2]
    have : Q * X * (6 * X / (X + 5) * t) + 6 * X / (X + 5) * (Q * t) = (6 * X * Q * (X + 1) / (X + 5)) * t := by field_simp
    rw [this, show 24 * X / (4 * X + 5) * t * (Q * X - 1) = (24 * X * (Q * X - 1) / (4 * X + 5)) * t by ring]
    refine mul_le_mul_of_nonneg_right ?_ ht0
    rw [div_le_div_iff₀ (by positivity) (by positivity)]
    -- `Q (X + 1) (4 X + 5) ≤ 4 (Q X - 1) (X + 5)`
    have key : Q * (X + 1) * (4 * X + 5) ≤ 4 * (Q * X - 1) * (X + 5) := by
      nlinarith [mul_nonneg (sub_nonneg.mpr hQ4) (sub_nonneg.mpr hx1)]
    have := mul_le_mul_of_nonneg_left key (by positivity : 0 ≤ 6 * X)
    linarith

/-- The error of Romberg integration. -/
theorem quad1_rate (r k : ℕ) (hr : r ≤ k) {a b : ℝ} (h : a ≤ b) {D : ℕ → ℝ → ℝ} {M : ℝ} (hD : Times (2 * r + 2) a b D M) :
    |quad1 a b k (D 0) - ∫ x in a..b, D 0 x| ≤ rateConst r * (b - a) * ((b - a) / 2 ^ k) ^ (2 * r + 2) * M := by
  rcases h.eq_or_lt with rfl | hlt
  · simp [quad1]
  have hM : 0 ≤ M := (abs_nonneg _).trans (hD.le ((a + b) / 2) ⟨by linarith, by linarith⟩)
  have hba := sub_pos.mpr hlt
  obtain ⟨n, rfl⟩ := Nat.exists_eq_add_of_le hr
  have t := later_columns r (by positivity) (fun n => column_rate r n h hD) n n le_rfl
  rw [column_quad] at t
  have p : (0 : ℝ) ≤ 5 / 4 ^ n := by positivity
  have s : 6 / (1 + 5 / (4 : ℝ) ^ n) ≤ 6 := div_le_self (by norm_num) (by linarith)
  refine t.trans ((mul_le_mul_of_nonneg_right s (by positivity)).trans (le_of_eq ?_))
  have e2 : (2 : ℝ) ^ (2 * r + 2) = 4 ^ (r + 1) := by rw [show 2 * r + 2 = 2 * (r + 1) by ring, pow_mul]; norm_num
  have e3 : ((2 : ℝ) ^ (r + n)) ^ (2 * r + 2) = 4 ^ ((r + 1) * r) * 4 ^ ((r + 1) * n) := by
    rw [← pow_mul, mul_comm (r + n), pow_mul, e2, ← pow_mul, ← pow_add]; congr 1; ring
  rw [rateConst, div_pow, div_pow, e3, e2]
  have : ((2 * r + 2).factorial : ℝ) ≠ 0 := by positivity
  field_simp
  ring

theorem quad1_integral {a b c d : ℝ} (hab : a ≤ b) (hcd : c ≤ d) (l : ℕ) {f : ℝ → ℝ → ℝ}
    (hf : ContinuousOn (Function.uncurry f) (Set.Icc a b ×ˢ Set.Icc c d)) :
    quad1 c d l (fun y => ∫ x in a..b, f x y) = ∫ x in a..b, quad1 c d l (f x) := by
  simp only [quad1]
  rw [intervalIntegral.integral_mul_const, intervalIntegral.integral_finsetSum]
  · simp only [intervalIntegral.integral_const_mul]
  · intro n hn
    refine ContinuousOn.intervalIntegrable_of_Icc hab (continuousOn_const.mul ?_)
    have : ContinuousOn (fun x : ℝ => (x, c + n * ((d - c) / 2 ^ l))) (Set.Icc a b) := by fun_prop
    exact hf.comp this fun x hx => ⟨hx, node_mem hcd l (by have := mem_range.mp hn; omega)⟩

theorem quad2_swap (a b c d : ℝ) (k l : ℕ) (f : ℝ → ℝ → ℝ) : quad2 a b c d k l f = quad1 c d l fun y => quad1 a b k fun x => f x y := by
  simp only [quad2, quad1, sum_mul, mul_sum]
  rw [sum_comm]
  exact sum_congr rfl fun i _ => sum_congr rfl fun j _ => by ring

/-- The error over a rectangle. -/
theorem quad2_rate (r s k l : ℕ) (hr : r ≤ k) (hs : s ≤ l) {a b c d : ℝ} (hab : a ≤ b) (hcd : c ≤ d) {f : ℝ → ℝ → ℝ}
    (hf : ContinuousOn (Function.uncurry f) (Set.Icc a b ×ˢ Set.Icc c d)) {M N : ℝ}
    (hR : ∀ y ∈ Set.Icc c d, ∃ D, D 0 = (fun x => f x y) ∧ Times (2 * r + 2) a b D M)
    (hZ : ∀ x ∈ Set.Icc a b, ∃ D, D 0 = f x ∧ Times (2 * s + 2) c d D N) :
    |quad2 a b c d k l f - ∫ x in a..b, ∫ y in c..d, f x y| ≤
      (b - a) * (d - c) * (rateConst r * ((b - a) / 2 ^ k) ^ (2 * r + 2) * M + rateConst s * ((d - c) / 2 ^ l) ^ (2 * s + 2) * N) := by
  have h1 : |quad2 a b c d k l f - quad1 c d l (fun y => ∫ x in a..b, f x y)| ≤
      (d - c) * (rateConst r * (b - a) * ((b - a) / 2 ^ k) ^ (2 * r + 2) * M) := by
    rw [quad2_swap]
    refine quad1_close hcd l fun y hy => ?_
    obtain ⟨D, e, hD⟩ := hR y hy
    have := quad1_rate r k hr hab hD
    simpa only [e] using this
  have h2 : |quad1 c d l (fun y => ∫ x in a..b, f x y) - ∫ x in a..b, ∫ y in c..d, f x y| ≤
      (b - a) * (rateConst s * (d - c) * ((d - c) / 2 ^ l) ^ (2 * s + 2) * N) := by
    rw [quad1_integral hab hcd l hf]
    refine integral_close hab ?_ (inner_cont hcd hf) fun x hx => ?_
    · simp only [quad1]
      refine ContinuousOn.mul (continuousOn_finsetSum _ fun n hn => continuousOn_const.mul ?_) continuousOn_const
      have : ContinuousOn (fun x : ℝ => (x, c + n * ((d - c) / 2 ^ l))) (Set.Icc a b) := by fun_prop
      exact hf.comp this fun x hx => ⟨hx, node_mem hcd l (by have := mem_range.mp hn; omega)⟩
    · obtain ⟨D, e, hD⟩ := hZ x hx
      have := quad1_rate s l hs hcd hD
      simpa only [e] using this
  refine (abs_sub_le _ _ _).trans ((add_le_add h1 h2).trans (le_of_eq ?_))
  ring

end FreeGS.GS
