import Mathlib.Data.Finset.Max
import Mathlib.Order.Interval.Finset.Nat
import Verif.Props.CriticalMore

/-!
# C91: nulls between the grid points

Where the flux is nearly quadratic around a null, the Newton iteration of `find_critical` converges to it from every grid point nearby.
Distances are largest differences of coordinates, so that no square roots are needed.
-/

set_option linter.unusedSectionVars false

namespace FreeGS.Critical

variable {K : Type*} [Field K] [LinearOrder K]

/-- The distance of a position from the null, as the larger of the two differences. -/
def away (Rs Zs R Z : K) : K := max |R - Rs| |Z - Zs|

/-- The flux around a null at `(Rs, Zs)`, up to the distance `r`: the second derivatives are not singular (`mu`), the gradient is
given by them up to an error of second order (`L`), and it is bounded (`M`); the null is away from the machine axis. -/
structure RegularNull (f : Spline K) (Rs Zs r mu L M : K) : Prop where
  r_pos : 0 < r
  axis : 8 * r ≤ Rs
  mu_pos : 0 < mu
  L_nonneg : 0 ≤ L
  small : 4 * L * r ≤ mu
  nonsingular : ∀ R Z, away Rs Zs R Z ≤ r → ∀ u v,
    mu * max |u| |v| ≤ max |f.dRR R Z * u + f.dRZ R Z * v| |f.dRZ R Z * u + f.dZZ R Z * v|
  linearR : ∀ R Z, away Rs Zs R Z ≤ r →
    |f.dR R Z - (f.dRR R Z * (R - Rs) + f.dRZ R Z * (Z - Zs))| ≤ L * away Rs Zs R Z ^ 2
  linearZ : ∀ R Z, away Rs Zs R Z ≤ r →
    |f.dZ R Z - (f.dRZ R Z * (R - Rs) + f.dZZ R Z * (Z - Zs))| ≤ L * away Rs Zs R Z ^ 2
  boundR : ∀ R Z, away Rs Zs R Z ≤ r → |f.dR R Z| ≤ M * away Rs Zs R Z
  boundZ : ∀ R Z, away Rs Zs R Z ≤ r → |f.dZ R Z| ≤ M * away Rs Zs R Z

variable [IsStrictOrderedRing K]

theorem away_nonneg (Rs Zs R Z : K) : 0 ≤ away Rs Zs R Z := le_trans (abs_nonneg _) (le_max_left _ _)

/-- One Newton step, written with the solution `w` of the linear equations. -/
theorem newtonStep_eq (f : Spline K) (R Z : K) (hR : R ≠ 0) (w1 w2 : K)
    (hD : f.dRR R Z * f.dZZ R Z - f.dRZ R Z ^ 2 ≠ 0)
    (h1 : f.dRR R Z * w1 + f.dRZ R Z * w2 = f.dR R Z) (h2 : f.dRZ R Z * w1 + f.dZZ R Z * w2 = f.dZ R Z) (hw : R - w1 ≠ 0) :
    newtonStep f R Z = .ok (R - w1 * R / (R - w1), Z - w2 * R / (R - w1)) := by
  set a := f.dRR R Z
  set b := f.dRZ R Z
  set c := f.dZZ R Z
  have hdet : (-f.Br R Z / R - b / R) * (b / R) - -c / R * (-f.Bz R Z / R + a / R) = (a * c - b ^ 2) * (R - w1) / R ^ 3 := by
    simp only [Spline.Br, Spline.Bz, ← h1, ← h2]
    field_simp
    ring
  have hne : (a * c - b ^ 2) * (R - w1) / R ^ 3 ≠ 0 := div_ne_zero (mul_ne_zero hD hw) (pow_ne_zero _ hR)
  simp only [newtonStep]
  rw [hdet, if_neg hne]
  have n1 : b / R * f.Br R Z - -c / R * f.Bz R Z = (a * c - b ^ 2) * w1 / R ^ 2 := by
    simp only [Spline.Br, Spline.Bz, ← h1, ← h2]
    field_simp
    ring
  have n2 : -(-f.Bz R Z / R + a / R) * f.Br R Z + (-f.Br R Z / R - b / R) * f.Bz R Z = (a * c - b ^ 2) * w2 / R ^ 2 := by
    simp only [Spline.Br, Spline.Bz, ← h1, ← h2]
    field_simp
    ring
  rw [n1, n2]
  congr 2
  · congr 1
    field_simp
  · congr 1
    field_simp

theorem RegularNull.det_ne {f : Spline K} {Rs Zs r mu L M : K} (h : RegularNull f Rs Zs r mu L M) (R Z : K)
    (hd : away Rs Zs R Z ≤ r) : f.dRR R Z * f.dZZ R Z - f.dRZ R Z ^ 2 ≠ 0 := by
  intro hD
  have key : ∀ u v, f.dRR R Z * u + f.dRZ R Z * v = 0 → f.dRZ R Z * u + f.dZZ R Z * v = 0 → u = 0 ∧ v = 0 := by
    intro u v h1 h2
    have := h.nonsingular R Z hd u v
    rw [h1, h2, abs_zero, max_self] at this
    have h3 : max |u| |v| ≤ 0 := by
      by_contra hc
      exact absurd this (not_le.mpr (mul_pos h.mu_pos (not_le.mp hc)))
    exact ⟨abs_nonpos_iff.mp (le_trans (le_max_left _ _) h3), abs_nonpos_iff.mp (le_trans (le_max_right _ _) h3)⟩
  obtain ⟨hc, hb⟩ := key (f.dZZ R Z) (-f.dRZ R Z) (by linear_combination hD) (by ring)
  obtain ⟨_, ha⟩ := key (f.dRZ R Z) (-f.dRR R Z) (by ring) (by linear_combination -hD)
  have hb' : f.dRZ R Z = 0 := neg_eq_zero.mp hb
  have ha' : f.dRR R Z = 0 := neg_eq_zero.mp ha
  have := key 1 0 (by rw [ha', hb']; ring) (by rw [hb', hc]; ring)
  exact one_ne_zero this.1

theorem newton_bound {r Rs d P p x : K} (hr : 0 < r) (hax : 8 * r ≤ Rs) (hd0 : 0 ≤ d) (hd : d ≤ r) (hP0 : 0 ≤ P)
    (hP : P * (4 * r) ≤ d ^ 2) (hP4 : 4 * P ≤ d) (hp : p ≤ P) (hpos : 0 < Rs - p) (hx : |x| ≤ d ^ 2 + 2 * d * P + P * Rs) :
    2 * r * |x / (Rs - p)| ≤ d ^ 2 := by
  rw [abs_div, abs_of_pos hpos, ← mul_div_assoc, div_le_iff₀ hpos]
  have h1 : 2 * r * |x| ≤ 2 * r * (d ^ 2 + 2 * d * P + P * Rs) := mul_le_mul_of_nonneg_left hx (by linarith)
  have h3 : d ^ 2 * (Rs - P) ≤ d ^ 2 * (Rs - p) := mul_le_mul_of_nonneg_left (by linarith) (by positivity)
  have h4 : (P * (4 * r)) * Rs ≤ d ^ 2 * Rs := mul_le_mul_of_nonneg_right hP (by linarith)
  have h5 : d * (P * (4 * r)) ≤ d * d ^ 2 := mul_le_mul_of_nonneg_left hP hd0
  have h5' : d ^ 2 * d ≤ d ^ 2 * r := mul_le_mul_of_nonneg_left hd (by positivity)
  have h6 : d ^ 2 * (4 * P) ≤ d ^ 2 * r := mul_le_mul_of_nonneg_left (le_trans hP4 hd) (by positivity)
  have h7 : d ^ 2 * (8 * r) ≤ d ^ 2 * Rs := mul_le_mul_of_nonneg_left hax (by positivity)
  have h8 : 0 ≤ d ^ 2 * r := by positivity
  refine le_trans h1 (le_trans ?_ h3)
  ring_nf at h4 h5 h5' h6 h7 h8 ⊢
  linarith

theorem abs_sum_bound {d P Rs u v p q : K} (hd0 : 0 ≤ d) (hRs : 0 ≤ Rs) (hu : |u| ≤ d) (hv : |v| ≤ d) (hp : |p| ≤ P) (hq : |q| ≤ P) :
    |-(v * p + v * u + q * Rs + q * u)| ≤ d ^ 2 + 2 * d * P + P * Rs := by
  have m1 : ∀ x y : K, |x| ≤ d → |y| ≤ P → |x * y| ≤ d * P := fun x y hx hy => by
    rw [abs_mul]; exact mul_le_mul hx hy (abs_nonneg _) hd0
  have i1 := m1 v p hv hp
  have i2 : |v * u| ≤ d ^ 2 := by rw [abs_mul, sq]; exact mul_le_mul hv hu (abs_nonneg _) hd0
  have i3 : |q * Rs| ≤ P * Rs := by rw [abs_mul, abs_of_nonneg hRs]; exact mul_le_mul_of_nonneg_right hq hRs
  have i4 : |q * u| ≤ d * P := by rw [mul_comm]; exact m1 u q hu hq
  rw [abs_neg]
  have j1 := abs_add_le (v * p + v * u + q * Rs) (q * u)
  have j2 := abs_add_le (v * p + v * u) (q * Rs)
  have j3 := abs_add_le (v * p) (v * u)
  linarith

/-- One Newton step near a regular null: it succeeds, and the distance becomes less than its square divided by `2 r`. -/
theorem newtonStep_near {f : Spline K} {Rs Zs r mu L M : K} (h : RegularNull f Rs Zs r mu L M) (R Z : K)
    (hd : away Rs Zs R Z ≤ r) :
    ∃ R' Z', newtonStep f R Z = .ok (R', Z') ∧ 2 * r * away Rs Zs R' Z' ≤ away Rs Zs R Z ^ 2 := by
  have hr := h.r_pos
  have hax := h.axis
  have hmu := h.mu_pos
  set d := away Rs Zs R Z with hdd
  have hd0 : 0 ≤ d := away_nonneg _ _ _ _
  have hu : |R - Rs| ≤ d := le_max_left _ _
  have hv : |Z - Zs| ≤ d := le_max_right _ _
  set u := R - Rs with hu'
  set v := Z - Zs with hv'
  have hRe : R = Rs + u := by rw [hu']; ring
  have hD := h.det_ne R Z hd
  set a := f.dRR R Z
  set b := f.dRZ R Z
  set c := f.dZZ R Z
  set D := a * c - b ^ 2 with hDD
  set w1 := (c * f.dR R Z - b * f.dZ R Z) / D with hw1
  set w2 := (a * f.dZ R Z - b * f.dR R Z) / D with hw2
  have e1 : a * w1 + b * w2 = f.dR R Z := by rw [hw1, hw2]; field_simp; rw [hDD]; ring
  have e2 : b * w1 + c * w2 = f.dZ R Z := by rw [hw1, hw2]; field_simp; rw [hDD]; ring
  set p1 := w1 - u with hp1
  set p2 := w2 - v with hp2
  have hP : max |p1| |p2| * (4 * r) ≤ d ^ 2 := by
    have hn := h.nonsingular R Z hd p1 p2
    have g1 : a * p1 + b * p2 = f.dR R Z - (a * u + b * v) := by rw [← e1, hp1, hp2]; ring
    have g2 : b * p1 + c * p2 = f.dZ R Z - (b * u + c * v) := by rw [← e2, hp1, hp2]; ring
    have hm : max |a * p1 + b * p2| |b * p1 + c * p2| ≤ L * d ^ 2 := by
      rw [g1, g2]
      exact max_le (h.linearR R Z hd) (h.linearZ R Z hd)
    have h3 : mu * max |p1| |p2| ≤ L * d ^ 2 := le_trans hn hm
    have h4 : mu * (max |p1| |p2| * (4 * r)) ≤ mu * d ^ 2 := by
      have h5 := h.small
      have h6 : (4 * r) * (mu * max |p1| |p2|) ≤ (4 * r) * (L * d ^ 2) := mul_le_mul_of_nonneg_left h3 (by linarith)
      have h7 : (4 * L * r) * d ^ 2 ≤ mu * d ^ 2 := mul_le_mul_of_nonneg_right h5 (by positivity)
      nlinarith
    exact le_of_mul_le_mul_left h4 hmu
  set P := max |p1| |p2| with hPdef
  have hP0 : 0 ≤ P := le_trans (abs_nonneg _) (le_max_left _ _)
  have hp1' : |p1| ≤ P := le_max_left _ _
  have hp2' : |p2| ≤ P := le_max_right _ _
  have hP4 : 4 * P ≤ d := by nlinarith
  have hq : R - w1 = Rs - p1 := by rw [hRe, hp1]; ring
  have hpos : 0 < Rs - p1 := by have := le_abs_self p1; linarith
  have hRpos : 0 < R := by have := neg_abs_le u; rw [hRe]; linarith
  refine ⟨_, _, newtonStep_eq f R Z hRpos.ne' w1 w2 hD e1 e2 (by rw [hq]; exact hpos.ne'), ?_⟩
  have key : ∀ x : K, |x| ≤ d ^ 2 + 2 * d * P + P * Rs → 2 * r * |x / (Rs - p1)| ≤ d ^ 2 := fun x hx =>
    newton_bound hr hax hd0 hd hP0 hP hP4 (le_trans (le_abs_self _) hp1') hpos hx
  have hR' : R - w1 * R / (R - w1) - Rs = -(u ^ 2 + 2 * u * p1 + p1 * Rs) / (Rs - p1) := by
    rw [hq]
    have hw : w1 = u + p1 := by rw [hp1]; ring
    rw [hw, hRe]
    field_simp
    ring
  have hZ' : Z - w2 * R / (R - w1) - Zs = -(v * p1 + v * u + p2 * Rs + p2 * u) / (Rs - p1) := by
    rw [hq]
    have hw : w2 = v + p2 := by rw [hp2]; ring
    have hz : Z = Zs + v := by rw [hv']; ring
    rw [hw, hz, hRe]
    field_simp
    ring
  have hRs0 : 0 ≤ Rs := by linarith
  rw [away, hR', hZ']
  have b1 : |-(u ^ 2 + 2 * u * p1 + p1 * Rs)| ≤ d ^ 2 + 2 * d * P + P * Rs := by
    have := abs_sum_bound hd0 hRs0 hu hu hp1' hp1'
    have he : -(u ^ 2 + 2 * u * p1 + p1 * Rs) = -(u * p1 + u * u + p1 * Rs + p1 * u) := by ring
    rw [he]; exact this
  have b2 := abs_sum_bound hd0 hRs0 hu hv hp1' hp2'
  rcases max_choice |-(u ^ 2 + 2 * u * p1 + p1 * Rs) / (Rs - p1)| |-(v * p1 + v * u + p2 * Rs + p2 * u) / (Rs - p1)| with hm | hm
  · rw [hm]; exact key _ b1
  · rw [hm]; exact key _ b2

/-- A position within the region is away from the machine axis. -/
theorem RegularNull.R_pos {f : Spline K} {Rs Zs r mu L M : K} (h : RegularNull f Rs Zs r mu L M) {R Z : K}
    (hd : away Rs Zs R Z ≤ r) : 7 * r ≤ R ∧ 8 * R ≤ 9 * Rs := by
  have h1 : |R - Rs| ≤ r := le_trans (le_max_left _ _) hd
  rw [abs_le] at h1
  have := h.axis
  have := h.r_pos
  constructor <;> linarith

theorem field_small {x y M d R r : K} (hr : 0 < r) (hM : M ≤ 10 ^ 27) (hM0 : 0 ≤ M) (hx : |x| ≤ M * d) (hy : |y| ≤ M * d) (hd0 : 0 ≤ d)
    (hd : d * 2 ^ 100 ≤ r) (hR : 7 * r ≤ R) : (-y / R) ^ 2 + (x / R) ^ 2 < 1 / 1000000 := by
  have hRp : 0 < R := by linarith
  have h1 : (-y / R) ^ 2 + (x / R) ^ 2 = (y ^ 2 + x ^ 2) / R ^ 2 := by field_simp
  rw [h1, div_lt_div_iff₀ (by positivity) (by norm_num)]
  have hMd : 0 ≤ M * d := by positivity
  have h2 : y ^ 2 ≤ (M * d) ^ 2 := by rw [← sq_abs y]; exact pow_le_pow_left₀ (abs_nonneg _) hy 2
  have h3 : x ^ 2 ≤ (M * d) ^ 2 := by rw [← sq_abs x]; exact pow_le_pow_left₀ (abs_nonneg _) hx 2
  have h4 : M * d ≤ 10 ^ 27 * (r / 2 ^ 100) := by
    refine mul_le_mul hM ?_ hd0 (by norm_num)
    rw [le_div_iff₀ (by norm_num)]; exact hd
  have h5 : (M * d) ^ 2 ≤ (10 ^ 27 * (r / 2 ^ 100)) ^ 2 := pow_le_pow_left₀ hMd h4 2
  have h6 : (7 * r) ^ 2 ≤ R ^ 2 := pow_le_pow_left₀ (by linarith) hR 2
  have h7 : (10 ^ 27 * (r / 2 ^ 100)) ^ 2 = (10 ^ 27 / 2 ^ 100) ^ 2 * r ^ 2 := by ring
  have h8 : ((10 : K) ^ 27 / 2 ^ 100) ^ 2 < 1 / 1000000 := by norm_num
  have hr2 : 0 < r ^ 2 := by positivity
  rw [h7] at h5
  nlinarith

/-- The Newton iteration near a regular null accepts a position that is not farther from the null than the start. -/
theorem newton_near {f : Spline K} {Rs Zs r mu L M : K} (h : RegularNull f Rs Zs r mu L M) (hM : M ≤ 10 ^ 27)
    (R0 Z0 radiusSq : K) (h0 : away Rs Zs R0 Z0 ≤ r) (hrad : 9 / 2 * away Rs Zs R0 Z0 ^ 2 ≤ radiusSq) :
    ∀ (k n : ℕ), n + (k + 1) = 101 → ∀ R1 Z1, away Rs Zs R1 Z1 * 2 ^ n ≤ away Rs Zs R0 Z0 →
      ∃ R' Z', newton f radiusSq R0 Z0 (k + 1) R1 Z1 = .ok (some (R', Z')) ∧ away Rs Zs R' Z' ≤ away Rs Zs R1 Z1 ∧
        f.Br R' Z' ^ 2 + f.Bz R' Z' ^ 2 < 1 / 1000000 := by
  have hM0 : 0 ≤ M := by
    by_contra hneg
    have hr := h.r_pos
    have hw : away Rs Zs (Rs + r) Zs = r := by simp [away, abs_of_pos hr, hr.le]
    have h1 := h.boundR (Rs + r) Zs hw.le
    rw [hw] at h1
    have h2 := abs_nonneg (f.dR (Rs + r) Zs)
    nlinarith [not_le.mp hneg]
  intro k
  induction k with
  | zero =>
    intro n hn R1 Z1 h1
    have hd1 : away Rs Zs R1 Z1 ≤ r := by
      have hp : (1 : K) ≤ 2 ^ n := one_le_pow₀ (by norm_num)
      nlinarith [away_nonneg Rs Zs R1 Z1]
    obtain ⟨hR7, _⟩ := h.R_pos hd1
    have hr := h.r_pos
    have hn' : n = 100 := by omega
    subst hn'
    have hs : f.Br R1 Z1 ^ 2 + f.Bz R1 Z1 ^ 2 < 1 / 1000000 :=
      field_small hr hM hM0 (h.boundR R1 Z1 hd1) (h.boundZ R1 Z1 hd1) (away_nonneg _ _ _ _) (le_trans h1 h0) hR7
    refine ⟨R1, Z1, ?_, le_rfl, hs⟩
    rw [newton, if_neg (by linarith : ¬ R1 = 0), if_pos hs]
  | succ k ih =>
    intro n hn R1 Z1 h1
    have hd1 : away Rs Zs R1 Z1 ≤ away Rs Zs R0 Z0 := by
      have hp : (1 : K) ≤ 2 ^ n := one_le_pow₀ (by norm_num)
      nlinarith [away_nonneg Rs Zs R1 Z1]
    obtain ⟨hR7, _⟩ := h.R_pos (le_trans hd1 h0)
    have hr := h.r_pos
    by_cases hs : f.Br R1 Z1 ^ 2 + f.Bz R1 Z1 ^ 2 < 1 / 1000000
    · refine ⟨R1, Z1, ?_, le_rfl, hs⟩
      rw [newton, if_neg (by linarith : ¬ R1 = 0), if_pos hs]
    · obtain ⟨R2, Z2, h2, h3⟩ := newtonStep_near h R1 Z1 (le_trans hd1 h0)
      have hhalf : 2 * away Rs Zs R2 Z2 ≤ away Rs Zs R1 Z1 := by
        have h4 : r * (2 * away Rs Zs R2 Z2) ≤ r * away Rs Zs R1 Z1 := by
          have := mul_le_mul_of_nonneg_right (le_trans hd1 h0) (away_nonneg Rs Zs R1 Z1)
          nlinarith
        exact le_of_mul_le_mul_left h4 hr
      have hin : ¬ ((R2 - R0) ^ 2 + (Z2 - Z0) ^ 2 > radiusSq ∨ k + 1 = 0) := by
        rintro (hc | hc)
        · have a1 : |R2 - Rs| ≤ away Rs Zs R2 Z2 := le_max_left _ _
          have a2 : |Z2 - Zs| ≤ away Rs Zs R2 Z2 := le_max_right _ _
          have b1 : |R0 - Rs| ≤ away Rs Zs R0 Z0 := le_max_left _ _
          have b2 : |Z0 - Zs| ≤ away Rs Zs R0 Z0 := le_max_right _ _
          have key : ∀ x y s t D : K, |x - s| ≤ t → |y - s| ≤ D → 2 * t ≤ D → (x - y) ^ 2 ≤ (3 / 2 * D) ^ 2 := by
            intro x y s t D hx hy ht
            apply sq_le_sq'
            · have := abs_le.mp hx; have := abs_le.mp hy; linarith
            · have := abs_le.mp hx; have := abs_le.mp hy; linarith
          have c1 := key R2 R0 Rs _ _ a1 b1 (le_trans hhalf hd1)
          have c2 := key Z2 Z0 Zs _ _ a2 b2 (le_trans hhalf hd1)
          nlinarith
        · omega
      have hstep : newton f radiusSq R0 Z0 (k + 1 + 1) R1 Z1 = newton f radiusSq R0 Z0 (k + 1) R2 Z2 := by
        rw [newton, if_neg (by linarith : ¬ R1 = 0), if_neg hs]
        simp only [h2]
        rw [if_neg hin]
      obtain ⟨R', Z', h5, h6, h7⟩ := ih (n + 1) (by omega) R2 Z2 (by
        have hp : (0 : K) ≤ 2 ^ n := by positivity
        have := mul_le_mul_of_nonneg_right hhalf hp
        rw [pow_succ]
        linarith)
      refine ⟨R', Z', by rw [hstep, h5], le_trans h6 ?_, h7⟩
      have := away_nonneg Rs Zs R2 Z2
      linarith

/-- A position with a field below the limit is close to the null. -/
theorem RegularNull.close {f : Spline K} {Rs Zs r mu L M : K} (h : RegularNull f Rs Zs r mu L M) {R Z : K}
    (hd : away Rs Zs R Z ≤ r) (hs : f.Br R Z ^ 2 + f.Bz R Z ^ 2 < 1 / 1000000) : 2000 * mu * away Rs Zs R Z ≤ 3 * Rs := by
  obtain ⟨hR7, hR9⟩ := h.R_pos hd
  have hr := h.r_pos
  have hR : 0 < R := by linarith
  set d := away Rs Zs R Z with hdd
  have hd0 : 0 ≤ d := away_nonneg _ _ _ _
  have small : ∀ x y : K, x ^ 2 + y ^ 2 < 1 / 1000000 → |x| ≤ 1 / 1000 := by
    intro x y hxy
    apply abs_le_of_sq_le_sq' (a := x) (b := 1 / 1000) ?_ (by norm_num) |> abs_le.mpr
    nlinarith [sq_nonneg y]
  have hBr := small _ _ hs
  have hBz := small _ _ (by rw [add_comm]; exact hs)
  have f1 : |f.dZ R Z| ≤ R / 1000 := by
    have : f.dZ R Z = -(f.Br R Z * R) := by simp only [Spline.Br]; field_simp
    rw [this, abs_neg, abs_mul, abs_of_pos hR]
    nlinarith
  have f2 : |f.dR R Z| ≤ R / 1000 := by
    have : f.dR R Z = f.Bz R Z * R := by simp only [Spline.Bz]; field_simp
    rw [this, abs_mul, abs_of_pos hR]
    nlinarith
  have hn := h.nonsingular R Z hd (R - Rs) (Z - Zs)
  have g1 := h.linearR R Z hd
  have g2 := h.linearZ R Z hd
  have hm : max |f.dRR R Z * (R - Rs) + f.dRZ R Z * (Z - Zs)| |f.dRZ R Z * (R - Rs) + f.dZZ R Z * (Z - Zs)| ≤ R / 1000 + L * d ^ 2 := by
    refine max_le ?_ ?_
    · have e : f.dRR R Z * (R - Rs) + f.dRZ R Z * (Z - Zs) =
          f.dR R Z - (f.dR R Z - (f.dRR R Z * (R - Rs) + f.dRZ R Z * (Z - Zs))) := by ring
      rw [e]
      exact le_trans (abs_sub _ _) (add_le_add f2 g1)
    · have e : f.dRZ R Z * (R - Rs) + f.dZZ R Z * (Z - Zs) =
          f.dZ R Z - (f.dZ R Z - (f.dRZ R Z * (R - Rs) + f.dZZ R Z * (Z - Zs))) := by ring
      rw [e]
      exact le_trans (abs_sub _ _) (add_le_add f1 g2)
  have h3 : mu * d ≤ R / 1000 + L * d ^ 2 := le_trans hn hm
  have h4 : 4 * (L * d ^ 2) ≤ mu * d := by
    have h5 : L * d ≤ L * r := mul_le_mul_of_nonneg_left hd h.L_nonneg
    have h6 : (4 * (L * d)) * d ≤ mu * d := mul_le_mul_of_nonneg_right (by linarith [h.small]) hd0
    nlinarith
  linarith

/-- What is found: the position accepted by the iteration is within `3 Rs / (2000 mu)` of the null, and a returned point is this one or
so near to it that one of them is dropped as a duplicate. -/
def FoundNear (Rs Zs mu : K) (points : List (Point K)) : Prop :=
  ∃ q ∈ points, ∃ R Z, 2000 * mu * away Rs Zs R Z ≤ 3 * Rs ∧ (q.1 - R) ^ 2 + (q.2.1 - Z) ^ 2 < 1 / 100000

/-- **C91** (nulls between the grid points). If the field strength has a strict local minimum at a grid point, at least two points away
from the edge, and the grid point is near enough to a regular null, this null is found. Missing: nulls with no strict minimum near
them, as in `C91_even_rows_missed`. -/
theorem C91_between_points_partial (g : Mesh K) (f : Spline K) (psi : ℕ × ℕ → K) (discard : Bool) (os xs : List (Point K))
    (h : findCritical g f psi discard = .ok (os, xs)) (i j : ℕ) (hi : 2 ≤ i ∧ i + 2 < g.nx) (hj : 2 ≤ j ∧ j + 2 < g.ny)
    (hmin : ∀ a b, a ≤ i + 1 → i ≤ a + 1 → b ≤ j + 1 → j ≤ b + 1 → (a, b) ≠ (i, j) →
      f.Bp2 (g.R i) (g.Z j) < f.Bp2 (g.R a) (g.Z b))
    (Rs Zs r mu L M : K) (hn : RegularNull f Rs Zs r mu L M) (hM : M ≤ 10 ^ 27) (hr : away Rs Zs (g.R i) (g.Z j) ≤ r)
    (hd : away Rs Zs (g.R i) (g.Z j) ^ 2 ≤ 2 * ((g.R 1 - g.R 0) ^ 2 + (g.Z 1 - g.Z 0) ^ 2)) :
    (0 ≤ discriminant g psi i j → FoundNear Rs Zs mu os) ∧
    (discriminant g psi i j < 0 → discard = false → FoundNear Rs Zs mu xs) := by
  have hl : isLocalMin (fun i j => f.Bp2 (g.R i) (g.Z j)) i j = true := by
    simp only [isLocalMin, Bool.and_eq_true, decide_eq_true_eq]
    refine ⟨⟨⟨⟨⟨⟨⟨?_, ?_⟩, ?_⟩, ?_⟩, ?_⟩, ?_⟩, ?_⟩, ?_⟩ <;> apply hmin <;> first | omega | (simp only [ne_eq, Prod.mk.injEq]; omega)
  obtain ⟨R', Z', h1, h2, h3⟩ := newton_near hn hM (g.R i) (g.Z j) (9 * ((g.R 1 - g.R 0) ^ 2 + (g.Z 1 - g.Z 0) ^ 2)) hr
    (by linarith) 100 0 rfl (g.R i) (g.Z j) (by rw [pow_zero, mul_one])
  have hcl := hn.close (le_trans h2 hr) h3
  have hcand : candidate g f psi i j = .ok (some (decide (discriminant g psi i j < 0), R', Z', f.f R' Z')) := by
    simp only [candidate, if_pos hl, h1]
  cases hcs : candidates g f psi (interior g.nx g.ny) with
  | error e => simp only [findCritical, hcs] at h; cases h
  | ok cs =>
    obtain ⟨os', xs', h', _, _, h4, h5⟩ := findCritical_from g f psi discard cs hcs
    rw [h] at h'
    simp only [Except.ok.injEq, Prod.mk.injEq] at h'
    obtain ⟨rfl, rfl⟩ := h'
    have hmem := candidates_mem g f psi (interior g.nx g.ny) cs hcs (i, j) (interior_mem _ _ i j hi hj) _ hcand
    have hnear : ∀ q : Point K, ((R', Z', f.f R' Z') = q ∨ Close (R', Z', f.f R' Z') q) →
        (q.1 - R') ^ 2 + (q.2.1 - Z') ^ 2 < 1 / 100000 := by
      rintro q (rfl | hq)
      · simp
      · simp only [Close] at hq
        calc (q.1 - R') ^ 2 + (q.2.1 - Z') ^ 2 = (R' - q.1) ^ 2 + (Z' - q.2.1) ^ 2 := by ring
          _ < _ := hq
    constructor
    · intro hdis
      rw [decide_eq_false (not_lt.mpr hdis)] at hmem
      obtain ⟨q, hq, hc⟩ := h4 _ hmem
      exact ⟨q, hq, R', Z', hcl, hnear q hc⟩
    · intro hdis hdc
      rw [decide_eq_true hdis] at hmem
      obtain ⟨q, hq, hc⟩ := h5 hdc _ hmem
      exact ⟨q, hq, R', Z', hcl, hnear q hc⟩

/-- **C91** (nulls between the grid points). A regular null is found if the grid points of some block around it have a weaker field at one of
them than on the rim of the block, and no two neighbours in the block have exactly the same field strength. Missing: without the last
condition the null can be missed, `C91_even_rows_missed`. -/
theorem C91_block_partial (g : Mesh K) (f : Spline K) (psi : ℕ × ℕ → K) (discard : Bool) (os xs : List (Point K))
    (h : findCritical g f psi discard = .ok (os, xs)) (i0 i1 j0 j1 ic jc : ℕ) (hi0 : 1 ≤ i0) (hi1 : i1 + 1 < g.nx) (hj0 : 1 ≤ j0)
    (hj1 : j1 + 1 < g.ny) (hic : i0 < ic ∧ ic < i1) (hjc : j0 < jc ∧ jc < j1)
    (hrim : ∀ i j, i0 ≤ i → i ≤ i1 → j0 ≤ j → j ≤ j1 → (i = i0 ∨ i = i1 ∨ j = j0 ∨ j = j1) →
      f.Bp2 (g.R ic) (g.Z jc) < f.Bp2 (g.R i) (g.Z j))
    (hties : ∀ i j a b, i0 ≤ i → i ≤ i1 → j0 ≤ j → j ≤ j1 → i0 ≤ a → a ≤ i1 → j0 ≤ b → b ≤ j1 → a ≤ i + 1 → i ≤ a + 1 → b ≤ j + 1 →
      j ≤ b + 1 → (a, b) ≠ (i, j) → f.Bp2 (g.R i) (g.Z j) ≠ f.Bp2 (g.R a) (g.Z b))
    (Rs Zs r mu L M : K) (hn : RegularNull f Rs Zs r mu L M) (hM : M ≤ 10 ^ 27)
    (hin : ∀ i j, i0 < i → i < i1 → j0 < j → j < j1 → away Rs Zs (g.R i) (g.Z j) ≤ r ∧
      away Rs Zs (g.R i) (g.Z j) ^ 2 ≤ 2 * ((g.R 1 - g.R 0) ^ 2 + (g.Z 1 - g.Z 0) ^ 2)) :
    ((∀ i j, i0 < i → i < i1 → j0 < j → j < j1 → 0 ≤ discriminant g psi i j) → FoundNear Rs Zs mu os) ∧
    ((∀ i j, i0 < i → i < i1 → j0 < j → j < j1 → discriminant g psi i j < 0) → discard = false → FoundNear Rs Zs mu xs) := by
  obtain ⟨⟨i, j⟩, hmem, hmin⟩ := Finset.exists_min_image (Finset.Icc i0 i1 ×ˢ Finset.Icc j0 j1)
    (fun c : ℕ × ℕ => f.Bp2 (g.R c.1) (g.Z c.2)) ⟨(ic, jc), by simp only [Finset.mem_product, Finset.mem_Icc]; omega⟩
  simp only [Finset.mem_product, Finset.mem_Icc] at hmem
  simp only [Finset.mem_product, Finset.mem_Icc, Prod.forall] at hmin
  have hle := hmin ic jc ⟨⟨by omega, by omega⟩, ⟨by omega, by omega⟩⟩
  have hnr : ¬ (i = i0 ∨ i = i1 ∨ j = j0 ∨ j = j1) := fun hc =>
    absurd (hrim i j hmem.1.1 hmem.1.2 hmem.2.1 hmem.2.2 hc) (not_lt.mpr hle)
  simp only [not_or] at hnr
  have hI : i0 < i ∧ i < i1 := ⟨by omega, by omega⟩
  have hJ : j0 < j ∧ j < j1 := ⟨by omega, by omega⟩
  obtain ⟨hr, hd⟩ := hin i j hI.1 hI.2 hJ.1 hJ.2
  have hmain := C91_between_points_partial g f psi discard os xs h i j ⟨by omega, by omega⟩ ⟨by omega, by omega⟩ (by
    intro a b h1 h2 h3 h4 h5
    have h6 := hmin a b ⟨⟨by omega, by omega⟩, ⟨by omega, by omega⟩⟩
    exact lt_of_le_of_ne h6 (hties i j a b (by omega) (by omega) (by omega) (by omega) (by omega) (by omega) (by omega) (by omega)
      h1 h2 h3 h4 h5)) Rs Zs r mu L M hn hM hr hd
  exact ⟨fun hdis => hmain.1 (hdis i j hI.1 hI.2 hJ.1 hJ.2), fun hdis => hmain.2 (hdis i j hI.1 hI.2 hJ.1 hJ.2)⟩

/-- On the rim of the five by five block around the nearest grid point, the field is stronger than at the nearest grid point. -/
theorem rim_stronger {f : Spline K} {Rs Zs mu L M h : K} (hh : 0 < h) (hn : RegularNull f Rs Zs (5 / 2 * h) mu L M) (hM : 3 * M ≤ 4 * mu)
    (R Z R' Z' : K) (h1 : away Rs Zs R Z ≤ h / 2) (h2 : 3 / 2 * h ≤ away Rs Zs R' Z') (h3 : away Rs Zs R' Z' ≤ 5 / 2 * h) :
    f.Bp2 R Z < f.Bp2 R' Z' := by
  have hRs : 20 * h ≤ Rs := by have := hn.axis; linarith
  have e1 : Rs - h / 2 ≤ R := by
    have := (abs_le.mp (le_trans (le_max_left _ _) h1)).1
    linarith
  have e2 : R' ≤ Rs + 5 / 2 * h := by
    have := (abs_le.mp (le_trans (le_max_left _ _) h3)).2
    linarith
  have e2' : Rs - 5 / 2 * h ≤ R' := by
    have := (abs_le.mp (le_trans (le_max_left _ _) h3)).1
    linarith
  have hR : 0 < R := by linarith
  have hR' : 0 < R' := by linarith
  have hmu := hn.mu_pos
  have hin : away Rs Zs R Z ≤ 5 / 2 * h := by linarith
  have b1 := hn.boundR R Z hin
  have b2 := hn.boundZ R Z hin
  have hA0 := away_nonneg Rs Zs R Z
  have hM0 : M * away Rs Zs R Z ≤ 2 / 3 * mu * h := by
    by_cases hMn : 0 ≤ M
    · have q1 := mul_le_mul_of_nonneg_left h1 hMn
      have q2 := mul_le_mul_of_nonneg_right hM hh.le
      linarith
    · have q1 := mul_nonneg (neg_nonneg.mpr (not_le.mp hMn).le) hA0
      have q2 := mul_pos hmu hh
      linarith
  have s1 : f.dR R Z ^ 2 ≤ (2 / 3 * mu * h) ^ 2 := sq_le_sq' (by linarith [(abs_le.mp b1).1]) (by linarith [(abs_le.mp b1).2])
  have s2 : f.dZ R Z ^ 2 ≤ (2 / 3 * mu * h) ^ 2 := sq_le_sq' (by linarith [(abs_le.mp b2).1]) (by linarith [(abs_le.mp b2).2])
  -- the field on the rim
  have n1 := hn.nonsingular R' Z' h3 (R' - Rs) (Z' - Zs)
  have l1 := hn.linearR R' Z' h3
  have l2 := hn.linearZ R' Z' h3
  have hLs := hn.small
  have hrim : 9 / 8 * mu * h ≤ max |f.dR R' Z'| |f.dZ R' Z'| := by
    set A := away Rs Zs R' Z' with hA
    have n1' : mu * A ≤ max |f.dRR R' Z' * (R' - Rs) + f.dRZ R' Z' * (Z' - Zs)| |f.dRZ R' Z' * (R' - Rs) + f.dZZ R' Z' * (Z' - Zs)| := n1
    have hLA : L * A ^ 2 ≤ mu / 4 * A := by
      have q1 := mul_le_mul_of_nonneg_left h3 hn.L_nonneg
      have q2 : L * A ≤ mu / 4 := by linarith
      have q3 := mul_le_mul_of_nonneg_right q2 (le_trans (by linarith) h2 : (0 : K) ≤ A)
      calc L * A ^ 2 = L * A * A := by ring
        _ ≤ _ := q3
    have q4 := mul_le_mul_of_nonneg_left h2 hmu.le
    rcases le_max_iff.mp n1' with q | q
    · refine le_trans ?_ (le_max_left _ _)
      have q5 := abs_sub_abs_le_abs_sub (f.dRR R' Z' * (R' - Rs) + f.dRZ R' Z' * (Z' - Zs)) (f.dR R' Z')
      rw [abs_sub_comm] at q5
      linarith
    · refine le_trans ?_ (le_max_right _ _)
      have q5 := abs_sub_abs_le_abs_sub (f.dRZ R' Z' * (R' - Rs) + f.dZZ R' Z' * (Z' - Zs)) (f.dZ R' Z')
      rw [abs_sub_comm] at q5
      linarith
  have s3 : (9 / 8 * mu * h) ^ 2 ≤ f.dR R' Z' ^ 2 + f.dZ R' Z' ^ 2 := by
    have hp : 0 ≤ 9 / 8 * mu * h := by positivity
    rcases le_max_iff.mp hrim with q | q
    · have := pow_le_pow_left₀ hp q 2
      rw [sq_abs] at this
      linarith [sq_nonneg (f.dZ R' Z')]
    · have := pow_le_pow_left₀ hp q 2
      rw [sq_abs] at this
      linarith [sq_nonneg (f.dR R' Z')]
  simp only [Spline.Bp2]
  have r1 : 39 * R' ≤ 45 * R := by linarith
  have r2 : (39 * R') ^ 2 ≤ (45 * R) ^ 2 := pow_le_pow_left₀ (by positivity) r1 2
  rw [div_lt_div_iff₀ (by positivity) (by positivity)]
  set P := (mu * h) ^ 2 with hP
  have hPp : 0 < P := by positivity
  have t1 : f.dR R Z ^ 2 + f.dZ R Z ^ 2 ≤ 8 / 9 * P := by
    have : (2 / 3 * mu * h) ^ 2 = 4 / 9 * P := by rw [hP]; ring
    linarith
  have t2 : 81 / 64 * P ≤ f.dR R' Z' ^ 2 + f.dZ R' Z' ^ 2 := by
    have : (9 / 8 * mu * h) ^ 2 = 81 / 64 * P := by rw [hP]; ring
    linarith
  have hRp : 0 < R ^ 2 := by positivity
  have r3 : R' ^ 2 ≤ 2025 / 1521 * R ^ 2 := by linarith [mul_pow 39 R' 2, mul_pow 45 R 2]
  calc (f.dR R Z ^ 2 + f.dZ R Z ^ 2) * R' ^ 2 ≤ 8 / 9 * P * R' ^ 2 := mul_le_mul_of_nonneg_right t1 (by positivity)
    _ ≤ 8 / 9 * P * (2025 / 1521 * R ^ 2) := mul_le_mul_of_nonneg_left r3 (by positivity)
    _ = (8 / 9 * (2025 / 1521)) * (P * R ^ 2) := by ring
    _ < 81 / 64 * (P * R ^ 2) := mul_lt_mul_of_pos_right (by norm_num) (by positivity)
    _ = 81 / 64 * P * R ^ 2 := by ring
    _ ≤ _ := mul_le_mul_of_nonneg_right t2 hRp.le

/-- The differences of coordinates in the five by five block. -/
theorem block_away (h x0 Rs : K) (hh : 0 < h) (ic i : ℕ) (hc : |x0 + ic * h - Rs| ≤ h / 2) :
    (ic ≤ i + 1 → i ≤ ic + 1 → |x0 + i * h - Rs| ≤ 3 / 2 * h) ∧ (ic ≤ i + 2 → i ≤ ic + 2 → |x0 + i * h - Rs| ≤ 5 / 2 * h) ∧
    (ic = i + 2 ∨ i = ic + 2 → 3 / 2 * h ≤ |x0 + i * h - Rs|) := by
  obtain ⟨c1, c2⟩ := abs_le.mp hc
  refine ⟨fun a b => ?_, fun a b => ?_, ?_⟩
  · have a' : (ic : K) ≤ i + 1 := by exact_mod_cast a
    have b' : (i : K) ≤ ic + 1 := by exact_mod_cast b
    have := mul_le_mul_of_nonneg_right a' hh.le
    have := mul_le_mul_of_nonneg_right b' hh.le
    rw [abs_le]
    constructor <;> linarith
  · have a' : (ic : K) ≤ i + 2 := by exact_mod_cast a
    have b' : (i : K) ≤ ic + 2 := by exact_mod_cast b
    have := mul_le_mul_of_nonneg_right a' hh.le
    have := mul_le_mul_of_nonneg_right b' hh.le
    rw [abs_le]
    constructor <;> linarith
  · rintro (a | a)
    · have a' : (ic : K) = i + 2 := by exact_mod_cast a
      rw [a'] at c1 c2
      rw [le_abs]
      right
      linarith
    · have a' : (i : K) = ic + 2 := by exact_mod_cast a
      rw [a', le_abs]
      left
      linarith

/-- **C91** (nulls between the grid points). On a uniform grid of square cells of side `h`, a null about which the flux is curved
about equally in all directions (`M ≤ 4/3 mu`) and nearly quadratic over two and a half cells is found, wherever it is between the
grid points, unless two neighbours among the 25 grid points around it have exactly the same field strength. -/
theorem C91_isotropic_partial (f : Spline K) (psi : ℕ × ℕ → K) (discard : Bool) (os xs : List (Point K)) (nx ny : ℕ) (R0 Z0 h : K)
    (hh : 0 < h) (hrun : findCritical ⟨nx, ny, fun i => R0 + i * h, fun j => Z0 + j * h⟩ f psi discard = .ok (os, xs))
    (Rs Zs mu L M : K) (hn : RegularNull f Rs Zs (5 / 2 * h) mu L M) (hM : 3 * M ≤ 4 * mu) (hM' : M ≤ 10 ^ 27)
    (ic jc : ℕ) (hic : 3 ≤ ic ∧ ic + 3 < nx) (hjc : 3 ≤ jc ∧ jc + 3 < ny)
    (hci : |R0 + ic * h - Rs| ≤ h / 2) (hcj : |Z0 + jc * h - Zs| ≤ h / 2)
    (hties : ∀ i j a b : ℕ, ic ≤ i + 2 → i ≤ ic + 2 → jc ≤ j + 2 → j ≤ jc + 2 → ic ≤ a + 2 → a ≤ ic + 2 → jc ≤ b + 2 → b ≤ jc + 2 →
      a ≤ i + 1 → i ≤ a + 1 → b ≤ j + 1 → j ≤ b + 1 → (a, b) ≠ (i, j) → f.Bp2 (R0 + i * h) (Z0 + j * h) ≠ f.Bp2 (R0 + a * h) (Z0 + b * h)) :
    ((∀ i j : ℕ, ic ≤ i + 1 → i ≤ ic + 1 → jc ≤ j + 1 → j ≤ jc + 1 →
        0 ≤ discriminant ⟨nx, ny, fun i => R0 + i * h, fun j => Z0 + j * h⟩ psi i j) → FoundNear Rs Zs mu os) ∧
    ((∀ i j : ℕ, ic ≤ i + 1 → i ≤ ic + 1 → jc ≤ j + 1 → j ≤ jc + 1 →
        discriminant ⟨nx, ny, fun i => R0 + i * h, fun j => Z0 + j * h⟩ psi i j < 0) → discard = false → FoundNear Rs Zs mu xs) := by
  have hb := C91_block_partial ⟨nx, ny, fun i => R0 + i * h, fun j => Z0 + j * h⟩ f psi discard os xs hrun (ic - 2) (ic + 2) (jc - 2)
    (jc + 2) ic jc (by omega) (by simp only; omega) (by omega) (by simp only; omega) ⟨by omega, by omega⟩ ⟨by omega, by omega⟩
    (by
      intro i j h1 h2 h3 h4 h5
      obtain ⟨_, p2, p3⟩ := block_away h R0 Rs hh ic i hci
      obtain ⟨_, q2, q3⟩ := block_away h Z0 Zs hh jc j hcj
      refine rim_stronger hh hn hM _ _ _ _ (max_le hci hcj) ?_ (max_le (p2 (by omega) (by omega)) (q2 (by omega) (by omega)))
      rcases h5 with h5 | h5 | h5 | h5
      · exact le_trans (p3 (Or.inl (by omega))) (le_max_left _ _)
      · exact le_trans (p3 (Or.inr (by omega))) (le_max_left _ _)
      · exact le_trans (q3 (Or.inl (by omega))) (le_max_right _ _)
      · exact le_trans (q3 (Or.inr (by omega))) (le_max_right _ _))
    (by
      intro i j a b h1 h2 h3 h4 h5 h6 h7 h8 h9 h10 h11 h12 h13
      exact hties i j a b (by omega) (by omega) (by omega) (by omega) (by omega) (by omega) (by omega) (by omega) h9 h10 h11 h12 h13)
    Rs Zs (5 / 2 * h) mu L M hn hM' (by
      intro i j h1 h2 h3 h4
      obtain ⟨p1, _, _⟩ := block_away h R0 Rs hh ic i hci
      obtain ⟨q1, _, _⟩ := block_away h Z0 Zs hh jc j hcj
      have ha : away Rs Zs (R0 + i * h) (Z0 + j * h) ≤ 3 / 2 * h := max_le (p1 (by omega) (by omega)) (q1 (by omega) (by omega))
      refine ⟨le_trans ha (by linarith), ?_⟩
      have := pow_le_pow_left₀ (away_nonneg Rs Zs (R0 + i * h) (Z0 + j * h)) ha 2
      have hsq := sq_nonneg h
      simp only [Nat.cast_one, Nat.cast_zero]
      calc away Rs Zs (R0 + i * h) (Z0 + j * h) ^ 2 ≤ (3 / 2 * h) ^ 2 := this
        _ = 9 / 4 * h ^ 2 := by ring
        _ ≤ 4 * h ^ 2 := by linarith
        _ = _ := by ring)
  exact ⟨fun hd => hb.1 fun i j h1 h2 h3 h4 => hd i j (by omega) (by omega) (by omega) (by omega),
    fun hd => hb.2 fun i j h1 h2 h3 h4 => hd i j (by omega) (by omega) (by omega) (by omega)⟩

/-- A quadratic flux has a regular null wherever its gradient vanishes, up to any distance from which the axis is not too near. -/
theorem quadratic_regular (a c d e k Rs Zs r mu M : K) (hr : 0 < r) (haxis : 8 * r ≤ Rs) (hmu : 0 < mu)
    (h1 : 2 * a * Rs + d = 0) (h2 : 2 * c * Zs + e = 0) (ha : mu ≤ |2 * a|) (hc : mu ≤ |2 * c|) (ha' : |2 * a| ≤ M) (hc' : |2 * c| ≤ M) :
    RegularNull (quadratic a 0 c d e k) Rs Zs r mu 0 M where
  r_pos := hr
  axis := haxis
  mu_pos := hmu
  L_nonneg := le_refl _
  small := by rw [mul_zero, zero_mul]; exact hmu.le
  nonsingular R Z _ u v := by
    simp only [quadratic, zero_mul, add_zero, zero_add, abs_mul (2 * a), abs_mul (2 * c)]
    rw [mul_max_of_nonneg _ _ hmu.le]
    exact max_le_max (mul_le_mul_of_nonneg_right ha (abs_nonneg _)) (mul_le_mul_of_nonneg_right hc (abs_nonneg _))
  linearR R Z _ := by
    have : (quadratic a 0 c d e k).dR R Z - ((quadratic a 0 c d e k).dRR R Z * (R - Rs) + (quadratic a 0 c d e k).dRZ R Z * (Z - Zs)) = 0 := by
      simp only [quadratic]
      linear_combination h1
    rw [this, abs_zero, zero_mul]
  linearZ R Z _ := by
    have : (quadratic a 0 c d e k).dZ R Z - ((quadratic a 0 c d e k).dRZ R Z * (R - Rs) + (quadratic a 0 c d e k).dZZ R Z * (Z - Zs)) = 0 := by
      simp only [quadratic]
      linear_combination h2
    rw [this, abs_zero, zero_mul]
  boundR R Z _ := by
    have : (quadratic a 0 c d e k).dR R Z = 2 * a * (R - Rs) := by
      simp only [quadratic]
      linear_combination h1
    rw [this, abs_mul]
    exact mul_le_mul ha' (le_max_left _ _) (abs_nonneg _) (le_trans (abs_nonneg _) ha')
  boundZ R Z _ := by
    have : (quadratic a 0 c d e k).dZ R Z = 2 * c * (Z - Zs) := by
      simp only [quadratic]
      linear_combination h2
    rw [this, abs_mul]
    exact mul_le_mul hc' (le_max_right _ _) (abs_nonneg _) (le_trans (abs_nonneg _) hc')

/-- The flux `(R - 24.3)² + (Z - 3.2)²` on a grid of 8 by 8 points with cells of side 1. -/
def offGrid : Spline ℚ := quadratic 1 0 1 (-(243 / 5)) (-(32 / 5)) (243 ^ 2 / 100 + 16 ^ 2 / 25)

/-- A computation has ended without an exception. -/
def endedWell {α : Type*} : Except Err α → Bool
  | .ok _ => true
  | .error _ => false

-- the hypotheses hold for a null which is not a grid point, and it is found
example : ∃ os xs, findCritical (⟨8, 8, fun i => 20 + i * 1, fun j => 0 + j * 1⟩ : Mesh ℚ) offGrid
      (fun x => offGrid.f (20 + x.1 * 1) (0 + x.2 * 1)) false = .ok (os, xs) ∧ FoundNear (243 / 10 : ℚ) (16 / 5) 2 os := by
  have hok : endedWell (findCritical (⟨8, 8, fun i => 20 + i * 1, fun j => 0 + j * 1⟩ : Mesh ℚ) offGrid
      (fun x => offGrid.f (20 + x.1 * 1) (0 + x.2 * 1)) false) = true := by decide +kernel
  cases hrun : findCritical (⟨8, 8, fun i => 20 + i * 1, fun j => 0 + j * 1⟩ : Mesh ℚ) offGrid
      (fun x => offGrid.f (20 + x.1 * 1) (0 + x.2 * 1)) false with
  | error e => rw [hrun] at hok; cases hok
  | ok res =>
    obtain ⟨os, xs⟩ := res
    refine ⟨os, xs, rfl, ?_⟩
    refine (C91_isotropic_partial offGrid _ false os xs 8 8 20 0 1 one_pos hrun (243 / 10) (16 / 5) 2 0 2
      (quadratic_regular 1 1 _ _ _ _ _ _ 2 2 (by norm_num) (by norm_num) (by norm_num) (by norm_num) (by norm_num) (by norm_num)
        (by norm_num) (by norm_num) (by norm_num)) (by norm_num) (by norm_num) 4 3 (by decide) (by decide)
      (by rw [abs_le]; constructor <;> norm_num) (by rw [abs_le]; constructor <;> norm_num) ?_).1 ?_
    · have hall : ∀ i < 7, ∀ j < 6, ((List.range 7).all fun a => (List.range 6).all fun b =>
          decide (((a, b) : ℕ × ℕ) = (i, j)) ||
            !decide (offGrid.Bp2 (20 + (i : ℕ) * 1) (0 + (j : ℕ) * 1) = offGrid.Bp2 (20 + (a : ℕ) * 1) (0 + (b : ℕ) * 1))) = true := by
        decide +kernel
      intro i j a b h1 h2 h3 h4 h5 h6 h7 h8 _ _ _ _ hne
      have := hall i (by omega) j (by omega)
      simp only [List.all_eq_true, List.mem_range, Bool.or_eq_true, decide_eq_true_eq, Bool.not_eq_true', decide_eq_false_iff_not] at this
      exact (this a (by omega) b (by omega)).resolve_left hne
    · intro i j h1 h2 h3 h4
      have := quadratic_discriminant (1 : ℚ) 0 1 (-(243 / 5)) (-(32 / 5)) (243 ^ 2 / 100 + 16 ^ 2 / 25) 20 0 1 1 (by norm_num)
        (by norm_num) 8 8 i j (by omega) (by omega)
      rw [show offGrid = quadratic 1 0 1 (-(243 / 5)) (-(32 / 5)) (243 ^ 2 / 100 + 16 ^ 2 / 25) from rfl, this]
      norm_num

end FreeGS.Critical
