import Verif.Lemmas.GreenIdentity

set_option linter.unusedSectionVars false

/-!
# Ampère's law for a filament
-/

namespace FreeGS.GS

open Real Set MeasureTheory

/-- The half plane without the filament. -/
def offPoint (P : ℝ × ℝ) : Set (ℝ × ℝ) := {q | 0 < q.1 ∧ q ≠ P}

theorem ii {a b : ℝ} {g : ℝ → ℝ} (h : a ≤ b) (hg : ContinuousOn g (Icc a b)) : IntervalIntegrable g volume a b := by
  rw [← uIcc_of_le h] at hg
  exact hg.intervalIntegrable

theorem side_y {P : ℝ × ℝ} {u : ℝ → ℝ → ℝ} (hu : ContinuousOn (fun q : ℝ × ℝ => u q.1 q.2) (offPoint P)) {x c d : ℝ} (hx : 0 < x) (hcd : c ≤ d)
    (h : x ≠ P.1 ∨ P.2 ∉ Icc c d) : IntervalIntegrable (u x) volume c d := by
  refine ii hcd ?_
  have : ContinuousOn (fun y : ℝ => (x, y)) (Icc c d) := by fun_prop
  refine hu.comp this fun y hy => ⟨hx, fun e => ?_⟩
  rw [← e] at h
  exact h.elim (fun h => h rfl) fun h => h hy

theorem side_x {P : ℝ × ℝ} {v : ℝ → ℝ → ℝ} (hv : ContinuousOn (fun q : ℝ × ℝ => v q.1 q.2) (offPoint P)) {y a b : ℝ} (ha : 0 < a) (hab : a ≤ b)
    (h : y ≠ P.2 ∨ P.1 ∉ Icc a b) : IntervalIntegrable (fun x => v x y) volume a b := by
  refine ii hab ?_
  have : ContinuousOn (fun x : ℝ => (x, y)) (Icc a b) := by fun_prop
  refine hv.comp this fun x hx => ⟨lt_of_lt_of_le ha hx.1, fun e => ?_⟩
  rw [← e] at h
  exact h.elim (fun h => h rfl) fun h => h hx

/-- The flow out of a frame. -/
theorem flow_frame {P : ℝ × ℝ} {u v : ℝ → ℝ → ℝ} (hu : ContinuousOn (fun q : ℝ × ℝ => u q.1 q.2) (offPoint P))
    (hv : ContinuousOn (fun q : ℝ × ℝ => v q.1 q.2) (offPoint P)) {a' a b b' c' c d d' : ℝ} (h0 : 0 < a') (h1 : a' ≤ a) (h2 : a < P.1) (h3 : P.1 < b)
    (h4 : b ≤ b') (h5 : c' ≤ c) (h6 : c < P.2) (h7 : P.2 < d) (h8 : d ≤ d') :
    flow u v a' b' c' d' = flow u v a' a c' d' + flow u v b b' c' d' + flow u v a b c' c + flow u v a b d d' + flow u v a b c d := by
  have ha := lt_of_lt_of_le h0 h1
  have hb := (ha.trans h2).trans h3
  have hab := (h2.trans h3).le
  have hcd := (h6.trans h7).le
  have t : ∀ y, y ≠ P.2 → ∫ x in a'..b', v x y = (∫ x in a'..a, v x y) + (∫ x in a..b, v x y) + ∫ x in b..b', v x y := by
    intro y hy
    rw [intervalIntegral.integral_add_adjacent_intervals (side_x hv h0 h1 (Or.inl hy)) (side_x hv ha hab (Or.inl hy)),
      intervalIntegral.integral_add_adjacent_intervals (side_x hv h0 (h1.trans hab) (Or.inl hy)) (side_x hv hb h4 (Or.inl hy))]
  have s : ∀ x, 0 < x → x ≠ P.1 → ∫ y in c'..d', u x y = (∫ y in c'..c, u x y) + (∫ y in c..d, u x y) + ∫ y in d..d', u x y := by
    intro x hx0 hx
    rw [intervalIntegral.integral_add_adjacent_intervals (side_y hu hx0 h5 (Or.inl hx)) (side_y hu hx0 hcd (Or.inl hx)),
      intervalIntegral.integral_add_adjacent_intervals (side_y hu hx0 (h5.trans hcd) (Or.inl hx)) (side_y hu hx0 h8 (Or.inl hx))]
  simp only [flow]
  rw [t c' (h5.trans_lt h6).ne, t d' (h7.trans_le h8).ne', s a ha h2.ne, s b hb h3.ne']
  ring

/-- The integral over a frame. -/
theorem integral_frame {h : ℝ → ℝ → ℝ} (hh : ContinuousOn (fun q : ℝ × ℝ => h q.1 q.2) {q | 0 < q.1}) {a' a b b' c' c d d' : ℝ} (h0 : 0 < a')
    (h1 : a' ≤ a) (h2 : a ≤ b) (h4 : b ≤ b') (h5 : c' ≤ c) (h6 : c ≤ d) (h8 : d ≤ d') :
    ∫ x in a'..b', ∫ y in c'..d', h x y = (∫ x in a'..a, ∫ y in c'..d', h x y) + (∫ x in b..b', ∫ y in c'..d', h x y) +
      (∫ x in a..b, ∫ y in c'..c, h x y) + (∫ x in a..b, ∫ y in d..d', h x y) + ∫ x in a..b, ∫ y in c..d, h x y := by
  have ha := lt_of_lt_of_le h0 h1
  have hb := ha.trans_le h2
  have o : ∀ {a b c d : ℝ}, 0 < a → a ≤ b → c ≤ d → IntervalIntegrable (fun x => ∫ y in c..d, h x y) volume a b := fun {a b c d} ha hab hcd =>
    ii hab (param_cont hcd (hh.mono fun q hq => lt_of_lt_of_le ha hq.1.1))
  have n : ∀ {x c d : ℝ}, 0 < x → c ≤ d → IntervalIntegrable (h x) volume c d := fun {x c d} hx hcd => by
    refine ii hcd ?_
    have : ContinuousOn (fun y : ℝ => (x, y)) (Icc c d) := by fun_prop
    exact hh.comp this fun y _ => hx
  have hcd := (h5.trans h6).trans h8
  rw [← intervalIntegral.integral_add_adjacent_intervals (o h0 (h1.trans h2) hcd) (o hb h4 hcd),
    ← intervalIntegral.integral_add_adjacent_intervals (o h0 h1 hcd) (o ha h2 hcd)]
  have m : ∫ x in a..b, ∫ y in c'..d', h x y = (∫ x in a..b, ∫ y in c'..c, h x y) + (∫ x in a..b, ∫ y in d..d', h x y) + ∫ x in a..b, ∫ y in c..d, h x y := by
    rw [← intervalIntegral.integral_add (o ha h2 h5) (o ha h2 h8), ← intervalIntegral.integral_add ((o ha h2 h5).add (o ha h2 h8)) (o ha h2 h6)]
    refine intervalIntegral.integral_congr fun x hx => ?_
    rw [uIcc_of_le h2] at hx
    have hx0 := ha.trans_le hx.1
    rw [← intervalIntegral.integral_add_adjacent_intervals (n hx0 (h5.trans h6)) (n hx0 h8),
      ← intervalIntegral.integral_add_adjacent_intervals (n hx0 h5) (n hx0 h6)]
    ring
  rw [m]
  ring

theorem integral_zero_of {a b c d : ℝ} {h : ℝ → ℝ → ℝ} (hab : a ≤ b) (hcd : c ≤ d) (hz : ∀ x ∈ Icc a b, ∀ y ∈ Icc c d, h x y = 0) :
    ∫ x in a..b, ∫ y in c..d, h x y = 0 := by
  rw [intervalIntegral.integral_congr (g := fun _ => (0 : ℝ)) fun x hx => ?_, intervalIntegral.integral_zero]
  rw [uIcc_of_le hab] at hx
  simp only
  rw [intervalIntegral.integral_congr (g := fun _ => (0 : ℝ)) fun y hy => ?_, intervalIntegral.integral_zero]
  rw [uIcc_of_le hcd] at hy
  exact hz x hx y hy

/-! ## Continuity off the filament -/

theorem off_cont {P : ℝ × ℝ} {f : ℝ × ℝ → ℝ} (h : ∀ D : Rectangle, 0 < D.a → P ∉ D.set → ContinuousOn f D.set) : ContinuousOn f (offPoint P) := by
  intro q hq
  refine ContinuousAt.continuousWithinAt ?_
  obtain ⟨r, hr, hP, hq0⟩ : ∃ r : ℝ, 0 < r ∧ ¬ (|P.1 - q.1| ≤ r ∧ |P.2 - q.2| ≤ r) ∧ 0 < q.1 - r := by
    have hd : 0 < max |P.1 - q.1| |P.2 - q.2| := by
      rw [lt_max_iff, abs_pos, abs_pos, sub_ne_zero, sub_ne_zero]
      by_contra hcon
      push Not at hcon
      exact hq.2 (Prod.ext hcon.1.symm hcon.2.symm)
    refine ⟨min (max |P.1 - q.1| |P.2 - q.2|) q.1 / 2, half_pos (lt_min hd hq.1), ?_, ?_⟩
    · rw [← max_le_iff, not_le]
      linarith [min_le_left (max |P.1 - q.1| |P.2 - q.2|) q.1, lt_min hd hq.1]
    · linarith [min_le_right (max |P.1 - q.1| |P.2 - q.2|) q.1, hq.1]
  have hc := h ⟨q.1 - r, q.1 + r, q.2 - r, q.2 + r, by linarith, by linarith⟩ hq0 (fun hm => by
    obtain ⟨⟨m1, m2⟩, m3, m4⟩ := hm
    simp only at m1 m2 m3 m4
    exact hP ⟨abs_le.mpr ⟨by linarith, by linarith⟩, abs_le.mpr ⟨by linarith, by linarith⟩⟩)
  refine hc.continuousAt ?_
  rw [Rectangle.set]
  exact prod_mem_nhds (Icc_mem_nhds (by simp only; linarith) (by simp only; linarith)) (Icc_mem_nhds (by simp only; linarith) (by simp only; linarith))

variable {P : ℝ × ℝ}

theorem off_flux (hP0 : 0 < P.1) : ContinuousOn (fun q : ℝ × ℝ => filamentFlux q.1 q.2 P.1 P.2) (offPoint P) :=
  off_cont fun _ ha hP => (cont_flux ha hP0 hP).congr fun _ _ => filamentFlux_comm _ _ _ _

theorem off_Br (hP0 : 0 < P.1) : ContinuousOn (fun q : ℝ × ℝ => biotSavartR P.1 P.2 q.1 q.2) (offPoint P) := off_cont fun _ ha hP => cont_Br ha hP0 hP

theorem off_Bz (hP0 : 0 < P.1) : ContinuousOn (fun q : ℝ × ℝ => biotSavartZ P.1 P.2 q.1 q.2) (offPoint P) := off_cont fun _ ha hP => cont_Bz ha hP0 hP

/-! ## The circulation -/

/-- The circulation of the field of a filament about a rectangle, with the current out of the plane. -/
noncomputable def circ (P : ℝ × ℝ) (a b c d : ℝ) : ℝ := flow (fun x y => -biotSavartZ P.1 P.2 x y) (fun x y => biotSavartR P.1 P.2 x y) a b c d

theorem circ_zero (hP0 : 0 < P.1) {a b c d : ℝ} (ha : 0 < a) (hab : a ≤ b) (hcd : c ≤ d) (hP : ¬ (P.1 ∈ Icc a b ∧ P.2 ∈ Icc c d)) : circ P a b c d = 0 := by
  have g := green_full (D := ⟨a, b, c, d, hab, hcd⟩) (P := P) ha hP0 (fun h => hP h) (fun _ _ => 1) (fun _ _ => 0) (fun _ _ => 0) (fun _ _ => 0) (fun _ _ => 0)
    continuousOn_const continuousOn_const continuousOn_const continuousOn_const continuousOn_const (fun q _ => hasDerivAt_const _ _)
    (fun q _ => hasDerivAt_const _ _) (fun q _ => hasDerivAt_const _ _) (fun q _ => hasDerivAt_const _ _)
  simp only [mul_zero, zero_div, mul_one, zero_sub, zero_add, sub_zero, add_zero, Rectangle.integral, intervalIntegral.integral_zero] at g
  rw [circ]
  exact g.symm

theorem circ_frame (hP0 : 0 < P.1) {a' a b b' c' c d d' : ℝ} (h0 : 0 < a') (h1 : a' ≤ a) (h2 : a < P.1) (h3 : P.1 < b)
    (h4 : b ≤ b') (h5 : c' ≤ c) (h6 : c < P.2) (h7 : P.2 < d) (h8 : d ≤ d') : circ P a' b' c' d' = circ P a b c d := by
  have ha := lt_of_lt_of_le h0 h1
  have hb := (ha.trans h2).trans h3
  have hab := (h2.trans h3).le
  have hcd := (h6.trans h7).le
  have hcd' : c' ≤ d' := (h5.trans hcd).trans h8
  have e : circ P a' b' c' d' = circ P a' a c' d' + circ P b b' c' d' + circ P a b c' c + circ P a b d d' + circ P a b c d :=
    flow_frame (off_Bz hP0).neg (off_Br hP0) h0 h1 h2 h3 h4 h5 h6 h7 h8
  rw [e, circ_zero hP0 h0 h1 hcd' (fun h => absurd h.1.2 (not_le.mpr h2)), circ_zero hP0 hb h4 hcd' (fun h => absurd h.1.1 (not_le.mpr h3)),
    circ_zero hP0 ha hab h5 (fun h => absurd h.2.2 (not_le.mpr h6)), circ_zero hP0 ha hab h8 (fun h => absurd h.2.1 (not_le.mpr h7))]
  ring

/-! ## The circulation about a large rectangle -/

theorem mu0_pos : 0 < mu0 := by unfold mu0; positivity

/-- The radial field is at most `mu0 Rc / (2 D²)`. -/
theorem biotSavartR_le {Rc Zc R Z D : ℝ} (hR : 0 < R) (hRc : 0 < Rc) (hD0 : 0 < D) (hD : D ^ 2 ≤ (R - Rc) ^ 2 + (Z - Zc) ^ 2) :
    |biotSavartR Rc Zc R Z| ≤ mu0 / 2 * (Rc / D ^ 2) := by
  unfold biotSavartR
  refine loop_le fun φ => ?_
  have hsd := sourceDist_pos hR hRc (apart hD0 hD) φ
  have hge := sourceDist_ge hR hRc hD φ
  have hsq := sourceDist_sq' Rc Zc R Z φ
  set d := sourceDist Rc Zc R Z φ with hd
  have hz : |Z - Zc| ≤ d := abs_le_of_sq_le_sq (by rw [hsq]; nlinarith [sq_nonneg (R - Rc * cos φ), sq_nonneg (Rc * sin φ)]) hsd.le
  rw [abs_div, abs_mul, abs_mul, abs_of_pos hRc, abs_of_pos (pow_pos hsd 3)]
  have hc := abs_cos_le_one φ
  calc Rc * |cos φ| * |Z - Zc| / d ^ 3 ≤ Rc * 1 * d / d ^ 3 := by gcongr
    _ = Rc / d ^ 2 := by field_simp
    _ ≤ Rc / D ^ 2 := div_le_div_of_nonneg_left hRc.le (pow_pos hD0 2) (pow_le_pow_left₀ hD0.le hge 2)

theorem axis_field (Rc Zc Z : ℝ) : biotSavartZ Rc Zc 0 Z = mu0 / 2 * (Rc ^ 2 / √(Rc ^ 2 + (Z - Zc) ^ 2) ^ 3) := by
  have e : ∀ φ, sourceDist Rc Zc 0 Z φ = √(Rc ^ 2 + (Z - Zc) ^ 2) := fun φ => by
    rw [sourceDist, sourceDist_sq]
    congr 1
    ring
  have n : ∀ φ, (-(Rc * sin φ)) * (-(Rc * sin φ)) - Rc * cos φ * (0 - Rc * cos φ) = Rc ^ 2 := fun φ => by
    linear_combination Rc ^ 2 * sin_sq_add_cos_sq φ
  unfold biotSavartZ
  simp only [e, n, intervalIntegral.integral_const, sub_zero, smul_eq_mul]
  have := pi_pos
  field_simp
  ring

theorem axis_integral {Rc : ℝ} (hRc : 0 < Rc) (Zc L : ℝ) : ∫ y in (Zc - L)..(Zc + L), biotSavartZ Rc Zc 0 y = mu0 * (L / √(Rc ^ 2 + L ^ 2)) := by
  have hd : ∀ y : ℝ, HasDerivAt (fun y => mu0 / 2 * ((y - Zc) / √(Rc ^ 2 + (y - Zc) ^ 2))) (biotSavartZ Rc Zc 0 y) y := by
    intro y
    have p : 0 < Rc ^ 2 + (y - Zc) ^ 2 := by positivity
    have s := Real.sqrt_pos.mpr p
    have q := Real.sq_sqrt p.le
    have h1 : HasDerivAt (fun y : ℝ => y - Zc) 1 y := (hasDerivAt_id y).sub_const Zc
    have h2 : HasDerivAt (fun y : ℝ => Rc ^ 2 + (y - Zc) ^ 2) (2 * (y - Zc)) y := by
      refine ((h1.pow 2).const_add (Rc ^ 2)).congr_deriv ?_
      norm_num
    refine ((h1.div (h2.sqrt p.ne') s.ne').const_mul (mu0 / 2)).congr_deriv ?_
    rw [axis_field]
    congr 1
    have e : Rc ^ 2 = √(Rc ^ 2 + (y - Zc) ^ 2) ^ 2 - (y - Zc) ^ 2 := by rw [q]; ring
    generalize √(Rc ^ 2 + (y - Zc) ^ 2) = r at *
    rw [e]
    field_simp
  rw [intervalIntegral.integral_eq_sub_of_hasDerivAt fun y _ => hd y]
  · have e1 : Zc + L - Zc = L := by ring
    have e2 : Zc - L - Zc = -L := by ring
    rw [e1, e2, neg_sq]
    ring
  · have : Continuous fun y => biotSavartZ Rc Zc 0 y := by
      simp only [axis_field]
      refine continuous_const.mul (continuous_const.div (by fun_prop) fun y => ?_)
      have : 0 < Rc ^ 2 + (y - Zc) ^ 2 := by positivity
      positivity
    exact this.intervalIntegrable _ _

/-- The vertical field is continuous up to the axis. -/
theorem cont_axis (hP0 : 0 < P.1) (c d : ℝ) : ContinuousOn (fun q : ℝ × ℝ => biotSavartZ P.1 P.2 q.1 q.2) (Icc 0 (P.1 / 2) ×ˢ Icc c d) := by
  unfold biotSavartZ
  refine continuousOn_const.mul (param_cont (by positivity) (ContinuousOn.div (by fun_prop) (dist_cont.pow 3).continuousOn ?_))
  rintro ⟨⟨x, y⟩, φ⟩ ⟨⟨hx, -⟩, -⟩
  refine pow_ne_zero 3 (Real.sqrt_ne_zero'.mpr ?_)
  simp only at hx ⊢
  rw [sourceDist_sq]
  nlinarith [cos_le_one φ, mul_nonneg hx.1 hP0.le, sq_nonneg (y - P.2), hx.2, hx.1, mul_pos hP0 hP0]

theorem circ_large (hP0 : 0 < P.1) {L ε : ℝ} (hL : 2 * P.1 ≤ L) (hε : 0 < ε) (hε' : ε ≤ P.1 / 2) :
    |circ P ε L (P.2 - L) (P.2 + L) - ∫ y in (P.2 - L)..(P.2 + L), biotSavartZ P.1 P.2 ε y| ≤ 5 * mu0 * P.1 / L := by
  have hmu := mu0_pos
  have hL0 : 0 < L := by linarith
  have hLP : L / 2 ≤ L - P.1 := by linarith
  have r : ‖∫ y in (P.2 - L)..(P.2 + L), -biotSavartZ P.1 P.2 L y‖ ≤ (mu0 / 2 * (P.1 / (L / 2) ^ 2)) * |P.2 + L - (P.2 - L)| :=
    intervalIntegral.norm_integral_le_of_norm_le_const fun y _ => by
      rw [norm_neg, Real.norm_eq_abs]
      exact biotSavartZ_le hL0 hP0 (by positivity) (by nlinarith [sq_nonneg (y - P.2)])
  have t : ∀ s : ℝ, s ^ 2 = L ^ 2 → ‖∫ x in ε..L, biotSavartR P.1 P.2 x (P.2 + s)‖ ≤ (mu0 / 2 * (P.1 / L ^ 2)) * |L - ε| := fun s hs =>
    intervalIntegral.norm_integral_le_of_norm_le_const fun x hx => by
      rw [uIoc_of_le (by linarith)] at hx
      rw [Real.norm_eq_abs]
      exact biotSavartR_le (hε.trans hx.1) hP0 hL0 (by rw [add_sub_cancel_left, hs]; nlinarith [sq_nonneg (x - P.1)])
  have t1 := t L rfl
  have t2 := t (-L) (neg_sq L)
  rw [← sub_eq_add_neg] at t2
  rw [Real.norm_eq_abs] at r t1 t2
  rw [show P.2 + L - (P.2 - L) = 2 * L by ring, abs_of_pos (show 0 < 2 * L by positivity)] at r
  rw [abs_of_nonneg (show 0 ≤ L - ε by linarith)] at t1 t2
  have r' : mu0 / 2 * (P.1 / (L / 2) ^ 2) * (2 * L) = 4 * (mu0 * P.1 / L) := by field_simp; ring
  have t' : mu0 / 2 * (P.1 / L ^ 2) * (L - ε) ≤ (mu0 * P.1 / L) / 2 := by
    rw [show (mu0 * P.1 / L) / 2 = mu0 / 2 * (P.1 / L ^ 2) * L by field_simp]
    exact mul_le_mul_of_nonneg_left (by linarith) (by positivity)
  rw [circ, flow, intervalIntegral.integral_neg (f := fun y => biotSavartZ P.1 P.2 ε y)]
  have e : 5 * mu0 * P.1 / L = 5 * (mu0 * P.1 / L) := by ring
  rw [e]
  rw [r'] at r
  have b1 := abs_le.mp r
  have b2 := abs_le.mp t1
  have b3 := abs_le.mp t2
  rw [abs_le]
  constructor <;> linarith [b1.1, b1.2, b2.1, b2.2, b3.1, b3.2]

/-- **Ampère's law.** The circulation of the field of a filament about a rectangle that contains it. -/
theorem ampere (hP0 : 0 < P.1) {a b c d : ℝ} (ha : 0 < a) (h1 : a < P.1) (h2 : P.1 < b) (h3 : c < P.2) (h4 : P.2 < d) : circ P a b c d = mu0 := by
  have hmu := mu0_pos
  -- a large rectangle has the same circulation
  set L0 := 2 * P.1 + b + |P.2 - c| + |d - P.2| with hL0
  have a1 := abs_nonneg (P.2 - c)
  have a2 := abs_nonneg (d - P.2)
  have a3 := le_abs_self (P.2 - c)
  have a4 := le_abs_self (d - P.2)
  have same : ∀ L ε, L0 ≤ L → 0 < ε → ε ≤ a → circ P ε L (P.2 - L) (P.2 + L) = circ P a b c d := fun L ε hL hε hεa =>
    circ_frame hP0 hε hεa h1 h2 (by linarith) (by linarith) h3 h4 (by linarith)
  have key : ∀ L, L0 ≤ L → |circ P a b c d - mu0 * (L / √(P.1 ^ 2 + L ^ 2))| ≤ 5 * mu0 * P.1 / L := by
    intro L hL
    rw [← axis_integral hP0]
    have hc : ContinuousWithinAt (fun x => ∫ y in (P.2 - L)..(P.2 + L), biotSavartZ P.1 P.2 x y) (Icc 0 (P.1 / 2)) 0 :=
      param_cont (f := fun x y => biotSavartZ P.1 P.2 x y) (by linarith) (cont_axis hP0 _ _) 0 ⟨le_rfl, by linarith⟩
    have hc' : Filter.Tendsto (fun x => |circ P a b c d - ∫ y in (P.2 - L)..(P.2 + L), biotSavartZ P.1 P.2 x y|) (nhdsWithin 0 (Ioi 0))
        (nhds |circ P a b c d - ∫ y in (P.2 - L)..(P.2 + L), biotSavartZ P.1 P.2 0 y|) := by
      refine (Filter.Tendsto.sub tendsto_const_nhds ?_).abs
      exact hc.tendsto.mono_left (nhdsWithin_le_of_mem (Icc_mem_nhdsGT (by linarith)))
    refine le_of_tendsto hc' ?_
    filter_upwards [Ioo_mem_nhdsGT (show (0 : ℝ) < min a (P.1 / 2) from lt_min ha (by linarith))] with ε hε
    have hεa := hε.2.le.trans (min_le_left _ _)
    have hεP := hε.2.le.trans (min_le_right _ _)
    have := circ_large hP0 (L := L) (by linarith) hε.1 hεP
    rwa [same L ε hL hε.1 hεa] at this
  have one : ∀ L, L0 ≤ L → |mu0 * (L / √(P.1 ^ 2 + L ^ 2)) - mu0| ≤ mu0 * P.1 / L := by
    intro L hL
    have hLp : 0 < L := by linarith
    have p : 0 < P.1 ^ 2 + L ^ 2 := by positivity
    have s := Real.sqrt_pos.mpr p
    have lo : L ≤ √(P.1 ^ 2 + L ^ 2) := Real.le_sqrt_of_sq_le (by nlinarith [sq_nonneg P.1])
    have hi : √(P.1 ^ 2 + L ^ 2) ≤ L + P.1 := Real.sqrt_le_iff.mpr ⟨by linarith, by nlinarith⟩
    rw [show mu0 * (L / √(P.1 ^ 2 + L ^ 2)) - mu0 = -(mu0 * ((√(P.1 ^ 2 + L ^ 2) - L) / √(P.1 ^ 2 + L ^ 2))) by field_simp; ring, abs_neg,
      abs_of_nonneg (mul_nonneg hmu.le (div_nonneg (by linarith) s.le)), mul_div_assoc]
    refine mul_le_mul_of_nonneg_left ?_ hmu.le
    exact div_le_div₀ hP0.le (by linarith) hLp lo
  have all : ∀ L, L0 ≤ L → |circ P a b c d - mu0| ≤ 6 * mu0 * P.1 / L := by
    intro L hL
    have e : 6 * mu0 * P.1 / L = 5 * mu0 * P.1 / L + mu0 * P.1 / L := by ring
    rw [e]
    refine (abs_sub_le _ (mu0 * (L / √(P.1 ^ 2 + L ^ 2))) _).trans (add_le_add (key L hL) (one L hL))
  have lim : Filter.Tendsto (fun L : ℝ => 6 * mu0 * P.1 / L) Filter.atTop (nhds 0) := tendsto_const_nhds.div_atTop Filter.tendsto_id
  have hz : |circ P a b c d - mu0| ≤ 0 := ge_of_tendsto lim (by filter_upwards [Filter.eventually_ge_atTop L0] with L hL using all L hL)
  exact sub_eq_zero.mp (abs_eq_zero.mp (le_antisymm hz (abs_nonneg _)))

end FreeGS.GS
