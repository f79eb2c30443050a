import Verif.Lemmas.Ampere
import Verif.Props.Vacuum

set_option linter.unusedSectionVars false

/-!
# C115: Ampère's law for the field of the coils
-/

namespace FreeGS

open Real Set MeasureTheory GS

/-- The circulation of a poloidal field about a rectangle in the `(R, Z)` plane, up the inner side, outwards at the top, down the outer side and back at
the bottom: in this sense the current in the direction of the toroidal angle counts as positive. -/
noncomputable def circulation (Q : Rectangle) (BR BZ : ℝ → ℝ → ℝ) : ℝ :=
  (∫ Z in Q.c..Q.d, BZ Q.a Z) + (∫ R in Q.a..Q.b, BR R Q.d) - (∫ Z in Q.c..Q.d, BZ Q.b Z) - ∫ R in Q.a..Q.b, BR R Q.c

open Classical in
/-- The sum of the currents of the filaments that pass through a rectangle. -/
noncomputable def enclosed (Q : Rectangle) (l : List (ℝ × ℝ × ℝ)) : ℝ :=
  (l.map fun f => if f.1 ∈ Ioo Q.a Q.b ∧ f.2.1 ∈ Ioo Q.c Q.d then f.2.2 else 0).sum

/-! ## Lemmas -/

/-- The field of filaments by the law of Biot and Savart. -/
noncomputable def lawR (l : List (ℝ × ℝ × ℝ)) (R Z : ℝ) : ℝ := (l.map fun f => biotSavartR f.1 f.2.1 R Z * f.2.2).sum
noncomputable def lawZ (l : List (ℝ × ℝ × ℝ)) (R Z : ℝ) : ℝ := (l.map fun f => biotSavartZ f.1 f.2.1 R Z * f.2.2).sum

/-- No filament is on the edge. -/
def OffEdge (Q : Rectangle) (l : List (ℝ × ℝ × ℝ)) : Prop := ∀ f ∈ l, 0 < f.1 ∧ ∀ q ∈ Q.edge, q.1 ≠ f.1 ∨ q.2 ≠ f.2.1

theorem edge_left (Q : Rectangle) {y : ℝ} (hy : y ∈ Icc Q.c Q.d) : (Q.a, y) ∈ Q.edge := ⟨⟨⟨le_rfl, Q.hab⟩, hy⟩, Or.inl rfl⟩
theorem edge_right (Q : Rectangle) {y : ℝ} (hy : y ∈ Icc Q.c Q.d) : (Q.b, y) ∈ Q.edge := ⟨⟨⟨Q.hab, le_rfl⟩, hy⟩, Or.inr (Or.inl rfl)⟩
theorem edge_bottom (Q : Rectangle) {x : ℝ} (hx : x ∈ Icc Q.a Q.b) : (x, Q.c) ∈ Q.edge := ⟨⟨hx, ⟨le_rfl, Q.hcd⟩⟩, Or.inr (Or.inr (Or.inl rfl))⟩
theorem edge_top (Q : Rectangle) {x : ℝ} (hx : x ∈ Icc Q.a Q.b) : (x, Q.d) ∈ Q.edge := ⟨⟨hx, ⟨Q.hcd, le_rfl⟩⟩, Or.inr (Or.inr (Or.inr rfl))⟩

theorem circulation_congr (Q : Rectangle) {BR BZ BR' BZ' : ℝ → ℝ → ℝ} (h1 : ∀ q ∈ Q.edge, BR q.1 q.2 = BR' q.1 q.2)
    (h2 : ∀ q ∈ Q.edge, BZ q.1 q.2 = BZ' q.1 q.2) : circulation Q BR BZ = circulation Q BR' BZ' := by
  have y : ∀ {x}, (∀ y ∈ Icc Q.c Q.d, (x, y) ∈ Q.edge) → ∫ Z in Q.c..Q.d, BZ x Z = ∫ Z in Q.c..Q.d, BZ' x Z := fun {x} h =>
    intervalIntegral.integral_congr fun z hz => by rw [uIcc_of_le Q.hcd] at hz; exact h2 _ (h z hz)
  have x : ∀ {y}, (∀ x ∈ Icc Q.a Q.b, (x, y) ∈ Q.edge) → ∫ R in Q.a..Q.b, BR R y = ∫ R in Q.a..Q.b, BR' R y := fun {y} h =>
    intervalIntegral.integral_congr fun z hz => by rw [uIcc_of_le Q.hab] at hz; exact h1 _ (h z hz)
  rw [circulation, circulation, y fun _ => edge_left Q, y fun _ => edge_right Q, x fun _ => edge_bottom Q, x fun _ => edge_top Q]

/-- A field with continuous components along the sides. -/
structure Sides (Q : Rectangle) (BR BZ : ℝ → ℝ → ℝ) : Prop where
  left : IntervalIntegrable (fun Z => BZ Q.a Z) volume Q.c Q.d
  right : IntervalIntegrable (fun Z => BZ Q.b Z) volume Q.c Q.d
  bottom : IntervalIntegrable (fun R => BR R Q.c) volume Q.a Q.b
  top : IntervalIntegrable (fun R => BR R Q.d) volume Q.a Q.b

theorem circulation_add (Q : Rectangle) {BR BZ BR' BZ' : ℝ → ℝ → ℝ} (h : Sides Q BR BZ) (h' : Sides Q BR' BZ') (k : ℝ) :
    circulation Q (fun R Z => BR R Z * k + BR' R Z) (fun R Z => BZ R Z * k + BZ' R Z) = k * circulation Q BR BZ + circulation Q BR' BZ' := by
  rw [circulation, intervalIntegral.integral_add (h.left.mul_const k) h'.left, intervalIntegral.integral_add (h.right.mul_const k) h'.right,
    intervalIntegral.integral_add (h.bottom.mul_const k) h'.bottom, intervalIntegral.integral_add (h.top.mul_const k) h'.top,
    intervalIntegral.integral_mul_const, intervalIntegral.integral_mul_const, intervalIntegral.integral_mul_const, intervalIntegral.integral_mul_const,
    circulation, circulation]
  ring

theorem edge_off (Q : Rectangle) (ha : 0 < Q.a) {P : ℝ × ℝ} (h : ∀ q ∈ Q.edge, q.1 ≠ P.1 ∨ q.2 ≠ P.2) (q : ℝ × ℝ) (hq : q ∈ Q.edge) : q ∈ offPoint P := by
  refine ⟨ha.trans_le hq.1.1.1, fun e => ?_⟩
  have := h q hq
  rw [e] at this
  exact this.elim (fun h => h rfl) fun h => h rfl

theorem side_up {P : ℝ × ℝ} {u : ℝ → ℝ → ℝ} (hu : ContinuousOn (fun q : ℝ × ℝ => u q.1 q.2) (offPoint P)) {x c d : ℝ} (hcd : c ≤ d)
    (h : ∀ y ∈ Icc c d, (x, y) ∈ offPoint P) : IntervalIntegrable (fun y => u x y) volume c d := by
  refine ii hcd ?_
  have k : ContinuousOn (fun y : ℝ => (x, y)) (Icc c d) := by fun_prop
  exact hu.comp k h

theorem side_out {P : ℝ × ℝ} {u : ℝ → ℝ → ℝ} (hu : ContinuousOn (fun q : ℝ × ℝ => u q.1 q.2) (offPoint P)) {y a b : ℝ} (hab : a ≤ b)
    (h : ∀ x ∈ Icc a b, (x, y) ∈ offPoint P) : IntervalIntegrable (fun x => u x y) volume a b := by
  refine ii hab ?_
  have k : ContinuousOn (fun x : ℝ => (x, y)) (Icc a b) := by fun_prop
  exact hu.comp k h

theorem sides_filament (Q : Rectangle) (ha : 0 < Q.a) {P : ℝ × ℝ} (hP0 : 0 < P.1) (h : ∀ q ∈ Q.edge, q.1 ≠ P.1 ∨ q.2 ≠ P.2) :
    Sides Q (biotSavartR P.1 P.2) (biotSavartZ P.1 P.2) where
  left := side_up (off_Bz hP0) Q.hcd fun y hy => edge_off Q ha h (Q.a, y) (edge_left Q hy)
  right := side_up (off_Bz hP0) Q.hcd fun y hy => edge_off Q ha h (Q.b, y) (edge_right Q hy)
  bottom := side_out (off_Br hP0) Q.hab fun x hx => edge_off Q ha h (x, Q.c) (edge_bottom Q hx)
  top := side_out (off_Br hP0) Q.hab fun x hx => edge_off Q ha h (x, Q.d) (edge_top Q hx)

theorem circulation_circ (Q : Rectangle) (P : ℝ × ℝ) : circulation Q (biotSavartR P.1 P.2) (biotSavartZ P.1 P.2) = circ P Q.a Q.b Q.c Q.d := by
  rw [circulation, circ, flow, intervalIntegral.integral_neg, intervalIntegral.integral_neg]
  ring

/-- One filament. -/
theorem ampere_filament (Q : Rectangle) (ha : 0 < Q.a) {P : ℝ × ℝ} (hP0 : 0 < P.1) (h : ∀ q ∈ Q.edge, q.1 ≠ P.1 ∨ q.2 ≠ P.2) [Decidable (P.1 ∈ Ioo Q.a Q.b ∧ P.2 ∈ Ioo Q.c Q.d)] :
    circulation Q (biotSavartR P.1 P.2) (biotSavartZ P.1 P.2) = if P.1 ∈ Ioo Q.a Q.b ∧ P.2 ∈ Ioo Q.c Q.d then mu0 else 0 := by
  rw [circulation_circ]
  by_cases hin : P.1 ∈ Ioo Q.a Q.b ∧ P.2 ∈ Ioo Q.c Q.d
  · rw [if_pos hin]
    exact ampere hP0 ha hin.1.1 hin.1.2 hin.2.1 hin.2.2
  · rw [if_neg hin]
    refine circ_zero hP0 ha Q.hab Q.hcd fun hm => hin ?_
    have ne : P ∉ Q.edge := fun he => (h P he).elim (fun h => h rfl) fun h => h rfl
    have n : ¬ (P.1 = Q.a ∨ P.1 = Q.b ∨ P.2 = Q.c ∨ P.2 = Q.d) := fun hd => ne ⟨⟨hm.1, hm.2⟩, hd⟩
    push Not at n
    obtain ⟨n1, n2, n3, n4⟩ := n
    exact ⟨⟨lt_of_le_of_ne hm.1.1 (Ne.symm n1), lt_of_le_of_ne hm.1.2 n2⟩, lt_of_le_of_ne hm.2.1 (Ne.symm n3), lt_of_le_of_ne hm.2.2 n4⟩

theorem ampere_law (Q : Rectangle) (ha : 0 < Q.a) : ∀ l : List (ℝ × ℝ × ℝ), OffEdge Q l →
    Sides Q (lawR l) (lawZ l) ∧ circulation Q (lawR l) (lawZ l) = mu0 * enclosed Q l
  | [], _ => by
    have e1 : lawR [] = fun _ _ => 0 := by funext R Z; simp [lawR]
    have e2 : lawZ [] = fun _ _ => 0 := by funext R Z; simp [lawZ]
    rw [e1, e2]
    refine ⟨⟨?_, ?_, ?_, ?_⟩, by simp [circulation, enclosed]⟩ <;> simp
  | f :: l, h => by
    obtain ⟨s, c⟩ := ampere_law Q ha l fun g hg => h g (by simp [hg])
    obtain ⟨h0, hq⟩ := h f (by simp)
    have sf := sides_filament Q ha (P := (f.1, f.2.1)) h0 hq
    have e1 : lawR (f :: l) = fun R Z => biotSavartR f.1 f.2.1 R Z * f.2.2 + lawR l R Z := by funext R Z; simp [lawR]
    have e2 : lawZ (f :: l) = fun R Z => biotSavartZ f.1 f.2.1 R Z * f.2.2 + lawZ l R Z := by funext R Z; simp [lawZ]
    rw [e1, e2]
    refine ⟨⟨(sf.left.mul_const _).add s.left, (sf.right.mul_const _).add s.right, (sf.bottom.mul_const _).add s.bottom, (sf.top.mul_const _).add s.top⟩, ?_⟩
    classical
    rw [circulation_add Q sf s, c, ampere_filament Q ha (P := (f.1, f.2.1)) h0 hq]
    simp only [enclosed, List.map_cons, List.sum_cons]
    split_ifs <;> ring

theorem filaments_deriv {R Z : ℝ} (hR : 0 < R) : ∀ l : List (ℝ × ℝ × ℝ), (∀ f ∈ l, 0 < f.1 ∧ ClearOf f.1 f.2.1 R Z) →
    HasDerivAt (fun r => filamentSum (realEnv ellipticK ellipticE) .psi r Z l) (R * lawZ l R Z) R ∧
      HasDerivAt (fun z => filamentSum (realEnv ellipticK ellipticE) .psi R z l) (-R * lawR l R Z) Z
  | [], _ => by
    simp only [filamentSum, lawR, lawZ, List.map_nil, List.sum_nil, mul_zero]
    exact ⟨hasDerivAt_const _ _, hasDerivAt_const _ _⟩
  | f :: l, h => by
    obtain ⟨i1, i2⟩ := filaments_deriv hR l fun g hg => h g (by simp [hg])
    obtain ⟨h0, hc⟩ := h f (by simp)
    have ne := unclipped_ne h0 hc.unclipped
    have d1 : HasDerivAt (fun r => greens ellipticK ellipticE f.1 f.2.1 r Z) (R * biotSavartZ f.1 f.2.1 R Z) R := by
      refine (flux_deriv_R hR h0 ne).congr_of_eventuallyEq ?_
      filter_upwards [clear_near_R hR h0 hc] with r hr
      exact greens_eq_flux _ _ r Z hr.1 h0 hr.2.unclipped
    have d2 : HasDerivAt (fun z => greens ellipticK ellipticE f.1 f.2.1 R z) (-R * biotSavartR f.1 f.2.1 R Z) Z := by
      refine (flux_deriv_Z hR h0 ne).congr_of_eventuallyEq ?_
      filter_upwards [clear_near_Z hR h0 hc] with z hz
      exact greens_eq_flux _ _ R z hR h0 hz.unclipped
    simp only [filamentSum, lawR, lawZ, List.map_cons, List.sum_cons, realEnv] at i1 i2 ⊢
    exact ⟨((d1.mul_const f.2.2).add i1).congr_deriv (by ring), ((d2.mul_const f.2.2).add i2).congr_deriv (by ring)⟩

theorem offEdge_of_clear (Q : Rectangle) (l : List (ℝ × ℝ × ℝ)) (hf : ∀ f ∈ l, 0 < f.1 ∧ ∀ q ∈ Q.edge, ClearOf f.1 f.2.1 q.1 q.2) : OffEdge Q l :=
  fun f h => ⟨(hf f h).1, fun q hq => unclipped_ne (hf f h).1 ((hf f h).2 q hq).unclipped⟩

/-! ## The theorems -/

/-- **C115 (flux).** Ampère's law for the flux of the coils: with the field `B_R = -(1/R) ∂ψ/∂Z`, `B_Z = (1/R) ∂ψ/∂R` of the flux that the machine reports,
the circulation about any rectangle whose sides keep clear of the filaments is `mu0` times the sum of the currents that pass through it. -/
theorem C115_flux (m : Machine ℝ) (h : m.Computed) (Q : Rectangle) (ha : 0 < Q.a)
    (hf : ∀ f ∈ m.filaments, 0 < f.1 ∧ ∀ q ∈ Q.edge, ClearOf f.1 f.2.1 q.1 q.2) (psiR psiZ : ℝ → ℝ → ℝ)
    (hR : ∀ q ∈ Q.edge, HasDerivAt (fun r => (m.field (realEnv ellipticK ellipticE) .psi r q.2).1) (psiR q.1 q.2) q.1)
    (hZ : ∀ q ∈ Q.edge, HasDerivAt (fun z => (m.field (realEnv ellipticK ellipticE) .psi q.1 z).1) (psiZ q.1 q.2) q.2) :
    circulation Q (fun R Z => -psiZ R Z / R) (fun R Z => psiR R Z / R) = mu0 * enclosed Q m.filaments := by
  rw [← (ampere_law Q ha m.filaments (offEdge_of_clear Q _ hf)).2]
  simp only [fun r z => field_filaments (realEnv ellipticK ellipticE) .psi r z m h] at hR hZ
  have d : ∀ q ∈ Q.edge, 0 < q.1 ∧ psiR q.1 q.2 = q.1 * lawZ m.filaments q.1 q.2 ∧ psiZ q.1 q.2 = -q.1 * lawR m.filaments q.1 q.2 := fun q hq => by
    have h0 : 0 < q.1 := ha.trans_le hq.1.1.1
    obtain ⟨d1, d2⟩ := filaments_deriv h0 m.filaments fun f h => ⟨(hf f h).1, (hf f h).2 q hq⟩
    exact ⟨h0, (hR q hq).unique d1, (hZ q hq).unique d2⟩
  refine circulation_congr Q (fun q hq => ?_) fun q hq => ?_
  · obtain ⟨h0, -, e⟩ := d q hq
    have := h0.ne'
    rw [e]
    field_simp
  · obtain ⟨h0, e, -⟩ := d q hq
    have := h0.ne'
    rw [e]
    field_simp

/-- The least distances at which the reported field is that of the filaments to a millimetre's difference: over the difference step nothing is clipped,
and every filament is at least `D` away. -/
structure Apart (D : ℝ) (f q : ℝ × ℝ) : Prop where
  pos : 0 < f.1
  R : ∀ r ∈ Icc (q.1 - 1e-3) (q.1 + 1e-3), Unclipped f.1 f.2 r q.2 ∧ D ^ 2 ≤ (r - f.1) ^ 2 + (q.2 - f.2) ^ 2
  Z : ∀ z ∈ Icc (q.2 - 1e-3) (q.2 + 1e-3), Unclipped f.1 f.2 q.1 z ∧ D ^ 2 ≤ (q.1 - f.1) ^ 2 + (z - f.2) ^ 2

/-- The error of the reported field of a filament of radius `Rc` at least `D` away, on a rectangle. -/
noncomputable def fieldError (Q : Rectangle) (D Rc : ℝ) : ℝ := (mu0 * Rc / (2 * D ^ 2) + 2 * mu0 * Rc * (Q.b + 1e-3) / D ^ 3) * 1e-3 / Q.a

theorem reported_error (Q : Rectangle) (ha : 1e-3 < Q.a) {D : ℝ} (hD : 0 < D) {f q : ℝ × ℝ} (hq : q ∈ Q.edge) (h : Apart D f q) :
    |greensBr ellipticK ellipticE f.1 f.2 q.1 q.2 - biotSavartR f.1 f.2 q.1 q.2| ≤ fieldError Q D f.1 ∧
      |greensBz ellipticK ellipticE f.1 f.2 q.1 q.2 - biotSavartZ f.1 f.2 q.1 q.2| ≤ fieldError Q D f.1 := by
  have hmu := mu0_pos
  have hf := h.pos
  have ha0 : 0 < Q.a := lt_trans (by norm_num) ha
  have hq1 : Q.a ≤ q.1 := hq.1.1.1
  have hq2 : q.1 ≤ Q.b := hq.1.1.2
  have hq0 : 0 < q.1 := ha0.trans_le hq1
  have n : 0 ≤ mu0 * f.1 / (2 * D ^ 2) := by positivity
  have n2 : 0 ≤ 2 * mu0 * f.1 / D ^ 3 := by positivity
  have hb : 0 < Q.b + 1e-3 := by have := hq0.trans_le hq2; positivity
  constructor
  · refine (C68_radial_accuracy f.1 f.2 q.1 q.2 1e-3 D hq0 hf (by norm_num) hD (fun z hz => (h.Z z hz).1) (fun z hz => (h.Z z hz).2)).trans ?_
    rw [fieldError, le_div_iff₀ ha0]
    have e : 2 * mu0 * f.1 * (Q.b + 1e-3) / D ^ 3 = 2 * mu0 * f.1 / D ^ 3 * (Q.b + 1e-3) := by ring
    rw [e]
    have : 2 * mu0 * f.1 / D ^ 3 * Q.a ≤ 2 * mu0 * f.1 / D ^ 3 * (Q.b + 1e-3) := mul_le_mul_of_nonneg_left (by linarith [hq1.trans hq2]) n2
    nlinarith
  · refine (C68_vertical_accuracy f.1 f.2 q.1 q.2 1e-3 D hf (by norm_num) (ha.trans_le hq1) hD (fun z hz => (h.R z hz).1) (fun z hz => (h.R z hz).2)).trans ?_
    rw [fieldError]
    gcongr

theorem circulation_error (Q : Rectangle) {BR BZ BR' BZ' : ℝ → ℝ → ℝ} (s : Sides Q BR BZ) (s' : Sides Q BR' BZ') {E : ℝ}
    (h1 : ∀ q ∈ Q.edge, |BR q.1 q.2 - BR' q.1 q.2| ≤ E) (h2 : ∀ q ∈ Q.edge, |BZ q.1 q.2 - BZ' q.1 q.2| ≤ E) :
    |circulation Q BR BZ - circulation Q BR' BZ'| ≤ E * (2 * (Q.b - Q.a) + 2 * (Q.d - Q.c)) := by
  have y : ∀ x, (∀ y ∈ Icc Q.c Q.d, (x, y) ∈ Q.edge) → |∫ Z in Q.c..Q.d, (BZ x Z - BZ' x Z)| ≤ E * (Q.d - Q.c) := fun x h => by
    have := intervalIntegral.norm_integral_le_of_norm_le_const (a := Q.c) (b := Q.d) (C := E) (f := fun Z => BZ x Z - BZ' x Z) fun y hy => by
      rw [uIoc_of_le Q.hcd] at hy
      rw [Real.norm_eq_abs]
      exact h2 _ (h y ⟨hy.1.le, hy.2⟩)
    rwa [Real.norm_eq_abs, abs_of_nonneg (sub_nonneg.mpr Q.hcd)] at this
  have x : ∀ y, (∀ x ∈ Icc Q.a Q.b, (x, y) ∈ Q.edge) → |∫ R in Q.a..Q.b, (BR R y - BR' R y)| ≤ E * (Q.b - Q.a) := fun y h => by
    have := intervalIntegral.norm_integral_le_of_norm_le_const (a := Q.a) (b := Q.b) (C := E) (f := fun R => BR R y - BR' R y) fun x hx => by
      rw [uIoc_of_le Q.hab] at hx
      rw [Real.norm_eq_abs]
      exact h1 _ (h x ⟨hx.1.le, hx.2⟩)
    rwa [Real.norm_eq_abs, abs_of_nonneg (sub_nonneg.mpr Q.hab)] at this
  have b1 := y Q.a fun _ => edge_left Q
  have b2 := y Q.b fun _ => edge_right Q
  have b3 := x Q.c fun _ => edge_bottom Q
  have b4 := x Q.d fun _ => edge_top Q
  rw [intervalIntegral.integral_sub s.left s'.left] at b1
  rw [intervalIntegral.integral_sub s.right s'.right] at b2
  rw [intervalIntegral.integral_sub s.bottom s'.bottom] at b3
  rw [intervalIntegral.integral_sub s.top s'.top] at b4
  rw [abs_le] at b1 b2 b3 b4 ⊢
  rw [circulation, circulation]
  constructor <;> linarith [b1.1, b1.2, b2.1, b2.2, b3.1, b3.2, b4.1, b4.2]

theorem list_error {l : List (ℝ × ℝ × ℝ)} {u v E : ℝ × ℝ × ℝ → ℝ} (h : ∀ f ∈ l, |u f - v f| ≤ E f) :
    |(l.map fun f => u f * f.2.2).sum - (l.map fun f => v f * f.2.2).sum| ≤ (l.map fun f => |f.2.2| * E f).sum := by
  induction l with
  | nil => simp
  | cons f l ih =>
    have i := ih fun g hg => h g (by simp [hg])
    have j := h f (by simp)
    simp only [List.map_cons, List.sum_cons]
    have e : u f * f.2.2 + (l.map fun f => u f * f.2.2).sum - (v f * f.2.2 + (l.map fun f => v f * f.2.2).sum) =
        (u f - v f) * f.2.2 + ((l.map fun f => u f * f.2.2).sum - (l.map fun f => v f * f.2.2).sum) := by ring
    rw [e]
    refine (abs_add_le _ _).trans (add_le_add ?_ i)
    rw [abs_mul, mul_comm]
    exact mul_le_mul_of_nonneg_left j (abs_nonneg _)

theorem greens_cont_obs {f : ℝ × ℝ} (hf : 0 < f.1) : ContinuousOn (fun q : ℝ × ℝ => greens ellipticK ellipticE f.1 f.2 q.1 q.2) {q | 0 < q.1} := by
  have c : ContinuousOn (fun q : ℝ × ℝ => (q, f)) {q : ℝ × ℝ | 0 < q.1} := by fun_prop
  exact continuousOn_greens.comp c fun q hq => ⟨hq, hf⟩

theorem sides_reported (Q : Rectangle) (ha : 1e-3 < Q.a) : ∀ l : List (ℝ × ℝ × ℝ), (∀ f ∈ l, 0 < f.1) →
    Sides Q (fun R Z => filamentSum (realEnv ellipticK ellipticE) .br R Z l) (fun R Z => filamentSum (realEnv ellipticK ellipticE) .bz R Z l)
  | [], _ => by
    simp only [filamentSum, List.map_nil, List.sum_nil]
    refine ⟨?_, ?_, ?_, ?_⟩ <;> simp
  | f :: l, h => by
    have s := sides_reported Q ha l fun g hg => h g (by simp [hg])
    have g := greens_cont_obs (f := (f.1, f.2.1)) (h f (by simp))
    have ha0 : 0 < Q.a := lt_trans (by norm_num) ha
    have y : ∀ x, 1e-3 < x → IntervalIntegrable (fun y => greensBz ellipticK ellipticE f.1 f.2.1 x y * f.2.2) volume Q.c Q.d := fun x hx => by
      refine (ii Q.hcd ?_).mul_const _
      unfold greensBz
      have c1 : ContinuousOn (fun y : ℝ => (x + 1e-3, y)) (Icc Q.c Q.d) := by fun_prop
      have c2 : ContinuousOn (fun y : ℝ => (x - 1e-3, y)) (Icc Q.c Q.d) := by fun_prop
      exact ((g.comp c1 fun y _ => by change (0:ℝ) < x + 1e-3; norm_num at hx ⊢; linarith).sub
        (g.comp c2 fun y _ => by change (0:ℝ) < x - 1e-3; linarith)).div_const _
    have x : ∀ y, IntervalIntegrable (fun x => greensBr ellipticK ellipticE f.1 f.2.1 x y * f.2.2) volume Q.a Q.b := fun y => by
      refine (ii Q.hab ?_).mul_const _
      unfold greensBr
      have c1 : ContinuousOn (fun x : ℝ => (x, y + 1e-3)) (Icc Q.a Q.b) := by fun_prop
      have c2 : ContinuousOn (fun x : ℝ => (x, y - 1e-3)) (Icc Q.a Q.b) := by fun_prop
      refine ((g.comp c2 fun x hx => ha0.trans_le hx.1).sub (g.comp c1 fun x hx => ha0.trans_le hx.1)).div (by fun_prop) fun x hx => ?_
      have := ha0.trans_le hx.1
      positivity
    simp only [filamentSum, List.map_cons, List.sum_cons, realEnv] at s ⊢
    exact ⟨(y _ ha).add s.left, (y _ (ha.trans_le Q.hab)).add s.right, (x _).add s.bottom, (x _).add s.top⟩

/-- **C115 (field).** Ampère's law for the field `Br`, `Bz` that the machine reports. Its circulation about a rectangle differs from `mu0` times the sum of
the currents that pass through it by no more than the error of the millimetre's difference times the length of the way. -/
theorem C115_field (m : Machine ℝ) (h : m.Computed) (Q : Rectangle) (ha : 1e-3 < Q.a) (D : ℝ) (hD : 0 < D)
    (hf : ∀ f ∈ m.filaments, ∀ q ∈ Q.edge, Apart D (f.1, f.2.1) q) :
    |circulation Q (fun R Z => (m.field (realEnv ellipticK ellipticE) .br R Z).1) (fun R Z => (m.field (realEnv ellipticK ellipticE) .bz R Z).1) -
      mu0 * enclosed Q m.filaments| ≤
        (m.filaments.map fun f => |f.2.2| * fieldError Q D f.1).sum * (2 * (Q.b - Q.a) + 2 * (Q.d - Q.c)) := by
  have he : (Q.a, Q.c) ∈ Q.edge := edge_left Q ⟨le_rfl, Q.hcd⟩
  have ha0 : 0 < Q.a := lt_trans (by norm_num) ha
  have off : OffEdge Q m.filaments := fun f h => ⟨(hf f h _ he).pos, fun q hq => by
    have a := hf f h q hq
    exact unclipped_ne a.pos (a.R q.1 ⟨by norm_num, by norm_num⟩).1⟩
  obtain ⟨s, c⟩ := ampere_law Q ha0 m.filaments off
  rw [← c]
  simp only [fun q r z => field_filaments (realEnv ellipticK ellipticE) q r z m h]
  refine circulation_error Q (sides_reported Q ha m.filaments fun f h => (hf f h _ he).pos) s (fun q hq => ?_) fun q hq => ?_
  · exact list_error (u := fun f => greensBr ellipticK ellipticE f.1 f.2.1 q.1 q.2) (v := fun f => biotSavartR f.1 f.2.1 q.1 q.2)
      (E := fun f => fieldError Q D f.1) fun f h => (reported_error Q ha hD hq (hf f h q hq)).1
  · exact list_error (u := fun f => greensBz ellipticK ellipticE f.1 f.2.1 q.1 q.2) (v := fun f => biotSavartZ f.1 f.2.1 q.1 q.2)
      (E := fun f => fieldError Q D f.1) fun f h => (reported_error Q ha hD hq (hf f h q hq)).2

/-! ## A machine with a coil, a circuit and a solenoid -/

/-- A rectangle about the coil `P1`, the upper coil of the circuit and two of the three turns of the solenoid. -/
noncomputable def exAround : Rectangle := ⟨1 / 2, 2, -1 / 2, 2, by norm_num, by norm_num⟩

theorem vacuumExample_filaments :
    vacuumExample.filaments = [(1, 0, 20000), (1, 1, 500), (1, -1, -500), (1, -1, 100), (1, 0, 100), (1, 1, 100)] := by
  simp [vacuumExample, Machine.filaments, Entry.filaments, AnyCoil.filaments, scaled, Circuit.make, Circuit.setCurrent, Circuit.setControl,
    PointCoil.make, AnyCoil.setCurrent, AnyCoil.setControl, linspace, AnyCoil.current, List.range_succ]
  norm_num

theorem exAround_far (q : ℝ × ℝ) (hq : q ∈ exAround.edge) (f : ℝ × ℝ × ℝ) (hf : f ∈ vacuumExample.filaments) :
    f.1 = 1 ∧ |f.2.1| ≤ 1 ∧ 1 / 4 ≤ (q.1 - f.1) ^ 2 + (q.2 - f.2.1) ^ 2 := by
  obtain ⟨⟨⟨h1, h2⟩, h3, h4⟩, h5⟩ := hq
  rw [vacuumExample_filaments] at hf
  simp only [exAround] at h1 h2 h3 h4 h5
  simp only [List.mem_cons, List.not_mem_nil, or_false] at hf
  rcases hf with rfl | rfl | rfl | rfl | rfl | rfl <;>
    (refine ⟨rfl, by norm_num, ?_⟩
     rcases h5 with h | h | h | h <;> rw [h] <;> nlinarith [sq_nonneg (q.1 - 1), sq_nonneg (q.2), sq_nonneg (q.2 - 1), sq_nonneg (q.2 + 1)])

theorem exAround_enclosed : enclosed exAround vacuumExample.filaments = 20700 := by
  rw [vacuumExample_filaments]
  simp [enclosed, exAround]
  norm_num

/-- A point at some distance from a filament of radius 1 is not clipped. -/
theorem ex_unclipped {R Z Zc : ℝ} (h1 : 1 / 4 ≤ R) (h2 : R ≤ 3) (h3 : |Zc| ≤ 1) (h4 : |Z| ≤ 3) (h : 1 / 100 ≤ (R - 1) ^ 2 + (Z - Zc) ^ 2) :
    1e-10 < 4 * R * 1 / ((R + 1) ^ 2 + (Z - Zc) ^ 2) ∧ 4 * R * 1 / ((R + 1) ^ 2 + (Z - Zc) ^ 2) < 1 - 1e-10 := by
  have b := abs_le.mp h3
  have c := abs_le.mp h4
  have hp : 0 < (R + 1) ^ 2 + (Z - Zc) ^ 2 := by positivity
  have hu : (R + 1) ^ 2 + (Z - Zc) ^ 2 ≤ 32 := by nlinarith
  constructor
  · rw [lt_div_iff₀ hp]; norm_num; nlinarith
  · rw [div_lt_iff₀ hp]; norm_num; nlinarith

theorem exAround_clear : ∀ f ∈ vacuumExample.filaments, 0 < f.1 ∧ ∀ q ∈ exAround.edge, ClearOf f.1 f.2.1 q.1 q.2 := by
  intro f hf
  have e1 : f.1 = 1 := (exAround_far (1 / 2, -1 / 2) (edge_left exAround ⟨by norm_num [exAround], by norm_num [exAround]⟩) f hf).1
  refine ⟨by rw [e1]; norm_num, fun q hq => ?_⟩
  obtain ⟨-, h2, h3⟩ := exAround_far q hq f hf
  have a1 : 1 / 2 ≤ q.1 := hq.1.1.1
  have a2 : q.1 ≤ 2 := hq.1.1.2
  have a3 : -1 / 2 ≤ q.2 := hq.1.2.1
  have a4 : q.2 ≤ 2 := hq.1.2.2
  rw [e1] at h3 ⊢
  exact ex_unclipped (by linarith) (by linarith) h2 (by rw [abs_le]; constructor <;> linarith) (by linarith)

/-- The machine's field is that of its filaments, and its circulation counts the current of the enclosed ones. -/
example : circulation exAround (fun R Z => -(-R * lawR vacuumExample.filaments R Z) / R) (fun R Z => R * lawZ vacuumExample.filaments R Z / R) =
    mu0 * 20700 := by
  rw [← exAround_enclosed]
  have pos : ∀ q ∈ exAround.edge, 0 < q.1 := fun q hq => lt_of_lt_of_le (by norm_num [exAround]) hq.1.1.1
  refine C115_flux vacuumExample vacuumExample_computed exAround (by norm_num [exAround]) exAround_clear (fun R Z => R * lawZ vacuumExample.filaments R Z)
    (fun R Z => -R * lawR vacuumExample.filaments R Z) (fun q hq => ?_) fun q hq => ?_
  · simp only [fun r z => field_filaments (realEnv ellipticK ellipticE) .psi r z vacuumExample vacuumExample_computed]
    exact (filaments_deriv (pos q hq) _ fun f h => ⟨(exAround_clear f h).1, (exAround_clear f h).2 q hq⟩).1
  · simp only [fun r z => field_filaments (realEnv ellipticK ellipticE) .psi r z vacuumExample vacuumExample_computed]
    exact (filaments_deriv (pos q hq) _ fun f h => ⟨(exAround_clear f h).1, (exAround_clear f h).2 q hq⟩).2

theorem exAround_apart : ∀ f ∈ vacuumExample.filaments, ∀ q ∈ exAround.edge, Apart (4 / 10) (f.1, f.2.1) q := by
  intro f hf q hq
  obtain ⟨h1, h2, h3⟩ := exAround_far q hq f hf
  have a1 : 1 / 2 ≤ q.1 := hq.1.1.1
  have a2 : q.1 ≤ 2 := hq.1.1.2
  have a3 : -1 / 2 ≤ q.2 := hq.1.2.1
  have a4 : q.2 ≤ 2 := hq.1.2.2
  have b := abs_le.mp h2
  rw [h1] at h3
  rw [h1]
  constructor
  · norm_num
  · intro r hr
    have r1 : q.1 - 1e-3 ≤ r := hr.1
    have r2 : r ≤ q.1 + 1e-3 := hr.2
    norm_num at r1 r2
    have g : (4 / 10 : ℝ) ^ 2 ≤ (r - 1) ^ 2 + (q.2 - f.2.1) ^ 2 := by nlinarith
    have u := ex_unclipped (R := r) (Z := q.2) (Zc := f.2.1) (by linarith) (by linarith) h2 (by rw [abs_le]; constructor <;> linarith) (by linarith)
    exact ⟨⟨u.1.le, u.2.le⟩, g⟩
  · intro z hz
    have r1 : q.2 - 1e-3 ≤ z := hz.1
    have r2 : z ≤ q.2 + 1e-3 := hz.2
    norm_num at r1 r2
    have g : (4 / 10 : ℝ) ^ 2 ≤ (q.1 - 1) ^ 2 + (z - f.2.1) ^ 2 := by nlinarith
    have u := ex_unclipped (R := q.1) (Z := z) (Zc := f.2.1) (by linarith) (by linarith) h2 (by rw [abs_le]; constructor <;> linarith) (by linarith)
    exact ⟨⟨u.1.le, u.2.le⟩, g⟩

/-- And the field that the machine reports has this circulation to within the error of the difference. -/
example : |circulation exAround (fun R Z => (vacuumExample.field (realEnv ellipticK ellipticE) .br R Z).1)
      (fun R Z => (vacuumExample.field (realEnv ellipticK ellipticE) .bz R Z).1) - mu0 * 20700| ≤
    (vacuumExample.filaments.map fun f => |f.2.2| * fieldError exAround (4 / 10) f.1).sum * 8 := by
  have := C115_field vacuumExample vacuumExample_computed exAround (by norm_num [exAround]) (4 / 10) (by norm_num) exAround_apart
  rw [exAround_enclosed] at this
  have e : 2 * (exAround.b - exAround.a) + 2 * (exAround.d - exAround.c) = 8 := by norm_num [exAround]
  rwa [e] at this

end FreeGS
