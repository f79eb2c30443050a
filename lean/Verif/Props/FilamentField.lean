import Verif.Props.Attract
import Mathlib.MeasureTheory.Integral.IntervalIntegral.Periodic

/-!
# C134: the field of one coil

The elliptic integrals are the exact ones. The vertical field is the difference of the flux over two millimetres, as in the code.
-/

set_option linter.unusedSectionVars false

namespace FreeGS

open Real Set

theorem numerator (Rc R φ : ℝ) : (-(Rc * sin φ)) * (-(Rc * sin φ)) - Rc * cos φ * (R - Rc * cos φ) = Rc * (Rc - R * cos φ) := by
  have := sin_sq_add_cos_sq φ
  linear_combination Rc ^ 2 * this

/-- Nearer to the axis than the filament the vertical field has the direction of that on the axis, at every height. -/
theorem vertical_inside {Rc Zc R Z : ℝ} (hR : 0 < R) (hRc : R < Rc) : 0 < biotSavartZ Rc Zc R Z := by
  have h0 : 0 < Rc := hR.trans hRc
  have hne : R ≠ Rc ∨ Z ≠ Zc := Or.inl hRc.ne
  have hmu : 0 < mu0 := by unfold mu0; positivity
  have hpi := pi_pos
  rw [biotSavartZ]
  refine mul_pos (by positivity) ?_
  refine intervalIntegral.intervalIntegral_pos_of_pos_on ?_ (fun φ _ => ?_) (by positivity)
  · refine Continuous.intervalIntegrable ?_ _ _
    exact Continuous.div (by fun_prop) (continuous_sourceDist.pow 3) fun φ => (pow_pos (sourceDist_pos hR h0 hne φ) 3).ne'
  · rw [numerator]
    have hc := cos_le_one φ
    have : 0 < Rc - R * cos φ := by nlinarith
    have := sourceDist_pos hR h0 hne φ
    positivity

/-- Two source elements on opposite sides. -/
theorem opposite_elements {Rc Zc R : ℝ} (hRc : 0 < Rc) (h : Rc < R) (φ : ℝ) :
    (R ^ 2 - Rc ^ 2) ^ 2 + (2 * R * Rc * sin φ) ^ 2 = (sourceDist Rc Zc R Zc φ * sourceDist Rc Zc R Zc (φ + π)) ^ 2 := by
  rw [mul_pow (sourceDist _ _ _ _ _), sourceDist_sq', sourceDist_sq', cos_add_pi, sin_add_pi]
  have := sin_sq_add_cos_sq φ
  have hs : sin φ ^ 2 = 1 - cos φ ^ 2 := by linarith
  have e1 : (R - Rc * cos φ) ^ 2 + (Rc * sin φ) ^ 2 + (Zc - Zc) ^ 2 = R ^ 2 + Rc ^ 2 - 2 * R * Rc * cos φ := by linear_combination Rc ^ 2 * this
  have e2 : (R - Rc * -cos φ) ^ 2 + (Rc * -sin φ) ^ 2 + (Zc - Zc) ^ 2 = R ^ 2 + Rc ^ 2 + 2 * R * Rc * cos φ := by linear_combination Rc ^ 2 * this
  rw [e1, e2]
  linear_combination 4 * R ^ 2 * Rc ^ 2 * this

/-- In the plane of the filament, further out than it, the vertical field has the opposite direction. -/
theorem vertical_outside {Rc Zc R : ℝ} (hRc : 0 < Rc) (h : Rc < R) : biotSavartZ Rc Zc R Zc < 0 := by
  have hR : 0 < R := hRc.trans h
  have hne : R ≠ Rc ∨ Zc ≠ Zc := Or.inl h.ne'
  have hmu : 0 < mu0 := by unfold mu0; positivity
  have hpi := pi_pos
  have hP : 0 < R ^ 2 - Rc ^ 2 := by nlinarith
  have hd := fun φ => sourceDist_pos (Zc := Zc) (Z := Zc) hR hRc hne φ
  have cont : Continuous fun φ => sourceDist Rc Zc R Zc φ := continuous_sourceDist
  have ci : ∀ k : ℕ, Continuous fun φ => 1 / sourceDist Rc Zc R Zc φ ^ k := fun k => continuous_const.div (cont.pow k) fun φ => (pow_pos (hd φ) k).ne'
  have dsq : ∀ φ, sourceDist Rc Zc R Zc φ ^ 2 = R ^ 2 + Rc ^ 2 - 2 * R * Rc * cos φ := fun φ => by
    rw [sourceDist_sq']
    have := sin_sq_add_cos_sq φ
    linear_combination Rc ^ 2 * this
  -- the distances and their inverse cubes
  have parts : (R ^ 2 - Rc ^ 2) ^ 2 * ∫ φ in (0 : ℝ)..(2 * π), 1 / sourceDist Rc Zc R Zc φ ^ 3 = ∫ φ in (0 : ℝ)..(2 * π), sourceDist Rc Zc R Zc φ := by
    have hb := flux_by_parts hR hRc hne
    have e : (fun φ => cos φ / sourceDist Rc Zc R Zc φ - R * Rc * sin φ ^ 2 / sourceDist Rc Zc R Zc φ ^ 3) =
        fun φ => 1 / (4 * R * Rc) * ((R ^ 2 - Rc ^ 2) ^ 2 * (1 / sourceDist Rc Zc R Zc φ ^ 3) - sourceDist Rc Zc R Zc φ) := by
      funext φ
      have h1 := hd φ
      have h2 := dsq φ
      have h3 : sin φ ^ 2 = 1 - cos φ ^ 2 := by have := sin_sq_add_cos_sq φ; linarith
      rw [h3]
      generalize sourceDist Rc Zc R Zc φ = D at h1 h2
      have h4 : cos φ = (R ^ 2 + Rc ^ 2 - D ^ 2) / (2 * R * Rc) := by
        field_simp
        linarith
      rw [h4]
      field_simp
      ring
    rw [e, intervalIntegral.integral_const_mul, intervalIntegral.integral_sub (((ci 3).const_mul _).intervalIntegrable _ _) (cont.intervalIntegrable _ _),
      intervalIntegral.integral_const_mul] at hb
    have h4 : (1 / (4 * R * Rc)) ≠ 0 := by positivity
    have := (mul_eq_zero.mp hb).resolve_left h4
    linarith
  -- the distance from the opposite element
  have shift : ∫ φ in (0 : ℝ)..(2 * π), sourceDist Rc Zc R Zc (φ + π) = ∫ φ in (0 : ℝ)..(2 * π), sourceDist Rc Zc R Zc φ := by
    have per : Function.Periodic (fun φ => sourceDist Rc Zc R Zc φ) (2 * π) := by
      intro φ
      simp only [sourceDist, cos_add_two_pi, sin_add_two_pi]
    rw [intervalIntegral.integral_comp_add_right (fun φ => sourceDist Rc Zc R Zc φ) π]
    have := per.intervalIntegral_add_eq (0 + π) 0
    rw [zero_add] at this ⊢
    rw [show 2 * π + π = π + 2 * π by ring, this, zero_add]
  have opp : ∀ φ, (R ^ 2 - Rc ^ 2) * (1 / sourceDist Rc Zc R Zc φ ^ 1) ≤ sourceDist Rc Zc R Zc (φ + π) := by
    intro φ
    rw [pow_one, mul_one_div, div_le_iff₀ (hd φ), mul_comm]
    refine le_of_sq_le_sq ?_ (by have := hd φ; have := hd (φ + π); positivity)
    rw [← opposite_elements hRc h]
    nlinarith [sq_nonneg (2 * R * Rc * sin φ)]
  have less : (R ^ 2 - Rc ^ 2) * ∫ φ in (0 : ℝ)..(2 * π), 1 / sourceDist Rc Zc R Zc φ ^ 1 < ∫ φ in (0 : ℝ)..(2 * π), sourceDist Rc Zc R Zc φ := by
    rw [← shift, ← intervalIntegral.integral_const_mul]
    refine intervalIntegral.integral_lt_integral_of_continuousOn_of_le_of_exists_lt (by positivity) ((ci 1).const_mul _).continuousOn
      (by fun_prop) (fun φ _ => opp φ) ⟨π / 2, ⟨by positivity, by linarith⟩, ?_⟩
    rw [pow_one, mul_one_div, div_lt_iff₀ (hd _), mul_comm]
    refine lt_of_pow_lt_pow_left₀ 2 (by have := hd (π / 2); have := hd (π / 2 + π); positivity) ?_
    rw [← opposite_elements hRc h, sin_pi_div_two]
    have : 0 < (2 * R * Rc * 1) ^ 2 := by positivity
    linarith
  have e : (fun φ => ((-(Rc * sin φ)) * (-(Rc * sin φ)) - Rc * cos φ * (R - Rc * cos φ)) / sourceDist Rc Zc R Zc φ ^ 3) =
      fun φ => 1 / 2 * (1 / sourceDist Rc Zc R Zc φ ^ 1 - (R ^ 2 - Rc ^ 2) * (1 / sourceDist Rc Zc R Zc φ ^ 3)) := by
    funext φ
    have h1 := hd φ
    have h2 := dsq φ
    rw [numerator]
    generalize sourceDist Rc Zc R Zc φ = D at h1 h2
    have h4 : Rc * (Rc - R * cos φ) = (D ^ 2 - (R ^ 2 - Rc ^ 2)) / 2 := by linarith
    rw [h4]
    field_simp
  rw [biotSavartZ, e, intervalIntegral.integral_const_mul, intervalIntegral.integral_sub ((ci 1).intervalIntegrable _ _)
    (((ci 3).const_mul _).intervalIntegrable _ _), intervalIntegral.integral_const_mul]
  refine mul_neg_of_pos_of_neg (by positivity) (mul_neg_of_pos_of_neg (by norm_num) (sub_neg.mpr ?_))
  generalize ∫ φ in (0 : ℝ)..(2 * π), 1 / sourceDist Rc Zc R Zc φ ^ 1 = I1 at less
  generalize ∫ φ in (0 : ℝ)..(2 * π), 1 / sourceDist Rc Zc R Zc φ ^ 3 = I3 at parts
  rw [← parts] at less
  have : (R ^ 2 - Rc ^ 2) * I1 < (R ^ 2 - Rc ^ 2) * ((R ^ 2 - Rc ^ 2) * I3) := by linarith
  exact lt_of_mul_lt_mul_left this hP.le

/-- **C134 (vertical field).** The vertical field that the code reports for a filament is upward, for a positive current, wherever both points of the
difference are nearer to the axis than the filament; in the plane of the filament it is downward where both are further out. Nothing is clipped between the
two points. -/
theorem C134_vertical_field (Rc Zc R Z eps : ℝ) (hRc : 0 < Rc) (he : 0 < eps) (hR : eps < R) (hu : ∀ r ∈ Icc (R - eps) (R + eps), Unclipped Rc Zc r Z) :
    (R + eps ≤ Rc → 0 < greensBz ellipticK ellipticE Rc Zc R Z eps) ∧
      (Z = Zc → Rc ≤ R - eps → greensBz ellipticK ellipticE Rc Zc R Z eps < 0) := by
  obtain ⟨ρ, hρ, e⟩ := C68_vertical_field Rc Zc R Z eps hRc he hR hu
  have hR0 : 0 < R := he.trans hR
  have hρ0 : 0 < ρ := by linarith [hρ.1]
  rw [e]
  refine ⟨fun h => ?_, fun hZ h => ?_⟩
  · exact mul_pos (by positivity) (vertical_inside hρ0 (by linarith [hρ.2]))
  · subst hZ
    exact mul_neg_of_pos_of_neg (by positivity) (vertical_outside hRc (by linarith [hρ.1]))

/-- **C134 (flux).** At every height the flux of a filament rises with the radius up to that of the filament; in the plane of the filament it falls beyond. -/
theorem C134_flux (Rc Zc Z r r' : ℝ) (hRc : 0 < Rc) (hr : 0 < r) (hlt : r < r') (hu : ∀ x ∈ Icc r r', Unclipped Rc Zc x Z) :
    (r' ≤ Rc → greens ellipticK ellipticE Rc Zc r Z < greens ellipticK ellipticE Rc Zc r' Z) ∧
      (Z = Zc → Rc ≤ r → greens ellipticK ellipticE Rc Zc r' Z < greens ellipticK ellipticE Rc Zc r Z) := by
  have hR : (r' - r) / 2 < (r + r') / 2 := by linarith
  have h := C134_vertical_field Rc Zc ((r + r') / 2) Z ((r' - r) / 2) hRc (by linarith) hR
    (fun x hx => hu x ⟨by linarith [hx.1], by linarith [hx.2]⟩)
  rw [greensBz, show (r + r') / 2 + (r' - r) / 2 = r' by ring, show (r + r') / 2 - (r' - r) / 2 = r by ring] at h
  have hd : 0 < 2 * ((r' - r) / 2) * ((r + r') / 2) := mul_pos (by linarith) (by linarith)
  refine ⟨fun h1 => ?_, fun h1 h2 => ?_⟩
  · have := (div_pos_iff_of_pos_right hd).mp (h.1 h1)
    linarith
  · have h3 := h.2 h1 h2
    rw [div_lt_iff₀ hd, zero_mul] at h3
    linarith

/-- **C134 (no null).** The field that the code reports for one coil that carries a current vanishes nowhere: not above or below the plane of the coil, and
in its plane neither inside nor outside, at points at least a millimetre from the coil and from the axis where nothing is clipped. -/
theorem C134_no_null (l : String) (p : PointCoil ℝ) (hp : 0 < p.R) (hI : p.current * p.turns ≠ 0) (R Z : ℝ) (hR : 1e-3 < R)
    (hfar : Z ≠ p.Z ∨ R + 1e-3 ≤ p.R ∨ p.R ≤ R - 1e-3)
    (hu : ∀ r ∈ Icc (R - 1e-3) (R + 1e-3), Unclipped p.R p.Z r Z) (hv : Unclipped p.R p.Z R (Z - 1e-3)) (hw : Unclipped p.R p.Z R (Z + 1e-3)) :
    let m : Machine ℝ := ⟨[(l, .coil (.point p))]⟩
    (m.field exactEnv .br R Z).1 ≠ 0 ∨ (m.field exactEnv .bz R Z).1 ≠ 0 := by
  intro m
  have hR0 : 0 < R := lt_trans (by norm_num) hR
  have hm : m.Computed := by
    intro x hx
    simp only [m, List.mem_singleton] at hx
    subst hx
    trivial
  have hb : (m.field exactEnv .br R Z).1 = greensBr ellipticK ellipticE p.R p.Z R Z * (p.current * p.turns) := by
    rw [field_filaments exactEnv .br R Z m hm]
    simp [m, Machine.filaments, Entry.filaments, AnyCoil.filaments, scaled, filamentSum, realEnv, AnyCoil.current, mul_comm]
  have hz : (m.field exactEnv .bz R Z).1 = greensBz ellipticK ellipticE p.R p.Z R Z * (p.current * p.turns) := by
    rw [field_filaments exactEnv .bz R Z m hm]
    simp [m, Machine.filaments, Entry.filaments, AnyCoil.filaments, scaled, filamentSum, realEnv, AnyCoil.current, mul_comm]
  rw [hb, hz]
  obtain ⟨-, -, c3⟩ := C123_field_direction p.R p.Z R Z 1e-3 hR0 hp (by norm_num)
  obtain ⟨v1, v2⟩ := C134_vertical_field p.R p.Z R Z 1e-3 hp (by norm_num) hR hu
  by_cases hZ : Z = p.Z
  · right
    refine mul_ne_zero ?_ hI
    rcases hfar with h | h | h
    · exact absurd hZ h
    · exact (v1 h).ne'
    · exact (v2 hZ h).ne
  · left
    refine mul_ne_zero ?_ hI
    rcases lt_or_gt_of_ne hZ with h | h
    · exact ((c3 hv hw).2 h).ne
    · exact ((c3 hv hw).1 h).ne'

/-- The vertical field of a machine whose currents are all positive and lie at larger radii. -/
theorem surrounded_field {m : Machine ℝ} (hm : m.Computed) {R Z : ℝ} (hR : 1e-3 < R)
    (hb : ∀ f ∈ m.filaments, R + 1e-3 ≤ f.1 ∧ 0 ≤ f.2.2 ∧ ∀ r ∈ Icc (R - 1e-3) (R + 1e-3), Unclipped f.1 f.2.1 r Z) :
    0 ≤ (m.field exactEnv .bz R Z).1 ∧ ((∃ f ∈ m.filaments, 0 < f.2.2) → 0 < (m.field exactEnv .bz R Z).1) := by
  rw [field_filaments exactEnv .bz R Z m hm]
  generalize m.filaments = l at hb
  induction l with
  | nil => exact ⟨by simp [filamentSum], by simp⟩
  | cons f l ih =>
    obtain ⟨i1, i2⟩ := ih fun g hg => hb g (List.mem_cons_of_mem _ hg)
    obtain ⟨a1, a2, a3⟩ := hb f List.mem_cons_self
    have hB := (C134_vertical_field f.1 f.2.1 R Z 1e-3 (by linarith) (by norm_num) hR a3).1 a1
    have e : filamentSum exactEnv .bz R Z (f :: l) = greensBz ellipticK ellipticE f.1 f.2.1 R Z * f.2.2 + filamentSum exactEnv .bz R Z l := by
      simp [filamentSum, realEnv]
    rw [e]
    have p := mul_nonneg hB.le a2
    refine ⟨add_nonneg p i1, ?_⟩
    rintro ⟨g, hg, b1⟩
    rcases List.mem_cons.mp hg with rfl | hg
    · exact add_pos_of_pos_of_nonneg (mul_pos hB b1) i1
    · exact add_pos_of_nonneg_of_pos p (i2 ⟨g, hg, b1⟩)

/-- **C134 (where nulls can be).** All currents of a machine are positive. Where the field that the code reports vanishes, some current lies at that height or
higher, some at that height or lower, and some not further out than a millimetre beyond: X-points and O-points of currents in one direction lie
between the lowest and the highest, and not nearer to the axis than the innermost. Nothing is clipped around the point. -/
theorem C134_nulls_between (m : Machine ℝ) (hm : m.Computed) (R Z : ℝ) (hR : 1e-3 < R) (hne : m.filaments ≠ [])
    (hb : ∀ f ∈ m.filaments, 0 < f.1 ∧ 0 < f.2.2 ∧ (∀ r ∈ Icc (R - 1e-3) (R + 1e-3), Unclipped f.1 f.2.1 r Z) ∧
      Unclipped f.1 f.2.1 R (Z - 1e-3) ∧ Unclipped f.1 f.2.1 R (Z + 1e-3))
    (hbr : (m.field exactEnv .br R Z).1 = 0) (hbz : (m.field exactEnv .bz R Z).1 = 0) :
    (∃ f ∈ m.filaments, Z ≤ f.2.1) ∧ (∃ f ∈ m.filaments, f.2.1 ≤ Z) ∧ ∃ f ∈ m.filaments, f.1 < R + 1e-3 := by
  have hR0 : 0 < R := lt_trans (by norm_num) hR
  obtain ⟨f0, hf0⟩ := List.exists_mem_of_ne_nil _ hne
  refine ⟨?_, ?_, ?_⟩
  · by_contra hcon
    push Not at hcon
    have := (below_field hm hR0 (Z := Z) fun f hf => ⟨(hb f hf).1, (hcon f hf).le, (hb f hf).2.1.le⟩).2
      ⟨f0, hf0, hcon f0 hf0, (hb f0 hf0).2.1, (hb f0 hf0).2.2.2.1, (hb f0 hf0).2.2.2.2⟩
    exact this.ne' hbr
  · by_contra hcon
    push Not at hcon
    have := (above_field hm hR0 (Z := Z) fun f hf => ⟨(hb f hf).1, (hcon f hf).le, (hb f hf).2.1.le⟩).2
      ⟨f0, hf0, hcon f0 hf0, (hb f0 hf0).2.1, (hb f0 hf0).2.2.2.1, (hb f0 hf0).2.2.2.2⟩
    exact this.ne hbr
  · by_contra hcon
    push Not at hcon
    have := (surrounded_field hm hR (Z := Z) fun f hf => ⟨hcon f hf, (hb f hf).2.1.le, (hb f hf).2.2.1⟩).2 ⟨f0, hf0, (hb f0 hf0).2.1⟩
    exact this.ne' hbz

/-- Two coils one above the other, halfway between them: the radial fields cancel. -/
example : ∃ m : Machine ℝ, m.Computed ∧ m.filaments ≠ [] ∧ (m.field exactEnv .br 1 0).1 = 0 ∧
    ∀ f ∈ m.filaments, 0 < f.1 ∧ 0 < f.2.2 ∧ (∀ r ∈ Icc (1 - 1e-3 : ℝ) (1 + 1e-3), Unclipped f.1 f.2.1 r 0) ∧
      Unclipped f.1 f.2.1 1 (0 - 1e-3) ∧ Unclipped f.1 f.2.1 1 (0 + 1e-3) := by
  have hm : (⟨[("P", .coil (.point (PointCoil.make 1 1 2))), ("Q", .coil (.point (PointCoil.make 1 (-1) 2)))]⟩ : Machine ℝ).Computed := by
    intro x hx
    simp only [List.mem_cons, List.not_mem_nil, or_false] at hx
    rcases hx with rfl | rfl <;> trivial
  refine ⟨_, hm, by simp [Machine.filaments, Entry.filaments, AnyCoil.filaments, scaled], ?_, ?_⟩
  · rw [field_filaments exactEnv .br 1 0 _ hm]
    simp only [Machine.filaments, Entry.filaments, AnyCoil.filaments, scaled, filamentSum, realEnv, AnyCoil.current, PointCoil.make, List.flatMap_cons,
      List.flatMap_nil, List.map_cons, List.map_nil, List.append_nil, List.singleton_append, List.sum_cons, List.sum_nil, greensBr]
    have h1 : greens ellipticK ellipticE 1 1 1 (0 - 1e-3) = greens ellipticK ellipticE 1 (-1) 1 (0 + 1e-3) := by
      unfold greens
      rw [show (0 - 1e-3 - 1 : ℝ) ^ 2 = (0 + 1e-3 - -1) ^ 2 by ring]
    have h2 : greens ellipticK ellipticE 1 1 1 (0 + 1e-3) = greens ellipticK ellipticE 1 (-1) 1 (0 - 1e-3) := by
      unfold greens
      rw [show (0 + 1e-3 - 1 : ℝ) ^ 2 = (0 - 1e-3 - -1) ^ 2 by ring]
    rw [h1, h2]
    ring
  · intro f hf
    simp only [Machine.filaments, Entry.filaments, AnyCoil.filaments, scaled, AnyCoil.current, PointCoil.make, List.flatMap_cons, List.flatMap_nil,
      List.map_cons, List.map_nil, List.append_nil, List.singleton_append, List.mem_cons, List.not_mem_nil, or_false] at hf
    rcases hf with rfl | rfl
    all_goals
      refine ⟨by norm_num, by norm_num, fun r hr => ?_, ⟨by norm_num, by norm_num⟩, by norm_num, by norm_num⟩
      obtain ⟨a, b⟩ := hr
      norm_num at a b
      constructor
      · rw [le_div_iff₀ (by positivity)]; norm_num; nlinarith
      · rw [div_le_iff₀ (by positivity)]; norm_num; nlinarith

/-- **C134 (innermost coil).** All other currents of the machine are positive and lie at larger radii, whatever their heights. Then they pull the coil outward
if its own current is positive, and press it inward if it is negative: this is the radial force reported without the coil's force on itself. -/
theorem C134_innermost (m : Machine ℝ) (hs : m.Synced) (i : ℕ) (l : String) (c : AnyCoil ℝ)
    (h : m.coils[i]? = some (l, .coil c)) (hm : (m.without i).Computed) (hR : 1e-3 < c.R)
    (hb : ∀ f ∈ (m.without i).filaments, c.R + 1e-3 ≤ f.1 ∧ 0 ≤ f.2.2 ∧ ∀ r ∈ Icc (c.R - 1e-3) (c.R + 1e-3), Unclipped f.1 f.2.1 r c.Z)
    (hf : ∃ f ∈ (m.without i).filaments, 0 < f.2.2) :
    ∃ F : ℝ × ℝ, m.coilForces exactEnv (fun _ _ _ => 0) (.direct i) = some (F, m) ∧
      (0 < c.current * c.turns → 2 * π * c.R * hoopForce exactEnv c.R c.area (c.current * c.turns) < F.1) ∧
      (c.current * c.turns < 0 → F.1 < 2 * π * c.R * hoopForce exactEnv c.R c.area (c.current * c.turns)) := by
  refine ⟨_, C20_direct_coil_partial exactEnv (fun _ _ _ => 0) m i l c h hs, ?_⟩
  have hB := (surrounded_field hm hR hb).2 hf
  have hR0 : 0 < c.R := lt_trans (by norm_num) hR
  have hL : 0 < 2 * π * c.R := by have := pi_pos; positivity
  have epi : exactEnv.pi = π := rfl
  dsimp only
  rw [epi]
  generalize ((m.without i).field exactEnv .bz c.R c.Z).1 = B at hB
  generalize hoopForce exactEnv c.R c.area (c.current * c.turns) = H
  generalize c.current * c.turns = I
  generalize 2 * π * c.R = L at hL
  refine ⟨fun hI => ?_, fun hI => ?_⟩
  · have := mul_pos (mul_pos hI hB) hL
    nlinarith
  · have := mul_neg_of_neg_of_pos (mul_neg_of_neg_of_pos hI hB) hL
    nlinarith

/-- A coil at radius one seen from radius two in its plane, and from radius one half. -/
example : ∃ p : PointCoil ℝ, 0 < p.R ∧ p.current * p.turns ≠ 0 ∧
    (∀ r ∈ Icc (2 - 1e-3 : ℝ) (2 + 1e-3), Unclipped p.R p.Z r 0) ∧ Unclipped p.R p.Z 2 (0 - 1e-3) ∧ Unclipped p.R p.Z 2 (0 + 1e-3) ∧ p.R ≤ 2 - 1e-3 ∧
    (∀ r ∈ Icc (1 / 2 - 1e-3 : ℝ) (1 / 2 + 1e-3), Unclipped p.R p.Z r 0) ∧ 1 / 2 + 1e-3 ≤ p.R := by
  refine ⟨PointCoil.make 1 0 1, ?_⟩
  simp only [PointCoil.make, Unclipped]
  refine ⟨one_pos, by norm_num, fun r hr => ?_, by norm_num, by norm_num, by norm_num, fun r hr => ?_, by norm_num⟩
  · obtain ⟨a, b⟩ := hr
    norm_num at a b
    have hp : 0 < (r + 1) ^ 2 + ((0 : ℝ) - 0) ^ 2 := by positivity
    constructor
    · rw [le_div_iff₀ hp]; norm_num; nlinarith
    · rw [div_le_iff₀ hp]; norm_num; nlinarith
  · obtain ⟨a, b⟩ := hr
    norm_num at a b
    have hp : 0 < (r + 1) ^ 2 + ((0 : ℝ) - 0) ^ 2 := by nlinarith
    constructor
    · rw [le_div_iff₀ hp]; norm_num; nlinarith
    · rw [div_le_iff₀ hp]; norm_num; nlinarith

/-- A coil inside another one. -/
example : ∃ m : Machine ℝ, m.Synced ∧ ∃ (l : String) (c : AnyCoil ℝ), m.coils[1]? = some (l, .coil c) ∧ (m.without 1).Computed ∧ 1e-3 < c.R ∧
    (∀ f ∈ (m.without 1).filaments, c.R + 1e-3 ≤ f.1 ∧ 0 ≤ f.2.2 ∧ ∀ r ∈ Icc (c.R - 1e-3) (c.R + 1e-3), Unclipped f.1 f.2.1 r c.Z) ∧
    (∃ f ∈ (m.without 1).filaments, 0 < f.2.2) ∧ 0 < c.current * c.turns := by
  refine ⟨⟨[("P", .coil (.point (PointCoil.make 3 0 3 2))), ("Q", .coil (.point (PointCoil.make 2 1 5 4)))]⟩, ?_, "Q", _, rfl, ?_⟩
  · intro l c hc; simp at hc
  · simp only [Machine.without, Machine.Computed, AnyCoil.Computed, Machine.filaments, Entry.filaments, AnyCoil.filaments, scaled, PointCoil.make,
      AnyCoil.R, AnyCoil.Z, AnyCoil.current, AnyCoil.turns, List.eraseIdx, List.mem_singleton, forall_eq, List.flatMap_cons, List.flatMap_nil,
      List.map_cons, List.map_nil, List.append_nil, exists_eq_left, true_and]
    refine ⟨by norm_num, ⟨by norm_num, by norm_num, fun r hr => ?_⟩, by norm_num, by norm_num⟩
    obtain ⟨a, b⟩ := hr
    norm_num at a b
    have hp : 0 < (r + 3) ^ 2 + ((1 : ℝ) - 0) ^ 2 := by positivity
    constructor
    · rw [le_div_iff₀ hp]; norm_num; nlinarith
    · rw [div_le_iff₀ hp]; norm_num; nlinarith

end FreeGS
