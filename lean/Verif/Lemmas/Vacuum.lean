import Verif.Spec.Vacuum
import Verif.Lemmas.GreensPhysics
import Verif.Lemmas.Machine

/-!
# Lemmas on the field of a machine
-/

set_option linter.unusedSectionVars false

namespace FreeGS

section
variable {K : Type*} [Field K] [LinearOrder K]

/-- The sum over filaments. -/
def filamentSum (e : Env K) (q : Quantity) (R Z : K) (l : List (K × K × K)) : K := (l.map fun f => e.G q f.1 f.2.1 R Z * f.2.2).sum

theorem filamentSum_append (e : Env K) (q : Quantity) (R Z : K) (l l' : List (K × K × K)) :
    filamentSum e q R Z (l ++ l') = filamentSum e q R Z l + filamentSum e q R Z l' := by simp [filamentSum]

theorem filamentSum_scaled (e : Env K) (q : Quantity) (R Z I : K) (l : List (K × K × K)) :
    filamentSum e q R Z (scaled I l) = I * filamentSum e q R Z l := by
  simp only [filamentSum, scaled, List.map_map, ← List.sum_map_mul_left]
  congr 1
  refine List.map_congr_left fun f _ => ?_
  simp only [Function.comp]
  ring

theorem filamentSum_flatMap {α : Type*} (e : Env K) (q : Quantity) (R Z : K) (l : List α) (f : α → List (K × K × K)) :
    filamentSum e q R Z (l.flatMap f) = (l.map fun x => filamentSum e q R Z (f x)).sum := by
  induction l with
  | nil => simp [filamentSum]
  | cons x l ih => rw [List.flatMap_cons, filamentSum_append, ih]; simp

theorem response_filaments (e : Env K) (q : Quantity) (R Z : K) (c : AnyCoil K) (h : c.Computed) :
    c.response e q R Z = filamentSum e q R Z c.filaments := by
  cases c with
  | point c => simp [AnyCoil.response, PointCoil.response, AnyCoil.filaments, filamentSum]
  | shaped c =>
    simp only [AnyCoil.response, ShapedCoil.response, AnyCoil.filaments, filamentSum, List.map_map, ← List.sum_map_mul_right]
    congr 1
    refine List.map_congr_left fun f _ => ?_
    simp only [Function.comp]
    ring
  | filament c =>
    simp only [AnyCoil.response, FilamentCoil.response, AnyCoil.filaments, filamentSum, List.map_map]
    rw [mul_div_assoc, ← List.sum_map_mul_right]
    rfl
  | multi c =>
    cases hm : c.mirror <;>
      simp [AnyCoil.response, MultiCoil.response, AnyCoil.filaments, filamentSum, hm, Function.comp_def]
  | precalc c => exact h.elim

theorem field_filaments (e : Env K) (q : Quantity) (R Z : K) (m : Machine K) (h : m.Computed) :
    (m.field e q R Z).1 = filamentSum e q R Z m.filaments := by
  rw [Machine.field_fst, Machine.filaments, filamentSum_flatMap]
  congr 1
  refine List.map_congr_left fun x hx => ?_
  have hc := h x hx
  obtain ⟨l, x⟩ := x
  cases x with
  | coil c =>
    simp only [Entry.current, Entry.response, Entry.filaments, filamentSum_scaled]
    rw [response_filaments e q R Z c hc]
  | circuit c =>
    simp only [Entry.current, Entry.response, Entry.filaments, filamentSum_flatMap, filamentSum_scaled, Circuit.response_eq,
      ← List.sum_map_mul_left]
    congr 1
    refine List.map_congr_left fun y hy => ?_
    rw [response_filaments e q R Z _ (hc y hy)]
    ring
  | solenoid s =>
    simp only [Entry.current, Entry.response, Entry.filaments, Solenoid.response_eq, ← List.sum_map_mul_left, filamentSum, List.map_map]
    congr 1
    refine List.map_congr_left fun y _ => ?_
    simp only [Function.comp]
    ring

end

/-! ## The field of a filament is free of curl away from it -/

open Real Set

/-- Points near `x` stay away from the filament. -/
theorem near_Z {Rc Zc R Z : ℝ} (h : R ≠ Rc ∨ Z ≠ Zc) : ∃ δ : ℝ, 0 < δ ∧ ∀ z ∈ Icc (Z - δ) (Z + δ), R ≠ Rc ∨ z ≠ Zc := by
  rcases h with h | h
  · exact ⟨1, one_pos, fun _ _ => Or.inl h⟩
  · refine ⟨|Z - Zc| / 2, by have := abs_pos.mpr (sub_ne_zero.mpr h); positivity, fun z hz => Or.inr ?_⟩
    rintro rfl
    have := abs_pos.mpr (sub_ne_zero.mpr h)
    rcases abs_cases (Z - z) with ⟨e, _⟩ | ⟨e, _⟩ <;> rw [e] at hz this <;> [linarith [hz.1]; linarith [hz.2]]

theorem near_R {Rc Zc R Z : ℝ} (hR : 0 < R) (h : R ≠ Rc ∨ Z ≠ Zc) :
    ∃ δ : ℝ, 0 < δ ∧ ∀ r ∈ Icc (R - δ) (R + δ), 0 < r ∧ (r ≠ Rc ∨ Z ≠ Zc) := by
  rcases h with h | h
  · have ha := abs_pos.mpr (sub_ne_zero.mpr h)
    refine ⟨min (R / 2) (|R - Rc| / 2), by positivity, fun r hr => ⟨?_, Or.inl ?_⟩⟩
    · have := min_le_left (R / 2) (|R - Rc| / 2)
      linarith [hr.1]
    · rintro rfl
      have := min_le_right (R / 2) (|R - r| / 2)
      rcases abs_cases (R - r) with ⟨e, _⟩ | ⟨e, _⟩ <;> rw [e] at hr this ha <;> [linarith [hr.1]; linarith [hr.2]]
  · exact ⟨R / 2, by positivity, fun r hr => ⟨by linarith [hr.1], Or.inr h⟩⟩

/-- The derivative of the distance with respect to the height. -/
theorem sourceDist_deriv_Z {Rc Zc R Z : ℝ} (hR : 0 < R) (hRc : 0 < Rc) (h : R ≠ Rc ∨ Z ≠ Zc) (φ : ℝ) :
    HasDerivAt (fun z => sourceDist Rc Zc R z φ) ((Z - Zc) / sourceDist Rc Zc R Z φ) Z := by
  have hp := distSq_pos hR hRc h φ
  have h1 : HasDerivAt (fun z => (R - Rc * cos φ) ^ 2 + (Rc * sin φ) ^ 2 + (z - Zc) ^ 2) (2 * (Z - Zc)) Z := by
    have := (((hasDerivAt_id Z).sub_const Zc).pow 2).const_add ((R - Rc * cos φ) ^ 2 + (Rc * sin φ) ^ 2)
    simpa using this
  have h2 : HasDerivAt (fun z => sourceDist Rc Zc R z φ) (2 * (Z - Zc) / (2 * sourceDist Rc Zc R Z φ)) Z := h1.sqrt hp.ne'
  refine h2.congr_deriv ?_
  have hsd := sourceDist_pos hR hRc h φ
  field_simp

/-- The derivative of the distance with respect to the radius. -/
theorem sourceDist_deriv_R {Rc Zc R Z : ℝ} (hR : 0 < R) (hRc : 0 < Rc) (h : R ≠ Rc ∨ Z ≠ Zc) (φ : ℝ) :
    HasDerivAt (fun r => sourceDist Rc Zc r Z φ) ((R - Rc * cos φ) / sourceDist Rc Zc R Z φ) R := by
  have hp := distSq_pos hR hRc h φ
  have h1 : HasDerivAt (fun r => (r - Rc * cos φ) ^ 2 + (Rc * sin φ) ^ 2 + (Z - Zc) ^ 2) (2 * (R - Rc * cos φ)) R := by
    have := ((((hasDerivAt_id R).sub_const (Rc * cos φ)).pow 2).add_const ((Rc * sin φ) ^ 2)).add_const ((Z - Zc) ^ 2)
    simpa using this
  have h2 : HasDerivAt (fun r => sourceDist Rc Zc r Z φ) (2 * (R - Rc * cos φ) / (2 * sourceDist Rc Zc R Z φ)) R := h1.sqrt hp.ne'
  refine h2.congr_deriv ?_
  have hsd := sourceDist_pos hR hRc h φ
  field_simp

/-- `∂B_R/∂Z` under the integral. -/
noncomputable def dBr (Rc Zc R Z φ : ℝ) : ℝ :=
  Rc * cos φ * (1 / sourceDist Rc Zc R Z φ ^ 3 - 3 * (Z - Zc) ^ 2 / sourceDist Rc Zc R Z φ ^ 5)

/-- `∂B_Z/∂R` under the integral. -/
noncomputable def dBz (Rc Zc R Z φ : ℝ) : ℝ :=
  Rc * (-cos φ / sourceDist Rc Zc R Z φ ^ 3 - 3 * (Rc - R * cos φ) * (R - Rc * cos φ) / sourceDist Rc Zc R Z φ ^ 5)

theorem continuous_sourceDist {Rc Zc R Z : ℝ} : Continuous fun φ => sourceDist Rc Zc R Z φ := by unfold sourceDist; fun_prop

theorem dBr_continuous {Rc Zc R Z : ℝ} (hR : 0 < R) (hRc : 0 < Rc) (h : R ≠ Rc ∨ Z ≠ Zc) : Continuous (dBr Rc Zc R Z) := by
  have hs : Continuous fun φ => sourceDist Rc Zc R Z φ := continuous_sourceDist
  have hp := fun φ => sourceDist_pos hR hRc h φ
  unfold dBr
  refine Continuous.mul (by fun_prop) (Continuous.sub (Continuous.div (by fun_prop) (hs.pow 3) fun φ => (pow_pos (hp φ) 3).ne')
    (Continuous.div (by fun_prop) (hs.pow 5) fun φ => (pow_pos (hp φ) 5).ne'))

theorem dBz_continuous {Rc Zc R Z : ℝ} (hR : 0 < R) (hRc : 0 < Rc) (h : R ≠ Rc ∨ Z ≠ Zc) : Continuous (dBz Rc Zc R Z) := by
  have hs : Continuous fun φ => sourceDist Rc Zc R Z φ := continuous_sourceDist
  have hp := fun φ => sourceDist_pos hR hRc h φ
  unfold dBz
  refine Continuous.mul (by fun_prop) (Continuous.sub (Continuous.div (by fun_prop) (hs.pow 3) fun φ => (pow_pos (hp φ) 3).ne')
    (Continuous.div (by fun_prop) (hs.pow 5) fun φ => (pow_pos (hp φ) 5).ne'))

theorem radial_deriv_Z {Rc Zc R Z : ℝ} (hR : 0 < R) (hRc : 0 < Rc) (h : R ≠ Rc ∨ Z ≠ Zc) :
    HasDerivAt (fun z => biotSavartR Rc Zc R z) (mu0 / (4 * π) * ∫ φ in (0 : ℝ)..(2 * π), dBr Rc Zc R Z φ) Z := by
  obtain ⟨δ, hδ, hnb⟩ := near_Z h
  unfold biotSavartR
  refine HasDerivAt.const_mul _ ?_
  refine hasDerivAt_integral_param (F := fun z φ => Rc * cos φ * (z - Zc) / sourceDist Rc Zc R z φ ^ 3)
    (F' := fun z φ => dBr Rc Zc R z φ) hδ ?_ ?_ (dBr_continuous hR hRc h) ?_
  · intro z hz
    refine Continuous.div (by fun_prop) (continuous_sourceDist.pow 3) fun φ => ?_
    exact (pow_pos (sourceDist_pos hR hRc (hnb z hz) φ) 3).ne'
  · have hs : Continuous fun p : ℝ × ℝ => sourceDist Rc Zc R p.1 p.2 := by unfold sourceDist; fun_prop
    have hp : ∀ p ∈ Icc (Z - δ) (Z + δ) ×ˢ uIcc (0 : ℝ) (2 * π), 0 < sourceDist Rc Zc R p.1 p.2 :=
      fun p hp => sourceDist_pos hR hRc (hnb p.1 hp.1) p.2
    unfold dBr
    refine ContinuousOn.mul (by fun_prop) (ContinuousOn.sub ?_ ?_)
    · exact ContinuousOn.div (by fun_prop) (hs.pow 3).continuousOn fun p h => (pow_pos (hp p h) 3).ne'
    · exact ContinuousOn.div (by fun_prop) (hs.pow 5).continuousOn fun p h => (pow_pos (hp p h) 5).ne'
  · intro z hz φ
    have hd := sourceDist_deriv_Z hR hRc (hnb z hz) φ
    have hsd := sourceDist_pos hR hRc (hnb z hz) φ
    have h1 : HasDerivAt (fun z => Rc * cos φ * (z - Zc)) (Rc * cos φ) z := by
      simpa using ((hasDerivAt_id z).sub_const Zc).const_mul (Rc * cos φ)
    refine (h1.div (hd.pow 3) (pow_pos hsd 3).ne').congr_deriv ?_
    unfold dBr
    simp only [Pi.pow_apply]
    field_simp
    push_cast
    ring

theorem vertical_deriv_R {Rc Zc R Z : ℝ} (hR : 0 < R) (hRc : 0 < Rc) (h : R ≠ Rc ∨ Z ≠ Zc) :
    HasDerivAt (fun r => biotSavartZ Rc Zc r Z) (mu0 / (4 * π) * ∫ φ in (0 : ℝ)..(2 * π), dBz Rc Zc R Z φ) R := by
  obtain ⟨δ, hδ, hnb⟩ := near_R hR h
  unfold biotSavartZ
  refine HasDerivAt.const_mul _ ?_
  refine hasDerivAt_integral_param (F := fun r φ => ((-(Rc * sin φ)) * (-(Rc * sin φ)) - Rc * cos φ * (r - Rc * cos φ)) / sourceDist Rc Zc r Z φ ^ 3)
    (F' := fun r φ => dBz Rc Zc r Z φ) hδ ?_ ?_ (dBz_continuous hR hRc h) ?_
  · intro r hr
    refine Continuous.div (by fun_prop) (continuous_sourceDist.pow 3) fun φ => ?_
    exact (pow_pos (sourceDist_pos (hnb r hr).1 hRc (hnb r hr).2 φ) 3).ne'
  · have hs : Continuous fun p : ℝ × ℝ => sourceDist Rc Zc p.1 Z p.2 := by unfold sourceDist; fun_prop
    have hp : ∀ p ∈ Icc (R - δ) (R + δ) ×ˢ uIcc (0 : ℝ) (2 * π), 0 < sourceDist Rc Zc p.1 Z p.2 :=
      fun p hp => sourceDist_pos (hnb p.1 hp.1).1 hRc (hnb p.1 hp.1).2 p.2
    unfold dBz
    refine ContinuousOn.mul (by fun_prop) (ContinuousOn.sub ?_ ?_)
    · exact ContinuousOn.div (by fun_prop) (hs.pow 3).continuousOn fun p h => (pow_pos (hp p h) 3).ne'
    · exact ContinuousOn.div (by fun_prop) (hs.pow 5).continuousOn fun p h => (pow_pos (hp p h) 5).ne'
  · intro r hr φ
    have hd := sourceDist_deriv_R (hnb r hr).1 hRc (hnb r hr).2 φ
    have hsd := sourceDist_pos (hnb r hr).1 hRc (hnb r hr).2 φ
    have h1 : HasDerivAt (fun r => (-(Rc * sin φ)) * (-(Rc * sin φ)) - Rc * cos φ * (r - Rc * cos φ)) (-(Rc * cos φ)) r := by
      simpa using (((hasDerivAt_id r).sub_const (Rc * cos φ)).const_mul (Rc * cos φ)).const_sub ((-(Rc * sin φ)) * (-(Rc * sin φ)))
    refine (h1.div (hd.pow 3) (pow_pos hsd 3).ne').congr_deriv ?_
    have hc := sin_sq_add_cos_sq φ
    have e : (-(Rc * sin φ)) * (-(Rc * sin φ)) - Rc * cos φ * (r - Rc * cos φ) = Rc * (Rc - r * cos φ) := by
      linear_combination Rc ^ 2 * hc
    rw [e]
    unfold dBz
    simp only [Pi.pow_apply]
    field_simp
    push_cast
    ring

/-- `∂B_R/∂Z = ∂B_Z/∂R` away from the filament. -/
theorem curl_free {Rc Zc R Z : ℝ} (hR : 0 < R) (hRc : 0 < Rc) (h : R ≠ Rc ∨ Z ≠ Zc) :
    ∫ φ in (0 : ℝ)..(2 * π), dBr Rc Zc R Z φ = ∫ φ in (0 : ℝ)..(2 * π), dBz Rc Zc R Z φ := by
  rw [← sub_eq_zero, ← intervalIntegral.integral_sub ((dBr_continuous hR hRc h).intervalIntegrable _ _)
    ((dBz_continuous hR hRc h).intervalIntegrable _ _)]
  have hd : ∀ φ ∈ uIcc (0 : ℝ) (2 * π), HasDerivAt (fun φ => -Rc * (sin φ / sourceDist Rc Zc R Z φ ^ 3))
      (dBr Rc Zc R Z φ - dBz Rc Zc R Z φ) φ := by
    intro φ _
    have hp := distSq_pos hR hRc h φ
    have hsd := sourceDist_pos hR hRc h φ
    have h1 : HasDerivAt (fun φ => (R - Rc * cos φ) ^ 2 + (Rc * sin φ) ^ 2 + (Z - Zc) ^ 2) (2 * R * Rc * sin φ) φ := by
      have e : (fun φ => (R - Rc * cos φ) ^ 2 + (Rc * sin φ) ^ 2 + (Z - Zc) ^ 2) =
          fun φ => R ^ 2 + Rc ^ 2 + (Z - Zc) ^ 2 - 2 * R * Rc * cos φ := by
        funext φ; exact sourceDist_sq Rc Zc R Z φ
      rw [e]
      have := ((hasDerivAt_cos φ).const_mul (2 * R * Rc)).const_sub (R ^ 2 + Rc ^ 2 + (Z - Zc) ^ 2)
      exact this.congr_deriv (by ring)
    have h2 : HasDerivAt (fun φ => sourceDist Rc Zc R Z φ) (2 * R * Rc * sin φ / (2 * sourceDist Rc Zc R Z φ)) φ := h1.sqrt hp.ne'
    refine (((hasDerivAt_sin φ).div (h2.pow 3) (pow_pos hsd 3).ne').const_mul (-Rc)).congr_deriv ?_
    have hsq : sourceDist Rc Zc R Z φ ^ 2 = R ^ 2 + Rc ^ 2 + (Z - Zc) ^ 2 - 2 * R * Rc * cos φ := by
      rw [← sourceDist_sq, sourceDist, Real.sq_sqrt hp.le]
    have hc := sin_sq_add_cos_sq φ
    unfold dBr dBz
    simp only [Pi.pow_apply]
    set d := sourceDist Rc Zc R Z φ with hdd
    have key : -(cos φ * d ^ 2) + 3 * R * Rc * sin φ ^ 2 =
        2 * cos φ * d ^ 2 - 3 * cos φ * (Z - Zc) ^ 2 + 3 * (Rc - R * cos φ) * (R - Rc * cos φ) := by
      linear_combination (-3 * cos φ) * hsq + 3 * R * Rc * hc
    have e1 : -Rc * ((cos φ * d ^ 3 - sin φ * ((3 : ℕ) * d ^ (3 - 1) * (2 * R * Rc * sin φ / (2 * d)))) / (d ^ 3) ^ 2) =
        Rc * (-(cos φ * d ^ 2) + 3 * R * Rc * sin φ ^ 2) / d ^ 5 := by
      field_simp
      push_cast
      ring
    have e2 : Rc * cos φ * (1 / d ^ 3 - 3 * (Z - Zc) ^ 2 / d ^ 5) -
        Rc * (-cos φ / d ^ 3 - 3 * (Rc - R * cos φ) * (R - Rc * cos φ) / d ^ 5) =
        Rc * (2 * cos φ * d ^ 2 - 3 * cos φ * (Z - Zc) ^ 2 + 3 * (Rc - R * cos φ) * (R - Rc * cos φ)) / d ^ 5 := by
      field_simp
      ring
    rw [e2, ← key, ← e1]
  rw [intervalIntegral.integral_eq_sub_of_hasDerivAt hd]
  · simp
  · exact ((dBr_continuous hR hRc h).sub (dBz_continuous hR hRc h)).intervalIntegrable _ _

/-! ## Bounds -/

theorem sourceDist_sq' (Rc Zc R Z φ : ℝ) :
    sourceDist Rc Zc R Z φ ^ 2 = (R - Rc * cos φ) ^ 2 + (Rc * sin φ) ^ 2 + (Z - Zc) ^ 2 := by
  rw [sourceDist, Real.sq_sqrt (by positivity)]

/-- The nearest source element is the one at angle zero. -/
theorem sourceDist_ge {Rc Zc R Z D : ℝ} (hR : 0 < R) (hRc : 0 < Rc) (hD : D ^ 2 ≤ (R - Rc) ^ 2 + (Z - Zc) ^ 2) (φ : ℝ) :
    D ≤ sourceDist Rc Zc R Z φ := by
  refine Real.le_sqrt_of_sq_le ?_
  rw [sourceDist_sq]
  nlinarith [cos_le_one φ, mul_pos hR hRc]

theorem bound_aux {d x y : ℝ} (hd : 0 < d) (hx : x ^ 2 ≤ d ^ 2) (hy : y ^ 2 ≤ d ^ 2) : |x * y / d ^ 5| ≤ 1 / d ^ 3 := by
  have h : |x * y| ≤ d ^ 2 := by
    rw [abs_mul]
    have h1' := abs_le_of_sq_le_sq hx hd.le
    have h2' := abs_le_of_sq_le_sq hy hd.le
    calc |x| * |y| ≤ d * d := mul_le_mul h1' h2' (abs_nonneg _) hd.le
      _ = d ^ 2 := by ring
  rw [abs_div, abs_of_pos (pow_pos hd 5), div_le_div_iff₀ (pow_pos hd 5) (pow_pos hd 3)]
  nlinarith [pow_pos hd 3]

theorem abs_cos_div {d φ : ℝ} (hd : 0 < d) : |cos φ / d ^ 3| ≤ 1 / d ^ 3 := by
  rw [abs_div, abs_of_pos (pow_pos hd 3)]
  exact div_le_div_of_nonneg_right (abs_cos_le_one φ) (pow_pos hd 3).le

theorem dBr_le {Rc Zc R Z : ℝ} (hR : 0 < R) (hRc : 0 < Rc) (h : R ≠ Rc ∨ Z ≠ Zc) (φ : ℝ) :
    |dBr Rc Zc R Z φ| ≤ 4 * Rc / sourceDist Rc Zc R Z φ ^ 3 := by
  have hsd := sourceDist_pos hR hRc h φ
  have hsq := sourceDist_sq' Rc Zc R Z φ
  set d := sourceDist Rc Zc R Z φ with hd
  have h1 := abs_cos_div (φ := φ) hsd
  have h2 := bound_aux hsd (x := Z - Zc) (y := Z - Zc) (by rw [hsq]; nlinarith [sq_nonneg (R - Rc * cos φ), sq_nonneg (Rc * sin φ)])
    (by rw [hsq]; nlinarith [sq_nonneg (R - Rc * cos φ), sq_nonneg (Rc * sin φ)])
  have e : dBr Rc Zc R Z φ = Rc * (cos φ / d ^ 3 - 3 * (cos φ * ((Z - Zc) * (Z - Zc) / d ^ 5))) := by
    rw [dBr, ← hd]; ring
  have h3 : |cos φ * ((Z - Zc) * (Z - Zc) / d ^ 5)| ≤ 1 / d ^ 3 := by
    rw [abs_mul]
    calc |cos φ| * |(Z - Zc) * (Z - Zc) / d ^ 5| ≤ 1 * (1 / d ^ 3) :=
          mul_le_mul (abs_cos_le_one φ) h2 (abs_nonneg _) zero_le_one
      _ = _ := one_mul _
  rw [e, abs_mul, abs_of_pos hRc, show 4 * Rc / d ^ 3 = Rc * (4 * (1 / d ^ 3)) by ring]
  refine mul_le_mul_of_nonneg_left ?_ hRc.le
  have a1 := abs_le.mp h1
  have a3 := abs_le.mp h3
  rw [abs_le]
  constructor <;> linarith [a1.1, a1.2, a3.1, a3.2]

theorem dBz_le {Rc Zc R Z : ℝ} (hR : 0 < R) (hRc : 0 < Rc) (h : R ≠ Rc ∨ Z ≠ Zc) (φ : ℝ) :
    |dBz Rc Zc R Z φ| ≤ 4 * Rc / sourceDist Rc Zc R Z φ ^ 3 := by
  have hsd := sourceDist_pos hR hRc h φ
  have hsq := sourceDist_sq' Rc Zc R Z φ
  have hsq' : sourceDist Rc Zc R Z φ ^ 2 = R ^ 2 + Rc ^ 2 + (Z - Zc) ^ 2 - 2 * R * Rc * cos φ := by rw [hsq, sourceDist_sq]
  have hc := sin_sq_add_cos_sq φ
  set d := sourceDist Rc Zc R Z φ with hd
  have h1 := abs_cos_div (φ := φ) hsd
  have h2 := bound_aux hsd (x := Rc - R * cos φ) (y := R - Rc * cos φ)
    (by rw [hsq']; nlinarith [sq_nonneg (Z - Zc), sq_nonneg (R * sin φ), mul_self_nonneg R])
    (by rw [hsq]; nlinarith [sq_nonneg (Z - Zc), sq_nonneg (Rc * sin φ)])
  have e : dBz Rc Zc R Z φ = -(Rc * (cos φ / d ^ 3 + 3 * ((Rc - R * cos φ) * (R - Rc * cos φ) / d ^ 5))) := by
    rw [dBz, ← hd]; ring
  rw [e, abs_neg, abs_mul, abs_of_pos hRc, show 4 * Rc / d ^ 3 = Rc * (4 * (1 / d ^ 3)) by ring]
  refine mul_le_mul_of_nonneg_left ?_ hRc.le
  have a1 := abs_le.mp h1
  have a3 := abs_le.mp h2
  rw [abs_le]
  constructor <;> linarith [a1.1, a1.2, a3.1, a3.2]

/-- An integral over the filament is at most its length in angle times a bound. -/
theorem loop_le {f : ℝ → ℝ} {C : ℝ} (h : ∀ φ, |f φ| ≤ C) : |mu0 / (4 * π) * ∫ φ in (0 : ℝ)..(2 * π), f φ| ≤ mu0 / 2 * C := by
  have hmu : 0 < mu0 := by unfold mu0; positivity
  have hpi := pi_pos
  have h1 : ‖∫ φ in (0 : ℝ)..(2 * π), f φ‖ ≤ C * |2 * π - 0| :=
    intervalIntegral.norm_integral_le_of_norm_le_const fun φ _ => by rw [Real.norm_eq_abs]; exact h φ
  rw [Real.norm_eq_abs, sub_zero, abs_of_pos (by positivity : (0 : ℝ) < 2 * π)] at h1
  rw [abs_mul, abs_of_pos (by positivity)]
  calc mu0 / (4 * π) * |∫ φ in (0 : ℝ)..(2 * π), f φ| ≤ mu0 / (4 * π) * (C * (2 * π)) := by
        exact mul_le_mul_of_nonneg_left h1 (by positivity)
    _ = mu0 / 2 * C := by field_simp; ring

theorem dist_bound {Rc Zc R Z D : ℝ} (hR : 0 < R) (hRc : 0 < Rc) (hD0 : 0 < D) (hD : D ^ 2 ≤ (R - Rc) ^ 2 + (Z - Zc) ^ 2) (φ : ℝ) :
    4 * Rc / sourceDist Rc Zc R Z φ ^ 3 ≤ 4 * Rc / D ^ 3 := by
  have h := sourceDist_ge hR hRc hD φ
  exact div_le_div_of_nonneg_left (by positivity) (pow_pos hD0 3) (pow_le_pow_left₀ hD0.le h 3)

theorem apart {Rc Zc R Z D : ℝ} (hD0 : 0 < D) (hD : D ^ 2 ≤ (R - Rc) ^ 2 + (Z - Zc) ^ 2) : R ≠ Rc ∨ Z ≠ Zc := by
  by_contra hcon
  push Not at hcon
  obtain ⟨rfl, rfl⟩ := hcon
  simp only [sub_self] at hD
  nlinarith

/-- The vertical field is at most `mu0 Rc / (2 D²)`. -/
theorem biotSavartZ_le {Rc Zc R Z D : ℝ} (hR : 0 < R) (hRc : 0 < Rc) (hD0 : 0 < D) (hD : D ^ 2 ≤ (R - Rc) ^ 2 + (Z - Zc) ^ 2) :
    |biotSavartZ Rc Zc R Z| ≤ mu0 / 2 * (Rc / D ^ 2) := by
  unfold biotSavartZ
  refine loop_le fun φ => ?_
  have hsd := sourceDist_pos hR hRc (apart hD0 hD) φ
  have hge := sourceDist_ge hR hRc hD φ
  have hsq := sourceDist_sq' Rc Zc R Z φ
  have hsq' : sourceDist Rc Zc R Z φ ^ 2 = R ^ 2 + Rc ^ 2 + (Z - Zc) ^ 2 - 2 * R * Rc * cos φ := by rw [hsq, sourceDist_sq]
  have hc := sin_sq_add_cos_sq φ
  set d := sourceDist Rc Zc R Z φ with hd
  have e : (-(Rc * sin φ)) * (-(Rc * sin φ)) - Rc * cos φ * (R - Rc * cos φ) = Rc * (Rc - R * cos φ) := by
    linear_combination Rc ^ 2 * hc
  have hx : |Rc - R * cos φ| ≤ d :=
    abs_le_of_sq_le_sq (by rw [hsq']; nlinarith [sq_nonneg (Z - Zc), sq_nonneg (R * sin φ), mul_self_nonneg R]) hsd.le
  rw [e, abs_div, abs_mul, abs_of_pos hRc, abs_of_pos (pow_pos hsd 3)]
  calc Rc * |Rc - R * cos φ| / d ^ 3 ≤ Rc * d / d ^ 3 := by gcongr
    _ = Rc / d ^ 2 := by field_simp
    _ ≤ Rc / D ^ 2 := div_le_div_of_nonneg_left hRc.le (pow_pos hD0 2) (pow_le_pow_left₀ hD0.le hge 2)

/-! ## The operator of the Grad-Shafranov equation -/

theorem clear_near_R {Rc Zc R Z : ℝ} (hR : 0 < R) (hRc : 0 < Rc) (h : ClearOf Rc Zc R Z) :
    ∀ᶠ r in nhds R, 0 < r ∧ ClearOf Rc Zc r Z := by
  have hD : (R + Rc) ^ 2 + (Z - Zc) ^ 2 ≠ 0 := by positivity
  have hc : ContinuousAt (fun r => 4 * r * Rc / ((r + Rc) ^ 2 + (Z - Zc) ^ 2)) R :=
    ContinuousAt.div (by fun_prop) (by fun_prop) hD
  filter_upwards [lt_mem_nhds hR, hc.eventually (lt_mem_nhds h.1), hc.eventually (gt_mem_nhds h.2)] with r h1 h2 h3
  exact ⟨h1, h2, h3⟩

theorem clear_near_Z {Rc Zc R Z : ℝ} (hR : 0 < R) (hRc : 0 < Rc) (h : ClearOf Rc Zc R Z) :
    ∀ᶠ z in nhds Z, ClearOf Rc Zc R z := by
  have hD : (R + Rc) ^ 2 + (Z - Zc) ^ 2 ≠ 0 := by positivity
  have hc : ContinuousAt (fun z => 4 * R * Rc / ((R + Rc) ^ 2 + (z - Zc) ^ 2)) Z :=
    ContinuousAt.div (by fun_prop) (by fun_prop) hD
  filter_upwards [hc.eventually (lt_mem_nhds h.1), hc.eventually (gt_mem_nhds h.2)] with z h2 h3
  exact ⟨h2, h3⟩

theorem ClearOf.unclipped {Rc Zc R Z : ℝ} (h : ClearOf Rc Zc R Z) : Unclipped Rc Zc R Z := ⟨h.1.le, h.2.le⟩

theorem greens_deltaStar {Rc Zc R Z : ℝ} (hR : 0 < R) (hRc : 0 < Rc) (h : ClearOf Rc Zc R Z) :
    HasDeltaStar (greens ellipticK ellipticE Rc Zc) 0 R Z := by
  refine ⟨fun r z => r * biotSavartZ Rc Zc r z, fun r z => -r * biotSavartR Rc Zc r z,
    mu0 / (4 * π) * ∫ φ in (0 : ℝ)..(2 * π), dBz Rc Zc R Z φ, -R * (mu0 / (4 * π) * ∫ φ in (0 : ℝ)..(2 * π), dBr Rc Zc R Z φ), ?_, ?_, ?_, ?_, ?_⟩
  · filter_upwards [(clear_near_R hR hRc h).eventually_nhds] with r hr
    have h0 := hr.self_of_nhds
    refine (flux_deriv_R h0.1 hRc (unclipped_ne hRc h0.2.unclipped)).congr_of_eventuallyEq ?_
    filter_upwards [hr] with r' hr'
    exact greens_eq_flux Rc Zc r' Z hr'.1 hRc hr'.2.unclipped
  · filter_upwards [(clear_near_Z hR hRc h).eventually_nhds] with z hz
    have h0 := hz.self_of_nhds
    refine (flux_deriv_Z hR hRc (unclipped_ne hRc h0.unclipped)).congr_of_eventuallyEq ?_
    filter_upwards [hz] with z' hz'
    exact greens_eq_flux Rc Zc R z' hR hRc hz'.unclipped
  · refine (vertical_deriv_R hR hRc (unclipped_ne hRc h.unclipped)).congr_of_eventuallyEq ?_
    filter_upwards [lt_mem_nhds hR] with r hr
    have : r ≠ 0 := hr.ne'
    field_simp
  · exact (radial_deriv_Z hR hRc (unclipped_ne hRc h.unclipped)).const_mul (-R)
  · rw [curl_free hR hRc (unclipped_ne hRc h.unclipped)]
    ring

theorem HasDeltaStar.add {f g : ℝ → ℝ → ℝ} {v w R Z : ℝ} (hf : HasDeltaStar f v R Z) (hg : HasDeltaStar g w R Z) :
    HasDeltaStar (fun r z => f r z + g r z) (v + w) R Z := by
  obtain ⟨fR, fZ, a, b, h1, h2, h3, h4, h5⟩ := hf
  obtain ⟨gR, gZ, a', b', k1, k2, k3, k4, k5⟩ := hg
  refine ⟨fun r z => fR r z + gR r z, fun r z => fZ r z + gZ r z, a + a', b + b', ?_, ?_, ?_, h4.add k4, by linear_combination h5 + k5⟩
  · filter_upwards [h1, k1] with r x y using x.add y
  · filter_upwards [h2, k2] with r x y using x.add y
  · simp only [mul_add]
    exact h3.add k3

theorem HasDeltaStar.mul_const {f : ℝ → ℝ → ℝ} {v R Z : ℝ} (hf : HasDeltaStar f v R Z) (c : ℝ) :
    HasDeltaStar (fun r z => f r z * c) (v * c) R Z := by
  obtain ⟨fR, fZ, a, b, h1, h2, h3, h4, h5⟩ := hf
  refine ⟨fun r z => fR r z * c, fun r z => fZ r z * c, a * c, b * c, ?_, ?_, ?_, h4.mul_const c, by linear_combination c * h5⟩
  · filter_upwards [h1] with r x using x.mul_const c
  · filter_upwards [h2] with r x using x.mul_const c
  · simp only [← mul_assoc]
    exact h3.mul_const c

theorem hasDeltaStar_zero (R Z : ℝ) : HasDeltaStar (fun _ _ => 0) 0 R Z := by
  refine ⟨fun _ _ => 0, fun _ _ => 0, 0, 0, ?_, ?_, ?_, hasDerivAt_const _ _, by ring⟩
  · exact Filter.Eventually.of_forall fun r => hasDerivAt_const _ _
  · exact Filter.Eventually.of_forall fun r => hasDerivAt_const _ _
  · simp only [mul_zero]
    exact hasDerivAt_const _ _

theorem filaments_deltaStar {R Z : ℝ} (hR : 0 < R) : ∀ l : List (ℝ × ℝ × ℝ), (∀ f ∈ l, 0 < f.1 ∧ ClearOf f.1 f.2.1 R Z) →
    HasDeltaStar (fun r z => filamentSum (realEnv ellipticK ellipticE) .psi r z l) 0 R Z
  | [], _ => by simpa [filamentSum] using hasDeltaStar_zero R Z
  | f :: l, h => by
    have h1 := (greens_deltaStar hR (h f (by simp)).1 (h f (by simp)).2).mul_const f.2.2
    have h2 := h1.add (filaments_deltaStar hR l fun g hg => h g (by simp [hg]))
    rw [zero_mul, zero_add] at h2
    simpa [filamentSum, realEnv] using h2

end FreeGS
