import Verif.Model.Greens

/-!
# C15, C16: symmetries of the Green's functions
-/

namespace FreeGS

variable (ek ee : ℝ → ℝ)

/-- **C15.** `Greens` is unchanged by exchanging source and observation point, by shifting both heights, by
reflecting both heights. (It is also homogeneous of degree one in the lengths.) -/
theorem C15_greens_symmetries (Rc Zc R Z : ℝ) :
    greens ek ee Rc Zc R Z = greens ek ee R Z Rc Zc ∧
    (∀ h, greens ek ee Rc (Zc + h) R (Z + h) = greens ek ee Rc Zc R Z) ∧
    greens ek ee Rc (-Zc) R (-Z) = greens ek ee Rc Zc R Z ∧
    (∀ s, 0 < s → greens ek ee (s * Rc) (s * Zc) (s * R) (s * Z) = s * greens ek ee Rc Zc R Z) := by
  refine ⟨?_, fun h => ?_, ?_, fun s hs => ?_⟩
  · have h1 : 4 * R * Rc / ((R + Rc) ^ 2 + (Z - Zc) ^ 2) =
        4 * Rc * R / ((Rc + R) ^ 2 + (Zc - Z) ^ 2) := by
      rw [show (Z - Zc) ^ 2 = (Zc - Z) ^ 2 by ring, add_comm R Rc]; ring_nf
    simp only [greens]
    rw [h1, mul_comm R Rc]
  · simp only [greens]
    rw [show Z + h - (Zc + h) = Z - Zc by ring]
  · simp only [greens]
    rw [show (-Z - -Zc) ^ 2 = (Z - Zc) ^ 2 by ring]
  · have h1 : 4 * (s * R) * (s * Rc) / ((s * R + s * Rc) ^ 2 + (s * Z - s * Zc) ^ 2) =
        4 * R * Rc / ((R + Rc) ^ 2 + (Z - Zc) ^ 2) := by
      rw [show 4 * (s * R) * (s * Rc) = s ^ 2 * (4 * R * Rc) by ring,
        show (s * R + s * Rc) ^ 2 + (s * Z - s * Zc) ^ 2 =
          s ^ 2 * ((R + Rc) ^ 2 + (Z - Zc) ^ 2) by ring, mul_div_mul_left _ _ (by positivity)]
    have h2 : Real.sqrt (s * R * (s * Rc)) = s * Real.sqrt (R * Rc) := by
      rw [show s * R * (s * Rc) = s ^ 2 * (R * Rc) by ring, Real.sqrt_mul (by positivity),
        Real.sqrt_sq hs.le]
    simp only [greens]
    rw [h1, h2]
    ring

/-- **C16.** Symmetries of the fields: `GreensBr` is odd and `GreensBz` even under reflection of the
observation point about the plane of the source, `GreensBr` vanishes in that plane, both are unchanged by a
common vertical shift, for every step `eps`. -/
theorem C16_field_symmetries (Rc Zc R Z eps : ℝ) :
    greensBr ek ee Rc Zc R (2 * Zc - Z) eps = -greensBr ek ee Rc Zc R Z eps ∧
    greensBz ek ee Rc Zc R (2 * Zc - Z) eps = greensBz ek ee Rc Zc R Z eps ∧
    greensBr ek ee Rc Zc R Zc eps = 0 ∧
    (∀ h, greensBr ek ee Rc (Zc + h) R (Z + h) eps = greensBr ek ee Rc Zc R Z eps) ∧
    (∀ h, greensBz ek ee Rc (Zc + h) R (Z + h) eps = greensBz ek ee Rc Zc R Z eps) := by
  have refl : ∀ R Z, greens ek ee Rc Zc R (2 * Zc - Z) = greens ek ee Rc Zc R Z := by
    intro R Z
    have h1 := (C15_greens_symmetries ek ee Rc Zc R Z).2.2.1
    have h2 := (C15_greens_symmetries ek ee Rc (-Zc) R (-Z)).2.1 (2 * Zc)
    rw [h1] at h2
    rw [← h2]
    congr 1 <;> ring
  have e1 : greensBr ek ee Rc Zc R (2 * Zc - Z) eps = -greensBr ek ee Rc Zc R Z eps := by
    simp only [greensBr]
    have a := refl R (Z + eps)
    have b := refl R (Z - eps)
    rw [show 2 * Zc - Z - eps = 2 * Zc - (Z + eps) by ring,
      show 2 * Zc - Z + eps = 2 * Zc - (Z - eps) by ring, a, b, ← neg_div, neg_sub]
  refine ⟨e1, ?_, ?_, fun h => ?_, fun h => ?_⟩
  · simp only [greensBz, refl]
  · have a := refl R (Zc + eps)
    rw [show 2 * Zc - (Zc + eps) = Zc - eps by ring] at a
    simp only [greensBr]
    rw [a, sub_self, zero_div]
  · simp only [greensBr]
    have a := (C15_greens_symmetries ek ee Rc Zc R (Z - eps)).2.1 h
    have b := (C15_greens_symmetries ek ee Rc Zc R (Z + eps)).2.1 h
    rw [show Z + h - eps = Z - eps + h by ring, show Z + h + eps = Z + eps + h by ring, a, b]
  · simp only [greensBz]
    rw [(C15_greens_symmetries ek ee Rc Zc (R + eps) Z).2.1 h,
      (C15_greens_symmetries ek ee Rc Zc (R - eps) Z).2.1 h]

/-- A non-trivial instance of C15 and C16: distinct points off the axis and off the source plane. -/
example : greens (fun x => x) (fun x => 1 - x) 1 (1 / 2) 2 (3 / 2) =
      greens (fun x => x) (fun x => 1 - x) 2 (3 / 2) 1 (1 / 2) ∧
    greensBr (fun x => x) (fun x => 1 - x) 1 (1 / 2) 2 (2 * (1 / 2) - 3 / 2) =
      -greensBr (fun x => x) (fun x => 1 - x) 1 (1 / 2) 2 (3 / 2) :=
  ⟨(C15_greens_symmetries _ _ _ _ _ _).1, (C16_field_symmetries _ _ _ _ _ _ _).1⟩

end FreeGS
