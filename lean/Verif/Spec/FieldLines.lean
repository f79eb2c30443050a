import Verif.Model.FieldTracer
import Verif.Model.Fields
import Mathlib.Analysis.SpecialFunctions.Trigonometric.Deriv

/-!
# Specification of field lines
-/

namespace FreeGS.Tracer

open Set

/-- `r, z, l` (radius, height, length as functions of the toroidal angle) solve the equation that the tracer hands to the integrator, for a
line that is moving all the time: the derivatives are those of `fieldDirection`. -/
def IsLine (eq : Eq ℝ) (backward : Bool) (I : Set ℝ) (r z l : ℝ → ℝ) : Prop :=
  ∀ φ ∈ I, ∃ dR dZ dl, rates eq backward (r φ) (z φ) 1 = .ok (dR, dZ, dl) ∧ HasDerivWithinAt r dR I φ ∧ HasDerivWithinAt z dZ I φ ∧
    HasDerivWithinAt l dl I φ

/-- A line that is followed backward runs against the toroidal angle. -/
def sense (backward : Bool) : ℝ := if backward then -1 else 1

/-- Cartesian coordinates of the point at radius `R`, toroidal angle `θ`. -/
noncomputable def cartX (R θ : ℝ) : ℝ := R * Real.cos θ
noncomputable def cartY (R θ : ℝ) : ℝ := R * Real.sin θ

/-- Cartesian components of a field with radial, toroidal and vertical components `Br`, `Bt`, `Bz` at the toroidal angle `θ`. -/
noncomputable def fieldX (Br Bt θ : ℝ) : ℝ := Br * Real.cos θ - Bt * Real.sin θ
noncomputable def fieldY (Br Bt θ : ℝ) : ℝ := Br * Real.sin θ + Bt * Real.cos θ

/-- At the point `(R, Z)` the tracer reads the field of an equilibrium. -/
def ReadsAt {C : Type} (t : Eq ℝ) (e : Equil.FieldEnv C ℝ) (s : Equil.State C ℝ) (p : Option (Equil.FieldProfile ℝ)) (R Z : ℝ) : Prop :=
  Equil.totalBr e s R Z = .ok (t.Br R Z) ∧ Equil.totalBz e s R Z = .ok (t.Bz R Z) ∧ Equil.Btor e s p R Z = .ok (t.Btor R Z)

end FreeGS.Tracer
