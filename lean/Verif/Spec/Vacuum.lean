import Verif.Model.Machine
import Verif.Spec.Greens
import Mathlib.Analysis.Calculus.Deriv.Basic

/-!
# Specification of the field of a machine: its filaments

A filament is a triple `(Rc, Zc, I)`: a circular current of `I` amperes of radius `Rc` at height `Zc`.
-/

namespace FreeGS

variable {K : Type*} [Field K] [LinearOrder K]

/-- The filaments a coil consists of, with the current each carries per ampere in the coil. A `PreCalcCoil` has tables instead. -/
def AnyCoil.filaments : AnyCoil K → List (K × K × K)
  | .point c => [(c.R, c.Z, c.turns)]
  | .shaped c => c.points.map fun p => (p.1, p.2.1, p.2.2 * c.turns)
  | .filament c => c.points.map fun p => (p.1, p.2, c.turns / c.npoints)
  | .multi c =>
    (c.Rfil.zip c.Zfil).map (fun p => (p.1, p.2, c.polarity.1)) ++
      if c.mirror then (c.Rfil.zip c.Zfil).map (fun p => (p.1, -p.2, c.polarity.2)) else []
  | .precalc _ => []

/-- The same filaments, all currents multiplied by `I`. -/
def scaled (I : K) (l : List (K × K × K)) : List (K × K × K) := l.map fun f => (f.1, f.2.1, f.2.2 * I)

/-- The filaments of an element of a machine, with their currents. -/
def Entry.filaments : Entry K → List (K × K × K)
  | .coil c => scaled c.current c.filaments
  | .circuit c => c.coils.flatMap fun x => scaled (c.current * x.2.2) x.2.1.filaments
  | .solenoid s => (linspace s.Zsmin s.Zsmax s.Ns).map fun z => (s.Rs, z, s.current)

/-- All filaments of a machine. -/
def Machine.filaments (m : Machine K) : List (K × K × K) := m.coils.flatMap fun x => x.2.filaments

/-- The coil computes its field from Green's functions. -/
def AnyCoil.Computed : AnyCoil K → Prop
  | .precalc _ => False
  | _ => True

/-- No coil of the machine, alone or in a circuit, is a `PreCalcCoil`. -/
def Machine.Computed (m : Machine K) : Prop :=
  ∀ x ∈ m.coils, match x.2 with
    | .coil c => c.Computed
    | .circuit c => ∀ y ∈ c.coils, y.2.1.Computed
    | .solenoid _ => True

/-- The operator of the Grad-Shafranov equation, `R ∂/∂R (1/R ∂ψ/∂R) + ∂²ψ/∂Z²`, has the value `v` for the flux `psi` at `(R, Z)`: the
derivatives exist around the point and have this combination. -/
def HasDeltaStar (psi : ℝ → ℝ → ℝ) (v R Z : ℝ) : Prop :=
  ∃ (dR dZ : ℝ → ℝ → ℝ) (a b : ℝ),
    (∀ᶠ r in nhds R, HasDerivAt (fun r => psi r Z) (dR r Z) r) ∧ (∀ᶠ z in nhds Z, HasDerivAt (fun z => psi R z) (dZ R z) z) ∧
    HasDerivAt (fun r => 1 / r * dR r Z) a R ∧ HasDerivAt (fun z => dZ R z) b Z ∧ R * a + b = v

/-- `Greens` clips nothing in a neighbourhood of the point. -/
def ClearOf (Rc Zc R Z : ℝ) : Prop :=
  1e-10 < 4 * R * Rc / ((R + Rc) ^ 2 + (Z - Zc) ^ 2) ∧ 4 * R * Rc / ((R + Rc) ^ 2 + (Z - Zc) ^ 2) < 1 - 1e-10

end FreeGS
