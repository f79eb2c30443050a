import Verif.Model.Equilibrium

/-!
# The magnetic field and flux of an equilibrium at a point (equilibrium.py:234-330)

For one point; numpy does the same for every element of an array.
-/

namespace FreeGS.Equil

open FreeGS.GS

universe u
variable {K : Type u} [Field K] [LinearOrder K] {C : Type u}

/-- What the field methods use in addition: `psi_func(R, Z, dx=1)`, `psi_func(R, Z, dy=1)` as functions of the interpolated array, and
`tokamak.psi(R, Z)`, `tokamak.Br(R, Z)`, `tokamak.Bz(R, Z)`. -/
structure FieldEnv (C K : Type u) extends Env C K where
  interpR : Arr K → K → K → K
  interpZ : Arr K → K → K → K
  coilPsiAt : C → K → K → K
  coilBr : C → K → K → K
  coilBz : C → K → K → K

/-- The methods of the profile object (`_profiles`) that are used: `fpol(psinorm)`, `fvac()`. -/
structure FieldProfile (K : Type u) where
  fpol : K → Except Err K
  fvac : K

/-- Division of floats; at zero numpy returns inf or nan. -/
def divide (a b : K) : Except Err K := if b = 0 then .error .nonfinite else .ok (a / b)

/-- `plasmaBr(R, Z)` (equilibrium.py:235-240). -/
def plasmaBr (e : FieldEnv C K) (s : State C K) (R Z : K) : Except Err K := divide (-e.interpZ s.spline R Z) R

/-- `plasmaBz(R, Z)` (equilibrium.py:242-247). -/
def plasmaBz (e : FieldEnv C K) (s : State C K) (R Z : K) : Except Err K := divide (e.interpR s.spline R Z) R

/-- `Br(R, Z)` (equilibrium.py:249-253). -/
def totalBr (e : FieldEnv C K) (s : State C K) (R Z : K) : Except Err K := do
  let b ← plasmaBr e s R Z
  .ok (b + e.coilBr s.tokamak R Z)

/-- `Bz(R, Z)` (equilibrium.py:255-259). -/
def totalBz (e : FieldEnv C K) (s : State C K) (R Z : K) : Except Err K := do
  let b ← plasmaBz e s R Z
  .ok (b + e.coilBz s.tokamak R Z)

/-- `Bpol(R, Z)` (equilibrium.py:261-267). -/
def Bpol (sqrt : K → K) (e : FieldEnv C K) (s : State C K) (R Z : K) : Except Err K := do
  let Br ← totalBr e s R Z
  let Bz ← totalBz e s R Z
  .ok (sqrt (Br * Br + Bz * Bz))

/-- `psiRZ(R, Z)` (equilibrium.py:313-317). -/
def psiRZ (e : FieldEnv C K) (s : State C K) (R Z : K) : K := e.interp s.spline R Z + e.coilPsiAt s.tokamak R Z

/-- `(psi - self.psi_axis) / (self.psi_bndry - self.psi_axis)`. Without an O-point since the start there is no attribute `psi_axis`; without
a plasma boundary `psi_bndry` is `None`. -/
def normalise (s : State C K) (psi : K) : Except Err K :=
  match s.psiAxis, s.psiBndry with
  | none, _ => .error .attribute
  | some _, none => .error .type
  | some a, some b => divide (psi - a) (b - a)

/-- `psiN()` at a grid point (equilibrium.py:304-311). -/
def psiN (e : FieldEnv C K) (s : State C K) (c : ℕ × ℕ) : Except Err K := normalise s (psi e.toEnv s c)

/-- `psiNRZ(R, Z)` (equilibrium.py:319-324). -/
def psiNRZ (e : FieldEnv C K) (s : State C K) (R Z : K) : Except Err K := normalise s (psiRZ e s R Z)

/-- `Btor(R, Z)` (equilibrium.py:269-285). Before the first `solve` there is no attribute `_profiles`. `mask_func` is the interpolation of
`mask`. -/
def Btor (e : FieldEnv C K) (s : State C K) (p : Option (FieldProfile K)) (R Z : K) : Except Err K := do
  let pn ← psiNRZ e s R Z
  match p with
  | none => .error .attribute
  | some p => do
    let f ← p.fpol pn
    match s.mask with
    | none => divide f R
    | some m =>
      let w := e.interp m R Z
      divide (f * w + (1 - w) * p.fvac) R

/-- `Btot(R, Z)` (equilibrium.py:287-294). -/
def Btot (sqrt : K → K) (e : FieldEnv C K) (s : State C K) (p : Option (FieldProfile K)) (R Z : K) : Except Err K := do
  let Br ← totalBr e s R Z
  let Bz ← totalBz e s R Z
  let Bt ← Btor e s p R Z
  .ok (sqrt (Br * Br + Bz * Bz + Bt * Bt))

end FreeGS.Equil
