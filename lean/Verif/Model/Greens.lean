import Verif.Model.Coil
import Mathlib.Analysis.Real.Sqrt
import Mathlib.Analysis.SpecialFunctions.Trigonometric.Basic
import Mathlib.Analysis.SpecialFunctions.Log.Basic

/-!
# Model of the Green's functions in `freegs/gradshafranov.py`

`ek`, `ee` are `scipy.special.ellipk`, `ellipe`; nothing is assumed about them.  The square root of a negative
number is `nan` in the code and `0` here; the quotient `0/0` (both points on the axis at the same height) is
`nan` in the code and `0` here.
-/

namespace FreeGS

/-- `mu0` (gradshafranov.py:33). -/
noncomputable def mu0 : ℝ := 4e-7 * Real.pi

/-- `numpy.clip(x, lo, hi)`. -/
noncomputable def clip (x lo hi : ℝ) : ℝ := min (max x lo) hi

/-- `Greens(Rc, Zc, R, Z)` (gradshafranov.py:272-292). -/
noncomputable def greens (ek ee : ℝ → ℝ) (Rc Zc R Z : ℝ) : ℝ :=
  let k2 := 4 * R * Rc / ((R + Rc) ^ 2 + (Z - Zc) ^ 2)
  let k2 := clip k2 1e-10 (1 - 1e-10)
  let k := Real.sqrt k2
  (mu0 / (2 * Real.pi)) * Real.sqrt (R * Rc) * ((2 - k2) * ek k2 - 2 * ee k2) / k

/-- `GreensBz(Rc, Zc, R, Z, eps=1e-3)` (gradshafranov.py:295-303). -/
noncomputable def greensBz (ek ee : ℝ → ℝ) (Rc Zc R Z : ℝ) (eps : ℝ := 1e-3) : ℝ :=
  (greens ek ee Rc Zc (R + eps) Z - greens ek ee Rc Zc (R - eps) Z) / (2 * eps * R)

/-- `GreensBr(Rc, Zc, R, Z, eps=1e-3)` (gradshafranov.py:306-314). -/
noncomputable def greensBr (ek ee : ℝ → ℝ) (Rc Zc R Z : ℝ) (eps : ℝ := 1e-3) : ℝ :=
  (greens ek ee Rc Zc R (Z - eps) - greens ek ee Rc Zc R (Z + eps)) / (2 * eps * R)

/-- The environment of the real code: the three Green's functions with the default `eps`, `numpy.pi`, `mu0`,
`numpy.sqrt`, `numpy.log`. -/
noncomputable def realEnv (ek ee : ℝ → ℝ) : Env ℝ where
  G q Rc Zc R Z :=
    match q with
    | .psi => greens ek ee Rc Zc R Z
    | .br => greensBr ek ee Rc Zc R Z
    | .bz => greensBz ek ee Rc Zc R Z
  pi := Real.pi
  mu0 := mu0
  sqrt := Real.sqrt
  log := Real.log

end FreeGS
