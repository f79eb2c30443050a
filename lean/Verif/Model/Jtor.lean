import Verif.Model.Critical
import Verif.Model.GradShafranov

/-!
# Plasma profiles (jtor.py)

`quad f a b` stands for `scipy.integrate.quad(f, a, b)[0]`, `pow x y` for `x ** y`, `sqrt` for `numpy.sqrt`. Where numpy would
return nan or inf the model stops with `Err.nonfinite`.
-/

namespace FreeGS.Jtor

open FreeGS.GS (Arr romb2)
open FreeGS.Critical (clip Point)

variable {K : Type*} [Field K] [LinearOrder K]

/-! ## Base class -/

/-- What the base class needs of a profile object: `pprime`, `ffprime`, `fvac()`, `psi_axis`, `psi_bndry`. -/
structure Profile (K : Type*) where
  pprime : K → K
  ffprime : K → K
  fvac : K
  psiAxis : K
  psiBndry : K

/-- `Profile.pressure(psinorm)` for one value (jtor.py:42-52). -/
def Profile.pressure (quad : (K → K) → K → K → K) (p : Profile K) (psinorm : K) : K :=
  quad p.pprime psinorm 1 * (p.psiAxis - p.psiBndry)

/-- `Profile.fpol(psinorm)` for one value (jtor.py:73-88). -/
def Profile.fpol (quad : (K → K) → K → K → K) (sqrt : K → K) (p : Profile K) (psinorm : K) : Except Err K :=
  let val := quad p.ffprime psinorm 1 * (p.psiAxis - p.psiBndry)
  let square := 2 * val + p.fvac ^ 2
  if square < 0 then .error .nonfinite else .ok (sqrt square)

/-- `Profile.pressure(psinorm, out)` for an array, flattened (jtor.py:54-71); `out` only gives the length of the
output. -/
def Profile.pressureArray (quad : (K → K) → K → K → K) (p : Profile K) (psinorm : List K) (out : Option ℕ) :
    Except Err (List K) :=
  if psinorm.length ≠ out.getD psinorm.length then .error .value
  else .ok (psinorm.map fun x => quad p.pprime x 1 * (p.psiAxis - p.psiBndry))

/-- `Profile.fpol(psinorm, out)` for an array, flattened (jtor.py:90-110). -/
def Profile.fpolArray (quad : (K → K) → K → K → K) (sqrt : K → K) (p : Profile K) (psinorm : List K)
    (out : Option ℕ) : Except Err (List K) :=
  if psinorm.length ≠ out.getD psinorm.length then .error .value
  else psinorm.mapM fun x =>
    let val := quad p.ffprime x 1 * (p.psiAxis - p.psiBndry)
    let square := 2 * val + p.fvac ^ 2
    if square < 0 then .error .nonfinite else .ok (sqrt square)

/-! ## Axis, boundary and mask -/

/-- Flux on axis and at the boundary and the mask, if there is one. -/
structure Plasma (K : Type*) where
  psiAxis : K
  psiBndry : K
  mask : Option (Arr K)

/-- The common beginning of the three `Jtor` methods (jtor.py:186-200, 348-362, 470-484). `opt`, `xpt` are the results of
`find_critical`, `coreMask` is `core_mask(R, Z, psi, opt, xpt, ·)`, `psi00` is `psi[0, 0]`. -/
def locate (opt xpt : List (Point K)) (coreMask : Option K → Except Err (Arr K)) (psi00 : K) (psiBndry : Option K) :
    Except Err (Plasma K) :=
  match opt with
  | [] => .error .value
  | o :: _ =>
    match psiBndry, xpt with
    | some pb, _ => do
      let m ← coreMask (some pb)
      .ok ⟨o.2.2, pb, some m⟩
    | none, x :: _ => do
      let m ← coreMask none
      .ok ⟨o.2.2, x.2.2, some m⟩
    | none, [] => .ok ⟨o.2.2, psi00, none⟩

/-- `psi_norm` (jtor.py:208, 370, 489). -/
def Plasma.norm (pl : Plasma K) (psi : Arr K) : Arr K := fun c => (psi c - pl.psiAxis) / (pl.psiBndry - pl.psiAxis)

/-- `a *= mask` if there is a mask. -/
def Plasma.masked (pl : Plasma K) (a : Arr K) : Arr K :=
  match pl.mask with
  | some m => fun c => a c * m c
  | none => a

/-! ## The two constrained profiles -/

/-- `(1.0 - x ** alpha_m) ** alpha_n`. -/
def shape (pow : K → K → K) (am an x : K) : K := pow (1 - pow x am) an

/-- The attributes common to `ConstrainBetapIp` and `ConstrainPaxisIp`, without the constrained quantity. -/
structure Params (K : Type*) where
  Ip : K
  fvac : K
  am : K
  an : K
  Raxis : K

/-- The checks of the constructors (jtor.py:157-161, 319-323). -/
def checkParams (p : Params K) : Except Err Unit :=
  if p.am < 0 then .error .value else if p.an < 0 then .error .value else .ok ()

/-- The attributes set by `Jtor`. -/
structure Consts (K : Type*) where
  L : K
  Beta0 : K
  psiBndry : K
  psiAxis : K

/-- `pprime`, `ffprime`, `fvac` of the two classes (jtor.py:284-301, 420-437). -/
def constrainedProfile (pow : K → K → K) (mu0 : K) (p : Params K) (k : Consts K) : Profile K :=
  { pprime := fun pn => k.L * k.Beta0 / p.Raxis * shape pow p.am p.an (clip pn 0 1)
    ffprime := fun pn => mu0 * k.L * (1 - k.Beta0) * p.Raxis * shape pow p.am p.an (clip pn 0 1)
    fvac := p.fvac
    psiAxis := k.psiAxis
    psiBndry := k.psiBndry }

/-- `romb(romb(a)) * dR * dZ`. -/
def integrate (nx ny : ℕ) (R Z : ℕ → K) (a : Arr K) : Except Err K := do
  let v ← romb2 nx ny a
  .ok (v * (R 1 - R 0) * (Z 1 - Z 0))

/-- The current density shape, with the mask (jtor.py:210-215, 372-377). -/
def shapeArray (pow : K → K → K) (p : Params K) (pl : Plasma K) (psi : Arr K) : Arr K :=
  pl.masked fun c => shape pow p.am p.an (clip (pl.norm psi c) 0 1)

/-- From `LBeta0` to the current density (jtor.py:257-281, 393-418). -/
def finish (pow : K → K → K) (nx ny : ℕ) (R Z : ℕ → K) (p : Params K) (pl : Plasma K) (psi : Arr K) (LBeta0 : K) :
    Except Err (Arr K × Consts K) := do
  let js := shapeArray pow p pl psi
  let IR ← integrate nx ny R Z fun c => js c * R c.1 / p.Raxis
  let I_R ← integrate nx ny R Z fun c => js c * p.Raxis / R c.1
  if I_R = 0 then .error .nonfinite
  else
    let L := p.Ip / I_R - LBeta0 * (IR / I_R - 1)
    if L = 0 then .error .nonfinite
    else
      let Beta0 := LBeta0 / L
      .ok (fun c => L * (Beta0 * R c.1 / p.Raxis + (1 - Beta0) * p.Raxis / R c.1) * js c,
        ⟨L, Beta0, pl.psiBndry, pl.psiAxis⟩)

/-- Divisions whose divisor does not depend on the profile: major radius, `Raxis`, `psi_bndry - psi_axis`. -/
def divisible (nx : ℕ) (R : ℕ → K) (p : Params K) (pl : Plasma K) : Bool :=
  (List.range nx).all (fun i => decide (R i ≠ 0)) && decide (p.Raxis ≠ 0) && decide (pl.psiBndry - pl.psiAxis ≠ 0)

/-- `ConstrainPaxisIp.Jtor(R, Z, psi)` after the plasma was located (jtor.py:364-418). -/
def jtorPaxis (quad : (K → K) → K → K → K) (pow : K → K → K) (nx ny : ℕ) (R Z : ℕ → K) (p : Params K) (paxis : K)
    (pl : Plasma K) (psi : Arr K) : Except Err (Arr K × Consts K) :=
  if divisible nx R p pl then
    let shapeintegral := quad (shape pow p.am p.an) 0 1 * (pl.psiBndry - pl.psiAxis)
    if shapeintegral = 0 then .error .nonfinite
    else finish pow nx ny R Z p pl psi (-paxis * p.Raxis / shapeintegral)
  else .error .nonfinite

/-- `pfunc` (jtor.py:221-240). -/
def pfunc (quad : (K → K) → K → K → K) (pow : K → K → K) (nx ny : ℕ) (p : Params K) (pl : Plasma K) (psi : Arr K) :
    Arr K :=
  pl.masked fun c =>
    if 1 ≤ c.1 ∧ c.1 + 1 < nx ∧ 1 ≤ c.2 ∧ c.2 + 1 < ny ∧ 0 ≤ pl.norm psi c ∧ pl.norm psi c < 1 then
      quad (shape pow p.am p.an) (pl.norm psi c) 1 * (pl.psiBndry - pl.psiAxis)
    else 0

/-- `ConstrainBetapIp.Jtor(R, Z, psi)` after the plasma was located (jtor.py:202-281). `Br`, `Bz` are the arrays
`eq.Br(R, Z)`, `eq.Bz(R, Z)`. -/
def jtorBetap (quad : (K → K) → K → K → K) (pow : K → K → K) (mu0 : K) (nx ny : ℕ) (R Z : ℕ → K) (p : Params K)
    (betap : K) (pl : Plasma K) (Br Bz psi : Arr K) : Except Err (Arr K × Consts K) :=
  if divisible nx R p pl then do
    let pf := pfunc quad pow nx ny p pl psi
    let B2 := pl.masked fun c => Br c ^ 2 + Bz c ^ 2
    let pInt ← integrate nx ny R Z fun c => pf c * R c.1
    let bInt ← integrate nx ny R Z fun c => B2 c * R c.1
    if pInt = 0 then .error .nonfinite
    else finish pow nx ny R Z p pl psi (bInt / pInt * (-betap * p.Raxis) / (2 * mu0))
  else .error .nonfinite

/-- `ConstrainPaxisIp.Jtor(R, Z, psi, psi_bndry)` (jtor.py:334-418). `eqBndry` is `eq.psi_bndry` after
`eq._updateBoundaryPsi(psi)`; the argument `psi_bndry` is overwritten with it. -/
def paxisJtor (quad : (K → K) → K → K → K) (pow : K → K → K) (nx ny : ℕ) (R Z : ℕ → K) (p : Params K) (paxis : K)
    (opt xpt : List (Point K)) (coreMask : Option K → Except Err (Arr K)) (eqBndry : Option K) (psi : Arr K)
    (_psiBndry : Option K) : Except Err (Arr K × Consts K) := do
  let pl ← locate opt xpt coreMask (psi (0, 0)) eqBndry
  jtorPaxis quad pow nx ny R Z p paxis pl psi

/-- `ConstrainBetapIp.Jtor(R, Z, psi, psi_bndry)` (jtor.py:172-281), see `paxisJtor`. -/
def betapJtor (quad : (K → K) → K → K → K) (pow : K → K → K) (mu0 : K) (nx ny : ℕ) (R Z : ℕ → K) (p : Params K)
    (betap : K) (opt xpt : List (Point K)) (coreMask : Option K → Except Err (Arr K)) (eqBndry : Option K)
    (Br Bz psi : Arr K) (_psiBndry : Option K) : Except Err (Arr K × Consts K) := do
  let pl ← locate opt xpt coreMask (psi (0, 0)) eqBndry
  jtorBetap quad pow mu0 nx ny R Z p betap pl Br Bz psi

/-! ## Given functions -/

/-- `ProfilesPprimeFfprime` before `Jtor` (jtor.py:448-461). -/
structure Given (K : Type*) where
  pprime : K → K
  ffprime : K → K
  fvac : K
  pFunc : Option (K → K)
  fFunc : Option (K → K)

/-- `ProfilesPprimeFfprime.Jtor(R, Z, psi, psi_bndry)` (jtor.py:463-499). -/
def givenJtor (mu0 : K) (nx : ℕ) (R : ℕ → K) (p : Given K) (opt xpt : List (Point K))
    (coreMask : Option K → Except Err (Arr K)) (psi : Arr K) (psiBndry : Option K) :
    Except Err (Arr K × Profile K) := do
  let pl ← locate opt xpt coreMask (psi (0, 0)) psiBndry
  if (List.range nx).all (fun i => decide (R i ≠ 0)) && decide (pl.psiBndry - pl.psiAxis ≠ 0) then
    let pn : Arr K := fun c => clip (pl.norm psi c) 0 1
    .ok (pl.masked fun c => R c.1 * p.pprime (pn c) + p.ffprime (pn c) / (R c.1 * mu0),
      ⟨p.pprime, p.ffprime, p.fvac, pl.psiAxis, pl.psiBndry⟩)
  else .error .nonfinite

/-- `ProfilesPprimeFfprime.pressure(psinorm)` (jtor.py:501-511). -/
def Given.pressure (quad : (K → K) → K → K → K) (g : Given K) (p : Profile K) (psinorm : K) : K :=
  match g.pFunc with
  | some f => f psinorm
  | none => p.pressure quad psinorm

/-- `ProfilesPprimeFfprime.fpol(psinorm)` (jtor.py:513-523). -/
def Given.fpol (quad : (K → K) → K → K → K) (sqrt : K → K) (g : Given K) (p : Profile K) (psinorm : K) : Except Err K :=
  match g.fFunc with
  | some f => .ok (f psinorm)
  | none => p.fpol quad sqrt psinorm

end FreeGS.Jtor
