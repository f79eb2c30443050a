import Verif.Model.ShapedCoil

/-!
# Model of the coil classes

`freegs/coil.py`, `freegs/filament_coil.py`, `freegs/multi_coil.py`, `freegs/pre_calc_coil.py` and the
common interface of all coil kinds.

The Green's functions, `numpy.sqrt`, `numpy.log`, `numpy.pi` and `mu0` are collected in an environment
`Env`, so that every statement holds whatever these functions are.  A point of evaluation is a pair
`(R, Z)`; NumPy arrays of points are evaluated pointwise by the code, so one point at a time is enough.
Two names for the same Python object (aliasing of coils or of coordinate lists) are not modelled.
-/

namespace FreeGS

open Polygons

/-- The three field quantities. The methods `psi/Br/Bz` (and `controlPsi/controlBr/controlBz`) of every
class differ only in the Green's function used. -/
inductive Quantity where
  | psi | br | bz
  deriving DecidableEq, Repr

/-- The numerical environment: `G q Rc Zc R Z` is `Greens`, `GreensBr` or `GreensBz`
(gradshafranov.py:272-314). -/
structure Env (K : Type*) where
  G : Quantity → K → K → K → K → K
  pi : K
  mu0 : K
  sqrt : K → K
  log : K → K

variable {K : Type*} [Field K] [LinearOrder K]

/-- The `area` argument of a coil: a number or a callable (coil.py:251-268). The callable receives
the coil; here it receives position, current and turns. -/
inductive AreaSpec (K : Type*) where
  | fixed (a : K)
  | functor (f : (R Z current turns : K) → K)

/-- `AreaCurrentLimit(current_density)` (coil.py:34-54). -/
def areaCurrentLimit (density : K) : AreaSpec K :=
  .functor fun _ _ current turns => |current * turns| / density

/-- The default current density `3.5e9` (coil.py:39). -/
def defaultArea : AreaSpec K := areaCurrentLimit 3500000000

/-- `Coil` (coil.py:84-113). -/
structure PointCoil (K : Type*) where
  R : K
  Z : K
  current : K
  turns : K
  control : Bool
  area : AreaSpec K

/-- `Coil.__init__` with its default arguments (coil.py:84-113). -/
def PointCoil.make (R Z : K) (current : K := 0) (turns : K := 1) (control : Bool := true)
    (area : AreaSpec K := defaultArea) : PointCoil K := ⟨R, Z, current, turns, control, area⟩

/-- `controlPsi/controlBr/controlBz` of `Coil` (coil.py:147-163). -/
def PointCoil.response (e : Env K) (c : PointCoil K) (q : Quantity) (R Z : K) : K :=
  e.G q c.R c.Z R Z * c.turns

/-- The value of the area property (coil.py:251-264); warnings are not modelled. -/
def AreaSpec.eval (a : AreaSpec K) (R Z current turns : K) : K :=
  match a with
  | .fixed x => x
  | .functor f => f R Z current turns

/-- The fields of a `FilamentCoil` (filament_coil.py:246-271). -/
structure FilamentCoil (K : Type*) where
  rCentre : K
  zCentre : K
  current : K
  turns : K
  control : Bool
  area : K
  shape : List (Pt K)
  points : List (Pt K)
  npoints : ℕ

namespace FilamentCoil

/-- The outline used when no shape is given: the bounding box with its first corner repeated
(filament_coil.py:231-244). `min`/`max` of an empty array raise `ValueError`. -/
def boxShape (Rfil Zfil : List K) : Except Err (List (Pt K)) :=
  match Rfil.min?, Rfil.max?, Zfil.min?, Zfil.max? with
  | some minR, some maxR, some minZ, some maxZ =>
    .ok [(minR, minZ), (minR, maxZ), (maxR, maxZ), (maxR, minZ), (minR, minZ)]
  | _, _, _, _ => .error .value

/-- `FilamentCoil.__init__` when the filaments are given as lists (filament_coil.py:194-271).
The automatic placement of filaments (`Rfil is None`) is not part of this definition. -/
def make (Rfil Zfil : List K) (shape : Option (List (Pt K)) := none) (current : K := 0)
    (turns : K := 1) (control : Bool := true) : Except Err (FilamentCoil K) :=
  match (match shape with | some s => .ok s | none => boxShape Rfil Zfil : Except Err (List (Pt K))) with
  | .error err => .error err
  | .ok s =>
    if s.length > 2 then
      .ok {
        rCentre := (s.map Prod.fst).sum / s.length
        zCentre := (s.map Prod.snd).sum / s.length
        current, turns, control
        area := |Polygons.area s|
        shape := s
        points := Rfil.zip Zfil
        npoints := Rfil.length }
    else .error .assertion

/-- `controlPsi/controlBr/controlBz` (filament_coil.py:273-303). -/
def response (e : Env K) (c : FilamentCoil K) (q : Quantity) (R Z : K) : K :=
  (c.points.map fun p => e.G q p.1 p.2 R Z).sum * c.turns / c.npoints

/-- The `R` setter (filament_coil.py:324-329). -/
def setR (c : FilamentCoil K) (Rnew : K) : FilamentCoil K :=
  let s := Rnew - c.rCentre
  { c with points := c.points.map fun p => (p.1 + s, p.2), rCentre := Rnew }

/-- The `Z` setter (filament_coil.py:338-343). -/
def setZ (c : FilamentCoil K) (Znew : K) : FilamentCoil K :=
  let s := Znew - c.zCentre
  { c with points := c.points.map fun p => (p.1, p.2 + s), zCentre := Znew }

end FilamentCoil

/-- The fields of a `MultiCoil` (multi_coil.py:126-146). -/
structure MultiCoil (K : Type*) where
  Rfil : List K
  Zfil : List K
  turns : K
  current : K
  control : Bool
  mirror : Bool
  polarity : K × K
  area : AreaSpec K
  rCentre : K
  zCentre : K

namespace MultiCoil

/-- `MultiCoil.__init__` with lists of coordinates (multi_coil.py:127-131, 138-146). -/
def makeList (R Z : List K) (current : K := 0) (control : Bool := true) (mirror : Bool := false)
    (polarity : K × K := (1, 1)) (area : AreaSpec K := defaultArea) : Except Err (MultiCoil K) :=
  if R.length = Z.length then
    .ok { Rfil := R, Zfil := Z, turns := R.length, current, control, mirror, polarity, area
          rCentre := R.sum / R.length, zCentre := Z.sum / Z.length }
  else .error .assertion

/-- `MultiCoil.__init__` with a single point (multi_coil.py:132-146). -/
def makePoint (R Z : K) (current : K := 0) (turns : K := 1) (control : Bool := true)
    (mirror : Bool := false) (polarity : K × K := (1, 1)) (area : AreaSpec K := defaultArea) :
    MultiCoil K :=
  { Rfil := [R], Zfil := [Z], turns, current, control, mirror, polarity, area
    rCentre := R, zCentre := Z }

/-- `controlPsi/controlBr/controlBz` (multi_coil.py:148-186). -/
def response (e : Env K) (c : MultiCoil K) (q : Quantity) (R Z : K) : K :=
  let direct := ((c.Rfil.zip c.Zfil).map fun p => e.G q p.1 p.2 R Z * c.polarity.1).sum
  if c.mirror then
    direct + ((c.Rfil.zip c.Zfil).map fun p => e.G q p.1 (-p.2) R Z * c.polarity.2).sum
  else direct

/-- The `R` setter (multi_coil.py:285-291). -/
def setR (c : MultiCoil K) (Rnew : K) : MultiCoil K :=
  { c with Rfil := c.Rfil.map (· + (Rnew - c.rCentre)), rCentre := Rnew }

/-- The `Z` setter (multi_coil.py:300-306). -/
def setZ (c : MultiCoil K) (Znew : K) : MultiCoil K :=
  { c with Zfil := c.Zfil.map (· + (Znew - c.zCentre)), zCentre := Znew }

end MultiCoil

/-- The fields of a `PreCalcCoil` (pre_calc_coil.py:97-119). `map q R Z` is the value of the spline
through the pre-calculated table at `(R, Z)`. -/
structure PreCalcCoil (K : Type*) where
  rCentre : K
  zCentre : K
  current : K
  turns : K
  control : Bool
  area : K
  shape : List (Pt K)
  points : List (Pt K)
  map : Quantity → K → K → K

namespace PreCalcCoil

/-- `PreCalcCoil.__init__` (pre_calc_coil.py:67-119), with the splines as argument. -/
def make (shape : List (Pt K)) (map : Quantity → K → K → K) (current : K := 0) (turns : K := 1)
    (control : Bool := true) : Except Err (PreCalcCoil K) :=
  if shape.length > 2 then
    .ok {
      rCentre := (shape.map Prod.fst).sum / shape.length
      zCentre := (shape.map Prod.snd).sum / shape.length
      current, turns, control
      area := |Polygons.area shape|
      shape, points := shape, map }
  else .error .assertion

/-- `controlPsi/controlBr/controlBz` (pre_calc_coil.py:121-155): the number of turns is not used. -/
def response (c : PreCalcCoil K) (q : Quantity) (R Z : K) : K := c.map q R Z

/-- The `R` setter (pre_calc_coil.py:169-174): the splines stay where they were. -/
def setR (c : PreCalcCoil K) (Rnew : K) : PreCalcCoil K :=
  let s := Rnew - c.rCentre
  { c with points := c.points.map fun p => (p.1 + s, p.2), rCentre := Rnew }

/-- The `Z` setter (pre_calc_coil.py:183-188). -/
def setZ (c : PreCalcCoil K) (Znew : K) : PreCalcCoil K :=
  let s := Znew - c.zCentre
  { c with points := c.points.map fun p => (p.1, p.2 + s), zCentre := Znew }

end PreCalcCoil

/-- Any of the coil classes; all derive from `Coil`. -/
inductive AnyCoil (K : Type*) where
  | point (c : PointCoil K)
  | shaped (c : ShapedCoil K)
  | filament (c : FilamentCoil K)
  | multi (c : MultiCoil K)
  | precalc (c : PreCalcCoil K)

namespace AnyCoil

/-- The attribute `current`. -/
def current : AnyCoil K → K
  | point c => c.current
  | shaped c => c.current
  | filament c => c.current
  | multi c => c.current
  | precalc c => c.current

/-- Assignment to the attribute `current`. -/
def setCurrent (I : K) : AnyCoil K → AnyCoil K
  | point c => point { c with current := I }
  | shaped c => shaped { c with current := I }
  | filament c => filament { c with current := I }
  | multi c => multi { c with current := I }
  | precalc c => precalc { c with current := I }

/-- The attribute `control`. -/
def control : AnyCoil K → Bool
  | point c => c.control
  | shaped c => c.control
  | filament c => c.control
  | multi c => c.control
  | precalc c => c.control

/-- Assignment to the attribute `control`. -/
def setControl (b : Bool) : AnyCoil K → AnyCoil K
  | point c => point { c with control := b }
  | shaped c => shaped { c with control := b }
  | filament c => filament { c with control := b }
  | multi c => multi { c with control := b }
  | precalc c => precalc { c with control := b }

/-- The attribute `turns`. -/
def turns : AnyCoil K → K
  | point c => c.turns
  | shaped c => c.turns
  | filament c => c.turns
  | multi c => c.turns
  | precalc c => c.turns

/-- The attribute or property `R`. -/
def R : AnyCoil K → K
  | point c => c.R
  | shaped c => c.rCentre
  | filament c => c.rCentre
  | multi c => c.rCentre
  | precalc c => c.rCentre

/-- The attribute or property `Z`. -/
def Z : AnyCoil K → K
  | point c => c.Z
  | shaped c => c.zCentre
  | filament c => c.zCentre
  | multi c => c.zCentre
  | precalc c => c.zCentre

/-- Assignment to `R`. -/
def setR (r : K) : AnyCoil K → AnyCoil K
  | point c => point { c with R := r }
  | shaped c => shaped (c.setR r)
  | filament c => filament (c.setR r)
  | multi c => multi (c.setR r)
  | precalc c => precalc (c.setR r)

/-- Assignment to `Z`. -/
def setZ (z : K) : AnyCoil K → AnyCoil K
  | point c => point { c with Z := z }
  | shaped c => shaped (c.setZ z)
  | filament c => filament (c.setZ z)
  | multi c => multi (c.setZ z)
  | precalc c => precalc (c.setZ z)

/-- The property `area` (coil.py:251-264, shaped_coil.py:164, filament_coil.py:345, pre_calc_coil.py:190;
`MultiCoil` inherits the property of `Coil`). -/
def area : AnyCoil K → K
  | point c => c.area.eval c.R c.Z c.current c.turns
  | shaped c => c.area
  | filament c => c.area
  | multi c => c.area.eval c.rCentre c.zCentre c.current c.turns
  | precalc c => c.area

/-- `controlPsi/controlBr/controlBz` of any coil. -/
def response (e : Env K) (q : Quantity) (R Z : K) : AnyCoil K → K
  | point c => c.response e q R Z
  | shaped c => c.response (e.G q) R Z
  | filament c => c.response e q R Z
  | multi c => c.response e q R Z
  | precalc c => c.response q R Z

/-- `psi/Br/Bz` of any coil (coil.py:115-119, 135-145; inherited by all other coil classes). -/
def field (e : Env K) (q : Quantity) (R Z : K) (c : AnyCoil K) : K := c.response e q R Z * c.current

/-- `calcPsiFromGreens(pgreen)` (coil.py:129-133). -/
def calcFromGreens (pgreen : K) (c : AnyCoil K) : K := c.current * pgreen

/-- What `shapely` answers about a fixed polygon: `contains(Point(r, z))` and the area of the intersection
with the polygon of an outline. -/
structure Region (K : Type*) where
  contains : Pt K → Bool
  overlap : List (Pt K) → K

/-- `inShape(polygon)` (coil.py:210-214, shaped_coil.py:127-129, filament_coil.py:305-310; `MultiCoil` and
`PreCalcCoil` inherit the method of `Coil`). -/
def inShape (p : Region K) : AnyCoil K → K
  | point c => if p.contains (c.R, c.Z) then 1 else 0
  | shaped c => c.inShape p.overlap
  | filament c => (c.points.map fun x => if p.contains x then 1 / (c.npoints : K) else 0).sum
  | multi c => if p.contains (c.rCentre, c.zCentre) then 1 else 0
  | precalc c => if p.contains (c.rCentre, c.zCentre) then 1 else 0

end AnyCoil
end FreeGS
