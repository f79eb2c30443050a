import Verif.Model.Machine

/-!
# Predefined machines (machine.py:871-2833)

Coordinates are the decimal numbers of the source, not the nearest binary ones. Walls and sensors are left out (for walls see
`Verif/Model/Limits.lean`). `TCV`, whose ohmic circuit contains a `Solenoid`, is in `Verif/Model/Nested.lean`.
-/

namespace FreeGS.Predefined

variable {K : Type*} [Field K] [LinearOrder K]

/-- `Coil(R, Z, turns=turns)`. -/
def coil (R Z : ℚ) (turns : ℚ := 1) : AnyCoil K := .point (PointCoil.make (R : K) (Z : K) (turns := (turns : K)))

/-- `Solenoid(Rs, Zsmin, Zsmax, Ns, control=control)`. -/
def solenoid (Rs Zsmin Zsmax : ℚ) (Ns : ℕ) (control : Bool := true) : Entry K := .solenoid ⟨Rs, Zsmin, Zsmax, Ns, 0, control⟩

/-- `Circuit([(U, a, 1.0), (L, b, multiplier)])`. -/
def pair (U : String) (a : AnyCoil K) (L : String) (b : AnyCoil K) (multiplier : K := 1) : Entry K :=
  .circuit (Circuit.make [(U, a, 1), (L, b, multiplier)])

/-- `EmptyTokamak()` (machine.py:871-875). -/
def emptyTokamak : Machine K := ⟨[]⟩

/-- The outline of the coil P1L (machine.py:884-886). -/
def p1Lower : List (ℚ × ℚ) := [(0.95, -1.15), (0.95, -1.05), (1.05, -1.05), (1.05, -1.15)]

/-- The outline of the coil P1U (machine.py:888). -/
def p1Upper : List (ℚ × ℚ) := [(0.95, 1.15), (0.95, 1.05), (1.05, 1.05), (1.05, 1.15)]

/-- The coils of `TestTokamak()`, `TestTokamakLimited()` and `TestTokamakSensor()` (machine.py:878-957), in rational arithmetic. `.ok none`:
the constructor does not return. -/
def testTokamak : Except Err (Option (Machine ℚ)) :=
  match ShapedCoil.make p1Lower, ShapedCoil.make p1Upper with
  | .error err, _ => .error err
  | _, .error err => .error err
  | .ok (some l), .ok (some u) =>
    .ok (some ⟨[("P1L", .coil (.shaped l)), ("P1U", .coil (.shaped u)), ("P2L", .coil (coil 1.75 (-0.6))),
      ("P2U", .coil (coil 1.75 0.6))]⟩)
  | _, _ => .ok none

/-- The labels and outlines of the coils of `DIIID()` (machine.py:964-983). -/
def diiidOutlines : List (String × List (ℚ × ℚ)) :=
  [("FC1", [(1.6042, -1.64455), (1.7736, -1.64455), (1.7736, -1.51145), (1.6042, -1.51145)]),
   ("FC2", [(0.8354, 0.00777), (0.8862, 0.00777), (0.8862, 0.32883), (0.8354, 0.32883)]),
   ("FC3", [(0.836, 0.34757), (0.8868, 0.34757), (0.8868, 0.66863), (0.836, 0.66863)]),
   ("FC4", [(0.8374, 0.68857), (0.8882, 0.68857), (0.8882, 1.00963), (0.8374, 1.00963)]),
   ("FC5", [(0.8357, 1.02937), (0.8865, 1.02937), (0.8865, 1.35043), (0.8357, 1.35043)]),
   ("FC6", [(0.9345, 1.3876), (1.0737, 1.5268), (1.0737, 1.6462), (0.9345, 1.507)]),
   ("FC7", [(2.5298, 0.3403), (2.703, 0.3403), (2.6949, 0.5349), (2.5217, 0.5349)]),
   ("FC8", [(2.5387, 1.0325), (2.7267, 1.0325), (2.2078, 1.2017), (2.0198, 1.2017)]),
   ("FC9", [(1.13435, 1.55935), (1.36925, 1.55935), (1.36925, 1.64445), (1.13435, 1.64445)]),
   ("FC10", [(1.6043, 1.52085), (1.7737, 1.52085), (1.7737, 1.65395), (1.6043, 1.65395)]),
   ("FC11", [(0.8354, -0.33423), (0.8862, -0.33423), (0.8862, -0.01317), (0.8354, -0.01317)]),
   ("FC12", [(0.8353, -0.67403), (0.8861, -0.67403), (0.8861, -0.35297), (0.8353, -0.35297)]),
   ("FC13", [(0.8357, -1.01483), (0.8865, -1.01483), (0.8865, -0.69377), (0.8357, -0.69377)]),
   ("FC14", [(0.8376, -1.35623), (0.8884, -1.35623), (0.8884, -1.03517), (0.8376, -1.03517)]),
   ("FC15", [(0.9329, -1.507), (1.0721, -1.6462), (1.0721, -1.5268), (0.9329, -1.3876)]),
   ("FC16", [(2.5217, -0.5349), (2.6949, -0.5349), (2.703, -0.3403), (2.5298, -0.3403)]),
   ("FC17", [(2.0299, -1.2017), (2.2179, -1.2017), (2.7368, -1.0325), (2.5488, -1.0325)]),
   ("FC18", [(1.13495, -1.64525), (1.36985, -1.64525), (1.36985, -1.56015), (1.13495, -1.56015)])]

/-- A list of shaped coils. -/
def shapedCoils : List (String × List (ℚ × ℚ)) → Except Err (Option (List (String × Entry ℚ)))
  | [] => .ok (some [])
  | (l, shape) :: rest =>
    match ShapedCoil.make shape with
    | .error err => .error err
    | .ok none => .ok none
    | .ok (some c) =>
      match shapedCoils rest with
      | .error err => .error err
      | .ok none => .ok none
      | .ok (some cs) => .ok (some ((l, .coil (.shaped c)) :: cs))

/-- `DIIID()` (machine.py:960-1025). -/
def diiid : Except Err (Option (Machine ℚ)) :=
  match shapedCoils diiidOutlines with
  | .error err => .error err
  | .ok none => .ok none
  | .ok (some cs) => .ok (some ⟨cs⟩)

/-- `MAST()` (machine.py:1028-1048). -/
def mast : Machine K :=
  ⟨[("P2U", .coil (coil 0.49 1.76)), ("P2L", .coil (coil 0.49 (-1.76))), ("P3U", .coil (coil 1.1 1.1)), ("P3L", .coil (coil 1.1 (-1.1))),
    ("P4U", .coil (coil 1.51 1.095)), ("P4L", .coil (coil 1.51 (-1.095))), ("P5U", .coil (coil 1.66 0.52)),
    ("P5L", .coil (coil 1.66 (-0.52))), ("P6U", .coil (coil 1.5 0.9)), ("P6L", .coil (coil 1.5 (-0.9))),
    ("P1", solenoid 0.15 (-1.4) 1.4 100)]⟩

/-- `MAST_sym()` (machine.py:1051-1076). -/
def mastSym : Machine K :=
  ⟨[("P2", pair "P2U" (coil 0.49 1.76) "P2L" (coil 0.49 (-1.76))), ("P3", pair "P3U" (coil 1.1 1.1) "P3L" (coil 1.1 (-1.1))),
    ("P4", pair "P4U" (coil 1.51 1.095) "P4L" (coil 1.51 (-1.095))), ("P5", pair "P5U" (coil 1.66 0.52) "P5L" (coil 1.66 (-0.52))),
    ("P6", pair "P6U" (coil 1.5 0.9) "P6L" (coil 1.5 (-0.9)) (-1)), ("P1", solenoid 0.15 (-1.45) 1.45 100)]⟩

/-- `MASTU_simple()` (machine.py:1130-1379). -/
def mastuSimple : Machine K :=
  ⟨[("Solenoid", solenoid 0.19475 (-1.581) 1.581 324), ("Pc", solenoid 0.067 (-0.6) 0.6 142),
    ("Px", pair "PxU" (coil 0.2405 1.2285 44) "PxL" (coil 0.2405 (-1.2285) 44)),
    ("D1", pair "D1U" (coil 0.381 1.555 35) "D1L" (coil 0.381 (-1.555) 35)),
    ("D2", pair "D2U" (coil 0.574 1.734 23) "D2L" (coil 0.574 (-1.734) 23)),
    ("D3", pair "D3U" (coil 0.815 1.980 23) "D3L" (coil 0.815 (-1.980) 23)),
    ("Dp", pair "DpU" (coil 0.918 1.501 23) "DpL" (coil 0.918 (-1.501) 23)),
    ("D5", pair "D5U" (coil 1.900 1.950 27) "D5L" (coil 1.900 (-1.950) 27)),
    ("D6", pair "D6U" (coil 1.285 1.470 23) "D6L" (coil 1.285 (-1.470) 23)),
    ("D7", pair "D7U" (coil 1.520 1.470 23) "D7L" (coil 1.520 (-1.470) 23)),
    ("P4", pair "P4U" (coil 1.500 1.100 23) "P4L" (coil 1.500 (-1.100) 23)),
    ("P5", pair "P5U" (coil 1.650 0.357 23) "P5L" (coil 1.650 (-0.357) 23)),
    ("P61", pair "P61U" (coil 1.1975 1.11175 2) "P61L" (coil 1.1975 (-1.11175) 2) (-1)),
    ("P62", pair "P62U" (coil 1.2575 1.0575 2) "P62L" (coil 1.2575 (-1.0575) 2) (-1))]⟩

/-- `d1_upper_r` (machine.py:1390-1426). -/
def d1UpperR : List ℚ :=
  [0.35275, 0.36745015, 0.38215014, 0.39685005, 0.35275, 0.35275, 0.35275, 0.35275, 0.35275039, 0.36745039, 0.36745039,
   0.36745039, 0.36745039, 0.36745, 0.38215002, 0.38215002, 0.38215002, 0.38215002, 0.39685014, 0.39685014, 0.39685014,
   0.39685014, 0.39685008, 0.41155013, 0.41155013, 0.41155013, 0.41155013, 0.4115501, 0.42625037, 0.42625007,
   0.42625007, 0.42625007, 0.42625007, 0.41155002, 0.4262501]

/-- `d1_upper_z` (machine.py:1428-1464). -/
def d1UpperZ : List ℚ :=
  [1.60924995, 1.60924995, 1.60924995, 1.60924995, 1.59455001, 1.57984996, 1.5651499, 1.55044997, 1.53574991,
   1.53574991, 1.55044997, 1.5651499, 1.57984996, 1.59455001, 1.57984996, 1.5651499, 1.55044997, 1.53574991, 1.53574991,
   1.55044997, 1.5651499, 1.57984996, 1.59455001, 1.59455001, 1.57984996, 1.5651499, 1.55044997, 1.53574991, 1.53574991,
   1.55044997, 1.5651499, 1.57984996, 1.59455001, 1.60924995, 1.60924995]

/-- `d2_upper_r` (machine.py:1468-1492). -/
def d2UpperR : List ℚ :=
  [0.60125011, 0.58655024, 0.60125017, 0.60125017, 0.60125023, 0.58655, 0.58655, 0.57185012, 0.57185036, 0.57185042,
   0.55715007, 0.55715007, 0.55715001, 0.54245019, 0.54245019, 0.54245001, 0.52775019, 0.52775025, 0.52775025,
   0.57185012, 0.55715013, 0.54245007, 0.52774996]

/-- `d2_upper_z` (machine.py:1494-1518). -/
def d2UpperZ : List ℚ :=
  [1.75705004, 1.75705004, 1.74234998, 1.72765005, 1.71294999, 1.71294999, 1.72765005, 1.74234998, 1.72765005,
   1.71294999, 1.71294999, 1.72765005, 1.74234998, 1.74234998, 1.72765005, 1.71294999, 1.71294999, 1.72765005,
   1.74234998, 1.75705004, 1.75705004, 1.75705004, 1.75705004]

/-- `d3_upper_r` (machine.py:1522-1546). -/
def d3UpperR : List ℚ :=
  [0.82854998, 0.8432501, 0.84325004, 0.84325004, 0.82855022, 0.82855004, 0.8285504, 0.81384999, 0.81385022, 0.81385005,
   0.79915011, 0.79915005, 0.79915005, 0.78445005, 0.78444934, 0.78445005, 0.76975012, 0.76975018, 0.76975018,
   0.76975006, 0.78445035, 0.79915041, 0.81384987]

/-- `d3_upper_z` (machine.py:1548-1572). -/
def d3UpperZ : List ℚ :=
  [2.00405002, 2.00405002, 1.98935008, 1.97465003, 1.95995009, 1.97465003, 1.98935008, 1.98935008, 1.97465003,
   1.95995009, 1.95995009, 1.97465003, 1.98935008, 1.98935008, 1.97465003, 1.95995009, 1.95995009, 1.97465003,
   1.98935008, 2.00405002, 2.00405002, 2.00405002, 2.00405002]

/-- `d5_upper_r` (machine.py:1576-1604). -/
def d5UpperR : List ℚ :=
  [1.90735006, 1.92205048, 1.92205, 1.92205, 1.92205, 1.92205, 1.92205, 1.90735018, 1.9073503, 1.9073503, 1.9073503,
   1.9073503, 1.90735006, 1.89265001, 1.89265013, 1.89265013, 1.89265013, 1.89265013, 1.89265001, 1.87794995,
   1.87795019, 1.87795019, 1.87795019, 1.87795019, 1.87795019, 1.87795019, 1.89265037]

/-- `d5_upper_z` (machine.py:1606-1634). -/
def d5UpperZ : List ℚ :=
  [1.99409997, 1.99409997, 1.97940004, 1.96469998, 1.95000005, 1.93529999, 1.92060006, 1.9059, 1.92060006, 1.93529999,
   1.95000005, 1.96469998, 1.97940004, 1.97940004, 1.96469998, 1.95000005, 1.93529999, 1.92060006, 1.9059, 1.9059,
   1.92060006, 1.93529999, 1.95000005, 1.96469998, 1.97940004, 1.99409997, 1.99409997]

/-- `d6_upper_r` (machine.py:1638-1662). -/
def d6UpperR : List ℚ :=
  [1.30704987, 1.32175004, 1.32175004, 1.32174993, 1.30705011, 1.32174993, 1.30704999, 1.29235005, 1.30704999,
   1.29235005, 1.27765, 1.27765, 1.26295006, 1.27765, 1.26294994, 1.24825013, 1.26294994, 1.24825001, 1.24825001,
   1.24825013, 1.26294994, 1.27765, 1.29234993]

/-- `d6_upper_z` (machine.py:1664-1688). -/
def d6UpperZ : List ℚ :=
  [1.44564998, 1.44564998, 1.46034992, 1.47504997, 1.48974991, 1.48975003, 1.47504997, 1.46034992, 1.46035004,
   1.47504997, 1.48975003, 1.47504997, 1.46034992, 1.46034992, 1.47504997, 1.48974991, 1.48975003, 1.47504997,
   1.46034992, 1.44564998, 1.44564998, 1.44564998, 1.44564998]

/-- `d7_upper_r` (machine.py:1692-1716). -/
def d7UpperR : List ℚ :=
  [1.54205, 1.55675006, 1.55675006, 1.55675006, 1.54205012, 1.55674994, 1.54205, 1.52735007, 1.54204988, 1.52735007,
   1.51265013, 1.52734995, 1.51265001, 1.49794996, 1.51265001, 1.49794996, 1.48325002, 1.48325002, 1.48325002,
   1.48325002, 1.49795008, 1.51265001, 1.52734995]

/-- `d7_upper_z` (machine.py:1718-1742). -/
def d7UpperZ : List ℚ :=
  [1.44564998, 1.44564998, 1.46034992, 1.47504997, 1.48974991, 1.48974991, 1.47504997, 1.46034992, 1.46034992,
   1.47504997, 1.48974991, 1.48974991, 1.47504997, 1.46035004, 1.46034992, 1.47504997, 1.48974991, 1.47504997,
   1.46035004, 1.44564998, 1.44564998, 1.44564998, 1.44564998]

/-- `dp_upper_r` (machine.py:1746-1771). -/
def dpUpperR : List ℚ :=
  [0.93285, 0.94755, 0.93285, 0.94755, 0.96224999, 0.96224999, 0.88875002, 0.90345001, 0.91815001, 0.91815001,
   0.90345001, 0.88875002, 0.96224999, 0.94755, 0.93285, 0.96224999, 0.94755, 0.93285, 0.91815001, 0.90345001,
   0.88875002, 0.88874996, 0.90345001, 0.91815001]

/-- `dp_upper_z` (machine.py:1773-1798). -/
def dpUpperZ : List ℚ :=
  [1.48634994, 1.48634994, 1.47165, 1.47165, 1.48634994, 1.47165, 1.47165, 1.47165, 1.47165, 1.48634994, 1.48634994,
   1.48634994, 1.51574993, 1.51574993, 1.51574993, 1.50105, 1.50105, 1.50105, 1.51574993, 1.51574993, 1.51574993,
   1.50105, 1.50105, 1.50105]

/-- `p4_upper_r` (machine.py:1802-1826). -/
def p4UpperR : List ℚ :=
  [1.43500018, 1.53500021, 1.51000023, 1.48500025, 1.46000016, 1.43500006, 1.43500006, 1.46100008, 1.43500018,
   1.46100008, 1.48700011, 1.4610002, 1.48700011, 1.51300013, 1.48700011, 1.51300013, 1.53900015, 1.51300013,
   1.53900003, 1.56500018, 1.53900015, 1.56500006, 1.56500006]

/-- `p4_upper_z` (machine.py:1828-1852). -/
def p4UpperZ : List ℚ :=
  [1.04014993, 1.03714991, 1.03714991, 1.03714991, 1.03714991, 1.07814991, 1.1161499, 1.15414989, 1.15414989, 1.1161499,
   1.07814991, 1.07814991, 1.1161499, 1.15414989, 1.15414989, 1.1161499, 1.07814991, 1.07814991, 1.1161499, 1.15414989,
   1.15414989, 1.1161499, 1.07814991]

/-- `p5_upper_r` (machine.py:1856-1880). -/
def p5UpperR : List ℚ :=
  [1.58500004, 1.61000001, 1.63499999, 1.65999997, 1.68499994, 1.58500004, 1.58500004, 1.58500004, 1.63499999,
   1.63499999, 1.63499999, 1.65999997, 1.65999997, 1.65999997, 1.68499994, 1.68500006, 1.68500006, 1.71500003,
   1.71500003, 1.71500003, 1.71500003, 1.6099776, 1.60997999]

/-- `p5_upper_z` (machine.py:1882-1906). -/
def p5UpperZ : List ℚ :=
  [0.41065004, 0.41065004, 0.41065004, 0.41065004, 0.41065004, 0.37165004, 0.33265004, 0.29365003, 0.37165004,
   0.33265004, 0.29365003, 0.29365003, 0.33262005, 0.37165004, 0.37165004, 0.33265004, 0.29365003, 0.29365006,
   0.33265004, 0.37165004, 0.41065004, 0.31147972, 0.35528255]

/-- `p6_upper_r` (machine.py:1910-1921). -/
def p6UpperR : List ℚ :=
  [1.2887001, 1.2887001, 1.30900013, 1.2887001, 1.30900013, 1.33414996, 1.33414996, 1.35444999, 1.33414996, 1.35444999]

/-- `p6_upper_z` (machine.py:1923-1934). -/
def p6UpperZ : List ℚ :=
  [0.99616498, 0.97586501, 0.95556498, 0.95556498, 0.97586501, 0.931265, 0.91096503, 0.89066499, 0.89066499, 0.91096503]

/-- `px_upper_r` (machine.py:1938-1981). -/
def pxUpperR : List ℚ :=
  [0.24849965, 0.24849975, 0.24849974, 0.2344998, 0.24849974, 0.24849974, 0.24849972, 0.24849972, 0.24849972,
   0.24849971, 0.24849971, 0.24849971, 0.24849969, 0.24849969, 0.24849969, 0.24849968, 0.24849968, 0.24849968,
   0.24849966, 0.24849966, 0.24849966, 0.24849965, 0.23449969, 0.23449969, 0.23449971, 0.23449971, 0.23449971,
   0.23449971, 0.23449972, 0.23449972, 0.23449974, 0.23449974, 0.23449974, 0.23449975, 0.23449975, 0.23449977,
   0.23449977, 0.23449977, 0.23449978, 0.23449978, 0.2344998, 0.2344998]

/-- `px_upper_z` (machine.py:1983-2026). -/
def pxUpperZ : List ℚ :=
  [1.41640627, 1.03640544, 1.0554055, 1.03164983, 1.07440555, 1.0934056, 1.11240554, 1.13140559, 1.15040565, 1.1694057,
   1.18840575, 1.20740581, 1.22640586, 1.24540591, 1.26440585, 1.2834059, 1.30240595, 1.32140601, 1.34040606,
   1.35940611, 1.37840617, 1.39740622, 1.41164911, 1.39264905, 1.37364912, 1.35464919, 1.33564925, 1.31664932,
   1.29764926, 1.27864933, 1.2596494, 1.24064946, 1.22164953, 1.20264947, 1.18364954, 1.16464961, 1.14564967,
   1.12664974, 1.10764968, 1.08864975, 1.06964982, 1.05064988]

/-- `pc_r` (machine.py:2030-2315). -/
def pcR : List ℚ :=
  [0.05950115, 0.05950115, 0.05950116, 0.05950116, 0.05950116, 0.05950121, 0.05950117, 0.05950117, 0.05950118,
   0.05950122, 0.05950119, 0.05950119, 0.05950119, 0.05950119, 0.05950123, 0.0595012, 0.0595012, 0.0595012, 0.0595012,
   0.0595012, 0.0595012, 0.0595012, 0.0595012, 0.0595012, 0.0595012, 0.0595012, 0.0595012, 0.0595012, 0.05950124,
   0.05950119, 0.05950119, 0.05950119, 0.05950119, 0.05950119, 0.05950122, 0.05950122, 0.05950118, 0.05950117,
   0.05950117, 0.05950117, 0.05950116, 0.05950116, 0.05950115, 0.05950115, 0.05950114, 0.05950114, 0.05950113,
   0.05950113, 0.05950112, 0.05950112, 0.05950111, 0.0595011, 0.05950113, 0.05950109, 0.05950108, 0.05950111, 0.0595011,
   0.05950109, 0.05950109, 0.05950107, 0.0595009, 0.05950106, 0.05950104, 0.05950104, 0.05950103, 0.05950105,
   0.05950146, 0.05950177, 0.05950198, 0.05950211, 0.05950096, 0.07150049, 0.0715005, 0.07150051, 0.07150052,
   0.07150053, 0.07150054, 0.07150055, 0.07150055, 0.07150057, 0.07150058, 0.07150058, 0.07150059, 0.0715006,
   0.07150061, 0.07150061, 0.07150062, 0.07150063, 0.07150064, 0.07150064, 0.07150065, 0.07150066, 0.07150067,
   0.07150067, 0.07150067, 0.07150068, 0.07150069, 0.0715007, 0.0715007, 0.0715007, 0.07150071, 0.07150071, 0.07150072,
   0.07150066, 0.07150073, 0.07150073, 0.07150073, 0.07150073, 0.07150074, 0.07150074, 0.07150085, 0.07150132,
   0.07150154, 0.07150155, 0.07150079, 0.07150076, 0.07150076, 0.07150076, 0.07150076, 0.07150076, 0.07150076,
   0.07150076, 0.07150073, 0.07150077, 0.07150077, 0.07150077, 0.07150077, 0.07150077, 0.07150077, 0.07150076,
   0.07150076, 0.07150076, 0.07150076, 0.07150076, 0.07150076, 0.07150076, 0.07150076, 0.07150076, 0.07150076,
   0.07150075, 0.07150075, 0.07150074, 0.0715007, 0.07150044, 0.07150045, 0.07150047, 0.07150047, 0.07150049,
   0.07150128, 0.07150129, 0.07150111, 0.07150067, 0.07150006, 0.07150054, 0.07150055, 0.07150055, 0.07150056,
   0.07150057, 0.07150058, 0.07150058, 0.0715006, 0.07150061, 0.07150061, 0.07150062, 0.07150062, 0.07150063,
   0.07150064, 0.07150064, 0.07150065, 0.07150065, 0.07150066, 0.07150067, 0.07150067, 0.07150067, 0.07150068,
   0.07150068, 0.07150069, 0.07150069, 0.0715007, 0.0715007, 0.0715007, 0.0715007, 0.0715007, 0.07150071, 0.07150071,
   0.07150071, 0.07150072, 0.07150072, 0.07150072, 0.07150072, 0.07150072, 0.07150072, 0.07150073, 0.07150073,
   0.07150073, 0.07150073, 0.07150073, 0.07150073, 0.07150073, 0.07150073, 0.07150073, 0.07150076, 0.07150076,
   0.07150076, 0.07150076, 0.07150076, 0.07150076, 0.07150076, 0.07150076, 0.07150075, 0.07150075, 0.07150075,
   0.07150074, 0.059501, 0.05950099, 0.059501, 0.05950118, 0.05950101, 0.05950101, 0.05950101, 0.05950102, 0.05950102,
   0.05950102, 0.05950103, 0.05950122, 0.05950122, 0.05950122, 0.05950104, 0.05950104, 0.05950104, 0.05950104,
   0.05950104, 0.05950104, 0.05950104, 0.05950104, 0.05950104, 0.0595013, 0.05950121, 0.05950123, 0.05950116,
   0.05950124, 0.05950121, 0.05950119, 0.05950121, 0.05950122, 0.05950122, 0.05950121, 0.0595012, 0.05950121,
   0.05950121, 0.0595012, 0.05950101, 0.05950119, 0.05950119, 0.05950118, 0.05950118, 0.05950117, 0.05950117,
   0.05950116, 0.05950116, 0.05950119, 0.05950115, 0.05950114, 0.05950114, 0.05950113, 0.05950112, 0.05950112,
   0.05950111, 0.0595011, 0.05950109, 0.05950108, 0.05950107, 0.05950107, 0.05950106, 0.05950105, 0.05950104,
   0.05950103, 0.05950102, 0.05950101, 0.059501, 0.05950099, 0.05950078, 0.05950077, 0.05950096]

/-- `pc_z` (machine.py:2317-2602). -/
def pcZ : List ℚ :=
  [-0.781521082, -0.759520829, -0.737520635, -0.715520382, -0.693520188, -0.671519935, -0.649519742, -0.627519488,
   -0.605519295, -0.583519042, -0.561518848, -0.539518654, -0.517518401, -0.495518208, -0.473517984, -0.451517761,
   -0.429517567, -0.407517344, -0.38551712, -0.363516897, -0.341516674, -0.31951645, -0.297516227, -0.275516003,
   -0.25351578, -0.231515557, -0.209515333, -0.18751511, -0.165514901, -0.143514678, -0.121514454, -0.0995142311,
   -0.0775140151, -0.0555137955, -0.0335135758, -0.0115133552, 0.0104868645, 0.0324870832, 0.0544873066, 0.0764875263,
   0.0984877497, 0.120487973, 0.142488196, 0.164488405, 0.186488628, 0.208488852, 0.230489075, 0.252489269, 0.274489492,
   0.296489716, 0.318489939, 0.340490162, 0.362490386, 0.384490609, 0.406490862, 0.428490698, 0.450491309, 0.472491503,
   0.494491905, 0.516492069, 0.538492322, 0.560492516, 0.582492828, 0.604492962, 0.626493216, 0.648493409, 0.670493662,
   0.692494035, 0.714494169, 0.736494422, 0.758494616, 0.758488476, 0.73648864, 0.714488804, 0.692489028, 0.670489192,
   0.648489356, 0.62648952, 0.604489744, 0.582489908, 0.560490072, 0.538490295, 0.516490459, 0.494490594, 0.472490788,
   0.450490981, 0.428491175, 0.406491339, 0.384491533, 0.362491727, 0.340491891, 0.318492085, 0.296492279, 0.274492443,
   0.252492636, 0.23049283, 0.208493009, 0.186493203, 0.164493382, 0.142493561, 0.12049374, 0.0984939337, 0.0764944404,
   0.0544943213, 0.0324945636, 0.010494695, -0.0115051102, -0.0335049182, -0.0555047244, -0.0775045305, -0.0995043367,
   -0.12150415, -0.143503949, -0.165503755, -0.187503561, -0.209503368, -0.231503174, -0.253502995, -0.275502801,
   -0.297502607, -0.319502413, -0.341502219, -0.363502026, -0.385501832, -0.407501638, 0.395501614, -0.429501444,
   -0.45150125, -0.473501056, -0.495500863, -0.517500639, -0.539500475, -0.561500251, -0.583500087, -0.605499864,
   -0.6274997, -0.649499476, -0.671499312, -0.693499088, -0.715498924, -0.737498701, -0.759498537, -0.781498313,
   0.769502759, 0.747502983, 0.725503147, 0.70350337, 0.681503534, 0.659503758, 0.637503922, 0.615504146, 0.59350431,
   0.571504533, 0.549504697, 0.527504921, 0.505505085, 0.483505279, 0.461505353, 0.439505666, 0.417505413, 0.373506218,
   0.351506412, 0.329506606, 0.30750677, 0.285506964, 0.263507158, 0.241507336, 0.21950753, 0.197507709, 0.175507888,
   0.153508082, 0.131508261, 0.10950844, 0.0875086263, 0.0655088127, 0.0435089879, 0.0215091743, -0.000490644481,
   -0.0224904604, -0.0444902778, -0.0664900914, -0.0884899125, -0.110489726, -0.132489547, -0.154489353, -0.176489174,
   -0.198488995, -0.220488816, -0.242488623, -0.264488459, -0.286488265, -0.308488101, -0.330487907, -0.352487713,
   -0.374487549, -0.396487355, -0.418487161, -0.440486997, -0.462486804, -0.484486639, -0.506486416, -0.528486252,
   -0.550486028, -0.572485864, -0.5944857, -0.616485476, -0.638485312, -0.660485148, -0.682484925, -0.704484761,
   -0.726484597, -0.748484373, -0.770484209, -0.726499677, -0.74849993, -0.704499483, -0.770499945, -0.68249923,
   -0.660498977, -0.638498724, -0.61649853, -0.594498277, -0.572498024, -0.55049783, -0.528497398, -0.506497145,
   -0.484496951, -0.462496907, -0.440496653, -0.41849643, -0.396496207, -0.374495953, -0.35249573, -0.330495477,
   -0.308495253, -0.28649503, -0.263993531, -0.242494494, -0.220494315, -0.198494136, -0.176493689, -0.154493496,
   -0.132493302, -0.110493094, -0.0884926915, -0.0664924607, -0.0444922261, -0.0224919878, -0.000491753221,
   0.0215084739, 0.0435086973, 0.0655087605, 0.109509401, 0.131509617, 0.15350984, 0.175510064, 0.197510287,
   0.219510511, 0.241510719, 0.263510942, 0.0875091851, 0.285511166, 0.307511151, 0.329511374, 0.351511598, 0.37351203,
   0.395512253, 0.417512476, 0.439512491, 0.461512923, 0.483513147, 0.505513191, 0.527513623, 0.549513638, 0.571513832,
   0.593514264, 0.615514517, 0.63751471, 0.659514725, 0.681514919, 0.703515172, 0.725515604, 0.747515619, 0.769516051]

/-- `FilamentCoil(r, z)`. The default outline never fails for a list that is not empty, so an error cannot occur here. -/
def strands (r z : List ℚ) : Except Err (FilamentCoil K) := FilamentCoil.make (r.map fun x : ℚ => (x : K)) (z.map fun x : ℚ => (x : K))

/-- `Circuit([(U, FilamentCoil(r, z), 1.0), (L, FilamentCoil(r, [x * -1 for x in z]), multiplier)])`. -/
def strandPair (U L : String) (r z : List ℚ) (multiplier : K := 1) : Except Err (Entry K) :=
  match strands r z, strands r (z.map fun x => x * -1) with
  | .ok a, .ok b => .ok (pair U (.filament a) L (.filament b) multiplier)
  | .error err, _ => .error err
  | _, .error err => .error err

/-- The entries of `MASTU()` in order (machine.py:2604-2706), each with its own result. -/
def mastuEntries : List (String × Except Err (Entry K)) :=
  [("Solenoid", .ok (solenoid 0.19475 (-1.581) 1.581 324 false)),
   ("Pc", (strands pcR pcZ).map fun c => .coil (.filament c)),
   ("Px", strandPair "PxU" "PxL" pxUpperR pxUpperZ), ("D1", strandPair "D1U" "D1L" d1UpperR d1UpperZ),
   ("D2", strandPair "D2U" "D2L" d2UpperR d2UpperZ), ("D3", strandPair "D3U" "D3L" d3UpperR d3UpperZ),
   ("Dp", strandPair "DPU" "DPL" dpUpperR dpUpperZ), ("D5", strandPair "D5U" "D5L" d5UpperR d5UpperZ),
   ("D6", strandPair "D6U" "D6L" d6UpperR d6UpperZ), ("D7", strandPair "D7U" "D7L" d7UpperR d7UpperZ),
   ("P4", strandPair "P4U" "P4L" p4UpperR p4UpperZ), ("P5", strandPair "P5U" "P5L" p5UpperR p5UpperZ),
   ("P6", strandPair "P6U" "P6L" p6UpperR p6UpperZ (-1))]

/-- The first exception, or all results. -/
def sequence : List (String × Except Err (Entry K)) → Except Err (List (String × Entry K))
  | [] => .ok []
  | (l, x) :: rest =>
    match x with
    | .error err => .error err
    | .ok x =>
      match sequence rest with
      | .error err => .error err
      | .ok xs => .ok ((l, x) :: xs)

/-- `MASTU()` (machine.py:1386-2833). -/
def mastu : Except Err (Machine K) := (sequence mastuEntries).map fun cs => ⟨cs⟩

end FreeGS.Predefined
