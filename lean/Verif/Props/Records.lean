import Verif.Lemmas.Dump
import Verif.Model.Records
import Verif.Props.Dump

set_option linter.unusedSectionVars false

/-!
# Coils as records (C117)
-/

namespace FreeGS.Records

open FreeGS.Dump (Whole Exact Unmoved)

universe u
variable {K : Type u} [Field K] [LinearOrder K]

theorem array_dtype {toInt : K → ℤ} {dt : DType} {args : List (Arg K)} {r : Rec K} (h : array toInt dt args = .ok r) : r.dtype = dt := by
  unfold array at h
  cases hf : fill toInt dt args with
  | error e => simp [hf] at h
  | ok vs => simp only [hf, Except.ok.injEq] at h; rw [← h]

theorem toNumpy_dtype {toInt : K → ℤ} {c : AnyCoil K} {r : Rec K} (h : toNumpy toInt c = .ok r) : r.dtype = dtypeOf (clsOf c) := by
  cases c with
  | point c => simp only [toNumpy] at h; exact array_dtype h
  | filament c => simp only [toNumpy] at h; exact array_dtype h
  | shaped c =>
    simp only [toNumpy] at h
    split at h
    · exact array_dtype h
    · cases h
    · cases h
  | multi c =>
    simp only [toNumpy] at h
    split at h
    · split at h
      · exact array_dtype h
      · cases h
      · cases h
    · cases h
  | precalc c =>
    simp only [toNumpy] at h
    split at h
    · exact array_dtype h
    · cases h
    · cases h

theorem padTo_le {size : ℕ} {l : List K} (h : l.length ≤ size) : padTo size l.length l = .ok (l ++ List.replicate (size - l.length) 0) := by
  rw [padTo, if_pos (by omega)]

theorem padTo_gt {size : ℕ} {l : List K} (h : ¬ l.length ≤ size) : padTo size l.length l = .error .value := by
  rw [padTo, if_neg (by omega)]

theorem take_pad {l : List K} (n : ℕ) : (l ++ List.replicate n 0).take l.length = l := by simp

/-- The record of a multi-coil. -/
theorem multi_record (toInt : K → ℤ) (c : MultiCoil K) (hl : c.Rfil.length = c.Zfil.length) (h5 : c.Rfil.length ≤ 500) :
    toNumpy toInt (.multi c) = .ok ⟨dtypeOf .multi, [.int (toInt c.Rfil.length), .reals (c.Rfil ++ List.replicate (500 - c.Rfil.length) 0),
      .reals (c.Zfil ++ List.replicate (500 - c.Zfil.length) 0), .real c.current, .int (toInt c.turns), .bool c.control, .bool c.mirror,
      .reals [c.polarity.1, c.polarity.2]]⟩ := by
  have hZ : padTo 500 c.Rfil.length c.Zfil = .ok (c.Zfil ++ List.replicate (500 - c.Zfil.length) 0) := by
    rw [hl]; exact padTo_le (by omega)
  have e1 : (c.Rfil ++ List.replicate (500 - c.Rfil.length) (0 : K)).length = 500 := by simp; omega
  have e2 : (c.Zfil ++ List.replicate (500 - c.Zfil.length) (0 : K)).length = 500 := by simp; omega
  simp only [toNumpy, if_pos h5, padTo_le h5, hZ, array, dtypeOf, fill, convert, if_pos e1, if_pos e2, List.length_cons, List.length_nil]
  rfl

/-- The record of a pre-calculated coil. -/
theorem precalc_record (toInt : K → ℤ) (c : PreCalcCoil K) (h : c.shape.length ≤ 10) :
    toNumpy toInt (.precalc c) = .ok ⟨dtypeOf .precalc, [.int (toInt c.shape.length),
      .reals (c.shape.map Prod.fst ++ List.replicate (10 - c.shape.length) 0),
      .reals (c.shape.map Prod.snd ++ List.replicate (10 - c.shape.length) 0), .real c.current, .int (toInt c.turns), .bool c.control]⟩ := by
  have h1 := padTo_le (size := 10) (l := c.shape.map Prod.fst) (by simpa using h)
  have h2 := padTo_le (size := 10) (l := c.shape.map Prod.snd) (by simpa using h)
  simp only [List.length_map] at h1 h2
  have e1 : (c.shape.map Prod.fst ++ List.replicate (10 - c.shape.length) (0 : K)).length = 10 := by simp; omega
  have e2 : (c.shape.map Prod.snd ++ List.replicate (10 - c.shape.length) (0 : K)).length = 10 := by simp; omega
  simp only [toNumpy, h1, h2, array, dtypeOf, fill, convert, if_pos e1, if_pos e2]

/-- The record of a shaped coil. -/
theorem shaped_record (toInt : K → ℤ) (c : ShapedCoil K) (h : c.shape.length ≤ 10) :
    toNumpy toInt (.shaped c) = .ok ⟨dtypeOf .shaped, [.int (toInt c.shape.length),
      .reals (c.shape.map Prod.fst ++ List.replicate (10 - c.shape.length) 0),
      .reals (c.shape.map Prod.snd ++ List.replicate (10 - c.shape.length) 0), .real c.current, .int (toInt c.turns), .bool c.control,
      .int (toInt c.npoints)]⟩ := by
  have h1 := padTo_le (size := 10) (l := c.shape.map Prod.fst) (by simpa using h)
  have h2 := padTo_le (size := 10) (l := c.shape.map Prod.snd) (by simpa using h)
  simp only [List.length_map] at h1 h2
  have e1 : (c.shape.map Prod.fst ++ List.replicate (10 - c.shape.length) (0 : K)).length = 10 := by simp; omega
  have e2 : (c.shape.map Prod.snd ++ List.replicate (10 - c.shape.length) (0 : K)).length = 10 := by simp; omega
  simp only [toNumpy, h1, h2, array, dtypeOf, fill, convert, if_pos e1, if_pos e2]

/-! ### The property -/

/-- A pre-calculated coil. -/
def exPre : PreCalcCoil ℚ := { rCentre := 4 / 3, zCentre := 1 / 3, current := 5, turns := 2, control := true, area := 1 / 2, shape := FreeGS.Dump.exTriangle, points := FreeGS.Dump.exTriangle, map := fun _ R Z => R + Z }

/-- A filament coil. -/
def exFil : FilamentCoil ℚ := { rCentre := 4 / 3, zCentre := 1 / 3, current := 5, turns := 2, control := true, area := 1 / 2, shape := FreeGS.Dump.exTriangle, points := [(1, 0), (3 / 2, 1 / 4)], npoints := 2 }

/-- A multi-coil of two filaments with a mirror image. -/
def exMulti : MultiCoil ℚ := { Rfil := [1, 2], Zfil := [3, 4], turns := 2, current := 7, control := true, mirror := true, polarity := (1, -1), area := .fixed 1, rCentre := 3 / 2, zCentre := 7 / 2 }

example : (PreCalcCoil.make FreeGS.Dump.exTriangle (fun _ R Z => R + Z) 5 2 : Except Err (PreCalcCoil ℚ)).toOption.map (fun c => (c.rCentre, c.zCentre, c.area)) =
      some (exPre.rCentre, exPre.zCentre, exPre.area) ∧
    (MultiCoil.makeList [1, 2] [3, 4] 7 true true (1, -1) (.fixed 1) : Except Err (MultiCoil ℚ)).toOption.map (fun c => (c.turns, c.rCentre, c.zCentre)) =
      some (exMulti.turns, exMulti.rCentre, exMulti.zCentre) := by decide +kernel

/-- **C117 (point coils).** A point coil with a whole number of turns is the same after conversion to a record and back, but for its
area, which becomes the default one. -/
theorem C117_point_partial {toInt : K → ℤ} (hx : Exact toInt) (c : PointCoil K) (hc : Whole c.turns) :
    roundtrip toInt (.point c) = .ok (.coil (.point { c with area := defaultArea })) := by
  obtain ⟨n, hn⟩ := hc
  have : ((toInt c.turns : ℤ) : K) = c.turns := by rw [hn, hx n]
  simp [roundtrip, toNumpy, array, fill, convert, dtypeOf, clsOf, fromNumpy, callCoil, PointCoil.make, this]

example : Exact FreeGS.Dump.exToInt ∧ Whole FreeGS.Dump.exPoint.turns ∧ FreeGS.Dump.exPoint.current = 30 := by
  refine ⟨fun n => ?_, ⟨4, rfl⟩, rfl⟩
  simp [FreeGS.Dump.exToInt]

/-- **C117 (shaped coils).** A shaped coil that has not been moved, with a whole number of turns and at most ten outline points, is the
same after conversion to a record and back. -/
theorem C117_shaped_partial {toInt : K → ℤ} (hx : Exact toInt) (c : ShapedCoil K) (hc : Whole c.turns) (hu : Unmoved c)
    (hl : c.shape.length ≤ 10) : roundtrip toInt (.shaped c) = .ok (.coil (.shaped c)) := by
  obtain ⟨n, hn⟩ := hc
  have h1 : ((toInt c.turns : ℤ) : K) = c.turns := by rw [hn, hx n]
  have h2 : toInt (c.shape.length : K) = (c.shape.length : ℤ) := by simpa using hx (c.shape.length : ℤ)
  have h3 : toInt (c.npoints : K) = (c.npoints : ℤ) := by simpa using hx (c.npoints : ℤ)
  have e1 : (c.shape.map Prod.fst ++ List.replicate (10 - c.shape.length) (0 : K)).take c.shape.length = c.shape.map Prod.fst := by
    simp
  have e2 : (c.shape.map Prod.snd ++ List.replicate (10 - c.shape.length) (0 : K)).take c.shape.length = c.shape.map Prod.snd := by
    simp
  have e3 : (c.shape.map Prod.fst).zip (c.shape.map Prod.snd) = c.shape := by rw [← List.zip_of_prod rfl rfl]
  unfold Unmoved at hu
  simp [roundtrip, shaped_record toInt c hl, clsOf, fromNumpy, readShaped, Rec.field, dtypeOf, h1, h2, h3, e1, e2, e3, hu]

example : Whole FreeGS.Dump.exShaped.turns ∧ FreeGS.Dump.exShaped.shape.length ≤ 10 ∧ FreeGS.Dump.exShaped.current = 9 :=
  ⟨⟨3, rfl⟩, by decide, rfl⟩

/-- **C117 (the wrong class).** The record of a coil is refused with `ValueError` by every coil class but its own. -/
theorem C117_wrong_class {toInt : K → ℤ} {c : AnyCoil K} {r : Rec K} (h : toNumpy toInt c = .ok r) {k : Cls} (hk : k ≠ clsOf c) :
    fromNumpy k r = .error .value := by
  have hd : r.dtype ≠ dtypeOf k := by
    rw [toNumpy_dtype h]
    revert hk
    cases k <;> cases c <;> simp [clsOf, dtypeOf]
  unfold fromNumpy
  rw [if_pos hd]

example : (∃ r, toNumpy FreeGS.Dump.exToInt (.multi exMulti) = .ok r) ∧ Cls.shaped ≠ clsOf (.multi exMulti) :=
  ⟨⟨_, multi_record _ _ rfl (by decide)⟩, by decide⟩

/-- **C117 (records of multi-coils).** A multi-coil has a record exactly if it has at most 500 filaments; with more, the conversion
fails with `AssertionError`. -/
theorem C117_multi_size (toInt : K → ℤ) (c : MultiCoil K) (hl : c.Rfil.length = c.Zfil.length) :
    ((∃ r, toNumpy toInt (.multi c) = .ok r) ↔ c.Rfil.length ≤ 500) ∧
    (500 < c.Rfil.length → toNumpy toInt (.multi c) = .error .assertion) := by
  have hbig : ¬ c.Rfil.length ≤ 500 → toNumpy toInt (.multi c) = .error .assertion := fun h => by simp only [toNumpy, if_neg h]
  refine ⟨⟨fun ⟨r, hr⟩ => ?_, fun h => ⟨_, multi_record toInt c hl h⟩⟩, fun h => hbig (by omega)⟩
  by_contra hn
  rw [hbig hn] at hr
  cases hr

example : exMulti.Rfil.length = exMulti.Zfil.length ∧ exMulti.Rfil.length ≤ 500 := by decide

/-- **C117 (records of multi-coils lose nothing but the area).** Two multi-coils with the same record have the same filaments, current,
control flag, mirror flag and polarity, and the same turns if these are whole numbers. -/
theorem C117_multi_record {toInt : K → ℤ} (hx : Exact toInt) {c d : MultiCoil K} (hc : c.Rfil.length = c.Zfil.length)
    (hd : d.Rfil.length = d.Zfil.length) {r : Rec K} (h1 : toNumpy toInt (.multi c) = .ok r) (h2 : toNumpy toInt (.multi d) = .ok r) :
    c.Rfil = d.Rfil ∧ c.Zfil = d.Zfil ∧ c.current = d.current ∧ c.control = d.control ∧ c.mirror = d.mirror ∧ c.polarity = d.polarity ∧
      (Whole c.turns → Whole d.turns → c.turns = d.turns) := by
  have l1 := ((C117_multi_size toInt c hc).1).mp ⟨r, h1⟩
  have l2 := ((C117_multi_size toInt d hd).1).mp ⟨r, h2⟩
  rw [multi_record toInt c hc l1] at h1
  rw [multi_record toInt d hd l2] at h2
  have h := h1.trans h2.symm
  simp only [Except.ok.injEq, Rec.mk.injEq, List.cons.injEq, Val.int.injEq, Val.reals.injEq, Val.real.injEq, Val.bool.injEq, true_and,
    and_true] at h
  obtain ⟨hn, hR, hZ, hI, ht, hco, hm, hp, hq⟩ := h
  have hlen : c.Rfil.length = d.Rfil.length := by
    have a := hx (c.Rfil.length : ℤ)
    have b := hx (d.Rfil.length : ℤ)
    simp only [Int.cast_natCast] at a b
    rw [a, b] at hn
    exact_mod_cast hn
  refine ⟨?_, ?_, hI, hco, hm, Prod.ext hp hq, ?_⟩
  · have := congrArg (List.take c.Rfil.length) hR
    rw [take_pad, hlen, take_pad] at this
    exact this
  · have := congrArg (List.take c.Zfil.length) hZ
    rw [take_pad, show c.Zfil.length = d.Zfil.length by omega, take_pad] at this
    exact this
  · rintro ⟨a, ha⟩ ⟨b, hb⟩
    rw [ha, hb, hx a, hx b] at ht
    rw [ha, hb, ht]

example : (∃ r, toNumpy FreeGS.Dump.exToInt (.multi exMulti) = .ok r ∧
    toNumpy FreeGS.Dump.exToInt (.multi { exMulti with area := .fixed 2 }) = .ok r) :=
  ⟨_, multi_record _ _ rfl (by decide), multi_record _ _ rfl (by decide)⟩

/-- **C117 fails (multi-coils).** No record of a multi-coil can be read: `MultiCoil.from_numpy_array` raises `ValueError` for every value
of its own dtype, because it asks for a field that the dtype does not have. -/
theorem C117_multi_fails (toInt : K → ℤ) (c : MultiCoil K) (hl : c.Rfil.length = c.Zfil.length) (h5 : c.Rfil.length ≤ 500) :
    (∃ r, toNumpy toInt (.multi c) = .ok r) ∧ roundtrip toInt (.multi c) = .error .value := by
  refine ⟨⟨_, multi_record toInt c hl h5⟩, ?_⟩
  simp [roundtrip, multi_record toInt c hl h5, clsOf, fromNumpy, readMulti, Rec.field, dtypeOf]

example : exMulti.Rfil.length = exMulti.Zfil.length ∧ exMulti.Rfil.length ≤ 500 ∧ exMulti.mirror = true := by decide

/-- **C117 fails (filament coils).** No filament coil can be converted to a record: `ValueError`. -/
theorem C117_filament_fails (toInt : K → ℤ) (c : FilamentCoil K) : toNumpy toInt (.filament c) = .error .value := by
  simp [toNumpy, array, dtypeOf, fill]

example : exFil.npoints = 2 ∧ exFil.points.length = 2 := by decide

/-- **C117 fails (pre-calculated coils).** The record of a pre-calculated coil is accepted by its class, but what comes back is a point
coil whose major radius is the number of outline points, whose height and current are arrays of ten numbers, whose number of turns is
the current, whose control flag is the number of turns and whose area is the control flag. With more than ten outline points the
conversion fails with `ValueError`. -/
theorem C117_precalc_fails {toInt : K → ℤ} (hx : Exact toInt) (c : PreCalcCoil K) :
    (c.shape.length ≤ 10 → ∃ R Z : List K, R.length = 10 ∧ Z.length = 10 ∧ R.take c.shape.length = c.shape.map Prod.fst ∧
      Z.take c.shape.length = c.shape.map Prod.snd ∧
      roundtrip toInt (.precalc c) =
        .ok (.odd (.int c.shape.length) (.reals R) (.reals Z) (.real c.current) (.int (toInt c.turns)) (some (.bool c.control)))) ∧
    (10 < c.shape.length → roundtrip toInt (.precalc c) = .error .value) := by
  constructor
  · intro h
    have h2 : toInt (c.shape.length : K) = (c.shape.length : ℤ) := by simpa using hx (c.shape.length : ℤ)
    refine ⟨c.shape.map Prod.fst ++ List.replicate (10 - c.shape.length) 0, c.shape.map Prod.snd ++ List.replicate (10 - c.shape.length) 0,
      by simp; omega, by simp; omega, by simp,
      by simp, ?_⟩
    simp [roundtrip, precalc_record toInt c h, clsOf, fromNumpy, callCoil, h2]
  · intro h
    have h1 := padTo_gt (size := 10) (l := c.shape.map Prod.fst) (by simpa using h)
    simp only [List.length_map] at h1
    simp [roundtrip, toNumpy, h1]

example : exPre.shape.length ≤ 10 ∧ exPre.current = 5 := by decide

end FreeGS.Records
