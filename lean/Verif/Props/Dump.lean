import Verif.Lemmas.Dump

set_option linter.unusedSectionVars false

/-!
# Saved equilibria (C48, C81)
-/

namespace FreeGS.Dump

open FreeGS.Resolution
open FreeGS.Critical (Domain)
open FreeGS.Limits (Walled)

universe u
variable {S P Q K : Type u} [Field K] [LinearOrder K]

/-! ### A worked example -/

section Example

/-- Truncation toward zero. -/
def exToInt (x : ℚ) : ℤ := x.num.tdiv x.den

/-- A quarter-turn triangle outline. -/
def exTriangle : List (ℚ × ℚ) := [(1, 0), (2, 0), (1, 1)]

/-- A point coil with an area of its own. -/
def exPoint : PointCoil ℚ := ⟨2, 1, 30, 4, true, .fixed 7⟩

/-- A circuit of two coils with opposite currents. -/
def exCircuit : Circuit ℚ := Circuit.make [("U", .point ⟨3, 1, 0, 2, true, .fixed 1⟩, 2), ("L", .point ⟨3, -1, 0, 2, true, .fixed 1⟩, -1)] 5 false

/-- A solenoid. -/
def exSolenoid : Solenoid ℚ := ⟨1 / 2, -1, 1, 10, 6, true⟩

/-- A machine with labels out of order. -/
def exMach : Mach ℚ ℚ := ⟨[("P2", .coil (.point exPoint)), ("Z", .solenoid exSolenoid), ("C", .circuit exCircuit)], ⟨none, none⟩, some 1, 3⟩

/-- An equilibrium with non-default settings. -/
def exEq (b : Boundary) : Eqm (Mach ℚ ℚ) ℚ ℚ ℚ :=
  { tokamak := exMach, dom := ⟨1, 2, -1, 1⟩, nx := 5, ny := 7, boundary := b, order := 2, checkLimited := true, current := 5
    plasmaPsi := fun c => 10 * c.1 + c.2, profiles := some 1, control := some 1 }

/-- A simple numerical environment. -/
def exGreens : Env ℚ := ⟨fun _ a b c d => a + 2 * b + 3 * c + 4 * d, 3, 1, id, id⟩

/-- A constructor that always succeeds. -/
def exExt : Ext (Mach ℚ ℚ) ℚ ℚ ℚ :=
  { start := fun _ _ _ => 0, update := fun _ => .ok (), solver := fun _ _ _ _ => .ok (), spline := fun _ _ _ _ _ _ => 0
    resolve := fun _ _ _ => .ok (fun _ => 0, 0) }

/-- Write and read. -/
def exTrip (eq : Eqm (Mach ℚ ℚ) ℚ ℚ ℚ) : Except Err (Option (Eqm (Mach ℚ ℚ) ℚ ℚ ℚ)) :=
  match write exToInt (Machine.createGreens exGreens 1 1 ⟨eq.tokamak.coils⟩) eq with
  | .error err => .error err
  | .ok r => read exToInt id exExt r.1

/-- `exEq` with other coils. -/
def exWith (coils : List (String × Entry ℚ)) : Eqm (Mach ℚ ℚ) ℚ ℚ ℚ := { exEq .fixed with tokamak := { exMach with coils } }

end Example

/-! ### C48 -/

theorem supported_evaluated (x : Entry K) : Supported (evaluated x) ↔ Supported x := by
  cases x with
  | circuit c =>
    simp only [evaluated, Supported, Circuit.setCurrent, List.mem_map, forall_exists_index, and_imp, forall_apply_eq_imp_iff₂]
    refine forall₂_congr fun x _ => ?_
    obtain ⟨l, y, m⟩ := x
    cases y <;> simp [AnyCoil.setCurrent]
  | _ => rfl

/-- **C48 (what can be saved).** Writing succeeds exactly if the flux of the coils can be evaluated, the labels are plain and pairwise
different, and every entry is a point coil, a shaped coil with at most ten outline points, a circuit of point coils or a solenoid. In
particular a machine with a filament coil, a multi-coil, a pre-calculated coil or a circuit with a shaped coil cannot be saved. -/
theorem C48_writable (toInt : K → ℤ) (greens : String → Option (Entry.Greens K)) (eq : Eqm (Mach S K) P Q K) :
    (∃ r, write toInt greens eq = .ok r) ↔
      (∃ r, Machine.calcFromGreens greens ⟨eq.tokamak.coils⟩ = .ok r) ∧ (∀ x ∈ eq.tokamak.coils, plainLabel x.1 = true) ∧
      (eq.tokamak.coils.map Prod.fst).Nodup ∧ ∀ x ∈ eq.tokamak.coils, Supported x.2 := by
  unfold write
  cases hc : Machine.calcFromGreens greens ⟨eq.tokamak.coils⟩ with
  | error e => simp
  | ok r =>
    have hr := machine_calc hc
    simp only [hr, Except.ok.injEq, exists_eq', true_and]
    have key : (∃ out, writeCoils toInt (eq.tokamak.coils.map fun x => (x.1, evaluated x.2)) [] = .ok out) ↔
        (∀ x ∈ eq.tokamak.coils, plainLabel x.1 = true) ∧ (eq.tokamak.coils.map Prod.fst).Nodup ∧
          ∀ x ∈ eq.tokamak.coils, Supported x.2 := by
      constructor
      · rintro ⟨out, h⟩
        obtain ⟨h1, -, h3, rs, -, h5⟩ := writeCoils_ok.mp h
        refine ⟨?_, ?_, ?_⟩
        · intro x hx
          exact h1 (x.1, evaluated x.2) (List.mem_map.mpr ⟨x, hx, rfl⟩)
        · simpa [List.map_map, Function.comp_def] using h3
        · intro x hx
          have := (List.forall₂_iff_get.mp h5).2
          obtain ⟨i, hi, hix⟩ := List.getElem_of_mem (List.mem_map.mpr ⟨x, hx, rfl⟩ :
            (x.1, evaluated x.2) ∈ eq.tokamak.coils.map fun x => (x.1, evaluated x.2))
          have hl := (List.forall₂_iff_get.mp h5).1
          have := this i hi (by rw [← hl]; exact hi)
          rw [← supported_evaluated, ← toRecord_ok (toInt := toInt)]
          simp only [List.get_eq_getElem, hix] at this
          exact ⟨_, this.2⟩
      · rintro ⟨h1, h2, h3⟩
        have : ∀ cs : List (String × Entry K), (∀ x ∈ cs, Supported x.2) → ∃ rs : List (String × Record K),
            List.Forall₂ (fun x r => x.1 = r.1 ∧ toRecord toInt x.2 = .ok r.2) (cs.map fun x => (x.1, evaluated x.2)) rs := by
          intro cs
          induction cs with
          | nil => intro _; exact ⟨[], .nil⟩
          | cons x cs ih =>
            intro h
            obtain ⟨rs, hrs⟩ := ih fun x hx => h x (List.mem_cons_of_mem _ hx)
            obtain ⟨r, hr⟩ := toRecord_ok (toInt := toInt).mpr ((supported_evaluated x.2).mpr (h x List.mem_cons_self))
            exact ⟨(x.1, r) :: rs, .cons ⟨rfl, hr⟩ hrs⟩
        obtain ⟨rs, hrs⟩ := this _ h3
        refine ⟨rs, writeCoils_ok.mpr ⟨?_, by simp, ?_, rs, by simp, hrs⟩⟩
        · intro x hx
          obtain ⟨y, hy, rfl⟩ := List.mem_map.mp hx
          exact h1 y hy
        · simpa [List.map_map, Function.comp_def] using h2
    rw [← key]
    cases writeCoils toInt (eq.tokamak.coils.map fun x => (x.1, evaluated x.2)) [] with
    | error e => simp
    | ok out => simp

example : (∃ r, write exToInt (Machine.createGreens exGreens 1 1 ⟨exMach.coils⟩) (exEq .fixed) = .ok r) ∧
    (∀ x ∈ exMach.coils, plainLabel x.1 = true) ∧ (exMach.coils.map Prod.fst).Nodup := by
  refine ⟨?_, by decide +kernel, by decide +kernel⟩
  have : (write exToInt (Machine.createGreens exGreens 1 1 ⟨exMach.coils⟩) (exEq .fixed)).toOption.isSome = true := by decide +kernel
  cases h : write exToInt (Machine.createGreens exGreens 1 1 ⟨exMach.coils⟩) (exEq .fixed) with
  | error e => rw [h] at this; cases this
  | ok r => exact ⟨r, rfl⟩

/-- **C48 (round trip).** Writing an equilibrium and reading the file gives a machine with the same labels, now in alphabetical order,
and under each label the same entry: position, outline, turns, current, control flag, circuit members with their labels and
multipliers. The areas of point coils are not restored but become the default ones; this and the conditions in `Restorable` are what
is missing from the full claim (see `C48_area_lost`, `C48_moved_back`, `C48_turns_truncated`, `C48_circuit_unreadable`). -/
theorem C48_roundtrip_partial {toInt : K → ℤ} (hx : Exact toInt) (sqrt : K → K) (e : Ext (Mach S K) P Q K)
    {greens : String → Option (Entry.Greens K)} {eq eq' s : Eqm (Mach S K) P Q K} {f : File K}
    (hw : write toInt greens eq = .ok (f, eq')) (hr : ∀ x ∈ eq.tokamak.coils, Restorable x.2)
    (hs : read toInt sqrt e f = .ok (some s)) :
    List.Perm s.tokamak.coils (eq.tokamak.coils.map fun x => (x.1, defaultAreas (evaluated x.2))) ∧
    (s.tokamak.coils.map Prod.fst).Pairwise (· ≤ ·) ∧
    (∀ l x, (⟨eq.tokamak.coils⟩ : Machine K).getItem l = .ok x →
      (⟨s.tokamak.coils⟩ : Machine K).getItem l = .ok (defaultAreas (evaluated x))) ∧
    (∀ l err, (⟨eq.tokamak.coils⟩ : Machine K).getItem l = .error err → (⟨s.tokamak.coils⟩ : Machine K).getItem l = .error .key) := by
  obtain ⟨-, -, -, -, -, -, -, -, hc⟩ := write_ok hw
  obtain ⟨-, -, hn, rs, hrs, hf⟩ := writeCoils_ok.mp hc
  rw [List.nil_append] at hrs
  rw [← hrs] at hf
  obtain ⟨ys, hy, hp, hsorted⟩ := readCoils_written hx hf hr
  have hcoils : s.tokamak.coils = ys := by
    unfold read at hs
    simp only [hy] at hs
    cases hm : Mach.make (S := S) sqrt ys f.wall with
    | error err => simp [hm] at hs
    | ok tok =>
      simp only [hm] at hs
      cases hb : boundaryOf f.boundary with
      | error err => simp [hb] at hs
      | ok b =>
        simp only [hb] at hs
        cases hk : make e tok f.dom f.nx f.ny (boundary := b) (psi := some f.plasmaPsi) (current := f.current) with
        | error err => simp [hk] at hs
        | ok t =>
          simp only [hk, Except.ok.injEq, Option.some.injEq] at hs
          rw [← hs, make_ok hk]
          unfold Mach.make at hm
          cases hwl : Walled.make sqrt f.wall 500 with
          | error err => simp [hwl] at hm
          | ok w => simp only [hwl, Except.ok.injEq] at hm; rw [← hm]
  rw [hcoils]
  have hn' : (eq.tokamak.coils.map Prod.fst).Nodup := by simpa [List.map_map, Function.comp_def] using hn
  have hny : (ys.map Prod.fst).Nodup := by
    have := (hp.map Prod.fst).nodup_iff.mpr (by simpa [List.map_map, Function.comp_def] using hn')
    exact this
  refine ⟨hp, hsorted, ?_, ?_⟩
  · intro l x h
    rw [getItem_iff hn'] at h
    rw [getItem_iff hny, hp.mem_iff]
    exact List.mem_map.mpr ⟨(l, x), h, rfl⟩
  · intro l err h
    have hl : l ∉ eq.tokamak.coils.map Prod.fst := by
      intro hl
      obtain ⟨⟨l', x⟩, hx', rfl⟩ := List.mem_map.mp hl
      rw [(getItem_iff hn').mpr hx'] at h
      cases h
    cases hg : (⟨ys⟩ : Machine K).getItem l with
    | ok y =>
      rw [getItem_iff hny, hp.mem_iff] at hg
      obtain ⟨z, hz, hzl⟩ := List.mem_map.mp hg
      exact absurd (List.mem_map.mpr ⟨z, hz, (Prod.mk.inj hzl).1⟩) hl
    | error err' =>
      simp only [Machine.getItem] at hg
      cases hf' : ys.find? fun x => x.1 == l with
      | none => simp only [hf', Except.error.injEq] at hg; rw [← hg]
      | some y => simp [hf'] at hg

theorem exToInt_exact : Exact exToInt := by intro n; simp [exToInt]

/-- The example meets the conditions. -/
theorem exMach_restorable : ∀ x ∈ exMach.coils, Restorable x.2 := by
  intro x hx
  simp only [exMach, List.mem_cons, List.not_mem_nil, or_false] at hx
  rcases hx with rfl | rfl | rfl
  · exact ⟨4, by norm_num [exPoint]⟩
  · trivial
  · refine ⟨?_, _, rfl, by norm_num⟩
    intro x hx
    simp only [exCircuit, Circuit.make, Circuit.setCurrent, Circuit.setControl, List.map_cons, List.map_nil, List.mem_cons,
      List.not_mem_nil, or_false] at hx
    rcases hx with rfl | rfl <;> exact ⟨⟨2, by norm_num [AnyCoil.setCurrent, AnyCoil.setControl, AnyCoil.turns]⟩, rfl⟩

example : (exTrip (exEq .fixed)).toOption.map (fun s => s.map fun s => s.tokamak.coils.map fun x => (x.1, x.2.current, x.2.control)) =
    some (some [("C", 5, false), ("P2", 30, true), ("Z", 6, true)]) := by decide +kernel

/-- **C48 (nothing else can go wrong).** Reading the file of such a machine fails only if the machine's wall, the boundary function or
the constructor of `Equilibrium` does; the coils are always read. -/
theorem C48_readable {toInt : K → ℤ} (hx : Exact toInt) (sqrt : K → K) (e : Ext (Mach S K) P Q K)
    {greens : String → Option (Entry.Greens K)} {eq eq' : Eqm (Mach S K) P Q K} {f : File K}
    (hw : write toInt greens eq = .ok (f, eq')) (hr : ∀ x ∈ eq.tokamak.coils, Restorable x.2)
    (hwall : ∃ w, Walled.make sqrt eq.tokamak.walled.wall 500 = .ok w) (hb : ∀ name, eq.boundary ≠ .user name)
    (hmake : ∀ tok, ∃ s, make e tok eq.dom eq.nx eq.ny (boundary := eq.boundary) (psi := some eq.plasmaPsi) (current := eq.current) = .ok s) :
    ∃ s, read toInt sqrt e f = .ok (some s) := by
  obtain ⟨-, h1, h2, h3, h4, h5, h6, h7, hc⟩ := write_ok hw
  obtain ⟨-, -, -, rs, hrs, hf⟩ := writeCoils_ok.mp hc
  rw [List.nil_append] at hrs
  rw [← hrs] at hf
  obtain ⟨ys, hy, -, -⟩ := readCoils_written hx hf hr
  obtain ⟨w, hwl⟩ := hwall
  obtain ⟨s, hs⟩ := hmake ⟨ys, w, none, 1⟩
  refine ⟨s, ?_⟩
  unfold read
  simp only [hy, Mach.make, h7, hwl, h6, boundaryOf_library hb, h1, h2, h3, h4, h5, hs]

example : (∃ w, Walled.make id (exEq .fixed).tokamak.walled.wall 500 = .ok w) ∧ (∀ name, (exEq .fixed).boundary ≠ .user name) ∧
    (∀ tok, ∃ s, make exExt tok (exEq .fixed).dom 5 7 (boundary := (exEq .fixed).boundary) (psi := some (exEq .fixed).plasmaPsi) (current := 5) =
      .ok s) := by
  refine ⟨⟨_, rfl⟩, by intro n; simp [exEq], fun tok => ⟨_, rfl⟩⟩

/-- **C48 (fields).** The restored machine has at every point the same flux and fields as the saved one, whatever the Green's functions
are. -/
theorem C48_fields {toInt : K → ℤ} (hx : Exact toInt) (sqrt : K → K) (e : Ext (Mach S K) P Q K)
    {greens : String → Option (Entry.Greens K)} {eq eq' s : Eqm (Mach S K) P Q K} {f : File K}
    (hw : write toInt greens eq = .ok (f, eq')) (hr : ∀ x ∈ eq.tokamak.coils, Restorable x.2)
    (hs : read toInt sqrt e f = .ok (some s)) (env : Env K) (q : Quantity) (R Z : K) :
    (Machine.field env q R Z ⟨s.tokamak.coils⟩).1 = (Machine.field env q R Z ⟨eq.tokamak.coils⟩).1 := by
  obtain ⟨hp, -⟩ := C48_roundtrip_partial hx sqrt e hw hr hs
  rw [Machine.field_fst, Machine.field_fst, (hp.map fun x => x.2.current * x.2.response env q R Z).sum_eq, List.map_map]
  congr 1
  refine List.map_congr_left fun x _ => ?_
  simp

example : (exTrip (exEq .fixed)).toOption.map (fun s => s.map fun s => (Machine.field exGreens .psi 2 3 ⟨s.tokamak.coils⟩).1) =
    some (some (Machine.field exGreens .psi 2 3 ⟨exMach.coils⟩).1) ∧ (Machine.field exGreens .psi 2 3 ⟨exMach.coils⟩).1 ≠ 0 := by
  decide +kernel

/-- **C48 fails (areas).** Whatever area a point coil has, after writing and reading its area is that of the default current density
at its present current. -/
theorem C48_area_lost {toInt : K → ℤ} (hx : Exact toInt) (c : PointCoil K) (hc : Whole c.turns) :
    ∃ r x, toRecord toInt (.coil (.point c)) = .ok r ∧ fromRecord toInt r = .ok (some (.coil x)) ∧
      x.area = |c.current * c.turns| / 3500000000 := by
  have h := fromRecord_toRecord hx (x := .coil (.point c)) hc (r := .coil (rowOf toInt c)) rfl
  exact ⟨_, _, rfl, h, rfl⟩

example : (exTrip (exEq .fixed)).toOption.map (fun s => s.map fun s => s.tokamak.coils.filterMap fun x =>
      match x.2 with | .coil c => some c.area | _ => none) = some (some [120 / 3500000000]) ∧
    (AnyCoil.point exPoint).area = 7 := by decide +kernel

/-- **C48 fails (moved shaped coils).** A shaped coil that has been moved comes back at its old place: what is stored is the outline,
which moving does not change. -/
theorem C48_moved_back {toInt : K → ℤ} (hx : Exact toInt) (c : ShapedCoil K) (hu : Unmoved c) (hc : Whole c.turns)
    (hl : c.shape.length ≤ 10) (r z : K) :
    ∃ rec, toRecord toInt (.coil (.shaped ((c.setR r).setZ z))) = .ok rec ∧ fromRecord toInt rec = .ok (some (.coil (.shaped c))) ∧
      ((c.setR r).setZ z).rCentre = r ∧ ((c.setR r).setZ z).zCentre = z := by
  obtain ⟨rec, hrec⟩ := toRecord_ok (toInt := toInt).mpr (show Supported (.coil (.shaped c)) from hl)
  exact ⟨rec, hrec, fromRecord_toRecord hx (x := .coil (.shaped c)) ⟨hc, hu⟩ hrec, rfl, rfl⟩

/-- The triangle coil. -/
def exShaped : ShapedCoil ℚ :=
  { rCentre := 4 / 3, zCentre := 1 / 3, current := 9, turns := 3, control := true, area := 1 / 2, shape := exTriangle, npoints := 1
    points := [(4 / 3, 1 / 3, 1)] }

example : (ShapedCoil.make exTriangle 9 3 true 1).toOption.map (fun c => c.map fun c =>
      (c.rCentre, c.zCentre, c.current, c.turns, c.area)) =
    some (some (exShaped.rCentre, exShaped.zCentre, exShaped.current, exShaped.turns, exShaped.area)) ∧
    (ShapedCoil.make exTriangle 9 3 true 1).toOption.map (fun c => c.map fun c => c.points) = some (some exShaped.points) := by
  decide +kernel

example : (exTrip (exWith [("S", .coil (.shaped ((exShaped.setR 5).setZ 2)))])).toOption.map (fun s => s.map fun s =>
      s.tokamak.coils.filterMap fun x => match x.2 with | .coil (.shaped c) => some (c.rCentre, c.zCentre) | _ => none) =
    some (some [(4 / 3, 1 / 3)]) := by decide +kernel

/-- **C48 fails (turns).** The number of turns is stored as an integer: a point coil comes back with `toInt turns` turns. -/
theorem C48_turns_truncated (toInt : K → ℤ) (c : PointCoil K) :
    ∃ r x, toRecord toInt (.coil (.point c)) = .ok r ∧ fromRecord toInt r = .ok (some (.coil (.point x))) ∧ x.turns = toInt c.turns ∧
      x.R = c.R ∧ x.Z = c.Z ∧ x.current = c.current ∧ x.control = c.control := ⟨_, _, rfl, rfl, rfl, rfl, rfl, rfl, rfl⟩

example : (exTrip (exWith [("S", .coil (.point { exPoint with turns := 5 / 2 }))])).toOption.map (fun s => s.map fun s =>
      s.tokamak.coils.map fun x => (x.2.response exGreens .psi 0 0)) = some (some [8]) ∧
    (Entry.coil (.point { exPoint with turns := 5 / 2 })).response exGreens .psi 0 0 = 10 := by decide +kernel

theorem readCoils_mem {toInt : K → ℤ} {rs : List (String × Record K)} {xs : List (String × Entry K)}
    (h : readCoils toInt rs = .ok (some xs)) : ∀ r ∈ rs, ∃ x, fromRecord toInt r.2 = .ok (some x) := by
  induction rs generalizing xs with
  | nil => intro r hr; cases hr
  | cons s rs ih =>
    obtain ⟨l, s⟩ := s
    unfold readCoils at h
    cases hf : fromRecord toInt s with
    | error e => simp [hf] at h
    | ok o =>
      cases o with
      | none => simp [hf] at h
      | some x =>
        simp only [hf] at h
        cases hrest : readCoils toInt rs with
        | error e => simp [hrest] at h
        | ok o =>
          cases o with
          | none => simp [hrest] at h
          | some ys =>
            intro r hr
            rcases List.mem_cons.mp hr with rfl | hr
            · exact ⟨x, hf⟩
            · exact ih hrest r hr

/-- **C48 fails (circuits).** The file of a machine with a circuit that has no coils, or whose first multiplier is zero, is written
without complaint and cannot be read. -/
theorem C48_circuit_unreadable (toInt : K → ℤ) (sqrt : K → K) (e : Ext (Mach S K) P Q K)
    {greens : String → Option (Entry.Greens K)} {eq eq' : Eqm (Mach S K) P Q K} {f : File K}
    (hw : write toInt greens eq = .ok (f, eq')) {l : String} {c : Circuit K} (hl : (l, Entry.circuit c) ∈ eq.tokamak.coils)
    (hc : c.coils = [] ∨ ∃ x, c.coils.head? = some x ∧ x.2.2 = 0) : ¬ ∃ s, read toInt sqrt e f = .ok (some s) := by
  rintro ⟨s, hs⟩
  obtain ⟨-, -, -, -, -, -, -, -, hco⟩ := write_ok hw
  obtain ⟨-, -, -, rs, hrs, hf⟩ := writeCoils_ok.mp hco
  rw [List.nil_append] at hrs
  rw [← hrs] at hf
  have hmem : ∃ r ∈ f.coils, toRecord toInt (evaluated (.circuit c)) = .ok r.2 := by
    obtain ⟨hlen, hget⟩ := List.forall₂_iff_get.mp hf
    obtain ⟨i, hi, hix⟩ := List.getElem_of_mem (List.mem_map.mpr ⟨_, hl, rfl⟩ :
      (l, evaluated (.circuit c)) ∈ eq.tokamak.coils.map fun x => (x.1, evaluated x.2))
    have hi' : i < f.coils.length := by rw [← hlen]; exact hi
    have := hget i hi hi'
    simp only [List.get_eq_getElem, hix] at this
    exact ⟨_, List.getElem_mem hi', this.2⟩
  obtain ⟨r, hr, htr⟩ := hmem
  have hread : ∃ xs, readCoils toInt (byLabel f.coils) = .ok (some xs) := by
    unfold read at hs
    cases hy : readCoils toInt (byLabel f.coils) with
    | error err => simp [hy] at hs
    | ok o =>
      cases o with
      | none => simp [hy] at hs
      | some xs => exact ⟨xs, rfl⟩
  obtain ⟨xs, hxs⟩ := hread
  obtain ⟨y, hy⟩ := readCoils_mem hxs r ((List.perm_insertionSort _ _).mem_iff.mpr hr)
  simp only [evaluated, toRecord] at htr
  cases hro : rowsOf toInt (c.setCurrent c.current).coils with
  | error err => simp [hro] at htr
  | ok rows =>
    simp only [hro, Except.ok.injEq] at htr
    rw [← htr] at hy
    rcases hc with hc | ⟨x, hx1, hx2⟩
    · have : rows = [] := by
        simp only [Circuit.setCurrent, hc, List.map_nil, rowsOf, Except.ok.injEq] at hro
        exact hro.symm
      rw [this] at hy
      simp [fromRecord] at hy
    · obtain ⟨a, b, m⟩ := x
      cases hcs : c.coils with
      | nil => simp [hcs] at hx1
      | cons z zs =>
        rw [hcs, List.head?_cons, Option.some.injEq] at hx1
        subst hx1
        have hcoils : (c.setCurrent c.current).coils = (a, b.setCurrent (m * c.current), m) ::
            zs.map fun x => (x.1, x.2.1.setCurrent (x.2.2 * c.current), x.2.2) := by simp [Circuit.setCurrent, hcs]
        rw [hcoils] at hro
        obtain ⟨p, t, -, ht⟩ := rowsOf_head hro
        have hm : m = 0 := hx2
        rw [ht] at hy
        simp [fromRecord, hm] at hy

example : (exTrip (exWith [("E", .circuit (Circuit.make [] 4))])).map (fun _ => ()) = .error .index ∧
    (exTrip (exWith [("E", .circuit (Circuit.make [("A", .point exPoint, 0), ("B", .point exPoint, 1)] 4))])).map (fun _ => ()) =
      .error .nonfinite := by decide +kernel

/-! ### C81 -/

/-- **C81 (settings).** Writing an equilibrium and reading it back keeps the domain, the number of points, the plasma flux, the plasma
current, the boundary function (if it is one of the library) and the wall. The order of the solver, the limiter check, the profiles,
the control system, the sensors and the reference radius are lost: they take their default values; the limiter points are made anew,
always 500 of them. -/
theorem C81_settings_partial (toInt : K → ℤ) (sqrt : K → K) (e : Ext (Mach S K) P Q K)
    {greens : String → Option (Entry.Greens K)} {eq eq' s : Eqm (Mach S K) P Q K} {f : File K}
    (hw : write toInt greens eq = .ok (f, eq')) (hs : read toInt sqrt e f = .ok (some s)) :
    s.dom = eq.dom ∧ s.nx = eq.nx ∧ s.ny = eq.ny ∧ s.plasmaPsi = eq.plasmaPsi ∧ s.current = eq.current ∧
    ((∀ name, eq.boundary ≠ .user name) → s.boundary = eq.boundary) ∧
    s.tokamak.walled.wall = eq.tokamak.walled.wall ∧ Walled.make sqrt eq.tokamak.walled.wall 500 = .ok s.tokamak.walled ∧
    s.order = 4 ∧ s.checkLimited = false ∧ s.profiles = none ∧ s.control = none ∧ s.tokamak.sensors = none ∧ s.tokamak.R0 = 1 := by
  obtain ⟨-, h1, h2, h3, h4, h5, h6, h7, -⟩ := write_ok hw
  unfold read at hs
  cases hy : readCoils toInt (byLabel f.coils) with
  | error err => simp [hy] at hs
  | ok o =>
    cases o with
    | none => simp [hy] at hs
    | some ys =>
      simp only [hy] at hs
      cases hm : Mach.make (S := S) sqrt ys f.wall with
      | error err => simp [hm] at hs
      | ok tok =>
        simp only [hm] at hs
        cases hb : boundaryOf f.boundary with
        | error err => simp [hb] at hs
        | ok b =>
          simp only [hb] at hs
          cases hk : make e tok f.dom f.nx f.ny (boundary := b) (psi := some f.plasmaPsi) (current := f.current) with
          | error err => simp [hk] at hs
          | ok t =>
            simp only [hk, Except.ok.injEq, Option.some.injEq] at hs
            unfold Mach.make at hm
            cases hwl : Walled.make sqrt f.wall 500 with
            | error err => simp [hwl] at hm
            | ok w =>
              simp only [hwl, Except.ok.injEq] at hm
              have hww : w.wall = f.wall := by
                unfold Walled.make at hwl
                cases hfw : f.wall with
                | none => simp only [hfw, Except.ok.injEq] at hwl; rw [← hwl]
                | some p =>
                  simp only [hfw] at hwl
                  cases hlp : Limits.limitPoints sqrt p 500 with
                  | error err => simp [hlp] at hwl
                  | ok pts => simp only [hlp, Except.ok.injEq] at hwl; rw [← hwl]
              rw [← hs, make_ok hk, ← hm]
              refine ⟨h1, h2, h3, h5, h4, ?_, hww.trans h7, by rw [← h7]; exact hwl, rfl, rfl, rfl, rfl, rfl, rfl⟩
              intro hu
              rw [h6, boundaryOf_library hu, Except.ok.injEq] at hb
              exact hb.symm

example : (exTrip (exEq .fixed)).toOption.map (fun s => s.map fun s =>
      (s.nx, s.ny, s.current, s.plasmaPsi (2, 3))) = some (some (5, 7, 5, 23)) ∧
    (exTrip (exEq .fixed)).toOption.map (fun s => s.map fun s => (s.boundary, s.order, s.checkLimited, s.tokamak.R0)) =
      some (some (Boundary.fixed, 4, false, 1)) ∧
    ((exEq .fixed).order, (exEq .fixed).checkLimited, (exEq .fixed).tokamak.R0) = (2, true, 3) := by decide +kernel

/-- **C81 fails (own boundary functions).** An equilibrium whose boundary function is not one of the library (by name) is written without
complaint and never read back. -/
theorem C81_user_boundary (toInt : K → ℤ) (sqrt : K → K) (e : Ext (Mach S K) P Q K)
    {greens : String → Option (Entry.Greens K)} {eq eq' : Eqm (Mach S K) P Q K} {f : File K} {name : String}
    (hw : write toInt greens eq = .ok (f, eq')) (hb : eq.boundary = .user name)
    (hname : name ≠ "freeBoundary" ∧ name ≠ "fixedBoundary" ∧ name ≠ "freeBoundaryHagenow") :
    ¬ ∃ s, read toInt sqrt e f = .ok (some s) := by
  rintro ⟨s, hs⟩
  obtain ⟨-, -, -, -, -, -, h6, -, -⟩ := write_ok hw
  unfold read at hs
  cases hy : readCoils toInt (byLabel f.coils) with
  | error err => simp [hy] at hs
  | ok o =>
    cases o with
    | none => simp [hy] at hs
    | some ys =>
      simp only [hy] at hs
      cases hm : Mach.make (S := S) sqrt ys f.wall with
      | error err => simp [hm] at hs
      | ok tok =>
        simp only [hm, h6, hb, boundaryName, boundaryOf, if_neg hname.1, if_neg hname.2.1, if_neg hname.2.2, reduceCtorEq] at hs

example : (exTrip (exEq (.user "myBoundary"))).map (fun _ => ()) = .error .key := by decide +kernel

/-- **C81 (writing leaves the equilibrium alone).** Writing changes nothing of the equilibrium except that the coils of a circuit then
carry multiplier times circuit current, as after any evaluation of the flux. No field of the machine changes. -/
theorem C81_write_harmless {toInt : K → ℤ} {greens : String → Option (Entry.Greens K)} {eq eq' : Eqm (Mach S K) P Q K} {f : File K}
    (hw : write toInt greens eq = .ok (f, eq')) :
    eq' = { eq with tokamak := { eq.tokamak with coils := eq.tokamak.coils.map fun x => (x.1, evaluated x.2) } } ∧
    (Machine.Synced ⟨eq.tokamak.coils⟩ → eq' = eq) ∧
    ∀ (env : Env K) (q : Quantity) (R Z : K),
      (Machine.field env q R Z ⟨eq'.tokamak.coils⟩).1 = (Machine.field env q R Z ⟨eq.tokamak.coils⟩).1 := by
  obtain ⟨h, -⟩ := write_ok hw
  refine ⟨h, ?_, ?_⟩
  · intro hs
    have := Machine.sync_of_synced hs
    have hc : eq.tokamak.coils.map (fun x => (x.1, evaluated x.2)) = eq.tokamak.coils := by
      have h2 := congrArg Machine.coils this
      simpa [Machine.sync, sync_eq_evaluated] using h2
    rw [h, hc]
  · intro env q R Z
    rw [h, Machine.field_fst, Machine.field_fst, List.map_map]
    congr 1
    refine List.map_congr_left fun x _ => ?_
    simp

example : (write exToInt (Machine.createGreens exGreens 1 1 ⟨exMach.coils⟩) (exEq .fixed)).toOption.map
      (fun r => (Machine.field exGreens .br 2 3 ⟨r.2.tokamak.coils⟩).1) = some (Machine.field exGreens .br 2 3 ⟨exMach.coils⟩).1 := by
  decide +kernel

end FreeGS.Dump
