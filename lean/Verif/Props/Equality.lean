import Verif.Lemmas.Equality
import Verif.Props.Dump

set_option linter.unusedSectionVars false

/-!
# C95: comparison of machines
-/

namespace FreeGS.Equality

open FreeGS.Dump FreeGS.Resolution

universe u
variable {S P Q K : Type u} [Field K] [LinearOrder K]

theorem same_iff {a b : Mach S K} (hsa : ∀ x ∈ a.coils, Simple x.2) (hsb : ∀ x ∈ b.coils, Simple x.2) :
    (∃ as bs, List.Perm as a.coils ∧ List.Perm bs b.coils ∧
      List.Forall₂ (fun a b => a.1 = b.1 ∧ entryEq a.2 b.2 = .ok true) as bs) ↔ SameCoils a b := by
  refine ⟨?_, fun h => ?_⟩
  · rintro ⟨as, bs, h1, h2, hf⟩
    have : as.map (fun x => (x.1, defaultAreas x.2)) = bs.map (fun x => (x.1, defaultAreas x.2)) := by
      have hs1 : ∀ x ∈ as, Simple x.2 := fun x hx => hsa x (h1.mem_iff.mp hx)
      have hs2 : ∀ x ∈ bs, Simple x.2 := fun x hx => hsb x (h2.mem_iff.mp hx)
      clear h1 h2
      induction hf with
      | nil => rfl
      | cons h _ ih =>
        rw [List.map_cons, List.map_cons, ih (fun x hx => hs1 x (List.mem_cons_of_mem _ hx)) (fun x hx => hs2 x (List.mem_cons_of_mem _ hx)),
          h.1, (entryEq_simple (hs1 _ List.mem_cons_self) (hs2 _ List.mem_cons_self)).mp h.2]
    exact (h1.symm.map _).trans (this ▸ h2.map _)
  · obtain ⟨w, h1, h2⟩ := List.perm_comp_forall₂ (r := fun y (x : String × Entry K) => y = (x.1, defaultAreas x.2)) h
      (List.forall₂_map_left_iff.mpr (List.forall₂_same.mpr fun _ _ => rfl))
    rw [List.forall₂_map_left_iff] at h1
    refine ⟨a.coils, w, List.Perm.refl _, h2, ?_⟩
    have hw : ∀ x ∈ w, Simple x.2 := fun x hx => hsb x (h2.mem_iff.mp hx)
    clear h h2
    generalize a.coils = xs at hsa h1 ⊢
    clear hsb
    induction h1 with
    | nil => exact .nil
    | cons h _ ih =>
      obtain ⟨e1, e2⟩ := Prod.mk.injEq .. ▸ h
      exact .cons ⟨e1, (entryEq_simple (hsa _ List.mem_cons_self) (hw _ List.mem_cons_self)).mpr e2⟩
        (ih (fun x hx => hw x (List.mem_cons_of_mem _ hx)) fun x hx => hsa x (List.mem_cons_of_mem _ hx))

/-! ## What holds -/

/-- **C95 (reflexivity).** A machine with distinct labels is equal to itself, whatever kinds of coils it has. -/
theorem C95_reflexive [IsStrictOrderedRing K] (a : Mach S K) (ha : Distinct a) : machineEq a a = .ok true :=
  (machineEq_true ha ha).mpr ⟨⟨_, _, List.Perm.refl _, List.Perm.refl _, List.forall₂_same.mpr fun _ _ => ⟨rfl, entryEq_refl _⟩⟩,
    wallEq_refl _⟩

/-- **C95 (order).** The order of the coils does not matter. -/
theorem C95_order [IsStrictOrderedRing K] (a b : Mach S K) (ha : Distinct a) (h : List.Perm a.coils b.coils)
    (hw : a.walled.wall = b.walled.wall) : machineEq a b = .ok true := by
  have hb : Distinct b := (h.map Prod.fst).nodup_iff.mp ha
  refine (machineEq_true ha hb).mpr ⟨⟨b.coils, b.coils, h.symm, List.Perm.refl _,
    List.forall₂_same.mpr fun _ _ => ⟨rfl, entryEq_refl _⟩⟩, hw ▸ wallEq_refl _⟩

/-- **C95 (meaning).** For machines of point coils, circuits of point coils and solenoids, with distinct labels: `==` is true exactly if
the coils are the same up to order and areas, and the walls have the same number of points, close to each other. Missing: the other
classes of coils, for which it is false (`C95_filament_fails`, `C95_shaped_fails`, `C95_multi_fails`, `C95_precalc_fails`). -/
theorem C95_meaning_partial (a b : Mach S K) (ha : Distinct a) (hb : Distinct b) (hsa : ∀ x ∈ a.coils, Simple x.2)
    (hsb : ∀ x ∈ b.coils, Simple x.2) (hwa : ∀ w, a.walled.wall = some w → 2 ≤ w.length)
    (hwb : ∀ w, b.walled.wall = some w → 2 ≤ w.length) :
    machineEq a b = .ok true ↔ SameCoils a b ∧ NearWalls a.walled.wall b.walled.wall := by
  rw [machineEq_true ha hb, wallEq_iff hwa hwb, same_iff hsa hsb]

/-- **C95 (equivalence).** On these machines, with one and the same wall, `==` is symmetric and transitive. -/
theorem C95_equivalence_partial [IsStrictOrderedRing K] (a b c : Mach S K) (ha : Distinct a) (hb : Distinct b) (hc : Distinct c)
    (hsa : ∀ x ∈ a.coils, Simple x.2) (hsb : ∀ x ∈ b.coils, Simple x.2) (hsc : ∀ x ∈ c.coils, Simple x.2)
    (hab : a.walled.wall = b.walled.wall) (hbc : b.walled.wall = c.walled.wall) (h : machineEq a b = .ok true) :
    machineEq b a = .ok true ∧ (machineEq b c = .ok true → machineEq a c = .ok true) := by
  rw [machineEq_true ha hb, same_iff hsa hsb] at h
  rw [machineEq_true hb ha, same_iff hsb hsa, machineEq_true hb hc, same_iff hsb hsc, machineEq_true ha hc, same_iff hsa hsc]
  exact ⟨⟨h.1.symm, hab ▸ wallEq_refl _⟩, fun h' => ⟨h.1.trans h'.1, (hab.trans hbc) ▸ wallEq_refl _⟩⟩

/-- **C95 (fields).** Two such machines that are equal give the same fields at all points, and the same coils have the same current and
control flag. -/
theorem C95_fields_partial (a b : Mach S K) (ha : Distinct a) (hb : Distinct b) (hsa : ∀ x ∈ a.coils, Simple x.2)
    (hsb : ∀ x ∈ b.coils, Simple x.2) (h : machineEq a b = .ok true) (e : Env K) (q : Quantity) (R Z : K) :
    (Machine.field e q R Z ⟨a.coils⟩).1 = (Machine.field e q R Z ⟨b.coils⟩).1 ∧
    ∀ l x, (l, x) ∈ a.coils → ∃ y, (l, y) ∈ b.coils ∧ y.current = x.current ∧ y.control = x.control ∧
      ∀ q R Z, y.response e q R Z = x.response e q R Z := by
  rw [machineEq_true ha hb, same_iff hsa hsb] at h
  have hp := h.1
  constructor
  · have h1 := (hp.map fun x => x.2.current * x.2.response e q R Z).sum_eq
    rw [List.map_map, List.map_map] at h1
    rw [Machine.field_fst, Machine.field_fst]
    simpa [Function.comp_def] using h1
  · intro l x hx
    obtain ⟨y, hy, he⟩ := List.mem_map.mp (hp.mem_iff.mp (List.mem_map_of_mem (f := fun x => (x.1, defaultAreas x.2)) hx))
    obtain ⟨l', y⟩ := y
    simp only [Prod.mk.injEq] at he
    obtain ⟨rfl, he⟩ := he
    refine ⟨y, hy, ?_, ?_, fun q R Z => ?_⟩
    · simpa using congrArg Entry.current he
    · have hc : ∀ z : Entry K, (defaultAreas z).control = z.control := by
        rintro (⟨_ | _ | _ | _ | _⟩ | _ | _) <;> rfl
      rw [← hc y, he, hc]
    · simpa using congrArg (Entry.response e q R Z) he

/-- **C95 (saving).** A machine that is written to a file and read back is equal to the one that was written. -/
theorem C95_saved [IsStrictOrderedRing K] {toInt : K → ℤ} (hx : Exact toInt) (sqrt : K → K) (e : Ext (Mach S K) P Q K)
    {greens : String → Option (Entry.Greens K)} {eq eq' s : Eqm (Mach S K) P Q K} {f : File K}
    (hw : write toInt greens eq = .ok (f, eq')) (hr : ∀ x ∈ eq.tokamak.coils, Restorable x.2)
    (hs : read toInt sqrt e f = .ok (some s)) : machineEq s.tokamak eq'.tokamak = .ok true := by
  obtain ⟨hp, -⟩ := C48_roundtrip_partial hx sqrt e hw hr hs
  obtain ⟨he, -, -, -, -, -, -, hwall, hc⟩ := write_ok hw
  obtain ⟨-, -, hn, -⟩ := writeCoils_ok.mp hc
  have hd : Distinct eq'.tokamak := by
    rw [he]
    exact hn
  have hp' : List.Perm s.tokamak.coils (eq'.tokamak.coils.map fun x => (x.1, defaultAreas x.2)) := by
    rw [he]
    simpa [List.map_map, Function.comp_def] using hp
  have hds : Distinct s.tokamak := by
    rw [Distinct, (hp'.map Prod.fst).nodup_iff, List.map_map]
    exact hd
  refine (machineEq_true hds hd).mpr ⟨⟨_, _, hp'.symm, List.Perm.refl _,
    List.forall₂_map_left_iff.mpr (List.forall₂_same.mpr fun x _ => ⟨rfl, entryEq_area x.2⟩)⟩, ?_⟩
  have hw' : s.tokamak.walled.wall = eq'.tokamak.walled.wall := by
    rw [he]
    exact (C81_settings_partial toInt sqrt e hw hs).2.2.2.2.2.2.1
  exact hw' ▸ wallEq_refl _

/-! ## What fails -/

/-- The machine with these coils and no wall. -/
def bare (coils : List (String × Entry K)) : Mach S K := ⟨coils, ⟨none, none⟩, none, 1⟩

/-- **C95 fails (ignored parts).** Sensors, limiter points and reference radius are not compared. -/
theorem C95_ignored [IsStrictOrderedRing K] (a : Mach S K) (ha : Distinct a) (sensors : Option S) (points : Option (List (K × K))) (R0 : K) :
    machineEq a { a with sensors, R0, walled := { a.walled with points } } = .ok true := C95_reflexive a ha

/-- **C95 (shaped coils).** Two shaped coils are equal exactly if their outlines have the same number of points, close to each other, and
they have the same current, turns, control flag and number of points per triangle. Positions are not compared, see `C95_shaped_fails`. -/
theorem C95_shaped_meaning_partial (l : String) (a b : ShapedCoil K) :
    machineEq (bare (S := S) [(l, .coil (.shaped a))]) (bare [(l, .coil (.shaped b))]) = .ok true ↔
      (a.shape.length = b.shape.length ∧ ∀ p ∈ a.shape.zip b.shape, |p.1.1 - p.2.1| ≤ 1 / 100000000 + 1 / 100000 * |p.2.1| ∧
        |p.1.2 - p.2.2| ≤ 1 / 100000000 + 1 / 100000 * |p.2.2|) ∧
      a.current = b.current ∧ a.turns = b.turns ∧ a.control = b.control ∧ a.npoints = b.npoints := by
  have h1 : allcloseShape a.shape b.shape = .ok true ↔ (a.shape.length = b.shape.length ∧ ∀ p ∈ a.shape.zip b.shape,
      |p.1.1 - p.2.1| ≤ 1 / 100000000 + 1 / 100000 * |p.2.1| ∧ |p.1.2 - p.2.2| ≤ 1 / 100000000 + 1 / 100000 * |p.2.2|) := by
    unfold allcloseShape
    split_ifs with hl
    · simp only [hl, true_and, Except.ok.injEq, List.all_eq_true, Bool.and_eq_true, isclose, decide_eq_true_eq]
    · simp [hl]
  rw [← h1]
  simp only [machineEq, bare, sortItems, insertItem, itemsEq, both_true, entryEq, coilEq, shapedEq, wallEq, Except.ok.injEq, Bool.and_eq_true,
    decide_eq_true_eq, beq_iff_eq, List.length_cons, List.length_nil, if_true, true_and, and_true]
  tauto

/-- **C95 fails (point coil and shaped coil).** Comparing a point coil or a multi-coil with a shaped coil of the same label, in either order
for the point coil, raises `AttributeError`. -/
theorem C95_point_shaped_fails (l : String) (a : PointCoil K) (m : MultiCoil K) (b : ShapedCoil K) :
    machineEq (bare (S := S) [(l, .coil (.point a))]) (bare [(l, .coil (.shaped b))]) = .error .attribute ∧
    machineEq (bare (S := S) [(l, .coil (.shaped b))]) (bare [(l, .coil (.point a))]) = .error .attribute ∧
    machineEq (bare (S := S) [(l, .coil (.shaped b))]) (bare [(l, .coil (.multi m))]) = .error .attribute := by
  refine ⟨?_, ?_, ?_⟩ <;> simp [machineEq, bare, sortItems, insertItem, itemsEq, both, entryEq, coilEq, shapedEq]

/-- **C95 fails (filament coils).** Two filament coils are equal whenever their outlines have the same centre and they have the same
current, turns and control flag, wherever the filaments are. There are such coils with different fluxes. -/
theorem C95_filament_fails : (∀ a b : FilamentCoil K, a.rCentre = b.rCentre → a.zCentre = b.zCentre → a.current = b.current →
      a.turns = b.turns → a.control = b.control → machineEq (bare (S := S) [("F", .coil (.filament a))]) (bare [("F", .coil (.filament b))]) = .ok true) ∧
    ∃ a b : FilamentCoil ℚ, FilamentCoil.make [1, 3] [0, 0] none 1 = .ok a ∧ FilamentCoil.make [1, 2, 3] [0, 0, 0] none 1 = .ok b ∧
      machineEq (bare (S := ℚ) [("F", .coil (.filament a))]) (bare [("F", .coil (.filament b))]) = .ok true ∧
      ∃ e : Env ℚ, (Machine.field e .psi 1 1 ⟨[("F", .coil (.filament a))]⟩).1 ≠ (Machine.field e .psi 1 1 ⟨[("F", .coil (.filament b))]⟩).1 := by
  have h1 : ∀ {K : Type u} [Field K] [LinearOrder K] (a b : FilamentCoil K), a.rCentre = b.rCentre → a.zCentre = b.zCentre → a.current = b.current →
      a.turns = b.turns → a.control = b.control → machineEq (bare (S := S) [("F", .coil (.filament a))]) (bare [("F", .coil (.filament b))]) = .ok true := by
    intro K _ _ a b h1 h2 h3 h4 h5
    have : plainEq (.filament a) (.filament b) = true := plainEq_iff.mpr ⟨h1, h2, h3, h4, h5⟩
    simp [machineEq, bare, sortItems, insertItem, itemsEq, both_true, entryEq, coilEq, this, wallEq]
  refine ⟨h1, _, _, rfl, rfl, by decide +kernel, ⟨fun _ a _ _ _ => a ^ 2, 3, 1, id, id⟩, by decide +kernel⟩

/-- **C95 fails (moved shaped coils).** A shaped coil is equal to itself moved to any other place. -/
theorem C95_shaped_fails [IsStrictOrderedRing K] (c : ShapedCoil K) (r z : K) :
    machineEq (bare (S := S) [("S", .coil (.shaped c))]) (bare [("S", .coil (.shaped ((c.setR r).setZ z)))]) = .ok true ∧
      (AnyCoil.shaped ((c.setR r).setZ z)).R = r ∧ (AnyCoil.shaped ((c.setR r).setZ z)).Z = z := by
  refine ⟨?_, rfl, rfl⟩
  simp [machineEq, bare, sortItems, insertItem, itemsEq, both_true, entryEq, coilEq, shapedEq, ShapedCoil.setR, ShapedCoil.setZ,
    allcloseShape_refl, wallEq]

/-- **C95 fails (multi-coils).** Filaments with the same mean, mirror flag and polarity are not compared. -/
theorem C95_multi_fails (a : MultiCoil K) (Rfil Zfil : List K) (mirror : Bool) (polarity : K × K) :
    machineEq (bare (S := S) [("M", .coil (.multi a))]) (bare [("M", .coil (.multi { a with Rfil, Zfil, mirror, polarity }))]) = .ok true := by
  have : plainEq (.multi a) (.multi { a with Rfil, Zfil, mirror, polarity }) = true := plainEq_iff.mpr ⟨rfl, rfl, rfl, rfl, rfl⟩
  simp [machineEq, bare, sortItems, insertItem, itemsEq, both_true, entryEq, coilEq, this, wallEq]

/-- **C95 fails (pre-calculated coils).** The tables of fields are not compared. -/
theorem C95_precalc_fails (a : PreCalcCoil K) (map : Quantity → K → K → K) :
    machineEq (bare (S := S) [("M", .coil (.precalc a))]) (bare [("M", .coil (.precalc { a with map }))]) = .ok true := by
  have : plainEq (.precalc a) (.precalc { a with map }) = true := plainEq_iff.mpr ⟨rfl, rfl, rfl, rfl, rfl⟩
  simp [machineEq, bare, sortItems, insertItem, itemsEq, both_true, entryEq, coilEq, this, wallEq]

/-- **C95 fails (areas).** The areas of point coils are not compared, although they change the forces. -/
theorem C95_area_fails : ∃ a b : List (String × Entry ℚ), machineEq (bare (S := ℚ) a) (bare b) = .ok true ∧
    ∃ e : Env ℚ, (Machine.getForces e (fun _ _ _ => 0) ⟨a⟩).1 ≠ (Machine.getForces e (fun _ _ _ => 0) ⟨b⟩).1 :=
  ⟨[("P", .coil (.point ⟨1, 0, 2, 1, true, .fixed 1⟩))], [("P", .coil (.point ⟨1, 0, 2, 1, true, .fixed 2⟩))], by decide +kernel,
    ⟨fun _ a _ _ _ => a ^ 2, 3, 1, id, id⟩, by decide +kernel⟩

/-- **C95 fails (repeated labels).** If a label occurs twice with different coils, every comparison raises `TypeError`, even that of a
machine with itself. -/
theorem C95_repeated_fails (a b : Mach S K) (h : ¬ Distinct a)
    (hne : a.coils.Pairwise fun x y => x.1 = y.1 → entryEq y.2 x.2 = .ok false) : machineEq a b = .error .type := by
  rw [machineEq, sortItems_error h hne]

/-- **C95 fails (walls).** Comparing machines with the same coils raises `AttributeError` if one has a wall and the other has none, and
`ValueError` if their walls have different numbers of points, at least two each. -/
theorem C95_wall_fails [IsStrictOrderedRing K] (a b : Mach S K) (ha : Distinct a) (h : List.Perm a.coils b.coils) :
    ((a.walled.wall = none ↔ b.walled.wall ≠ none) → machineEq a b = .error .attribute) ∧
    (∀ v w, a.walled.wall = some v → b.walled.wall = some w → v.length ≠ w.length → 2 ≤ v.length → 2 ≤ w.length →
      machineEq a b = .error .value) := by
  have hb : Distinct b := (h.map Prod.fst).nodup_iff.mp ha
  have key : machineEq a b = wallEq a.walled.wall b.walled.wall := by
    have h1 : machineEq (⟨a.coils, ⟨none, none⟩, none, 1⟩ : Mach S K) ⟨b.coils, ⟨none, none⟩, none, 1⟩ = .ok true :=
      C95_order _ _ ha h rfl
    unfold machineEq at h1 ⊢
    obtain ⟨as, has, -⟩ := sortItems_ok ha
    obtain ⟨bs, hbs, -⟩ := sortItems_ok hb
    simp only [has, hbs, both_true] at h1 ⊢
    rw [h1.1]
    rfl
  refine ⟨fun hw => ?_, fun v w hv hw hne h1 h2 => ?_⟩
  · rw [key]
    cases hv : a.walled.wall with
    | none =>
      rw [hv] at hw
      cases hw' : b.walled.wall with
      | none => exact absurd hw' (hw.mp rfl)
      | some w => rfl
    | some v =>
      rw [hv] at hw
      cases hw' : b.walled.wall with
      | none => rfl
      | some w => rw [hw'] at hw; simp at hw
  · rw [key, hv, hw, wallEq]
    match v, w, h1, h2 with
    | p :: p' :: v, q :: q' :: w, _, _ =>
      have : allclose ((p :: p' :: v).map Prod.fst) ((q :: q' :: w).map Prod.fst) = .error .value := by
        simp only [List.map_cons]
        rw [allclose]
        · rw [if_neg (by simpa using hne)]
        · intro z hz; cases hz
        · intro z hz; cases hz
      rw [this]
      rfl

/-- **C95 fails (kinds).** If one label is a coil in one machine and a circuit or solenoid in the other, the comparison raises
`AttributeError`. -/
theorem C95_kind_fails (l : String) (c : AnyCoil K) (x : Entry K) (hx : ∀ d, x ≠ .coil d) :
    machineEq (bare (S := S) [(l, .coil c)]) (bare [(l, x)]) = .error .attribute ∧
    machineEq (bare (S := S) [(l, x)]) (bare [(l, .coil c)]) = .error .attribute := by
  cases x with
  | coil d => exact absurd rfl (hx d)
  | circuit d => simp [machineEq, bare, sortItems, insertItem, itemsEq, both, entryEq]
  | solenoid d => simp [machineEq, bare, sortItems, insertItem, itemsEq, both, entryEq]

/-- **C95 fails (symmetry and transitivity).** The tolerance for walls is relative to the second wall: there are walls with `a == b` and not
`b == a`, and walls with `a == b` and `b == c` and not `a == c`. A filament coil can be equal to a shaped coil while the shaped coil is
different from the filament coil, or the comparison raises `AttributeError`. -/
theorem C95_equivalence_fails :
    (∃ v w : List (ℚ × ℚ), machineEq (S := ℚ) ⟨[], ⟨some v, none⟩, none, 1⟩ ⟨[], ⟨some w, none⟩, none, 1⟩ = .ok true ∧
      machineEq (S := ℚ) ⟨[], ⟨some w, none⟩, none, 1⟩ ⟨[], ⟨some v, none⟩, none, 1⟩ = .ok false) ∧
    (∃ u v w : List (ℚ × ℚ), machineEq (S := ℚ) ⟨[], ⟨some u, none⟩, none, 1⟩ ⟨[], ⟨some v, none⟩, none, 1⟩ = .ok true ∧
      machineEq (S := ℚ) ⟨[], ⟨some v, none⟩, none, 1⟩ ⟨[], ⟨some w, none⟩, none, 1⟩ = .ok true ∧
      machineEq (S := ℚ) ⟨[], ⟨some u, none⟩, none, 1⟩ ⟨[], ⟨some w, none⟩, none, 1⟩ = .ok false) ∧
    ∃ (f g : FilamentCoil ℚ) (c : ShapedCoil ℚ), FilamentCoil.make [1, 1] [0, 0] (some [(0, 0), (3, 0), (0, 3)]) 1 = .ok f ∧
      FilamentCoil.make [1, 1] [0, 0] (some [(0, 3), (3, 0), (0, 0)]) 1 = .ok g ∧ ShapedCoil.make [(0, 0), (3, 0), (0, 3)] 1 = .ok (some c) ∧
      coilEq (.filament f) (.shaped c) = .ok true ∧ coilEq (.shaped c) (.filament f) = .error .attribute ∧
      coilEq (.filament g) (.shaped c) = .ok true ∧ coilEq (.shaped c) (.filament g) = .ok false := by
  refine ⟨⟨[(1, 0), (2, 0)], [(1 + 1 / 100000 + 1 / 100000000 + 1 / 20000000000, 0), (2, 0)], by decide +kernel, by decide +kernel⟩,
    ⟨[(1, 0), (2, 0)], [(1 + 1 / 100000, 0), (2, 0)], [(1 + 2 / 100000, 0), (2, 0)], by decide +kernel, by decide +kernel,
      by decide +kernel⟩, ?_⟩
  have h : (match ShapedCoil.make ([(0, 0), (3, 0), (0, 3)] : List (ℚ × ℚ)) 1,
      FilamentCoil.make [1, 1] [0, 0] (some ([(0, 0), (3, 0), (0, 3)] : List (ℚ × ℚ))) 1,
      FilamentCoil.make [1, 1] [0, 0] (some ([(0, 3), (3, 0), (0, 0)] : List (ℚ × ℚ))) 1 with
    | .ok (some c), .ok f, .ok g => decide (coilEq (.filament f) (.shaped c) = .ok true ∧ coilEq (.shaped c) (.filament f) = .error .attribute ∧
      coilEq (.filament g) (.shaped c) = .ok true ∧ coilEq (.shaped c) (.filament g) = .ok false)
    | _, _, _ => false) = true := by decide +kernel
  split at h
  · rename_i c f g hc hf hg
    exact ⟨f, g, c, hf, hg, hc, of_decide_eq_true h⟩
  · cases h

/-! ## The hypotheses of these theorems are met -/

section Examples

/-- The coils of `exMach` in another order and with other areas. -/
def exOther : Mach ℚ ℚ :=
  ⟨[("C", .circuit exCircuit), ("P2", .coil (.point { exPoint with area := .fixed 1 })), ("Z", .solenoid exSolenoid)], ⟨none, none⟩, none, 1⟩

theorem exCircuit_simple : Simple (.circuit exCircuit) := by
  intro x hx
  simp only [exCircuit, Circuit.make, Circuit.setCurrent, Circuit.setControl, List.map_cons, List.map_nil, List.mem_cons,
    List.not_mem_nil, or_false] at hx
  rcases hx with rfl | rfl
  · exact ⟨_, rfl⟩
  · exact ⟨_, rfl⟩

theorem exMach_simple : ∀ x ∈ exMach.coils, Simple x.2 := by
  intro x hx
  simp only [exMach, List.mem_cons, List.not_mem_nil, or_false] at hx
  rcases hx with rfl | rfl | rfl
  · trivial
  · trivial
  · exact exCircuit_simple

theorem exOther_simple : ∀ x ∈ exOther.coils, Simple x.2 := by
  intro x hx
  simp only [exOther, List.mem_cons, List.not_mem_nil, or_false] at hx
  rcases hx with rfl | rfl | rfl
  · exact exCircuit_simple
  · trivial
  · trivial

theorem ex_distinct : Distinct exMach ∧ Distinct exOther := by
  unfold Distinct
  decide +kernel

example : machineEq exMach exOther = .ok true ∧ machineEq exMach { exOther with coils := exOther.coils.tail } = .ok false := by
  decide +kernel

example : SameCoils exMach exOther :=
  ((C95_meaning_partial exMach exOther ex_distinct.1 ex_distinct.2 exMach_simple exOther_simple (by simp [exMach])
    (by simp [exOther])).mp (by decide +kernel)).1

example : machineEq exOther exMach = .ok true :=
  (C95_equivalence_partial exMach exOther exOther ex_distinct.1 ex_distinct.2 ex_distinct.2 exMach_simple exOther_simple exOther_simple
    rfl rfl (by decide +kernel)).1

example (e : Env ℚ) (R Z : ℚ) : (Machine.field e .psi R Z ⟨exMach.coils⟩).1 = (Machine.field e .psi R Z ⟨exOther.coils⟩).1 :=
  (C95_fields_partial exMach exOther ex_distinct.1 ex_distinct.2 exMach_simple exOther_simple (by decide +kernel) e .psi R Z).1

/-- Writing and reading gives an equal machine. -/
example : (match exTrip (exEq .fixed) with
    | .ok (some s) => decide (machineEq s.tokamak exMach = .ok true)
    | _ => false) = true := by decide +kernel

/-- Two different coils with one label. -/
example : machineEq (bare (S := ℚ) [("A", .coil (.point exPoint)), ("A", .coil (.point { exPoint with R := 1 }))])
    (bare [("A", .coil (.point exPoint)), ("A", .coil (.point { exPoint with R := 1 }))]) = .error .type :=
  C95_repeated_fails _ _ (by unfold Distinct; decide +kernel) (by simp only [bare]; decide +kernel)

end Examples

end FreeGS.Equality
