import Verif.Props.Coils

/-!
# C112: a filament coil given without an outline
-/

set_option linter.unusedSectionVars false

namespace FreeGS

variable {K : Type*} [Field K] [LinearOrder K] [IsStrictOrderedRing K]

theorem min_list : ∀ {l : List K}, l ≠ [] → ∃ a, l.min? = some a ∧ IsLeast {x | x ∈ l} a := fun {l} h => by
  obtain ⟨a, ha⟩ := Option.isSome_iff_exists.mp (List.isSome_min?_of_ne_nil h)
  have := List.min?_eq_some_iff.mp ha
  exact ⟨a, ha, this.1, fun b hb => this.2 b hb⟩

theorem max_list : ∀ {l : List K}, l ≠ [] → ∃ a, l.max? = some a ∧ IsGreatest {x | x ∈ l} a := fun {l} h => by
  obtain ⟨a, ha⟩ := Option.isSome_iff_exists.mp (List.isSome_max?_of_ne_nil h)
  have := List.max?_eq_some_iff.mp ha
  exact ⟨a, ha, this.1, fun b hb => this.2 b hb⟩

/-- **C112 (box).** A filament coil given without an outline is drawn as the smallest box around its filaments, gone round once, and its area is that of
this box. Without filaments the constructor raises `ValueError`. What is missing: the coil's position should be the middle of the box, see
`C112_middle_fails`. -/
theorem C112_box_partial (Rfil Zfil : List K) (current turns : K) (control : Bool) :
    (Rfil ≠ [] → Zfil ≠ [] → ∃ a b z w c, IsLeast {x | x ∈ Rfil} a ∧ IsGreatest {x | x ∈ Rfil} b ∧ IsLeast {y | y ∈ Zfil} z ∧ IsGreatest {y | y ∈ Zfil} w ∧
      FilamentCoil.make Rfil Zfil none current turns control = .ok c ∧
      c.shape = [(a, z), (a, w), (b, w), (b, z), (a, z)] ∧ c.area = (b - a) * (w - z) ∧
      c.current = current ∧ c.turns = turns ∧ c.control = control) ∧
    (Rfil = [] ∨ Zfil = [] → FilamentCoil.make Rfil Zfil none current turns control = .error .value) := by
  constructor
  · intro hR hZ
    obtain ⟨a, ha, la⟩ := min_list hR
    obtain ⟨b, hb, lb⟩ := max_list hR
    obtain ⟨z, hz, lz⟩ := min_list hZ
    obtain ⟨w, hw, lw⟩ := max_list hZ
    obtain ⟨c, hc⟩ : ∃ c, FilamentCoil.make Rfil Zfil none current turns control = .ok c := by
      simp only [FilamentCoil.make, FilamentCoil.boxShape, ha, hb, hz, hw]
      exact ⟨_, if_pos (by simp)⟩
    refine ⟨a, b, z, w, c, la, lb, lz, lw, hc, ?_⟩
    simp only [FilamentCoil.make, FilamentCoil.boxShape, ha, hb, hz, hw] at hc
    rw [if_pos (by simp)] at hc
    obtain rfl := Except.ok.inj hc
    have h1 : a ≤ b := la.2 lb.1
    have h2 : z ≤ w := lz.2 lw.1
    refine ⟨rfl, ?_, rfl, rfl, rfl⟩
    have : Polygons.area [(a, z), (a, w), (b, w), (b, z), (a, z)] = (b - a) * (w - z) := by
      simp [Polygons.area, Polygons.edges, List.range_succ]
      ring
    simp only [this]
    exact abs_of_nonneg (mul_nonneg (by linarith) (by linarith))
  · rintro (rfl | rfl)
    · simp [FilamentCoil.make, FilamentCoil.boxShape]
    · cases h1 : Rfil.min? <;> cases h2 : Rfil.max? <;> simp [FilamentCoil.make, FilamentCoil.boxShape, h1, h2]

/-- **C112 (middle).** The position of such a coil is not the middle of the box: the first corner, which closes the outline, is counted twice, so
the position is three fifths towards the lower left corner. It is the middle only if the box has no width (height). Assigning a position
then puts the middle of the box beside it. -/
theorem C112_middle_fails (Rfil Zfil : List K) (current turns : K) (control : Bool) (c : FilamentCoil K)
    (hc : FilamentCoil.make Rfil Zfil none current turns control = .ok c) :
    ∃ a b z w, IsLeast {x | x ∈ Rfil} a ∧ IsGreatest {x | x ∈ Rfil} b ∧ IsLeast {y | y ∈ Zfil} z ∧ IsGreatest {y | y ∈ Zfil} w ∧
      c.rCentre = (3 * a + 2 * b) / 5 ∧ c.zCentre = (3 * z + 2 * w) / 5 ∧
      (c.rCentre = (a + b) / 2 ↔ a = b) ∧ (c.zCentre = (z + w) / 2 ↔ z = w) ∧
      ∀ v, (a + ((c.setR v).rCentre - c.rCentre) + (b + ((c.setR v).rCentre - c.rCentre))) / 2 = v + (b - a) / 10 := by
  have hR : Rfil ≠ [] := by
    rintro rfl
    simp [FilamentCoil.make, FilamentCoil.boxShape] at hc
  have hZ : Zfil ≠ [] := by
    rintro rfl
    have := (C112_box_partial Rfil ([] : List K) current turns control).2 (Or.inr rfl)
    rw [this] at hc
    simp at hc
  obtain ⟨a, ha, la⟩ := min_list hR
  obtain ⟨b, hb, lb⟩ := max_list hR
  obtain ⟨z, hz, lz⟩ := min_list hZ
  obtain ⟨w, hw, lw⟩ := max_list hZ
  have e : c.rCentre = (3 * a + 2 * b) / 5 ∧ c.zCentre = (3 * z + 2 * w) / 5 := by
    simp only [FilamentCoil.make, FilamentCoil.boxShape, ha, hb, hz, hw] at hc
    rw [if_pos (by simp)] at hc
    obtain rfl := Except.ok.inj hc
    constructor <;> simp <;> ring
  have mid : ∀ x y : K, (3 * x + 2 * y) / 5 = (x + y) / 2 ↔ x = y := fun x y => by
    constructor
    · intro h
      field_simp at h
      linarith
    · rintro rfl
      ring
  refine ⟨a, b, z, w, la, lb, lz, lw, e.1, e.2, ?_, ?_, fun v => ?_⟩
  · rw [e.1]; exact mid a b
  · rw [e.2]; exact mid z w
  · simp only [FilamentCoil.setR]
    rw [e.1]
    ring

/-- **C112 (outline).** Moving a filament coil leaves its outline where it was. -/
theorem C112_outline_fails (c : FilamentCoil K) (v w : K) : ((c.setR v).setZ w).shape = c.shape ∧ ((c.setR v).setZ w).area = c.area ∧
    (((c.setR v).setZ w).points = c.points.map fun p => (p.1 + (v - c.rCentre), p.2 + (w - c.zCentre))) := by
  refine ⟨rfl, rfl, ?_⟩
  simp [FilamentCoil.setR, FilamentCoil.setZ, Function.comp_def]

/-- **C112 (unpaired).** If there are fewer heights than radii, the radii left over are dropped without an error, and so is their share of the current:
the response is that of the coil of the pairs, reduced by the ratio of the numbers. -/
theorem C112_unpaired_fails (e : Env K) (Rfil Zfil : List K) (shape : List (Polygons.Pt K)) (current turns : K) (control : Bool)
    (h : Zfil.length < Rfil.length) (hZ : Zfil ≠ []) (hs : 2 < shape.length) : ∃ c c',
    FilamentCoil.make Rfil Zfil (some shape) current turns control = .ok c ∧
    FilamentCoil.make (Rfil.take Zfil.length) Zfil (some shape) current turns control = .ok c' ∧
    ∀ q R Z, c.response e q R Z = (Zfil.length / Rfil.length : K) * c'.response e q R Z := by
  obtain ⟨c, hc⟩ : ∃ c, FilamentCoil.make Rfil Zfil (some shape) current turns control = .ok c := ⟨_, if_pos hs⟩
  obtain ⟨c', hc'⟩ : ∃ c, FilamentCoil.make (Rfil.take Zfil.length) Zfil (some shape) current turns control = .ok c := ⟨_, if_pos hs⟩
  refine ⟨c, c', hc, hc', fun q R Z => ?_⟩
  simp only [FilamentCoil.make, if_pos hs] at hc hc'
  obtain rfl := Except.ok.inj hc
  obtain rfl := Except.ok.inj hc'
  · have hz : (Rfil.take Zfil.length).zip Zfil = Rfil.zip Zfil := by
      rw [List.zip_eq_zip_take_min (l₁ := Rfil) (l₂ := Zfil)]
      rw [min_eq_right h.le, List.take_length]
    have h0 : (Zfil.length : K) ≠ 0 := by
      simpa using hZ
    have h1 : (Rfil.length : K) ≠ 0 := by
      have : 0 < Rfil.length := by omega
      exact_mod_cast this.ne'
    simp only [FilamentCoil.response, hz, List.length_take, min_eq_left h.le]
    field_simp

/-! Two filaments, at (1, 0) and (2, 1): the box is the unit square, but the position is (7/5, 2/5); with the middle of the box assigned as the
position nothing would be in its place. Of three radii and one height one filament remains, with a third of the current. -/
example : ∃ c, FilamentCoil.make [(1 : ℚ), 2] [0, 1] = .ok c ∧ c.shape = [(1, 0), (1, 1), (2, 1), (2, 0), (1, 0)] ∧ c.area = 1 ∧
    c.rCentre = 7 / 5 ∧ c.zCentre = 2 / 5 ∧ (c.setR (3 / 2)).points = [(11 / 10, 0), (21 / 10, 1)] := ⟨_, rfl, by decide +kernel⟩

example : ∃ c, FilamentCoil.make [(1 : ℚ), 2, 3] [0] (some [(0, 0), (0, 1), (1, 1)]) = .ok c ∧
    ∀ (e : Env ℚ) q R Z, c.response e q R Z = e.G q 1 0 R Z / 3 := ⟨_, rfl, fun e q R Z => by simp [FilamentCoil.response]⟩

end FreeGS
