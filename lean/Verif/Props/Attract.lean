import Verif.Lemmas.Attract
import Verif.Props.Machine
import Verif.Props.GreensPhysics
import Mathlib.Analysis.Real.Pi.Bounds
import Mathlib.Analysis.Complex.ExponentialBounds

/-!
# C123, C124: currents in the same direction attract, and the self-force of a coil points outward

The elliptic integrals are the exact ones. `Greens` clips, and the field is the difference of the flux over two millimetres: both are part
of what is proved here.
-/

set_option linter.unusedSectionVars false

namespace FreeGS

open Real

/-- The environment of the code with exact elliptic integrals. -/
noncomputable abbrev exactEnv : Env ℝ := realEnv ellipticK ellipticE

/-- **C123 (flux).** The flux of a filament at a fixed radius falls with the distance in height from the filament, strictly where
nothing is clipped. -/
theorem C123_flux_falls (Rc Zc R Z Z' : ℝ) (hR : 0 < R) (hRc : 0 < Rc) :
    (|Z - Zc| ≤ |Z' - Zc| → greens ellipticK ellipticE Rc Zc R Z' ≤ greens ellipticK ellipticE Rc Zc R Z) ∧
      (|Z - Zc| < |Z' - Zc| → Unclipped Rc Zc R Z → Unclipped Rc Zc R Z' →
        greens ellipticK ellipticE Rc Zc R Z' < greens ellipticK ellipticE Rc Zc R Z) :=
  ⟨greens_falls hR hRc, fun h h1 h2 =>
    greens_falls_strictly hR hRc h (lt_of_le_of_lt h2.1 (modulus_lt hR hRc h)) (lt_of_lt_of_le (modulus_lt hR hRc h) h1.2)⟩

/-- **C123 (direction of the field).** Above a filament its radial field points outward, below it inward; strictly where nothing is
clipped at the two points of the difference. -/
theorem C123_field_direction (Rc Zc R Z eps : ℝ) (hR : 0 < R) (hRc : 0 < Rc) (he : 0 < eps) :
    (Zc ≤ Z → 0 ≤ greensBr ellipticK ellipticE Rc Zc R Z eps) ∧ (Z ≤ Zc → greensBr ellipticK ellipticE Rc Zc R Z eps ≤ 0) ∧
      (Unclipped Rc Zc R (Z - eps) → Unclipped Rc Zc R (Z + eps) →
        (Zc < Z → 0 < greensBr ellipticK ellipticE Rc Zc R Z eps) ∧ (Z < Zc → greensBr ellipticK ellipticE Rc Zc R Z eps < 0)) := by
  have hd : 0 < 2 * eps * R := by positivity
  have up : Zc ≤ Z → |Z - eps - Zc| ≤ |Z + eps - Zc| := fun h => by rw [← sq_le_sq]; nlinarith
  have down : Z ≤ Zc → |Z + eps - Zc| ≤ |Z - eps - Zc| := fun h => by rw [← sq_le_sq]; nlinarith
  have up' : Zc < Z → |Z - eps - Zc| < |Z + eps - Zc| := fun h => by rw [← sq_lt_sq]; nlinarith
  have down' : Z < Zc → |Z + eps - Zc| < |Z - eps - Zc| := fun h => by rw [← sq_lt_sq]; nlinarith
  refine ⟨fun h => ?_, fun h => ?_, fun h1 h2 => ⟨fun h => ?_, fun h => ?_⟩⟩
  · exact div_nonneg (sub_nonneg.mpr ((C123_flux_falls Rc Zc R _ _ hR hRc).1 (up h))) hd.le
  · exact div_nonpos_of_nonpos_of_nonneg (sub_nonpos.mpr ((C123_flux_falls Rc Zc R _ _ hR hRc).1 (down h))) hd.le
  · exact div_pos (sub_pos.mpr ((C123_flux_falls Rc Zc R _ _ hR hRc).2 (up' h) h1 h2)) hd
  · exact div_neg_of_neg_of_pos (sub_neg.mpr ((C123_flux_falls Rc Zc R _ _ hR hRc).2 (down' h) h2 h1)) hd

/-- A filament one metre below and one metre further in: nothing is clipped. -/
example : Unclipped 1 0 2 (1 - 1e-3) ∧ Unclipped 1 0 2 (1 + 1e-3) ∧ (0 : ℝ) < 1 := by
  refine ⟨⟨?_, ?_⟩, ⟨?_, ?_⟩, by norm_num⟩ <;> norm_num

/-- The radial field of a machine whose currents are all positive and lie at or below the point. -/
theorem below_field {m : Machine ℝ} (hm : m.Computed) {R Z : ℝ} (hR : 0 < R) (hb : ∀ f ∈ m.filaments, 0 < f.1 ∧ f.2.1 ≤ Z ∧ 0 ≤ f.2.2) :
    0 ≤ (m.field exactEnv .br R Z).1 ∧
      ((∃ f ∈ m.filaments, f.2.1 < Z ∧ 0 < f.2.2 ∧ Unclipped f.1 f.2.1 R (Z - 1e-3) ∧ Unclipped f.1 f.2.1 R (Z + 1e-3)) →
        0 < (m.field exactEnv .br R Z).1) := by
  rw [field_filaments exactEnv .br R Z m hm]
  generalize m.filaments = l at hb
  induction l with
  | nil => exact ⟨by simp [filamentSum], by simp⟩
  | cons f l ih =>
    obtain ⟨i1, i2⟩ := ih fun g hg => hb g (List.mem_cons_of_mem _ hg)
    obtain ⟨a1, a2, a3⟩ := hb f List.mem_cons_self
    obtain ⟨d1, -, d3⟩ := C123_field_direction f.1 f.2.1 R Z 1e-3 hR a1 (by norm_num)
    have e : filamentSum exactEnv .br R Z (f :: l) = greensBr ellipticK ellipticE f.1 f.2.1 R Z * f.2.2 + filamentSum exactEnv .br R Z l := by
      simp [filamentSum, realEnv]
    rw [e]
    have p := mul_nonneg (d1 a2) a3
    refine ⟨add_nonneg p i1, ?_⟩
    rintro ⟨g, hg, b1, b2, b3, b4⟩
    rcases List.mem_cons.mp hg with rfl | hg
    · exact add_pos_of_pos_of_nonneg (mul_pos ((d3 b3 b4).1 b1) b2) i1
    · exact add_pos_of_nonneg_of_pos p (i2 ⟨g, hg, b1, b2, b3, b4⟩)

/-- The radial field of a machine whose currents are all positive and lie at or above the point. -/
theorem above_field {m : Machine ℝ} (hm : m.Computed) {R Z : ℝ} (hR : 0 < R) (hb : ∀ f ∈ m.filaments, 0 < f.1 ∧ Z ≤ f.2.1 ∧ 0 ≤ f.2.2) :
    (m.field exactEnv .br R Z).1 ≤ 0 ∧
      ((∃ f ∈ m.filaments, Z < f.2.1 ∧ 0 < f.2.2 ∧ Unclipped f.1 f.2.1 R (Z - 1e-3) ∧ Unclipped f.1 f.2.1 R (Z + 1e-3)) →
        (m.field exactEnv .br R Z).1 < 0) := by
  rw [field_filaments exactEnv .br R Z m hm]
  generalize m.filaments = l at hb
  induction l with
  | nil => exact ⟨by simp [filamentSum], by simp⟩
  | cons f l ih =>
    obtain ⟨i1, i2⟩ := ih fun g hg => hb g (List.mem_cons_of_mem _ hg)
    obtain ⟨a1, a2, a3⟩ := hb f List.mem_cons_self
    obtain ⟨-, d1, d3⟩ := C123_field_direction f.1 f.2.1 R Z 1e-3 hR a1 (by norm_num)
    have e : filamentSum exactEnv .br R Z (f :: l) = greensBr ellipticK ellipticE f.1 f.2.1 R Z * f.2.2 + filamentSum exactEnv .br R Z l := by
      simp [filamentSum, realEnv]
    rw [e]
    have p := mul_nonpos_of_nonpos_of_nonneg (d1 a2) a3
    refine ⟨add_nonpos p i1, ?_⟩
    rintro ⟨g, hg, b1, b2, b3, b4⟩
    rcases List.mem_cons.mp hg with rfl | hg
    · exact add_neg_of_neg_of_nonpos (mul_neg_of_neg_of_pos ((d3 b3 b4).2 b1) b2) i1
    · exact add_neg_of_nonpos_of_neg p (i2 ⟨g, hg, b1, b2, b3, b4⟩)

/-- **C123 (flux of a machine).** Where all currents of a machine are positive and lie at or below a height, its flux falls with height from
there on. -/
theorem C123_machine_flux (m : Machine ℝ) (hm : m.Computed) (R Z Z' : ℝ) (hR : 0 < R)
    (hb : ∀ f ∈ m.filaments, 0 < f.1 ∧ f.2.1 ≤ Z ∧ 0 ≤ f.2.2) (hZ : Z ≤ Z') :
    0 ≤ (m.field exactEnv .psi R Z').1 ∧ (m.field exactEnv .psi R Z').1 ≤ (m.field exactEnv .psi R Z).1 := by
  rw [field_filaments exactEnv .psi R Z m hm, field_filaments exactEnv .psi R Z' m hm]
  generalize m.filaments = l at hb
  induction l with
  | nil => simp [filamentSum]
  | cons f l ih =>
    obtain ⟨i1, i2⟩ := ih fun g hg => hb g (List.mem_cons_of_mem _ hg)
    obtain ⟨a1, a2, a3⟩ := hb f List.mem_cons_self
    have e : ∀ z, filamentSum exactEnv .psi R z (f :: l) = greens ellipticK ellipticE f.1 f.2.1 R z * f.2.2 + filamentSum exactEnv .psi R z l := by
      intro z; simp [filamentSum, realEnv]
    rw [e, e]
    have g0 := (C67_positive_everywhere f.1 f.2.1 R Z' hR a1).le
    have g1 := (C123_flux_falls f.1 f.2.1 R Z Z' hR a1).1 (by rw [abs_of_nonneg, abs_of_nonneg] <;> linarith)
    exact ⟨add_nonneg (mul_nonneg g0 a3) i1, add_le_add (mul_le_mul_of_nonneg_right g1 a3) i2⟩

/-- **C123 (highest coil).** All other currents of the machine are positive and lie at or below the coil; the plasma's radial field at the
coil, if there is a plasma, points outward, as that of a plasma below does. Then the coil is pulled down if its own current is
positive and pushed up if it is negative; strictly if another current lies strictly lower and nothing is clipped. -/
theorem C123_highest (plasma : Quantity → ℝ → ℝ → ℝ) (m : Machine ℝ) (hs : m.Synced) (i : ℕ) (l : String) (c : AnyCoil ℝ)
    (h : m.coils[i]? = some (l, .coil c)) (hm : (m.without i).Computed) (hR : 0 < c.R) (hp : 0 ≤ plasma .br c.R c.Z)
    (hb : ∀ f ∈ (m.without i).filaments, 0 < f.1 ∧ f.2.1 ≤ c.Z ∧ 0 ≤ f.2.2) :
    ∃ F : ℝ × ℝ, m.coilForces exactEnv plasma (.direct i) = some (F, m) ∧
      (0 ≤ c.current * c.turns → F.2 ≤ 0) ∧ (c.current * c.turns ≤ 0 → 0 ≤ F.2) ∧
      ((∃ f ∈ (m.without i).filaments, f.2.1 < c.Z ∧ 0 < f.2.2 ∧ Unclipped f.1 f.2.1 c.R (c.Z - 1e-3) ∧ Unclipped f.1 f.2.1 c.R (c.Z + 1e-3)) →
        (0 < c.current * c.turns → F.2 < 0) ∧ (c.current * c.turns < 0 → 0 < F.2)) := by
  refine ⟨_, C20_direct_coil_partial exactEnv plasma m i l c h hs, ?_⟩
  obtain ⟨b1, b2⟩ := below_field hm hR hb (Z := c.Z)
  have hL : 0 < 2 * exactEnv.pi * c.R := by have : 0 < exactEnv.pi := pi_pos; positivity
  dsimp only
  generalize ((m.without i).field exactEnv .br c.R c.Z).1 = B at b1 b2
  generalize c.current * c.turns = I
  refine ⟨fun hI => ?_, fun hI => ?_, fun hf => ⟨fun hI => ?_, fun hI => ?_⟩⟩
  · have := mul_nonneg hI (add_nonneg hp b1)
    exact mul_nonpos_of_nonpos_of_nonneg (by linarith) hL.le
  · have := mul_nonpos_of_nonpos_of_nonneg hI (add_nonneg hp b1)
    exact mul_nonneg (by linarith) hL.le
  · have := mul_pos hI (add_pos_of_nonneg_of_pos hp (b2 hf))
    exact mul_neg_of_neg_of_pos (by linarith) hL
  · have := mul_neg_of_neg_of_pos hI (add_pos_of_nonneg_of_pos hp (b2 hf))
    exact mul_pos (by linarith) hL

/-- **C123 (lowest coil).** The same for a coil at or below all other currents, with the plasma above it: a positive current is pulled up. -/
theorem C123_lowest (plasma : Quantity → ℝ → ℝ → ℝ) (m : Machine ℝ) (hs : m.Synced) (i : ℕ) (l : String) (c : AnyCoil ℝ)
    (h : m.coils[i]? = some (l, .coil c)) (hm : (m.without i).Computed) (hR : 0 < c.R) (hp : plasma .br c.R c.Z ≤ 0)
    (hb : ∀ f ∈ (m.without i).filaments, 0 < f.1 ∧ c.Z ≤ f.2.1 ∧ 0 ≤ f.2.2) :
    ∃ F : ℝ × ℝ, m.coilForces exactEnv plasma (.direct i) = some (F, m) ∧
      (0 ≤ c.current * c.turns → 0 ≤ F.2) ∧ (c.current * c.turns ≤ 0 → F.2 ≤ 0) ∧
      ((∃ f ∈ (m.without i).filaments, c.Z < f.2.1 ∧ 0 < f.2.2 ∧ Unclipped f.1 f.2.1 c.R (c.Z - 1e-3) ∧ Unclipped f.1 f.2.1 c.R (c.Z + 1e-3)) →
        (0 < c.current * c.turns → 0 < F.2) ∧ (c.current * c.turns < 0 → F.2 < 0)) := by
  refine ⟨_, C20_direct_coil_partial exactEnv plasma m i l c h hs, ?_⟩
  obtain ⟨b1, b2⟩ := above_field hm hR hb (Z := c.Z)
  have hL : 0 < 2 * exactEnv.pi * c.R := by have : 0 < exactEnv.pi := pi_pos; positivity
  dsimp only
  generalize ((m.without i).field exactEnv .br c.R c.Z).1 = B at b1 b2
  generalize c.current * c.turns = I
  refine ⟨fun hI => ?_, fun hI => ?_, fun hf => ⟨fun hI => ?_, fun hI => ?_⟩⟩
  · have := mul_nonpos_of_nonneg_of_nonpos hI (add_nonpos hp b1)
    exact mul_nonneg (by linarith) hL.le
  · have := mul_nonneg_of_nonpos_of_nonpos hI (add_nonpos hp b1)
    exact mul_nonpos_of_nonpos_of_nonneg (by linarith) hL.le
  · have := mul_neg_of_pos_of_neg hI (add_neg_of_nonpos_of_neg hp (b2 hf))
    exact mul_pos (by linarith) hL
  · have := mul_pos_of_neg_of_neg hI (add_neg_of_nonpos_of_neg hp (b2 hf))
    exact mul_neg_of_neg_of_pos (by linarith) hL

/-- A coil above another one. -/
example : ∃ m : Machine ℝ, m.Synced ∧ ∃ (l : String) (c : AnyCoil ℝ), m.coils[1]? = some (l, .coil c) ∧ (m.without 1).Computed ∧ 0 < c.R ∧
    (∀ f ∈ (m.without 1).filaments, 0 < f.1 ∧ f.2.1 ≤ c.Z ∧ 0 ≤ f.2.2) ∧ 0 < c.current * c.turns ∧
    ∃ f ∈ (m.without 1).filaments, f.2.1 < c.Z ∧ 0 < f.2.2 ∧ Unclipped f.1 f.2.1 c.R (c.Z - 1e-3) ∧ Unclipped f.1 f.2.1 c.R (c.Z + 1e-3) := by
  refine ⟨⟨[("P", .coil (.point (PointCoil.make 1 0 3 2))), ("Q", .coil (.point (PointCoil.make 2 1 5 4)))]⟩, ?_, "Q", _, rfl, ?_⟩
  · intro l c hc; simp at hc
  · simp [Machine.without, Machine.Computed, AnyCoil.Computed, Machine.filaments, Entry.filaments, AnyCoil.filaments, scaled, PointCoil.make,
      AnyCoil.R, AnyCoil.Z, AnyCoil.current, AnyCoil.turns, Unclipped]
    norm_num

/-- **C123 (two coils).** Two coils at different heights: they attract each other if their currents have the same direction, repel each
other if not, with equal forces. -/
theorem C123_two_coils (a b : String) (p q : PointCoil ℝ) (hp : 0 < p.R) (hq : 0 < q.R) (hZ : p.Z < q.Z)
    (hu : Unclipped p.R p.Z q.R (q.Z - 1e-3)) (hv : Unclipped p.R p.Z q.R (q.Z + 1e-3)) :
    ∃ f g : ℝ × ℝ, (Machine.getForces exactEnv (fun _ _ _ => 0) ⟨[(a, .coil (.point p)), (b, .coil (.point q))]⟩).1 = [f, g] ∧
      f.2 = -g.2 ∧ (0 < p.current * p.turns * (q.current * q.turns) → g.2 < 0 ∧ 0 < f.2) ∧
      (p.current * p.turns * (q.current * q.turns) < 0 → 0 < g.2 ∧ f.2 < 0) := by
  obtain ⟨f, g, e, hfg⟩ := C21_two_coils ellipticK ellipticE a b p q hp.ne' hq.ne'
  refine ⟨f, g, e, hfg, ?_⟩
  have hs : Machine.Synced (⟨[(a, .coil (.point p)), (b, .coil (.point q))]⟩ : Machine ℝ) := by
    intro l c hc; simp at hc
  have hforce := Machine.forces_sources ellipticK ellipticE (m := ⟨[(a, .coil (.point p)), (b, .coil (.point q))]⟩) (fun x hx => by
    simp only [List.mem_cons, List.not_mem_nil, or_false] at hx
    rcases hx with rfl | rfl
    · exact ⟨p, rfl, hp.ne'⟩
    · exact ⟨q, rfl, hq.ne'⟩) hs
  rw [e] at hforce
  simp only [Machine.sources, Entry.sources, List.map_cons, List.map_nil, List.flatten_cons, List.flatten_nil, List.append_nil,
    List.cons_append, List.nil_append, List.cons.injEq, and_true] at hforce
  have hg : g.2 = -(q.current * q.turns) * (p.current * (greensBr ellipticK ellipticE p.R p.Z q.R q.Z * p.turns)) * (2 * π * q.R) := by
    rw [hforce.2, Machine.field_fst]
    have self := Machine.self_field_zero ellipticK ellipticE q
    simp only [AnyCoil.R, AnyCoil.Z, AnyCoil.current, AnyCoil.turns, List.map_cons, List.map_nil, List.sum_cons, List.sum_nil, Entry.current,
      Entry.response, self, mul_zero, add_zero]
    simp [AnyCoil.response, PointCoil.response, realEnv]
  have hB := ((C123_field_direction p.R p.Z q.R q.Z 1e-3 hq hp (by norm_num)).2.2 hu hv).1 hZ
  have hpi := pi_pos
  set B := greensBr ellipticK ellipticE p.R p.Z q.R q.Z with hBdef
  have e2 : g.2 = -((p.current * p.turns * (q.current * q.turns)) * (B * (2 * π * q.R))) := by rw [hg]; ring
  have hpos : 0 < B * (2 * π * q.R) := by positivity
  refine ⟨fun h => ?_, fun h => ?_⟩
  · have := mul_pos h hpos
    constructor <;> linarith
  · have := mul_neg_of_neg_of_pos h hpos
    constructor <;> linarith

/-- Two coils one metre apart, one ampere in each. -/
example : ∃ p q : PointCoil ℝ, 0 < p.R ∧ 0 < q.R ∧ p.Z < q.Z ∧ Unclipped p.R p.Z q.R (q.Z - 1e-3) ∧ Unclipped p.R p.Z q.R (q.Z + 1e-3) ∧
    0 < p.current * p.turns * (q.current * q.turns) := by
  refine ⟨PointCoil.make 1 0 1, PointCoil.make 2 1 1, ?_⟩
  simp only [PointCoil.make, Unclipped]
  norm_num

/-! ## The self-force -/

/-- **C124 (outward).** A coil of any kind that is alone, carries a current, and whose cross section is not wider than its major radius: the
force reported is finite, points outward, and has no vertical part. -/
theorem C124_outward_partial (l : String) (c : AnyCoil ℝ) (hR : 0 < c.R) (hA : 0 < c.area) (ha : c.area ≤ π * c.R ^ 2)
    (hI : c.current * c.turns ≠ 0) :
    ∃ F : ℝ, 0 < F ∧ (Machine.coilForcesChecked exactEnv (fun _ _ _ => 0) ⟨[(l, .coil c)]⟩ (.direct 0)).map Prod.fst = some (.ok (F, 0)) := by
  have hs : Machine.Synced (⟨[(l, .coil c)]⟩ : Machine ℝ) := by intro l' c' hc; simp at hc
  have hF := C20_direct_coil_partial exactEnv (fun _ _ _ => 0) ⟨[(l, .coil c)]⟩ 0 l c rfl hs
  have hat : Machine.coilAt (⟨[(l, .coil c)]⟩ : Machine ℝ) (.direct 0) = some c := rfl
  have h0 : ∀ q, ((Machine.without (⟨[(l, .coil c)]⟩ : Machine ℝ) 0).field exactEnv q c.R c.Z).1 = 0 := by
    intro q
    rw [Machine.field_fst]
    simp [Machine.without]
  dsimp only at hF
  rw [h0, h0] at hF
  simp only [Machine.coilForcesChecked, hat, hF, Option.map_some, hA, hR, and_self, if_true]
  refine ⟨hoopForce exactEnv c.R c.area (c.current * c.turns) * (2 * exactEnv.pi * c.R), ?_, by simp⟩
  have hpi := pi_pos
  have hmu : 0 < mu0 := by unfold mu0; positivity
  simp only [hoopForce, realEnv]
  have hsq : 0 < (c.current * c.turns) ^ 2 := by positivity
  have hr : 0 < √(c.area / π) := sqrt_pos.mpr (by positivity)
  have hle : √(c.area / π) ≤ c.R := by
    rw [sqrt_le_left hR.le, div_le_iff₀ hpi]; linarith
  have h8 : (8 : ℝ) ≤ 8 * c.R / √(c.area / π) := by
    rw [le_div_iff₀ hr]; linarith
  have hlog : 1 < log (8 * c.R / √(c.area / π)) := by
    rw [lt_log_iff_exp_lt (by positivity)]
    have := Real.exp_one_lt_d9
    linarith
  have : 0 < log (8 * c.R / √(c.area / π)) - 1 + 1 / 4 := by linarith
  positivity

/-- A coil of one square centimetre at one metre. -/
example : ∃ c : AnyCoil ℝ, 0 < c.R ∧ 0 < c.area ∧ c.area ≤ π * c.R ^ 2 ∧ c.current * c.turns ≠ 0 := by
  refine ⟨.point (PointCoil.make 1 0 5 2 true (.fixed (1 / 10000))), ?_⟩
  simp only [AnyCoil.R, AnyCoil.area, AnyCoil.current, AnyCoil.turns, PointCoil.make, AreaSpec.eval]
  have := pi_gt_three
  refine ⟨by norm_num, by norm_num, by nlinarith, by norm_num⟩

/-- **C124 fails (no current).** A coil made with the default area that carries no current, as every coil of a machine does before
currents are found: the force reported is not a number, in every machine and whatever the other currents. -/
theorem C124_no_current_fails (e : Env ℝ) (plasma : Quantity → ℝ → ℝ → ℝ) (m : Machine ℝ) (i : ℕ) (l : String) (R Z turns : ℝ) (control : Bool)
    (h : m.coils[i]? = some (l, .coil (.point (PointCoil.make R Z 0 turns control)))) :
    (m.coilForcesChecked e plasma (.direct i)).map Prod.fst = some (.error .nonfinite) := by
  have hat : m.coilAt (.direct i) = some (.point (PointCoil.make R Z 0 turns control)) := by simp [Machine.coilAt, h]
  have hF := Machine.coilForces_direct e plasma m h
  rcases hr : m.coilForces e plasma (.direct i) with _ | r
  · rw [hr] at hF; simp at hF
  · simp [Machine.coilForcesChecked, hat, hr, AnyCoil.area, PointCoil.make, AreaSpec.eval, defaultArea, areaCurrentLimit]

end FreeGS
