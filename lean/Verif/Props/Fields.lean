import Verif.Spec.Fields
import Verif.Props.Equilibrium
import Verif.Props.Vacuum

/-!
# C97: the field of an equilibrium
-/

set_option linter.unusedSectionVars false

namespace FreeGS.Equil

open FreeGS.GS FreeGS.Critical

universe u

section
variable {K : Type u} [Field K] [LinearOrder K] {C : Type u}

/-- **C97 (flux).** After a solve, `psiRZ` is `psi()` and `psiNRZ` is `psiN()` at the grid points. -/
theorem C97_flux_on_grid (e : FieldEnv C K) (h : OnGrid e) (profiles : Profiles C K) (s s' : State C K) (given psi0 : Option (Arr K))
    (psiBndry : Option K) (hs : solve e.toEnv profiles s given psi0 psiBndry = .ok s') (i j : ℕ) (hi : i < e.nx) (hj : j < e.ny) :
    psiRZ e s' (e.R i) (e.Z j) = psi e.toEnv s' (i, j) ∧ psiNRZ e s' (e.R i) (e.Z j) = psiN e s' (i, j) := by
  have hf : s'.spline = s'.plasmaPsi := by
    obtain ⟨s0, _, h⟩ := Jtor.bind_ok hs
    obtain ⟨⟨s1, J⟩, _, h⟩ := Jtor.bind_ok h
    obtain ⟨edge, _, h⟩ := Jtor.bind_ok h
    obtain ⟨s2, hu, h⟩ := Jtor.bind_ok h
    obtain ⟨I, _, h⟩ := Jtor.bind_ok h
    cases h
    have := updateBoundary_frame hu
    simp only at this ⊢
    rw [this.2.2.1, this.2.1]
  have h1 : psiRZ e s' (e.R i) (e.Z j) = psi e.toEnv s' (i, j) := by
    rw [psiRZ, psi, h.1 _ i j hi hj, h.2 _ i j hi hj, hf]
  exact ⟨h1, by rw [psiNRZ, psiN, h1]⟩

/-- **C97 (normalised flux).** Where it is defined, the normalised flux is 0 exactly where the flux is that of the magnetic axis, and 1
exactly where it is that of the plasma boundary. -/
theorem C97_normalised (s : State C K) (x pn : K) (h : normalise s x = .ok pn) :
    ∃ a b, s.psiAxis = some a ∧ s.psiBndry = some b ∧ a ≠ b ∧ (pn = 0 ↔ x = a) ∧ (pn = 1 ↔ x = b) := by
  unfold normalise at h
  cases ha : s.psiAxis with
  | none => rw [ha] at h; cases h
  | some a =>
    cases hb : s.psiBndry with
    | none => rw [ha, hb] at h; cases h
    | some b =>
      rw [ha, hb] at h
      simp only [divide] at h
      split_ifs at h with h0
      cases h
      refine ⟨a, b, rfl, rfl, fun e => h0 (by rw [e, sub_self]), ?_, ?_⟩
      · rw [div_eq_zero_iff, or_iff_left h0, sub_eq_zero]
      · rw [div_eq_one_iff_eq h0, sub_left_inj]

/-- **C97 (finding).** If the flux has no X-point, the limiter is not checked and the boundary is free, then nothing can be asked of the
result of a solve that needs the normalised flux: `psiN`, `psiNRZ`, `Btor`, `Btot` raise `TypeError`. -/
theorem C97_no_boundary_fails (sqrt : K → K) (e : FieldEnv C K) (s s' : State C K) (P : Arr K) (o : Point K) (os : List (Point K))
    (hfind : e.find P = .ok (o :: os, [])) (hc : s.checkLimited = false ∨ e.limits s.tokamak = none) (hfree : e.fixed = false)
    (hs : updateBoundary e.toEnv s P = .ok s') (p : Option (FieldProfile K)) (R Z : K) (c : ℕ × ℕ) :
    psiN e s' c = .error .type ∧ psiNRZ e s' R Z = .error .type ∧ Btor e s' p R Z = .error .type ∧
      (R ≠ 0 → Btot sqrt e s' p R Z = .error .type) := by
  have hb : s'.psiAxis = some o.2.2 ∧ s'.psiBndry = none := by
    rw [updateBoundary, hfind] at hs
    simp only [bind, Except.bind] at hs
    have hl : (if s.checkLimited then e.limits s.tokamak else none) = none := by
      rcases hc with hc | hc <;> simp [hc]
    rw [hl, hfree] at hs
    cases hs
    exact ⟨rfl, rfl⟩
  have hn : ∀ x, normalise s' x = .error .type := fun x => by rw [normalise, hb.1, hb.2]
  have ht : Btor e s' p R Z = .error .type := by rw [Btor, psiNRZ, hn]; rfl
  refine ⟨hn _, hn _, ht, fun hR => ?_⟩
  simp only [Btot, totalBr, totalBz, plasmaBr, plasmaBz, divide, if_neg hR, ht, bind, Except.bind]

/-- **C97 (finding).** Changed coil currents change `psi()` at once, but not `psi_axis` and `psi_bndry`: until the next solve the normalised
flux at every grid point is wrong by the change of the flux there, so it is not zero on the axis. -/
theorem C97_stale_currents_fails (e : FieldEnv C K) (s : State C K) (t : C) (c : ℕ × ℕ) (a b pn : K) (ha : s.psiAxis = some a)
    (hb : s.psiBndry = some b) (h : psiN e s c = .ok pn) :
    psiN e { s with tokamak := t } c = .ok (pn + (e.coilPsi t c - e.coilPsi s.tokamak c) / (b - a)) := by
  unfold psiN normalise at h ⊢
  simp only [ha, hb, divide] at h ⊢
  split_ifs at h ⊢ with h0
  cases h
  rw [psi, psi, ← add_div]
  congr 2
  ring

/-- **C97 (toroidal field on the grid).** At a grid point in the plasma the toroidal field is `fpol(psiN)/R`, at a grid point outside it is
that of the vacuum, `fvac()/R`. -/
theorem C97_toroidal_on_grid (e : FieldEnv C K) (h : OnGrid e) (s : State C K) (p : FieldProfile K) (m : Arr K) (hm : s.mask = some m) (i j : ℕ)
    (hi : i < e.nx) (hj : j < e.ny) (hR : e.R i ≠ 0) (pn f : K) (hpn : psiNRZ e s (e.R i) (e.Z j) = .ok pn) (hf : p.fpol pn = .ok f) :
    (m (i, j) = 1 → Btor e s (some p) (e.R i) (e.Z j) = .ok (f / e.R i)) ∧
      (m (i, j) = 0 → Btor e s (some p) (e.R i) (e.Z j) = .ok (p.fvac / e.R i)) := by
  simp only [Btor, hpn, hf, hm, bind, Except.bind, h.1 m i j hi hj, divide, if_neg hR]
  constructor <;> intro h1 <;> rw [h1]
  · congr 2; ring
  · congr 2; ring

/-- **C97 (between the grid points).** Where the interpolated mask lies between 0 and 1, the toroidal field lies between that of the plasma
and that of the vacuum. -/
theorem C97_toroidal_range_partial [IsStrictOrderedRing K] (e : FieldEnv C K) (s : State C K) (p : FieldProfile K) (m : Arr K) (hm : s.mask = some m)
    (R Z pn f B : K) (hR : 0 < R) (hpn : psiNRZ e s R Z = .ok pn) (hf : p.fpol pn = .ok f) (hB : Btor e s (some p) R Z = .ok B)
    (h0 : 0 ≤ e.interp m R Z) (h1 : e.interp m R Z ≤ 1) : min (f / R) (p.fvac / R) ≤ B ∧ B ≤ max (f / R) (p.fvac / R) := by
  simp only [Btor, hpn, hf, hm, bind, Except.bind, divide, if_neg hR.ne'] at hB
  cases hB
  set w := e.interp m R Z
  rw [min_div_div_right hR.le, max_div_div_right hR.le]
  constructor
  · refine div_le_div_of_nonneg_right ?_ hR.le
    have a1 : min f p.fvac ≤ f := min_le_left _ _
    have a2 : min f p.fvac ≤ p.fvac := min_le_right _ _
    nlinarith
  · refine div_le_div_of_nonneg_right ?_ hR.le
    have a1 : f ≤ max f p.fvac := le_max_left _ _
    have a2 : p.fvac ≤ max f p.fvac := le_max_right _ _
    nlinarith

/-- **C97 (finding).** A plasma without X-point whose limiter is checked has no mask: the toroidal field is `fpol(psiN)/R` everywhere, also
outside the plasma. -/
theorem C97_limited_fails (e : FieldEnv C K) (s s' : State C K) (P : Arr K) (o : Point K) (os : List (Point K)) (pts : List (K × K))
    (hfind : e.find P = .ok (o :: os, [])) (hc : s.checkLimited = true) (hw : e.limits s.tokamak = some pts)
    (hs : updateBoundary e.toEnv s P = .ok s') (p : FieldProfile K) (R Z pn f : K) (hR : R ≠ 0) (hpn : psiNRZ e s' R Z = .ok pn)
    (hf : p.fpol pn = .ok f) : Btor e s' (some p) R Z = .ok (f / R) ∧ s'.isLimited = true := by
  have hb : s'.mask = none ∧ s'.isLimited = true := by
    rw [updateBoundary, hfind] at hs
    simp only [bind, Except.bind, hc, hw, if_true] at hs
    cases hl : limiterContact e.toEnv P (keptPoints [] pts) with
    | error err => rw [hl] at hs; cases hs
    | ok r => rw [hl] at hs; cases hs; exact ⟨rfl, rfl⟩
  refine ⟨?_, hb.2⟩
  simp only [Btor, hpn, hf, hb.1, bind, Except.bind, divide, if_neg hR]

/-! ### Cases -/

/-- The environment of the cases of C40 with a plasma in the columns 0 to 2, and no field of the coils. -/
def sampleFields (opt xpt : List (Point ℚ)) (pts : List (ℚ × ℚ)) : FieldEnv Unit ℚ :=
  { sampleEnv opt xpt pts with
    core := fun _ _ _ _ => .ok fun c => if c.1 ≤ 2 then 1 else 0
    interpR := fun _ _ _ => 1
    interpZ := fun _ _ _ => 2
    coilPsiAt := fun _ _ _ => 0
    coilBr := fun _ _ _ => 0
    coilBz := fun _ _ _ => 0 }

theorem sampleFields_onGrid (opt xpt : List (Point ℚ)) (pts : List (ℚ × ℚ)) : OnGrid (sampleFields opt xpt pts) := by
  refine ⟨fun a i j _ _ => ?_, fun _ _ _ _ _ => rfl⟩
  simp only [sampleFields, sampleEnv]
  norm_num

/-- Cases of C97: after a solve with a given current density the toroidal field at the grid points `(2, 0)` in the plasma and `(5, 0)` outside
it; the normalised flux at these points is not 0 or 1. -/
example : ((solve (sampleFields [(3, 0, 50)] [(3, -2, 5)] []).toEnv (fun _ _ _ => .error .value) { sampleState with checkLimited := false }
      (some fun c => c.1 + 1) none none).toOption.map fun s =>
        ((Btor (sampleFields [(3, 0, 50)] [(3, -2, 5)] []) s (some ⟨fun x => .ok (7 + x), 7⟩) 2 0).toOption,
          (Btor (sampleFields [(3, 0, 50)] [(3, -2, 5)] []) s (some ⟨fun x => .ok (7 + x), 7⟩) 5 0).toOption,
          (psiNRZ (sampleFields [(3, 0, 50)] [(3, -2, 5)] []) s 2 0).toOption)) =
    some (some (41 / 10), some (7 / 5), some (54 / 45)) := by
  decide +kernel

/-- A case of `C97_no_boundary_fails` and one of `C97_limited_fails`. -/
example : (updateBoundary (sampleFields [(3, 0, 50)] [] []).toEnv { sampleState with checkLimited := false } samplePsi).toOption.isSome ∧
    ((updateBoundary (sampleFields [(3, 0, 50)] [] [(1, 0), (2, 0)]).toEnv sampleState samplePsi).toOption.map fun s =>
      (Btor (sampleFields [(3, 0, 50)] [] []) s (some ⟨fun x => .ok (7 + x), 7⟩) 5 0).toOption.isSome) = some true := by
  decide +kernel

end

section Real
variable {C : Type}

open Real Set

/-- **C97 (field strength).** The poloidal and the total field strength belong to the components that are returned at the same point. -/
theorem C97_strength (e : FieldEnv C ℝ) (s : State C ℝ) (p : Option (FieldProfile ℝ)) (R Z B : ℝ) (h : Btot Real.sqrt e s p R Z = .ok B) :
    ∃ Br Bz Bt Bp, totalBr e s R Z = .ok Br ∧ totalBz e s R Z = .ok Bz ∧ Btor e s p R Z = .ok Bt ∧ Bpol Real.sqrt e s R Z = .ok Bp ∧
      0 ≤ Bp ∧ 0 ≤ B ∧ Bp ^ 2 = Br ^ 2 + Bz ^ 2 ∧ B ^ 2 = Bp ^ 2 + Bt ^ 2 := by
  obtain ⟨Br, h1, h⟩ := Jtor.bind_ok h
  obtain ⟨Bz, h2, h⟩ := Jtor.bind_ok h
  obtain ⟨Bt, h3, h⟩ := Jtor.bind_ok h
  cases h
  refine ⟨Br, Bz, Bt, √(Br * Br + Bz * Bz), h1, h2, h3, ?_, sqrt_nonneg _, sqrt_nonneg _, ?_, ?_⟩
  · simp only [Bpol, h1, h2, bind, Except.bind]
  · rw [sq_sqrt (by nlinarith [sq_nonneg Br, sq_nonneg Bz])]; ring
  · rw [sq_sqrt (by nlinarith [sq_nonneg Br, sq_nonneg Bz, sq_nonneg Bt]), sq_sqrt (by nlinarith [sq_nonneg Br, sq_nonneg Bz])]; ring

/-- The spline through 0, 0, 1, 0, 0 falls below zero between the first two points. -/
theorem spline_undershoot (x : ℕ → ℝ) (s : ℝ → ℝ) (hx : ∀ i : ℕ, x i = x 0 + i * (x 1 - x 0)) (h1 : x 0 < x 1)
    (hs : IsCubicSpline 5 x (fun i => if i = 2 then 1 else 0) s) : s ((x 0 + x 1) / 2) = -13 / 32 := by
  obtain ⟨hv, a, b, c, d, hp, hd1, hd2, ⟨ea, eb, ec, ed⟩, ⟨ea', eb', ec', ed'⟩⟩ := hs
  have x2 := hx 2
  have x3 := hx 3
  have x4 := hx 4
  push_cast at x2 x3 x4
  simp only [show 5 - 3 = 2 from rfl, show 5 - 2 = 3 from rfl] at ea' eb' ec' ed'
  have e0 := (hp 0 (by norm_num) (x 0) le_rfl h1.le).symm.trans (hv 0 (by norm_num))
  have e1 := (hp 0 (by norm_num) (x 1) h1.le le_rfl).symm.trans (hv 1 (by norm_num))
  have e2 := (hp 1 (by norm_num) (x 2) (by linarith) le_rfl).symm.trans (hv 2 (by norm_num))
  have f2 := (hp 2 (by norm_num) (x 2) le_rfl (by linarith)).symm.trans (hv 2 (by norm_num))
  have f3 := (hp 2 (by norm_num) (x 3) (by linarith) le_rfl).symm.trans (hv 3 (by norm_num))
  have f4 := (hp 3 (by norm_num) (x 4) (by norm_num; linarith) le_rfl).symm.trans (hv 4 (by norm_num))
  have g1 := hd1 1 (by norm_num)
  have g2 := hd2 1 (by norm_num)
  norm_num at e0 e1 e2 f2 f3 f4 g1 g2
  rw [hp 0 (by norm_num) _ (by linarith) (by linarith)]
  rw [← ea, ← eb, ← ec, ← ed] at e2
  rw [← eb, ← ec, ← ed] at g1
  rw [← ec, ← ed] at g2
  rw [← ea', ← eb', ← ec', ← ed'] at f4
  rw [x2] at e2 f2 g1 g2
  rw [x3] at f3
  rw [x4] at f4
  linear_combination 19 / 64 * e0 + e1 - 19 / 64 * e2 - 7 / 64 * f2 + 1 / 8 * f3 - 1 / 64 * f4 + 3 / 32 * (x 1 - x 0) * g1 +
    1 / 32 * (x 1 - x 0) ^ 2 * g2

/-- **C97 (finding).** The mask is interpolated with cubic splines, which overshoot: with a plasma of one grid point, half way between two
grid points outside the plasma the toroidal field differs from the vacuum field by 13/32 of the change of `fpol` in the plasma, in the wrong
direction. -/
theorem C97_mask_overshoot_fails (e : FieldEnv C ℝ) (s : State C ℝ) (p : FieldProfile ℝ) (hnx : e.nx = 5) (hny : e.ny = 5)
    (hm : s.mask = some fun c => if c = (2, 2) then 1 else 0)
    (hx : ∀ i : ℕ, e.R i = e.R 0 + i * (e.R 1 - e.R 0)) (h1 : e.R 0 < e.R 1) (hpos : 0 < e.R 0) (S T : ℝ → ℝ)
    (hS : IsCubicSpline e.nx e.R (fun i => if i = 2 then 1 else 0) S) (hT : IsCubicSpline e.ny e.Z (fun j => if j = 2 then 1 else 0) T)
    (htensor : ∀ r z, e.interp (fun c => if c = (2, 2) then 1 else 0) r z = S r * T z) (pn f : ℝ)
    (hpn : psiNRZ e s ((e.R 0 + e.R 1) / 2) (e.Z 2) = .ok pn) (hf : p.fpol pn = .ok f) :
    Btor e s (some p) ((e.R 0 + e.R 1) / 2) (e.Z 2) = .ok ((p.fvac - 13 / 32 * (f - p.fvac)) / ((e.R 0 + e.R 1) / 2)) := by
  rw [hnx] at hS
  rw [hny] at hT
  have hw : S ((e.R 0 + e.R 1) / 2) * T (e.Z 2) = -13 / 32 := by
    rw [spline_undershoot e.R S hx h1 hS, hT.1 2 (by norm_num)]
    norm_num
  have hR : (e.R 0 + e.R 1) / 2 ≠ 0 := by
    have : 0 < (e.R 0 + e.R 1) / 2 := by linarith
    exact this.ne'
  simp only [Btor, hpn, hf, hm, bind, Except.bind, divide, if_neg hR, htensor, hw]
  congr 2
  ring

/-- There is such a spline, for the points 1, 2, 3, 4, 5. -/
example : IsCubicSpline 5 (fun i => 1 + i) (fun i => if i = 2 then 1 else 0)
    (fun t => if t ≤ 3 then (t - 1) * (t - 2) * (2 - 3 / 4 * (t - 1)) else (5 - t) * (4 - t) * (2 - 3 / 4 * (5 - t))) := by
  refine ⟨fun i hi => ?_, fun i => if i < 2 then 11 / 2 else -35, fun i => if i < 2 then -39 / 4 else 123 / 4, fun i => if i < 2 then 5 else -17 / 2,
    fun i => if i < 2 then -3 / 4 else 3 / 4, fun i hi t h1 h2 => ?_, fun i hi => ?_, fun i hi => ?_, by norm_num, by norm_num⟩
  · interval_cases i <;> norm_num
  · have hi4 : i < 4 := by omega
    interval_cases i
    all_goals norm_num at h1 h2 ⊢
    · rw [if_pos (by linarith)]; ring
    · rw [if_pos (by linarith)]; ring
    · split_ifs with h
      · have : t = 3 := le_antisymm h h1
        rw [this]; norm_num
      · ring
    · rw [if_neg (by linarith)]; ring
  · have hi4 : i < 3 := by omega
    interval_cases i <;> norm_num
  · have hi4 : i < 3 := by omega
    interval_cases i <;> norm_num

/-! ### The poloidal field and the derivatives of the flux -/

theorem coil_radial {R Z D : ℝ} (hR : 1e-3 < R) (hD : 0 < D) : ∀ l : List (ℝ × ℝ × ℝ), FarFrom l R Z D →
    ∃ d, HasDerivAt (fun z => filamentSum (realEnv ellipticK ellipticE) .psi R z l) d Z ∧
      |filamentSum (realEnv ellipticK ellipticE) .br R Z l - -d / R| ≤ 1e-3 * (l.map fun f => 2 * mu0 * f.1 / D ^ 3 * |f.2.2|).sum := by
  intro l
  induction l with
  | nil => intro _; exact ⟨0, by simpa [filamentSum] using hasDerivAt_const Z (0 : ℝ), by simp [filamentSum]⟩
  | cons f l ih =>
    intro h
    have hR0 : 0 < R := by norm_num at hR ⊢; linarith
    obtain ⟨d, h1, h2⟩ := ih fun g hg => h g (List.mem_cons_of_mem _ hg)
    obtain ⟨hRc, hz, _⟩ := h f (List.mem_cons_self ..)
    have hmem : Z ∈ Icc (Z - 1e-3) (Z + 1e-3) := by constructor <;> norm_num
    have hg : HasDerivAt (fun z => greens ellipticK ellipticE f.1 f.2.1 R z) (-R * biotSavartR f.1 f.2.1 R Z) Z := by
      refine (flux_deriv_Z hR0 hRc (unclipped_ne hRc (hz Z hmem).1)).congr_of_eventuallyEq ?_
      filter_upwards [Icc_mem_nhds (show Z - 1e-3 < Z by norm_num) (show Z < Z + 1e-3 by norm_num)] with z hzz
      exact greens_eq_flux _ _ _ _ hR0 hRc (hz z hzz).1
    refine ⟨-R * biotSavartR f.1 f.2.1 R Z * f.2.2 + d, ?_, ?_⟩
    · exact (hg.mul_const f.2.2).add h1
    · have ha := C68_radial_accuracy f.1 f.2.1 R Z 1e-3 D hR0 hRc (by norm_num) hD (fun z k => (hz z k).1) (fun z k => (hz z k).2)
      have e1 : filamentSum (realEnv ellipticK ellipticE) .br R Z (f :: l) - -(-R * biotSavartR f.1 f.2.1 R Z * f.2.2 + d) / R =
          (greensBr ellipticK ellipticE f.1 f.2.1 R Z 1e-3 - biotSavartR f.1 f.2.1 R Z) * f.2.2 +
            (filamentSum (realEnv ellipticK ellipticE) .br R Z l - -d / R) := by
        simp only [filamentSum, List.map_cons, List.sum_cons, realEnv]
        field_simp
        ring
      rw [e1, List.map_cons, List.sum_cons, mul_add]
      refine (abs_add_le _ _).trans (add_le_add ?_ h2)
      rw [abs_mul]
      calc _ ≤ 2 * mu0 * f.1 / D ^ 3 * 1e-3 * |f.2.2| := mul_le_mul_of_nonneg_right ha (abs_nonneg _)
        _ = _ := by ring

theorem coil_vertical {R Z D : ℝ} (hR : 1e-3 < R) (hD : 0 < D) : ∀ l : List (ℝ × ℝ × ℝ), FarFrom l R Z D →
    ∃ d, HasDerivAt (fun r => filamentSum (realEnv ellipticK ellipticE) .psi r Z l) d R ∧
      |filamentSum (realEnv ellipticK ellipticE) .bz R Z l - d / R| ≤
        1e-3 * (l.map fun f => (mu0 * f.1 / (2 * D ^ 2) + 2 * mu0 * f.1 * (R + 1e-3) / D ^ 3) / R * |f.2.2|).sum := by
  intro l
  induction l with
  | nil => intro _; exact ⟨0, by simpa [filamentSum] using hasDerivAt_const R (0 : ℝ), by simp [filamentSum]⟩
  | cons f l ih =>
    intro h
    have hR0 : 0 < R := by norm_num at hR ⊢; linarith
    obtain ⟨d, h1, h2⟩ := ih fun g hg => h g (List.mem_cons_of_mem _ hg)
    obtain ⟨hRc, _, hr⟩ := h f (List.mem_cons_self ..)
    have hmem : R ∈ Icc (R - 1e-3) (R + 1e-3) := by constructor <;> norm_num
    have hg : HasDerivAt (fun r => greens ellipticK ellipticE f.1 f.2.1 r Z) (R * biotSavartZ f.1 f.2.1 R Z) R := by
      refine (flux_deriv_R hR0 hRc (unclipped_ne hRc (hr R hmem).1)).congr_of_eventuallyEq ?_
      filter_upwards [Icc_mem_nhds (show R - 1e-3 < R by norm_num) (show R < R + 1e-3 by norm_num)] with r hrr
      exact greens_eq_flux _ _ _ _ (by linarith [hrr.1]) hRc (hr r hrr).1
    refine ⟨R * biotSavartZ f.1 f.2.1 R Z * f.2.2 + d, ?_, ?_⟩
    · exact (hg.mul_const f.2.2).add h1
    · have ha := C68_vertical_accuracy f.1 f.2.1 R Z 1e-3 D hRc (by norm_num) hR hD (fun z k => (hr z k).1) (fun z k => (hr z k).2)
      have e1 : filamentSum (realEnv ellipticK ellipticE) .bz R Z (f :: l) - (R * biotSavartZ f.1 f.2.1 R Z * f.2.2 + d) / R =
          (greensBz ellipticK ellipticE f.1 f.2.1 R Z 1e-3 - biotSavartZ f.1 f.2.1 R Z) * f.2.2 +
            (filamentSum (realEnv ellipticK ellipticE) .bz R Z l - d / R) := by
        simp only [filamentSum, List.map_cons, List.sum_cons, realEnv]
        field_simp
        ring
      rw [e1, List.map_cons, List.sum_cons, mul_add]
      refine (abs_add_le _ _).trans (add_le_add ?_ h2)
      rw [abs_mul]
      calc _ ≤ (mu0 * f.1 / (2 * D ^ 2) + 2 * mu0 * f.1 * (R + 1e-3) / D ^ 3) * 1e-3 / R * |f.2.2| := mul_le_mul_of_nonneg_right ha (abs_nonneg _)
        _ = _ := by ring

/-- **C97 (poloidal field).** The field of an equilibrium is that of its flux: `Br` is `-(1/R) ∂ψ/∂Z` and `Bz` is `(1/R) ∂ψ/∂R` of the flux
`psiRZ`, up to an error of a millimetre times currents over powers of the distance to the nearest filament, which comes from the coils. -/
theorem C97_poloidal_field (e : FieldEnv (Machine ℝ) ℝ) (he : OfMachine e) (s : State (Machine ℝ) ℝ) (hc : s.tokamak.Computed) (R Z D : ℝ)
    (hR : 1e-3 < R) (hD : 0 < D) (hfar : FarFrom s.tokamak.filaments R Z D)
    (hZ : HasDerivAt (fun z => e.interp s.spline R z) (e.interpZ s.spline R Z) Z)
    (hdR : HasDerivAt (fun r => e.interp s.spline r Z) (e.interpR s.spline R Z) R) :
    ∃ Br Bz dZ dR, totalBr e s R Z = .ok Br ∧ totalBz e s R Z = .ok Bz ∧ HasDerivAt (fun z => psiRZ e s R z) dZ Z ∧
      HasDerivAt (fun r => psiRZ e s r Z) dR R ∧
      |Br - -dZ / R| ≤ 1e-3 * (s.tokamak.filaments.map fun f => 2 * mu0 * f.1 / D ^ 3 * |f.2.2|).sum ∧
      |Bz - dR / R| ≤
        1e-3 * (s.tokamak.filaments.map fun f => (mu0 * f.1 / (2 * D ^ 2) + 2 * mu0 * f.1 * (R + 1e-3) / D ^ 3) / R * |f.2.2|).sum := by
  have hR0 : 0 < R := by norm_num at hR ⊢; linarith
  obtain ⟨d1, k1, k2⟩ := coil_radial hR hD _ hfar
  obtain ⟨d2, l1, l2⟩ := coil_vertical hR hD _ hfar
  refine ⟨-e.interpZ s.spline R Z / R + e.coilBr s.tokamak R Z, e.interpR s.spline R Z / R + e.coilBz s.tokamak R Z, e.interpZ s.spline R Z + d1,
    e.interpR s.spline R Z + d2, ?_, ?_, ?_, ?_, ?_, ?_⟩
  · simp only [totalBr, plasmaBr, divide, if_neg hR0.ne', bind, Except.bind]
  · simp only [totalBz, plasmaBz, divide, if_neg hR0.ne', bind, Except.bind]
  · simp only [psiRZ, he.1, field_filaments _ _ _ _ _ hc]
    exact hZ.add k1
  · simp only [psiRZ, he.1, field_filaments _ _ _ _ _ hc]
    exact hdR.add l1
  · refine le_trans (le_of_eq ?_) k2
    rw [he.2.1, field_filaments _ _ _ _ _ hc]
    congr 1
    ring
  · refine le_trans (le_of_eq ?_) l2
    rw [he.2.2, field_filaments _ _ _ _ _ hc]
    congr 1
    ring

/-- A case of `C97_poloidal_field`: one coil, seen from `(2, 1)`, and a plasma flux `r z`. -/
example : ∃ (e : FieldEnv (Machine ℝ) ℝ) (s : State (Machine ℝ) ℝ), OfMachine e ∧ s.tokamak.Computed ∧ FarFrom s.tokamak.filaments 2 1 (1 / 2) ∧
    s.tokamak.filaments = [(1, 0, 5000)] ∧ HasDerivAt (fun z => e.interp s.spline 2 z) (e.interpZ s.spline 2 1) 1 ∧
    HasDerivAt (fun r => e.interp s.spline r 1) (e.interpR s.spline 2 1) 2 := by
  let m : Machine ℝ := ⟨[("P1", .coil (.point (PointCoil.make 1 0 5000)))]⟩
  have hm : m.filaments = [(1, 0, 5000)] := by
    simp [m, Machine.filaments, Entry.filaments, AnyCoil.filaments, scaled, PointCoil.make, AnyCoil.current]
  refine ⟨{ mu0 := 1, nx := 5, ny := 5, R := fun i => i, Z := fun j => j, coilPsi := fun _ _ => 0, limits := fun _ => none,
            find := fun _ => .error .value, core := fun _ _ _ _ => .error .value, interp := fun _ r z => r * z, fixed := false,
            boundary := fun _ p => .ok p, solver := fun _ b => b, interpR := fun _ _ z => z, interpZ := fun _ r _ => r,
            coilPsiAt := fun m R Z => (m.field (realEnv ellipticK ellipticE) .psi R Z).1,
            coilBr := fun m R Z => (m.field (realEnv ellipticK ellipticE) .br R Z).1,
            coilBz := fun m R Z => (m.field (realEnv ellipticK ellipticE) .bz R Z).1 },
    ⟨m, fun _ => 0, fun _ => 0, 0, none, false, none, none, none, none, none, false, none⟩,
    ⟨fun _ _ _ => rfl, fun _ _ _ => rfl, fun _ _ _ => rfl⟩, ?_, ?_, hm, ?_, ?_⟩
  · intro x hx
    simp only [m, List.mem_cons, List.not_mem_nil, or_false] at hx
    subst hx
    trivial
  · simp only [hm]
    intro f hf
    simp only [List.mem_cons, List.not_mem_nil, or_false] at hf
    subst hf
    refine ⟨one_pos, fun z hz => ⟨unclipped_example 2 (by constructor <;> norm_num) z hz, ?_⟩,
      fun r hr => ⟨unclipped_example r hr 1 (by constructor <;> norm_num), ?_⟩⟩
    · nlinarith [sq_nonneg (z - 0)]
    · nlinarith [sq_nonneg (r - 1)]
  · simpa using (hasDerivAt_id (1 : ℝ)).const_mul (2 : ℝ)
  · simpa using (hasDerivAt_id (2 : ℝ)).mul_const (1 : ℝ)

end Real

end FreeGS.Equil
