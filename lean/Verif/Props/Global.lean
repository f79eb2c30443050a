import Verif.Props.Shape
import Verif.Model.Critical

/-!
# C60, C76-C78: volume, averages, inductances and betas
-/

set_option linter.unusedSectionVars false

namespace FreeGS.Global

open FreeGS.GS FreeGS.Equil
open FreeGS.Jtor (bind_ok)

variable {K : Type*} [Field K] [LinearOrder K] [IsStrictOrderedRing K]

/-- A grid of positive radii with positive steps, and a mask between zero and one. -/
structure Proper (p : Plasma K) : Prop where
  pi : 0 < p.pi
  radius : ∀ x < p.nx, 0 < p.R x
  dR : p.R 0 < p.R 1
  dZ : p.Z 0 < p.Z 1
  mask : ∀ m, p.mask = some m → ∀ x < p.nx, ∀ y < p.ny, 0 ≤ m (x, y) ∧ m (x, y) ≤ 1

/-- The point counts as plasma: there is no mask, or the mask is positive there. -/
def InPlasma (p : Plasma K) (c : ℕ × ℕ) : Prop := ∀ m, p.mask = some m → 0 < m c

theorem dV_nonneg {p : Plasma K} (h : Proper p) {x y : ℕ} (hx : x < p.nx) (hy : y < p.ny) : 0 ≤ dV p (x, y) := by
  have hv : 0 < 2 * p.pi * p.R x * (p.R 1 - p.R 0) * (p.Z 1 - p.Z 0) := by
    have := h.pi; have := h.radius x hx; have := sub_pos.mpr h.dR; have := sub_pos.mpr h.dZ
    positivity
  rw [dV]
  cases hm : p.mask with
  | none => exact hv.le
  | some m => exact mul_nonneg hv.le (h.mask m hm x hx y hy).1

theorem dV_pos {p : Plasma K} (h : Proper p) {x y : ℕ} (hx : x < p.nx) (hin : InPlasma p (x, y)) : 0 < dV p (x, y) := by
  have hv : 0 < 2 * p.pi * p.R x * (p.R 1 - p.R 0) * (p.Z 1 - p.Z 0) := by
    have := h.pi; have := h.radius x hx; have := sub_pos.mpr h.dR; have := sub_pos.mpr h.dZ
    positivity
  rw [dV]
  cases hm : p.mask with
  | none => exact hv
  | some m => exact mul_pos hv (hin m hm)

theorem dV_zero {p : Plasma K} (h : Proper p) {x y : ℕ} (hx : x < p.nx) (hy : y < p.ny) (hin : ¬ InPlasma p (x, y)) : dV p (x, y) = 0 := by
  rw [dV]
  cases hm : p.mask with
  | none => exact absurd (fun m h => by rw [hm] at h; cases h) hin
  | some m =>
    have h0 := (h.mask m hm x hx y hy).1
    have : m (x, y) = 0 := by
      refine le_antisymm (not_lt.mp fun hlt => hin fun m' e => ?_) h0
      rw [hm] at e; cases e; exact hlt
    simp only [this, mul_zero]

theorem romb2_zero {nx ny : ℕ} {f : Arr K} {v : K} (h : romb2 nx ny f = .ok v) : romb2 nx ny (fun _ => (0 : K)) = .ok 0 := by
  have := romb2_smul nx ny 0 f
  rw [h] at this
  simp only [zero_mul] at this
  exact this

theorem overVolume_nonneg {p : Plasma K} (h : Proper p) {f : Arr K} {v : K} (hv : overVolume p f = .ok v)
    (hf : ∀ x < p.nx, ∀ y < p.ny, InPlasma p (x, y) → 0 ≤ f (x, y)) : 0 ≤ v := by
  refine romb2_mono (romb2_zero hv) hv fun x hx y hy => ?_
  by_cases hin : InPlasma p (x, y)
  · exact mul_nonneg (hf x hx y hy hin) (dV_nonneg h hx hy)
  · simp only [dV_zero h hx hy hin, mul_zero]; exact le_refl _

/-! ## C76: order -/

/-- The volume of the plasma is not negative, positive once a grid point counts as plasma, at most the volume of the whole domain, and
equal to it without a mask: the volume of a hollow cylinder. -/
theorem C76_volume {p : Plasma K} (h : Proper p) {Rmin Rmax Zmin Zmax V : K} (hR : ∀ x, p.R x = Critical.linspaceAt Rmin Rmax p.nx x)
    (hZ : ∀ y, p.Z y = Critical.linspaceAt Zmin Zmax p.ny y) (hV : plasmaVolume p = .ok V) :
    0 ≤ V ∧ V ≤ p.pi * (Rmax ^ 2 - Rmin ^ 2) * (Zmax - Zmin) ∧
    (p.mask = none → V = p.pi * (Rmax ^ 2 - Rmin ^ 2) * (Zmax - Zmin)) ∧
    ((∃ x < p.nx, ∃ y < p.ny, InPlasma p (x, y)) → 0 < V) := by
  rw [plasmaVolume] at hV
  have hfull : romb2 p.nx p.ny (fun c => 2 * p.pi * p.R c.1 * (p.R 1 - p.R 0) * (p.Z 1 - p.Z 0)) =
      .ok (p.pi * (Rmax ^ 2 - Rmin ^ 2) * (Zmax - Zmin)) := by
    rcases romb2_cases (K := K) p.nx p.ny with he | ⟨w, hw, hs, h2x, h2y, hex⟩
    · rw [he] at hV; cases hV
    · rw [hs]
      congr 1
      have hnx : (p.nx : K) - 1 ≠ 0 := by
        have : (2 : K) ≤ p.nx := by exact_mod_cast h2x
        linarith
      have hny : (p.ny : K) - 1 ≠ 0 := by
        have : (2 : K) ≤ p.ny := by exact_mod_cast h2y
        linarith
      have eR : p.R 1 - p.R 0 = (Rmax - Rmin) / ((p.nx : K) - 1) := by
        rw [hR, hR, Critical.linspaceAt, Critical.linspaceAt, if_neg (by omega), if_neg (by omega)]; push_cast; ring
      have eZ : p.Z 1 - p.Z 0 = (Zmax - Zmin) / ((p.ny : K) - 1) := by
        rw [hZ, hZ, Critical.linspaceAt, Critical.linspaceAt, if_neg (by omega), if_neg (by omega)]; push_cast; ring
      have := hex (2 * p.pi * Rmin * (p.R 1 - p.R 0) * (p.Z 1 - p.Z 0))
        (2 * p.pi * ((Rmax - Rmin) / ((p.nx : K) - 1)) * (p.R 1 - p.R 0) * (p.Z 1 - p.Z 0))
      refine Eq.trans (Finset.sum_congr rfl fun x _ => Finset.sum_congr rfl fun y _ => ?_) (this.trans ?_)
      · have : p.R x = Rmin + (x : K) * ((Rmax - Rmin) / ((p.nx : K) - 1)) := by
          rw [hR, Critical.linspaceAt, if_neg (by omega)]
        simp only
        rw [this]; ring
      · rw [eR, eZ]; field_simp; ring
  refine ⟨romb2_mono (romb2_zero hV) hV fun x hx y hy => dV_nonneg h hx hy, romb2_mono hV hfull fun x hx y hy => ?_, fun hm => ?_, ?_⟩
  · have hv : 0 < 2 * p.pi * p.R x * (p.R 1 - p.R 0) * (p.Z 1 - p.Z 0) := by
      have := h.pi; have := h.radius x hx; have := sub_pos.mpr h.dR; have := sub_pos.mpr h.dZ
      positivity
    rw [dV]
    cases hm : p.mask with
    | none => exact le_refl _
    | some m =>
      simp only
      have := (h.mask m hm x hx y hy).2
      nlinarith
  · have : dV p = fun c => 2 * p.pi * p.R c.1 * (p.R 1 - p.R 0) * (p.Z 1 - p.Z 0) := by
      funext c; rw [dV, hm]
    rw [this, hfull] at hV
    cases hV; rfl
  · rintro ⟨x, hx, y, hy, hin⟩
    exact romb2_lt (romb2_zero hV) hV (fun x hx y hy => dV_nonneg h hx hy) ⟨x, hx, y, hy, dV_pos h hx hin⟩

theorem diamond_proper : Proper diamond :=
  ⟨by decide +kernel, fun x _ => by show (0 : ℚ) < (x : ℚ) + 1; positivity, by decide +kernel, by decide +kernel, fun m h => by cases h⟩

example : plasmaVolume diamond = .ok (3 * (3 ^ 2 - 1 ^ 2) * (1 - -1)) ∧
    (∀ x, diamond.R x = Critical.linspaceAt 1 3 diamond.nx x) ∧ (∀ y, diamond.Z y = Critical.linspaceAt (-1) 1 diamond.ny y) := by
  refine ⟨by decide +kernel, fun x => ?_, fun y => ?_⟩
  · show (x : ℚ) + 1 = _
    norm_num [Critical.linspaceAt, diamond]; ring
  · show (y : ℚ) - 1 = _
    norm_num [Critical.linspaceAt, diamond]; ring

/-- A plasma that contains another one has at least its volume. -/
theorem C76_volume_mono {p p' : Plasma K} (h : Proper p) (hsame : p'.pi = p.pi ∧ p'.nx = p.nx ∧ p'.ny = p.ny ∧ p'.R = p.R ∧ p'.Z = p.Z)
    {m m' : Arr K} (hm : p.mask = some m) (hm' : p'.mask = some m') (hle : ∀ x < p.nx, ∀ y < p.ny, m (x, y) ≤ m' (x, y)) {V V' : K}
    (hV : plasmaVolume p = .ok V) (hV' : plasmaVolume p' = .ok V') : V ≤ V' := by
  obtain ⟨e1, e2, e3, e4, e5⟩ := hsame
  rw [plasmaVolume] at hV hV'
  rw [e2, e3] at hV'
  refine romb2_mono hV hV' fun x hx y hy => ?_
  have hv : 0 < 2 * p.pi * p.R x * (p.R 1 - p.R 0) * (p.Z 1 - p.Z 0) := by
    have := h.pi; have := h.radius x hx; have := sub_pos.mpr h.dR; have := sub_pos.mpr h.dZ
    positivity
  rw [dV, dV, hm, hm', e1, e4, e5]
  exact mul_le_mul_of_nonneg_left (hle x hx y hy) hv.le

/-- A mask with one point in the middle, and one with five. -/
def smallMask : Arr ℚ := fun c => if c = (1, 1) then 1 else 0
def largeMask : Arr ℚ := fun c => if c = (1, 1) ∨ c = (0, 1) ∨ c = (2, 1) ∨ c = (1, 0) ∨ c = (1, 2) then 1 else 0

example : plasmaVolume { diamond with mask := some smallMask } = .ok (64 / 3) ∧
    plasmaVolume { diamond with mask := some largeMask } = .ok (128 / 3) := by decide +kernel

/-- The average pressure lies between any bounds that the pressure has inside the plasma. -/
theorem C76_average {p : Plasma K} (h : Proper p) {v lo hi : K} (hv : pressureAve p = .ok v)
    (hlo : ∀ x < p.nx, ∀ y < p.ny, InPlasma p (x, y) → lo ≤ p.pressure (x, y))
    (hhi : ∀ x < p.nx, ∀ y < p.ny, InPlasma p (x, y) → p.pressure (x, y) ≤ hi) : lo ≤ v ∧ v ≤ hi := by
  rw [pressureAve] at hv
  obtain ⟨P, hP, hv⟩ := bind_ok hv
  obtain ⟨V, hV, hv⟩ := bind_ok hv
  obtain ⟨hne, rfl⟩ := quotient_ok hv
  have h0 : 0 ≤ V := romb2_mono (romb2_zero hV) hV fun x hx y hy => dV_nonneg h hx hy
  have hpos : 0 < V := lt_of_le_of_ne h0 (Ne.symm hne)
  have hl := romb2_smul p.nx p.ny lo (dV p)
  have hh := romb2_smul p.nx p.ny hi (dV p)
  rw [hV] at hl hh
  rw [overVolume] at hP
  rw [le_div_iff₀ hpos, div_le_iff₀ hpos]
  constructor
  · refine romb2_mono hl hP fun x hx y hy => ?_
    by_cases hin : InPlasma p (x, y)
    · exact mul_le_mul_of_nonneg_right (hlo x hx y hy hin) (dV_nonneg h hx hy)
    · simp only [dV_zero h hx hy hin, mul_zero]; exact le_refl _
  · refine romb2_mono hP hh fun x hx y hy => ?_
    by_cases hin : InPlasma p (x, y)
    · exact mul_le_mul_of_nonneg_right (hhi x hx y hy hin) (dV_nonneg h hx hy)
    · simp only [dV_zero h hx hy hin, mul_zero]; exact le_refl _

/-- Non-vacuity: pressures between 1 and 7, average 4. -/
example : pressureAve { diamond with pressure := fun c => 3 * c.2 + 1, mask := some largeMask } = .ok 4 := by decide +kernel

/-- Where the pressure is nowhere negative in the plasma, neither are the thermal energy, the betas nor the inductances. -/
theorem C76_nonneg {p : Plasma K} (h : Proper p) (hmu : 0 < p.mu0)
    (hp : ∀ x < p.nx, ∀ y < p.ny, InPlasma p (x, y) → 0 ≤ p.pressure (x, y)) {v : K} :
    (thermalEnergy p = .ok v → 0 ≤ v) ∧ (poloidalBeta p = .ok v → 0 ≤ v) ∧ (toroidalBeta p = .ok v → 0 ≤ v) ∧
    (totalBeta p = .ok v → 0 < v) ∧ (li2 p = .ok v → 0 < p.axis.1 → 0 ≤ v) := by
  have hb2 : ∀ x < p.nx, ∀ y < p.ny, InPlasma p (x, y) → 0 ≤ bpol2 p (x, y) := fun x _ y _ _ => by rw [bpol2]; positivity
  have hpol : ∀ v, poloidalBeta p = .ok v → 0 ≤ v := by
    intro v hv
    rw [poloidalBeta] at hv
    obtain ⟨P, hP, hv⟩ := bind_ok hv
    obtain ⟨F, hF, hv⟩ := bind_ok hv
    obtain ⟨-, rfl⟩ := quotient_ok hv
    have := overVolume_nonneg h hP hp
    have := overVolume_nonneg h hF hb2
    positivity
  have htor : ∀ v, toroidalBeta p = .ok v → 0 ≤ v := by
    intro v hv
    rw [toroidalBeta] at hv
    obtain ⟨P, hP, hv⟩ := bind_ok hv
    obtain ⟨F, hF, hv⟩ := bind_ok hv
    obtain ⟨-, rfl⟩ := quotient_ok hv
    have := overVolume_nonneg h hP hp
    have := overVolume_nonneg h hF fun x _ y _ _ => by positivity
    positivity
  refine ⟨fun hv => ?_, hpol v, htor v, fun hv => ?_, fun hv hax => ?_⟩
  · rw [thermalEnergy] at hv
    obtain ⟨P, hP, hv⟩ := bind_ok hv
    cases hv
    have := overVolume_nonneg h hP hp
    positivity
  · rw [totalBeta] at hv
    obtain ⟨bp, hbp, hv⟩ := bind_ok hv
    obtain ⟨bt, hbt, hv⟩ := bind_ok hv
    obtain ⟨x, hx, hv⟩ := bind_ok hv
    obtain ⟨y, hy, hv⟩ := bind_ok hv
    obtain ⟨n1, rfl⟩ := quotient_ok hx
    obtain ⟨n2, rfl⟩ := quotient_ok hy
    obtain ⟨n3, rfl⟩ := quotient_ok hv
    have h1 := lt_of_le_of_ne (hpol bp hbp) (Ne.symm n1)
    have h2 := lt_of_le_of_ne (htor bt hbt) (Ne.symm n2)
    positivity
  · rw [li2] at hv
    obtain ⟨F, hF, hv⟩ := bind_ok hv
    obtain ⟨-, rfl⟩ := quotient_ok hv
    have := overVolume_nonneg h hF hb2
    positivity

example : poloidalBeta diamond = .ok (4 / 5) ∧ toroidalBeta diamond = .ok (4 / 9) ∧ totalBeta diamond = .ok (2 / 7) ∧
    li2 diamond = .ok (48 / 5) ∧ thermalEnergy diamond = .ok 144 := by decide +kernel

/-- What lies outside the plasma does not count. -/
theorem C76_outside {p p' : Plasma K} (h : Proper p)
    (hsame : p'.pi = p.pi ∧ p'.mu0 = p.mu0 ∧ p'.nx = p.nx ∧ p'.ny = p.ny ∧ p'.R = p.R ∧ p'.Z = p.Z ∧ p'.mask = p.mask ∧
      p'.current = p.current ∧ p'.axis = p.axis)
    (hp : ∀ c, InPlasma p c → p'.pressure c = p.pressure c) (hBr : ∀ c, InPlasma p c → p'.Br c = p.Br c)
    (hBz : ∀ c, InPlasma p c → p'.Bz c = p.Bz c) (hBt : ∀ c, InPlasma p c → p'.Btor c = p.Btor c) :
    poloidalBeta p' = poloidalBeta p ∧ poloidalBeta2 p' = poloidalBeta2 p ∧ toroidalBeta p' = toroidalBeta p ∧
    totalBeta p' = totalBeta p ∧ pressureAve p' = pressureAve p ∧ thermalEnergy p' = thermalEnergy p ∧ li2 p' = li2 p := by
  obtain ⟨e1, e2, e3, e4, e5, e6, e7, e8, e9⟩ := hsame
  have edV : dV p' = dV p := by funext c; rw [dV, dV, e1, e5, e6, e7]
  have key : ∀ f f' : Arr K, (∀ c, InPlasma p c → f' c = f c) → overVolume p' f' = overVolume p f := by
    intro f f' hf
    rw [overVolume, overVolume, e3, e4, edV]
    refine romb2_congr fun x hx y hy => ?_
    by_cases hin : InPlasma p (x, y)
    · rw [hf _ hin]
    · rw [dV_zero h hx hy hin, mul_zero, mul_zero]
  have k1 := key _ _ hp
  have k2 : overVolume p' (bpol2 p') = overVolume p (bpol2 p) := key _ _ fun c hc => by rw [bpol2, bpol2, hBr c hc, hBz c hc]
  have k3 : overVolume p' (fun c => p'.Btor c ^ 2) = overVolume p (fun c => p.Btor c ^ 2) := key _ _ fun c hc => by rw [hBt c hc]
  have pb : poloidalBeta p' = poloidalBeta p := by rw [poloidalBeta, poloidalBeta, k1, k2, e2]
  have tb : toroidalBeta p' = toroidalBeta p := by rw [toroidalBeta, toroidalBeta, k1, k3, e2]
  refine ⟨pb, ?_, tb, by rw [totalBeta, totalBeta, pb, tb], ?_, by rw [thermalEnergy, thermalEnergy, k1], by rw [li2, li2, k2, e2, e8, e9]⟩
  · rw [poloidalBeta2, poloidalBeta2, e1, e2, e3, e4, e5, e6, e8]
    congr 1
    refine romb2_congr fun x hx y hy => ?_
    rw [maskedPressure, maskedPressure, e7]
    cases hm : p.mask with
    | none => exact hp _ fun m h => by rw [hm] at h; cases h
    | some m =>
      simp only
      by_cases hin : InPlasma p (x, y)
      · rw [hp _ hin]
      · have h0 := (h.mask m hm x hx y hy).1
        have : m (x, y) = 0 := by
          refine le_antisymm (not_lt.mp fun hlt => hin fun m' e => ?_) h0
          rw [hm] at e; cases e; exact hlt
        rw [this, mul_zero, mul_zero]
  · rw [pressureAve, pressureAve, k1, e3, e4, edV]

example : InPlasma { diamond with mask := some smallMask } (1, 1) ∧ ¬ InPlasma { diamond with mask := some smallMask } (0, 1) := by
  constructor
  · intro m hm; cases hm; decide +kernel
  · intro h; exact absurd (h smallMask rfl) (by decide +kernel)

/-! ## C60: total beta -/

/-- The total beta is the harmonic combination of the other two; it is the beta of the total field, and smaller than both if the
pressure is nowhere negative. -/
theorem C60_totalBeta {p : Plasma K} {t : K} (h : totalBeta p = .ok t) :
    ∃ bp bt P F : K, poloidalBeta p = .ok bp ∧ toroidalBeta p = .ok bt ∧ bp ≠ 0 ∧ bt ≠ 0 ∧ t ≠ 0 ∧ 1 / t = 1 / bp + 1 / bt ∧
      overVolume p p.pressure = .ok P ∧ overVolume p (fun c => p.Br c ^ 2 + p.Bz c ^ 2 + p.Btor c ^ 2) = .ok F ∧ F ≠ 0 ∧
      t = 2 * p.mu0 * P / F ∧ (0 < bp → 0 < bt → t < bp ∧ t < bt) := by
  rw [totalBeta] at h
  obtain ⟨bp, hbp, hv⟩ := bind_ok h
  obtain ⟨bt, hbt, hv⟩ := bind_ok hv
  obtain ⟨x, hx, hv⟩ := bind_ok hv
  obtain ⟨y, hy, hv⟩ := bind_ok hv
  obtain ⟨n1, rfl⟩ := quotient_ok hx
  obtain ⟨n2, rfl⟩ := quotient_ok hy
  obtain ⟨n3, rfl⟩ := quotient_ok hv
  have hp' := hbp
  have ht' := hbt
  rw [poloidalBeta] at hp'
  rw [toroidalBeta] at ht'
  obtain ⟨P, hP, hp'⟩ := bind_ok hp'
  obtain ⟨F, hF, hp'⟩ := bind_ok hp'
  obtain ⟨P', hP', ht'⟩ := bind_ok ht'
  obtain ⟨G, hG, ht'⟩ := bind_ok ht'
  rw [hP] at hP'
  cases hP'
  obtain ⟨f0, rfl⟩ := quotient_ok hp'
  obtain ⟨g0, rfl⟩ := quotient_ok ht'
  have hsum : overVolume p (fun c => p.Br c ^ 2 + p.Bz c ^ 2 + p.Btor c ^ 2) = .ok (F + G) := by
    rw [overVolume] at hF hG ⊢
    rw [← romb2_add hF hG]
    congr 1; funext c; rw [bpol2]; ring
  have hP0 : 2 * p.mu0 * P ≠ 0 := by
    intro h0; rw [h0, zero_div] at n1; exact n1 rfl
  generalize hA : 2 * p.mu0 * P = A at *
  have e3 : 1 / (A / F) + 1 / (A / G) = (F + G) / A := by field_simp
  rw [e3] at n3 ⊢
  have hFG : F + G ≠ 0 := by intro h0; rw [h0, zero_div] at n3; exact n3 rfl
  refine ⟨A / F, A / G, P, F + G, hbp, hbt, n1, n2, one_div_ne_zero n3, (one_div_one_div _).trans e3.symm, hP, hsum, hFG, by rw [one_div_div, hA], ?_⟩
  intro h1 h2
  have e : ∀ a b : K, 0 < a → 0 < b → 1 / (1 / a + 1 / b) < a := fun a b ha hb => by
    rw [div_lt_iff₀ (by positivity)]
    have : a * (1 / a + 1 / b) = 1 + a / b := by field_simp
    rw [this]
    have : 0 < a / b := by positivity
    linarith
  constructor
  · have := e _ _ h1 h2
    rwa [e3] at this
  · have := e _ _ h2 h1
    rwa [add_comm, e3] at this

/-! ## C77: agreement of the figures of merit -/

/-- `internalInductance` and `internalInductance3` always agree. -/
theorem C77_li_li3 (p : Plasma K) (n : ℕ) : li p n = li3 p n := by
  rw [li, li3]
  refine congrArg _ (funext fun Rgeo => congrArg _ (funext fun F => ?_))
  rw [show p.mu0 * p.mu0 * Rgeo * p.current * p.current = (p.mu0 * p.current) ^ 2 * Rgeo by ring]

/-- The three definitions of the internal inductance differ by the factors in their names: by the elongation, and by the radius used. -/
theorem C77_inductances {p : Plasma K} {n : ℕ} {l1 l2 l3 : K} (h1 : li1 p n = .ok l1) (h2 : li2 p = .ok l2) (h3 : li3 p n = .ok l3) :
    ∃ R0 k e : K, Rgeometric p n = .ok R0 ∧ elongation p n = .ok k ∧ effectiveElongation p n = .ok e ∧
      l1 = l3 * ((1 + k ^ 2) / (2 * e)) ∧ l2 * p.axis.1 = l3 * R0 := by
  rw [li1] at h1
  rw [li2] at h2
  rw [li3] at h3
  obtain ⟨R0, hR, h1⟩ := bind_ok h1
  obtain ⟨k, hk, h1⟩ := bind_ok h1
  obtain ⟨e, he, h1⟩ := bind_ok h1
  obtain ⟨F, hF, h1⟩ := bind_ok h1
  obtain ⟨a, ha, h1⟩ := bind_ok h1
  obtain ⟨b, hb, h1⟩ := bind_ok h1
  cases h1
  obtain ⟨na, rfl⟩ := quotient_ok ha
  obtain ⟨nb, rfl⟩ := quotient_ok hb
  obtain ⟨F', hF', h2⟩ := bind_ok h2
  rw [hF] at hF'; cases hF'
  obtain ⟨n2, rfl⟩ := quotient_ok h2
  obtain ⟨R', hR', h3⟩ := bind_ok h3
  rw [hR] at hR'; cases hR'
  obtain ⟨F', hF', h3⟩ := bind_ok h3
  rw [hF] at hF'; cases hF'
  obtain ⟨n3, rfl⟩ := quotient_ok h3
  refine ⟨R0, k, e, hR, hk, he, by rw [pow_two k], ?_⟩
  have hI : (p.mu0 * p.current) ^ 2 ≠ 0 := left_ne_zero_of_mul n3
  have hr : R0 ≠ 0 := right_ne_zero_of_mul n3
  have hx : p.axis.1 ≠ 0 := right_ne_zero_of_mul n2
  generalize (p.mu0 * p.current) ^ 2 = I at *
  field_simp

example : (li1 diamond 360).toOption.isSome ∧ (li2 diamond).toOption.isSome ∧ (li3 diamond 360).toOption.isSome := by decide +kernel

/-- The thermal energy is three halves of the average pressure times the volume. -/
theorem C77_energy {p : Plasma K} {v V : K} (hv : pressureAve p = .ok v) (hV : plasmaVolume p = .ok V) :
    thermalEnergy p = .ok (3 / 2 * (v * V)) := by
  rw [pressureAve] at hv
  obtain ⟨P, hP, hv⟩ := bind_ok hv
  obtain ⟨V', hV', hv⟩ := bind_ok hv
  obtain ⟨hne, rfl⟩ := quotient_ok hv
  rw [plasmaVolume, hV'] at hV
  cases hV
  rw [thermalEnergy, hP, div_mul_cancel₀ _ hne]
  rfl

example : pressureAve diamond = .ok 2 ∧ plasmaVolume diamond = .ok 48 := by decide +kernel

/-- `poloidalBeta3` is the poloidal beta times the internal inductance times the volume of the plasma: a volume, not a number. -/
theorem C77_poloidalBeta3 {p : Plasma K} {b l V : K} (hb : poloidalBeta p = .ok b) (hl : li3 p 360 = .ok l) (hV : plasmaVolume p = .ok V)
    (hmu : p.mu0 ≠ 0) : poloidalBeta3 p = .ok (V * (b * l)) := by
  rw [poloidalBeta] at hb
  rw [li3] at hl
  obtain ⟨P, hP, hb⟩ := bind_ok hb
  obtain ⟨F, hF, hb⟩ := bind_ok hb
  obtain ⟨hne, rfl⟩ := quotient_ok hb
  obtain ⟨R0, hR, hl⟩ := bind_ok hl
  obtain ⟨F', hF', hl⟩ := bind_ok hl
  rw [hF] at hF'; cases hF'
  obtain ⟨hne', rfl⟩ := quotient_ok hl
  have hI : p.mu0 * p.current ≠ 0 := by
    intro h; apply hne'; rw [h]; ring
  have hr : R0 ≠ 0 := right_ne_zero_of_mul hne'
  have hc : p.current ≠ 0 := right_ne_zero_of_mul hI
  rw [poloidalBeta3, hP, hV, hR]
  show quotient _ _ = _
  rw [quotient_eq (by
    refine mul_ne_zero (mul_ne_zero (mul_ne_zero hmu hc) hc) hr)]
  congr 1
  field_simp
  ring

example : poloidalBeta diamond = .ok (4 / 5) ∧ li3 diamond 360 = .ok (48 / 5) ∧ poloidalBeta3 diamond = .ok (48 * (4 / 5 * (48 / 5))) := by
  decide +kernel

/-- The effective elongation is that of the torus of elliptic cross section with the volume of the plasma; the cylindrical safety
factor and the normalised beta in terms of the radii and the elongation. -/
theorem C77_radii {p : Plasma K} {V R0 a : K} (hV : plasmaVolume p = .ok V) (hR : Rgeometric p 360 = .ok R0) (ha : minorRadius p 360 = .ok a) :
    (∀ e, effectiveElongation p 360 = .ok e → e * (2 * p.pi ^ 2 * R0 * a ^ 2) = V) ∧
    (∀ q, qcyl p = .ok q → ∃ k, elongation p 360 = .ok k ∧ q * (R0 ^ 2 * (p.mu0 * p.current)) = (1 + k ^ 2) * p.pi * a ^ 2 * p.fvac) ∧
    (∀ n v, betaN p n = .ok v → ∃ bt Z0, toroidalBeta p = .ok bt ∧ Zgeometric p 360 = .ok Z0 ∧
      v * p.current = 10 ^ 8 * bt * (a * p.btorAt R0 Z0)) := by
  refine ⟨fun e he => ?_, fun q hq => ?_, fun n v hv => ?_⟩
  · rw [effectiveElongation, hV, hR, ha] at he
    obtain ⟨hne, rfl⟩ := quotient_ok (show quotient V (2 * p.pi * R0 * p.pi * a ^ 2) = .ok e from he)
    rw [show 2 * p.pi ^ 2 * R0 * a ^ 2 = 2 * p.pi * R0 * p.pi * a ^ 2 by ring, div_mul_cancel₀ _ hne]
  · rw [qcyl] at hq
    obtain ⟨eps, he, hq⟩ := bind_ok hq
    obtain ⟨a', ha', hq⟩ := bind_ok hq
    obtain ⟨R', hR', hq⟩ := bind_ok hq
    obtain ⟨B, hB, hq⟩ := bind_ok hq
    obtain ⟨k, hk, hq⟩ := bind_ok hq
    obtain ⟨x, hx, hq⟩ := bind_ok hq
    cases hq
    rw [ha] at ha'; cases ha'
    rw [hR] at hR'; cases hR'
    rw [inverseAspectRatio, ha, hR] at he
    obtain ⟨n1, rfl⟩ := quotient_ok (show quotient a R0 = .ok eps from he)
    obtain ⟨n2, rfl⟩ := quotient_ok hB
    obtain ⟨n3, rfl⟩ := quotient_ok hx
    refine ⟨k, hk, ?_⟩
    generalize p.mu0 * p.current = I at *
    field_simp
  · rw [betaN] at hv
    obtain ⟨C, hC, hv⟩ := bind_ok hv
    obtain ⟨bt, hbt, hv⟩ := bind_ok hv
    obtain ⟨a', ha', hv⟩ := bind_ok hv
    obtain ⟨x, hx, hv⟩ := bind_ok hv
    cases hv
    rw [ha] at ha'; cases ha'
    obtain ⟨n1, rfl⟩ := quotient_ok hx
    rw [Rgeometric, hC] at hR
    cases hR
    refine ⟨bt, C.2, hbt, by rw [Zgeometric, hC]; rfl, ?_⟩
    field_simp
    ring

example : effectiveElongation diamond 360 = .ok (4 / 3) ∧ qcyl diamond = .ok (117 / 40) ∧ (betaN diamond 7).toOption.isSome := by decide +kernel

/-! ## C78: dimensionless numbers -/

/-- `p'` is `p` with all lengths multiplied by `s` and all magnetic fields by `b`: the pressure changes like the square of the field,
the current and `f` like field times length. -/
structure Rescaled (p p' : Plasma K) (s b : K) : Prop where
  pi : p'.pi = p.pi
  mu0 : p'.mu0 = p.mu0
  nx : p'.nx = p.nx
  ny : p'.ny = p.ny
  R : ∀ x, p'.R x = s * p.R x
  Z : ∀ y, p'.Z y = s * p.Z y
  mask : p'.mask = p.mask
  Br : ∀ c, p'.Br c = b * p.Br c
  Bz : ∀ c, p'.Bz c = b * p.Bz c
  Btor : ∀ c, p'.Btor c = b * p.Btor c
  pressure : ∀ c, p'.pressure c = b ^ 2 * p.pressure c
  current : p'.current = s * b * p.current
  sep : SepMap p p' fun q => (s * q.1, s * q.2)
  axis : p'.axis = (s * p.axis.1, s * p.axis.2)
  btorAt : ∀ x y, p'.btorAt (s * x) (s * y) = b * p.btorAt x y
  fvac : p'.fvac = s * b * p.fvac

theorem Rescaled.dV {p p' : Plasma K} {s b : K} (r : Rescaled p p' s b) (c : ℕ × ℕ) : Global.dV p' c = s ^ 3 * Global.dV p c := by
  rw [Global.dV, Global.dV, r.pi, r.R, r.R, r.R, r.Z, r.Z, r.mask]
  cases p.mask with
  | none => simp only; ring
  | some m => simp only; ring

theorem Rescaled.overVolume {p p' : Plasma K} {s b : K} (r : Rescaled p p' s b) {f f' : Arr K} (k : K) (h : ∀ c, f' c = k * f c) :
    Global.overVolume p' f' = (Global.overVolume p f).map (s ^ 3 * k * ·) := by
  rw [Global.overVolume, Global.overVolume, r.nx, r.ny, ← romb2_smul]
  congr 1
  funext c
  rw [h, r.dV]; ring

theorem Rescaled.volume {p p' : Plasma K} {s b : K} (r : Rescaled p p' s b) : plasmaVolume p' = (plasmaVolume p).map (s ^ 3 * ·) := by
  rw [plasmaVolume, plasmaVolume, r.nx, r.ny, ← romb2_smul]
  congr 1
  funext c
  rw [r.dV]

/-- Betas, inductances, effective elongation, cylindrical safety factor and normalised beta do not change when lengths and fields are
rescaled. The volume changes like the cube of the length, the energy also like the square of the field. -/
theorem C78_dimensionless_partial {p p' : Plasma K} {s b : K} (hs : 0 < s) (hb : b ≠ 0) (r : Rescaled p p' s b) (n : ℕ) :
    poloidalBeta p' = poloidalBeta p ∧ poloidalBeta2 p' = poloidalBeta2 p ∧ toroidalBeta p' = toroidalBeta p ∧
    totalBeta p' = totalBeta p ∧ betaN p' n = betaN p n ∧
    li1 p' n = li1 p n ∧ li2 p' = li2 p ∧ li3 p' n = li3 p n ∧ li p' n = li p n ∧
    effectiveElongation p' n = effectiveElongation p n ∧ qcyl p' = qcyl p ∧
    plasmaVolume p' = (plasmaVolume p).map (s ^ 3 * ·) ∧
    thermalEnergy p' = (thermalEnergy p).map (s ^ 3 * b ^ 2 * ·) ∧
    pressureAve p' = (pressureAve p).map (b ^ 2 * ·) := by
  have hs0 : s ≠ 0 := hs.ne'
  have hsb : s ^ 3 * b ^ 2 ≠ 0 := mul_ne_zero (pow_ne_zero _ hs0) (pow_ne_zero _ hb)
  have kP := r.overVolume (b ^ 2) r.pressure
  have kB : overVolume p' (bpol2 p') = _ := r.overVolume (f := bpol2 p) (b ^ 2) fun c => by rw [bpol2, bpol2, r.Br, r.Bz]; ring
  have kT : overVolume p' (fun c => p'.Btor c ^ 2) = _ := r.overVolume (f := fun c => p.Btor c ^ 2) (b ^ 2) fun c => by rw [r.Btor]; ring
  have sh := C49_scale p p' hs r.sep
  have pb : poloidalBeta p' = poloidalBeta p := by
    rw [poloidalBeta, poloidalBeta, kP, kB, r.mu0]
    cases overVolume p p.pressure <;> cases overVolume p (bpol2 p) <;> try rfl
    simp only [Except.map, bind, Except.bind]
    rw [mul_left_comm]
    exact quotient_scale hsb _ _
  have tb : toroidalBeta p' = toroidalBeta p := by
    rw [toroidalBeta, toroidalBeta, kP, kT, r.mu0]
    cases overVolume p p.pressure <;> cases overVolume p (fun c => p.Btor c ^ 2) <;> try rfl
    simp only [Except.map, bind, Except.bind]
    rw [mul_left_comm]
    exact quotient_scale hsb _ _
  have l3 : ∀ n, li3 p' n = li3 p n := by
    intro n
    rw [li3, li3, (sh n).1, kB, r.mu0, r.current]
    cases Rgeometric p n <;> cases overVolume p (bpol2 p) <;> try rfl
    simp only [Except.map, bind, Except.bind]
    rw [mul_left_comm, ← quotient_scale hsb (2 * _)]
    congr 1; ring
  have ee : effectiveElongation p' n = effectiveElongation p n := by
    rw [effectiveElongation, effectiveElongation, r.volume, (sh n).1, (sh n).2.2.1, r.pi]
    cases plasmaVolume p <;> cases Rgeometric p n <;> cases minorRadius p n <;> try rfl
    simp only [Except.map, bind, Except.bind]
    rename_i V R0 a
    rw [← quotient_scale (pow_ne_zero 3 hs0) V]
    congr 1; ring
  refine ⟨pb, ?_, tb, by rw [totalBeta, totalBeta, pb, tb], ?_, ?_, ?_, l3 n, by rw [C77_li_li3, C77_li_li3, l3], ee, ?_, r.volume, ?_, ?_⟩
  · rw [poloidalBeta2, poloidalBeta2, r.mu0, r.pi, r.R, r.R, r.Z, r.Z, r.current, r.nx, r.ny]
    have e : romb2 p.nx p.ny (maskedPressure p') = (romb2 p.nx p.ny (maskedPressure p)).map (b ^ 2 * ·) := by
      rw [← romb2_smul]
      congr 1
      funext c
      rw [maskedPressure, maskedPressure, r.mask]
      cases p.mask with
      | none => exact r.pressure c
      | some m => simp only [r.pressure]; ring
    rw [e]
    cases romb2 p.nx p.ny (maskedPressure p) <;> cases quotient (8 * p.pi) p.mu0 <;> try rfl
    rename_i v k
    simp only [Except.map, bind, Except.bind]
    rw [← quotient_scale (s := s ^ 2 * b ^ 2) (mul_ne_zero (pow_ne_zero _ hs0) (pow_ne_zero _ hb)) (k * v * _ * _)]
    congr 1 <;> ring
  · have hC : geometricAxis p' 360 = (geometricAxis p 360).map fun q => (s * q.1, s * q.2) := by
      have h1 := (sh 360).1
      have h2 := (sh 360).2.1
      rw [Rgeometric, Rgeometric] at h1
      rw [Zgeometric, Zgeometric] at h2
      cases hg : geometricAxis p 360 with
      | error e =>
        rw [hg] at h1
        cases hg' : geometricAxis p' 360 with
        | error e' => rw [hg'] at h1; cases h1; rfl
        | ok q => rw [hg'] at h1; cases h1
      | ok q =>
        rw [hg] at h1 h2
        cases hg' : geometricAxis p' 360 with
        | error e' => rw [hg'] at h1; cases h1
        | ok q' =>
          rw [hg'] at h1 h2
          have h1 : q'.1 = s * q.1 := by injection h1
          have h2 : q'.2 = s * q.2 := by injection h2
          show Except.ok _ = Except.ok _
          simp only [← h1, ← h2]
    rw [betaN, betaN, hC, tb, (sh 360).2.2.1, r.current]
    cases geometricAxis p 360 <;> cases toroidalBeta p <;> cases minorRadius p 360 <;> try rfl
    simp only [Except.map, bind, Except.bind]
    rw [r.btorAt, show ∀ x y : K, s * x * (b * y) = s * b * (x * y) from fun x y => by ring, quotient_scale (mul_ne_zero hs0 hb)]
  · rw [li1, li1, (sh n).1, (sh n).2.2.2.2.2.1, ee, kB, r.mu0, r.current]
    cases Rgeometric p n <;> cases elongation p n <;> cases effectiveElongation p n <;> cases overVolume p (bpol2 p) <;> try rfl
    rename_i R0 k e F
    simp only [Except.map, bind, Except.bind]
    rw [show quotient (2 * (s ^ 3 * b ^ 2 * F)) ((p.mu0 * (s * b * p.current)) ^ 2 * (s * R0)) =
        quotient (2 * F) ((p.mu0 * p.current) ^ 2 * R0) by
      rw [mul_left_comm, ← quotient_scale hsb (2 * _)]
      congr 1; ring]
  · rw [li2, li2, kB, r.mu0, r.current, r.axis]
    cases overVolume p (bpol2 p) <;> try rfl
    simp only [Except.map, bind, Except.bind]
    rw [mul_left_comm, ← quotient_scale hsb (2 * _)]
    congr 1; ring
  · obtain ⟨h1, h2, h3, h4, h5, h6, -⟩ := sh 360
    rw [qcyl, qcyl, h5, h3, h1, h6, r.mu0, r.pi, r.current, r.fvac]
    cases inverseAspectRatio p 360 <;> cases minorRadius p 360 <;> cases Rgeometric p 360 <;> try rfl
    rename_i eps a R0
    simp only [Except.map, bind, Except.bind]
    have hq : quotient (s * b * p.fvac) (s * R0) = (quotient p.fvac R0).map (b * ·) := by
      rw [mul_assoc, quotient_scale hs0, quotient, quotient]
      by_cases h0 : R0 = 0
      · rw [if_pos h0, if_pos h0]; rfl
      · rw [if_neg h0, if_neg h0, mul_div_assoc]; rfl
    rw [hq]
    cases quotient p.fvac R0 <;> cases elongation p 360 <;> try rfl
    rename_i B k
    simp only [Except.map]
    rw [show quotient (2 * p.pi * (s * a) * eps * (b * B)) (p.mu0 * (s * b * p.current)) =
        quotient (2 * p.pi * a * eps * B) (p.mu0 * p.current) by
      rw [← quotient_scale (mul_ne_zero hs0 hb) (2 * p.pi * a * eps * B)]
      congr 1 <;> ring]
  · rw [thermalEnergy, thermalEnergy, kP]
    cases overVolume p p.pressure <;> try rfl
    show Except.ok _ = Except.ok _
    congr 1
    simp only
    ring
  · rw [pressureAve, pressureAve, kP]
    have hv : romb2 p'.nx p'.ny (dV p') = _ := r.volume
    rw [hv, plasmaVolume]
    cases overVolume p p.pressure <;> cases romb2 p.nx p.ny (dV p) <;> try rfl
    simp only [Except.map, bind, Except.bind]
    rw [mul_assoc, quotient_scale (pow_ne_zero 3 hs0), quotient, quotient]
    split_ifs
    · rfl
    · show Except.ok _ = Except.ok _
      rw [mul_div_assoc]

/-- `poloidalBeta3` is not dimensionless: it changes like the cube of the length. -/
theorem C78_poloidalBeta3 {p p' : Plasma K} {s b : K} (hs : 0 < s) (hb : b ≠ 0) (r : Rescaled p p' s b) :
    poloidalBeta3 p' = (poloidalBeta3 p).map (s ^ 3 * ·) := by
  have hs0 : s ≠ 0 := hs.ne'
  have hsb : s ^ 3 * b ^ 2 ≠ 0 := mul_ne_zero (pow_ne_zero _ hs0) (pow_ne_zero _ hb)
  rw [poloidalBeta3, poloidalBeta3, r.overVolume (b ^ 2) r.pressure, r.volume, (C49_scale p p' hs r.sep 360).1, r.mu0, r.current]
  cases overVolume p p.pressure <;> cases plasmaVolume p <;> cases Rgeometric p 360 <;> try rfl
  rename_i P V R0
  simp only [Except.map, bind, Except.bind]
  rw [show quotient (4 * (s ^ 3 * V) * (s ^ 3 * b ^ 2 * P)) (p.mu0 * (s * b * p.current) * (s * b * p.current) * (s * R0)) =
      quotient (s ^ 3 * (4 * V * P)) (p.mu0 * p.current * p.current * R0) by
    rw [← quotient_scale hsb (s ^ 3 * _)]
    congr 1 <;> ring]
  rw [quotient, quotient]
  split_ifs
  · rfl
  · show Except.ok _ = Except.ok _
    rw [mul_div_assoc]

/-- Non-vacuity: twice the size, three times the field. -/
def bigDiamond : Plasma ℚ :=
  { pi := 3, mu0 := 1, nx := 3, ny := 3, R := fun i => 2 * (i + 1), Z := fun i => 2 * ((i : ℚ) - 1), mask := none, Br := fun _ => 3,
    Bz := fun _ => 6, Btor := fun _ => 9, pressure := fun _ => 18, current := 30, sep := fun _ => [(6, 0), (3, 4), (2, 2), (4, -2)],
    axis := (4, 0), btorAt := fun _ _ => 9, fvac := 36 }

example : Rescaled diamond bigDiamond 2 3 := by
  constructor <;> (try intros) <;> norm_num [SepMap, diamond, bigDiamond]

example : poloidalBeta bigDiamond = poloidalBeta diamond ∧ poloidalBeta3 diamond ≠ poloidalBeta3 bigDiamond := by decide +kernel

end FreeGS.Global
