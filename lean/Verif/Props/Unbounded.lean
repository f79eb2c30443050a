import Verif.Lemmas.Representation
import Verif.Props.Hagenow

set_option linter.unusedSectionVars false

/-!
# C116: the free-boundary conditions give the flux in unbounded space
-/

namespace FreeGS.GS

open FreeGS.Critical (Domain linspaceAt)
open Set

/-- `F` is the flux of a plasma in unbounded space whose current density `J` flows within the domain only: it satisfies the Grad-Shafranov equation in the
whole half plane `R > 0`, is zero on the axis, and its field vanishes at infinity. `FR n` and `FZ n` are the `n`-th derivatives in `R` and in `Z`. -/
structure PlasmaFlux (d : Domain ℝ) (F : ℝ → ℝ → ℝ) (FR FZ : ℕ → ℝ → ℝ → ℝ) (J : ℝ → ℝ → ℝ) : Prop where
  regular : Regular F (FR 1) (FR 2) (FZ 1) (FZ 2)
  isolated : Isolated F (FR 1) (FZ 1)
  gs : ∀ R Z, 0 < R → FR 2 R Z - FR 1 R Z / R + FZ 2 R Z = -mu0 * R * J R Z
  within : ∀ R Z, 0 < R → J R Z ≠ 0 → R ∈ Ioo d.Rmin d.Rmax ∧ Z ∈ Ioo d.Zmin d.Zmax

/-! ## Lemmas -/

/-- What is not clipped is not near. -/
theorem near_clipped {R Z : ℝ} {P : ℝ × ℝ} (hR : 0 < R) (hP : 0 < P.1) (h1 : |R - P.1| ≤ P.1 * (1e-5 / 2)) (h2 : |Z - P.2| ≤ P.1 * (1e-5 / 2)) :
    ¬ Unclipped R Z P.1 P.2 := by
  rintro ⟨-, h⟩
  have hp : 0 < (P.1 + R) ^ 2 + (P.2 - Z) ^ 2 := by positivity
  rw [div_le_iff₀ hp] at h
  have s1 : (R - P.1) ^ 2 ≤ (P.1 * (1e-5 / 2)) ^ 2 := sq_le_sq' (abs_le.mp h1).1 (abs_le.mp h1).2
  have s2 : (Z - P.2) ^ 2 ≤ (P.1 * (1e-5 / 2)) ^ 2 := sq_le_sq' (abs_le.mp h2).1 (abs_le.mp h2).2
  norm_num at h s1 s2
  nlinarith [mul_pos hP hR, sq_nonneg (P.2 - Z), mul_pos hP hP, sq_nonneg R]

theorem plasma_flux (d : Domain ℝ) (h0 : 0 < d.Rmin) (hR : d.Rmin < d.Rmax) (hZ : d.Zmin < d.Zmax) (F : ℝ → ℝ → ℝ) (FR FZ : ℕ → ℝ → ℝ → ℝ)
    (J : ℝ → ℝ → ℝ) (h : PlasmaFlux d F FR FZ J) (P : ℝ × ℝ) (hP : 0 < P.1) {r : ℝ} (hr : 0 < r)
    (hz : ∀ R Z, 0 < R → |R - P.1| ≤ r → |Z - P.2| ≤ r → J R Z = 0) : F P.1 P.2 = (rectangle d hR hZ).flux J P :=
  isolated_flux (rectangle d hR hZ) h0 hP h.regular h.isolated J h.gs h.within hr hz

theorem plasma_cont {d : Domain ℝ} {F : ℝ → ℝ → ℝ} {FR FZ : ℕ → ℝ → ℝ → ℝ} {J : ℝ → ℝ → ℝ} (h : PlasmaFlux d F FR FZ J) :
    ContinuousOn (fun q : ℝ × ℝ => J q.1 q.2) {q | 0 < q.1} := by
  have hmu := mu0_pos
  have c : ContinuousOn (fun q : ℝ × ℝ => -((FR 2 q.1 q.2 - FR 1 q.1 q.2 / q.1 + FZ 2 q.1 q.2) / q.1) / mu0) {q | 0 < q.1} :=
    ((((h.regular.c2.sub (h.regular.c1.div continuousOn_fst half_ne)).add h.regular.c4).div continuousOn_fst half_ne).neg).div_const _
  refine c.congr fun q hq => ?_
  have h0 : 0 < q.1 := hq
  have := h0.ne'
  simp only [h.gs q.1 q.2 h0]
  field_simp

/-! ## The theorems -/

/-- **C116 (unique).** The current density determines the flux: two fluxes of plasmas in unbounded space with the same current density are the same. -/
theorem C116_unique (d : Domain ℝ) (F F' : ℝ → ℝ → ℝ) (FR FZ FR' FZ' : ℕ → ℝ → ℝ → ℝ) (J : ℝ → ℝ → ℝ) (h : PlasmaFlux d F FR FZ J)
    (h' : PlasmaFlux d F' FR' FZ' J) (R Z : ℝ) (hR : 0 < R) : F R Z = F' R Z := by
  have reg : Regular (fun R Z => F R Z - F' R Z) (fun R Z => FR 1 R Z - FR' 1 R Z) (fun R Z => FR 2 R Z - FR' 2 R Z)
      (fun R Z => FZ 1 R Z - FZ' 1 R Z) (fun R Z => FZ 2 R Z - FZ' 2 R Z) := by
    obtain ⟨a0, a1, a2, a3, a4, b1, b2, b3, b4⟩ := h.regular
    obtain ⟨a0', a1', a2', a3', a4', b1', b2', b3', b4'⟩ := h'.regular
    exact ⟨a0.sub a0', a1.sub a1', a2.sub a2', a3.sub a3', a4.sub a4', fun R Z hR => (b1 R Z hR).sub (b1' R Z hR),
      fun R Z hR => (b2 R Z hR).sub (b2' R Z hR), fun R Z hR => (b3 R Z hR).sub (b3' R Z hR), fun R Z hR => (b4 R Z hR).sub (b4' R Z hR)⟩
  have two : ∀ {x y a b : ℝ}, |x| ≤ a / 2 * b → |y| ≤ a / 2 * b → |x - y| ≤ a * b := fun {x y a b} h1 h2 =>
    (abs_sub _ _).trans (by linarith)
  have two' : ∀ {x y a : ℝ}, |x| ≤ a / 2 → |y| ≤ a / 2 → |x - y| ≤ a := fun {x y a} h1 h2 => (abs_sub _ _).trans (by linarith)
  have iso : Isolated (fun R Z => F R Z - F' R Z) (fun R Z => FR 1 R Z - FR' 1 R Z) (fun R Z => FZ 1 R Z - FZ' 1 R Z) := by
    constructor
    · intro L η hη
      obtain ⟨δ, hδ, e⟩ := h.isolated.axis L (η / 2) (by positivity)
      obtain ⟨δ', hδ', e'⟩ := h'.isolated.axis L (η / 2) (by positivity)
      refine ⟨min δ δ', lt_min hδ hδ', fun R Z hR hRδ hZ => ?_⟩
      obtain ⟨e1, e2⟩ := e R Z hR (hRδ.trans_le (min_le_left _ _)) hZ
      obtain ⟨e3, e4⟩ := e' R Z hR (hRδ.trans_le (min_le_right _ _)) hZ
      exact ⟨two' e1 e3, two' e2 e4⟩
    · intro η hη
      obtain ⟨L, e⟩ := h.isolated.far (η / 2) (by positivity)
      obtain ⟨L', e'⟩ := h'.isolated.far (η / 2) (by positivity)
      refine ⟨max L L', fun R Z hR hL => ?_⟩
      obtain ⟨e1, e2, e3⟩ := e R Z hR ((le_max_left _ _).trans hL)
      obtain ⟨e4, e5, e6⟩ := e' R Z hR ((le_max_right _ _).trans hL)
      exact ⟨two e1 e4, two' e2 e5, two' e3 e6⟩
  have key := isolated_flux (P := (R, Z)) ⟨1, 1, 0, 0, le_rfl, le_rfl⟩ one_pos hR reg iso (fun _ _ => 0)
    (fun R Z hR => by
      have e := h.gs R Z hR
      have e' := h'.gs R Z hR
      have hne := hR.ne'
      rw [mul_zero]
      have : FR 2 R Z - FR' 2 R Z - (FR 1 R Z - FR' 1 R Z) / R + (FZ 2 R Z - FZ' 2 R Z) =
          (FR 2 R Z - FR 1 R Z / R + FZ 2 R Z) - (FR' 2 R Z - FR' 1 R Z / R + FZ' 2 R Z) := by ring
      rw [this, e, e', sub_self])
    (fun _ _ _ hne => absurd rfl hne) one_pos fun _ _ _ _ _ => rfl
  simp only [mul_zero, Rectangle.integral, intervalIntegral.integral_same] at key
  linarith

/-- **C116 (Green's function).** Where nothing is clipped, the sum of Green's function over the current density, which the free-boundary condition
approximates, is the flux in unbounded space. -/
theorem C116_green (d : Domain ℝ) (h0 : 0 < d.Rmin) (hR : d.Rmin < d.Rmax) (hZ : d.Zmin < d.Zmax) (F : ℝ → ℝ → ℝ) (FR FZ : ℕ → ℝ → ℝ → ℝ)
    (J : ℝ → ℝ → ℝ) (h : PlasmaFlux d F FR FZ J) (P : ℝ × ℝ) (hP : 0 < P.1) (hJ : ∀ R Z, 0 < R → J R Z ≠ 0 → Unclipped R Z P.1 P.2) :
    F P.1 P.2 = (rectangle d hR hZ).integral fun q => greens ellipticK ellipticE q.1 q.2 P.1 P.2 * J q.1 q.2 := by
  rw [plasma_flux d h0 hR hZ F FR FZ J h P hP (r := P.1 * (1e-5 / 2)) (by positivity) fun R Z hR h1 h2 => by
    by_contra hne
    exact near_clipped hR hP h1 h2 (hJ R Z hR hne)]
  simp only [Rectangle.flux, Rectangle.integral]
  refine intervalIntegral.integral_congr fun x hx => intervalIntegral.integral_congr fun y hy => ?_
  rw [uIcc_of_le (rectangle d hR hZ).hab] at hx
  by_cases hz : J x y = 0
  · simp [hz]
  · have hx0 : 0 < x := h0.trans_le hx.1
    rw [(C67_greens_is_filament_flux x y P.1 P.2 hP hx0 (hJ x y hx0 hz)).1]

/-- **C116 (solve).** A free-boundary solve converges under refinement to the flux of the plasma in unbounded space: the edge of the domain leaves no trace. -/
theorem C116_solve (d : Domain ℝ) (h0 : 0 < d.Rmin) (hR : d.Rmin < d.Rmax) (hZ : d.Zmin < d.Zmax)
    (F : ℝ → ℝ → ℝ) (FR FZ : ℕ → ℝ → ℝ → ℝ) (J : ℝ → ℝ → ℝ) (h : PlasmaFlux d F FR FZ J) (hF : SmoothFlux d F FR FZ) (M3 M4 N4 : ℝ)
    (hM3 : ∀ R ∈ Ioo d.Rmin d.Rmax, ∀ Z ∈ Icc d.Zmin d.Zmax, |FR 3 R Z| ≤ M3)
    (hM4 : ∀ R ∈ Ioo d.Rmin d.Rmax, ∀ Z ∈ Icc d.Zmin d.Zmax, |FR 4 R Z| ≤ M4)
    (hN4 : ∀ R ∈ Icc d.Rmin d.Rmax, ∀ Z ∈ Ioo d.Zmin d.Zmax, |FZ 4 R Z| ≤ N4)
    (hJ : ∀ R Z, 0 < R → J R Z ≠ 0 → ∀ P ∈ (rectangle d hR hZ).edge, Unclipped R Z P.1 P.2) (tol : ℝ) (htol : 0 < tol) :
    ∃ n : ℕ, ∀ k l, n ≤ k → n ≤ l → ∀ psi0 : Arr ℝ, ∃ psi1 : Arr ℝ,
      freeBoundary (greens ellipticK ellipticE) (2 ^ k + 1) (2 ^ l + 1) (linspaceAt d.Rmin d.Rmax (2 ^ k + 1))
        (linspaceAt d.Zmin d.Zmax (2 ^ l + 1)) (fun c => J (gridR d (2 ^ k + 1) c.1) (gridZ d (2 ^ l + 1) c.2)) psi0 = .ok psi1 ∧
      ∀ factorized : (ℕ → ℝ) → ℕ → ℝ,
        (∀ b, ∀ r < (2 ^ k + 1) * (2 ^ l + 1),
          matVec ((2 ^ k + 1) * (2 ^ l + 1)) (gsSparse d (2 ^ k + 1) (2 ^ l + 1)) (factorized b) r = b r) →
        let psi := solve mu0 (2 ^ k + 1) (2 ^ l + 1) (linspaceAt d.Rmin d.Rmax (2 ^ k + 1)) (fun _ _ => psi1)
          (fun _ b => mgDirect factorized (2 ^ l + 1) b) (fun c => J (gridR d (2 ^ k + 1) c.1) (gridZ d (2 ^ l + 1) c.2)) psi0
        ∀ c, OnGrid (2 ^ k + 1) (2 ^ l + 1) c → |psi c - F (gridR d (2 ^ k + 1) c.1) (gridZ d (2 ^ l + 1) c.2)| < tol := by
  have pos : ∀ q ∈ (rectangle d hR hZ).set, 0 < q.1 := fun q hq => h0.trans_le hq.1.1
  refine C110_physical d h0 hR hZ F FR FZ J hF (fun R hr Z _ => h.gs R Z (h0.trans hr.1)) M3 M4 N4 hM3 hM4 hN4
    ((plasma_cont h).mono fun q hq => pos q hq) (fun q hq P hP hne => hJ q.1 q.2 (pos q hq) hne P hP) (fun P hP => ?_) tol htol
  have hP0 := pos P hP.1
  exact plasma_flux d h0 hR hZ F FR FZ J h P hP0 (r := P.1 * (1e-5 / 2)) (by positivity) fun R Z hR h1 h2 => by
    by_contra hne
    exact near_clipped hR hP0 h1 h2 (hJ R Z hR hne P hP)

/-- A flux with bounded derivatives changes little. -/
theorem flux_step {F FR FZ : ℝ → ℝ → ℝ} {P Q : ℝ × ℝ} {S e : ℝ} (hP : e < P.1) (h1 : |Q.1 - P.1| ≤ e) (h2 : |Q.2 - P.2| ≤ e)
    (d1 : ∀ R Z, 0 < R → HasDerivAt (fun x => F x Z) (FR R Z) R) (d2 : ∀ R Z, 0 < R → HasDerivAt (F R) (FZ R Z) Z)
    (hS : ∀ R Z, |R - P.1| ≤ e → |Z - P.2| ≤ e → |FR R Z| ≤ S ∧ |FZ R Z| ≤ S) : |F Q.1 Q.2 - F P.1 P.2| ≤ 2 * e * S := by
  have he : 0 ≤ e := (abs_nonneg _).trans h1
  have hS0 : 0 ≤ S := (abs_nonneg _).trans (hS P.1 P.2 (by simpa using he) (by simpa using he)).1
  have p1 : P.1 ∈ Icc (P.1 - e) (P.1 + e) := ⟨by linarith, by linarith⟩
  have p2 : P.2 ∈ Icc (P.2 - e) (P.2 + e) := ⟨by linarith, by linarith⟩
  have q1 : Q.1 ∈ Icc (P.1 - e) (P.1 + e) := by have := abs_le.mp h1; exact ⟨by linarith, by linarith⟩
  have q2 : Q.2 ∈ Icc (P.2 - e) (P.2 + e) := by have := abs_le.mp h2; exact ⟨by linarith, by linarith⟩
  have a1 : |F Q.1 P.2 - F P.1 P.2| ≤ S * |Q.1 - P.1| := by
    have := (convex_Icc (P.1 - e) (P.1 + e)).norm_image_sub_le_of_norm_hasDerivWithin_le (f := fun x => F x P.2) (f' := fun x => FR x P.2) (C := S)
      (fun x hx => (d1 x P.2 (by linarith [hx.1])).hasDerivWithinAt)
      (fun x hx => (hS x P.2 (by rw [abs_le]; constructor <;> linarith [hx.1, hx.2]) (by simpa using he)).1) p1 q1
    exact this
  have a2 : |F Q.1 Q.2 - F Q.1 P.2| ≤ S * |Q.2 - P.2| := by
    have := (convex_Icc (P.2 - e) (P.2 + e)).norm_image_sub_le_of_norm_hasDerivWithin_le (f := F Q.1) (f' := FZ Q.1) (C := S)
      (fun x _ => (d2 Q.1 x (by linarith [q1.1])).hasDerivWithinAt)
      (fun x hx => (hS Q.1 x h1 (by rw [abs_le]; constructor <;> linarith [hx.1, hx.2])).2) p2 q2
    exact this
  have b1 : S * |Q.1 - P.1| ≤ S * e := mul_le_mul_of_nonneg_left h1 hS0
  have b2 : S * |Q.2 - P.2| ≤ S * e := mul_le_mul_of_nonneg_left h2 hS0
  calc |F Q.1 Q.2 - F P.1 P.2| ≤ |F Q.1 Q.2 - F Q.1 P.2| + |F Q.1 P.2 - F P.1 P.2| := abs_sub_le _ _ _
    _ ≤ 2 * e * S := by linarith

/-- **C116 (von Hagenow).** With von Hagenow's condition the solve converges to within a fiftieth of the greatest derivative of the flux near the edge: the
values on the edge are those of the flux one centimetre outside. -/
theorem C116_hagenow (d : Domain ℝ) (h0 : 1 / 50 ≤ d.Rmin) (h1 : d.Rmax ≤ 100) (h2 : d.Zmax - d.Zmin ≤ 100) (hR : d.Rmin < d.Rmax) (hZ : d.Zmin < d.Zmax)
    (U : ℝ → ℝ → ℝ) (UR UZ : ℕ → ℝ → ℝ → ℝ) (J : ℝ → ℝ → ℝ) (hU : Smooth4 (rectangle d hR hZ) U UR UZ)
    (hzero : ∀ q ∈ (rectangle d hR hZ).edge, U q.1 q.2 = 0)
    (hJ : ∀ q ∈ (rectangle d hR hZ).set, UR 2 q.1 q.2 - UR 1 q.1 q.2 / q.1 + UZ 2 q.1 q.2 = q.1 * J q.1 q.2)
    (F : ℝ → ℝ → ℝ) (FR FZ : ℕ → ℝ → ℝ → ℝ) (h : PlasmaFlux d F FR FZ J) (hF : SmoothFlux d F FR FZ) (M3 M4 N4 : ℝ)
    (hM3 : ∀ R ∈ Ioo d.Rmin d.Rmax, ∀ Z ∈ Icc d.Zmin d.Zmax, |FR 3 R Z| ≤ M3)
    (hM4 : ∀ R ∈ Ioo d.Rmin d.Rmax, ∀ Z ∈ Icc d.Zmin d.Zmax, |FR 4 R Z| ≤ M4)
    (hN4 : ∀ R ∈ Icc d.Rmin d.Rmax, ∀ Z ∈ Ioo d.Zmin d.Zmax, |FZ 4 R Z| ≤ N4)
    (S : ℝ) (hS : ∀ P ∈ (rectangle d hR hZ).edge, ∀ R Z, |R - P.1| ≤ 1 / 100 → |Z - P.2| ≤ 1 / 100 → |FR 1 R Z| ≤ S ∧ |FZ 1 R Z| ≤ S)
    (tol : ℝ) (htol : 0 < tol) :
    ∃ n : ℕ, ∀ k l, n ≤ k → n ≤ l → ∀ factorized : (ℕ → ℝ) → ℕ → ℝ,
      (∀ b, ∀ r < (2 ^ k + 1) * (2 ^ l + 1),
        matVec ((2 ^ k + 1) * (2 ^ l + 1)) (gsSparse d (2 ^ k + 1) (2 ^ l + 1)) (factorized b) r = b r) → ∀ psi0 : Arr ℝ, ∃ psi1 : Arr ℝ,
      freeBoundaryHagenow Real.sqrt (greens ellipticK ellipticE) (fun _ b => mgDirect factorized (2 ^ l + 1) b) (2 ^ k + 1) (2 ^ l + 1)
        (linspaceAt d.Rmin d.Rmax (2 ^ k + 1)) (linspaceAt d.Zmin d.Zmax (2 ^ l + 1))
        (fun c => J (gridR d (2 ^ k + 1) c.1) (gridZ d (2 ^ l + 1) c.2)) psi0 = .ok psi1 ∧
      let psi := solve mu0 (2 ^ k + 1) (2 ^ l + 1) (linspaceAt d.Rmin d.Rmax (2 ^ k + 1)) (fun _ _ => psi1)
        (fun _ b => mgDirect factorized (2 ^ l + 1) b) (fun c => J (gridR d (2 ^ k + 1) c.1) (gridZ d (2 ^ l + 1) c.2)) psi0
      ∀ c, OnGrid (2 ^ k + 1) (2 ^ l + 1) c → |psi c - F (gridR d (2 ^ k + 1) c.1) (gridZ d (2 ^ l + 1) c.2)| < S / 50 + tol := by
  have ha0 : 0 < d.Rmin := by linarith
  refine C111_solve d h0 h1 h2 hR hZ U UR UZ J hU hzero hJ F FR FZ hF (fun R hr Z _ => h.gs R Z (ha0.trans hr.1)) M3 M4 N4 hM3 hM4 hN4 (S / 50)
    (fun P hP Q hQ e1 e2 => ?_) tol htol
  have hQ0 := (unclipped_around (rectangle d hR hZ) h0 h1 h2 hQ hP.1).1
  have far := (around_apart _ hQ).2
  rw [← plasma_flux d ha0 hR hZ F FR FZ J h Q hQ0 (r := 1 / 200) (by norm_num) fun R Z hR h1 h2 => by
    by_contra hne
    have m := h.within R Z hR hne
    have := far (R, Z) ⟨⟨m.1.1.le, m.1.2.le⟩, m.2.1.le, m.2.2.le⟩
    have a := abs_le.mp h1
    have b := abs_le.mp h2
    simp only at this
    nlinarith]
  have := flux_step (P := P) (Q := Q) (e := 1 / 100) (lt_of_lt_of_le (show (1 / 100 : ℝ) < d.Rmin by linarith) hP.1.1.1) e1 e2 h.regular.d1 h.regular.d3 (hS P hP)
  linarith

/-! ## Cases that meet the hypotheses -/

section Examples

/-! The smooth bump of flux of C110. -/

theorem bump_within {R Z : ℝ} (hne : bumpJ R Z ≠ 0) : (5 / 4 ≤ R ∧ R ≤ 7 / 4) ∧ 1 / 4 ≤ Z ∧ Z ≤ 3 / 4 := by
  have : ¬ (1 / 4 < |R - 3 / 2| ∨ 1 / 4 < |Z - 1 / 2|) := fun h => hne (bumpJ_outside h)
  push Not at this
  obtain ⟨a, b⟩ := this
  rw [abs_le] at a b
  exact ⟨⟨by linarith [a.1], by linarith [a.2]⟩, by linarith [b.1], by linarith [b.2]⟩

theorem far_outside {R Z : ℝ} (h : 2 ≤ max R |Z|) : 1 / 4 < |R - 3 / 2| ∨ 1 / 4 < |Z - 1 / 2| := by
  rcases le_max_iff.mp h with h | h
  · left; rw [lt_abs]; left; linarith
  · right
    rcases le_abs.mp h with h | h
    · rw [lt_abs]; left; linarith
    · rw [lt_abs]; right; linarith

theorem axis_outside {R Z : ℝ} (h : R < 1) : 1 / 4 < |R - 3 / 2| ∨ 1 / 4 < |Z - 1 / 2| := by
  left; rw [lt_abs]; right; linarith

theorem bump_plasma : PlasmaFlux exD1 bumpF bumpFR bumpFZ bumpJ := by
  have hmu := mu0_pos
  refine ⟨⟨?_, (bumpFR_cont 1).continuousOn, (bumpFR_cont 2).continuousOn, (bumpFZ_cont 1).continuousOn, (bumpFZ_cont 2).continuousOn,
    fun R Z _ => ?_, fun R Z _ => bumpFR_deriv 1 R Z, fun R Z _ => ?_, fun R Z _ => bumpFZ_deriv 1 R Z⟩, ⟨fun L η hη => ?_, fun η hη => ?_⟩,
    fun R Z hR => ?_, fun R Z _ hne => ?_⟩
  · rw [bumpF_zero.1]; exact (bumpFR_cont 0).continuousOn
  · rw [bumpF_zero.1]; exact bumpFR_deriv 0 R Z
  · rw [bumpF_zero.2]; exact bumpFZ_deriv 0 R Z
  · refine ⟨1, one_pos, fun R Z _ hR _ => ?_⟩
    have o := axis_outside (Z := Z) hR
    rw [bumpF_zero.1, (bump_outside 0 o).1, (bump_outside 1 o).1, abs_zero]
    exact ⟨hη.le, hη.le⟩
  · refine ⟨2, fun R Z _ hL => ?_⟩
    have o := far_outside hL
    rw [bumpF_zero.1, (bump_outside 0 o).1, (bump_outside 1 o).1, (bump_outside 1 o).2, abs_zero]
    exact ⟨mul_nonneg hη.le (by linarith), hη.le, hη.le⟩
  · have := hR.ne'
    rw [bumpJ]
    field_simp
  · obtain ⟨⟨a, b⟩, c, e⟩ := bump_within hne
    simp only [exD1]
    exact ⟨⟨by linarith, by linarith⟩, by linarith, by linarith⟩

theorem bump_smooth : SmoothFlux exD1 bumpF bumpFR bumpFZ := by
  refine ⟨fun Z _ => ?_, fun R _ => ?_⟩
  · rw [bumpF_zero.1]
    exact ⟨fun x _ => (bumpFR_deriv 0 x Z).continuousAt.continuousWithinAt, fun x _ => bumpFR_deriv 0 x Z, fun x _ => bumpFR_deriv 1 x Z,
      fun x _ => bumpFR_deriv 2 x Z, fun x _ => bumpFR_deriv 3 x Z⟩
  · rw [bumpF_zero.2]
    exact ⟨fun x _ => (bumpFZ_deriv 0 R x).continuousAt.continuousWithinAt, fun x _ => bumpFZ_deriv 0 R x, fun x _ => bumpFZ_deriv 1 R x,
      fun x _ => bumpFZ_deriv 2 R x, fun x _ => bumpFZ_deriv 3 R x⟩

/-- A case of `C116_solve`. -/
example (h1 : exD1.Rmin < exD1.Rmax) (h2 : exD1.Zmin < exD1.Zmax) : ∃ n : ℕ, ∀ k l, n ≤ k → n ≤ l → ∃ psi1 : Arr ℝ,
    freeBoundary (greens ellipticK ellipticE) (2 ^ k + 1) (2 ^ l + 1) (linspaceAt exD1.Rmin exD1.Rmax (2 ^ k + 1)) (linspaceAt exD1.Zmin exD1.Zmax (2 ^ l + 1))
      (fun c => bumpJ (gridR exD1 (2 ^ k + 1) c.1) (gridZ exD1 (2 ^ l + 1) c.2)) (fun _ => 0) = .ok psi1 := by
  have oo : ∀ {a b x : ℝ}, x ∈ Set.Ioo a b → x ∈ Set.Icc a b := fun h => ⟨h.1.le, h.2.le⟩
  have hK : IsCompact (Icc exD1.Rmin exD1.Rmax ×ˢ Icc exD1.Zmin exD1.Zmax) := isCompact_Icc.prod isCompact_Icc
  obtain ⟨M3, b3⟩ := hK.exists_bound_of_continuousOn (bumpFR_cont 3).continuousOn
  obtain ⟨M4, b4⟩ := hK.exists_bound_of_continuousOn (bumpFR_cont 4).continuousOn
  obtain ⟨N4, c4⟩ := hK.exists_bound_of_continuousOn (bumpFZ_cont 4).continuousOn
  obtain ⟨n, hn⟩ := C116_solve exD1 (by norm_num [exD1]) h1 h2 bumpF bumpFR bumpFZ bumpJ bump_plasma bump_smooth M3 M4 N4
    (fun R hR Z hZ => b3 (R, Z) ⟨oo hR, hZ⟩) (fun R hR Z hZ => b4 (R, Z) ⟨oo hR, hZ⟩) (fun R hR Z hZ => c4 (R, Z) ⟨hR, oo hZ⟩)
    (fun R Z _ hne P hP => by
      obtain ⟨⟨a1, a2⟩, a3, a4⟩ := bump_within hne
      obtain ⟨⟨⟨p1, p2⟩, p3, p4⟩, he⟩ := hP
      simp only [rectangle, exD1] at p1 p2 p3 p4 he
      have far : 1 / 16 ≤ (P.1 - R) ^ 2 + (P.2 - Z) ^ 2 := by
        obtain h | h | h | h := he <;> rw [h] <;> nlinarith
      have hp : 0 < (P.1 + R) ^ 2 + (P.2 - Z) ^ 2 := by positivity
      have hle : (P.1 + R) ^ 2 + (P.2 - Z) ^ 2 ≤ 20 := by nlinarith
      constructor
      · rw [le_div_iff₀ hp]
        norm_num
        nlinarith
      · rw [div_le_iff₀ hp]
        norm_num
        nlinarith) (1 / 100) (by norm_num)
  refine ⟨n, fun k l hk hl => ?_⟩
  obtain ⟨psi1, hp, -⟩ := hn k l hk hl fun _ => 0
  exact ⟨psi1, hp⟩

/-- A case of `C116_hagenow`: near the edge of the square this flux has no derivatives, so the solve comes within any tolerance. -/
example (h1 : exD1.Rmin < exD1.Rmax) (h2 : exD1.Zmin < exD1.Zmax) (tol : ℝ) (htol : 0 < tol) :
    ∃ n : ℕ, ∀ k l, n ≤ k → n ≤ l → ∀ factorized : (ℕ → ℝ) → ℕ → ℝ,
      (∀ b, ∀ r < (2 ^ k + 1) * (2 ^ l + 1),
        matVec ((2 ^ k + 1) * (2 ^ l + 1)) (gsSparse exD1 (2 ^ k + 1) (2 ^ l + 1)) (factorized b) r = b r) → ∃ psi1 : Arr ℝ,
      ∀ c, OnGrid (2 ^ k + 1) (2 ^ l + 1) c → |solve mu0 (2 ^ k + 1) (2 ^ l + 1) (linspaceAt exD1.Rmin exD1.Rmax (2 ^ k + 1)) (fun _ _ => psi1)
        (fun _ b => mgDirect factorized (2 ^ l + 1) b) (fun c => bumpJ (gridR exD1 (2 ^ k + 1) c.1) (gridZ exD1 (2 ^ l + 1) c.2)) (fun _ => 0) c -
          bumpF (gridR exD1 (2 ^ k + 1) c.1) (gridZ exD1 (2 ^ l + 1) c.2)| < 0 / 50 + tol := by
  have hmu := mu0_pos
  have oo : ∀ {a b x : ℝ}, x ∈ Set.Ioo a b → x ∈ Set.Icc a b := fun h => ⟨h.1.le, h.2.le⟩
  have hK : IsCompact (Icc exD1.Rmin exD1.Rmax ×ˢ Icc exD1.Zmin exD1.Zmax) := isCompact_Icc.prod isCompact_Icc
  obtain ⟨M3, b3⟩ := hK.exists_bound_of_continuousOn (bumpFR_cont 3).continuousOn
  obtain ⟨M4, b4⟩ := hK.exists_bound_of_continuousOn (bumpFR_cont 4).continuousOn
  obtain ⟨N4, c4⟩ := hK.exists_bound_of_continuousOn (bumpFZ_cont 4).continuousOn
  have out : ∀ P ∈ (rectangle exD1 h1 h2).edge, ∀ R Z, |R - P.1| ≤ 1 / 100 → |Z - P.2| ≤ 1 / 100 → 1 / 4 < |R - 3 / 2| ∨ 1 / 4 < |Z - 1 / 2| := by
    intro P hP R Z hR hZ
    have a := abs_le.mp hR
    have b := abs_le.mp hZ
    obtain ⟨-, h | h | h | h⟩ := hP <;> simp only [rectangle, exD1] at h
    · left; rw [lt_abs]; right; linarith [a.2]
    · left; rw [lt_abs]; left; linarith [a.1]
    · right; rw [lt_abs]; right; linarith [b.2]
    · right; rw [lt_abs]; left; linarith [b.1]
  have out0 : ∀ P ∈ (rectangle exD1 h1 h2).edge, 1 / 4 < |P.1 - 3 / 2| ∨ 1 / 4 < |P.2 - 1 / 2| := fun P hP => out P hP P.1 P.2 (by norm_num) (by norm_num)
  obtain ⟨n, hn⟩ := C116_hagenow exD1 (by norm_num [exD1]) (by norm_num [exD1]) (by norm_num [exD1]) h1 h2 (fun R Z => -(1 / mu0) * bumpF R Z)
    (fun n R Z => -(1 / mu0) * bumpFR n R Z) (fun n R Z => -(1 / mu0) * bumpFZ n R Z) bumpJ
    ⟨fun n _ q _ => (bumpFR_deriv n q.1 q.2).const_mul _, fun n _ q _ => (bumpFZ_deriv n q.1 q.2).const_mul _,
      fun n _ => ((bumpFR_cont n).const_mul _).continuousOn, fun n _ => ((bumpFZ_cont n).const_mul _).continuousOn, by rw [bumpF_zero.1], by rw [bumpF_zero.2]⟩
    (fun q hq => by rw [bumpF_zero.1, (bump_outside 0 (out0 q hq)).1, mul_zero])
    (fun q hq => by
      have : 0 < q.1 := lt_of_lt_of_le (show (0 : ℝ) < exD1.Rmin by norm_num [exD1]) hq.1.1
      have := this.ne'
      rw [bumpJ]
      field_simp
      ring) bumpF bumpFR bumpFZ bump_plasma bump_smooth M3 M4 N4
    (fun R hR Z hZ => b3 (R, Z) ⟨oo hR, hZ⟩) (fun R hR Z hZ => b4 (R, Z) ⟨oo hR, hZ⟩) (fun R hR Z hZ => c4 (R, Z) ⟨hR, oo hZ⟩) 0
    (fun P hP R Z hR hZ => by rw [(bump_outside 1 (out P hP R Z hR hZ)).1, (bump_outside 1 (out P hP R Z hR hZ)).2]; simp) tol htol
  refine ⟨n, fun k l hk hl factorized hfac => ?_⟩
  obtain ⟨psi1, -, h⟩ := hn k l hk hl factorized hfac fun _ => 0
  exact ⟨psi1, h⟩

/-! A plasma with a field outside: the flux of a filament, cut off smoothly around it. Its current density is a smooth distribution in place of the filament. -/

theorem cut_cont {P : ℝ × ℝ} {w f : ℝ → ℝ → ℝ} {r : ℝ} (hr : 0 < r) (hw : Continuous fun q : ℝ × ℝ => w q.1 q.2)
    (hz : ∀ R Z, |R - P.1| < r → |Z - P.2| < r → w R Z = 0) (hf : ContinuousOn (fun q : ℝ × ℝ => f q.1 q.2) (offPoint P)) :
    ContinuousOn (fun q : ℝ × ℝ => w q.1 q.2 * f q.1 q.2) {q | 0 < q.1} := by
  intro q hq
  refine ContinuousAt.continuousWithinAt ?_
  by_cases e : q = P
  · have ev : ∀ᶠ x : ℝ × ℝ in nhds q, |x.1 - P.1| < r ∧ |x.2 - P.2| < r := by
      rw [e]
      have c1 : ContinuousAt (fun x : ℝ × ℝ => |x.1 - P.1|) P := by fun_prop
      have c2 : ContinuousAt (fun x : ℝ × ℝ => |x.2 - P.2|) P := by fun_prop
      have z1 : |P.1 - P.1| < r := by simpa using hr
      have z2 : |P.2 - P.2| < r := by simpa using hr
      exact (c1.eventually_lt continuousAt_const z1).and (c2.eventually_lt continuousAt_const z2)
    refine ContinuousAt.congr (f := fun _ => (0 : ℝ)) continuousAt_const ?_
    filter_upwards [ev] with x hx
    rw [hz x.1 x.2 hx.1 hx.2, zero_mul]
  · have op : IsOpen (offPoint P) := (isOpen_lt continuous_const continuous_fst).inter isOpen_ne
    exact hw.continuousAt.mul (hf.continuousAt (op.mem_nhds ⟨hq, e⟩))

theorem cut_deriv {w f : ℝ → ℝ} {w' f' x r : ℝ} (hr : 0 < r) (h : (∀ y, |y - x| < r → w y = 0) ∧ w' = 0 ∨ HasDerivAt w w' x ∧ HasDerivAt f f' x) :
    HasDerivAt (fun y => w y * f y) (w' * f x + w x * f') x := by
  rcases h with ⟨h, h'⟩ | ⟨h1, h2⟩
  · rw [h', h x (by simpa using hr), zero_mul, zero_mul, add_zero]
    have c : ContinuousAt (fun y : ℝ => |y - x|) x := by fun_prop
    have z : |x - x| < r := by simpa using hr
    refine (hasDerivAt_const x (0 : ℝ)).congr_of_eventuallyEq ?_
    filter_upwards [c.eventually_lt continuousAt_const z] with y hy
    rw [h y hy, zero_mul]
  · exact h1.mul h2

/-- A cutoff with its derivatives, zero near `P`. -/
structure Cutoff (P : ℝ × ℝ) (r : ℝ) (w wR wRR wZ wZZ : ℝ → ℝ → ℝ) : Prop where
  r0 : 0 < r
  c0 : Continuous fun q : ℝ × ℝ => w q.1 q.2
  c1 : Continuous fun q : ℝ × ℝ => wR q.1 q.2
  c2 : Continuous fun q : ℝ × ℝ => wRR q.1 q.2
  c3 : Continuous fun q : ℝ × ℝ => wZ q.1 q.2
  c4 : Continuous fun q : ℝ × ℝ => wZZ q.1 q.2
  d1 : ∀ R Z, HasDerivAt (fun x => w x Z) (wR R Z) R
  d2 : ∀ R Z, HasDerivAt (fun x => wR x Z) (wRR R Z) R
  d3 : ∀ R Z, HasDerivAt (w R) (wZ R Z) Z
  d4 : ∀ R Z, HasDerivAt (wZ R) (wZZ R Z) Z
  zero : ∀ R Z, |R - P.1| < r → |Z - P.2| < r → w R Z = 0 ∧ wR R Z = 0 ∧ wRR R Z = 0 ∧ wZ R Z = 0 ∧ wZZ R Z = 0

theorem cut_regular {P : ℝ × ℝ} {r : ℝ} {w wR wRR wZ wZZ f fR fRR fZ fZZ : ℝ → ℝ → ℝ} (h : Cutoff P r w wR wRR wZ wZZ)
    (k0 : ContinuousOn (fun q : ℝ × ℝ => f q.1 q.2) (offPoint P)) (k1 : ContinuousOn (fun q : ℝ × ℝ => fR q.1 q.2) (offPoint P))
    (k2 : ContinuousOn (fun q : ℝ × ℝ => fRR q.1 q.2) (offPoint P)) (k3 : ContinuousOn (fun q : ℝ × ℝ => fZ q.1 q.2) (offPoint P))
    (k4 : ContinuousOn (fun q : ℝ × ℝ => fZZ q.1 q.2) (offPoint P))
    (e1 : ∀ R Z, (R, Z) ∈ offPoint P → HasDerivAt (fun x => f x Z) (fR R Z) R) (e2 : ∀ R Z, (R, Z) ∈ offPoint P → HasDerivAt (fun x => fR x Z) (fRR R Z) R)
    (e3 : ∀ R Z, (R, Z) ∈ offPoint P → HasDerivAt (f R) (fZ R Z) Z) (e4 : ∀ R Z, (R, Z) ∈ offPoint P → HasDerivAt (fZ R) (fZZ R Z) Z) :
    Regular (fun R Z => w R Z * f R Z) (fun R Z => wR R Z * f R Z + w R Z * fR R Z)
      (fun R Z => wRR R Z * f R Z + wR R Z * fR R Z + (wR R Z * fR R Z + w R Z * fRR R Z)) (fun R Z => wZ R Z * f R Z + w R Z * fZ R Z)
      (fun R Z => wZZ R Z * f R Z + wZ R Z * fZ R Z + (wZ R Z * fZ R Z + w R Z * fZZ R Z)) := by
  have z0 : ∀ R Z, |R - P.1| < r → |Z - P.2| < r → w R Z = 0 := fun R Z a b => (h.zero R Z a b).1
  have z1 : ∀ R Z, |R - P.1| < r → |Z - P.2| < r → wR R Z = 0 := fun R Z a b => (h.zero R Z a b).2.1
  have z2 : ∀ R Z, |R - P.1| < r → |Z - P.2| < r → wRR R Z = 0 := fun R Z a b => (h.zero R Z a b).2.2.1
  have z3 : ∀ R Z, |R - P.1| < r → |Z - P.2| < r → wZ R Z = 0 := fun R Z a b => (h.zero R Z a b).2.2.2.1
  have z4 : ∀ R Z, |R - P.1| < r → |Z - P.2| < r → wZZ R Z = 0 := fun R Z a b => (h.zero R Z a b).2.2.2.2
  have r0 := h.r0
  have self : ∀ x : ℝ, |x - x| < r := fun x => by simpa using r0
  -- along a line
  have lR : ∀ {u v g g' : ℝ → ℝ → ℝ} (R Z : ℝ), 0 < R → (∀ R Z, |R - P.1| < r → |Z - P.2| < r → u R Z = 0) → (∀ R Z, |R - P.1| < r → |Z - P.2| < r → v R Z = 0) →
      HasDerivAt (fun x => u x Z) (v R Z) R → ((R, Z) ∈ offPoint P → HasDerivAt (fun x => g x Z) (g' R Z) R) →
      HasDerivAt (fun x => u x Z * g x Z) (v R Z * g R Z + u R Z * g' R Z) R := fun {u v g g'} R Z hR hu hv du dg => by
    refine cut_deriv (w := fun x => u x Z) (f := fun x => g x Z) r0 ?_
    by_cases e : (R, Z) = P
    · have eR : R = P.1 := congrArg Prod.fst e
      have eZ : Z = P.2 := congrArg Prod.snd e
      left
      rw [eR, eZ]
      exact ⟨fun y hy => hu y P.2 hy (self _), hv P.1 P.2 (self _) (self _)⟩
    · exact Or.inr ⟨du, dg ⟨hR, e⟩⟩
  have lZ : ∀ {u v g g' : ℝ → ℝ → ℝ} (R Z : ℝ), 0 < R → (∀ R Z, |R - P.1| < r → |Z - P.2| < r → u R Z = 0) → (∀ R Z, |R - P.1| < r → |Z - P.2| < r → v R Z = 0) →
      HasDerivAt (u R) (v R Z) Z → ((R, Z) ∈ offPoint P → HasDerivAt (g R) (g' R Z) Z) →
      HasDerivAt (fun y => u R y * g R y) (v R Z * g R Z + u R Z * g' R Z) Z := fun {u v g g'} R Z hR hu hv du dg => by
    refine cut_deriv (w := u R) (f := g R) r0 ?_
    by_cases e : (R, Z) = P
    · have eR : R = P.1 := congrArg Prod.fst e
      have eZ : Z = P.2 := congrArg Prod.snd e
      left
      rw [eR, eZ]
      exact ⟨fun y hy => hu P.1 y (self _) hy, hv P.1 P.2 (self _) (self _)⟩
    · exact Or.inr ⟨du, dg ⟨hR, e⟩⟩
  exact ⟨cut_cont r0 h.c0 z0 k0, (cut_cont r0 h.c1 z1 k0).add (cut_cont r0 h.c0 z0 k1),
    ((cut_cont r0 h.c2 z2 k0).add (cut_cont r0 h.c1 z1 k1)).add ((cut_cont r0 h.c1 z1 k1).add (cut_cont r0 h.c0 z0 k2)),
    (cut_cont r0 h.c3 z3 k0).add (cut_cont r0 h.c0 z0 k3),
    ((cut_cont r0 h.c4 z4 k0).add (cut_cont r0 h.c3 z3 k3)).add ((cut_cont r0 h.c3 z3 k3).add (cut_cont r0 h.c0 z0 k4)),
    fun R Z hR => lR R Z hR z0 z1 (h.d1 R Z) (e1 R Z),
    fun R Z hR => (lR R Z hR z1 z2 (h.d2 R Z) (e1 R Z)).add (lR R Z hR z0 z1 (h.d1 R Z) (e2 R Z)),
    fun R Z hR => lZ R Z hR z0 z3 (h.d3 R Z) (e3 R Z),
    fun R Z hR => (lZ R Z hR z3 z4 (h.d4 R Z) (e3 R Z)).add (lZ R Z hR z0 z3 (h.d3 R Z) (e4 R Z))⟩

/-- Near the middle the bump is one. -/
theorem bump_core {c : ℝ} (f : ContDiffBump c) (x : ℝ) (hx : |x - c| < f.rIn) : f x = 1 ∧ iteratedDeriv 1 f x = 0 ∧ iteratedDeriv 2 f x = 0 := by
  have near : ∀ {x : ℝ}, |x - c| < f.rIn → ∀ᶠ y in nhds x, |y - c| < f.rIn := fun {x} hx => by
    have k : ContinuousAt (fun y : ℝ => |y - c|) x := by fun_prop
    exact k.eventually_lt continuousAt_const hx
  have one : ∀ {y : ℝ}, |y - c| < f.rIn → f y = 1 := fun {y} hy =>
    f.one_of_mem_closedBall (by rw [Metric.mem_closedBall, Real.dist_eq]; exact hy.le)
  have d1 : ∀ {y : ℝ}, |y - c| < f.rIn → iteratedDeriv 1 f y = 0 := fun {y} hy => by
    have h := bump_deriv f 0 y
    rw [iteratedDeriv_zero] at h
    refine h.unique ((hasDerivAt_const y (1 : ℝ)).congr_of_eventuallyEq ?_)
    filter_upwards [near hy] with z hz
    exact one hz
  refine ⟨one hx, d1 hx, (bump_deriv f 1 x).unique ((hasDerivAt_const x (0 : ℝ)).congr_of_eventuallyEq ?_)⟩
  filter_upwards [near hx] with z hz
  exact d1 hz

theorem bump_cutoff : Cutoff (3 / 2, 1 / 2) (1 / 8) (fun R Z => 1 - bumpFR 0 R Z) (fun R Z => -bumpFR 1 R Z) (fun R Z => -bumpFR 2 R Z)
    (fun R Z => -bumpFZ 1 R Z) (fun R Z => -bumpFZ 2 R Z) := by
  refine ⟨by norm_num, continuous_const.sub (bumpFR_cont 0), (bumpFR_cont 1).neg, (bumpFR_cont 2).neg, (bumpFZ_cont 1).neg, (bumpFZ_cont 2).neg,
    fun R Z => (bumpFR_deriv 0 R Z).const_sub 1, fun R Z => (bumpFR_deriv 1 R Z).neg, fun R Z => ?_, fun R Z => (bumpFZ_deriv 1 R Z).neg, fun R Z hR hZ => ?_⟩
  · rw [← bumpF_zero.1, bumpF_zero.2]
    exact (bumpFZ_deriv 0 R Z).const_sub 1
  · obtain ⟨a0, a1, a2⟩ := bump_core bumpR R hR
    obtain ⟨b0, b1, b2⟩ := bump_core bumpZ Z hZ
    simp [bumpFR, bumpFZ, a0, a1, a2, b0, b1, b2, iteratedDeriv_zero]

/-- The place of the filament. -/
noncomputable def exP0 : ℝ × ℝ := (3 / 2, 1 / 2)

/-- The flux of the filament and its derivatives. -/
noncomputable def exPsi (R Z : ℝ) : ℝ := filamentFlux exP0.1 exP0.2 R Z
noncomputable def exPsiR (R Z : ℝ) : ℝ := R * biotSavartZ exP0.1 exP0.2 R Z
noncomputable def exPsiRR (R Z : ℝ) : ℝ := biotSavartZ exP0.1 exP0.2 R Z + R * fieldSlope exP0 (R, Z)
noncomputable def exPsiZ (R Z : ℝ) : ℝ := -R * biotSavartR exP0.1 exP0.2 R Z
noncomputable def exPsiZZ (R Z : ℝ) : ℝ := -R * fieldSlope exP0 (R, Z)

theorem exP0_pos : 0 < exP0.1 := by norm_num [exP0]

theorem off_ne {P : ℝ × ℝ} {R Z : ℝ} (h : (R, Z) ∈ offPoint P) : R ≠ P.1 ∨ Z ≠ P.2 := by
  by_contra hcon
  push Not at hcon
  exact h.2 (Prod.ext hcon.1 hcon.2)

theorem off_slope {P : ℝ × ℝ} (hP0 : 0 < P.1) : ContinuousOn (fun q : ℝ × ℝ => fieldSlope P (q.1, q.2)) (offPoint P) :=
  off_cont fun _ ha hP => cont_slope ha hP0 hP

theorem slope_Z {P : ℝ × ℝ} (hP0 : 0 < P.1) {R Z : ℝ} (h : (R, Z) ∈ offPoint P) : HasDerivAt (fun z => biotSavartR P.1 P.2 R z) (fieldSlope P (R, Z)) Z := by
  have := radial_deriv_Z h.1 hP0 (off_ne h)
  rw [curl_free h.1 hP0 (off_ne h)] at this
  exact this

theorem slope_R {P : ℝ × ℝ} (hP0 : 0 < P.1) {R Z : ℝ} (h : (R, Z) ∈ offPoint P) : HasDerivAt (fun r => biotSavartZ P.1 P.2 r Z) (fieldSlope P (R, Z)) R :=
  vertical_deriv_R h.1 hP0 (off_ne h)

/-- The flux of the plasma: the flux of the filament outside of the bump. -/
noncomputable def spreadF (R Z : ℝ) : ℝ := (1 - bumpFR 0 R Z) * exPsi R Z
noncomputable def spreadFR : ℕ → ℝ → ℝ → ℝ
  | 1 => fun R Z => -bumpFR 1 R Z * exPsi R Z + (1 - bumpFR 0 R Z) * exPsiR R Z
  | _ => fun R Z => -bumpFR 2 R Z * exPsi R Z + -bumpFR 1 R Z * exPsiR R Z + (-bumpFR 1 R Z * exPsiR R Z + (1 - bumpFR 0 R Z) * exPsiRR R Z)
noncomputable def spreadFZ : ℕ → ℝ → ℝ → ℝ
  | 1 => fun R Z => -bumpFZ 1 R Z * exPsi R Z + (1 - bumpFR 0 R Z) * exPsiZ R Z
  | _ => fun R Z => -bumpFZ 2 R Z * exPsi R Z + -bumpFZ 1 R Z * exPsiZ R Z + (-bumpFZ 1 R Z * exPsiZ R Z + (1 - bumpFR 0 R Z) * exPsiZZ R Z)
noncomputable def spreadJ (R Z : ℝ) : ℝ := -(1 / mu0) * ((spreadFR 2 R Z - spreadFR 1 R Z / R + spreadFZ 2 R Z) / R)

theorem spread_regular : Regular spreadF (spreadFR 1) (spreadFR 2) (spreadFZ 1) (spreadFZ 2) := by
  have cB := off_Bz (P := exP0) exP0_pos
  have cR := off_Br (P := exP0) exP0_pos
  have cs := off_slope (P := exP0) exP0_pos
  have cF : ContinuousOn (fun q : ℝ × ℝ => exPsi q.1 q.2) (offPoint exP0) := by
    have := off_flux (P := exP0) exP0_pos
    simp only [filamentFlux_comm _ _ exP0.1 exP0.2] at this
    exact this
  refine cut_regular (P := exP0) bump_cutoff cF (continuousOn_fst.mul cB) (cB.add (continuousOn_fst.mul cs)) (continuousOn_fst.neg.mul cR)
    (continuousOn_fst.neg.mul cs) (fun R Z h => flux_deriv_R h.1 exP0_pos (off_ne h)) (fun R Z h => ?_) (fun R Z h => flux_deriv_Z h.1 exP0_pos (off_ne h))
    (fun R Z h => ?_)
  · have := (hasDerivAt_id R).mul (slope_R exP0_pos h)
    rw [one_mul] at this
    exact this
  · exact (slope_Z exP0_pos h).const_mul (-R)

theorem spread_outside {R Z : ℝ} (h : 1 / 4 < |R - 3 / 2| ∨ 1 / 4 < |Z - 1 / 2|) :
    spreadF R Z = exPsi R Z ∧ spreadFR 1 R Z = exPsiR R Z ∧ spreadFR 2 R Z = exPsiRR R Z ∧ spreadFZ 1 R Z = exPsiZ R Z ∧ spreadFZ 2 R Z = exPsiZZ R Z := by
  simp [spreadF, spreadFR, spreadFZ, (bump_outside 0 h).1, (bump_outside 1 h).1, (bump_outside 1 h).2, (bump_outside 2 h).1, (bump_outside 2 h).2]

/-- Bounds on the flux and its derivatives at a distance. -/
theorem exPsi_le {R Z D : ℝ} (hR : 0 < R) (hD0 : 0 < D) (hD : D ^ 2 ≤ (R - 3 / 2) ^ 2 + (Z - 1 / 2) ^ 2) :
    |exPsi R Z| ≤ R * (mu0 / D) ∧ |exPsiR R Z| ≤ R * (mu0 / D ^ 2) ∧ |exPsiZ R Z| ≤ R * (mu0 / D ^ 2) := by
  have hmu := mu0_pos
  have b1 := flux_far (Rc := exP0.1) (Zc := exP0.2) hR exP0_pos hD0 hD
  have b2 := biotSavartZ_le (Rc := exP0.1) (Zc := exP0.2) hR exP0_pos hD0 hD
  have b3 := biotSavartR_le (Rc := exP0.1) (Zc := exP0.2) hR exP0_pos hD0 hD
  have e1 : mu0 / 2 * (exP0.1 / D) ≤ mu0 / D := by
    have : mu0 / 2 * (exP0.1 / D) = 3 / 4 * (mu0 / D) := by simp only [exP0]; ring
    have : 0 ≤ mu0 / D := by positivity
    linarith
  have e2 : mu0 / 2 * (exP0.1 / D ^ 2) ≤ mu0 / D ^ 2 := by
    have : mu0 / 2 * (exP0.1 / D ^ 2) = 3 / 4 * (mu0 / D ^ 2) := by simp only [exP0]; ring
    have : 0 ≤ mu0 / D ^ 2 := by positivity
    linarith
  refine ⟨?_, ?_, ?_⟩
  · rw [filamentFlux_comm, abs_div, abs_of_pos hR, div_le_iff₀ hR] at b1
    rw [exPsi, mul_comm]
    exact b1.trans (mul_le_mul_of_nonneg_right e1 hR.le)
  · rw [exPsiR, abs_mul, abs_of_pos hR]
    exact mul_le_mul_of_nonneg_left (b2.trans e2) hR.le
  · rw [exPsiZ, abs_mul, abs_neg, abs_of_pos hR]
    exact mul_le_mul_of_nonneg_left (b3.trans e2) hR.le

theorem spread_isolated : Isolated spreadF (spreadFR 1) (spreadFZ 1) := by
  have hmu := mu0_pos
  constructor
  · intro L η hη
    refine ⟨min 1 (η / (4 * mu0)), by positivity, fun R Z hR hδ _ => ?_⟩
    have h1 : R < 1 := hδ.trans_le (min_le_left _ _)
    have h2 : R < η / (4 * mu0) := hδ.trans_le (min_le_right _ _)
    rw [lt_div_iff₀ (by positivity)] at h2
    obtain ⟨s1, s2, -⟩ := spread_outside (axis_outside (Z := Z) h1)
    obtain ⟨b1, b2, -⟩ := exPsi_le (R := R) (Z := Z) (D := 1 / 2) hR (by norm_num) (by nlinarith [sq_nonneg (Z - 1 / 2)])
    rw [s1, s2]
    constructor
    · refine b1.trans ?_
      have : R * (mu0 / (1 / 2)) = 2 * (R * mu0) := by ring
      nlinarith [mul_pos hR hmu]
    · refine b2.trans ?_
      have : R * (mu0 / (1 / 2) ^ 2) = 4 * (R * mu0) := by ring
      nlinarith [mul_pos hR hmu]
  · intro η hη
    refine ⟨max 4 (4 * mu0 / η), fun R Z hR hL => ?_⟩
    set m := max R |Z| with hm
    have m4 : 4 ≤ m := (le_max_left _ _).trans hL
    have mη : 4 * mu0 / η ≤ m := (le_max_right _ _).trans hL
    rw [div_le_iff₀ hη] at mη
    have Rm : R ≤ m := le_max_left _ _
    have m0 : 0 < m := by linarith
    obtain ⟨s1, s2, -, s3, -⟩ := spread_outside (far_outside (R := R) (Z := Z) (by linarith))
    have far : (m / 2) ^ 2 ≤ (R - 3 / 2) ^ 2 + (Z - 1 / 2) ^ 2 := by
      rcases max_cases R |Z| with ⟨e, -⟩ | ⟨e, -⟩
      · rw [← hm] at e
        rw [← e]
        nlinarith [sq_nonneg (Z - 1 / 2)]
      · rw [← hm] at e
        rcases abs_cases Z with ⟨e', -⟩ | ⟨e', -⟩
        · have : Z = m := by linarith
          rw [this]; nlinarith [sq_nonneg (R - 3 / 2)]
        · have : Z = -m := by linarith
          rw [this]; nlinarith [sq_nonneg (R - 3 / 2)]
    obtain ⟨b1, b2, b3⟩ := exPsi_le (R := R) (Z := Z) (D := m / 2) hR (by positivity) far
    have c2 : R * (mu0 / (m / 2) ^ 2) ≤ η := by
      have : R * (mu0 / (m / 2) ^ 2) ≤ m * (mu0 / (m / 2) ^ 2) := mul_le_mul_of_nonneg_right Rm (by positivity)
      have e : m * (mu0 / (m / 2) ^ 2) = 4 * mu0 / m := by field_simp; ring
      rw [e] at this
      refine this.trans ?_
      rw [div_le_iff₀ m0]
      linarith
    have c1 : R * (mu0 / (m / 2)) ≤ η * m := by
      have : R * (mu0 / (m / 2)) ≤ m * (mu0 / (m / 2)) := mul_le_mul_of_nonneg_right Rm (by positivity)
      have e : m * (mu0 / (m / 2)) = 2 * mu0 := by field_simp
      rw [e] at this
      linarith
    rw [s1, s2, s3]
    exact ⟨b1.trans c1, b2.trans c2, b3.trans c2⟩

theorem spread_plasma : PlasmaFlux exD1 spreadF spreadFR spreadFZ spreadJ := by
  have hmu := mu0_pos
  refine ⟨spread_regular, spread_isolated, fun R Z hR => ?_, fun R Z hR hne => ?_⟩
  · have := hR.ne'
    rw [spreadJ]
    field_simp
  · have : ¬ (1 / 4 < |R - 3 / 2| ∨ 1 / 4 < |Z - 1 / 2|) := fun h => by
      obtain ⟨-, s1, s2, -, s3⟩ := spread_outside h
      refine hne ?_
      rw [spreadJ, s1, s2, s3, exPsiR, exPsiRR, exPsiZZ]
      have := hR.ne'
      field_simp
      ring
    push Not at this
    obtain ⟨a, b⟩ := this
    rw [abs_le] at a b
    simp only [exD1]
    exact ⟨⟨by linarith [a.1], by linarith [a.2]⟩, by linarith [b.1], by linarith [b.2]⟩

/-- A case of `C116_green`: three metres from the axis the flux of this plasma is that of the filament, and the sum of Green's function over its current
density is this flux. -/
example (h1 : exD1.Rmin < exD1.Rmax) (h2 : exD1.Zmin < exD1.Zmax) :
    filamentFlux (3 / 2) (1 / 2) 3 (1 / 2) = (rectangle exD1 h1 h2).integral fun q => greens ellipticK ellipticE q.1 q.2 3 (1 / 2) * spreadJ q.1 q.2 := by
  have := C116_green exD1 (by norm_num [exD1]) h1 h2 spreadF spreadFR spreadFZ spreadJ spread_plasma (3, 1 / 2) (by norm_num) fun R Z hR hne => by
    obtain ⟨⟨a1, a2⟩, a3, a4⟩ := spread_plasma.within R Z hR hne
    simp only [exD1] at a1 a2 a3 a4
    have hp : 0 < ((3 : ℝ) + R) ^ 2 + (1 / 2 - Z) ^ 2 := by positivity
    constructor
    · rw [le_div_iff₀ hp]; norm_num; nlinarith
    · rw [div_le_iff₀ hp]; norm_num; nlinarith
  rw [← this]
  exact (spread_outside (R := 3) (Z := 1 / 2) (by left; rw [lt_abs]; left; norm_num)).1.symm

end Examples

end FreeGS.GS
