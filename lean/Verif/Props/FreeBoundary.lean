import Verif.Lemmas.FreeBoundary
import Verif.Props.Romberg
import Verif.Props.Boundary
import Verif.Props.Convergence
import Verif.Props.FourthOrder
import Verif.Lemmas.SmoothKernel
import Verif.Lemmas.GreenIdentity
import Verif.Props.GreensPhysics
import Mathlib.Analysis.Calculus.Deriv.Polynomial
import Mathlib.Analysis.Calculus.BumpFunction.Basic
import Mathlib.Analysis.Calculus.BumpFunction.InnerProduct
import Mathlib.Analysis.Calculus.IteratedDeriv.Defs

set_option linter.unusedSectionVars false

/-!
# C110: the free-boundary solve converges to the flux of the current density
-/

namespace FreeGS.GS

open FreeGS.Critical (Domain linspaceAt)

/-- The rectangle of a domain. -/
def rectangle (d : Domain ℝ) (hR : d.Rmin < d.Rmax) (hZ : d.Zmin < d.Zmax) : Rectangle := ⟨d.Rmin, d.Rmax, d.Zmin, d.Zmax, hR.le, hZ.le⟩

theorem rect_R (d : Domain ℝ) (hR : d.Rmin < d.Rmax) (hZ : d.Zmin < d.Zmax) (k i : ℕ) :
    (rectangle d hR hZ).R k i = gridR d (2 ^ k + 1) i := by
  simp only [Rectangle.R, rectangle, linspace_node, gridR, stepR]
  push_cast
  rw [add_sub_cancel_right]

theorem rect_Z (d : Domain ℝ) (hR : d.Rmin < d.Rmax) (hZ : d.Zmin < d.Zmax) (l j : ℕ) :
    (rectangle d hR hZ).Z l j = gridZ d (2 ^ l + 1) j := by
  simp only [Rectangle.Z, rectangle, linspace_node, gridZ, stepZ]
  push_cast
  rw [add_sub_cancel_right]

theorem edge_point (D : Rectangle) (k l : ℕ) {c : ℕ × ℕ} (hc : OnEdge (2 ^ k + 1) (2 ^ l + 1) c) : (D.R k c.1, D.Z l c.2) ∈ D.edge := by
  obtain ⟨⟨h1, h2⟩, h⟩ := hc
  have m1 := node_mem D.hab k (m := c.1) (by omega)
  have m2 := node_mem D.hcd l (m := c.2) (by omega)
  simp only [Rectangle.edge, Rectangle.R, Rectangle.Z, linspace_node, Set.mem_ofPred_eq]
  refine ⟨⟨m1, m2⟩, ?_⟩
  have last : ∀ (a b : ℝ) (k : ℕ), a + ((2 ^ k : ℕ) : ℝ) * ((b - a) / 2 ^ k) = b := fun a b k => by
    push_cast
    field_simp
    ring
  rcases h with h | h | h | h
  · left; rw [h]; simp
  · right; left; rw [show c.1 = 2 ^ k by omega]; exact last _ _ _
  · right; right; left; rw [h]; simp
  · right; right; right; rw [show c.2 = 2 ^ l by omega]; exact last _ _ _

theorem freeBoundary_values (G : ℝ → ℝ → ℝ → ℝ → ℝ) (nx ny : ℕ) (hx : 0 < nx) (hy : 0 < ny) (R Z : ℕ → ℝ) (Jt : Arr ℝ) (v : ℕ × ℕ → ℝ)
    (hv : ∀ c, OnEdge nx ny c → edgeFlux G nx ny R Z Jt c = .ok (v c)) (psi0 : Arr ℝ) :
    ∃ psi1 : Arr ℝ, freeBoundary G nx ny R Z Jt psi0 = .ok psi1 ∧ ∀ c, OnEdge nx ny c → psi1 c = v c := by
  obtain ⟨psi1, h1, h2⟩ := assignLoop_spec (edgeFlux G nx ny R Z Jt) v (edgeIndices nx ny) psi0 (fun c hc => hv c ((mem_edge hx hy).mp hc))
  exact ⟨psi1, h1, fun c hc => by rw [h2 c, if_pos ((mem_edge hx hy).mpr hc)]⟩

theorem edgeFlux_value (D : Rectangle) (G : ℝ → ℝ → ℝ → ℝ → ℝ) (J : ℝ → ℝ → ℝ) (k l : ℕ) (c : ℕ × ℕ) (hP : J (D.R k c.1) (D.Z l c.2) = 0) :
    edgeFlux G (2 ^ k + 1) (2 ^ l + 1) (D.R k) (D.Z l) (D.sample k l fun q => J q.1 q.2) c =
      .ok (quad2 D.a D.b D.c D.d k l fun x y => G x y (D.R k c.1) (D.Z l c.2) * J x y) := by
  have hp : (fun p => (Arr.set (fun p => G (D.R k p.1) (D.Z l p.2) (D.R k c.1) (D.Z l c.2)) c 0) p * D.sample k l (fun q => J q.1 q.2) p) =
      D.sample k l fun q => G q.1 q.2 (D.R k c.1) (D.Z l c.2) * J q.1 q.2 := by
    funext p
    simp only [Rectangle.sample, Arr.set, Function.update_apply]
    split_ifs with hpc
    · rw [hpc, hP, mul_zero, mul_zero]
    · rfl
  have hi := integrate_eq D k l fun q => G q.1 q.2 (D.R k c.1) (D.Z l c.2) * J q.1 q.2
  simp only [edgeFlux, hp]
  simp only [Jtor.integrate, bind, Except.bind] at hi
  split at hi
  · cases hi
  · rename_i w hw
    rw [hw]
    exact hi

/-- **C110 (edge).** Let there be no current on the edge, and let Green's function times the current density be continuous. Then under
refinement the edge values of the free boundary condition converge, uniformly over the edge, to the integral of Green's function times the
current density. -/
theorem C110_edge (D : Rectangle) (G : ℝ → ℝ → ℝ → ℝ → ℝ) (J : ℝ → ℝ → ℝ) (hJ : ∀ q ∈ D.edge, J q.1 q.2 = 0)
    (hG : ContinuousOn (fun p : (ℝ × ℝ) × (ℝ × ℝ) => G p.2.1 p.2.2 p.1.1 p.1.2 * J p.2.1 p.2.2) (D.edge ×ˢ D.set)) (ε : ℝ) (hε : 0 < ε) :
    ∃ n : ℕ, ∀ k l, n ≤ k → n ≤ l → ∀ psi0 : Arr ℝ, ∃ psi1 : Arr ℝ,
      freeBoundary G (2 ^ k + 1) (2 ^ l + 1) (D.R k) (D.Z l) (D.sample k l fun q => J q.1 q.2) psi0 = .ok psi1 ∧
      ∀ c, OnEdge (2 ^ k + 1) (2 ^ l + 1) c →
        |psi1 c - D.integral fun q => G q.1 q.2 (D.R k c.1) (D.Z l c.2) * J q.1 q.2| ≤ ε := by
  obtain ⟨n, hn⟩ := quad2_uniform D D.edge (edge_compact D) (fun P q => G q.1 q.2 P.1 P.2 * J q.1 q.2) hG hε
  refine ⟨n, fun k l hk hl psi0 => ?_⟩
  obtain ⟨psi1, h1, h2⟩ := freeBoundary_values G (2 ^ k + 1) (2 ^ l + 1) (Nat.succ_pos _) (Nat.succ_pos _) (D.R k) (D.Z l) _ _
    (fun c hc => edgeFlux_value D G J k l c (hJ _ (edge_point D k l hc))) psi0
  have h3 : ∀ c, OnEdge (2 ^ k + 1) (2 ^ l + 1) c →
      |psi1 c - D.integral fun q => G q.1 q.2 (D.R k c.1) (D.Z l c.2) * J q.1 q.2| ≤ ε := by
    intro c hc
    rw [h2 c hc]
    have := hn k l hk hl (D.R k c.1, D.Z l c.2) (edge_point D k l hc)
    simp only at this
    exact this
  exact ⟨psi1, h1, h3⟩

/-- **C110 (convergence).** Let `F` solve the Grad-Shafranov equation for the current density `J`, which vanishes on the edge, and be on the edge
the flux of `J` by Green's function. Then the flux that free boundary condition and second-order solver give for `J` converges to `F`
uniformly as the grid is refined. -/
theorem C110_converges (mu0 : ℝ) (hmu : 0 ≤ mu0) (d : Domain ℝ) (h0 : 0 < d.Rmin) (hR : d.Rmin < d.Rmax) (hZ : d.Zmin < d.Zmax)
    (F : ℝ → ℝ → ℝ) (FR FZ : ℕ → ℝ → ℝ → ℝ) (J : ℝ → ℝ → ℝ) (hF : SmoothFlux d F FR FZ) (hgs : GradShafranov mu0 d FR FZ J) (M3 M4 N4 : ℝ)
    (hM3 : ∀ R ∈ Set.Ioo d.Rmin d.Rmax, ∀ Z ∈ Set.Icc d.Zmin d.Zmax, |FR 3 R Z| ≤ M3)
    (hM4 : ∀ R ∈ Set.Ioo d.Rmin d.Rmax, ∀ Z ∈ Set.Icc d.Zmin d.Zmax, |FR 4 R Z| ≤ M4)
    (hN4 : ∀ R ∈ Set.Icc d.Rmin d.Rmax, ∀ Z ∈ Set.Ioo d.Zmin d.Zmax, |FZ 4 R Z| ≤ N4)
    (G : ℝ → ℝ → ℝ → ℝ → ℝ) (hJ : ∀ q ∈ (rectangle d hR hZ).edge, J q.1 q.2 = 0)
    (hG : ContinuousOn (fun p : (ℝ × ℝ) × (ℝ × ℝ) => G p.2.1 p.2.2 p.1.1 p.1.2 * J p.2.1 p.2.2)
      ((rectangle d hR hZ).edge ×ˢ (rectangle d hR hZ).set))
    (hedge : ∀ P ∈ (rectangle d hR hZ).edge, F P.1 P.2 = (rectangle d hR hZ).integral fun q => G q.1 q.2 P.1 P.2 * J q.1 q.2)
    (tol : ℝ) (htol : 0 < tol) :
    ∃ n : ℕ, ∀ k l, n ≤ k → n ≤ l → ∀ psi0 : Arr ℝ, ∃ psi1 : Arr ℝ,
      freeBoundary G (2 ^ k + 1) (2 ^ l + 1) (linspaceAt d.Rmin d.Rmax (2 ^ k + 1)) (linspaceAt d.Zmin d.Zmax (2 ^ l + 1))
        (fun c => J (gridR d (2 ^ k + 1) c.1) (gridZ d (2 ^ l + 1) c.2)) psi0 = .ok psi1 ∧
      ∀ factorized : (ℕ → ℝ) → ℕ → ℝ,
        (∀ b, ∀ r < (2 ^ k + 1) * (2 ^ l + 1),
          matVec ((2 ^ k + 1) * (2 ^ l + 1)) (gsSparse d (2 ^ k + 1) (2 ^ l + 1)) (factorized b) r = b r) →
        let psi := solve mu0 (2 ^ k + 1) (2 ^ l + 1) (linspaceAt d.Rmin d.Rmax (2 ^ k + 1)) (fun _ _ => psi1)
          (fun _ b => mgDirect factorized (2 ^ l + 1) b) (fun c => J (gridR d (2 ^ k + 1) c.1) (gridZ d (2 ^ l + 1) c.2)) psi0
        ∀ c, OnGrid (2 ^ k + 1) (2 ^ l + 1) c → |psi c - F (gridR d (2 ^ k + 1) c.1) (gridZ d (2 ^ l + 1) c.2)| < tol := by
  set D := rectangle d hR hZ with hD
  have hM4' : 0 ≤ M4 := le_trans (abs_nonneg _) (hM4 ((d.Rmin + d.Rmax) / 2) ⟨by linarith, by linarith⟩ d.Zmin ⟨le_refl _, hZ.le⟩)
  have hM3' : 0 ≤ M3 := le_trans (abs_nonneg _) (hM3 ((d.Rmin + d.Rmax) / 2) ⟨by linarith, by linarith⟩ d.Zmin ⟨le_refl _, hZ.le⟩)
  have hN4' : 0 ≤ N4 := le_trans (abs_nonneg _) (hN4 d.Rmin ⟨le_refl _, hR.le⟩ ((d.Zmin + d.Zmax) / 2) ⟨by linarith, by linarith⟩)
  obtain ⟨n, hn⟩ := C110_edge D G J hJ hG (tol / 2) (by positivity)
  set B := (d.Zmax - d.Zmin) ^ 2 / 8 * ((d.Rmax - d.Rmin) ^ 2 * (M4 / 12 + M3 / (6 * d.Rmin)) + (d.Zmax - d.Zmin) ^ 2 * (N4 / 12)) with hB
  have hB0 : 0 ≤ B := by positivity
  obtain ⟨m, hm⟩ := exists_pow_lt_of_lt_one (show 0 < tol / (2 * (B + 1)) by positivity) (show (1 / 4 : ℝ) < 1 by norm_num)
  refine ⟨max n m, fun k l hk hl psi0 => ?_⟩
  obtain ⟨psi1, h1, h2⟩ := hn k l (le_trans (le_max_left _ _) hk) (le_trans (le_max_left _ _) hl) psi0
  have eR : ∀ i, D.R k i = gridR d (2 ^ k + 1) i := rect_R d hR hZ k
  have eZ : ∀ j, D.Z l j = gridZ d (2 ^ l + 1) j := rect_Z d hR hZ l
  have es : D.sample k l (fun q => J q.1 q.2) = fun c => J (gridR d (2 ^ k + 1) c.1) (gridZ d (2 ^ l + 1) c.2) := by
    funext c
    simp only [Rectangle.sample, eR, eZ]
  rw [es] at h1
  refine ⟨psi1, h1, fun factorized hfac => ?_⟩
  intro psi c hc
  have hpow : ∀ k : ℕ, 1 ≤ 2 ^ k := fun k => Nat.one_le_two_pow
  have key := C92_second_order mu0 hmu d (2 ^ k + 1) (2 ^ l + 1) (by have := hpow k; omega) (by have := hpow l; omega) h0 hR hZ F FR FZ J hF hgs
    M3 M4 N4 hM3 hM4 hN4 factorized hfac (fun _ _ => psi1) (fun c => J (gridR d (2 ^ k + 1) c.1) (gridZ d (2 ^ l + 1) c.2)) psi0 0 (tol / 2)
    (fun c _ => by simp)
    (fun c hc => by
      have he := edge_point D k l hc
      have := hedge _ he
      simp only [eR, eZ] at this
      rw [this]
      have h := h2 c hc
      simp only [eR, eZ] at h
      exact h) le_rfl c hc
  refine lt_of_le_of_lt key ?_
  have step : ∀ (w : ℝ) (k : ℕ), m ≤ k → (w / (((2 ^ k + 1 : ℕ) : ℝ) - 1)) ^ 2 ≤ w ^ 2 * (1 / 4) ^ m := by
    intro w k hk
    push_cast
    rw [add_sub_cancel_right, div_pow, ← pow_mul, mul_comm k 2, pow_mul, div_eq_mul_inv, ← inv_pow]
    refine mul_le_mul_of_nonneg_left ?_ (sq_nonneg _)
    rw [show ((2 : ℝ) ^ 2)⁻¹ = 1 / 4 by norm_num]
    exact pow_le_pow_of_le_one (by norm_num) (by norm_num) hk
  have s1 := step (d.Rmax - d.Rmin) k (le_trans (le_max_right _ _) hk)
  have s2 := step (d.Zmax - d.Zmin) l (le_trans (le_max_right _ _) hl)
  have hc1 : 0 ≤ M4 / 12 + M3 / (6 * d.Rmin) := by positivity
  have hc2 : 0 ≤ N4 / 12 := by positivity
  have hsum : (d.Zmax - d.Zmin) ^ 2 / 8 *
      (stepR d (2 ^ k + 1) ^ 2 * (M4 / 12 + M3 / (6 * d.Rmin)) + stepZ d (2 ^ l + 1) ^ 2 * (N4 / 12) + mu0 * d.Rmax * 0) ≤ B * (1 / 4) ^ m := by
    rw [mul_zero, add_zero, hB]
    calc _ ≤ (d.Zmax - d.Zmin) ^ 2 / 8 * ((d.Rmax - d.Rmin) ^ 2 * (1 / 4) ^ m * (M4 / 12 + M3 / (6 * d.Rmin)) +
          (d.Zmax - d.Zmin) ^ 2 * (1 / 4) ^ m * (N4 / 12)) := by
          refine mul_le_mul_of_nonneg_left (add_le_add (mul_le_mul_of_nonneg_right s1 hc1) (mul_le_mul_of_nonneg_right s2 hc2)) (by positivity)
      _ = _ := by ring
  have : B * (1 / 4) ^ m < tol / 2 := by
    rw [lt_div_iff₀ (by positivity)] at hm
    have : 0 < (1 / 4 : ℝ) ^ m := by positivity
    nlinarith
  linarith

/-- **C110 (physical flux).** With the Green's function of the code: if `F` is on the edge the flux of the plasma current by the law of Biot and
Savart, and the current keeps so far from the edge that no argument is clipped, the calculation converges to `F`. -/
theorem C110_physical (d : Domain ℝ) (h0 : 0 < d.Rmin) (hR : d.Rmin < d.Rmax) (hZ : d.Zmin < d.Zmax)
    (F : ℝ → ℝ → ℝ) (FR FZ : ℕ → ℝ → ℝ → ℝ) (J : ℝ → ℝ → ℝ) (hF : SmoothFlux d F FR FZ) (hgs : GradShafranov mu0 d FR FZ J) (M3 M4 N4 : ℝ)
    (hM3 : ∀ R ∈ Set.Ioo d.Rmin d.Rmax, ∀ Z ∈ Set.Icc d.Zmin d.Zmax, |FR 3 R Z| ≤ M3)
    (hM4 : ∀ R ∈ Set.Ioo d.Rmin d.Rmax, ∀ Z ∈ Set.Icc d.Zmin d.Zmax, |FR 4 R Z| ≤ M4)
    (hN4 : ∀ R ∈ Set.Icc d.Rmin d.Rmax, ∀ Z ∈ Set.Ioo d.Zmin d.Zmax, |FZ 4 R Z| ≤ N4)
    (hJc : ContinuousOn (fun q : ℝ × ℝ => J q.1 q.2) (rectangle d hR hZ).set)
    (hJ : ∀ q ∈ (rectangle d hR hZ).set, ∀ P ∈ (rectangle d hR hZ).edge, J q.1 q.2 ≠ 0 → Unclipped q.1 q.2 P.1 P.2)
    (hedge : ∀ P ∈ (rectangle d hR hZ).edge,
      F P.1 P.2 = (rectangle d hR hZ).integral fun q => filamentFlux q.1 q.2 P.1 P.2 * J q.1 q.2)
    (tol : ℝ) (htol : 0 < tol) :
    ∃ n : ℕ, ∀ k l, n ≤ k → n ≤ l → ∀ psi0 : Arr ℝ, ∃ psi1 : Arr ℝ,
      freeBoundary (greens ellipticK ellipticE) (2 ^ k + 1) (2 ^ l + 1) (linspaceAt d.Rmin d.Rmax (2 ^ k + 1))
        (linspaceAt d.Zmin d.Zmax (2 ^ l + 1)) (fun c => J (gridR d (2 ^ k + 1) c.1) (gridZ d (2 ^ l + 1) c.2)) psi0 = .ok psi1 ∧
      ∀ factorized : (ℕ → ℝ) → ℕ → ℝ,
        (∀ b, ∀ r < (2 ^ k + 1) * (2 ^ l + 1),
          matVec ((2 ^ k + 1) * (2 ^ l + 1)) (gsSparse d (2 ^ k + 1) (2 ^ l + 1)) (factorized b) r = b r) →
        let psi := solve mu0 (2 ^ k + 1) (2 ^ l + 1) (linspaceAt d.Rmin d.Rmax (2 ^ k + 1)) (fun _ _ => psi1)
          (fun _ b => mgDirect factorized (2 ^ l + 1) b) (fun c => J (gridR d (2 ^ k + 1) c.1) (gridZ d (2 ^ l + 1) c.2)) psi0
        ∀ c, OnGrid (2 ^ k + 1) (2 ^ l + 1) c → |psi c - F (gridR d (2 ^ k + 1) c.1) (gridZ d (2 ^ l + 1) c.2)| < tol := by
  have hpos : ∀ q ∈ (rectangle d hR hZ).set, 0 < q.1 := fun q hq => lt_of_lt_of_le h0 hq.1.1
  have hmu : 0 ≤ mu0 := by unfold mu0; positivity
  refine C110_converges mu0 hmu d h0 hR hZ F FR FZ J hF hgs M3 M4 N4 hM3 hM4 hN4 (greens ellipticK ellipticE) ?_ ?_ ?_ tol htol
  · intro q hq
    by_contra hne
    have := (hJ q hq.1 q hq hne).2
    have hq0 := hpos q hq.1
    have e : 4 * q.1 * q.1 / ((q.1 + q.1) ^ 2 + (q.2 - q.2) ^ 2) = 1 := by
      rw [sub_self]
      field_simp
      ring
    rw [e] at this
    norm_num at this
  · refine ContinuousOn.mul (continuousOn_greens.mono fun p hp => ⟨hpos _ hp.1.1, hpos _ hp.2⟩) ?_
    exact hJc.comp continuous_snd.continuousOn fun p hp => hp.2
  · intro P hP
    rw [hedge P hP]
    simp only [Rectangle.integral]
    refine intervalIntegral.integral_congr fun x hx => intervalIntegral.integral_congr fun y hy => ?_
    rw [Set.uIcc_of_le (rectangle d hR hZ).hab] at hx
    rw [Set.uIcc_of_le (rectangle d hR hZ).hcd] at hy
    by_cases hz : J x y = 0
    · simp [hz]
    · rw [(C67_greens_is_filament_flux x y P.1 P.2 (hpos P hP.1) (hpos (x, y) ⟨hx, hy⟩) (hJ (x, y) ⟨hx, hy⟩ P hP hz)).1]

/-! ## The default solver -/

/-- A function `H P q` of a place `P` and a source `q` in the domain that is six times differentiable in `P`, with derivatives continuous in both:
`HR n` and `HZ n` are the `n`-th derivatives in the radius and in the height of `P`. -/
structure SmoothKernel (D : Rectangle) (H : ℝ × ℝ → ℝ × ℝ → ℝ) (HR HZ : ℕ → ℝ × ℝ → ℝ × ℝ → ℝ) : Prop where
  R : ∀ n < 6, ∀ q ∈ D.set, ∀ Z ∈ Set.Icc D.c D.d, ∀ R ∈ Set.Ioo D.a D.b, HasDerivAt (fun R => HR n (R, Z) q) (HR (n + 1) (R, Z) q) R
  Z : ∀ n < 6, ∀ q ∈ D.set, ∀ R ∈ Set.Icc D.a D.b, ∀ Z ∈ Set.Ioo D.c D.d, HasDerivAt (fun Z => HZ n (R, Z) q) (HZ (n + 1) (R, Z) q) Z
  contR : ∀ n ≤ 6, ContinuousOn (fun p : (ℝ × ℝ) × (ℝ × ℝ) => HR n p.1 p.2) (D.set ×ˢ D.set)
  contZ : ∀ n ≤ 6, ContinuousOn (fun p : (ℝ × ℝ) × (ℝ × ℝ) => HZ n p.1 p.2) (D.set ×ˢ D.set)
  R0 : HR 0 = H
  Z0 : HZ 0 = H

/-- The error of the quadrature of `g P`. -/
noncomputable def quadErr (D : Rectangle) (k l : ℕ) (g : ℝ × ℝ → ℝ × ℝ → ℝ) (P : ℝ × ℝ) : ℝ :=
  quad2 D.a D.b D.c D.d k l (fun x y => g P (x, y)) - D.integral (g P)

theorem quadErr_small (D : Rectangle) {H : ℝ × ℝ → ℝ × ℝ → ℝ} {HR HZ : ℕ → ℝ × ℝ → ℝ × ℝ → ℝ} (hH : SmoothKernel D H HR HZ) {ε : ℝ} (hε : 0 < ε) :
    ∃ N : ℕ, ∀ k l, N ≤ k → N ≤ l → ∀ n ≤ 6, ∀ P ∈ D.set, |quadErr D k l (HR n) P| ≤ ε ∧ |quadErr D k l (HZ n) P| ≤ ε := by
  have hDc : IsCompact D.set := isCompact_Icc.prod isCompact_Icc
  have e1 : ∀ n, ∃ N : ℕ, n ≤ 6 → ∀ k l, N ≤ k → N ≤ l → ∀ P ∈ D.set, |quadErr D k l (HR n) P| ≤ ε ∧ |quadErr D k l (HZ n) P| ≤ ε := by
    intro n
    by_cases hn : n ≤ 6
    · obtain ⟨N1, h1⟩ := quad2_uniform D D.set hDc (HR n) (hH.contR n hn) hε
      obtain ⟨N2, h2⟩ := quad2_uniform D D.set hDc (HZ n) (hH.contZ n hn) hε
      exact ⟨max N1 N2, fun _ k l hk hl P hP => ⟨h1 k l (le_trans (le_max_left _ _) hk) (le_trans (le_max_left _ _) hl) P hP,
        h2 k l (le_trans (le_max_right _ _) hk) (le_trans (le_max_right _ _) hl) P hP⟩⟩
    · exact ⟨0, fun h => absurd h hn⟩
  choose N hN using e1
  refine ⟨(Finset.range 7).sup N, fun k l hk hl n hn P hP => ?_⟩
  have hle := Finset.le_sup (f := N) (Finset.mem_range.mpr (show n < 7 by omega))
  exact hN n hn k l (hle.trans hk) (hle.trans hl) P hP

theorem quadErr_R (D : Rectangle) {H : ℝ × ℝ → ℝ × ℝ → ℝ} {HR HZ : ℕ → ℝ × ℝ → ℝ × ℝ → ℝ} (hH : SmoothKernel D H HR HZ) (k l : ℕ) {Z : ℝ}
    (hZ : Z ∈ Set.Icc D.c D.d) : SixTimes D.a D.b fun n R => quadErr D k l (HR n) (R, Z) := by
  have sec : ∀ n ≤ 6, ContinuousOn (fun p : ℝ × (ℝ × ℝ) => HR n (p.1, Z) p.2) (Set.Icc D.a D.b ×ˢ D.set) := by
    intro n hn
    have : ContinuousOn (fun p : ℝ × (ℝ × ℝ) => ((p.1, Z), p.2)) (Set.Icc D.a D.b ×ˢ D.set) := by fun_prop
    exact (hH.contR n hn).comp this fun p hp => ⟨⟨hp.1, hZ⟩, hp.2⟩
  constructor
  · exact (quad2_cont D k l (sec 0 (by norm_num))).sub (integral_cont D (F := fun R => HR 0 (R, Z)) (sec 0 (by norm_num)))
  · intro n hn R hR
    exact (quad2_deriv D k l (F := fun R => HR n (R, Z)) (F' := fun R => HR (n + 1) (R, Z)) fun q hq => hH.R n hn q hq Z hZ R hR).sub
      (param_deriv2 D (F := fun R => HR n (R, Z)) (F' := fun R => HR (n + 1) (R, Z)) (sec n (by omega)) (sec (n + 1) (by omega))
        (fun x hx q hq => hH.R n hn q hq Z hZ x hx) hR)

theorem quadErr_Z (D : Rectangle) {H : ℝ × ℝ → ℝ × ℝ → ℝ} {HR HZ : ℕ → ℝ × ℝ → ℝ × ℝ → ℝ} (hH : SmoothKernel D H HR HZ) (k l : ℕ) {R : ℝ}
    (hR : R ∈ Set.Icc D.a D.b) : SixTimes D.c D.d fun n Z => quadErr D k l (HZ n) (R, Z) := by
  have sec : ∀ n ≤ 6, ContinuousOn (fun p : ℝ × (ℝ × ℝ) => HZ n (R, p.1) p.2) (Set.Icc D.c D.d ×ˢ D.set) := by
    intro n hn
    have : ContinuousOn (fun p : ℝ × (ℝ × ℝ) => ((R, p.1), p.2)) (Set.Icc D.c D.d ×ˢ D.set) := by fun_prop
    exact (hH.contZ n hn).comp this fun p hp => ⟨⟨hR, hp.1⟩, hp.2⟩
  constructor
  · exact (quad2_cont D k l (sec 0 (by norm_num))).sub (integral_cont D (F := fun Z => HZ 0 (R, Z)) (sec 0 (by norm_num)))
  · intro n hn Z hZ
    exact (quad2_deriv D k l (F := fun Z => HZ n (R, Z)) (F' := fun Z => HZ (n + 1) (R, Z)) fun q hq => hH.Z n hn q hq R hR Z hZ).sub
      (param_deriv2 D (F := fun Z => HZ n (R, Z)) (F' := fun Z => HZ (n + 1) (R, Z)) (sec n (by omega)) (sec (n + 1) (by omega))
        (fun x hx q hq => hH.Z n hn q hq R hR x hx) hZ)

theorem two_squares (x f e t : ℝ) (h : e ^ 2 ≤ t ^ 2) : (x - f) ^ 2 ≤ 2 * (x - (f + e)) ^ 2 + 2 * t ^ 2 := by
  nlinarith [sq_nonneg (x - (f + e) - e)]

/-- Edge values that are those of a smooth function give a solution near that function. -/
theorem perturbed_raw (mu0 : ℝ) (hmu : 0 < mu0) (d : Domain ℝ) (nx ny : ℕ) (hnx : 9 ≤ nx) (hny : 9 ≤ ny) (hR : d.Rmin < d.Rmax)
    (hZ : d.Zmin < d.Zmax) (hs : 2 * stepR d nx ≤ d.Rmin) (F : ℝ → ℝ → ℝ) (FR FZ : ℕ → ℝ → ℝ → ℝ) (J : ℝ → ℝ → ℝ)
    (hF : SmoothFlux6 d F FR FZ) (hgs : GradShafranov mu0 d FR FZ J) (M5 M6 N6 : ℝ)
    (hM5 : ∀ R ∈ Set.Ioo d.Rmin d.Rmax, ∀ Z ∈ Set.Icc d.Zmin d.Zmax, |FR 5 R Z| ≤ M5)
    (hM6 : ∀ R ∈ Set.Ioo d.Rmin d.Rmax, ∀ Z ∈ Set.Icc d.Zmin d.Zmax, |FR 6 R Z| ≤ M6)
    (hN6 : ∀ R ∈ Set.Icc d.Rmin d.Rmax, ∀ Z ∈ Set.Ioo d.Zmin d.Zmax, |FZ 6 R Z| ≤ N6)
    (E : ℝ → ℝ → ℝ) (ER EZ : ℕ → ℝ → ℝ → ℝ) (hE : SmoothFlux6 d E ER EZ) (ε : ℝ) (hε1 : ε ≤ 1)
    (bR : ∀ n ≤ 6, ∀ R ∈ Set.Icc d.Rmin d.Rmax, ∀ Z ∈ Set.Icc d.Zmin d.Zmax, |ER n R Z| ≤ ε)
    (bZ : ∀ n ≤ 6, ∀ R ∈ Set.Icc d.Rmin d.Rmax, ∀ Z ∈ Set.Icc d.Zmin d.Zmax, |EZ n R Z| ≤ ε)
    (A : ℕ → ℕ → ℝ) (hA : gs4Sparse d nx ny = .ok A)
    (factorized : (ℕ → ℝ) → ℕ → ℝ) (hfac : ∀ b, ∀ r < nx * ny, matVec (nx * ny) A (factorized b) r = b r) (psi1 psi0 : Arr ℝ)
    (hval : ∀ c, OnEdge nx ny c → psi1 c = F (gridR d nx c.1) (gridZ d ny c.2) + E (gridR d nx c.1) (gridZ d ny c.2)) :
    let psi := solve mu0 nx ny (linspaceAt d.Rmin d.Rmax nx) (fun _ _ => psi1) (fun _ b => mgDirect factorized ny b)
      (fun c => J (gridR d nx c.1) (gridZ d ny c.2)) psi0
    let T := stepR d nx ^ 4 * (7 / 6 * (M6 + 1) + (M5 + 1) / (3 * d.Rmin)) + stepZ d ny ^ 4 * (7 / 6 * (N6 + 1)) +
      d.Rmax * (2 + 1 / d.Rmin) / d.Rmin * ε
    0 ≤ T ∧ interiorSum nx ny (fun c => (psi c - (F (gridR d nx c.1) (gridZ d ny c.2) + E (gridR d nx c.1) (gridZ d ny c.2))) ^ 2) ≤
        ((nx : ℝ) - 2) * ((ny : ℝ) - 2) * (2 * (d.Zmax - d.Zmin) ^ 2 * T) ^ 2 ∧
      ∀ c, OnGrid nx ny c → (psi c - (F (gridR d nx c.1) (gridZ d ny c.2) + E (gridR d nx c.1) (gridZ d ny c.2))) ^ 2 ≤
        6 * (d.Zmax - d.Zmin) ^ 4 * ((nx : ℝ) - 2) * T ^ 2 := by
  have sR : 0 < stepR d nx := spacing_pos hR (by omega)
  have h0 : 0 < d.Rmin := by linarith
  have hRmax : 0 < d.Rmax := h0.trans hR
  have hM5' : 0 ≤ M5 := le_trans (abs_nonneg _) (hM5 ((d.Rmin + d.Rmax) / 2) ⟨by linarith, by linarith⟩ d.Zmin ⟨le_refl _, hZ.le⟩)
  have hM6' : 0 ≤ M6 := le_trans (abs_nonneg _) (hM6 ((d.Rmin + d.Rmax) / 2) ⟨by linarith, by linarith⟩ d.Zmin ⟨le_refl _, hZ.le⟩)
  have hN6' : 0 ≤ N6 := le_trans (abs_nonneg _) (hN6 d.Rmin ⟨le_refl _, hR.le⟩ ((d.Zmin + d.Zmax) / 2) ⟨by linarith, by linarith⟩)
  have hε0 : 0 ≤ ε := (abs_nonneg _).trans (bR 0 (by norm_num) d.Rmin ⟨le_rfl, hR.le⟩ d.Zmin ⟨le_rfl, hZ.le⟩)
  have oo : ∀ {a b x : ℝ}, x ∈ Set.Ioo a b → x ∈ Set.Icc a b := fun h => ⟨h.1.le, h.2.le⟩
  have hΦ : SmoothFlux6 d (fun R Z => F R Z + E R Z) (fun n R Z => FR n R Z + ER n R Z) (fun n R Z => FZ n R Z + EZ n R Z) := by
    refine ⟨fun Z hz => ⟨?_, fun n hn R hr => ?_⟩, fun R hr => ⟨?_, fun n hn Z hz => ?_⟩, ?_, ?_⟩
    · exact (hF.R Z hz).cont.add (hE.R Z hz).cont
    · exact ((hF.R Z hz).deriv n hn R hr).add ((hE.R Z hz).deriv n hn R hr)
    · exact (hF.Z R hr).cont.add (hE.Z R hr).cont
    · exact ((hF.Z R hr).deriv n hn Z hz).add ((hE.Z R hr).deriv n hn Z hz)
    · funext R Z; rw [hF.R0, hE.R0]
    · funext R Z; rw [hF.Z0, hE.Z0]
  set J' : ℝ → ℝ → ℝ := fun R Z => J R Z - (ER 2 R Z - ER 1 R Z / R + EZ 2 R Z) / (mu0 * R) with hJ'
  have hgs' : GradShafranov mu0 d (fun n R Z => FR n R Z + ER n R Z) (fun n R Z => FZ n R Z + EZ n R Z) J' := by
    intro R hr Z hz
    have := hgs R hr Z hz
    have hr0 : 0 < R := h0.trans hr.1
    have e : -mu0 * R * J' R Z = -mu0 * R * J R Z + (ER 2 R Z - ER 1 R Z / R + EZ 2 R Z) := by
      rw [hJ']; field_simp; ring
    rw [e, ← this]
    ring
  set eps := (2 + 1 / d.Rmin) * ε / (mu0 * d.Rmin) with heps
  have hon : ∀ c, Inside nx ny c → gridR d nx c.1 ∈ Set.Icc d.Rmin d.Rmax ∧ gridZ d ny c.2 ∈ Set.Icc d.Zmin d.Zmax := by
    intro c hc
    obtain ⟨g1, g2, g3, g4, g5, g6⟩ := grid_inside d (by omega : 2 ≤ nx) (by omega : 2 ≤ ny) hR hZ hc
    exact ⟨⟨by linarith, by linarith⟩, ⟨by linarith, by linarith⟩⟩
  have hJd : ∀ c, Inside nx ny c → |J (gridR d nx c.1) (gridZ d ny c.2) - J' (gridR d nx c.1) (gridZ d ny c.2)| ≤ eps := by
    intro c hc
    obtain ⟨hr, hz⟩ := hon c hc
    set R := gridR d nx c.1
    set Z := gridZ d ny c.2
    have hr0 : 0 < R := lt_of_lt_of_le h0 hr.1
    rw [hJ']
    simp only [sub_sub_cancel]
    rw [abs_div, abs_of_pos (mul_pos hmu hr0), heps]
    have b1 := bR 2 (by norm_num) R hr Z hz
    have b2 := bR 1 (by norm_num) R hr Z hz
    have b3 := bZ 2 (by norm_num) R hr Z hz
    have b4 : |ER 1 R Z / R| ≤ 1 / d.Rmin * ε := by
      rw [abs_div, abs_of_pos hr0, one_div, mul_comm, ← div_eq_mul_inv]
      exact div_le_div₀ hε0 b2 h0 hr.1
    refine div_le_div₀ (by positivity) ?_ (by positivity) (mul_le_mul_of_nonneg_left hr.1 hmu.le)
    rw [abs_le] at b1 b3 b4 ⊢
    constructor <;> nlinarith [b1.1, b1.2, b3.1, b3.2, b4.1, b4.2]
  obtain ⟨rms, pt⟩ := C107_fourth_order mu0 hmu.le d nx ny hnx hny hR hZ hs _ _ _ J' hΦ hgs' (M5 + 1) (M6 + 1) (N6 + 1)
    (fun R hr Z hz => (abs_add_le _ _).trans (add_le_add (hM5 R hr Z hz) ((bR 5 (by norm_num) R (oo hr) Z hz).trans hε1)))
    (fun R hr Z hz => (abs_add_le _ _).trans (add_le_add (hM6 R hr Z hz) ((bR 6 (by norm_num) R (oo hr) Z hz).trans hε1)))
    (fun R hr Z hz => (abs_add_le _ _).trans (add_le_add (hN6 R hr Z hz) ((bZ 6 (by norm_num) R hr Z (oo hz)).trans hε1)))
    A hA factorized hfac (fun _ _ => psi1) (fun c => J (gridR d nx c.1) (gridZ d ny c.2)) psi0 eps hJd hval
  set psi := solve mu0 nx ny (linspaceAt d.Rmin d.Rmax nx) (fun _ _ => psi1) (fun _ b => mgDirect factorized ny b)
    (fun c => J (gridR d nx c.1) (gridZ d ny c.2)) psi0 with hpsi
  have e : mu0 * d.Rmax * eps = d.Rmax * (2 + 1 / d.Rmin) / d.Rmin * ε := by rw [heps]; field_simp
  rw [e] at rms pt
  refine ⟨?_, rms, pt⟩
  have : 0 ≤ stepR d nx ^ 4 * (7 / 6 * (M6 + 1) + (M5 + 1) / (3 * d.Rmin)) := by positivity
  have : 0 ≤ stepZ d ny ^ 4 * (7 / 6 * (N6 + 1)) := by positivity
  have : 0 ≤ d.Rmax * (2 + 1 / d.Rmin) / d.Rmin * ε := by positivity
  linarith

/-- Edge values that are those of a smooth function near `F` give a solution near `F`. -/
theorem perturbed_edge (mu0 : ℝ) (hmu : 0 < mu0) (d : Domain ℝ) (nx ny : ℕ) (hnx : 9 ≤ nx) (hny : 9 ≤ ny) (hR : d.Rmin < d.Rmax)
    (hZ : d.Zmin < d.Zmax) (hs : 2 * stepR d nx ≤ d.Rmin) (F : ℝ → ℝ → ℝ) (FR FZ : ℕ → ℝ → ℝ → ℝ) (J : ℝ → ℝ → ℝ)
    (hF : SmoothFlux6 d F FR FZ) (hgs : GradShafranov mu0 d FR FZ J) (M5 M6 N6 : ℝ)
    (hM5 : ∀ R ∈ Set.Ioo d.Rmin d.Rmax, ∀ Z ∈ Set.Icc d.Zmin d.Zmax, |FR 5 R Z| ≤ M5)
    (hM6 : ∀ R ∈ Set.Ioo d.Rmin d.Rmax, ∀ Z ∈ Set.Icc d.Zmin d.Zmax, |FR 6 R Z| ≤ M6)
    (hN6 : ∀ R ∈ Set.Icc d.Rmin d.Rmax, ∀ Z ∈ Set.Ioo d.Zmin d.Zmax, |FZ 6 R Z| ≤ N6)
    (E : ℝ → ℝ → ℝ) (ER EZ : ℕ → ℝ → ℝ → ℝ) (hE : SmoothFlux6 d E ER EZ) (ε : ℝ) (hε1 : ε ≤ 1)
    (bR : ∀ n ≤ 6, ∀ R ∈ Set.Icc d.Rmin d.Rmax, ∀ Z ∈ Set.Icc d.Zmin d.Zmax, |ER n R Z| ≤ ε)
    (bZ : ∀ n ≤ 6, ∀ R ∈ Set.Icc d.Rmin d.Rmax, ∀ Z ∈ Set.Icc d.Zmin d.Zmax, |EZ n R Z| ≤ ε)
    (A : ℕ → ℕ → ℝ) (hA : gs4Sparse d nx ny = .ok A)
    (factorized : (ℕ → ℝ) → ℕ → ℝ) (hfac : ∀ b, ∀ r < nx * ny, matVec (nx * ny) A (factorized b) r = b r) (psi1 psi0 : Arr ℝ)
    (hval : ∀ c, OnEdge nx ny c → psi1 c = F (gridR d nx c.1) (gridZ d ny c.2) + E (gridR d nx c.1) (gridZ d ny c.2)) (tol : ℝ)
    (hε2 : ε ≤ tol / 2) (hT : 2 * (d.Zmax - d.Zmin) ^ 2 * (stepR d nx ^ 4 * (7 / 6 * (M6 + 1) + (M5 + 1) / (3 * d.Rmin)) +
      stepZ d ny ^ 4 * (7 / 6 * (N6 + 1)) + d.Rmax * (2 + 1 / d.Rmin) / d.Rmin * ε) ≤ tol / 2) :
    interiorSum nx ny (fun c => (solve mu0 nx ny (linspaceAt d.Rmin d.Rmax nx) (fun _ _ => psi1) (fun _ b => mgDirect factorized ny b)
        (fun c => J (gridR d nx c.1) (gridZ d ny c.2)) psi0 c - F (gridR d nx c.1) (gridZ d ny c.2)) ^ 2) ≤
      ((nx : ℝ) - 2) * ((ny : ℝ) - 2) * tol ^ 2 := by
  obtain ⟨hT0, rms, -⟩ := perturbed_raw mu0 hmu d nx ny hnx hny hR hZ hs F FR FZ J hF hgs M5 M6 N6 hM5 hM6 hN6 E ER EZ hE ε hε1 bR bZ A hA factorized
    hfac psi1 psi0 hval
  have hon : ∀ c, Inside nx ny c → gridR d nx c.1 ∈ Set.Icc d.Rmin d.Rmax ∧ gridZ d ny c.2 ∈ Set.Icc d.Zmin d.Zmax := by
    intro c hc
    obtain ⟨g1, g2, g3, g4, g5, g6⟩ := grid_inside d (by omega : 2 ≤ nx) (by omega : 2 ≤ ny) hR hZ hc
    exact ⟨⟨by linarith, by linarith⟩, ⟨by linarith, by linarith⟩⟩
  set psi := solve mu0 nx ny (linspaceAt d.Rmin d.Rmax nx) (fun _ _ => psi1) (fun _ b => mgDirect factorized ny b)
    (fun c => J (gridR d nx c.1) (gridZ d ny c.2)) psi0 with hpsi
  set T := stepR d nx ^ 4 * (7 / 6 * (M6 + 1) + (M5 + 1) / (3 * d.Rmin)) + stepZ d ny ^ 4 * (7 / 6 * (N6 + 1)) +
    d.Rmax * (2 + 1 / d.Rmin) / d.Rmin * ε with hTdef
  have hsq : (2 * (d.Zmax - d.Zmin) ^ 2 * T) ^ 2 ≤ (tol / 2) ^ 2 := pow_le_pow_left₀ (by positivity) hT 2
  have hx1 : (0 : ℝ) ≤ nx - 2 := by have : (9 : ℝ) ≤ nx := by exact_mod_cast hnx
                                    linarith
  have hy1 : (0 : ℝ) ≤ ny - 2 := by have : (9 : ℝ) ≤ ny := by exact_mod_cast hny
                                    linarith
  have hcard : interiorSum nx ny (fun _ => 2 * (tol / 2) ^ 2) = ((nx : ℝ) - 2) * ((ny : ℝ) - 2) * (2 * (tol / 2) ^ 2) := by
    simp only [interiorSum, Finset.sum_const, Finset.card_range, nsmul_eq_mul]
    rw [Nat.cast_sub (by omega), Nat.cast_sub (by omega)]
    push_cast
    ring
  have hadd : ∀ f g : Arr ℝ, interiorSum nx ny (fun c => f c + g c) = interiorSum nx ny f + interiorSum nx ny g := fun f g => by
    simp only [interiorSum, Finset.sum_add_distrib]
  have hmul : ∀ f : Arr ℝ, interiorSum nx ny (fun c => 2 * f c) = 2 * interiorSum nx ny f := fun f => by
    simp only [interiorSum, Finset.mul_sum]
  have step := interiorSum_le nx ny (fun c => (psi c - F (gridR d nx c.1) (gridZ d ny c.2)) ^ 2)
    (fun c => 2 * (psi c - (F (gridR d nx c.1) (gridZ d ny c.2) + E (gridR d nx c.1) (gridZ d ny c.2))) ^ 2 + 2 * (tol / 2) ^ 2) (fun c hc => by
      obtain ⟨hr, hz⟩ := hon c hc
      have b := (bR 0 (by norm_num) _ hr _ hz).trans hε2
      rw [hE.R0] at b
      have b2 := sq_le_sq' (abs_le.mp b).1 (abs_le.mp b).2
      exact two_squares _ _ _ _ b2)
  rw [hadd, hmul, hcard] at step
  have h3 := mul_le_mul_of_nonneg_left hsq (mul_nonneg hx1 hy1)
  have h4 := rms.trans h3
  refine step.trans ?_
  linarith

/-- **C110 (default solver).** The same for the default, fourth-order solver, in root mean square: here Green's function times the current density
must agree, for places on the edge, with a function that is smooth in the place. -/
theorem C110_default (mu0 : ℝ) (hmu : 0 < mu0) (d : Domain ℝ) (h0 : 0 < d.Rmin) (hR : d.Rmin < d.Rmax) (hZ : d.Zmin < d.Zmax)
    (F : ℝ → ℝ → ℝ) (FR FZ : ℕ → ℝ → ℝ → ℝ) (J : ℝ → ℝ → ℝ) (hF : SmoothFlux6 d F FR FZ) (hgs : GradShafranov mu0 d FR FZ J) (M5 M6 N6 : ℝ)
    (hM5 : ∀ R ∈ Set.Ioo d.Rmin d.Rmax, ∀ Z ∈ Set.Icc d.Zmin d.Zmax, |FR 5 R Z| ≤ M5)
    (hM6 : ∀ R ∈ Set.Ioo d.Rmin d.Rmax, ∀ Z ∈ Set.Icc d.Zmin d.Zmax, |FR 6 R Z| ≤ M6)
    (hN6 : ∀ R ∈ Set.Icc d.Rmin d.Rmax, ∀ Z ∈ Set.Ioo d.Zmin d.Zmax, |FZ 6 R Z| ≤ N6)
    (G : ℝ → ℝ → ℝ → ℝ → ℝ) (hJ : ∀ q ∈ (rectangle d hR hZ).edge, J q.1 q.2 = 0)
    (H : ℝ × ℝ → ℝ × ℝ → ℝ) (HR HZ : ℕ → ℝ × ℝ → ℝ × ℝ → ℝ) (hH : SmoothKernel (rectangle d hR hZ) H HR HZ)
    (hG : ∀ P ∈ (rectangle d hR hZ).edge, ∀ q ∈ (rectangle d hR hZ).set, G q.1 q.2 P.1 P.2 * J q.1 q.2 = H P q)
    (hedge : ∀ P ∈ (rectangle d hR hZ).edge, F P.1 P.2 = (rectangle d hR hZ).integral fun q => G q.1 q.2 P.1 P.2 * J q.1 q.2)
    (tol : ℝ) (htol : 0 < tol) :
    ∃ n : ℕ, ∀ k l, n ≤ k → n ≤ l → ∃ A, gs4Sparse d (2 ^ k + 1) (2 ^ l + 1) = .ok A ∧ ∀ psi0 : Arr ℝ, ∃ psi1 : Arr ℝ,
      freeBoundary G (2 ^ k + 1) (2 ^ l + 1) (linspaceAt d.Rmin d.Rmax (2 ^ k + 1)) (linspaceAt d.Zmin d.Zmax (2 ^ l + 1))
        (fun c => J (gridR d (2 ^ k + 1) c.1) (gridZ d (2 ^ l + 1) c.2)) psi0 = .ok psi1 ∧
      (∀ c, OnEdge (2 ^ k + 1) (2 ^ l + 1) c → |psi1 c - F (gridR d (2 ^ k + 1) c.1) (gridZ d (2 ^ l + 1) c.2)| ≤ tol) ∧
      ∀ factorized : (ℕ → ℝ) → ℕ → ℝ,
        (∀ b, ∀ r < (2 ^ k + 1) * (2 ^ l + 1), matVec ((2 ^ k + 1) * (2 ^ l + 1)) A (factorized b) r = b r) →
        let psi := solve mu0 (2 ^ k + 1) (2 ^ l + 1) (linspaceAt d.Rmin d.Rmax (2 ^ k + 1)) (fun _ _ => psi1)
          (fun _ b => mgDirect factorized (2 ^ l + 1) b) (fun c => J (gridR d (2 ^ k + 1) c.1) (gridZ d (2 ^ l + 1) c.2)) psi0
        interiorSum (2 ^ k + 1) (2 ^ l + 1) (fun c => (psi c - F (gridR d (2 ^ k + 1) c.1) (gridZ d (2 ^ l + 1) c.2)) ^ 2) ≤
          (2 ^ k - 1) * (2 ^ l - 1) * tol ^ 2 := by
  set D := rectangle d hR hZ with hD
  set W := d.Rmax - d.Rmin with hW
  set L := d.Zmax - d.Zmin with hL
  have hW0 : 0 < W := by rw [hW]; linarith
  have hL0 : 0 < L := by rw [hL]; linarith
  have hRmax : 0 < d.Rmax := h0.trans hR
  have hM5' : 0 ≤ M5 := le_trans (abs_nonneg _) (hM5 ((d.Rmin + d.Rmax) / 2) ⟨by linarith, by linarith⟩ d.Zmin ⟨le_refl _, hZ.le⟩)
  have hM6' : 0 ≤ M6 := le_trans (abs_nonneg _) (hM6 ((d.Rmin + d.Rmax) / 2) ⟨by linarith, by linarith⟩ d.Zmin ⟨le_refl _, hZ.le⟩)
  have hN6' : 0 ≤ N6 := le_trans (abs_nonneg _) (hN6 d.Rmin ⟨le_refl _, hR.le⟩ ((d.Zmin + d.Zmax) / 2) ⟨by linarith, by linarith⟩)
  -- the constants
  set p := W ^ 4 * (7 / 6 * (M6 + 1) + (M5 + 1) / (3 * d.Rmin)) + L ^ 4 * (7 / 6 * (N6 + 1)) with hp
  have hp0 : 0 < p := by positivity
  set K := d.Rmax * (2 + 1 / d.Rmin) / d.Rmin with hK
  have hK0 : 0 < K := by positivity
  set ε := min 1 (min (tol / 2) (tol / (8 * L ^ 2 * K))) with hε
  have hε0 : 0 < ε := by positivity
  have hε1 : ε ≤ 1 := min_le_left _ _
  have hε2 : ε ≤ tol / 2 := (min_le_right _ _).trans (min_le_left _ _)
  have hε3 : 2 * L ^ 2 * (K * ε) ≤ tol / 4 := by
    have : ε ≤ tol / (8 * L ^ 2 * K) := (min_le_right _ _).trans (min_le_right _ _)
    rw [le_div_iff₀ (by positivity)] at this
    linarith
  obtain ⟨n1, hn1⟩ := quadErr_small D hH hε0
  obtain ⟨n2, hn2⟩ := exists_pow_lt_of_lt_one (show 0 < tol / (8 * L ^ 2 * p) by positivity) (show (1 / 16 : ℝ) < 1 by norm_num)
  obtain ⟨n3, hn3⟩ := exists_pow_lt_of_lt_one (show 0 < d.Rmin / (2 * W) by positivity) (show (1 / 2 : ℝ) < 1 by norm_num)
  refine ⟨n1 + n2 + n3 + 3, fun k l hk hl => ?_⟩
  have hpow : ∀ k : ℕ, n1 + n2 + n3 + 3 ≤ k → 8 ≤ 2 ^ k := fun k hk => by
    calc 8 = 2 ^ 3 := by norm_num
      _ ≤ 2 ^ k := Nat.pow_le_pow_right (by norm_num) (by omega)
  have hk8 := hpow k hk
  have hl8 := hpow l hl
  have sRe : stepR d (2 ^ k + 1) = W / 2 ^ k := by rw [stepR]; push_cast; rw [add_sub_cancel_right]
  have sZe : stepZ d (2 ^ l + 1) = L / 2 ^ l := by rw [stepZ]; push_cast; rw [add_sub_cancel_right]
  have half : ∀ (k m : ℕ), m ≤ k → (1 : ℝ) / 2 ^ k ≤ (1 / 2) ^ m := fun k m h => by
    rw [show (1 : ℝ) / 2 ^ k = (1 / 2) ^ k by rw [div_pow, one_pow]]
    exact pow_le_pow_of_le_one (by norm_num) (by norm_num) h
  have hs : 2 * stepR d (2 ^ k + 1) ≤ d.Rmin := by
    have h1 := half k n3 (by omega)
    have h2 : (1 : ℝ) / 2 ^ k ≤ d.Rmin / (2 * W) := h1.trans hn3.le
    rw [le_div_iff₀ (by positivity)] at h2
    rw [sRe]
    calc 2 * (W / 2 ^ k) = 1 / 2 ^ k * (2 * W) := by ring
      _ ≤ _ := h2
  obtain ⟨A, hA, _, _⟩ := C107_solvable d (2 ^ k + 1) (2 ^ l + 1) (by omega) (by omega) hR hZ hs
  refine ⟨A, hA, fun psi0 => ?_⟩
  have eR : ∀ i, D.R k i = gridR d (2 ^ k + 1) i := rect_R d hR hZ k
  have eZ : ∀ j, D.Z l j = gridZ d (2 ^ l + 1) j := rect_Z d hR hZ l
  obtain ⟨psi1, h1, h2⟩ := freeBoundary_values G (2 ^ k + 1) (2 ^ l + 1) (Nat.succ_pos _) (Nat.succ_pos _) (D.R k) (D.Z l) _ _
    (fun c hc => edgeFlux_value D G J k l c (hJ _ (edge_point D k l hc))) psi0
  have es : D.sample k l (fun q => J q.1 q.2) = fun c => J (gridR d (2 ^ k + 1) c.1) (gridZ d (2 ^ l + 1) c.2) := by
    funext c
    simp only [Rectangle.sample, eR, eZ]
  rw [es] at h1
  have small := hn1 k l (by omega) (by omega)
  -- the edge values are those of a function near `F`
  have hval : ∀ c, OnEdge (2 ^ k + 1) (2 ^ l + 1) c → psi1 c =
      F (gridR d (2 ^ k + 1) c.1) (gridZ d (2 ^ l + 1) c.2) + quadErr D k l H (gridR d (2 ^ k + 1) c.1, gridZ d (2 ^ l + 1) c.2) := by
    intro c hc
    have hP := edge_point D k l hc
    have e1 := hedge _ hP
    have e2 : D.integral (fun q => G q.1 q.2 (D.R k c.1) (D.Z l c.2) * J q.1 q.2) = D.integral (H (D.R k c.1, D.Z l c.2)) := by
      simp only [Rectangle.integral]
      refine intervalIntegral.integral_congr fun x hx => intervalIntegral.integral_congr fun y hy => ?_
      rw [Set.uIcc_of_le D.hab] at hx
      rw [Set.uIcc_of_le D.hcd] at hy
      exact hG _ hP (x, y) ⟨hx, hy⟩
    have e3 : quad2 D.a D.b D.c D.d k l (fun x y => G x y (D.R k c.1) (D.Z l c.2) * J x y) =
        quad2 D.a D.b D.c D.d k l fun x y => H (D.R k c.1, D.Z l c.2) (x, y) := by
      refine quad1_congr D.hab k fun x hx => quad1_congr D.hcd l fun y hy => ?_
      exact hG _ hP (x, y) ⟨hx, hy⟩
    rw [h2 c hc, e3, ← eR, ← eZ, quadErr]
    simp only at e1
    rw [e1, e2]
    ring
  have mem : ∀ {R Z}, R ∈ Set.Icc d.Rmin d.Rmax → Z ∈ Set.Icc d.Zmin d.Zmax → (R, Z) ∈ D.set := fun hr hz => ⟨hr, hz⟩
  have hE : SmoothFlux6 d (fun R Z => quadErr D k l H (R, Z)) (fun n R Z => quadErr D k l (HR n) (R, Z)) (fun n R Z => quadErr D k l (HZ n) (R, Z)) := by
    refine ⟨fun Z hz => quadErr_R D hH k l hz, fun R hr => quadErr_Z D hH k l hr, ?_, ?_⟩
    · funext R Z; rw [hH.R0]
    · funext R Z; rw [hH.Z0]
  have hT : 2 * (d.Zmax - d.Zmin) ^ 2 * (stepR d (2 ^ k + 1) ^ 4 * (7 / 6 * (M6 + 1) + (M5 + 1) / (3 * d.Rmin)) +
      stepZ d (2 ^ l + 1) ^ 4 * (7 / 6 * (N6 + 1)) + d.Rmax * (2 + 1 / d.Rmin) / d.Rmin * ε) ≤ tol / 2 := by
    have q4 : ∀ (w : ℝ) (k : ℕ), n2 ≤ k → (w / 2 ^ k) ^ 4 ≤ w ^ 4 * (1 / 16) ^ n2 := by
      intro w k hk
      rw [div_pow, ← pow_mul, mul_comm k 4, pow_mul, div_eq_mul_inv, ← inv_pow]
      rw [show ((2 : ℝ) ^ 4)⁻¹ = 1 / 16 by norm_num]
      have : (0 : ℝ) ≤ w ^ 4 := by positivity
      exact mul_le_mul_of_nonneg_left (pow_le_pow_of_le_one (by norm_num) (by norm_num) hk) this
    have s1 := q4 W k (by omega)
    have s2 := q4 L l (by omega)
    have hc1 : 0 ≤ 7 / 6 * (M6 + 1) + (M5 + 1) / (3 * d.Rmin) := by positivity
    have hc2 : 0 ≤ 7 / 6 * (N6 + 1) := by positivity
    have t1 := mul_le_mul_of_nonneg_right s1 hc1
    have t2 := mul_le_mul_of_nonneg_right s2 hc2
    have t3 : stepR d (2 ^ k + 1) ^ 4 * (7 / 6 * (M6 + 1) + (M5 + 1) / (3 * d.Rmin)) + stepZ d (2 ^ l + 1) ^ 4 * (7 / 6 * (N6 + 1)) ≤
        p * (1 / 16) ^ n2 := by
      rw [sRe, sZe, hp]
      linarith
    have t4 : 2 * L ^ 2 * (p * (1 / 16) ^ n2) ≤ tol / 4 := by
      rw [lt_div_iff₀ (by positivity)] at hn2
      linarith
    rw [mul_add]
    have := mul_le_mul_of_nonneg_left t3 (show 0 ≤ 2 * L ^ 2 by positivity)
    linarith
  have fin := fun factorized hfac => perturbed_edge mu0 hmu d (2 ^ k + 1) (2 ^ l + 1) (by omega) (by omega) hR hZ hs F FR FZ J hF hgs M5 M6 N6 hM5 hM6 hN6
    _ _ _ hE ε hε1 (fun n hn R hr Z hz => (small n hn _ (mem hr hz)).1) (fun n hn R hr Z hz => (small n hn _ (mem hr hz)).2) A hA factorized hfac
    psi1 psi0 hval tol hε2 hT
  have hN : ((2 ^ k + 1 : ℕ) : ℝ) - 2 = 2 ^ k - 1 := by push_cast; ring
  have hN' : ((2 ^ l + 1 : ℕ) : ℝ) - 2 = 2 ^ l - 1 := by push_cast; ring
  rw [hN, hN'] at fin
  have hb : ∀ c, OnEdge (2 ^ k + 1) (2 ^ l + 1) c → |psi1 c - F (gridR d (2 ^ k + 1) c.1) (gridZ d (2 ^ l + 1) c.2)| ≤ tol := by
    intro c hc
    rw [hval c hc, add_sub_cancel_left, ← hH.R0, ← eR, ← eZ]
    exact (small 0 (by norm_num) _ (edge_point D k l hc).1).1.trans (hε2.trans (by linarith))
  exact ⟨psi1, h1, hb, fin⟩

/-! ## A case that meets the hypotheses -/

section Examples

open Polynomial

/-- A plasma in the middle of the square `[1, 2] × [0, 1]`: the flux is the product of two bumps, up to a constant. -/
noncomputable def exP : ℝ[X] := ((X - C 1) * (C 2 - X)) ^ 3
noncomputable def exS : ℝ[X] := (X * (C 1 - X)) ^ 3

noncomputable def exD1 : Domain ℝ := ⟨1, 2, 0, 1⟩

/-- The current density of this flux for `mu0 = 1`. -/
noncomputable def exCurrent (R Z : ℝ) : ℝ :=
  -((derivative^[2] exP).eval R * exS.eval Z - (derivative^[1] exP).eval R * exS.eval Z / R + exP.eval R * (derivative^[2] exS).eval Z) / R

/-- The flux on the edge, for a Green's function that is `1` everywhere. -/
noncomputable def exKappa (D : Rectangle) : ℝ := D.integral fun q => 1 * exCurrent q.1 q.2

noncomputable def exFR (κ : ℝ) (n : ℕ) (R Z : ℝ) : ℝ := (derivative^[n] exP).eval R * exS.eval Z + if n = 0 then κ else 0
noncomputable def exFZ (κ : ℝ) (n : ℕ) (R Z : ℝ) : ℝ := exP.eval R * (derivative^[n] exS).eval Z + if n = 0 then κ else 0

theorem exFR_deriv (κ : ℝ) (n : ℕ) (R Z : ℝ) : HasDerivAt (fun R => exFR κ n R Z) (exFR κ (n + 1) R Z) R := by
  simp only [exFR, Function.iterate_succ_apply', Nat.succ_ne_zero, if_false, add_zero]
  exact ((Polynomial.hasDerivAt _ R).mul_const _).add_const _

theorem exFZ_deriv (κ : ℝ) (n : ℕ) (R Z : ℝ) : HasDerivAt (fun Z => exFZ κ n R Z) (exFZ κ (n + 1) R Z) Z := by
  simp only [exFZ, Function.iterate_succ_apply', Nat.succ_ne_zero, if_false, add_zero]
  exact ((Polynomial.hasDerivAt _ Z).const_mul _).add_const _

theorem exFlux_smooth (κ : ℝ) : SmoothFlux6 exD1 (exFR κ 0) (exFR κ) (exFZ κ) := by
  refine ⟨fun Z _ => ⟨fun x _ => (exFR_deriv κ 0 x Z).continuousAt.continuousWithinAt, fun n _ R _ => exFR_deriv κ n R Z⟩,
    fun R _ => ⟨fun x _ => (exFZ_deriv κ 0 R x).continuousAt.continuousWithinAt, fun n _ Z _ => exFZ_deriv κ n R Z⟩, rfl, ?_⟩
  funext R Z
  simp [exFR, exFZ]

theorem exFlux_smooth4 (κ : ℝ) : SmoothFlux exD1 (exFR κ 0) (exFR κ) (exFZ κ) := by
  have e : exFR κ 0 = exFZ κ 0 := by funext R Z; simp [exFR, exFZ]
  refine ⟨fun Z _ => ⟨fun x _ => (exFR_deriv κ 0 x Z).continuousAt.continuousWithinAt, fun R _ => exFR_deriv κ 0 R Z, fun R _ => exFR_deriv κ 1 R Z,
    fun R _ => exFR_deriv κ 2 R Z, fun R _ => exFR_deriv κ 3 R Z⟩, fun R _ => ?_⟩
  rw [e]
  exact ⟨fun x _ => (exFZ_deriv κ 0 R x).continuousAt.continuousWithinAt, fun Z _ => exFZ_deriv κ 0 R Z, fun Z _ => exFZ_deriv κ 1 R Z,
    fun Z _ => exFZ_deriv κ 2 R Z, fun Z _ => exFZ_deriv κ 3 R Z⟩

theorem exFlux_gs (κ : ℝ) : GradShafranov 1 exD1 (exFR κ) (exFZ κ) exCurrent := by
  intro R hR Z _
  have h : R ≠ 0 := by have := hR.1; simp only [exD1] at this; linarith
  simp only [exFR, exFZ, exCurrent]
  norm_num
  field_simp
  ring

theorem exP_edge : exP.eval 1 = 0 ∧ exP.eval 2 = 0 ∧ (derivative^[1] exP).eval 1 = 0 ∧ (derivative^[1] exP).eval 2 = 0 ∧
    (derivative^[2] exP).eval 1 = 0 ∧ (derivative^[2] exP).eval 2 = 0 := by
  refine ⟨?_, ?_, ?_, ?_, ?_, ?_⟩ <;> norm_num [exP, derivative_pow]

theorem exS_edge : exS.eval 0 = 0 ∧ exS.eval 1 = 0 ∧ (derivative^[2] exS).eval 0 = 0 ∧ (derivative^[2] exS).eval 1 = 0 := by
  refine ⟨?_, ?_, ?_, ?_⟩ <;> norm_num [exS, derivative_pow]

theorem exCurrent_edge (h1 : exD1.Rmin < exD1.Rmax) (h2 : exD1.Zmin < exD1.Zmax) : ∀ q ∈ (rectangle exD1 h1 h2).edge, exCurrent q.1 q.2 = 0 := by
  obtain ⟨a1, a2, a3, a4, a5, a6⟩ := exP_edge
  obtain ⟨b1, b2, b3, b4⟩ := exS_edge
  rintro ⟨x, y⟩ ⟨-, h | h | h | h⟩ <;> simp only [rectangle, exD1] at h <;> subst h <;> simp only [exCurrent, a1, a2, a3, a4, a5, a6, b1, b2, b3, b4] <;> simp

theorem exCurrent_cont (h1 : exD1.Rmin < exD1.Rmax) (h2 : exD1.Zmin < exD1.Zmax) :
    ContinuousOn (fun q : ℝ × ℝ => exCurrent q.1 q.2) (rectangle exD1 h1 h2).set := by
  have hne : ∀ q ∈ (rectangle exD1 h1 h2).set, q.1 ≠ 0 := by
    rintro ⟨x, y⟩ ⟨hx, -⟩
    simp only [rectangle, exD1] at hx
    have := hx.1
    simp only
    linarith
  have ev1 : ∀ p : ℝ[X], Continuous fun q : ℝ × ℝ => p.eval q.1 := fun p => p.continuous.comp continuous_fst
  have ev2 : ∀ p : ℝ[X], Continuous fun q : ℝ × ℝ => p.eval q.2 := fun p => p.continuous.comp continuous_snd
  unfold exCurrent
  refine ContinuousOn.div (ContinuousOn.neg ?_) continuous_fst.continuousOn hne
  refine ContinuousOn.add (ContinuousOn.sub ?_ ?_) ?_
  · exact ((ev1 _).mul (ev2 _)).continuousOn
  · exact ((ev1 _).mul (ev2 _)).continuousOn.div continuous_fst.continuousOn hne
  · exact ((ev1 _).mul (ev2 _)).continuousOn

theorem exBound (κ : ℝ) (n : ℕ) : ∃ M, ∀ R ∈ Set.Icc (1 : ℝ) 2, ∀ Z ∈ Set.Icc (0 : ℝ) 1, |exFR κ n R Z| ≤ M ∧ |exFZ κ n R Z| ≤ M := by
  have ev1 : ∀ p : ℝ[X], Continuous fun q : ℝ × ℝ => p.eval q.1 := fun p => p.continuous.comp continuous_fst
  have ev2 : ∀ p : ℝ[X], Continuous fun q : ℝ × ℝ => p.eval q.2 := fun p => p.continuous.comp continuous_snd
  have c1 : Continuous fun q : ℝ × ℝ => exFR κ n q.1 q.2 := ((ev1 _).mul (ev2 _)).add continuous_const
  have c2 : Continuous fun q : ℝ × ℝ => exFZ κ n q.1 q.2 := ((ev1 _).mul (ev2 _)).add continuous_const
  have hK : IsCompact (Set.Icc (1 : ℝ) 2 ×ˢ Set.Icc (0 : ℝ) 1) := isCompact_Icc.prod isCompact_Icc
  obtain ⟨M1, h1⟩ := hK.exists_bound_of_continuousOn c1.continuousOn
  obtain ⟨M2, h2⟩ := hK.exists_bound_of_continuousOn c2.continuousOn
  exact ⟨max M1 M2, fun R hR Z hZ => ⟨(h1 (R, Z) ⟨hR, hZ⟩).trans (le_max_left _ _), (h2 (R, Z) ⟨hR, hZ⟩).trans (le_max_right _ _)⟩⟩

/-- The current is not zero. -/
example : exCurrent (3 / 2) (1 / 2) ≠ 0 := by
  norm_num [exCurrent, exP, exS, derivative_pow]

/-- A case of `C110_edge`, `C110_converges`: the solutions with the second-order solver come within a hundredth of this flux. -/
example : ∃ κ : ℝ, ∃ n : ℕ, ∀ k l, n ≤ k → n ≤ l → ∃ psi1 : Arr ℝ, ∀ factorized : (ℕ → ℝ) → ℕ → ℝ,
    (∀ b, ∀ r < (2 ^ k + 1) * (2 ^ l + 1),
      matVec ((2 ^ k + 1) * (2 ^ l + 1)) (gsSparse exD1 (2 ^ k + 1) (2 ^ l + 1)) (factorized b) r = b r) →
    ∀ c, OnGrid (2 ^ k + 1) (2 ^ l + 1) c →
      |solve 1 (2 ^ k + 1) (2 ^ l + 1) (linspaceAt 1 2 (2 ^ k + 1)) (fun _ _ => psi1) (fun _ b => mgDirect factorized (2 ^ l + 1) b)
        (fun c => exCurrent (gridR exD1 (2 ^ k + 1) c.1) (gridZ exD1 (2 ^ l + 1) c.2)) (fun _ => 0) c -
        exFR κ 0 (gridR exD1 (2 ^ k + 1) c.1) (gridZ exD1 (2 ^ l + 1) c.2)| < 1 / 100 := by
  have h1 : exD1.Rmin < exD1.Rmax := by norm_num [exD1]
  have h2 : exD1.Zmin < exD1.Zmax := by norm_num [exD1]
  set D := rectangle exD1 h1 h2 with hD
  have oo : ∀ {a b x : ℝ}, x ∈ Set.Ioo a b → x ∈ Set.Icc a b := fun h => ⟨h.1.le, h.2.le⟩
  obtain ⟨M3, b3⟩ := exBound (exKappa D) 3
  obtain ⟨M4, b4⟩ := exBound (exKappa D) 4
  obtain ⟨n, hn⟩ := C110_converges 1 (by norm_num) exD1 (by norm_num [exD1]) h1 h2 (exFR (exKappa D) 0) _ _ exCurrent (exFlux_smooth4 _) (exFlux_gs _) M3 M4 M4
    (fun R hR Z hZ => (b3 R (oo hR) Z hZ).1) (fun R hR Z hZ => (b4 R (oo hR) Z hZ).1) (fun R hR Z hZ => (b4 R hR Z (oo hZ)).2)
    (fun _ _ _ _ => 1) (exCurrent_edge h1 h2)
    (by
      simp only [one_mul]
      exact (exCurrent_cont h1 h2).comp continuous_snd.continuousOn fun p hp => hp.2)
    (fun P hP => by
      obtain ⟨a1, a2, -⟩ := exP_edge
      obtain ⟨b1, b2, -⟩ := exS_edge
      have e : exP.eval P.1 * exS.eval P.2 = 0 := by
        obtain ⟨-, h | h | h | h⟩ := hP <;> simp only [rectangle, exD1] at h <;> rw [h] <;> simp [a1, a2, b1, b2]
      simp only [exFR, Function.iterate_zero, id_eq, if_true]
      rw [e, zero_add]
      rfl) (1 / 100) (by norm_num)
  refine ⟨exKappa D, n, fun k l hk hl => ?_⟩
  obtain ⟨psi1, -, h⟩ := hn k l hk hl fun _ => 0
  exact ⟨psi1, h⟩

/-- A case of `C110_default`: so do, in root mean square, those with the default solver. -/
example : ∃ κ : ℝ, ∃ n : ℕ, ∀ k l, n ≤ k → n ≤ l → ∃ A, gs4Sparse exD1 (2 ^ k + 1) (2 ^ l + 1) = .ok A ∧
    ∃ psi1 : Arr ℝ, ∀ factorized : (ℕ → ℝ) → ℕ → ℝ,
    (∀ b, ∀ r < (2 ^ k + 1) * (2 ^ l + 1), matVec ((2 ^ k + 1) * (2 ^ l + 1)) A (factorized b) r = b r) →
    interiorSum (2 ^ k + 1) (2 ^ l + 1) (fun c =>
      (solve 1 (2 ^ k + 1) (2 ^ l + 1) (linspaceAt 1 2 (2 ^ k + 1)) (fun _ _ => psi1) (fun _ b => mgDirect factorized (2 ^ l + 1) b)
        (fun c => exCurrent (gridR exD1 (2 ^ k + 1) c.1) (gridZ exD1 (2 ^ l + 1) c.2)) (fun _ => 0) c -
        exFR κ 0 (gridR exD1 (2 ^ k + 1) c.1) (gridZ exD1 (2 ^ l + 1) c.2)) ^ 2) ≤ (2 ^ k - 1) * (2 ^ l - 1) * (1 / 100) ^ 2 := by
  have h1 : exD1.Rmin < exD1.Rmax := by norm_num [exD1]
  have h2 : exD1.Zmin < exD1.Zmax := by norm_num [exD1]
  set D := rectangle exD1 h1 h2 with hD
  have oo : ∀ {a b x : ℝ}, x ∈ Set.Ioo a b → x ∈ Set.Icc a b := fun h => ⟨h.1.le, h.2.le⟩
  obtain ⟨M5, b5⟩ := exBound (exKappa D) 5
  obtain ⟨M6, b6⟩ := exBound (exKappa D) 6
  have cont : ∀ n : ℕ, ContinuousOn (fun p : (ℝ × ℝ) × (ℝ × ℝ) => if n = 0 then exCurrent p.2.1 p.2.2 else 0) (D.set ×ˢ D.set) := by
    intro n
    split_ifs
    · exact (exCurrent_cont h1 h2).comp continuous_snd.continuousOn fun p hp => hp.2
    · exact continuousOn_const
  obtain ⟨n, hn⟩ := C110_default 1 (by norm_num) exD1 (by norm_num [exD1]) h1 h2 (exFR (exKappa D) 0) _ _ exCurrent (exFlux_smooth _) (exFlux_gs _) M5 M6 M6
    (fun R hR Z hZ => (b5 R (oo hR) Z hZ).1) (fun R hR Z hZ => (b6 R (oo hR) Z hZ).1) (fun R hR Z hZ => (b6 R hR Z (oo hZ)).2)
    (fun _ _ _ _ => 1) (exCurrent_edge h1 h2) (fun _ q => exCurrent q.1 q.2) (fun n _ q => if n = 0 then exCurrent q.1 q.2 else 0)
    (fun n _ q => if n = 0 then exCurrent q.1 q.2 else 0)
    ⟨fun n _ q _ Z _ R _ => by simpa using hasDerivAt_const R _, fun n _ q _ R _ Z _ => by simpa using hasDerivAt_const Z _,
      fun n _ => cont n, fun n _ => cont n, by funext P q; simp, by funext P q; simp⟩
    (fun P _ q _ => one_mul _)
    (fun P hP => by
      obtain ⟨a1, a2, -⟩ := exP_edge
      obtain ⟨b1, b2, -⟩ := exS_edge
      have e : exP.eval P.1 * exS.eval P.2 = 0 := by
        obtain ⟨-, h | h | h | h⟩ := hP <;> simp only [rectangle, exD1] at h <;> rw [h] <;> simp [a1, a2, b1, b2]
      simp only [exFR, Function.iterate_zero, id_eq, if_true]
      rw [e, zero_add]
      rfl) (1 / 100) (by norm_num)
  refine ⟨exKappa D, n, fun k l hk hl => ?_⟩
  obtain ⟨A, hA, h⟩ := hn k l hk hl
  obtain ⟨psi1, -, -, h⟩ := h fun _ => 0
  exact ⟨A, hA, psi1, h⟩

/-! A plasma for `C110_physical`: a smooth bump of flux in the middle of the square `[1, 2] × [0, 1]`. Its current density flows in both
directions and gives no flux at the edge. -/

noncomputable def bumpR : ContDiffBump (3 / 2 : ℝ) := ⟨1 / 8, 1 / 4, by norm_num, by norm_num⟩
noncomputable def bumpZ : ContDiffBump (1 / 2 : ℝ) := ⟨1 / 8, 1 / 4, by norm_num, by norm_num⟩

theorem bump_deriv {c : ℝ} (f : ContDiffBump c) (n : ℕ) (x : ℝ) : HasDerivAt (iteratedDeriv n f) (iteratedDeriv (n + 1) f x) x := by
  rw [iteratedDeriv_succ]
  exact ((ContDiff.differentiable_iteratedDeriv' n f.contDiff) x).hasDerivAt

theorem bump_cont {c : ℝ} (f : ContDiffBump c) (n : ℕ) : Continuous (iteratedDeriv n f) :=
  continuous_iff_continuousAt.mpr fun x => (bump_deriv f n x).continuousAt

theorem bump_zero {c : ℝ} (f : ContDiffBump c) (n : ℕ) {x : ℝ} (hx : f.rOut < |x - c|) : iteratedDeriv n f x = 0 := by
  have h : iteratedFDeriv ℝ n f x = 0 := by
    by_contra hne
    have := support_iteratedFDeriv_subset n (Function.mem_support.mpr hne)
    rw [f.tsupport_eq, Metric.mem_closedBall, Real.dist_eq] at this
    linarith
  rw [iteratedDeriv_eq_iteratedFDeriv, h]
  rfl

noncomputable def bumpF (R Z : ℝ) : ℝ := bumpR R * bumpZ Z
noncomputable def bumpFR (n : ℕ) (R Z : ℝ) : ℝ := iteratedDeriv n bumpR R * bumpZ Z
noncomputable def bumpFZ (n : ℕ) (R Z : ℝ) : ℝ := bumpR R * iteratedDeriv n bumpZ Z
noncomputable def bumpJ (R Z : ℝ) : ℝ := -(1 / mu0) * ((bumpFR 2 R Z - bumpFR 1 R Z / R + bumpFZ 2 R Z) / R)

theorem bumpFR_deriv (n : ℕ) (R Z : ℝ) : HasDerivAt (fun R => bumpFR n R Z) (bumpFR (n + 1) R Z) R := (bump_deriv bumpR n R).mul_const _
theorem bumpFZ_deriv (n : ℕ) (R Z : ℝ) : HasDerivAt (bumpFZ n R) (bumpFZ (n + 1) R Z) Z := (bump_deriv bumpZ n Z).const_mul _
theorem bumpF_zero : bumpF = bumpFR 0 ∧ bumpF = bumpFZ 0 := by
  constructor <;> funext R Z <;> simp [bumpF, bumpFR, bumpFZ, iteratedDeriv_zero]

theorem bumpFR_cont (n : ℕ) : Continuous fun q : ℝ × ℝ => bumpFR n q.1 q.2 :=
  ((bump_cont bumpR n).comp continuous_fst).mul (bumpZ.continuous.comp continuous_snd)
theorem bumpFZ_cont (n : ℕ) : Continuous fun q : ℝ × ℝ => bumpFZ n q.1 q.2 :=
  (bumpR.continuous.comp continuous_fst).mul ((bump_cont bumpZ n).comp continuous_snd)

/-- All vanishes outside `[5/4, 7/4] × [1/4, 3/4]`. -/
theorem bump_outside (n : ℕ) {R Z : ℝ} (h : 1 / 4 < |R - 3 / 2| ∨ 1 / 4 < |Z - 1 / 2|) : bumpFR n R Z = 0 ∧ bumpFZ n R Z = 0 := by
  rcases h with h | h
  · have h0 := bump_zero bumpR 0 (x := R) h
    have hn := bump_zero bumpR n (x := R) h
    rw [iteratedDeriv_zero] at h0
    simp [bumpFR, bumpFZ, h0, hn]
  · have h0 := bump_zero bumpZ 0 (x := Z) h
    have hn := bump_zero bumpZ n (x := Z) h
    rw [iteratedDeriv_zero] at h0
    simp [bumpFR, bumpFZ, h0, hn]

theorem bumpJ_outside {R Z : ℝ} (h : 1 / 4 < |R - 3 / 2| ∨ 1 / 4 < |Z - 1 / 2|) : bumpJ R Z = 0 := by
  simp [bumpJ, (bump_outside 1 h).1, (bump_outside 2 h).1, (bump_outside 2 h).2]

/-- The rectangle in which the current flows. -/
noncomputable def bumpD : Rectangle := ⟨9 / 8, 15 / 8, 1 / 8, 7 / 8, by norm_num, by norm_num⟩

theorem bumpD_edge {q : ℝ × ℝ} (hq : q ∈ bumpD.edge) : 1 / 4 < |q.1 - 3 / 2| ∨ 1 / 4 < |q.2 - 1 / 2| := by
  obtain ⟨-, h | h | h | h⟩ := hq <;> simp only [bumpD] at h <;> rw [h]
  · left; rw [lt_abs]; right; norm_num
  · left; rw [lt_abs]; left; norm_num
  · right; rw [lt_abs]; right; norm_num
  · right; rw [lt_abs]; left; norm_num

/-- What vanishes outside a part of the interval can be integrated over the part. -/
theorem integral_part {a b a' b' : ℝ} (h : a ≤ a') (h1 : a' ≤ b') (h2 : b' ≤ b) {f : ℝ → ℝ} (h0 : ∀ x, x ∉ Set.Icc a' b' → f x = 0) :
    ∫ x in a..b, f x = ∫ x in a'..b', f x := by
  rw [intervalIntegral.integral_of_le (h.trans (h1.trans h2)), intervalIntegral.integral_of_le h1,
    ← MeasureTheory.integral_Icc_eq_integral_Ioc, ← MeasureTheory.integral_Icc_eq_integral_Ioc]
  exact MeasureTheory.setIntegral_eq_of_subset_of_forall_sdiff_eq_zero measurableSet_Icc (Set.Icc_subset_Icc h h2) fun x hx => h0 x hx.2

theorem mu0_pos' : 0 < mu0 := by unfold mu0; positivity

/-- A case of `C110_physical`: the calculated flux comes within a hundredth of the bump, which is one in the middle. -/
example : bumpF (3 / 2) (1 / 2) = 1 ∧ ∃ n : ℕ, ∀ k l, n ≤ k → n ≤ l → ∃ psi1 : Arr ℝ,
    freeBoundary (greens ellipticK ellipticE) (2 ^ k + 1) (2 ^ l + 1) (linspaceAt 1 2 (2 ^ k + 1)) (linspaceAt 0 1 (2 ^ l + 1))
      (fun c => bumpJ (gridR exD1 (2 ^ k + 1) c.1) (gridZ exD1 (2 ^ l + 1) c.2)) (fun _ => 0) = .ok psi1 ∧
    ∀ factorized : (ℕ → ℝ) → ℕ → ℝ,
    (∀ b, ∀ r < (2 ^ k + 1) * (2 ^ l + 1),
      matVec ((2 ^ k + 1) * (2 ^ l + 1)) (gsSparse exD1 (2 ^ k + 1) (2 ^ l + 1)) (factorized b) r = b r) →
    ∀ c, OnGrid (2 ^ k + 1) (2 ^ l + 1) c →
      |solve mu0 (2 ^ k + 1) (2 ^ l + 1) (linspaceAt 1 2 (2 ^ k + 1)) (fun _ _ => psi1) (fun _ b => mgDirect factorized (2 ^ l + 1) b)
        (fun c => bumpJ (gridR exD1 (2 ^ k + 1) c.1) (gridZ exD1 (2 ^ l + 1) c.2)) (fun _ => 0) c -
        bumpF (gridR exD1 (2 ^ k + 1) c.1) (gridZ exD1 (2 ^ l + 1) c.2)| < 1 / 100 := by
  have h1 : exD1.Rmin < exD1.Rmax := by norm_num [exD1]
  have h2 : exD1.Zmin < exD1.Zmax := by norm_num [exD1]
  have hone : bumpF (3 / 2) (1 / 2) = 1 := by
    rw [bumpF, bumpR.one_of_mem_closedBall (Metric.mem_closedBall_self bumpR.rIn_pos.le),
      bumpZ.one_of_mem_closedBall (Metric.mem_closedBall_self bumpZ.rIn_pos.le), one_mul]
  have hmu := mu0_pos'
  have oo : ∀ {a b x : ℝ}, x ∈ Set.Ioo a b → x ∈ Set.Icc a b := fun h => ⟨h.1.le, h.2.le⟩
  set D := rectangle exD1 h1 h2 with hD
  have hset : ∀ q, q ∈ D.set ↔ (1 ≤ q.1 ∧ q.1 ≤ 2) ∧ 0 ≤ q.2 ∧ q.2 ≤ 1 := fun q => by
    simp only [hD, rectangle, exD1, Rectangle.set, Set.mem_prod, Set.mem_Icc]
  have hK : IsCompact (Set.Icc (1 : ℝ) 2 ×ˢ Set.Icc (0 : ℝ) 1) := isCompact_Icc.prod isCompact_Icc
  obtain ⟨M3, b3⟩ := hK.exists_bound_of_continuousOn (bumpFR_cont 3).continuousOn
  obtain ⟨M4, b4⟩ := hK.exists_bound_of_continuousOn (bumpFR_cont 4).continuousOn
  obtain ⟨N4, c4⟩ := hK.exists_bound_of_continuousOn (bumpFZ_cont 4).continuousOn
  -- where the current is
  have hin : ∀ {R Z : ℝ}, bumpJ R Z ≠ 0 → (5 / 4 ≤ R ∧ R ≤ 7 / 4) ∧ 1 / 4 ≤ Z ∧ Z ≤ 3 / 4 := by
    intro R Z hne
    have : ¬ (1 / 4 < |R - 3 / 2| ∨ 1 / 4 < |Z - 1 / 2|) := fun h => hne (bumpJ_outside h)
    push Not at this
    obtain ⟨a, b⟩ := this
    rw [abs_le] at a b
    exact ⟨⟨by linarith [a.1], by linarith [a.2]⟩, by linarith [b.1], by linarith [b.2]⟩
  have hsm : SmoothFlux exD1 bumpF bumpFR bumpFZ := by
    refine ⟨fun Z _ => ?_, fun R _ => ?_⟩
    · rw [bumpF_zero.1]
      exact ⟨fun x _ => (bumpFR_deriv 0 x Z).continuousAt.continuousWithinAt, fun x _ => bumpFR_deriv 0 x Z, fun x _ => bumpFR_deriv 1 x Z,
        fun x _ => bumpFR_deriv 2 x Z, fun x _ => bumpFR_deriv 3 x Z⟩
    · rw [bumpF_zero.2]
      exact ⟨fun x _ => (bumpFZ_deriv 0 R x).continuousAt.continuousWithinAt, fun x _ => bumpFZ_deriv 0 R x, fun x _ => bumpFZ_deriv 1 R x,
        fun x _ => bumpFZ_deriv 2 R x, fun x _ => bumpFZ_deriv 3 R x⟩
  have hgs : GradShafranov mu0 exD1 bumpFR bumpFZ bumpJ := by
    intro R hR Z _
    have : R ≠ 0 := by have := hR.1; simp only [exD1] at this; linarith
    have := hmu.ne'
    rw [bumpJ]
    field_simp
  have hJc : ContinuousOn (fun q : ℝ × ℝ => bumpJ q.1 q.2) D.set := by
    have hne : ∀ q ∈ D.set, q.1 ≠ 0 := fun q hq => by have := ((hset q).mp hq).1.1; linarith
    unfold bumpJ
    exact continuousOn_const.mul (ContinuousOn.div (ContinuousOn.add (ContinuousOn.sub (bumpFR_cont 2).continuousOn
      ((bumpFR_cont 1).continuousOn.div continuousOn_fst hne)) (bumpFZ_cont 2).continuousOn) continuousOn_fst hne)
  have hun : ∀ q ∈ D.set, ∀ P ∈ D.edge, bumpJ q.1 q.2 ≠ 0 → Unclipped q.1 q.2 P.1 P.2 := by
    intro q _ P hP hne
    obtain ⟨⟨a1, a2⟩, a3, a4⟩ := hin hne
    obtain ⟨⟨p1, p2⟩, p3, p4⟩ := (hset P).mp hP.1
    have far : 1 / 16 ≤ (P.1 - q.1) ^ 2 + (P.2 - q.2) ^ 2 := by
      obtain ⟨-, h | h | h | h⟩ := hP <;> simp only [hD, rectangle, exD1] at h <;> rw [h] <;> nlinarith
    have hp : 0 < (P.1 + q.1) ^ 2 + (P.2 - q.2) ^ 2 := by positivity
    have hle : (P.1 + q.1) ^ 2 + (P.2 - q.2) ^ 2 ≤ 20 := by nlinarith
    constructor
    · rw [le_div_iff₀ hp]
      norm_num
      nlinarith
    · rw [div_le_iff₀ hp]
      norm_num
      nlinarith
  have hedge : ∀ P ∈ D.edge, bumpF P.1 P.2 = D.integral fun q => filamentFlux q.1 q.2 P.1 P.2 * bumpJ q.1 q.2 := by
    intro P hP
    obtain ⟨⟨p1, p2⟩, p3, p4⟩ := (hset P).mp hP.1
    have hPout : P ∉ bumpD.set := by
      rintro ⟨hx, hy⟩
      simp only [bumpD] at hx hy
      obtain ⟨-, h | h | h | h⟩ := hP <;> simp only [hD, rectangle, exD1] at h
      · rw [h] at hx; have := hx.1; norm_num at this
      · rw [h] at hx; have := hx.2; norm_num at this
      · rw [h] at hy; have := hy.1; norm_num at this
      · rw [h] at hy; have := hy.2; norm_num at this
    have hz : bumpF P.1 P.2 = 0 := by
      rw [bumpF_zero.1]
      refine (bump_outside 0 ?_).1
      obtain ⟨-, h | h | h | h⟩ := hP <;> simp only [hD, rectangle, exD1] at h <;> rw [h]
      · left; rw [lt_abs]; right; norm_num
      · left; rw [lt_abs]; left; norm_num
      · right; rw [lt_abs]; right; norm_num
      · right; rw [lt_abs]; left; norm_num
    have g := green_identity (D := bumpD) (P := P) (by norm_num [bumpD]) (by linarith) hPout (bumpFR 0) (bumpFR 1) (bumpFR 2) (bumpFZ 1) (bumpFZ 2)
      (bumpFR_cont 0).continuousOn (bumpFR_cont 1).continuousOn (bumpFR_cont 2).continuousOn (bumpFZ_cont 1).continuousOn (bumpFZ_cont 2).continuousOn
      (fun q _ => bumpFR_deriv 0 q.1 q.2) (fun q _ => bumpFR_deriv 1 q.1 q.2)
      (fun q _ => by rw [← bumpF_zero.1, bumpF_zero.2]; exact bumpFZ_deriv 0 q.1 q.2) (fun q _ => bumpFZ_deriv 1 q.1 q.2)
      (fun q hq => (bump_outside 0 (bumpD_edge hq)).1) (fun q hq => (bump_outside 1 (bumpD_edge hq)).1) (fun q hq => (bump_outside 1 (bumpD_edge hq)).2)
    have out : ∀ {x y : ℝ}, (x ∉ Set.Icc (9 / 8 : ℝ) (15 / 8) ∨ y ∉ Set.Icc (1 / 8 : ℝ) (7 / 8)) → bumpJ x y = 0 := by
      intro x y hxy
      by_contra hne
      obtain ⟨⟨a1, a2⟩, a3, a4⟩ := hin hne
      rcases hxy with h | h
      · exact h ⟨by linarith, by linarith⟩
      · exact h ⟨by linarith, by linarith⟩
    rw [hz]
    simp only [hD, rectangle, exD1, Rectangle.integral]
    rw [integral_part (a' := 9 / 8) (b' := 15 / 8) (by norm_num) (by norm_num) (by norm_num)]
    · have e : ∀ x : ℝ, ∫ y in (0 : ℝ)..1, filamentFlux x y P.1 P.2 * bumpJ x y = ∫ y in (1 / 8 : ℝ)..(7 / 8),
          -(1 / mu0) * (filamentFlux x y P.1 P.2 * ((bumpFR 2 x y - bumpFR 1 x y / x + bumpFZ 2 x y) / x)) := by
        intro x
        rw [integral_part (a' := 1 / 8) (b' := 7 / 8) (by norm_num) (by norm_num) (by norm_num)]
        · refine intervalIntegral.integral_congr fun y _ => ?_
          simp only [bumpJ]
          ring
        · intro y hy
          rw [out (Or.inr hy), mul_zero]
      simp only [e, intervalIntegral.integral_const_mul]
      simp only [Rectangle.integral, bumpD] at g
      rw [g, mul_zero]
    · intro x hx
      have : ∀ y : ℝ, filamentFlux x y P.1 P.2 * bumpJ x y = 0 := fun y => by rw [out (Or.inl hx), mul_zero]
      simp [this]
  obtain ⟨n, hn⟩ := C110_physical exD1 (by norm_num [exD1]) h1 h2 bumpF bumpFR bumpFZ bumpJ hsm hgs M3 M4 N4
    (fun R hR Z hZ => b3 (R, Z) ⟨oo hR, hZ⟩) (fun R hR Z hZ => b4 (R, Z) ⟨oo hR, hZ⟩) (fun R hR Z hZ => c4 (R, Z) ⟨hR, oo hZ⟩)
    hJc hun hedge (1 / 100) (by norm_num)
  refine ⟨hone, n, fun k l hk hl => ?_⟩
  obtain ⟨psi1, hp, h⟩ := hn k l hk hl fun _ => 0
  exact ⟨psi1, hp, h⟩

end Examples

end FreeGS.GS
