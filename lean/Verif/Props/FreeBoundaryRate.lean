import Verif.Props.DefaultUnbounded
import Verif.Props.RombergRate

set_option linter.unusedSectionVars false

/-!
# C110 and C116: the order of accuracy of a free-boundary solve
-/

namespace FreeGS.GS

open FreeGS.Critical (Domain linspaceAt)
open Set Real
open scoped ContDiff

/-- A function `g P q` of a place `P` and a source `q` that is four times differentiable in the source, the fourth derivatives bounded by `B`. -/
structure SmoothSource (D : Rectangle) (g : ℝ × ℝ → ℝ × ℝ → ℝ) (B : ℝ) : Prop where
  cont : ∀ P ∈ D.set, ContinuousOn (g P) D.set
  R : ∀ P ∈ D.set, ∀ y ∈ Icc D.c D.d, ∃ F, F 0 = (fun x => g P (x, y)) ∧ Times 4 D.a D.b F B
  Z : ∀ P ∈ D.set, ∀ x ∈ Icc D.a D.b, ∃ F, F 0 = (fun y => g P (x, y)) ∧ Times 4 D.c D.d F B

theorem SmoothSource.mono {D : Rectangle} {g : ℝ × ℝ → ℝ × ℝ → ℝ} {B B' : ℝ} (h : SmoothSource D g B) (hB : B ≤ B') : SmoothSource D g B' :=
  ⟨h.cont, fun P hP y hy => let ⟨F, e, t⟩ := h.R P hP y hy; ⟨F, e, t.cont, t.deriv, fun x hx => (t.le x hx).trans hB⟩,
    fun P hP x hx => let ⟨F, e, t⟩ := h.Z P hP x hx; ⟨F, e, t.cont, t.deriv, fun y hy => (t.le y hy).trans hB⟩⟩

theorem quadErr_rate (D : Rectangle) {g : ℝ × ℝ → ℝ × ℝ → ℝ} {B : ℝ} (hg : SmoothSource D g B) (k l : ℕ) (hk : 1 ≤ k) (hl : 1 ≤ l) {P : ℝ × ℝ}
    (hP : P ∈ D.set) : |quadErr D k l g P| ≤ (D.b - D.a) * (D.d - D.c) * B / 2 * (((D.b - D.a) / 2 ^ k) ^ 4 + ((D.d - D.c) / 2 ^ l) ^ 4) := by
  have := quad2_rate 1 1 k l hk hl D.hab D.hcd (f := fun x y => g P (x, y)) (hg.cont P hP) (hg.R P hP) (hg.Z P hP)
  refine this.trans (le_of_eq ?_)
  simp only [rateConst, Nat.factorial]
  norm_num
  ring

theorem rate_sum {p q a b K Q : ℝ} (hp : 0 ≤ p) (hq : 0 ≤ q) (ha : 0 ≤ a) (hb : 0 ≤ b) : p * a + q * b + K * (Q * (p + q)) ≤ (a + b + K * Q) * (p + q) := by
  nlinarith [mul_nonneg hp hb, mul_nonneg hq ha]

theorem rate_mean {L S Q e T n : ℝ} (hS : 0 ≤ S) (hQ : 0 ≤ Q) (hT2 : T ^ 2 ≤ S ^ 2 * e ^ 2) (hn : 0 ≤ n) :
    2 * (n * (2 * L ^ 2 * T) ^ 2) + n * (2 * (Q * e) ^ 2) ≤ n * (2 * (2 * L ^ 2 * S + Q) * e) ^ 2 := by
  have t1 := mul_le_mul_of_nonneg_left hT2 (show 0 ≤ 8 * L ^ 4 by positivity)
  have p1 : 0 ≤ L ^ 4 * S ^ 2 * e ^ 2 := by positivity
  have p2 : 0 ≤ Q ^ 2 * e ^ 2 := by positivity
  have p3 : 0 ≤ L ^ 2 * S * Q * e ^ 2 := by positivity
  have : 8 * L ^ 4 * T ^ 2 + 2 * Q ^ 2 * e ^ 2 ≤ (2 * (2 * L ^ 2 * S + Q) * e) ^ 2 := by
    have e1 : (2 * (2 * L ^ 2 * S + Q) * e) ^ 2 = 16 * (L ^ 4 * S ^ 2 * e ^ 2) + 16 * (L ^ 2 * S * Q * e ^ 2) + 4 * (Q ^ 2 * e ^ 2) := by ring
    rw [e1]
    linarith
  have := mul_le_mul_of_nonneg_left this hn
  linarith

theorem rate_point {x y L S Q e T m : ℝ} (hS : 0 ≤ S) (hQ : 0 ≤ Q) (he : 0 ≤ e) (hm : 1 ≤ m) (hT2 : T ^ 2 ≤ S ^ 2 * e ^ 2)
    (h : y ^ 2 ≤ (Q * e) ^ 2) (h' : (x - y) ^ 2 ≤ 6 * L ^ 4 * (m - 1) * T ^ 2) : |x| ≤ 2 * (2 * L ^ 2 * S + Q) * √m * e := by
  have t : x ^ 2 ≤ 2 * (x - y) ^ 2 + 2 * (Q * e) ^ 2 := by nlinarith [sq_nonneg (x - y - y)]
  refine abs_le_of_sq_le_sq (t.trans ?_) (by positivity)
  rw [mul_pow (_ * _) e, mul_pow _ (√m), Real.sq_sqrt (by linarith)]
  have t1 := mul_le_mul_of_nonneg_left hT2 (show 0 ≤ 12 * L ^ 4 * (m - 1) from mul_nonneg (by positivity) (by linarith))
  have p1 : 0 ≤ L ^ 4 * S ^ 2 * e ^ 2 := by positivity
  have p2 : 0 ≤ Q ^ 2 * e ^ 2 := by positivity
  have p3 : 0 ≤ L ^ 2 * S * Q * e ^ 2 := by positivity
  have p4 := mul_le_mul_of_nonneg_right hm p2
  have p5 := mul_le_mul_of_nonneg_right hm p3
  have p6 := mul_le_mul_of_nonneg_right hm p1
  have e1 : (2 * (2 * L ^ 2 * S + Q)) ^ 2 * m * e ^ 2 = 16 * (m * (L ^ 4 * S ^ 2 * e ^ 2)) + 16 * (m * (L ^ 2 * S * Q * e ^ 2)) + 4 * (m * (Q ^ 2 * e ^ 2)) := by ring
  have e2 : 12 * L ^ 4 * (m - 1) * (S ^ 2 * e ^ 2) = 12 * (m * (L ^ 4 * S ^ 2 * e ^ 2)) - 12 * (L ^ 4 * S ^ 2 * e ^ 2) := by ring
  rw [e1]
  rw [e2] at t1
  linarith

/-- **C110 (order of the default solver).** If Green's function times the current density agrees, for places on the edge, with a function that is smooth in
the place and in the source, then the edge values of a free-boundary solve with the default solver are accurate to fourth order in the spacing of the grid, the flux within is
so in root mean square, and at each point up to the square root of the number of points in the radius. -/
theorem C110_rate (mu0 : ℝ) (hmu : 0 < mu0) (d : Domain ℝ) (h0 : 0 < d.Rmin) (hR : d.Rmin < d.Rmax) (hZ : d.Zmin < d.Zmax)
    (F : ℝ → ℝ → ℝ) (FR FZ : ℕ → ℝ → ℝ → ℝ) (J : ℝ → ℝ → ℝ) (hF : SmoothFlux6 d F FR FZ) (hgs : GradShafranov mu0 d FR FZ J) (M5 M6 N6 : ℝ)
    (hM5 : ∀ R ∈ Set.Ioo d.Rmin d.Rmax, ∀ Z ∈ Set.Icc d.Zmin d.Zmax, |FR 5 R Z| ≤ M5)
    (hM6 : ∀ R ∈ Set.Ioo d.Rmin d.Rmax, ∀ Z ∈ Set.Icc d.Zmin d.Zmax, |FR 6 R Z| ≤ M6)
    (hN6 : ∀ R ∈ Set.Icc d.Rmin d.Rmax, ∀ Z ∈ Set.Ioo d.Zmin d.Zmax, |FZ 6 R Z| ≤ N6)
    (G : ℝ → ℝ → ℝ → ℝ → ℝ) (hJ : ∀ q ∈ (rectangle d hR hZ).edge, J q.1 q.2 = 0)
    (H : ℝ × ℝ → ℝ × ℝ → ℝ) (HR HZ : ℕ → ℝ × ℝ → ℝ × ℝ → ℝ) (hH : SmoothKernel (rectangle d hR hZ) H HR HZ)
    (B : ℝ) (hB : 0 ≤ B) (hBR : ∀ n ≤ 6, SmoothSource (rectangle d hR hZ) (HR n) B) (hBZ : ∀ n ≤ 6, SmoothSource (rectangle d hR hZ) (HZ n) B)
    (hG : ∀ P ∈ (rectangle d hR hZ).edge, ∀ q ∈ (rectangle d hR hZ).set, G q.1 q.2 P.1 P.2 * J q.1 q.2 = H P q)
    (hedge : ∀ P ∈ (rectangle d hR hZ).edge, F P.1 P.2 = (rectangle d hR hZ).integral fun q => G q.1 q.2 P.1 P.2 * J q.1 q.2) :
    ∃ (C : ℝ) (n : ℕ), ∀ k l, n ≤ k → n ≤ l → ∃ A, gs4Sparse d (2 ^ k + 1) (2 ^ l + 1) = .ok A ∧ ∀ psi0 : Arr ℝ, ∃ psi1 : Arr ℝ,
      freeBoundary G (2 ^ k + 1) (2 ^ l + 1) (linspaceAt d.Rmin d.Rmax (2 ^ k + 1)) (linspaceAt d.Zmin d.Zmax (2 ^ l + 1))
        (fun c => J (gridR d (2 ^ k + 1) c.1) (gridZ d (2 ^ l + 1) c.2)) psi0 = .ok psi1 ∧
      (∀ c, OnEdge (2 ^ k + 1) (2 ^ l + 1) c → |psi1 c - F (gridR d (2 ^ k + 1) c.1) (gridZ d (2 ^ l + 1) c.2)| ≤
        C * (stepR d (2 ^ k + 1) ^ 4 + stepZ d (2 ^ l + 1) ^ 4)) ∧
      ∀ factorized : (ℕ → ℝ) → ℕ → ℝ,
        (∀ b, ∀ r < (2 ^ k + 1) * (2 ^ l + 1), matVec ((2 ^ k + 1) * (2 ^ l + 1)) A (factorized b) r = b r) →
        let psi := solve mu0 (2 ^ k + 1) (2 ^ l + 1) (linspaceAt d.Rmin d.Rmax (2 ^ k + 1)) (fun _ _ => psi1)
          (fun _ b => mgDirect factorized (2 ^ l + 1) b) (fun c => J (gridR d (2 ^ k + 1) c.1) (gridZ d (2 ^ l + 1) c.2)) psi0
        interiorSum (2 ^ k + 1) (2 ^ l + 1) (fun c => (psi c - F (gridR d (2 ^ k + 1) c.1) (gridZ d (2 ^ l + 1) c.2)) ^ 2) ≤
          (2 ^ k - 1) * (2 ^ l - 1) * (C * (stepR d (2 ^ k + 1) ^ 4 + stepZ d (2 ^ l + 1) ^ 4)) ^ 2 ∧
        ∀ c, OnGrid (2 ^ k + 1) (2 ^ l + 1) c → |psi c - F (gridR d (2 ^ k + 1) c.1) (gridZ d (2 ^ l + 1) c.2)| ≤
          C * √(2 ^ k) * (stepR d (2 ^ k + 1) ^ 4 + stepZ d (2 ^ l + 1) ^ 4) := by
  set D := rectangle d hR hZ with hD
  set W := d.Rmax - d.Rmin with hW
  set L := d.Zmax - d.Zmin with hL
  have hW0 : 0 < W := by rw [hW]; linarith
  have hL0 : 0 < L := by rw [hL]; linarith
  have hRmax : 0 < d.Rmax := h0.trans hR
  have hM5' : 0 ≤ M5 := le_trans (abs_nonneg _) (hM5 ((d.Rmin + d.Rmax) / 2) ⟨by linarith, by linarith⟩ d.Zmin ⟨le_refl _, hZ.le⟩)
  have hM6' : 0 ≤ M6 := le_trans (abs_nonneg _) (hM6 ((d.Rmin + d.Rmax) / 2) ⟨by linarith, by linarith⟩ d.Zmin ⟨le_refl _, hZ.le⟩)
  have hN6' : 0 ≤ N6 := le_trans (abs_nonneg _) (hN6 d.Rmin ⟨le_refl _, hR.le⟩ ((d.Zmin + d.Zmax) / 2) ⟨by linarith, by linarith⟩)
  -- the constants
  set a := 7 / 6 * (M6 + 1) + (M5 + 1) / (3 * d.Rmin) with ha
  set b := 7 / 6 * (N6 + 1) with hb
  have ha0 : 0 < a := by positivity
  have hb0 : 0 < b := by positivity
  set K := d.Rmax * (2 + 1 / d.Rmin) / d.Rmin with hK
  have hK0 : 0 < K := by positivity
  set Q := W * L * B / 2 with hQ
  have hQ0 : 0 ≤ Q := by positivity
  set S := a + b + K * Q with hS
  have hS0 : 0 < S := by positivity
  set C := 2 * (2 * L ^ 2 * S + Q) with hC
  have hC0 : 0 < C := by positivity
  obtain ⟨n2, hn2⟩ := exists_pow_lt_of_lt_one (show 0 < 1 / ((Q + 1) * (W ^ 4 + L ^ 4)) by positivity) (show (1 / 16 : ℝ) < 1 by norm_num)
  obtain ⟨n3, hn3⟩ := exists_pow_lt_of_lt_one (show 0 < d.Rmin / (2 * W) by positivity) (show (1 / 2 : ℝ) < 1 by norm_num)
  refine ⟨C, n2 + n3 + 3, fun k l hk hl => ?_⟩
  have hpow : ∀ k : ℕ, n2 + n3 + 3 ≤ k → 8 ≤ 2 ^ k := fun k hk => by
    calc 8 = 2 ^ 3 := by norm_num
      _ ≤ 2 ^ k := Nat.pow_le_pow_right (by norm_num) (by omega)
  have hk8 := hpow k hk
  have hl8 := hpow l hl
  have sRe : stepR d (2 ^ k + 1) = W / 2 ^ k := by rw [stepR]; push_cast; rw [add_sub_cancel_right]
  have sZe : stepZ d (2 ^ l + 1) = L / 2 ^ l := by rw [stepZ]; push_cast; rw [add_sub_cancel_right]
  have half : ∀ (k m : ℕ), m ≤ k → (1 : ℝ) / 2 ^ k ≤ (1 / 2) ^ m := fun k m h => by
    rw [show (1 : ℝ) / 2 ^ k = (1 / 2) ^ k by rw [div_pow, one_pow]]
    exact pow_le_pow_of_le_one (by norm_num) (by norm_num) h
  have hs : 2 * stepR d (2 ^ k + 1) ≤ d.Rmin := by
    have h1 := half k n3 (by omega)
    have h2 : (1 : ℝ) / 2 ^ k ≤ d.Rmin / (2 * W) := h1.trans hn3.le
    rw [le_div_iff₀ (by positivity)] at h2
    rw [sRe]
    calc 2 * (W / 2 ^ k) = 1 / 2 ^ k * (2 * W) := by ring
      _ ≤ _ := h2
  set e4 := stepR d (2 ^ k + 1) ^ 4 + stepZ d (2 ^ l + 1) ^ 4 with he4
  have he0 : 0 ≤ e4 := by positivity
  have q4 : ∀ (w : ℝ) (k : ℕ), n2 ≤ k → (w / 2 ^ k) ^ 4 ≤ w ^ 4 * (1 / 16) ^ n2 := by
    intro w k hk
    rw [div_pow, ← pow_mul, mul_comm k 4, pow_mul, div_eq_mul_inv, ← inv_pow]
    rw [show ((2 : ℝ) ^ 4)⁻¹ = 1 / 16 by norm_num]
    have : (0 : ℝ) ≤ w ^ 4 := by positivity
    exact mul_le_mul_of_nonneg_left (pow_le_pow_of_le_one (by norm_num) (by norm_num) hk) this
  have hε1 : Q * e4 ≤ 1 := by
    have s1 := q4 W k (by omega)
    have s2 := q4 L l (by omega)
    have s3 : e4 ≤ (W ^ 4 + L ^ 4) * (1 / 16) ^ n2 := by rw [he4, sRe, sZe]; linarith
    rw [lt_div_iff₀ (by positivity)] at hn2
    have s4 := mul_le_mul_of_nonneg_left s3 (show 0 ≤ Q + 1 by positivity)
    linarith
  obtain ⟨A, hA, _, _⟩ := C107_solvable d (2 ^ k + 1) (2 ^ l + 1) (by omega) (by omega) hR hZ hs
  refine ⟨A, hA, fun psi0 => ?_⟩
  have eR : ∀ i, D.R k i = gridR d (2 ^ k + 1) i := rect_R d hR hZ k
  have eZ : ∀ j, D.Z l j = gridZ d (2 ^ l + 1) j := rect_Z d hR hZ l
  obtain ⟨psi1, h1, h2⟩ := freeBoundary_values G (2 ^ k + 1) (2 ^ l + 1) (Nat.succ_pos _) (Nat.succ_pos _) (D.R k) (D.Z l) _ _
    (fun c hc => edgeFlux_value D G J k l c (hJ _ (edge_point D k l hc))) psi0
  have es : D.sample k l (fun q => J q.1 q.2) = fun c => J (gridR d (2 ^ k + 1) c.1) (gridZ d (2 ^ l + 1) c.2) := by
    funext c
    simp only [Rectangle.sample, eR, eZ]
  rw [es] at h1
  have small : ∀ n ≤ 6, ∀ P ∈ D.set, |quadErr D k l (HR n) P| ≤ Q * e4 ∧ |quadErr D k l (HZ n) P| ≤ Q * e4 := by
    intro n hn P hP
    rw [he4, sRe, sZe]
    exact ⟨quadErr_rate D (hBR n hn) k l (by omega) (by omega) hP, quadErr_rate D (hBZ n hn) k l (by omega) (by omega) hP⟩
  -- the edge values are those of a function near `F`
  have hval : ∀ c, OnEdge (2 ^ k + 1) (2 ^ l + 1) c → psi1 c =
      F (gridR d (2 ^ k + 1) c.1) (gridZ d (2 ^ l + 1) c.2) + quadErr D k l H (gridR d (2 ^ k + 1) c.1, gridZ d (2 ^ l + 1) c.2) := by
    intro c hc
    have hP := edge_point D k l hc
    have e1 := hedge _ hP
    have e2 : D.integral (fun q => G q.1 q.2 (D.R k c.1) (D.Z l c.2) * J q.1 q.2) = D.integral (H (D.R k c.1, D.Z l c.2)) := by
      simp only [Rectangle.integral]
      refine intervalIntegral.integral_congr fun x hx => intervalIntegral.integral_congr fun y hy => ?_
      rw [Set.uIcc_of_le D.hab] at hx
      rw [Set.uIcc_of_le D.hcd] at hy
      exact hG _ hP (x, y) ⟨hx, hy⟩
    have e3 : quad2 D.a D.b D.c D.d k l (fun x y => G x y (D.R k c.1) (D.Z l c.2) * J x y) =
        quad2 D.a D.b D.c D.d k l fun x y => H (D.R k c.1, D.Z l c.2) (x, y) := by
      refine quad1_congr D.hab k fun x hx => quad1_congr D.hcd l fun y hy => ?_
      exact hG _ hP (x, y) ⟨hx, hy⟩
    rw [h2 c hc, e3, ← eR, ← eZ, quadErr]
    simp only at e1
    rw [e1, e2]
    ring
  have mem : ∀ {R Z}, R ∈ Set.Icc d.Rmin d.Rmax → Z ∈ Set.Icc d.Zmin d.Zmax → (R, Z) ∈ D.set := fun hr hz => ⟨hr, hz⟩
  have hE : SmoothFlux6 d (fun R Z => quadErr D k l H (R, Z)) (fun n R Z => quadErr D k l (HR n) (R, Z)) (fun n R Z => quadErr D k l (HZ n) (R, Z)) := by
    refine ⟨fun Z hz => quadErr_R D hH k l hz, fun R hr => quadErr_Z D hH k l hr, ?_, ?_⟩
    · funext R Z; rw [hH.R0]
    · funext R Z; rw [hH.Z0]
  have small0 : ∀ c, OnGrid (2 ^ k + 1) (2 ^ l + 1) c →
      quadErr D k l H (gridR d (2 ^ k + 1) c.1, gridZ d (2 ^ l + 1) c.2) ^ 2 ≤ (Q * e4) ^ 2 := by
    intro c hc
    have hP : (gridR d (2 ^ k + 1) c.1, gridZ d (2 ^ l + 1) c.2) ∈ D.set := by
      rw [← eR, ← eZ]
      simp only [Rectangle.R, Rectangle.Z, linspace_node]
      exact ⟨node_mem D.hab k (by have := hc.1; omega), node_mem D.hcd l (by have := hc.2; omega)⟩
    have := (small 0 (by norm_num) _ hP).1
    rw [hH.R0] at this
    exact sq_le_sq' (abs_le.mp this).1 (abs_le.mp this).2
  have hQC : Q ≤ C := by rw [hC]; nlinarith [mul_pos (pow_pos hL0 2) hS0]
  refine ⟨psi1, h1, fun c hc => ?_, fun factorized hfac => ?_⟩
  · rw [hval c hc, add_sub_cancel_left, ← hH.R0, ← eR, ← eZ]
    exact (small 0 (by norm_num) _ (edge_point D k l hc).1).1.trans (mul_le_mul_of_nonneg_right hQC he0)
  obtain ⟨hT0, rms, pt⟩ := perturbed_raw mu0 hmu d (2 ^ k + 1) (2 ^ l + 1) (by omega) (by omega) hR hZ hs F FR FZ J hF hgs M5 M6 N6 hM5 hM6 hN6
    _ _ _ hE (Q * e4) hε1 (fun n hn R hr Z hz => (small n hn _ (mem hr hz)).1) (fun n hn R hr Z hz => (small n hn _ (mem hr hz)).2) A hA factorized hfac
    psi1 psi0 hval
  have hN : ((2 ^ k + 1 : ℕ) : ℝ) - 2 = 2 ^ k - 1 := by push_cast; ring
  have hN' : ((2 ^ l + 1 : ℕ) : ℝ) - 2 = 2 ^ l - 1 := by push_cast; ring
  intro psi
  simp only [hN, hN'] at rms pt hT0
  set T := stepR d (2 ^ k + 1) ^ 4 * a + stepZ d (2 ^ l + 1) ^ 4 * b + K * (Q * e4) with hT
  have hTe : T ≤ S * e4 := rate_sum (by positivity) (by positivity) ha0.le hb0.le
  have hT2 : T ^ 2 ≤ S ^ 2 * e4 ^ 2 := by rw [← mul_pow]; exact pow_le_pow_left₀ hT0 hTe 2
  have hk1 : (1 : ℝ) ≤ 2 ^ k := one_le_pow₀ (by norm_num)
  have hl1 : (1 : ℝ) ≤ 2 ^ l := one_le_pow₀ (by norm_num)
  constructor
  · have hcard : interiorSum (2 ^ k + 1) (2 ^ l + 1) (fun _ => 2 * (Q * e4) ^ 2) = (2 ^ k - 1) * (2 ^ l - 1) * (2 * (Q * e4) ^ 2) := by
      simp only [interiorSum, Finset.sum_const, Finset.card_range, nsmul_eq_mul]
      rw [Nat.cast_sub (by omega), Nat.cast_sub (by omega)]
      push_cast
      ring
    have hadd : ∀ f g : Arr ℝ, interiorSum (2 ^ k + 1) (2 ^ l + 1) (fun c => f c + g c) =
        interiorSum (2 ^ k + 1) (2 ^ l + 1) f + interiorSum (2 ^ k + 1) (2 ^ l + 1) g := fun f g => by
      simp only [interiorSum, Finset.sum_add_distrib]
    have hmul : ∀ f : Arr ℝ, interiorSum (2 ^ k + 1) (2 ^ l + 1) (fun c => 2 * f c) = 2 * interiorSum (2 ^ k + 1) (2 ^ l + 1) f := fun f => by
      simp only [interiorSum, Finset.mul_sum]
    have step := interiorSum_le (2 ^ k + 1) (2 ^ l + 1) (fun c => (psi c - F (gridR d (2 ^ k + 1) c.1) (gridZ d (2 ^ l + 1) c.2)) ^ 2)
      (fun c => 2 * (psi c - (F (gridR d (2 ^ k + 1) c.1) (gridZ d (2 ^ l + 1) c.2) +
        quadErr D k l H (gridR d (2 ^ k + 1) c.1, gridZ d (2 ^ l + 1) c.2))) ^ 2 + 2 * (Q * e4) ^ 2)
      (fun c hc => two_squares _ _ _ _ (small0 c ⟨by have := hc.2.1; omega, by have := hc.2.2.2; omega⟩))
    rw [hadd, hmul, hcard] at step
    refine step.trans ((add_le_add_left (mul_le_mul_of_nonneg_left rms zero_le_two) _).trans ?_)
    exact rate_mean hS0.le hQ0 hT2 (mul_nonneg (by linarith) (by linarith))
  · intro c hc
    refine rate_point (y := quadErr D k l H (gridR d (2 ^ k + 1) c.1, gridZ d (2 ^ l + 1) c.2)) hS0.le hQ0 he0 hk1 hT2 (small0 c hc) ?_
    rw [sub_sub]
    exact pt c hc

/-! ## The flux in unbounded space -/

theorem along_level (e : Triple) {m : ℕ} {f : Triple → ℝ} (hf : ContDiff ℝ ((m + 1 : ℕ) : WithTop ℕ∞) f) : ContDiff ℝ (m : WithTop ℕ∞) (along e f) := by
  rw [Nat.cast_add, Nat.cast_one, contDiff_succ_iff_fderiv] at hf
  exact hf.2.2.clm_apply contDiff_const

theorem iterate_level (e : Triple) {m : ℕ} {f : Triple → ℝ} (hf : ContDiff ℝ (m : WithTop ℕ∞) f) (j : ℕ) (hj : j ≤ m) :
    ContDiff ℝ ((m - j : ℕ) : WithTop ℕ∞) ((along e)^[j] f) := by
  induction j with
  | zero => exact hf
  | succ j ih =>
    rw [Function.iterate_succ_apply']
    refine along_level e ?_
    rw [show m - (j + 1) + 1 = m - j by omega]
    exact ih (by omega)

theorem source_cont {w : Triple → ℝ} (hw : ContDiff ℝ ((4 : ℕ) : WithTop ℕ∞) w) (e : Triple) (j : ℕ) (hj : j ≤ 4) :
    Continuous fun p : (ℝ × ℝ) × (ℝ × ℝ) => ∫ φ in (0 : ℝ)..(2 * π), (along e)^[j] w (p, φ) :=
  intervalIntegral.continuous_parametric_intervalIntegral_of_continuous' (f := fun p φ => (along e)^[j] w (p, φ))
    (iterate_level e hw j hj).continuous 0 (2 * π)

theorem source_times {w : Triple → ℝ} (hw : ContDiff ℝ ((4 : ℕ) : WithTop ℕ∞) w) (e : Triple) (γ : ℝ → (ℝ × ℝ) × (ℝ × ℝ)) (hc : Continuous γ)
    (hγ : ∀ t φ, HasDerivAt (fun t => (γ t, φ)) e t) {a b B : ℝ} (hB : ∀ x ∈ Icc a b, |∫ φ in (0 : ℝ)..(2 * π), (along e)^[4] w (γ x, φ)| ≤ B) :
    Times 4 a b (fun j t => ∫ φ in (0 : ℝ)..(2 * π), (along e)^[j] w (γ t, φ)) B where
  cont := ((source_cont hw e 0 (by norm_num)).comp hc).continuousOn
  le := fun x hx => hB x ⟨hx.1.le, hx.2.le⟩
  deriv := by
    intro j hj t _
    have cc : ∀ m ≤ 4, ContinuousOn (fun p : ℝ × ℝ => (along e)^[m] w (γ p.1, p.2)) (Icc (t - 1) (t + 1) ×ˢ Icc 0 (2 * π)) := fun m hm =>
      ((iterate_level e hw m hm).continuous.comp (by fun_prop : Continuous fun p : ℝ × ℝ => (γ p.1, p.2))).continuousOn
    refine param_deriv (u := t - 1) (v := t + 1) (by positivity) (F := fun t φ => (along e)^[j] w (γ t, φ))
      (F' := fun t φ => (along e)^[j + 1] w (γ t, φ)) (cc j hj.le) (cc (j + 1) hj) (fun x _ φ _ => ?_) ⟨by linarith, by linarith⟩
    rw [Function.iterate_succ_apply']
    have hd := ((iterate_level e hw j hj.le).differentiable (by simp; omega)) (γ x, φ)
    exact hd.hasFDerivAt.comp_hasDerivAt x (hγ x φ)

/-- A kernel that is four times differentiable in the source. -/
theorem source_smooth (D : Rectangle) {w : Triple → ℝ} (hw : ContDiff ℝ ((4 : ℕ) : WithTop ℕ∞) w) :
    ∃ B, 0 ≤ B ∧ ∀ B', B ≤ B' → SmoothSource D (fun P q => ∫ φ in (0 : ℝ)..(2 * π), w ((P, q), φ)) B' := by
  have hK : IsCompact (D.set ×ˢ D.set) := (isCompact_Icc.prod isCompact_Icc).prod (isCompact_Icc.prod isCompact_Icc)
  obtain ⟨B1, b1⟩ := hK.exists_bound_of_continuousOn (source_cont hw ((0, (1, 0)), 0) 4 le_rfl).continuousOn
  obtain ⟨B2, b2⟩ := hK.exists_bound_of_continuousOn (source_cont hw ((0, (0, 1)), 0) 4 le_rfl).continuousOn
  refine ⟨max 0 (max B1 B2), le_max_left _ _, fun B' hB' => ⟨fun P hP => ?_, fun P hP y hy => ?_, fun P hP x hx => ?_⟩⟩
  · exact ((source_cont hw 0 0 (by norm_num)).comp (by fun_prop : Continuous fun q : ℝ × ℝ => (P, q))).continuousOn
  · refine ⟨_, rfl, source_times hw ((0, (1, 0)), 0) (fun x => (P, (x, y))) (by fun_prop) (fun t φ => ?_) fun x hx => ?_⟩
    · exact ((hasDerivAt_const t P).prodMk ((hasDerivAt_id t).prodMk (hasDerivAt_const t y))).prodMk (hasDerivAt_const t φ)
    · exact (b1 (P, (x, y)) ⟨hP, hx, hy⟩).trans (((le_max_left _ _).trans (le_max_right _ _)).trans hB')
  · refine ⟨_, rfl, source_times hw ((0, (0, 1)), 0) (fun y => (P, (x, y))) (by fun_prop) (fun t φ => ?_) fun y hy => ?_⟩
    · exact ((hasDerivAt_const t P).prodMk ((hasDerivAt_const t x).prodMk (hasDerivAt_id t))).prodMk (hasDerivAt_const t φ)
    · exact (b2 (P, (x, y)) ⟨hP, hx, hy⟩).trans (((le_max_right _ _).trans (le_max_right _ _)).trans hB')

theorem kernel_smooth (D : Rectangle) {s : ℝ} (hs : 0 < s) {J : ℝ → ℝ → ℝ} (hJ : ContDiff ℝ ((4 : ℕ) : WithTop ℕ∞) fun q : ℝ × ℝ => J q.1 q.2) (e : Triple) :
    ∃ B, 0 ≤ B ∧ ∀ n ≤ 6, SmoothSource D (fun P q => (∫ φ in (0 : ℝ)..(2 * π), (along e)^[n] (softFlux s) ((P, q), φ)) * J q.1 q.2) B := by
  have hw : ∀ n, ContDiff ℝ ((4 : ℕ) : WithTop ℕ∞) fun X : Triple => (along e)^[n] (softFlux s) X * J X.1.2.1 X.1.2.2 := fun n =>
    (contDiff_infty.mp (iterate_smooth e (softFlux_smooth hs) n) 4).mul
      (hJ.comp (contDiff_snd.comp contDiff_fst : ContDiff ℝ ((4 : ℕ) : WithTop ℕ∞) fun X : Triple => X.1.2))
  choose B b0 b using fun n => source_smooth D (hw n)
  refine ⟨∑ n ∈ Finset.range 7, B n, Finset.sum_nonneg fun n _ => b0 n, fun n hn => ?_⟩
  have := b n _ (Finset.single_le_sum (fun n _ => b0 n) (Finset.mem_range.mpr (by omega : n < 7)))
  simp only [intervalIntegral.integral_mul_const] at this
  exact this

/-- A current density that is four times differentiable, continued by zero to the axis. -/
noncomputable def continued (J : ℝ → ℝ → ℝ) (R Z : ℝ) : ℝ := if 0 < R then J R Z else 0

theorem continued_smooth {d : Domain ℝ} (h0 : 0 < d.Rmin) {J : ℝ → ℝ → ℝ} (hJ : ContDiffOn ℝ 4 (fun q : ℝ × ℝ => J q.1 q.2) {q | 0 < q.1})
    (within : ∀ R Z, 0 < R → J R Z ≠ 0 → R ∈ Ioo d.Rmin d.Rmax ∧ Z ∈ Ioo d.Zmin d.Zmax) :
    ContDiff ℝ ((4 : ℕ) : WithTop ℕ∞) fun q : ℝ × ℝ => continued J q.1 q.2 := by
  rw [contDiff_iff_contDiffAt]
  intro q
  by_cases hq : 0 < q.1
  · have hs : {q : ℝ × ℝ | 0 < q.1} ∈ nhds q := (isOpen_lt continuous_const continuous_fst).mem_nhds hq
    refine (hJ.contDiffAt hs).congr_of_eventuallyEq ?_
    filter_upwards [hs] with p hp
    exact if_pos hp
  · have hs : {q : ℝ × ℝ | q.1 < d.Rmin} ∈ nhds q := (isOpen_lt continuous_fst continuous_const).mem_nhds (by
      have : q.1 ≤ 0 := not_lt.mp hq
      exact this.trans_lt h0)
    refine (contDiffAt_const (c := (0 : ℝ))).congr_of_eventuallyEq ?_
    filter_upwards [hs] with p hp
    rw [continued]
    split_ifs with hp0
    · by_contra hne
      exact absurd (within p.1 p.2 hp0 hne).1.1 (not_lt.mpr (le_of_lt hp))
    · rfl

/-- **C116 (order of the default solver).** If the current density of the plasma is four times continuously differentiable, then a free-boundary solve with the default solver
gives the flux of the plasma in unbounded space to fourth order in the spacing of the grid: at the edge, within in root mean square, and at each point up to the
square root of the number of points in the radius. -/
theorem C116_rate (d : Domain ℝ) (h0 : 0 < d.Rmin) (hR : d.Rmin < d.Rmax) (hZ : d.Zmin < d.Zmax)
    (F : ℝ → ℝ → ℝ) (FR FZ : ℕ → ℝ → ℝ → ℝ) (J : ℝ → ℝ → ℝ) (h : PlasmaFlux d F FR FZ J) (hF : SmoothFlux6 d F FR FZ) (M5 M6 N6 : ℝ)
    (hM5 : ∀ R ∈ Ioo d.Rmin d.Rmax, ∀ Z ∈ Icc d.Zmin d.Zmax, |FR 5 R Z| ≤ M5)
    (hM6 : ∀ R ∈ Ioo d.Rmin d.Rmax, ∀ Z ∈ Icc d.Zmin d.Zmax, |FR 6 R Z| ≤ M6)
    (hN6 : ∀ R ∈ Icc d.Rmin d.Rmax, ∀ Z ∈ Ioo d.Zmin d.Zmax, |FZ 6 R Z| ≤ N6)
    (hJ : ∀ R Z, 0 < R → J R Z ≠ 0 → ∀ P ∈ (rectangle d hR hZ).edge, Unclipped R Z P.1 P.2)
    (hJs : ContDiffOn ℝ 4 (fun q : ℝ × ℝ => J q.1 q.2) {q | 0 < q.1}) :
    ∃ (C : ℝ) (n : ℕ), ∀ k l, n ≤ k → n ≤ l → ∃ A, gs4Sparse d (2 ^ k + 1) (2 ^ l + 1) = .ok A ∧ ∀ psi0 : Arr ℝ, ∃ psi1 : Arr ℝ,
      freeBoundary (greens ellipticK ellipticE) (2 ^ k + 1) (2 ^ l + 1) (linspaceAt d.Rmin d.Rmax (2 ^ k + 1))
        (linspaceAt d.Zmin d.Zmax (2 ^ l + 1)) (fun c => J (gridR d (2 ^ k + 1) c.1) (gridZ d (2 ^ l + 1) c.2)) psi0 = .ok psi1 ∧
      (∀ c, OnEdge (2 ^ k + 1) (2 ^ l + 1) c → |psi1 c - F (gridR d (2 ^ k + 1) c.1) (gridZ d (2 ^ l + 1) c.2)| ≤
        C * (stepR d (2 ^ k + 1) ^ 4 + stepZ d (2 ^ l + 1) ^ 4)) ∧
      ∀ factorized : (ℕ → ℝ) → ℕ → ℝ,
        (∀ b, ∀ r < (2 ^ k + 1) * (2 ^ l + 1), matVec ((2 ^ k + 1) * (2 ^ l + 1)) A (factorized b) r = b r) →
        let psi := solve mu0 (2 ^ k + 1) (2 ^ l + 1) (linspaceAt d.Rmin d.Rmax (2 ^ k + 1)) (fun _ _ => psi1)
          (fun _ b => mgDirect factorized (2 ^ l + 1) b) (fun c => J (gridR d (2 ^ k + 1) c.1) (gridZ d (2 ^ l + 1) c.2)) psi0
        interiorSum (2 ^ k + 1) (2 ^ l + 1) (fun c => (psi c - F (gridR d (2 ^ k + 1) c.1) (gridZ d (2 ^ l + 1) c.2)) ^ 2) ≤
          (2 ^ k - 1) * (2 ^ l - 1) * (C * (stepR d (2 ^ k + 1) ^ 4 + stepZ d (2 ^ l + 1) ^ 4)) ^ 2 ∧
        ∀ c, OnGrid (2 ^ k + 1) (2 ^ l + 1) c → |psi c - F (gridR d (2 ^ k + 1) c.1) (gridZ d (2 ^ l + 1) c.2)| ≤
          C * √(2 ^ k) * (stepR d (2 ^ k + 1) ^ 4 + stepZ d (2 ^ l + 1) ^ 4) := by
  have pos : ∀ q ∈ (rectangle d hR hZ).set, 0 < q.1 := fun q hq => h0.trans_le hq.1.1
  set s : ℝ := (d.Rmin * (1e-5 / 2)) ^ 2 with hs
  have s0 : 0 < s := by positivity
  -- the current keeps away from the edge
  have far : ∀ P ∈ (rectangle d hR hZ).edge, ∀ q ∈ (rectangle d hR hZ).set, J q.1 q.2 ≠ 0 → s ≤ (P.1 - q.1) ^ 2 + (P.2 - q.2) ^ 2 := by
    intro P hP q hq hne
    by_contra hlt
    push Not at hlt
    have hP1 : d.Rmin ≤ P.1 := hP.1.1.1
    have le : d.Rmin * (1e-5 / 2) ≤ P.1 * (1e-5 / 2) := mul_le_mul_of_nonneg_right hP1 (by norm_num)
    refine near_clipped (pos q hq) (pos P hP.1) ?_ ?_ (hJ q.1 q.2 (pos q hq) hne P hP)
    · refine (abs_le_of_sq_le_sq' (a := q.1 - P.1) (b := d.Rmin * (1e-5 / 2)) ?_ (by positivity) |> abs_le.mpr).trans le
      nlinarith [sq_nonneg (P.2 - q.2)]
    · refine (abs_le_of_sq_le_sq' (a := q.2 - P.2) (b := d.Rmin * (1e-5 / 2)) ?_ (by positivity) |> abs_le.mpr).trans le
      nlinarith [sq_nonneg (P.1 - q.1)]
  have green : ∀ P ∈ (rectangle d hR hZ).edge, ∀ q ∈ (rectangle d hR hZ).set,
      greens ellipticK ellipticE q.1 q.2 P.1 P.2 * J q.1 q.2 = filamentFlux q.1 q.2 P.1 P.2 * J q.1 q.2 := by
    intro P hP q hq
    by_cases hz : J q.1 q.2 = 0
    · simp [hz]
    · rw [(C67_greens_is_filament_flux q.1 q.2 P.1 P.2 (pos P hP.1) (pos q hq) (hJ q.1 q.2 (pos q hq) hz P hP)).1]
  have cs := continued_smooth h0 hJs h.within
  have eJ : ∀ q ∈ (rectangle d hR hZ).set, continued J q.1 q.2 = J q.1 q.2 := fun q hq => if_pos (pos q hq)
  obtain ⟨B1, b1, s1⟩ := kernel_smooth (rectangle d hR hZ) s0 cs (((1, 0), 0), 0)
  obtain ⟨B2, b2, s2⟩ := kernel_smooth (rectangle d hR hZ) s0 cs (((0, 1), 0), 0)
  refine C110_rate mu0 mu0_pos d h0 hR hZ F FR FZ J hF (fun R hr Z _ => h.gs R Z (h0.trans hr.1)) M5 M6 N6 hM5 hM6 hN6 (greens ellipticK ellipticE)
    (fun q hq => ?_) _ _ _ (smooth_kernel (rectangle d hR hZ) s0 (J := continued J) cs.continuous.continuousOn) (max B1 B2) (b1.trans (le_max_left _ _))
    (fun n hn => (s1 n hn).mono (le_max_left _ _)) (fun n hn => (s2 n hn).mono (le_max_right _ _)) (fun P hP q hq => ?_) (fun P hP => ?_)
  · by_contra hne
    have := far q hq q hq.1 hne
    simp only [sub_self] at this
    norm_num at this
    linarith
  · rw [green P hP q hq, eJ q hq]
    by_cases hz : J q.1 q.2 = 0
    · simp [hz]
    · rw [softFlux_eq s0 (pos P hP.1).le (pos q hq).le (far P hP q hq hz)]
  · have hP0 := pos P hP.1
    rw [plasma_flux d h0 hR hZ F FR FZ J h P hP0 (r := P.1 * (1e-5 / 2)) (by positivity) fun R Z hR h1 h2 => by
      by_contra hne
      exact near_clipped hR hP0 h1 h2 (hJ R Z hR hne P hP)]
    simp only [Rectangle.flux, Rectangle.integral]
    refine intervalIntegral.integral_congr fun x hx => intervalIntegral.integral_congr fun y hy => ?_
    rw [uIcc_of_le (rectangle d hR hZ).hab] at hx
    rw [uIcc_of_le (rectangle d hR hZ).hcd] at hy
    exact (green P hP (x, y) ⟨hx, hy⟩).symm

/-! ## A case that meets the hypotheses: the ring of `C116_default` -/

/-- An integral over an angle depends smoothly on a parameter. -/
theorem contDiff_loop (m : ℕ) : ∀ {F : Type} [NormedAddCommGroup F] [NormedSpace ℝ F] [CompleteSpace F] {w : Triple → F},
    ContDiff ℝ (m : WithTop ℕ∞) w → ContDiff ℝ (m : WithTop ℕ∞) fun p : (ℝ × ℝ) × (ℝ × ℝ) => ∫ φ in (0 : ℝ)..(2 * π), w (p, φ) := by
  induction m with
  | zero =>
    intro F _ _ _ w hw
    rw [Nat.cast_zero, contDiff_zero] at hw ⊢
    exact intervalIntegral.continuous_parametric_intervalIntegral_of_continuous' (f := fun p φ => w (p, φ)) hw 0 (2 * π)
  | succ m ih =>
    intro F _ _ _ w hw
    rw [Nat.cast_add, Nat.cast_one, contDiff_succ_iff_fderiv] at hw
    obtain ⟨hd, -, hw'⟩ := hw
    set w' : Triple → (((ℝ × ℝ) × (ℝ × ℝ)) →L[ℝ] F) := fun X => (fderiv ℝ w X).comp (ContinuousLinearMap.inl ℝ ((ℝ × ℝ) × (ℝ × ℝ)) ℝ) with hw'd
    have cw' : ContDiff ℝ (m : WithTop ℕ∞) w' := hw'.clm_comp contDiff_const
    have der : ∀ p φ, HasFDerivAt (fun p => w (p, φ)) (w' (p, φ)) p := fun p φ =>
      (hd (p, φ)).hasFDerivAt.comp p (hasFDerivAt_prodMk_left p φ)
    rw [Nat.cast_add, Nat.cast_one, contDiff_succ_iff_hasFDerivAt]
    refine ⟨_, ih cw', fun p => ?_⟩
    have c1 : ∀ p, Continuous fun φ => w (p, φ) := fun p => hd.continuous.comp (by fun_prop)
    have c2 : Continuous fun φ => w' (p, φ) := cw'.continuous.comp (by fun_prop)
    obtain ⟨C, hC⟩ := ((isCompact_closedBall p 1).prod (isCompact_Icc (a := (0 : ℝ)) (b := 2 * π))).exists_bound_of_continuousOn cw'.continuous.continuousOn
    refine intervalIntegral.hasFDerivAt_integral_of_dominated_of_fderiv_le (s := Metric.closedBall p 1) (bound := fun _ => C)
      (F := fun p φ => w (p, φ)) (F' := fun p φ => w' (p, φ)) (Metric.closedBall_mem_nhds p one_pos) ?_ ((c1 p).intervalIntegrable _ _) c2.aestronglyMeasurable ?_
      (continuous_const.intervalIntegrable _ _) ?_
    · exact Filter.Eventually.of_forall fun q => (c1 q).aestronglyMeasurable
    · refine MeasureTheory.ae_of_all _ fun φ hφ q hq => hC (q, φ) ⟨hq, ?_⟩
      rw [uIoc_of_le (by positivity)] at hφ
      exact ⟨hφ.1.le, hφ.2⟩
    · exact MeasureTheory.ae_of_all _ fun φ _ q _ => der q φ

theorem softJ_smooth : ContDiffOn ℝ 4 (fun q : ℝ × ℝ => softJ q.1 q.2) {q | 0 < q.1} := by
  have w : ∀ (e : Triple) (n : ℕ), ContDiff ℝ ((4 : ℕ) : WithTop ℕ∞)
      fun q : ℝ × ℝ => ∫ φ in (0 : ℝ)..(2 * π), (along e)^[n] (softFlux (1 / 16)) (((q.1, q.2), exP0), φ) := fun e n => by
    have := contDiff_loop 4 (contDiff_infty.mp (iterate_smooth e (softFlux_smooth (by norm_num : (0 : ℝ) < 1 / 16)) n) 4)
    exact this.comp (contDiff_id.prodMk contDiff_const : ContDiff ℝ ((4 : ℕ) : WithTop ℕ∞) fun q : ℝ × ℝ => (q, exP0))
  have fst : ContDiffOn ℝ ((4 : ℕ) : WithTop ℕ∞) (fun q : ℝ × ℝ => q.1) {q | 0 < q.1} := contDiff_fst.contDiffOn
  have ne : ∀ q ∈ {q : ℝ × ℝ | 0 < q.1}, q.1 ≠ 0 := fun q hq => ne_of_gt hq
  exact contDiffOn_const.mul (((((w _ 2).contDiffOn).sub (((w _ 1).contDiffOn).div fst ne)).add (w _ 2).contDiffOn).div fst ne)

/-- A case of `C116_rate`: in the corner of the square, where the flux of the ring is that of a filament, the error of the calculation falls like the fourth power of the
spacing. -/
example (h1 : exD1.Rmin < exD1.Rmax) (h2 : exD1.Zmin < exD1.Zmax) : softF 1 0 = filamentFlux (3 / 2) (1 / 2) 1 0 ∧
    ∃ (C : ℝ) (n : ℕ), ∀ k, n ≤ k → ∃ psi1 : Arr ℝ,
      freeBoundary (greens ellipticK ellipticE) (2 ^ k + 1) (2 ^ k + 1) (linspaceAt exD1.Rmin exD1.Rmax (2 ^ k + 1))
        (linspaceAt exD1.Zmin exD1.Zmax (2 ^ k + 1)) (fun c => softJ (gridR exD1 (2 ^ k + 1) c.1) (gridZ exD1 (2 ^ k + 1) c.2)) (fun _ => 0) = .ok psi1 ∧
      |psi1 (0, 0) - filamentFlux (3 / 2) (1 / 2) 1 0| ≤ C * (1 / 16) ^ k := by
  have corner := (soft_outside (R := 1) (Z := 0) one_pos (by norm_num)).1
  refine ⟨corner, ?_⟩
  have oo : ∀ {a b x : ℝ}, x ∈ Set.Ioo a b → x ∈ Set.Icc a b := fun h => ⟨h.1.le, h.2.le⟩
  have hK : IsCompact (Icc exD1.Rmin exD1.Rmax ×ˢ Icc exD1.Zmin exD1.Zmax) := isCompact_Icc.prod isCompact_Icc
  obtain ⟨M5, b5⟩ := hK.exists_bound_of_continuousOn (softFR_cont 5).continuousOn
  obtain ⟨M6, b6⟩ := hK.exists_bound_of_continuousOn (softFR_cont 6).continuousOn
  obtain ⟨N6, c6⟩ := hK.exists_bound_of_continuousOn (softFZ_cont 6).continuousOn
  have six : SmoothFlux6 exD1 softF softFR softFZ :=
    ⟨fun Z _ => ⟨fun x _ => (softFR_deriv 0 x Z).continuousAt.continuousWithinAt, fun n _ x _ => softFR_deriv n x Z⟩,
      fun R _ => ⟨fun x _ => (softFZ_deriv 0 R x).continuousAt.continuousWithinAt, fun n _ x _ => softFZ_deriv n R x⟩, rfl, rfl⟩
  obtain ⟨C, n, hn⟩ := C116_rate exD1 (by norm_num [exD1]) h1 h2 softF softFR softFZ softJ soft_plasma six M5 M6 N6
    (fun R hR Z hZ => b5 (R, Z) ⟨oo hR, hZ⟩) (fun R hR Z hZ => b6 (R, Z) ⟨oo hR, hZ⟩) (fun R hR Z hZ => c6 (R, Z) ⟨hR, oo hZ⟩)
    (fun R Z hR hne P hP => soft_unclipped h1 h2 hR hne hP) softJ_smooth
  refine ⟨2 * C, n, fun k hk => ?_⟩
  obtain ⟨A, -, hA⟩ := hn k k hk hk
  obtain ⟨psi1, e, he, -⟩ := hA fun _ => 0
  refine ⟨psi1, e, ?_⟩
  have := he (0, 0) ⟨⟨by positivity, by positivity⟩, Or.inl rfl⟩
  have g1 : gridR exD1 (2 ^ k + 1) 0 = 1 := by simp [gridR, exD1]
  have g2 : gridZ exD1 (2 ^ k + 1) 0 = 0 := by simp [gridZ, exD1]
  simp only [g1, g2, corner] at this
  refine this.trans (le_of_eq ?_)
  have s1 : stepR exD1 (2 ^ k + 1) = (1 / 2) ^ k := by rw [stepR, div_pow, one_pow]; push_cast; rw [add_sub_cancel_right]; norm_num [exD1]
  have s2 : stepZ exD1 (2 ^ k + 1) = (1 / 2) ^ k := by rw [stepZ, div_pow, one_pow]; push_cast; rw [add_sub_cancel_right]; norm_num [exD1]
  rw [s1, s2, ← pow_mul, mul_comm k 4, pow_mul]
  norm_num
  ring

end FreeGS.GS
