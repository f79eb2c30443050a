import Verif.Lemmas.SmoothKernel
import Verif.Lemmas.Vacuum
import Mathlib.MeasureTheory.Integral.IntervalIntegral.IntegrationByParts
import Mathlib.MeasureTheory.Integral.Prod

set_option linter.unusedSectionVars false

/-!
# Green's identity for the flux of a filament
-/

namespace FreeGS

open Real Set MeasureTheory

theorem sourceDist_comm (Rc Zc R Z φ : ℝ) : sourceDist Rc Zc R Z φ = sourceDist R Z Rc Zc φ := by
  rw [sourceDist, sourceDist, sourceDist_sq, sourceDist_sq]
  congr 1
  ring

/-- The flux of a filament is symmetric in source and observer. -/
theorem filamentFlux_comm (Rc Zc R Z : ℝ) : filamentFlux Rc Zc R Z = filamentFlux R Z Rc Zc := by
  simp only [filamentFlux, sourceDist_comm Rc Zc R Z, mul_div_assoc, intervalIntegral.integral_const_mul]
  ring

namespace GS

/-- The order of integration does not matter. -/
theorem integral_swap (D : Rectangle) {f : ℝ → ℝ → ℝ} (hf : ContinuousOn (fun q : ℝ × ℝ => f q.1 q.2) D.set) :
    ∫ x in D.a..D.b, ∫ y in D.c..D.d, f x y = ∫ y in D.c..D.d, ∫ x in D.a..D.b, f x y := by
  simp only [intervalIntegral.integral_of_le D.hab, intervalIntegral.integral_of_le D.hcd]
  refine integral_integral_swap ?_
  rw [Measure.prod_restrict]
  have h : IntegrableOn (fun q : ℝ × ℝ => f q.1 q.2) D.set (volume.prod volume) :=
    hf.integrableOn_compact (isCompact_Icc.prod isCompact_Icc)
  exact h.mono_set (prod_mono Ioc_subset_Icc_self Ioc_subset_Icc_self)

variable {D : Rectangle} {P : ℝ × ℝ}

theorem apart_of (hP : P ∉ D.set) {q : ℝ × ℝ} (hq : q ∈ D.set) : q.1 ≠ P.1 ∨ q.2 ≠ P.2 := by
  by_contra h
  push Not at h
  exact hP (by rw [← Prod.ext h.1 h.2]; exact hq)

theorem cont_loop (f : ℝ × ℝ → ℝ → ℝ) (hf : ContinuousOn (fun p : (ℝ × ℝ) × ℝ => f p.1 p.2) (D.set ×ˢ Icc 0 (2 * π))) :
    ContinuousOn (fun q => ∫ φ in (0 : ℝ)..(2 * π), f q φ) D.set := param_cont (by positivity) hf

theorem dist_cont : Continuous fun p : (ℝ × ℝ) × ℝ => sourceDist P.1 P.2 p.1.1 p.1.2 p.2 := by unfold sourceDist; fun_prop

theorem dist_ne (ha : 0 < D.a) (hP0 : 0 < P.1) (hP : P ∉ D.set) (n : ℕ) : ∀ p ∈ D.set ×ˢ Icc (0 : ℝ) (2 * π), sourceDist P.1 P.2 p.1.1 p.1.2 p.2 ^ n ≠ 0 :=
  fun p hp => (pow_pos (sourceDist_pos (lt_of_lt_of_le ha hp.1.1.1) hP0 (apart_of hP hp.1) p.2) n).ne'

theorem cont_flux (ha : 0 < D.a) (hP0 : 0 < P.1) (hP : P ∉ D.set) : ContinuousOn (fun q : ℝ × ℝ => filamentFlux P.1 P.2 q.1 q.2) D.set := by
  unfold filamentFlux
  refine continuousOn_fst.mul (continuousOn_const.mul (cont_loop _ ?_))
  refine ContinuousOn.div (by fun_prop) dist_cont.continuousOn fun p hp => ?_
  simpa using dist_ne ha hP0 hP 1 p hp

theorem cont_Br (ha : 0 < D.a) (hP0 : 0 < P.1) (hP : P ∉ D.set) : ContinuousOn (fun q : ℝ × ℝ => biotSavartR P.1 P.2 q.1 q.2) D.set := by
  unfold biotSavartR
  refine continuousOn_const.mul (cont_loop _ ?_)
  exact ContinuousOn.div (by fun_prop) (dist_cont.pow 3).continuousOn (dist_ne ha hP0 hP 3)

theorem cont_Bz (ha : 0 < D.a) (hP0 : 0 < P.1) (hP : P ∉ D.set) : ContinuousOn (fun q : ℝ × ℝ => biotSavartZ P.1 P.2 q.1 q.2) D.set := by
  unfold biotSavartZ
  refine continuousOn_const.mul (cont_loop _ ?_)
  exact ContinuousOn.div (by fun_prop) (dist_cont.pow 3).continuousOn (dist_ne ha hP0 hP 3)

/-- The derivative of the vertical field in the radius, and of the radial field in the height. -/
noncomputable def fieldSlope (P q : ℝ × ℝ) : ℝ := mu0 / (4 * π) * ∫ φ in (0 : ℝ)..(2 * π), dBz P.1 P.2 q.1 q.2 φ

theorem cont_slope (ha : 0 < D.a) (hP0 : 0 < P.1) (hP : P ∉ D.set) : ContinuousOn (fieldSlope P) D.set := by
  unfold fieldSlope
  refine continuousOn_const.mul (cont_loop _ ?_)
  unfold dBz
  refine ContinuousOn.mul (by fun_prop) (ContinuousOn.sub ?_ ?_)
  · exact ContinuousOn.div (by fun_prop) (dist_cont.pow 3).continuousOn (dist_ne ha hP0 hP 3)
  · exact ContinuousOn.div (by fun_prop) (dist_cont.pow 5).continuousOn (dist_ne ha hP0 hP 5)

/-- Integration by parts. -/
theorem by_parts {a b : ℝ} (hab : a ≤ b) {u u' v v' : ℝ → ℝ} (hu : ContinuousOn u (Icc a b)) (hv : ContinuousOn v (Icc a b))
    (hu' : ContinuousOn u' (Icc a b)) (hv' : ContinuousOn v' (Icc a b)) (du : ∀ x ∈ Icc a b, HasDerivAt u (u' x) x)
    (dv : ∀ x ∈ Icc a b, HasDerivAt v (v' x) x) :
    ∫ x in a..b, u x * v' x = u b * v b - u a * v a - ∫ x in a..b, u' x * v x := by
  have e := uIcc_of_le hab
  have i : ∀ {g : ℝ → ℝ}, ContinuousOn g (Icc a b) → IntervalIntegrable g volume a b := fun hg => by
    rw [← e] at hg
    exact hg.intervalIntegrable
  have o : ∀ {x}, x ∈ Ioo (min a b) (max a b) → x ∈ Icc a b := fun {x} hx => by
    rw [min_eq_left hab, max_eq_right hab] at hx
    exact ⟨hx.1.le, hx.2.le⟩
  rw [intervalIntegral.integral_mul_deriv_eq_deriv_mul_of_hasDerivAt (by rw [e]; exact hu) (by rw [e]; exact hv) (fun x hx => du x (o hx))
    (fun x hx => dv x (o hx)) (i hu') (i hv')]

/-- The flow of a vector field out of a rectangle. -/
noncomputable def flow (u v : ℝ → ℝ → ℝ) (a b c d : ℝ) : ℝ :=
  (∫ y in c..d, u b y) - (∫ y in c..d, u a y) + ((∫ x in a..b, v x d) - ∫ x in a..b, v x c)

/-- **Green's identity.** The flux outside a rectangle that is due to the current density of `F` is an integral over the edge. -/
theorem green_full (ha : 0 < D.a) (hP0 : 0 < P.1) (hP : P ∉ D.set) (F FR FRR FZ FZZ : ℝ → ℝ → ℝ)
    (c0 : ContinuousOn (fun q : ℝ × ℝ => F q.1 q.2) D.set) (c1 : ContinuousOn (fun q : ℝ × ℝ => FR q.1 q.2) D.set)
    (c2 : ContinuousOn (fun q : ℝ × ℝ => FRR q.1 q.2) D.set) (c3 : ContinuousOn (fun q : ℝ × ℝ => FZ q.1 q.2) D.set)
    (c4 : ContinuousOn (fun q : ℝ × ℝ => FZZ q.1 q.2) D.set)
    (d1 : ∀ q ∈ D.set, HasDerivAt (fun x => F x q.2) (FR q.1 q.2) q.1) (d2 : ∀ q ∈ D.set, HasDerivAt (fun x => FR x q.2) (FRR q.1 q.2) q.1)
    (d3 : ∀ q ∈ D.set, HasDerivAt (F q.1) (FZ q.1 q.2) q.2) (d4 : ∀ q ∈ D.set, HasDerivAt (FZ q.1) (FZZ q.1 q.2) q.2) :
    D.integral (fun q => filamentFlux q.1 q.2 P.1 P.2 * ((FRR q.1 q.2 - FR q.1 q.2 / q.1 + FZZ q.1 q.2) / q.1)) =
      flow (fun x y => filamentFlux x y P.1 P.2 * FR x y / x - biotSavartZ P.1 P.2 x y * F x y)
        (fun x y => filamentFlux x y P.1 P.2 * FZ x y / x + biotSavartR P.1 P.2 x y * F x y) D.a D.b D.c D.d := by
  have pos : ∀ q ∈ D.set, 0 < q.1 := fun q hq => lt_of_lt_of_le ha hq.1.1
  have hne : ∀ q ∈ D.set, q.1 ≠ 0 := fun q hq => (pos q hq).ne'
  have secx : ∀ {f : ℝ → ℝ → ℝ}, ContinuousOn (fun q : ℝ × ℝ => f q.1 q.2) D.set → ∀ y ∈ Icc D.c D.d, ContinuousOn (fun x => f x y) (Icc D.a D.b) := by
    intro f hf y hy
    have : ContinuousOn (fun x : ℝ => (x, y)) (Icc D.a D.b) := by fun_prop
    exact hf.comp this fun x hx => ⟨hx, hy⟩
  have secy : ∀ {f : ℝ → ℝ → ℝ}, ContinuousOn (fun q : ℝ × ℝ => f q.1 q.2) D.set → ∀ x ∈ Icc D.a D.b, ContinuousOn (f x) (Icc D.c D.d) := by
    intro f hf x hx
    have : ContinuousOn (fun y : ℝ => (x, y)) (Icc D.c D.d) := by fun_prop
    exact hf.comp this fun y hy => ⟨hx, hy⟩
  have kg := cont_flux ha hP0 hP
  have kBz := cont_Bz ha hP0 hP
  have kBr := cont_Br ha hP0 hP
  have ks := cont_slope ha hP0 hP
  have la : D.a ∈ Icc D.a D.b := ⟨le_rfl, D.hab⟩
  have lb : D.b ∈ Icc D.a D.b := ⟨D.hab, le_rfl⟩
  have lc : D.c ∈ Icc D.c D.d := ⟨le_rfl, D.hcd⟩
  have ld : D.d ∈ Icc D.c D.d := ⟨D.hcd, le_rfl⟩
  -- the second derivatives in the height
  have tZ : ∀ x ∈ Icc D.a D.b, ∫ y in D.c..D.d, filamentFlux P.1 P.2 x y * (FZZ x y / x) =
      (filamentFlux x D.d P.1 P.2 * FZ x D.d / x + biotSavartR P.1 P.2 x D.d * F x D.d) - (filamentFlux x D.c P.1 P.2 * FZ x D.c / x + biotSavartR P.1 P.2 x D.c * F x D.c) - ∫ y in D.c..D.d, fieldSlope P (x, y) * F x y := by
    intro x hx
    have hx0 := pos (x, D.c) ⟨hx, lc⟩
    have s1 : ∫ y in D.c..D.d, filamentFlux P.1 P.2 x y * FZZ x y = filamentFlux P.1 P.2 x D.d * FZ x D.d -
        filamentFlux P.1 P.2 x D.c * FZ x D.c - ∫ y in D.c..D.d, (-x * biotSavartR P.1 P.2 x y) * FZ x y :=
      by_parts D.hcd (secy kg x hx) (secy c3 x hx) (continuousOn_const.mul (secy kBr x hx)) (secy c4 x hx)
        (fun y hy => flux_deriv_Z hx0 hP0 (apart_of hP (q := (x, y)) ⟨hx, hy⟩)) (fun y hy => d4 (x, y) ⟨hx, hy⟩)
    have s2 : ∫ y in D.c..D.d, biotSavartR P.1 P.2 x y * FZ x y = biotSavartR P.1 P.2 x D.d * F x D.d - biotSavartR P.1 P.2 x D.c * F x D.c -
        ∫ y in D.c..D.d, fieldSlope P (x, y) * F x y :=
      by_parts D.hcd (secy kBr x hx) (secy c0 x hx) (secy (f := fun x y => fieldSlope P (x, y)) ks x hx) (secy c3 x hx)
        (fun y hy => by
          have hap := apart_of hP (q := (x, y)) ⟨hx, hy⟩
          have := radial_deriv_Z hx0 hP0 hap
          rw [curl_free hx0 hP0 hap] at this
          exact this) (fun y hy => d3 (x, y) ⟨hx, hy⟩)
    have e : ∀ y, filamentFlux P.1 P.2 x y * (FZZ x y / x) = (1 / x) * (filamentFlux P.1 P.2 x y * FZZ x y) := fun y => by ring
    have e' : ∀ y, -x * biotSavartR P.1 P.2 x y * FZ x y = -x * (biotSavartR P.1 P.2 x y * FZ x y) := fun y => by ring
    simp only [e, e', intervalIntegral.integral_const_mul] at s1 ⊢
    rw [s1, s2, filamentFlux_comm x D.d, filamentFlux_comm x D.c]
    have : x ≠ 0 := hx0.ne'
    field_simp
    ring
  -- the derivatives in the radius
  have tR : ∀ y ∈ Icc D.c D.d, ∫ x in D.a..D.b, filamentFlux P.1 P.2 x y * (FRR x y / x - FR x y / x ^ 2) =
      (filamentFlux D.b y P.1 P.2 * FR D.b y / D.b - biotSavartZ P.1 P.2 D.b y * F D.b y) - (filamentFlux D.a y P.1 P.2 * FR D.a y / D.a - biotSavartZ P.1 P.2 D.a y * F D.a y) + ∫ x in D.a..D.b, fieldSlope P (x, y) * F x y := by
    intro y hy
    have hx0 : ∀ x ∈ Icc D.a D.b, 0 < x := fun x hx => pos (x, y) ⟨hx, hy⟩
    have hx1 : ∀ x ∈ Icc D.a D.b, x ≠ 0 := fun x hx => (hx0 x hx).ne'
    have cx : ContinuousOn (fun x : ℝ => x) (Icc D.a D.b) := continuousOn_id
    have s1 : ∫ x in D.a..D.b, filamentFlux P.1 P.2 x y * (FRR x y / x - FR x y / x ^ 2) =
        filamentFlux P.1 P.2 D.b y * (FR D.b y / D.b) - filamentFlux P.1 P.2 D.a y * (FR D.a y / D.a) -
          ∫ x in D.a..D.b, (x * biotSavartZ P.1 P.2 x y) * (FR x y / x) :=
      by_parts D.hab (secx kg y hy) ((secx c1 y hy).div cx hx1) (cx.mul (secx kBz y hy))
        (((secx c2 y hy).div cx hx1).sub ((secx c1 y hy).div (cx.pow 2) fun x hx => pow_ne_zero 2 (hx1 x hx)))
        (fun x hx => flux_deriv_R (hx0 x hx) hP0 (apart_of hP (q := (x, y)) ⟨hx, hy⟩))
        (fun x hx => by
          have := (d2 (x, y) ⟨hx, hy⟩).div (hasDerivAt_id x) (hx1 x hx)
          refine this.congr_deriv ?_
          have := hx1 x hx
          simp only [id_eq]
          field_simp)
    have s2 : ∫ x in D.a..D.b, biotSavartZ P.1 P.2 x y * FR x y = biotSavartZ P.1 P.2 D.b y * F D.b y - biotSavartZ P.1 P.2 D.a y * F D.a y -
        ∫ x in D.a..D.b, fieldSlope P (x, y) * F x y :=
      by_parts D.hab (secx kBz y hy) (secx c0 y hy) (secx (f := fun x y => fieldSlope P (x, y)) ks y hy) (secx c1 y hy)
        (fun x hx => vertical_deriv_R (hx0 x hx) hP0 (apart_of hP (q := (x, y)) ⟨hx, hy⟩)) (fun x hx => d1 (x, y) ⟨hx, hy⟩)
    have e : ∫ x in D.a..D.b, (x * biotSavartZ P.1 P.2 x y) * (FR x y / x) = ∫ x in D.a..D.b, biotSavartZ P.1 P.2 x y * FR x y := by
      refine intervalIntegral.integral_congr fun x hx => ?_
      rw [uIcc_of_le D.hab] at hx
      have := hx1 x hx
      field_simp
    rw [s1, e, s2, filamentFlux_comm D.b, filamentFlux_comm D.a, mul_div_assoc, mul_div_assoc]
    ring
  have k1 : ContinuousOn (fun q : ℝ × ℝ => filamentFlux P.1 P.2 q.1 q.2 * (FRR q.1 q.2 / q.1 - FR q.1 q.2 / q.1 ^ 2)) D.set :=
    kg.mul ((c2.div continuousOn_fst hne).sub (c1.div (continuousOn_fst.pow 2) fun q hq => pow_ne_zero 2 (hne q hq)))
  have k2 : ContinuousOn (fun q : ℝ × ℝ => filamentFlux P.1 P.2 q.1 q.2 * (FZZ q.1 q.2 / q.1)) D.set := kg.mul (c4.div continuousOn_fst hne)
  have k3 : ContinuousOn (fun q : ℝ × ℝ => fieldSlope P q * F q.1 q.2) D.set := ks.mul c0
  have i : ∀ {a b : ℝ} {g : ℝ → ℝ}, a ≤ b → ContinuousOn g (Icc a b) → IntervalIntegrable g volume a b := fun {a b g} h hg => by
    rw [← uIcc_of_le h] at hg
    exact hg.intervalIntegrable
  have split : D.integral (fun q => filamentFlux q.1 q.2 P.1 P.2 * ((FRR q.1 q.2 - FR q.1 q.2 / q.1 + FZZ q.1 q.2) / q.1)) =
      (∫ x in D.a..D.b, ∫ y in D.c..D.d, filamentFlux P.1 P.2 x y * (FRR x y / x - FR x y / x ^ 2)) +
        ∫ x in D.a..D.b, ∫ y in D.c..D.d, filamentFlux P.1 P.2 x y * (FZZ x y / x) := by
    rw [← intervalIntegral.integral_add]
    · refine intervalIntegral.integral_congr fun x hx => ?_
      rw [uIcc_of_le D.hab] at hx
      have hx0 := pos (x, D.c) ⟨hx, lc⟩
      simp only
      rw [← intervalIntegral.integral_add (i D.hcd (secy (f := fun x y => filamentFlux P.1 P.2 x y * (FRR x y / x - FR x y / x ^ 2)) k1 x hx))
        (i D.hcd (secy (f := fun x y => filamentFlux P.1 P.2 x y * (FZZ x y / x)) k2 x hx))]
      refine intervalIntegral.integral_congr fun y _ => ?_
      rw [filamentFlux_comm]
      have : x ≠ 0 := hx0.ne'
      field_simp
    · exact i D.hab (param_cont D.hcd (f := fun x y => filamentFlux P.1 P.2 x y * (FRR x y / x - FR x y / x ^ 2)) k1)
    · exact i D.hab (param_cont D.hcd (f := fun x y => filamentFlux P.1 P.2 x y * (FZZ x y / x)) k2)
  have kcomm : ContinuousOn (fun q : ℝ × ℝ => filamentFlux q.1 q.2 P.1 P.2) D.set := kg.congr fun q _ => filamentFlux_comm _ _ _ _
  have jR : ContinuousOn (fun q : ℝ × ℝ => filamentFlux q.1 q.2 P.1 P.2 * FR q.1 q.2 / q.1 - biotSavartZ P.1 P.2 q.1 q.2 * F q.1 q.2) D.set :=
    ((kcomm.mul c1).div continuousOn_fst hne).sub (kBz.mul c0)
  have jZ : ContinuousOn (fun q : ℝ × ℝ => filamentFlux q.1 q.2 P.1 P.2 * FZ q.1 q.2 / q.1 + biotSavartR P.1 P.2 q.1 q.2 * F q.1 q.2) D.set :=
    ((kcomm.mul c3).div continuousOn_fst hne).add (kBr.mul c0)
  have ib := i D.hcd (secy (f := fun x y => (filamentFlux x y P.1 P.2 * FR x y / x - biotSavartZ P.1 P.2 x y * F x y)) jR D.b lb)
  have ia := i D.hcd (secy (f := fun x y => (filamentFlux x y P.1 P.2 * FR x y / x - biotSavartZ P.1 P.2 x y * F x y)) jR D.a la)
  have id := i D.hab (secx (f := fun x y => (filamentFlux x y P.1 P.2 * FZ x y / x + biotSavartR P.1 P.2 x y * F x y)) jZ D.d ld)
  have ic := i D.hab (secx (f := fun x y => (filamentFlux x y P.1 P.2 * FZ x y / x + biotSavartR P.1 P.2 x y * F x y)) jZ D.c lc)
  have sx : ContinuousOn (fun y => ∫ x in D.a..D.b, fieldSlope P (x, y) * F x y) (Icc D.c D.d) := by
    refine param_cont D.hab (f := fun y x => fieldSlope P (x, y) * F x y) ?_
    have : ContinuousOn (fun p : ℝ × ℝ => (p.2, p.1)) (Icc D.c D.d ×ˢ Icc D.a D.b) := by fun_prop
    exact k3.comp this fun p hp => ⟨hp.2, hp.1⟩
  have sy : ContinuousOn (fun x => ∫ y in D.c..D.d, fieldSlope P (x, y) * F x y) (Icc D.a D.b) :=
    param_cont D.hcd (f := fun x y => fieldSlope P (x, y) * F x y) k3
  rw [split, integral_swap D k1]
  have r1 : ∫ y in D.c..D.d, ∫ x in D.a..D.b, filamentFlux P.1 P.2 x y * (FRR x y / x - FR x y / x ^ 2) =
      (∫ y in D.c..D.d, (filamentFlux D.b y P.1 P.2 * FR D.b y / D.b - biotSavartZ P.1 P.2 D.b y * F D.b y)) - (∫ y in D.c..D.d, (filamentFlux D.a y P.1 P.2 * FR D.a y / D.a - biotSavartZ P.1 P.2 D.a y * F D.a y)) +
        ∫ y in D.c..D.d, ∫ x in D.a..D.b, fieldSlope P (x, y) * F x y := by
    rw [← intervalIntegral.integral_sub ib ia, ← intervalIntegral.integral_add (ib.sub ia) (i D.hcd sx)]
    refine intervalIntegral.integral_congr fun y hy => ?_
    rw [uIcc_of_le D.hcd] at hy
    exact tR y hy
  have r2 : ∫ x in D.a..D.b, ∫ y in D.c..D.d, filamentFlux P.1 P.2 x y * (FZZ x y / x) =
      (∫ x in D.a..D.b, (filamentFlux x D.d P.1 P.2 * FZ x D.d / x + biotSavartR P.1 P.2 x D.d * F x D.d)) - (∫ x in D.a..D.b, (filamentFlux x D.c P.1 P.2 * FZ x D.c / x + biotSavartR P.1 P.2 x D.c * F x D.c)) -
        ∫ x in D.a..D.b, ∫ y in D.c..D.d, fieldSlope P (x, y) * F x y := by
    rw [← intervalIntegral.integral_sub id ic, ← intervalIntegral.integral_sub (id.sub ic) (i D.hab sy)]
    refine intervalIntegral.integral_congr fun x hx => ?_
    rw [uIcc_of_le D.hab] at hx
    exact tZ x hx
  rw [r1, r2, integral_swap D (f := fun x y => fieldSlope P (x, y) * F x y) k3, flow]
  ring

/-- The flux outside a rectangle that is due to the current density of `F`, where `F` vanishes on the edge, is an integral of
the normal derivative of `F` over the edge. -/
theorem green_edge (ha : 0 < D.a) (hP0 : 0 < P.1) (hP : P ∉ D.set) (F FR FRR FZ FZZ : ℝ → ℝ → ℝ)
    (c0 : ContinuousOn (fun q : ℝ × ℝ => F q.1 q.2) D.set) (c1 : ContinuousOn (fun q : ℝ × ℝ => FR q.1 q.2) D.set)
    (c2 : ContinuousOn (fun q : ℝ × ℝ => FRR q.1 q.2) D.set) (c3 : ContinuousOn (fun q : ℝ × ℝ => FZ q.1 q.2) D.set)
    (c4 : ContinuousOn (fun q : ℝ × ℝ => FZZ q.1 q.2) D.set)
    (d1 : ∀ q ∈ D.set, HasDerivAt (fun x => F x q.2) (FR q.1 q.2) q.1) (d2 : ∀ q ∈ D.set, HasDerivAt (fun x => FR x q.2) (FRR q.1 q.2) q.1)
    (d3 : ∀ q ∈ D.set, HasDerivAt (F q.1) (FZ q.1 q.2) q.2) (d4 : ∀ q ∈ D.set, HasDerivAt (FZ q.1) (FZZ q.1 q.2) q.2)
    (e0 : ∀ q ∈ D.edge, F q.1 q.2 = 0) :
    D.integral (fun q => filamentFlux q.1 q.2 P.1 P.2 * ((FRR q.1 q.2 - FR q.1 q.2 / q.1 + FZZ q.1 q.2) / q.1)) =
      (∫ y in D.c..D.d, filamentFlux D.b y P.1 P.2 * FR D.b y / D.b) - (∫ y in D.c..D.d, filamentFlux D.a y P.1 P.2 * FR D.a y / D.a) +
      ((∫ x in D.a..D.b, filamentFlux x D.d P.1 P.2 * FZ x D.d / x) - ∫ x in D.a..D.b, filamentFlux x D.c P.1 P.2 * FZ x D.c / x) := by
  rw [green_full ha hP0 hP F FR FRR FZ FZZ c0 c1 c2 c3 c4 d1 d2 d3 d4, flow]
  have same : ∀ {a b : ℝ} {f g : ℝ → ℝ}, a ≤ b → (∀ x ∈ Icc a b, f x = g x) → ∫ x in a..b, f x = ∫ x in a..b, g x := by
    intro a b f g hab hf
    refine intervalIntegral.integral_congr fun x hx => ?_
    rw [uIcc_of_le hab] at hx
    exact hf x hx
  have h1 : ∫ y in D.c..D.d, (filamentFlux D.b y P.1 P.2 * FR D.b y / D.b - biotSavartZ P.1 P.2 D.b y * F D.b y) =
      ∫ y in D.c..D.d, filamentFlux D.b y P.1 P.2 * FR D.b y / D.b := same D.hcd fun y hy => by
    have := e0 (D.b, y) ⟨⟨⟨D.hab, le_rfl⟩, hy⟩, Or.inr (Or.inl rfl)⟩
    simp only at this
    rw [this]; simp
  have h2 : ∫ y in D.c..D.d, (filamentFlux D.a y P.1 P.2 * FR D.a y / D.a - biotSavartZ P.1 P.2 D.a y * F D.a y) =
      ∫ y in D.c..D.d, filamentFlux D.a y P.1 P.2 * FR D.a y / D.a := same D.hcd fun y hy => by
    have := e0 (D.a, y) ⟨⟨⟨le_rfl, D.hab⟩, hy⟩, Or.inl rfl⟩
    simp only at this
    rw [this]; simp
  have h3 : ∫ x in D.a..D.b, (filamentFlux x D.d P.1 P.2 * FZ x D.d / x + biotSavartR P.1 P.2 x D.d * F x D.d) =
      ∫ x in D.a..D.b, filamentFlux x D.d P.1 P.2 * FZ x D.d / x := same D.hab fun x hx => by
    have := e0 (x, D.d) ⟨⟨hx, ⟨D.hcd, le_rfl⟩⟩, Or.inr (Or.inr (Or.inr rfl))⟩
    simp only at this
    rw [this]; simp
  have h4 : ∫ x in D.a..D.b, (filamentFlux x D.c P.1 P.2 * FZ x D.c / x + biotSavartR P.1 P.2 x D.c * F x D.c) =
      ∫ x in D.a..D.b, filamentFlux x D.c P.1 P.2 * FZ x D.c / x := same D.hab fun x hx => by
    have := e0 (x, D.c) ⟨⟨hx, ⟨le_rfl, D.hcd⟩⟩, Or.inr (Or.inr (Or.inl rfl))⟩
    simp only at this
    rw [this]; simp
  rw [h1, h2, h3, h4]

/-- The current density of a flux that vanishes with its first derivatives at the edge of a rectangle gives no flux outside. -/
theorem green_identity (ha : 0 < D.a) (hP0 : 0 < P.1) (hP : P ∉ D.set) (F FR FRR FZ FZZ : ℝ → ℝ → ℝ)
    (c0 : ContinuousOn (fun q : ℝ × ℝ => F q.1 q.2) D.set) (c1 : ContinuousOn (fun q : ℝ × ℝ => FR q.1 q.2) D.set)
    (c2 : ContinuousOn (fun q : ℝ × ℝ => FRR q.1 q.2) D.set) (c3 : ContinuousOn (fun q : ℝ × ℝ => FZ q.1 q.2) D.set)
    (c4 : ContinuousOn (fun q : ℝ × ℝ => FZZ q.1 q.2) D.set)
    (d1 : ∀ q ∈ D.set, HasDerivAt (fun x => F x q.2) (FR q.1 q.2) q.1) (d2 : ∀ q ∈ D.set, HasDerivAt (fun x => FR x q.2) (FRR q.1 q.2) q.1)
    (d3 : ∀ q ∈ D.set, HasDerivAt (F q.1) (FZ q.1 q.2) q.2) (d4 : ∀ q ∈ D.set, HasDerivAt (FZ q.1) (FZZ q.1 q.2) q.2)
    (e0 : ∀ q ∈ D.edge, F q.1 q.2 = 0) (e1 : ∀ q ∈ D.edge, FR q.1 q.2 = 0) (e2 : ∀ q ∈ D.edge, FZ q.1 q.2 = 0) :
    D.integral (fun q => filamentFlux q.1 q.2 P.1 P.2 * ((FRR q.1 q.2 - FR q.1 q.2 / q.1 + FZZ q.1 q.2) / q.1)) = 0 := by
  rw [green_edge ha hP0 hP F FR FRR FZ FZZ c0 c1 c2 c3 c4 d1 d2 d3 d4 e0]
  have zero : ∀ {a b : ℝ} {f : ℝ → ℝ}, a ≤ b → (∀ x ∈ Icc a b, f x = 0) → ∫ x in a..b, f x = 0 := by
    intro a b f hab hf
    rw [intervalIntegral.integral_congr (g := fun _ => (0 : ℝ)) fun x hx => ?_, intervalIntegral.integral_zero]
    rw [uIcc_of_le hab] at hx
    exact hf x hx
  rw [zero D.hcd fun y hy => ?_, zero D.hcd fun y hy => ?_, zero D.hab fun x hx => ?_, zero D.hab fun x hx => ?_]
  · ring
  · rw [e2 (x, D.c) ⟨⟨hx, ⟨le_rfl, D.hcd⟩⟩, Or.inr (Or.inr (Or.inl rfl))⟩]; simp
  · rw [e2 (x, D.d) ⟨⟨hx, ⟨D.hcd, le_rfl⟩⟩, Or.inr (Or.inr (Or.inr rfl))⟩]; simp
  · rw [e1 (D.a, y) ⟨⟨⟨le_rfl, D.hab⟩, hy⟩, Or.inl rfl⟩]; simp
  · rw [e1 (D.b, y) ⟨⟨⟨D.hab, le_rfl⟩, hy⟩, Or.inr (Or.inl rfl)⟩]; simp

end GS

end FreeGS
