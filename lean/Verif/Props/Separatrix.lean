import Mathlib.Data.List.GetD
import Mathlib.Analysis.Real.Pi.Bounds
import Verif.Lemmas.Separatrix

/-!
# C84-C86: separatrix, safety factor, q profile
-/

set_option linter.unusedSectionVars false

namespace FreeGS.Separatrix

open FreeGS.Critical
open Real (pi)

/-- The start is at least `1e-6` inside the domain. -/
def Within (d : Domain ℝ) (r z : ℝ) : Prop :=
  (d.Rmin + 1 / 1000000 ≤ r ∧ r + 1 / 1000000 ≤ d.Rmax) ∧ (d.Zmin + 1 / 1000000 ≤ z ∧ z + 1 / 1000000 ≤ d.Zmax)

/-- The point at distance `ρ` from the axis `o` at the poloidal angle `θ`, measured from the upward direction towards larger R. -/
noncomputable def polar (o : Point ℝ) (θ ρ : ℝ) : ℝ × ℝ := (o.1 + ρ * Real.sin θ, o.2.1 + ρ * Real.cos θ)

/-- The X-point `x` lies from the axis `o` in the direction of the angle `φ`. -/
def Direction (o x : Point ℝ) (φ : ℝ) : Prop := ∃ d > 0, x.1 - o.1 = d * Real.sin φ ∧ x.2.1 - o.2.1 = d * Real.cos φ

theorem xpointTheta_range (o x : Point ℝ) : 0 ≤ xpointTheta o x ∧ xpointTheta o x < 2 * pi := by
  have h1 := Complex.neg_pi_lt_arg ⟨x.2.1 - o.2.1, x.1 - o.1⟩
  have h2 := Complex.arg_le_pi ⟨x.2.1 - o.2.1, x.1 - o.1⟩
  have hpi := Real.pi_pos
  simp only [xpointTheta]
  split_ifs with h
  · exact ⟨h, by linarith⟩
  · rw [not_le] at h
    exact ⟨by linarith, by linarith⟩

theorem xpointTheta_direction (o x : Point ℝ) (φ : ℝ) (h : Direction o x φ) : ∃ k : ℤ, φ = xpointTheta o x + 2 * pi * k := by
  obtain ⟨d, hd, h1, h2⟩ := h
  have hc := Complex.norm_mul_cos_arg ⟨x.2.1 - o.2.1, x.1 - o.1⟩
  have hs := Complex.norm_mul_sin_arg ⟨x.2.1 - o.2.1, x.1 - o.1⟩
  have hnorm : ‖(⟨x.2.1 - o.2.1, x.1 - o.1⟩ : ℂ)‖ = d := by
    rw [Complex.norm_eq_sqrt_sq_add_sq, Real.sqrt_eq_iff_mul_self_eq (by positivity) hd.le]
    simp only [h1, h2]
    have := Real.sin_sq_add_cos_sq φ
    linear_combination d ^ 2 * this
  rw [hnorm] at hc hs
  simp only at hc hs
  have e1 : Real.cos (xpointTheta o x) = Real.cos (Complex.arg ⟨x.2.1 - o.2.1, x.1 - o.1⟩) := by
    simp only [xpointTheta]; split_ifs
    · rfl
    · rw [Real.cos_add_two_pi]
  have e2 : Real.sin (xpointTheta o x) = Real.sin (Complex.arg ⟨x.2.1 - o.2.1, x.1 - o.1⟩) := by
    simp only [xpointTheta]; split_ifs
    · rfl
    · rw [Real.sin_add_two_pi]
  have hcos : Real.cos φ = Real.cos (xpointTheta o x) := by
    rw [e1]; exact mul_left_cancel₀ hd.ne' (by rw [hc, h2])
  have hsin : Real.sin φ = Real.sin (xpointTheta o x) := by
    rw [e2]; exact mul_left_cancel₀ hd.ne' (by rw [hs, h1])
  obtain ⟨k, hk⟩ := Real.Angle.angle_eq_iff_two_pi_dvd_sub.mp (Real.Angle.cos_sin_inj hcos hsin)
  exact ⟨k, by linarith⟩

/-- Two angles whose difference is at least `a` and at most `2 pi - a` in size differ by at least `a` modulo `2 pi`. -/
theorem circular (y a : ℝ) (h1 : a ≤ |y|) (h2 : |y| ≤ 2 * pi - a) (k : ℤ) : a ≤ |y - 2 * pi * k| := by
  have hpi := Real.pi_pos
  rcases eq_or_ne k 0 with rfl | hk
  · simpa using h1
  · have hk1 : (1 : ℝ) ≤ |(k : ℝ)| := by
      have := Int.one_le_abs hk
      exact_mod_cast this
    have e : |2 * pi * (k : ℝ)| = 2 * pi * |(k : ℝ)| := by rw [abs_mul, abs_of_pos (by positivity)]
    have h3 := abs_sub_abs_le_abs_sub (2 * pi * (k : ℝ)) y
    rw [e, abs_sub_comm] at h3
    nlinarith

/-- The X-point lies just to the left of straight above the axis, less than `1e-3` away in angle. -/
def JustLeftOfTop (o x : Point ℝ) : Prop := ∃ ε, 0 < ε ∧ ε < 1 / 1000 ∧ Direction o x (-ε)

theorem theta_avoids (n : ℕ) (hn : 2 ≤ n) (hn2 : n ≤ 1570) (o x : Point ℝ) (htop : ¬ JustLeftOfTop o x) (φ : ℝ) (hφ : Direction o x φ)
    (j : ℕ) (hj : j < n) : 1 / 1000 ≤ |thetaGrid n (xpointTheta o x) j - φ| := by
  have hpi := Real.pi_pos
  have hpi3 := Real.pi_gt_d2
  obtain ⟨r0, r1⟩ := xpointTheta_range o x
  obtain ⟨k, hk⟩ := xpointTheta_direction o x φ hφ
  set xt := xpointTheta o x with hxt
  have hn0 : (0 : ℝ) < n := by
    have : 0 < n := by omega
    exact_mod_cast this
  set h := 2 * pi / n with hh
  have hnh : (n : ℝ) * h = 2 * pi := by rw [hh]; field_simp
  have hh0 : 0 < h := by positivity
  have hhlo : 4 / 1000 ≤ h := by
    rw [hh, le_div_iff₀ hn0]
    have : (n : ℝ) ≤ 1570 := by exact_mod_cast hn2
    nlinarith
  -- the X-point is not within the tolerance below 2 pi
  have hx2 : xt ≤ 2 * pi - 1 / 1000 := by
    by_contra hc
    rw [not_le] at hc
    obtain ⟨d, hd, h1, h2⟩ := hφ
    refine htop ⟨2 * pi - xt, by linarith, by linarith, d, hd, ?_, ?_⟩
    · rw [h1, hk, neg_sub, Real.sin_sub_two_pi, mul_comm (2 * pi) (k : ℝ), Real.sin_add_int_mul_two_pi]
    · rw [h2, hk, neg_sub, Real.cos_sub_two_pi, mul_comm (2 * pi) (k : ℝ), Real.cos_add_int_mul_two_pi]
  have hθ : ∀ i : ℕ, i < n → 0 ≤ theta0 n i ∧ theta0 n i ≤ 2 * pi - h := by
    intro i hi
    have : (i : ℝ) + 1 ≤ n := by exact_mod_cast hi
    rw [theta0, ← hh, ← hnh]
    refine ⟨by positivity, ?_⟩
    nlinarith
  rw [hk, show thetaGrid n xt j - (xt + 2 * pi * k) = (thetaGrid n xt j - xt) - 2 * pi * k by ring]
  obtain ⟨j0, j1⟩ := hθ j hj
  refine circular _ _ ?_ ?_ k
  · by_cases hc : tooClose n xt
    · rw [thetaGrid, if_pos hc, ← hh]
      obtain ⟨i, hi, hii⟩ := hc
      rw [abs_lt] at hii
      rw [theta0, ← hh] at hii ⊢
      have hij : ((j : ℝ) - i) ≤ -1 ∨ ((j : ℝ) - i) ≥ 0 := by
        rcases Nat.lt_or_ge j i with h | h
        · left
          have : (j : ℝ) + 1 ≤ i := by exact_mod_cast h
          linarith
        · right
          have : (i : ℝ) ≤ j := by exact_mod_cast h
          linarith
      rw [le_abs]
      rcases hij with h1 | h1
      · right
        have : ((j : ℝ) - i) * h ≤ -1 * h := mul_le_mul_of_nonneg_right h1 hh0.le
        linarith
      · left
        have : 0 ≤ ((j : ℝ) - i) * h := mul_nonneg h1 hh0.le
        linarith
    · rw [thetaGrid, if_neg hc]
      by_contra hlt
      exact hc ⟨j, hj, not_le.mp hlt⟩
  · rw [abs_le]
    by_cases hc : tooClose n xt
    · rw [thetaGrid, if_pos hc, ← hh]
      constructor <;> linarith
    · rw [thetaGrid, if_neg hc]
      constructor <;> linarith

theorem theta_shift (n : ℕ) (xt : ℝ) : ∃ s, (s = 0 ∨ s = pi / n) ∧ ∀ j, thetaGrid n xt j = 2 * pi * j / n + s := by
  by_cases h : tooClose n xt
  · refine ⟨pi / n, Or.inr rfl, fun j => ?_⟩
    rw [thetaGrid, if_pos h, theta0]; ring
  · refine ⟨0, Or.inl rfl, fun j => ?_⟩
    rw [thetaGrid, if_neg h, theta0]; ring

/-! ## C84: the separatrix -/

/-- What `find_separatrix` promises for the point `p` on the ray at angle `θ` from the axis: it is on that ray and in the domain, and
either the flux `f` takes the value `v` on the ray within 10/999 m of it, the flux being at most `v` at all earlier samples and at the
axis, or it is the axis itself, and the axis is already above `v` or no sample on the ray is above `v`. -/
structure OnRay (d : Domain ℝ) (f : ℝ → ℝ → ℝ) (o : Point ℝ) (v θ : ℝ) (p : ℝ × ℝ) : Prop where
  inside : d.Contains p
  found : ∃ ρ, 0 ≤ ρ ∧ ρ ≤ 10 ∧ p = polar o θ ρ ∧
    ((∃ ρ', |ρ' - ρ| ≤ 10 / 999 ∧ 0 ≤ ρ' ∧ f (polar o θ ρ').1 (polar o θ ρ').2 = v ∧ f o.1 o.2.1 ≤ v) ∨
     (ρ = 0 ∧ (v < f o.1 o.2.1 ∨ ∃ L, 0 ≤ L ∧ L ≤ 10 ∧ (L ≠ 10 → d.OnEdge (polar o θ L)) ∧
       ∀ k : ℕ, k < 1000 → f (polar o θ (L * k / 999)).1 (polar o θ (L * k / 999)).2 ≤ v)))

theorem onRay (d : Domain ℝ) (f : ℝ → ℝ → ℝ) (hf : Continuous fun p : ℝ × ℝ => f p.1 p.2) (o : Point ℝ) (v θ : ℝ)
    (h : Within d o.1 o.2.1) :
    ∃ p, findPsiSurface d f o.1 o.2.1 (o.1 + 10 * Real.sin θ) (o.2.1 + 10 * Real.cos θ) v 1000 = .ok p ∧ OnRay d f o v θ p := by
  obtain ⟨T, p, hp, hT0, hT1, -, hedge, hcont, hs⟩ :=
    C29_psisurface_partial d f o.1 o.2.1 (o.1 + 10 * Real.sin θ) (o.2.1 + 10 * Real.cos θ) v 1000 (by norm_num) h.1 h.2
  have hal : ∀ t, along o.1 o.2.1 (o.1 + 10 * Real.sin θ) (o.2.1 + 10 * Real.cos θ) t = polar o θ (10 * t) := by
    intro t
    simp only [along, polar, Prod.mk.injEq]
    constructor <;> ring
  simp only [hal] at hs hedge
  have hcast : ((1000 : ℕ) : ℝ) - 1 = 999 := by norm_num
  rw [hcast] at hs
  refine ⟨p, hp, hcont, ?_⟩
  set F : ℝ → ℝ := fun ρ => f (polar o θ ρ).1 (polar o θ ρ).2 with hF
  have hFc : Continuous F := by
    have : Continuous fun ρ : ℝ => polar o θ ρ := by unfold polar; fun_prop
    exact hf.comp this
  have hF0 : F 0 = f o.1 o.2.1 := by simp [hF, polar]
  have hp0 : polar o θ 0 = (o.1, o.2.1) := by simp [polar]
  by_cases hax : v < F 0
  · refine ⟨0, le_refl _, by norm_num, ?_, Or.inr ⟨rfl, Or.inl (by rw [← hF0]; exact hax)⟩⟩
    rw [hp0]
    refine hs.2 (Or.inr ?_)
    simpa [hF] using hax
  · rw [not_lt] at hax
    by_cases hall : ∀ k : ℕ, k < 1000 → F (10 * T * k / 999) ≤ v
    · refine ⟨0, le_refl _, by norm_num, ?_, Or.inr ⟨rfl, Or.inr ⟨10 * T, by positivity, by linarith, ?_, hall⟩⟩⟩
      · rw [hp0]
        refine hs.2 (Or.inl fun k hk => ?_)
        have := hall k hk
        rw [show 10 * (T * ((k : ℝ) / 999)) = 10 * T * k / 999 by ring]
        exact this
      · intro hne
        exact hedge fun h => hne (by rw [h]; norm_num)
    · push Not at hall
      classical
      set m := Nat.find hall with hm
      have hm1 := Nat.find_spec hall
      rw [← hm] at hm1
      have hmin : ∀ k < m, F (10 * T * k / 999) ≤ v := by
        intro k hk
        by_contra hc
        rw [not_le] at hc
        exact Nat.find_min hall (by rw [← hm]; exact hk) ⟨lt_trans hk hm1.1, hc⟩
      have hmpos : m ≠ 0 := by
        intro h0
        have := hm1.2
        rw [h0] at this
        simp only [Nat.cast_zero, mul_zero, zero_div] at this
        linarith
      obtain ⟨i, hi⟩ := Nat.exists_eq_succ_of_ne_zero hmpos
      have e : ∀ k : ℝ, 10 * (T * (k / 999)) = 10 * T * k / 999 := fun k => by ring
      simp only [e] at hs
      obtain ⟨s, hs0, hs1, hps, -⟩ := hs.1 i (by rw [← Nat.succ_eq_add_one, ← hi]; exact hm1.1)
        (fun k hk => hmin k (by rw [hi]; omega)) (by rw [← Nat.succ_eq_add_one, ← hi]; exact hm1.2)
      have hi1000 : (i : ℝ) + 1 ≤ 999 := by
        have : i + 1 < 1000 := by rw [← Nat.succ_eq_add_one, ← hi]; exact hm1.1
        have : i + 1 ≤ 999 := by omega
        exact_mod_cast this
      have hTi : ∀ x : ℝ, 0 ≤ x → x ≤ 999 → 0 ≤ 10 * T * x / 999 ∧ 10 * T * x / 999 ≤ 10 := by
        intro x hx0 hx1
        constructor
        · positivity
        · rw [div_le_iff₀ (by norm_num)]
          nlinarith
      obtain ⟨a1, a2⟩ := hTi (i + s) (by positivity) (by linarith)
      -- intermediate value between the two samples
      have hle : 10 * T * (i : ℝ) / 999 ≤ 10 * T * ((i + 1 : ℕ) : ℝ) / 999 := by
        push_cast
        rw [div_le_div_iff_of_pos_right (by norm_num)]
        nlinarith
      have hlo : F (10 * T * (i : ℝ) / 999) ≤ v := hmin i (by rw [hi]; omega)
      have hhi : v ≤ F (10 * T * ((i + 1 : ℕ) : ℝ) / 999) := by
        have := hm1.2
        rw [hi, Nat.succ_eq_add_one] at this
        exact this.le
      obtain ⟨ρ', hρ', hval⟩ := intermediate_value_Icc hle hFc.continuousOn ⟨hlo, hhi⟩
      refine ⟨10 * T * (i + s) / 999, a1, a2, hps, Or.inl ⟨ρ', ?_, ?_, hval, by rw [← hF0]; exact hax⟩⟩
      · have h1 := hρ'.1
        have h2 := hρ'.2
        push_cast at h2
        rw [abs_le]
        rw [div_le_iff₀ (by norm_num)] at h1
        rw [le_div_iff₀ (by norm_num)] at h2
        rw [neg_le_iff_add_nonneg, sub_le_iff_le_add]
        constructor
        · have : 0 ≤ (ρ' * 999 - 10 * T * (i + s) + 10) / 999 := div_nonneg (by nlinarith) (by norm_num)
          linarith
        · have : 0 ≤ (10 + 10 * T * (i + s) - ρ' * 999) / 999 := div_nonneg (by nlinarith) (by norm_num)
          linarith
      · have h1 := hρ'.1
        have : 0 ≤ 10 * T * (i : ℝ) / 999 := by positivity
        linarith

/-- **C84.** Let the magnetic axis be at least `1e-6` inside the domain, the boundary flux be set and different from the flux at the
axis, the spline be continuous and `n ≥ 2`. With an X-point the separatrix has `n` points. They lie on rays from the axis whose angles
are equally spaced (all shifted by half a step, or none), in the domain, and each is within 10/999 m of a place on its ray where the
normalised flux is 1, unless no sample on that ray is outside. For up to 1570 points no ray comes within `1e-3` of the direction of the
X-point, unless that is just left of straight above. Missing: limited plasmas without X-point (`C84_no_xpoint`) and X-points just left of
straight above (`C84_xpoint_missed`). -/
theorem C84_points_partial (eq : Eq) (o x : Point ℝ) (os xs : List (Point ℝ)) (b : ℝ) (n : ℕ) (hn : 2 ≤ n) (hb : eq.bndry = some b)
    (hne : b ≠ o.2.2) (hin : Within eq.dom o.1 o.2.1)
    (hc : Continuous fun p : ℝ × ℝ => eq.spline (fun c => (eq.psi c - o.2.2) / (b - o.2.2)) p.1 p.2) :
    ∃ s pts, (s = 0 ∨ s = pi / n) ∧ separatrix eq (o :: os) (x :: xs) n = .ok pts ∧ pts.length = n ∧
      ∀ j (h : j < pts.length),
        OnRay eq.dom (eq.spline fun c => (eq.psi c - o.2.2) / (b - o.2.2)) o 1 (2 * pi * j / n + s) pts[j] ∧
        (n ≤ 1570 → ¬ JustLeftOfTop o x → ∀ φ, Direction o x φ → 1 / 1000 ≤ |2 * pi * j / n + s - φ|) := by
  obtain ⟨s, hs, hgrid⟩ := theta_shift n (xpointTheta o x)
  choose p hp1 hp2 using fun θ => onRay eq.dom (eq.spline fun c => (eq.psi c - o.2.2) / (b - o.2.2)) hc o 1 θ hin
  refine ⟨s, (List.range n).map fun j : ℕ => p (2 * pi * j / n + s), hs, ?_, by simp, ?_⟩
  · have hcol := collect_ok
        (fun j => rayPoint eq.dom (eq.spline (normalise eq.psi o.2.2 b)) o x 1 (thetaGrid n (xpointTheta o x) j))
        (fun j : ℕ => ((p (2 * pi * j / n + s)).1, (p (2 * pi * j / n + s)).2, x.1, x.2.1)) n (by
          intro j _
          have := hp1 (2 * pi * j / n + s)
          rw [hgrid, rayPoint]
          unfold normalise
          rw [this])
    unfold separatrix findSeparatrix
    simp only [hb, sub_eq_zero, hne, if_false, show ¬ n < 2 by omega]
    rw [hcol]
    simp [Function.comp_def]
  · intro j h
    simp only [List.length_map, List.length_range] at h
    refine ⟨by simpa using hp2 (2 * pi * j / n + s), fun h1 h2 φ hφ => ?_⟩
    rw [← hgrid]
    exact theta_avoids n hn h1 o x h2 φ hφ j h

/-- **C84.** The points go round the axis in order: seen from the axis every side turns the same way. -/
theorem C84_ordered (eq : Eq) (o x : Point ℝ) (os xs : List (Point ℝ)) (b : ℝ) (n : ℕ) (hn : 3 ≤ n) (hb : eq.bndry = some b)
    (hne : b ≠ o.2.2) (hin : Within eq.dom o.1 o.2.1)
    (hc : Continuous fun p : ℝ × ℝ => eq.spline (fun c => (eq.psi c - o.2.2) / (b - o.2.2)) p.1 p.2) (pts : List (ℝ × ℝ))
    (hpts : separatrix eq (o :: os) (x :: xs) n = .ok pts) (j : ℕ) (hj : j < n) :
    let P := pts.getD j (0, 0)
    let Q := pts.getD ((j + 1) % n) (0, 0)
    (P.1 - o.1) * (Q.2 - o.2.1) - (P.2 - o.2.1) * (Q.1 - o.1) ≤ 0 ∧
      (P ≠ (o.1, o.2.1) → Q ≠ (o.1, o.2.1) → (P.1 - o.1) * (Q.2 - o.2.1) - (P.2 - o.2.1) * (Q.1 - o.1) < 0) := by
  obtain ⟨s, pts', hs, hp, hlen, hall⟩ := C84_points_partial eq o x os xs b n (by omega) hb hne hin hc
  rw [hpts] at hp
  cases hp
  have hmod : (j + 1) % n < n := Nat.mod_lt _ (by omega)
  obtain ⟨ρ, h1, -, h2, -⟩ := (hall j (by omega)).1.found
  obtain ⟨ρ', h3, -, h4, -⟩ := (hall ((j + 1) % n) (by omega)).1.found
  have e1 : pts.getD j (0, 0) = polar o (2 * pi * j / n + s) ρ := by
    rw [← h2, List.getD_eq_getElem _ _ (by omega)]
  have e2 : pts.getD ((j + 1) % n) (0, 0) = polar o (2 * pi * (j + 1) / n + s) ρ' := by
    rw [List.getD_eq_getElem _ _ (by omega), h4]
    rcases Nat.lt_or_ge (j + 1) n with h | h
    · rw [Nat.mod_eq_of_lt h]; push_cast; rfl
    · have hjn : j + 1 = n := by omega
      have hn0 : (n : ℝ) ≠ 0 := by
        have : n ≠ 0 := by omega
        exact_mod_cast this
      rw [hjn, Nat.mod_self]
      have : ((j : ℝ) + 1) = n := by exact_mod_cast hjn
      rw [this]
      simp only [polar, Nat.cast_zero, mul_zero, zero_div, zero_add]
      rw [show 2 * pi * (n : ℝ) / n + s = s + 2 * pi by field_simp; ring, Real.sin_add_two_pi, Real.cos_add_two_pi]
  simp only [e1, e2]
  have hn0 : (0 : ℝ) < n := by
    have : 0 < n := by omega
    exact_mod_cast this
  have hsin : 0 < Real.sin (2 * pi / n) := by
    refine Real.sin_pos_of_pos_of_lt_pi (by positivity) ?_
    rw [div_lt_iff₀ hn0]
    have : (3 : ℝ) ≤ n := by exact_mod_cast hn
    nlinarith [Real.pi_pos]
  have key : ((polar o (2 * pi * j / n + s) ρ).1 - o.1) * ((polar o (2 * pi * (j + 1) / n + s) ρ').2 - o.2.1) -
      ((polar o (2 * pi * j / n + s) ρ).2 - o.2.1) * ((polar o (2 * pi * (j + 1) / n + s) ρ').1 - o.1) =
      -(ρ * ρ' * Real.sin (2 * pi / n)) := by
    have : Real.sin (2 * pi / n) = Real.sin (2 * pi * (j + 1) / n + s) * Real.cos (2 * pi * j / n + s) -
        Real.cos (2 * pi * (j + 1) / n + s) * Real.sin (2 * pi * j / n + s) := by
      rw [← Real.sin_sub]; congr 1; ring
    rw [this]
    simp only [polar]
    ring
  rw [key]
  refine ⟨by have := mul_nonneg (mul_nonneg h1 h3) hsin.le; linarith, fun hP hQ => ?_⟩
  have p1 : 0 < ρ := by
    rcases h1.lt_or_eq with h | h
    · exact h
    · exact absurd (by rw [← h]; simp [polar]) hP
  have p2 : 0 < ρ' := by
    rcases h3.lt_or_eq with h | h
    · exact h
    · exact absurd (by rw [← h]; simp [polar]) hQ
  have := mul_pos (mul_pos p1 p2) hsin
  linarith

/-- **C84 is false for X-points just left of straight above:** the comparison of angles does not know that `0` and `2 pi` are the same
direction. The first point is then straight above the axis, on a ray closer than the tolerance to the X-point. -/
theorem C84_xpoint_missed (eq : Eq) (o x : Point ℝ) (os xs : List (Point ℝ)) (n : ℕ) (hn : 2 ≤ n) (hn2 : n ≤ 3141)
    (hx : JustLeftOfTop o x) (hin : Within eq.dom o.1 o.2.1) (b : ℝ) (hb : eq.bndry = some b) (hne : b ≠ o.2.2) :
    ∃ pts, separatrix eq (o :: os) (x :: xs) n = .ok pts ∧ (pts.getD 0 (0, 0)).1 = o.1 := by
  have hpi := Real.pi_pos
  have hpi3 := Real.pi_gt_d4
  obtain ⟨ε, h0, h1, hd⟩ := hx
  obtain ⟨r0, r1⟩ := xpointTheta_range o x
  obtain ⟨k, hk⟩ := xpointTheta_direction o x _ hd
  have hn0 : (0 : ℝ) < n := by
    have : 0 < n := by omega
    exact_mod_cast this
  have hxt : xpointTheta o x = 2 * pi - ε := by
    have hk1 : k = -1 := by
      have a1 : (k : ℝ) < 0 := by
        by_contra hc
        rw [not_lt] at hc
        have : 0 ≤ 2 * pi * (k : ℝ) := by positivity
        linarith
      have a2 : (-2 : ℝ) < k := by
        by_contra hc
        rw [not_lt] at hc
        nlinarith
      have b1 : k < 0 := by exact_mod_cast a1
      have b2 : -2 < k := by exact_mod_cast a2
      omega
    rw [hk1] at hk
    push_cast at hk
    linarith
  have hfar : ¬ tooClose n (xpointTheta o x) := by
    rintro ⟨j, hj, hc⟩
    rw [abs_lt, hxt, theta0] at hc
    have hj1 : (j : ℝ) + 1 ≤ n := by exact_mod_cast hj
    have hh : 2 / 1000 ≤ 2 * pi / n := by
      rw [le_div_iff₀ hn0]
      have : (n : ℝ) ≤ 3141 := by exact_mod_cast hn2
      nlinarith
    have hnh : (n : ℝ) * (2 * pi / n) = 2 * pi := by field_simp
    nlinarith [hc.1]
  have hs : ∀ t, ∃ p, findPsiSurface eq.dom (eq.spline (normalise eq.psi o.2.2 b)) o.1 o.2.1 (o.1 + 10 * Real.sin t)
      (o.2.1 + 10 * Real.cos t) 1 1000 = .ok p ∧ (t = 0 → p.1 = o.1) := by
    intro t
    obtain ⟨T, p, hp, -, -, -, -, -, hsurf⟩ := C29_psisurface_partial eq.dom (eq.spline (normalise eq.psi o.2.2 b)) o.1 o.2.1
      (o.1 + 10 * Real.sin t) (o.2.1 + 10 * Real.cos t) 1 1000 (by norm_num) hin.1 hin.2
    refine ⟨p, hp, fun ht => ?_⟩
    rw [ht] at hsurf
    simp only [Real.sin_zero, mul_zero, add_zero, along, sub_self] at hsurf
    classical
    set F : ℕ → ℝ := fun k => eq.spline (normalise eq.psi o.2.2 b) o.1
      (o.2.1 + T * ((k : ℝ) / (((1000 : ℕ) : ℝ) - 1)) * (o.2.1 + 10 * Real.cos 0 - o.2.1)) with hF
    by_cases hall : ∀ k < 1000, F k ≤ 1
    · rw [hsurf.2 (Or.inl hall)]
    · push Not at hall
      have hm := Nat.find_spec hall
      have hmin : ∀ k < Nat.find hall, F k ≤ 1 := by
        intro k hk
        by_contra hc
        exact Nat.find_min hall hk ⟨lt_trans hk hm.1, not_le.mp hc⟩
      rcases Nat.eq_zero_or_pos (Nat.find hall) with hz | hz
      · rw [hsurf.2 (Or.inr (by rw [hz] at hm; exact hm.2))]
      · obtain ⟨i, hi⟩ := Nat.exists_eq_succ_of_ne_zero hz.ne'
        rw [hi] at hm hmin
        obtain ⟨s, -, -, hps, -⟩ := hsurf.1 i hm.1 (fun k hk => hmin k (by omega)) hm.2
        rw [hps]
  choose p hp1 hp2 using hs
  have hcol := collect_ok
      (fun j => rayPoint eq.dom (eq.spline (normalise eq.psi o.2.2 b)) o x 1 (thetaGrid n (xpointTheta o x) j))
      (fun j : ℕ => ((p (theta0 n j)).1, (p (theta0 n j)).2, x.1, x.2.1)) n (by
        intro j _
        rw [thetaGrid, if_neg hfar, rayPoint, hp1])
  refine ⟨(List.range n).map fun j => p (theta0 n j), ?_, ?_⟩
  · unfold separatrix findSeparatrix
    simp only [hb, sub_eq_zero, hne, if_false, show ¬ n < 2 by omega]
    rw [hcol]
    simp [Function.comp_def]
  · rw [List.getD_eq_getElem _ _ (by simp; omega)]
    simp only [List.getElem_map, List.getElem_range]
    exact hp2 _ (by simp [theta0])

/-- **C84 is false for limited plasmas without X-point:** whatever the boundary flux, the separatrix cannot be found. -/
theorem C84_no_xpoint (eq : Eq) (opoint : List (Point ℝ)) (n : ℕ) (pts : List (ℝ × ℝ)) : separatrix eq opoint [] n ≠ .ok pts := by
  intro h
  rw [separatrix] at h
  cases opoint with
  | nil => simp [findSeparatrix] at h
  | cons o os =>
    unfold findSeparatrix at h
    cases hb : eq.bndry with
    | none => simp [hb] at h
    | some b =>
      simp only [hb] at h
      split_ifs at h <;> simp at h

/-! ## C85: the safety factor -/

theorem qSurface_eq (eq : Eq) (psin : ℝ) (pts : ℕ → ℝ × ℝ) (n : ℕ) (h : ∀ j < n, (pts j).1 ≠ 0 ∧ bpol eq (pts j) ≠ 0) :
    qSurface eq psin pts n =
      .ok ((∑ j ∈ Finset.range n, eq.fpol psin / ((pts j).1 ^ 2 * bpol eq (pts j)) * dl pts n j) / (2 * pi)) := by
  rw [qSurface, if_neg]
  rintro ⟨j, hj, h0⟩
  obtain ⟨h1, h2⟩ := h j hj
  exact mul_ne_zero (pow_ne_zero 2 h1) h2 h0

/-- The flux surface `v` of the normalised flux `f`, as `find_safety` looks for it: on the ray with parameter `θ` from the axis, which is
stretched to the extents of the grid, the flux is proportional to the distance, and it takes the value `v` at the fraction `τ θ` of the
ray, strictly inside the domain. -/
structure Cone (eq : Eq) (f : ℝ → ℝ → ℝ) (o : Point ℝ) (v : ℝ) (τ : ℝ → ℝ) : Prop where
  pos : 0 < v
  range : ∀ θ, 0 < τ θ ∧ τ θ < 1
  linear : ∀ θ t, 0 ≤ t → t ≤ 1 → f (o.1 + t * (eq.ptpR * Real.sin θ)) (o.2.1 + t * (eq.ptpZ * Real.cos θ)) = t * (v / τ θ)
  inside : ∀ θ, (eq.dom.Rmin < o.1 + τ θ * (eq.ptpR * Real.sin θ) ∧ o.1 + τ θ * (eq.ptpR * Real.sin θ) < eq.dom.Rmax) ∧
    (eq.dom.Zmin < o.2.1 + τ θ * (eq.ptpZ * Real.cos θ) ∧ o.2.1 + τ θ * (eq.ptpZ * Real.cos θ) < eq.dom.Zmax)

theorem surfacePoint_cone (eq : Eq) (f : ℝ → ℝ → ℝ) (o : Point ℝ) (v : ℝ) (τ : ℝ → ℝ) (hin : Within eq.dom o.1 o.2.1)
    (hc : Cone eq f o v τ) (theta : ℕ → ℝ) (j : ℕ) : surfacePoint eq f o theta v j =
      .ok (o.1 + τ (theta j) * (eq.ptpR * Real.sin (theta j)), o.2.1 + τ (theta j) * (eq.ptpZ * Real.cos (theta j))) := by
  have ⟨t0, t1⟩ := hc.range (theta j)
  have hv := hc.pos
  have hal : ∀ t, along o.1 o.2.1 (o.1 + eq.ptpR * Real.sin (theta j)) (o.2.1 + eq.ptpZ * Real.cos (theta j)) t =
      (o.1 + t * (eq.ptpR * Real.sin (theta j)), o.2.1 + t * (eq.ptpZ * Real.cos (theta j))) := by
    intro t; simp only [along, Prod.mk.injEq]; constructor <;> ring
  have hτ : v / (v / τ (theta j)) = τ (theta j) := by field_simp
  have := search_linear eq.dom f o.1 o.2.1 (o.1 + eq.ptpR * Real.sin (theta j)) (o.2.1 + eq.ptpZ * Real.cos (theta j)) v
    (v / τ (theta j)) 100 (by norm_num) hin.1 hin.2 (div_pos hv t0) hv.le
    (by intro t h0 h1; rw [hal]; exact hc.linear _ t h0 h1) (by rw [hτ]; exact t1) (by rw [hτ, hal]; exact hc.inside _)
  rw [hτ, hal] at this
  exact this

theorem getD_map_range {α : Type} (f : ℕ → α) (n j : ℕ) (d : α) (h : j < n) : ((List.range n).map f).getD j d = f j := by
  rw [List.getD_eq_getElem _ _ (by simpa using h)]; simp

theorem qSurface_congr (eq : Eq) (v : ℝ) (p p' : ℕ → ℝ × ℝ) (n : ℕ) (h : ∀ j < n, p j = p' j) : qSurface eq v p n = qSurface eq v p' n := by
  rcases Nat.eq_zero_or_pos n with rfl | hn
  · simp [qSurface]
  have hdl : ∀ j < n, dl p n j = dl p' n j := by
    intro j hj
    rw [dl, dl, h (prev n j) (Nat.mod_lt _ hn), h (next n j) (Nat.mod_lt _ hn)]
  have hiff : (∃ j < n, (p j).1 ^ 2 * bpol eq (p j) = 0) ↔ ∃ j < n, (p' j).1 ^ 2 * bpol eq (p' j) = 0 := by
    constructor <;> rintro ⟨j, hj, h0⟩
    · exact ⟨j, hj, by rw [← h j hj]; exact h0⟩
    · exact ⟨j, hj, by rw [h j hj]; exact h0⟩
  unfold qSurface
  by_cases hc : ∃ j < n, (p j).1 ^ 2 * bpol eq (p j) = 0
  · rw [if_pos hc, if_pos (hiff.mp hc)]
  · rw [if_neg hc, if_neg (fun h => hc (hiff.mpr h))]
    have : ∑ j ∈ Finset.range n, eq.fpol v / ((p j).1 ^ 2 * bpol eq (p j)) * dl p n j =
        ∑ j ∈ Finset.range n, eq.fpol v / ((p' j).1 ^ 2 * bpol eq (p' j)) * dl p' n j := by
      refine Finset.sum_congr rfl fun j hj => ?_
      rw [Finset.mem_range] at hj
      rw [h j hj, hdl j hj]
    rw [this]

/-- The place on the surface at the angle `θ`. -/
noncomputable def spot (eq : Eq) (o : Point ℝ) (τ : ℝ → ℝ) (θ : ℝ) : ℝ × ℝ :=
  (o.1 + τ θ * (eq.ptpR * Real.sin θ), o.2.1 + τ θ * (eq.ptpZ * Real.cos θ))

theorem findSafety_cone (eq : Eq) (o x : Point ℝ) (os xs : List (Point ℝ)) (v : ℝ) (τ : ℝ → ℝ) (n : ℕ) (hn : 2 ≤ n)
    (hne : x.2.2 ≠ o.2.2) (hin : Within eq.dom o.1 o.2.1)
    (hc : Cone eq (eq.spline fun c => (eq.psi c - o.2.2) / (x.2.2 - o.2.2)) o v τ) (hreg : ∀ θ, (spot eq o τ θ).1 ≠ 0 ∧
      bpol eq (spot eq o τ θ) ≠ 0) :
    findSafety eq (o :: os) (x :: xs) [v] n = .ok [(∑ j ∈ Finset.range n,
      eq.fpol v / ((spot eq o τ (thetaGrid n (xpointTheta o x) j)).1 ^ 2 * bpol eq (spot eq o τ (thetaGrid n (xpointTheta o x) j))) *
        dl (fun j => spot eq o τ (thetaGrid n (xpointTheta o x) j)) n j) / (2 * pi)] := by
  have hcol := collect_ok (surfacePoint eq (eq.spline (normalise eq.psi o.2.2 x.2.2)) o (thetaGrid n (xpointTheta o x)) v)
    (fun j => spot eq o τ (thetaGrid n (xpointTheta o x) j)) n (fun j _ => by
      have := surfacePoint_cone eq (eq.spline (normalise eq.psi o.2.2 x.2.2)) o v τ hin hc (thetaGrid n (xpointTheta o x)) j
      rw [this]; rfl)
  unfold findSafety
  simp only [sub_eq_zero, hne, if_false, show ¬ n < 2 by omega]
  unfold safetyLoop
  rw [hcol]
  simp only
  rw [qSurface_congr eq v _ (fun j => spot eq o τ (thetaGrid n (xpointTheta o x) j)) n (fun j hj => getD_map_range _ _ _ _ hj),
    qSurface_eq _ _ _ _ fun j _ => hreg _]
  rfl

/-- **C85.** The safety factor converges to the line integral of `F / (R^2 Bp)` once round the flux surface, divided by `2 pi`, when the
number of poloidal points grows. Proved for surfaces that the search finds exactly (flux proportional to the distance from the axis on
every ray) and that are continuously differentiable in the angle. Missing: the error of the linear interpolation in the search, and
plasmas whose boundary is not the X-point (`C85_ignores_boundary`, `C85_no_xpoint`). -/
theorem C85_converges_partial (eq : Eq) (o x : Point ℝ) (os xs : List (Point ℝ)) (v : ℝ) (τ τ' : ℝ → ℝ) (hne : x.2.2 ≠ o.2.2)
    (hin : Within eq.dom o.1 o.2.1) (hc : Cone eq (eq.spline fun c => (eq.psi c - o.2.2) / (x.2.2 - o.2.2)) o v τ)
    (hτ : ∀ θ, HasDerivAt τ (τ' θ) θ) (hτ' : Continuous τ') (hper : ∀ θ, τ (θ + 2 * pi) = τ θ)
    (hBr : Continuous fun p : ℝ × ℝ => eq.Br p.1 p.2) (hBz : Continuous fun p : ℝ × ℝ => eq.Bz p.1 p.2)
    (hR : ∀ θ, o.1 + τ θ * (eq.ptpR * Real.sin θ) ≠ 0)
    (hB : ∀ θ, eq.Br (o.1 + τ θ * (eq.ptpR * Real.sin θ)) (o.2.1 + τ θ * (eq.ptpZ * Real.cos θ)) ≠ 0 ∨
      eq.Bz (o.1 + τ θ * (eq.ptpR * Real.sin θ)) (o.2.1 + τ θ * (eq.ptpZ * Real.cos θ)) ≠ 0) :
    ∃ q : ℕ → ℝ, (∀ n ≥ 2, findSafety eq (o :: os) (x :: xs) [v] n = .ok [q n]) ∧
      Filter.Tendsto q Filter.atTop (nhds ((∫ θ in (0 : ℝ)..(2 * pi),
        eq.fpol v / ((o.1 + τ θ * (eq.ptpR * Real.sin θ)) ^ 2 *
          √(eq.Br (o.1 + τ θ * (eq.ptpR * Real.sin θ)) (o.2.1 + τ θ * (eq.ptpZ * Real.cos θ)) ^ 2 +
            eq.Bz (o.1 + τ θ * (eq.ptpR * Real.sin θ)) (o.2.1 + τ θ * (eq.ptpZ * Real.cos θ)) ^ 2)) *
        √(deriv (fun θ => o.1 + τ θ * (eq.ptpR * Real.sin θ)) θ ^ 2 + deriv (fun θ => o.2.1 + τ θ * (eq.ptpZ * Real.cos θ)) θ ^ 2)) /
          (2 * pi))) := by
  have hpi := Real.pi_pos
  have hbp : ∀ θ, bpol eq (spot eq o τ θ) ≠ 0 := by
    intro θ
    have : 0 < eq.Br (spot eq o τ θ).1 (spot eq o τ θ).2 ^ 2 + eq.Bz (spot eq o τ θ).1 (spot eq o τ θ).2 ^ 2 := by
      rcases hB θ with h | h
      · have := pow_pos (abs_pos.mpr h) 2
        rw [sq_abs] at this
        have h2 := sq_nonneg (eq.Bz (spot eq o τ θ).1 (spot eq o τ θ).2)
        exact add_pos_of_pos_of_nonneg this h2
      · have := pow_pos (abs_pos.mpr h) 2
        rw [sq_abs] at this
        have h2 := sq_nonneg (eq.Br (spot eq o τ θ).1 (spot eq o τ θ).2)
        exact add_pos_of_nonneg_of_pos h2 this
    exact (Real.sqrt_pos.mpr this).ne'
  refine ⟨_, fun n hn => findSafety_cone eq o x os xs v τ n hn hne hin hc fun θ => ⟨hR θ, hbp θ⟩, ?_⟩
  set X : ℝ → ℝ := fun θ => o.1 + τ θ * (eq.ptpR * Real.sin θ) with hX
  set Y : ℝ → ℝ := fun θ => o.2.1 + τ θ * (eq.ptpZ * Real.cos θ) with hY
  have hτc : Continuous τ := continuous_iff_continuousAt.mpr fun θ => (hτ θ).continuousAt
  have dX : ∀ θ, HasDerivAt X (τ' θ * (eq.ptpR * Real.sin θ) + τ θ * (eq.ptpR * Real.cos θ)) θ := by
    intro θ
    exact ((hτ θ).mul ((Real.hasDerivAt_sin θ).const_mul eq.ptpR)).const_add o.1
  have dY : ∀ θ, HasDerivAt Y (τ' θ * (eq.ptpZ * Real.cos θ) + τ θ * (eq.ptpZ * -Real.sin θ)) θ := by
    intro θ
    exact ((hτ θ).mul ((Real.hasDerivAt_cos θ).const_mul eq.ptpZ)).const_add o.2.1
  have perX : ∀ θ, X (θ + 2 * pi) = X θ := by intro θ; simp only [hX, hper, Real.sin_add_two_pi]
  have perY : ∀ θ, Y (θ + 2 * pi) = Y θ := by intro θ; simp only [hY, hper, Real.cos_add_two_pi]
  have cX : Continuous X := by simp only [hX]; fun_prop
  have cY : Continuous Y := by simp only [hY]; fun_prop
  have cB : Continuous fun θ => √(eq.Br (X θ) (Y θ) ^ 2 + eq.Bz (X θ) (Y θ) ^ 2) := by
    have h1 : Continuous fun θ => eq.Br (X θ) (Y θ) := hBr.comp (cX.prodMk cY)
    have h2 : Continuous fun θ => eq.Bz (X θ) (Y θ) := hBz.comp (cX.prodMk cY)
    fun_prop
  have cw : Continuous fun θ => eq.fpol v / (X θ ^ 2 * √(eq.Br (X θ) (Y θ) ^ 2 + eq.Bz (X θ) (Y θ) ^ 2)) := by
    refine continuous_const.div ((cX.pow 2).mul cB) fun θ => ?_
    exact mul_ne_zero (pow_ne_zero 2 (hR θ)) (hbp θ)
  have hdX : ∀ θ, deriv X θ = _ := fun θ => (dX θ).deriv
  have hdY : ∀ θ, deriv Y θ = _ := fun θ => (dY θ).deriv
  rw [Metric.tendsto_atTop]
  intro ε hε
  obtain ⟨N, hN⟩ := curve_sum X Y (deriv X) (deriv Y) (fun θ => eq.fpol v / (X θ ^ 2 * √(eq.Br (X θ) (Y θ) ^ 2 + eq.Bz (X θ) (Y θ) ^ 2)))
    (fun t => by rw [hdX]; exact dX t) (fun t => by rw [hdY]; exact dY t)
    (by rw [show deriv X = fun θ => _ from funext hdX]; fun_prop) (by rw [show deriv Y = fun θ => _ from funext hdY]; fun_prop)
    cw (ε * (2 * pi)) (by positivity)
  refine ⟨max N 2, fun n hn => ?_⟩
  have hn2 : 2 ≤ n := le_trans (le_max_right _ _) hn
  have hn0 : (0 : ℝ) < n := by
    have : 0 < n := by omega
    exact_mod_cast this
  obtain ⟨s, hs, hgrid⟩ := theta_shift n (xpointTheta o x)
  have hs0 : 0 ≤ s ∧ s ≤ 2 * pi / n := by
    rcases hs with rfl | rfl
    · exact ⟨le_refl _, by positivity⟩
    · refine ⟨by positivity, ?_⟩
      rw [div_le_div_iff_of_pos_right hn0]; linarith
  have key := hN n (le_trans (le_max_left _ _) hn) (by omega) s hs0.1 hs0.2
  have hang : ∀ j : ℕ, thetaGrid n (xpointTheta o x) j = j * (2 * pi / n) + s := by
    intro j; rw [hgrid]; ring
  have hterm : ∀ j ∈ Finset.range n, eq.fpol v / ((spot eq o τ (thetaGrid n (xpointTheta o x) j)).1 ^ 2 *
      bpol eq (spot eq o τ (thetaGrid n (xpointTheta o x) j))) * dl (fun j => spot eq o τ (thetaGrid n (xpointTheta o x) j)) n j =
      eq.fpol v / (X (j * (2 * pi / n) + s) ^ 2 * √(eq.Br (X (j * (2 * pi / n) + s)) (Y (j * (2 * pi / n) + s)) ^ 2 +
        eq.Bz (X (j * (2 * pi / n) + s)) (Y (j * (2 * pi / n) + s)) ^ 2)) *
        √(((X (j * (2 * pi / n) + s + 2 * pi / n) - X (j * (2 * pi / n) + s - 2 * pi / n)) / 2) ^ 2 +
          ((Y (j * (2 * pi / n) + s + 2 * pi / n) - Y (j * (2 * pi / n) + s - 2 * pi / n)) / 2) ^ 2) := by
    intro j hj
    rw [Finset.mem_range] at hj
    rw [hang j]
    congr 1
    -- neighbours
    have hnext : ∀ (f : ℝ → ℝ), (∀ θ, f (θ + 2 * pi) = f θ) → f (thetaGrid n (xpointTheta o x) (next n j)) =
        f (j * (2 * pi / n) + s + 2 * pi / n) := by
      intro f hf
      rw [hang, next]
      rcases Nat.lt_or_ge (j + 1) n with h | h
      · rw [Nat.mod_eq_of_lt h]; push_cast; congr 1; ring
      · have hjn : j + 1 = n := by omega
        rw [hjn, Nat.mod_self, ← hf]
        have : (j : ℝ) = n - 1 := by
          have : ((j + 1 : ℕ) : ℝ) = n := by rw [hjn]
          push_cast at this; linarith
        rw [this]
        congr 1
        push_cast
        field_simp
        ring
    have hprev : ∀ (f : ℝ → ℝ), (∀ θ, f (θ + 2 * pi) = f θ) → f (thetaGrid n (xpointTheta o x) (prev n j)) =
        f (j * (2 * pi / n) + s - 2 * pi / n) := by
      intro f hf
      rw [hang, prev]
      rcases Nat.eq_zero_or_pos j with rfl | h
      · rw [Nat.zero_add, Nat.mod_eq_of_lt (by omega), ← hf (((0 : ℕ) : ℝ) * (2 * pi / n) + s - 2 * pi / n)]
        have : ((n - 1 : ℕ) : ℝ) = n - 1 := by
          have : n - 1 + 1 = n := by omega
          have h2 : ((n - 1 + 1 : ℕ) : ℝ) = n := by rw [this]
          push_cast at h2; linarith
        rw [this]
        congr 1
        push_cast
        field_simp
        ring
      · have : (j + n - 1) % n = j - 1 := by
          rw [show j + n - 1 = (j - 1) + n by omega, Nat.add_mod_right, Nat.mod_eq_of_lt (by omega)]
        rw [this]
        have h2 : ((j - 1 : ℕ) : ℝ) = j - 1 := by
          have : j - 1 + 1 = j := by omega
          have h2 : ((j - 1 + 1 : ℕ) : ℝ) = j := by rw [this]
          push_cast at h2; linarith
        rw [h2]
        congr 1
        ring
    rw [dl]
    have e1 : (spot eq o τ (thetaGrid n (xpointTheta o x) (prev n j))).1 = X (j * (2 * pi / n) + s - 2 * pi / n) := hprev X perX
    have e2 : (spot eq o τ (thetaGrid n (xpointTheta o x) (prev n j))).2 = Y (j * (2 * pi / n) + s - 2 * pi / n) := hprev Y perY
    have e3 : (spot eq o τ (thetaGrid n (xpointTheta o x) (next n j))).1 = X (j * (2 * pi / n) + s + 2 * pi / n) := hnext X perX
    have e4 : (spot eq o τ (thetaGrid n (xpointTheta o x) (next n j))).2 = Y (j * (2 * pi / n) + s + 2 * pi / n) := hnext Y perY
    rw [e1, e2, e3, e4]
    congr 1
    ring
  rw [Finset.sum_congr rfl hterm, Real.dist_eq, ← sub_div, abs_div, abs_of_pos (show 0 < 2 * pi by positivity), div_lt_iff₀ (by positivity)]
  exact key

/-- Non-vacuity of C84 and C85: circular surfaces around the axis at (2, 0), X-point below. -/
noncomputable def circles : Eq where
  dom := ⟨1, 3, -1, 1⟩
  psi := fun _ => 0
  bndry := some 1
  spline := fun _ r z => √((r - 2) ^ 2 + z ^ 2)
  Br := fun _ z => z
  Bz := fun r _ => -(r - 2)
  fpol := fun _ => 6
  ptpR := 2
  ptpZ := 2

theorem circles_within : Within circles.dom 2 0 := by
  simp only [Within, circles]; norm_num

theorem circles_cone (a : ℝ) (h0 : 0 < a) (h1 : a < 1) (F : ℝ → ℝ) :
    Cone { circles with fpol := F } (fun r z => √((r - 2) ^ 2 + z ^ 2)) (2, 0, 0) a fun _ => a / 2 := by
  have sq : ∀ θ t : ℝ, (2 + t * (2 * Real.sin θ) - 2) ^ 2 + (0 + t * (2 * Real.cos θ)) ^ 2 = (2 * t) ^ 2 := by
    intro θ t
    linear_combination 4 * t ^ 2 * Real.sin_sq_add_cos_sq θ
  refine ⟨h0, fun θ => ⟨by linarith, by linarith⟩, fun θ t ht0 _ => ?_, fun θ => ?_⟩
  · simp only [circles]
    rw [sq, Real.sqrt_sq (by linarith)]
    field_simp
  · have hs1 := Real.sin_le_one θ
    have hs2 := Real.neg_one_le_sin θ
    have hc1 := Real.cos_le_one θ
    have hc2 := Real.neg_one_le_cos θ
    simp only [circles]
    refine ⟨⟨by nlinarith, by nlinarith⟩, ⟨by nlinarith, by nlinarith⟩⟩

example : ∃ s pts, (s = 0 ∨ s = pi / (8 : ℕ)) ∧ separatrix circles [(2, 0, 0)] [(2, -1, 1)] 8 = .ok pts ∧ pts.length = 8 := by
  obtain ⟨s, pts, h1, h2, h3, -⟩ := C84_points_partial circles (2, 0, 0) (2, -1, 1) [] [] 1 8 (by norm_num) rfl (by norm_num)
    circles_within (by simp only [circles]; fun_prop)
  exact ⟨s, pts, h1, h2, h3⟩

example : JustLeftOfTop (2, 0, 0) (2 - Real.sin (1 / 2000), Real.cos (1 / 2000), 1) := by
  refine ⟨1 / 2000, by norm_num, by norm_num, 1, one_pos, ?_, ?_⟩
  · rw [Real.sin_neg]; simp
  · rw [Real.cos_neg]; simp

example : ∃ q : ℕ → ℝ, (∀ n ≥ 2, findSafety circles [(2, 0, 0)] [(2, -1, 1)] [1 / 2] n = .ok [q n]) := by
  obtain ⟨q, h, -⟩ := C85_converges_partial circles (2, 0, 0) (2, -1, 1) [] [] (1 / 2) (fun _ => 1 / 2 / 2) (fun _ => 0) (by norm_num)
    circles_within (circles_cone (1 / 2) (by norm_num) (by norm_num) _) (fun θ => hasDerivAt_const _ _) continuous_const (fun _ => rfl)
    (by simp only [circles]; fun_prop) (by simp only [circles]; fun_prop)
    (fun θ => by
      have := Real.neg_one_le_sin θ
      simp only [circles]
      have : (0 : ℝ) < 2 + 1 / 2 / 2 * (2 * Real.sin θ) := by linarith
      exact this.ne')
    (fun θ => by
      simp only [circles]
      by_contra hc
      push Not at hc
      have h1 : Real.cos θ = 0 := by linarith [hc.1]
      have h2 : Real.sin θ = 0 := by linarith [hc.2]
      have := Real.sin_sq_add_cos_sq θ
      rw [h1, h2] at this
      norm_num at this)
  exact ⟨q, h⟩

/-- `eq'` is `eq` with the flux multiplied by `a` and shifted by `c`, the poloidal field multiplied by `a` and `f` by `k`. -/
structure Rescaled (eq eq' : Eq) (a c k : ℝ) : Prop where
  psi : ∀ i, eq'.psi i = a * eq.psi i + c
  Br : ∀ r z, eq'.Br r z = a * eq.Br r z
  Bz : ∀ r z, eq'.Bz r z = a * eq.Bz r z
  fpol : ∀ v, eq'.fpol v = k * eq.fpol v
  same : eq'.dom = eq.dom ∧ eq'.spline = eq.spline ∧ eq'.ptpR = eq.ptpR ∧ eq'.ptpZ = eq.ptpZ

/-- The critical point with the new flux. -/
def rescalePoint (a c : ℝ) (p : Point ℝ) : Point ℝ := (p.1, p.2.1, a * p.2.2 + c)

theorem Rescaled.bpol {eq eq' : Eq} {a c k : ℝ} (h : Rescaled eq eq' a c k) (p : ℝ × ℝ) : bpol eq' p = |a| * bpol eq p := by
  rw [Separatrix.bpol, Separatrix.bpol, h.Br, h.Bz, ← Real.sqrt_sq_eq_abs, ← Real.sqrt_mul (sq_nonneg a)]
  congr 1; ring

theorem Rescaled.qSurface {eq eq' : Eq} {a c k : ℝ} (h : Rescaled eq eq' a c k) (ha : a ≠ 0) (v : ℝ) (pts : ℕ → ℝ × ℝ) (n : ℕ) :
    qSurface eq' v pts n = (qSurface eq v pts n).map fun q => k / |a| * q := by
  have ha' : |a| ≠ 0 := abs_ne_zero.mpr ha
  have hiff : (∃ j < n, (pts j).1 ^ 2 * Separatrix.bpol eq' (pts j) = 0) ↔ ∃ j < n, (pts j).1 ^ 2 * Separatrix.bpol eq (pts j) = 0 := by
    have : ∀ p : ℝ × ℝ, p.1 ^ 2 * Separatrix.bpol eq' p = 0 ↔ p.1 ^ 2 * Separatrix.bpol eq p = 0 := by
      intro p; rw [h.bpol, mul_eq_zero, mul_eq_zero, mul_eq_zero]; simp [ha]
    simp only [this]
  unfold Separatrix.qSurface
  by_cases hc : ∃ j < n, (pts j).1 ^ 2 * Separatrix.bpol eq (pts j) = 0
  · rw [if_pos hc, if_pos (hiff.mpr hc)]; rfl
  · rw [if_neg hc, if_neg (fun h => hc (hiff.mp h))]
    simp only [Except.map]
    congr 1
    rw [mul_div_assoc', Finset.mul_sum]
    congr 1
    refine Finset.sum_congr rfl fun j _ => ?_
    rw [h.fpol, h.bpol]
    rcases eq_or_ne ((pts j).1 ^ 2 * Separatrix.bpol eq (pts j)) 0 with h0 | h0
    · rw [show (pts j).1 ^ 2 * (|a| * Separatrix.bpol eq (pts j)) = |a| * ((pts j).1 ^ 2 * Separatrix.bpol eq (pts j)) by ring, h0]; simp
    · rw [show (pts j).1 ^ 2 * (|a| * Separatrix.bpol eq (pts j)) = |a| * ((pts j).1 ^ 2 * Separatrix.bpol eq (pts j)) by ring]
      field_simp

theorem Rescaled.loop {eq eq' : Eq} {a c k : ℝ} (h : Rescaled eq eq' a c k) (ha : a ≠ 0) (f : ℝ → ℝ → ℝ) (o : Point ℝ) (theta : ℕ → ℝ)
    (n : ℕ) (l : List ℝ) :
    safetyLoop eq' f (rescalePoint a c o) theta n l = (safetyLoop eq f o theta n l).map (List.map fun q => k / |a| * q) := by
  induction l with
  | nil => rfl
  | cons v rest ih =>
    have hsp : surfacePoint eq' f (rescalePoint a c o) theta v = surfacePoint eq f o theta v := by
      funext j
      rw [surfacePoint, surfacePoint, h.same.1, h.same.2.2.1, h.same.2.2.2]; rfl
    unfold safetyLoop
    rw [hsp]
    cases collect (surfacePoint eq f o theta v) n with
    | error err => rfl
    | ok pts =>
      simp only
      rw [h.qSurface ha]
      cases Separatrix.qSurface eq v (fun j => pts.getD j (0, 0)) n with
      | error err => rfl
      | ok q =>
        simp only [Except.map]
        rw [ih]
        cases safetyLoop eq f o theta n rest with
        | error err => rfl
        | ok qs => simp [Except.map]

/-- **C85.** The safety factor is proportional to `f` and inversely proportional to the poloidal field. The sign of the flux, a constant
added to it, and hence the direction of the plasma current do not matter. Scaling both fields alike leaves it unchanged. -/
theorem C85_scale (eq eq' : Eq) (a c k : ℝ) (h : Rescaled eq eq' a c k) (ha : a ≠ 0) (opoint xpoint : List (Point ℝ)) (l : List ℝ) (n : ℕ) :
    findSafety eq' (opoint.map (rescalePoint a c)) (xpoint.map (rescalePoint a c)) l n =
      (findSafety eq opoint xpoint l n).map (List.map fun q => k / |a| * q) := by
  cases xpoint with
  | nil => cases opoint <;> rfl
  | cons x xs =>
    cases opoint with
    | nil => rfl
    | cons o os =>
      have e1 : a * x.2.2 + c - (a * o.2.2 + c) = a * (x.2.2 - o.2.2) := by ring
      have hn : normalise eq'.psi (a * o.2.2 + c) (a * x.2.2 + c) = normalise eq.psi o.2.2 x.2.2 := by
        funext i
        rw [normalise, normalise, h.psi, e1, show a * eq.psi i + c - (a * o.2.2 + c) = a * (eq.psi i - o.2.2) by ring,
          mul_div_mul_left _ _ ha]
      simp only [List.map_cons]
      unfold findSafety
      simp only
      have ez : (rescalePoint a c x).2.2 - (rescalePoint a c o).2.2 = 0 ↔ x.2.2 - o.2.2 = 0 := by
        simp only [rescalePoint]; rw [e1, mul_eq_zero]; simp [ha]
      by_cases h0 : x.2.2 - o.2.2 = 0
      · rw [if_pos h0, if_pos (ez.mpr h0)]; rfl
      · rw [if_neg h0, if_neg (fun h => h0 (ez.mp h))]
        by_cases h2 : n < 2
        · rw [if_pos h2, if_pos h2]; rfl
        · rw [if_neg h2, if_neg h2]
          have et : xpointTheta (rescalePoint a c o) (rescalePoint a c x) = xpointTheta o x := rfl
          rw [et, show (rescalePoint a c o).2.2 = a * o.2.2 + c from rfl, show (rescalePoint a c x).2.2 = a * x.2.2 + c from rfl,
            hn, h.same.2.1]
          exact h.loop ha _ o _ n l

example : Rescaled circles { circles with psi := fun _ => 3, Br := fun _ z => -2 * z, Bz := fun r _ => -2 * -(r - 2), fpol := fun _ => -2 * 6 }
    (-2) 3 (-2) := by
  constructor <;> simp [circles]

theorem loop_spec (eq : Eq) (f : ℝ → ℝ → ℝ) (o : Point ℝ) (theta : ℕ → ℝ) (n : ℕ) : ∀ (l qs : List ℝ),
    safetyLoop eq f o theta n l = .ok qs → List.Forall₂ (fun v q => safetyLoop eq f o theta n [v] = .ok [q]) l qs := by
  intro l
  induction l with
  | nil => intro qs h; cases h; exact List.Forall₂.nil
  | cons v rest ih =>
    intro qs h
    have hv : ∀ q, safetyLoop eq f o theta n [v] = .ok [q] ↔
        ∃ pts, collect (surfacePoint eq f o theta v) n = .ok pts ∧ qSurface eq v (fun j => pts.getD j (0, 0)) n = .ok q := by
      intro q
      unfold safetyLoop
      cases hc : collect (surfacePoint eq f o theta v) n with
      | error err => simp
      | ok pts =>
        simp only
        constructor
        · intro h
          refine ⟨pts, rfl, ?_⟩
          cases hq : qSurface eq v (fun j => pts.getD j (0, 0)) n with
          | error err => rw [hq] at h; cases h
          | ok q' =>
            rw [hq] at h
            simp only [safetyLoop, Except.ok.injEq, List.cons.injEq, and_true] at h
            rw [h]
        · rintro ⟨pts', h1, h2⟩
          cases h1
          rw [h2]
          rfl
    unfold safetyLoop at h
    cases hc : collect (surfacePoint eq f o theta v) n with
    | error err => rw [hc] at h; simp at h
    | ok pts =>
      rw [hc] at h
      simp only at h
      cases hq : qSurface eq v (fun j => pts.getD j (0, 0)) n with
      | error err => rw [hq] at h; simp at h
      | ok q =>
        rw [hq] at h
        simp only at h
        cases hr : safetyLoop eq f o theta n rest with
        | error err => rw [hr] at h; simp at h
        | ok qs' =>
          rw [hr] at h
          simp only [Except.ok.injEq] at h
          subst h
          exact List.Forall₂.cons ((hv q).mpr ⟨pts, hc, hq⟩) (ih qs' hr)

theorem safety_spec (eq : Eq) (opoint xpoint : List (Point ℝ)) (l qs : List ℝ) (n : ℕ) (h : findSafety eq opoint xpoint l n = .ok qs) :
    List.Forall₂ (fun v q => findSafety eq opoint xpoint [v] n = .ok [q]) l qs := by
  cases xpoint with
  | nil => cases opoint <;> simp [findSafety] at h
  | cons x xs =>
    cases opoint with
    | nil => simp [findSafety] at h
    | cons o os =>
      unfold findSafety at h ⊢
      simp only at h ⊢
      by_cases h0 : x.2.2 - o.2.2 = 0
      · rw [if_pos h0] at h; simp at h
      · by_cases h2 : n < 2
        · rw [if_neg h0, if_pos h2] at h; simp at h
        · simp only [h0, h2, if_false] at h ⊢
          exact loop_spec _ _ _ _ _ l qs h

theorem loop_of_singles (eq : Eq) (f : ℝ → ℝ → ℝ) (o : Point ℝ) (theta : ℕ → ℝ) (n : ℕ) (g : ℝ → ℝ) : ∀ (l : List ℝ),
    (∀ v ∈ l, safetyLoop eq f o theta n [v] = .ok [g v]) → safetyLoop eq f o theta n l = .ok (l.map g) := by
  intro l
  induction l with
  | nil => intro _; rfl
  | cons v rest ih =>
    intro h
    have hv := h v List.mem_cons_self
    unfold safetyLoop at hv ⊢
    cases hc : collect (surfacePoint eq f o theta v) n with
    | error err => rw [hc] at hv; cases hv
    | ok pts =>
      rw [hc] at hv
      simp only at hv ⊢
      cases hq : qSurface eq v (fun j => pts.getD j (0, 0)) n with
      | error err => rw [hq] at hv; cases hv
      | ok q' =>
        rw [hq] at hv
        simp only [safetyLoop, Except.ok.injEq, List.cons.injEq, and_true] at hv
        simp only
        rw [ih fun w hw => h w (List.mem_cons_of_mem _ hw), hv]
        rfl

theorem safety_of_singles (eq : Eq) (opoint xpoint : List (Point ℝ)) (n : ℕ) (g : ℝ → ℝ) (l : List ℝ) (hl : l ≠ [])
    (h : ∀ v ∈ l, findSafety eq opoint xpoint [v] n = .ok [g v]) : findSafety eq opoint xpoint l n = .ok (l.map g) := by
  obtain ⟨v0, hv0⟩ := List.exists_mem_of_ne_nil l hl
  have h' := h v0 hv0
  cases xpoint with
  | nil => cases opoint <;> simp [findSafety] at h'
  | cons x xs =>
    cases opoint with
    | nil => simp [findSafety] at h'
    | cons o os =>
      unfold findSafety at h h' ⊢
      simp only at h h' ⊢
      by_cases h0 : x.2.2 - o.2.2 = 0
      · rw [if_pos h0] at h'; simp at h'
      · by_cases h2 : n < 2
        · rw [if_neg h0, if_pos h2] at h'; simp at h'
        · simp only [h0, h2, if_false] at h ⊢
          exact loop_of_singles _ _ _ _ _ g l h

/-- **C85.** The safety factor has the sign of `f`. -/
theorem C85_sign (eq : Eq) (opoint xpoint : List (Point ℝ)) (l qs : List ℝ) (n : ℕ) (h : findSafety eq opoint xpoint l n = .ok qs) :
    List.Forall₂ (fun v q => 0 ≤ eq.fpol v * q) l qs := by
  refine (safety_spec eq opoint xpoint l qs n h).imp fun v q hq => ?_
  cases xpoint with
  | nil => cases opoint <;> simp [findSafety] at hq
  | cons x xs =>
    cases opoint with
    | nil => simp [findSafety] at hq
    | cons o os =>
      unfold findSafety at hq
      simp only at hq
      by_cases h0 : x.2.2 - o.2.2 = 0
      · rw [if_pos h0] at hq; simp at hq
      · rw [if_neg h0] at hq
        by_cases h2 : n < 2
        · rw [if_pos h2] at hq; simp at hq
        · rw [if_neg h2] at hq
          unfold safetyLoop at hq
          cases hc : collect (surfacePoint eq (eq.spline (normalise eq.psi o.2.2 x.2.2)) o (thetaGrid n (xpointTheta o x)) v) n with
          | error err => rw [hc] at hq; simp at hq
          | ok pts =>
            rw [hc] at hq
            simp only [safetyLoop] at hq
            cases hs : qSurface eq v (fun j => pts.getD j (0, 0)) n with
            | error err => rw [hs] at hq; simp at hq
            | ok q' =>
              rw [hs] at hq
              simp only [Except.ok.injEq, List.cons.injEq, and_true] at hq
              subst hq
              unfold qSurface at hs
              split_ifs at hs with hz
              cases hs
              rw [← mul_div_assoc, Finset.mul_sum]
              refine div_nonneg (Finset.sum_nonneg fun j _ => ?_) (by have := Real.pi_pos; positivity)
              rw [div_mul_eq_mul_div, ← mul_div_assoc]
              have h1 : 0 ≤ bpol eq (pts.getD j (0, 0)) := Real.sqrt_nonneg _
              have h3 : 0 ≤ dl (fun j => pts.getD j (0, 0)) n j := Real.sqrt_nonneg _
              refine div_nonneg ?_ (by positivity)
              rw [← mul_assoc]
              exact mul_nonneg (mul_self_nonneg _) h3

/-- **C85 is false for limited plasmas:** the boundary flux is not used, only the flux at the X-point. Two equilibria with the same flux
but different boundaries have the same safety factor at every normalised flux. -/
theorem C85_ignores_boundary (eq : Eq) (b : Option ℝ) (opoint xpoint : List (Point ℝ)) (l : List ℝ) (n : ℕ) :
    findSafety { eq with bndry := b } opoint xpoint l n = findSafety eq opoint xpoint l n := by
  have hl : ∀ (f : ℝ → ℝ → ℝ) (o : Point ℝ) (theta : ℕ → ℝ), safetyLoop { eq with bndry := b } f o theta n l = safetyLoop eq f o theta n l := by
    intro f o theta
    induction l with
    | nil => rfl
    | cons v rest ih => unfold safetyLoop; rw [ih]; rfl
  cases xpoint with
  | nil => cases opoint <;> rfl
  | cons x xs =>
    cases opoint with
    | nil => rfl
    | cons o os => unfold findSafety; simp only; rw [hl]

/-- **C85 is false without X-point:** the safety factor is refused. -/
theorem C85_no_xpoint (eq : Eq) (opoint : List (Point ℝ)) (l : List ℝ) (n : ℕ) : findSafety eq opoint [] l n = .error .value := by
  cases opoint <;> rfl

/-! ## C86: `eq.q` -/

/-- **C86.** `q()` gives the values at `k / (npsi + 1)`, `k = 1, ..., npsi`: equally spaced and strictly between axis and boundary. -/
theorem C86_profile (eq : Eq) (interp : List ℝ → List ℝ → ℝ → ℝ) (opoint xpoint : List (Point ℝ)) (npsi : ℕ) (qs : List ℝ)
    (h : q eq interp opoint xpoint .absent npsi = .ok qs) :
    qs.length = npsi ∧ ∀ k (hk : k < qs.length), findSafety eq opoint xpoint [((k : ℝ) + 1) / (npsi + 1)] 128 = .ok [qs[k]] := by
  have h' : findSafety eq opoint xpoint (innerValues npsi) 128 = .ok qs := h
  have hs := safety_spec eq opoint xpoint _ qs 128 h'
  have hlen := hs.length_eq
  rw [innerValues, List.length_map, List.length_range] at hlen
  refine ⟨hlen.symm, fun k hk => ?_⟩
  have hk' : k < npsi := by omega
  have := List.Forall₂.get hs (i := k) (by rw [innerValues]; simpa using hk') hk
  simp only [List.get_eq_getElem, innerValues, List.getElem_map, List.getElem_range] at this
  rw [← this]
  congr 3
  have h0 : (npsi : ℝ) ≠ 0 := by
    have : npsi ≠ 0 := by omega
    exact_mod_cast this
  have h1 : (npsi : ℝ) + 1 ≠ 0 := by positivity
  field_simp
  ring

/-- **C86.** For values all between 0.01 and 0.99, or all outside this range, the result for each value is what `q` returns for that value
alone. Missing: arrays with values of both kinds (`C86_mixed`) and Python lists (`C86_list`). -/
theorem C86_elementwise_partial (eq : Eq) (interp : List ℝ → List ℝ → ℝ → ℝ) (opoint xpoint : List (Point ℝ)) (npsi : ℕ) (l qs : List ℝ)
    (hl : (∀ v ∈ l, 1 / 100 ≤ v ∧ v ≤ 99 / 100) ∨ ∀ v ∈ l, v < 1 / 100 ∨ v > 99 / 100)
    (h : q eq interp opoint xpoint (.array l) npsi = .ok qs) :
    List.Forall₂ (fun v r => q eq interp opoint xpoint (.number v) npsi = .ok [r]) l qs := by
  simp only [q] at h ⊢
  rcases hl with hl | hl
  · have hno : ¬ ∃ x ∈ l, x < 1 / 100 ∨ x > 99 / 100 := by
      rintro ⟨x, hx, h1 | h1⟩
      · linarith [(hl x hx).1]
      · linarith [(hl x hx).2]
    rw [q.values, if_neg hno] at h
    have hs := safety_spec eq opoint xpoint l qs 128 h
    refine List.forall₂_iff_get.mpr ⟨hs.length_eq, fun i h1 h2 => ?_⟩
    have := hs.get h1 h2
    have hm := hl (l.get ⟨i, h1⟩) (List.get_mem _ _)
    rw [q.values, if_neg]
    · exact this
    · rintro ⟨x, hx, h3⟩
      rw [List.mem_singleton] at hx
      subst hx
      rcases h3 with h3 | h3
      · linarith [hm.1]
      · linarith [hm.2]
  · cases l with
    | nil =>
      rw [q.values, if_neg (by simp)] at h
      have hs := safety_spec eq opoint xpoint [] qs 128 h
      cases hs
      exact List.Forall₂.nil
    | cons v rest =>
      have hyes : ∃ x ∈ v :: rest, x < 1 / 100 ∨ x > 99 / 100 := ⟨v, List.mem_cons_self, hl v List.mem_cons_self⟩
      rw [q.values, if_pos hyes] at h
      cases hf : findSafety eq opoint xpoint (extrapolationNodes npsi) with
      | error err => rw [hf] at h; simp at h
      | ok inner =>
        rw [hf] at h
        simp only at h
        split_ifs at h with h3
        cases h
        refine List.forall₂_map_right_iff.mpr (List.forall₂_same.mpr fun w hw => ?_)
        rw [q.values, if_pos ⟨w, List.mem_singleton_self _, hl w hw⟩, hf]
        simp only [if_neg h3, List.map_cons, List.map_nil]

/-- **C86 is false for Python lists**, although the documentation of `q` shows one. -/
theorem C86_list (eq : Eq) (interp : List ℝ → List ℝ → ℝ → ℝ) (opoint xpoint : List (Point ℝ)) (npsi : ℕ) (l : List ℝ) :
    q eq interp opoint xpoint (.list l) npsi = .error .type := rfl

/-- A profile of `f` with many oscillations, zero at the hundred values used for extrapolation and one at 1/2. -/
noncomputable def ripple (v : ℝ) : ℝ := Real.sin (99 * pi * (v - 1 / 100) / (98 / 100)) ^ 2

theorem circles_safety (F : ℝ → ℝ) (v : ℝ) (h0 : 0 < v) (h1 : v < 1) :
    ∃ c > 0, findSafety { circles with fpol := F } [(2, 0, 0)] [(2, -1, 1)] [v] 128 = .ok [F v * c] := by
  have hpi := Real.pi_pos
  have hR : ∀ θ, 0 < (spot { circles with fpol := F } (2, 0, 0) (fun _ => v / 2) θ).1 := by
    intro θ
    have h2 := Real.neg_one_le_sin θ
    simp only [spot, circles]
    nlinarith
  have hB : ∀ θ, bpol { circles with fpol := F } (spot { circles with fpol := F } (2, 0, 0) (fun _ => v / 2) θ) = v := by
    intro θ
    simp only [bpol, spot, circles]
    rw [show (0 + v / 2 * (2 * Real.cos θ)) ^ 2 + (-(2 + v / 2 * (2 * Real.sin θ) - 2)) ^ 2 = v ^ 2 by
      linear_combination v ^ 2 * Real.sin_sq_add_cos_sq θ, Real.sqrt_sq h0.le]
  have key := findSafety_cone { circles with fpol := F } (2, 0, 0) (2, -1, 1) [] [] v (fun _ => v / 2) 128 (by norm_num) (by norm_num)
    circles_within (circles_cone v h0 h1 F) (fun θ => ⟨(hR θ).ne', by rw [hB]; exact h0.ne'⟩)
  simp only [hB] at key
  set θ := thetaGrid 128 (xpointTheta ((2, 0, 0) : Point ℝ) (2, -1, 1)) with hθ
  set P := fun j => spot { circles with fpol := F } (2, 0, 0) (fun _ => v / 2) (θ j) with hP
  refine ⟨(∑ j ∈ Finset.range 128, 1 / ((P j).1 ^ 2 * v) * dl P 128 j) / (2 * pi), ?_, ?_⟩
  · refine div_pos (Finset.sum_pos' (fun j _ => ?_) ⟨1, by simp, ?_⟩) (by positivity)
    · exact mul_nonneg (div_nonneg zero_le_one (mul_nonneg (sq_nonneg _) h0.le)) (Real.sqrt_nonneg _)
    · refine mul_pos (div_pos one_pos (mul_pos (pow_pos (hR _) 2) h0)) (Real.sqrt_pos.mpr ?_)
      obtain ⟨s, -, hs⟩ := theta_shift 128 (xpointTheta ((2, 0, 0) : Point ℝ) (2, -1, 1))
      have t0 : θ (prev 128 1) = s := by rw [hθ, hs]; simp [prev]
      have t2 : θ (next 128 1) = 2 * pi * 2 / 128 + s := by rw [hθ, hs]; simp [next]
      simp only [hP, spot, t0, t2, circles]
      have hcos : Real.cos (2 * pi * 2 / 128) < 1 := by
        have := Real.cos_lt_cos_of_nonneg_of_le_pi (le_refl 0) (show 2 * pi * 2 / 128 ≤ pi by linarith) (by positivity)
        rwa [Real.cos_zero] at this
      have e := Real.cos_sub (2 * pi * 2 / 128 + s) s
      rw [show 2 * pi * 2 / 128 + s - s = 2 * pi * 2 / 128 by ring] at e
      set A := 2 * pi * 2 / 128 + s
      have e1 := Real.sin_sq_add_cos_sq s
      have e2 := Real.sin_sq_add_cos_sq A
      have : ((2 + v / 2 * (2 * Real.sin s) - (2 + v / 2 * (2 * Real.sin A))) / 2) ^ 2 +
          ((0 + v / 2 * (2 * Real.cos s) - (0 + v / 2 * (2 * Real.cos A))) / 2) ^ 2 =
          v ^ 2 / 2 * (1 - Real.cos (2 * pi * 2 / 128)) := by
        rw [e]
        linear_combination v ^ 2 / 4 * e1 + v ^ 2 / 4 * e2
      rw [this]
      exact mul_pos (by positivity) (by linarith)
  · rw [key]
    congr 2
    rw [← mul_div_assoc, Finset.mul_sum]
    congr 1
    refine Finset.sum_congr rfl fun j _ => ?_
    simp only [hP]
    ring

theorem ripple_node (k : ℕ) : ripple (linspaceAt (1 / 100) (99 / 100) 100 k) = 0 := by
  rw [ripple, linspaceAt, if_neg (by norm_num)]
  have : 99 * pi * (1 / 100 + (k : ℝ) * ((99 / 100 - 1 / 100) / (((100 : ℕ) : ℝ) - 1)) - 1 / 100) / (98 / 100) = k * pi := by
    push_cast; ring
  rw [this, Real.sin_nat_mul_pi]; norm_num

theorem ripple_half : ripple (1 / 2) = 1 := by
  rw [ripple]
  have : 99 * pi * (1 / 2 - 1 / 100) / (98 / 100) = (49 : ℕ) * pi + pi / 2 := by push_cast; ring
  rw [this, Real.sin_add_pi_div_two, Real.cos_nat_mul_pi]
  norm_num

/-- **C86 is false for arrays with values of both kinds:** the value at 1/2 changes when 0.995 is asked for at the same time, because
then all values come from the extrapolation. Witness: circular surfaces and a rippled profile of `f`; any interpolation that gives zero
for data that are zero. -/
theorem C86_mixed (interp : List ℝ → List ℝ → ℝ → ℝ) (hi : ∀ x y v, (∀ a ∈ y, a = 0) → interp x y v = 0) :
    ∃ (eq : Eq) (o x : Point ℝ) (r : ℝ) (qs : List ℝ), q eq interp [o] [x] (.array [1 / 2]) = .ok [r] ∧
      q eq interp [o] [x] (.array [1 / 2, 995 / 1000]) = .ok qs ∧ qs.length = 2 ∧ qs.getD 0 0 ≠ r := by
  choose! c hc hs using fun v => fun h : 0 < v ∧ v < 1 => circles_safety ripple v h.1 h.2
  have hnodes : findSafety { circles with fpol := ripple } [(2, 0, 0)] [(2, -1, 1)] (extrapolationNodes 100) 128 =
      .ok ((extrapolationNodes 100).map fun v => ripple v * c v) := by
    refine safety_of_singles _ _ _ _ (fun v => ripple v * c v) _ (by simp [extrapolationNodes]) fun v hv => ?_
    simp only [extrapolationNodes, List.mem_map, List.mem_range] at hv
    obtain ⟨k, hk, rfl⟩ := hv
    refine hs _ ?_
    rw [linspaceAt, if_neg (by norm_num)]
    have h1 : (k : ℝ) ≤ 99 := by
      have : k ≤ 99 := by omega
      exact_mod_cast this
    have h2 : (0 : ℝ) ≤ k := Nat.cast_nonneg k
    push_cast
    constructor <;> linarith
  refine ⟨{ circles with fpol := ripple }, (2, 0, 0), (2, -1, 1), ripple (1 / 2) * c (1 / 2), [0, 0], ?_, ?_, rfl, ?_⟩
  · simp only [q]
    rw [q.values, if_neg (by rintro ⟨x, hx, h⟩; rw [List.mem_singleton] at hx; subst hx; norm_num at h)]
    exact hs (1 / 2) (by norm_num)
  · simp only [q]
    rw [q.values, if_pos ⟨995 / 1000, by simp, by norm_num⟩, hnodes]
    simp only [show ¬ (100 : ℕ) < 3 by norm_num, if_false, List.map_cons, List.map_nil]
    have hz : ∀ a ∈ (extrapolationNodes 100).map fun v => ripple v * c v, a = 0 := by
      intro a ha
      simp only [List.mem_map, extrapolationNodes, List.mem_range] at ha
      obtain ⟨v, ⟨k, -, rfl⟩, rfl⟩ := ha
      rw [ripple_node, zero_mul]
    rw [hi _ _ _ hz, hi _ _ _ hz]
  · rw [ripple_half, one_mul]
    exact (hc (1 / 2) (by norm_num)).ne

/-- Non-vacuity of C86_mixed: taking the first of the data. -/
example : ∀ (x y : List ℝ) (v : ℝ), (∀ a ∈ y, a = 0) → (fun (_ y : List ℝ) (_ : ℝ) => y.headD 0) x y v = 0 := by
  intro x y v h
  cases y with
  | nil => rfl
  | cons a t => exact h a List.mem_cons_self

/-- Non-vacuity of C85_sign, C86_profile, C86_elementwise_partial: on circular surfaces `q` succeeds. -/
example : ∃ r, q circles (fun _ _ _ => 0) [(2, 0, 0)] [(2, -1, 1)] (.array [1 / 2]) = .ok [r] ∧ 0 < r := by
  obtain ⟨c, h1, h2⟩ := circles_safety (fun _ => 6) (1 / 2) (by norm_num) (by norm_num)
  refine ⟨6 * c, ?_, by positivity⟩
  simp only [q]
  rw [q.values, if_neg (by rintro ⟨x, hx, h⟩; rw [List.mem_singleton] at hx; subst hx; norm_num at h)]
  exact h2

end FreeGS.Separatrix
