import Verif.Spec.ForceBalance
import Verif.Props.Jtor
import Verif.Spec.Vacuum
import Mathlib.Analysis.SpecialFunctions.Sqrt

/-!
# C98: force balance

The current density of the profile objects, and their pressure and toroidal field, balance in every flux function that agrees with the flux
array at the grid point.
-/

set_option linter.unusedSectionVars false

namespace FreeGS.Jtor

open FreeGS.GS
open FreeGS.Critical (clip Point)

variable {nx ny : ℕ} {R Z : ℕ → ℝ} {p : Params ℝ} {opt xpt : List (Point ℝ)}
  {coreMask : Option ℝ → Except Err (Arr ℝ)} {eqBndry psiBndry : Option ℝ} {psi J : Arr ℝ} {k : Consts ℝ}

/-- The normalised flux of a profile object. -/
noncomputable def Profile.norm (pr : Profile ℝ) (s : ℝ) : ℝ := (s - pr.psiAxis) / (pr.psiBndry - pr.psiAxis)

/-- Half the square of `f` as a function of the flux. -/
noncomputable def halfSquare (pr : Profile ℝ) (s : ℝ) : ℝ := 2 * (quadR pr.ffprime (pr.norm s) 1 * (pr.psiAxis - pr.psiBndry)) + pr.fvac ^ 2

theorem halfSquare_deriv (pr : Profile ℝ) (hc : Continuous pr.ffprime) (hb : pr.psiBndry - pr.psiAxis ≠ 0) (s : ℝ) :
    HasDerivAt (halfSquare pr) (2 * pr.ffprime (pr.norm s)) s := by
  have h := ((C33_pressure_gradient ⟨pr.ffprime, pr.pprime, pr.fvac, pr.psiAxis, pr.psiBndry⟩ hc hb s).const_mul 2).add_const (pr.fvac ^ 2)
  exact h

/-- Force balance of every profile object with continuous flux functions. -/
theorem profile_balance (pr : Profile ℝ) (hp : Continuous pr.pprime) (hf : Continuous pr.ffprime) (hb : pr.psiBndry - pr.psiAxis ≠ 0)
    {mu0 : ℝ} (hmu : mu0 ≠ 0) (flux : ℝ → ℝ → ℝ) {r z psiR psiZ Jt F : ℝ} (hr : r ≠ 0) (hR : HasDerivAt (fun x => flux x z) psiR r)
    (hZ : HasDerivAt (fun x => flux r x) psiZ z) (hF : pr.fpol quadR Real.sqrt (pr.norm (flux r z)) = .ok F) (hF0 : F ≠ 0)
    (hJ : Jt = r * pr.pprime (pr.norm (flux r z)) + pr.ffprime (pr.norm (flux r z)) / (mu0 * r)) :
    ∃ f : ℝ → ℝ, (∀ᶠ s in nhds (flux r z), pr.fpol quadR Real.sqrt (pr.norm s) = .ok (f s)) ∧
      InForceBalance mu0 flux (fun x y => pr.pressure quadR (pr.norm (flux x y))) (fun x y => f (flux x y) / x) Jt r z := by
  have hsq := fpol_sq hF
  have hpos : 0 < halfSquare pr (flux r z) := by
    have : halfSquare pr (flux r z) = F ^ 2 := hsq.2.symm
    rw [this]
    positivity
  have hFe : Real.sqrt (halfSquare pr (flux r z)) = F := by
    have : halfSquare pr (flux r z) = F ^ 2 := hsq.2.symm
    rw [this, Real.sqrt_sq hsq.1]
  have hd := halfSquare_deriv pr hf hb (flux r z)
  have hfd : HasDerivAt (fun s => Real.sqrt (halfSquare pr s)) (pr.ffprime (pr.norm (flux r z)) / F) (flux r z) := by
    have := hd.sqrt hpos.ne'
    rw [hFe] at this
    refine this.congr_deriv ?_
    field_simp
  have hpd : HasDerivAt (fun s => pr.pressure quadR (pr.norm s)) (pr.pprime (pr.norm (flux r z))) (flux r z) := C33_pressure_gradient pr hp hb _
  refine ⟨fun s => Real.sqrt (halfSquare pr s), ?_, psiR, psiZ, pr.pprime (pr.norm (flux r z)) * psiR, pr.pprime (pr.norm (flux r z)) * psiZ, -(pr.ffprime (pr.norm (flux r z)) / F * psiZ / r) / mu0,
    pr.ffprime (pr.norm (flux r z)) / F * psiR / r / mu0, hR, hZ,
    HasDerivAt.comp r (h₂ := fun s => pr.pressure quadR (pr.norm s)) hpd hR, HasDerivAt.comp z (h₂ := fun s => pr.pressure quadR (pr.norm s)) hpd hZ, ?_, ?_, ?_, ?_, ?_⟩
  · filter_upwards [hd.continuousAt.eventually (lt_mem_nhds hpos)] with s hs
    have hs' : ¬(2 * (quadR pr.ffprime (pr.norm s) 1 * (pr.psiAxis - pr.psiBndry)) + pr.fvac ^ 2 < 0) := not_lt.mpr (le_of_lt hs)
    simp only [Profile.fpol, if_neg hs', halfSquare]
  · have h1 := (HasDerivAt.comp z (h₂ := fun s => Real.sqrt (halfSquare pr s)) hfd hZ).div_const r
    refine h1.congr_deriv ?_
    field_simp
  · have h1 : HasDerivAt (fun x => Real.sqrt (halfSquare pr (flux x z))) (pr.ffprime (pr.norm (flux r z)) / F * psiR) r :=
      HasDerivAt.comp r (h₂ := fun s => Real.sqrt (halfSquare pr s)) hfd hR
    refine (h1.congr_of_eventuallyEq ?_).congr_deriv ?_
    · filter_upwards [eventually_ne_nhds hr] with x hx
      field_simp
    · field_simp
  · show _ * _ - _ * (Real.sqrt (halfSquare pr (flux r z)) / r) = _
    rw [hFe, hJ]
    field_simp
    ring
  · field_simp
    ring
  · show _ * (Real.sqrt (halfSquare pr (flux r z)) / r) - _ = _
    rw [hFe, hJ]
    field_simp
    ring

/-- The current density `J` at the grid point `c` balances the pressure and the toroidal field of the profile functions: in every flux function
that has the value of the flux array at the grid point and derivatives there. `pressure`, `fpol` are functions of the normalised flux; `f` is
`fpol` near the point. -/
def Balances (mu0 : ℝ) (R Z : ℕ → ℝ) (psi J : Arr ℝ) (psiAxis psiBndry : ℝ) (pressure : ℝ → ℝ) (fpol : ℝ → Except Err ℝ) (c : ℕ × ℕ) : Prop :=
  ∀ (flux : ℝ → ℝ → ℝ) (psiR psiZ F : ℝ), flux (R c.1) (Z c.2) = psi c → HasDerivAt (fun x => flux x (Z c.2)) psiR (R c.1) →
    HasDerivAt (fun x => flux (R c.1) x) psiZ (Z c.2) → fpol ((psi c - psiAxis) / (psiBndry - psiAxis)) = .ok F → F ≠ 0 →
    ∃ f : ℝ → ℝ, (∀ᶠ s in nhds (psi c), fpol ((s - psiAxis) / (psiBndry - psiAxis)) = .ok (f s)) ∧
      InForceBalance mu0 flux (fun x y => pressure ((flux x y - psiAxis) / (psiBndry - psiAxis))) (fun x y => f (flux x y) / x) (J c)
        (R c.1) (Z c.2)

theorem balances_of {pr : Profile ℝ} (hp : Continuous pr.pprime) (hf : Continuous pr.ffprime) (hb : pr.psiBndry - pr.psiAxis ≠ 0)
    {mu0 : ℝ} (hmu : mu0 ≠ 0) {c : ℕ × ℕ} (hR : R c.1 ≠ 0)
    (hJ : J c = R c.1 * pr.pprime (pr.norm (psi c)) + pr.ffprime (pr.norm (psi c)) / (mu0 * R c.1)) :
    Balances mu0 R Z psi J pr.psiAxis pr.psiBndry (pr.pressure quadR) (pr.fpol quadR Real.sqrt) c := by
  intro flux psiR psiZ F h0 h1 h2 hF hF0
  rw [← h0] at hJ hF ⊢
  exact profile_balance pr hp hf hb hmu flux hR h1 h2 hF hF0 hJ

/-- **C98 (axis pressure and current).** In the plasma, `ConstrainPaxisIp.Jtor` is the toroidal current density that balances the pressure
`pressure()` with the toroidal field `fpol()/R`; outside it is zero. -/
theorem C98_paxis {paxis mu0 : ℝ} (hmu : mu0 ≠ 0) (hp : checkParams p = .ok ())
    (h : paxisJtor quadR powR nx ny R Z p paxis opt xpt coreMask eqBndry psi psiBndry = .ok (J, k)) :
    ∃ pl, locate opt xpt coreMask (psi (0, 0)) eqBndry = .ok pl ∧ ∀ c : ℕ × ℕ, c.1 < nx →
      (pl.maskAt c = 1 → Balances mu0 R Z psi J k.psiAxis k.psiBndry ((constrainedProfile powR mu0 p k).pressure quadR)
        ((constrainedProfile powR mu0 p k).fpol quadR Real.sqrt) c) ∧ (pl.maskAt c = 0 → J c = 0) := by
  obtain ⟨pl, hloc, hJ⟩ := C32_paxis hmu h
  obtain ⟨pl', hloc', h'⟩ := bind_ok h
  rw [hloc] at hloc'
  cases hloc'
  obtain ⟨⟨hRn, _, hb⟩, _, hf⟩ := jtorPaxis_ok h'
  obtain ⟨_, _, _, _, _, _, _, _, e3, e4, _⟩ := finish_ok hf
  have hcont := C33_constrained (p := p) mu0 hp k
  refine ⟨pl, hloc, fun c hc => ⟨fun hm => ?_, fun hm => ?_⟩⟩
  · have hJc := hJ c hc
    simp only [hm, mul_one] at hJc
    exact balances_of (pr := constrainedProfile powR mu0 p k) hcont.1 hcont.2 (by simp only [constrainedProfile, e3, e4]; exact hb) hmu (hRn _ hc) hJc
  · rw [hJ c hc, hm, mul_zero]

/-- **C98 (poloidal beta and current).** The same for `ConstrainBetapIp.Jtor`. -/
theorem C98_betap {betap mu0 : ℝ} (hmu : mu0 ≠ 0) (hp : checkParams p = .ok ()) {Br Bz : Arr ℝ}
    (h : betapJtor quadR powR mu0 nx ny R Z p betap opt xpt coreMask eqBndry Br Bz psi psiBndry = .ok (J, k)) :
    ∃ pl, locate opt xpt coreMask (psi (0, 0)) eqBndry = .ok pl ∧ ∀ c : ℕ × ℕ, c.1 < nx →
      (pl.maskAt c = 1 → Balances mu0 R Z psi J k.psiAxis k.psiBndry ((constrainedProfile powR mu0 p k).pressure quadR)
        ((constrainedProfile powR mu0 p k).fpol quadR Real.sqrt) c) ∧ (pl.maskAt c = 0 → J c = 0) := by
  obtain ⟨pl, hloc, hJ⟩ := C32_betap hmu h
  obtain ⟨pl', hloc', h'⟩ := bind_ok h
  rw [hloc] at hloc'
  cases hloc'
  rw [jtorBetap] at h'
  by_cases hd : divisible nx R p pl = true
  swap
  · rw [if_neg hd] at h'; cases h'
  rw [if_pos hd] at h'
  obtain ⟨hRn, _, hb⟩ := divisible_iff.mp hd
  obtain ⟨_, _, h'⟩ := bind_ok h'
  obtain ⟨_, _, h'⟩ := bind_ok h'
  split_ifs at h'
  obtain ⟨_, _, _, _, _, _, _, _, e3, e4, _⟩ := finish_ok h'
  have hcont := C33_constrained (p := p) mu0 hp k
  refine ⟨pl, hloc, fun c hc => ⟨fun hm => ?_, fun hm => ?_⟩⟩
  · have hJc := hJ c hc
    simp only [hm, mul_one] at hJc
    exact balances_of (pr := constrainedProfile powR mu0 p k) hcont.1 hcont.2 (by simp only [constrainedProfile, e3, e4]; exact hb) hmu (hRn _ hc) hJc
  · rw [hJ c hc, hm, mul_zero]

/-- **C98 (given functions).** The same for `ProfilesPprimeFfprime.Jtor` with continuous functions, without functions for `p` and `f`, where
the normalised flux is between 0 and 1. -/
theorem C98_given {mu0 : ℝ} (hmu : mu0 ≠ 0) {g : Given ℝ} {pr : Profile ℝ} (hp : Continuous g.pprime) (hf : Continuous g.ffprime)
    (hP : g.pFunc = none) (hF : g.fFunc = none) (h : givenJtor mu0 nx R g opt xpt coreMask psi psiBndry = .ok (J, pr)) :
    ∃ pl, locate opt xpt coreMask (psi (0, 0)) psiBndry = .ok pl ∧ ∀ c : ℕ × ℕ, c.1 < nx →
      (pl.maskAt c = 1 → 0 ≤ (psi c - pr.psiAxis) / (pr.psiBndry - pr.psiAxis) → (psi c - pr.psiAxis) / (pr.psiBndry - pr.psiAxis) ≤ 1 →
        Balances mu0 R Z psi J pr.psiAxis pr.psiBndry (g.pressure quadR pr) (g.fpol quadR Real.sqrt pr) c) ∧ (pl.maskAt c = 0 → J c = 0) := by
  obtain ⟨pl, hloc, e1, e2, _, hJ⟩ := C32_given h
  obtain ⟨pl', hloc', h'⟩ := bind_ok h
  rw [hloc] at hloc'
  cases hloc'
  split_ifs at h' with hd
  simp only [Bool.and_eq_true, List.all_eq_true, List.mem_range, decide_eq_true_eq] at hd
  have hbd : pr.psiBndry - pr.psiAxis ≠ 0 := by cases h'; exact hd.2
  refine ⟨pl, hloc, fun c hc => ⟨fun hm h0 h1 => ?_, fun hm => ?_⟩⟩
  · have hJc := hJ c
    simp only [hm, mul_one, min_eq_right h1, max_eq_right h0] at hJc
    have e3 : g.pressure quadR pr = pr.pressure quadR := by funext x; simp only [Given.pressure, hP]
    have e4 : g.fpol quadR Real.sqrt pr = pr.fpol quadR Real.sqrt := by funext x; simp only [Given.fpol, hF]
    rw [e3, e4]
    exact balances_of (pr := pr) (by rw [e1]; exact hp) (by rw [e2]; exact hf) hbd hmu (hd.1 _ hc) hJc
  · rw [hJ c, hm, mul_zero]

/-- **C98 (Ampère's law).** If the flux satisfies the Grad-Shafranov equation `Δ*ψ = -μ₀ R J` at a point, the poloidal field of the flux has the
toroidal current density `J`: `∂B_R/∂Z - ∂B_Z/∂R = μ₀ J`. So with the theorems before a solution of the equation is in force balance. -/
theorem C98_ampere (mu0 : ℝ) (flux : ℝ → ℝ → ℝ) (Jt r z : ℝ) (hr : r ≠ 0) (h : HasDeltaStar flux (-mu0 * r * Jt) r z) :
    ∃ (BR BZ : ℝ → ℝ → ℝ) (a b : ℝ),
      (∀ᶠ y in nhds z, HasDerivAt (fun y => flux r y) (-r * BR r y) y) ∧ (∀ᶠ x in nhds r, HasDerivAt (fun x => flux x z) (x * BZ x z) x) ∧
      HasDerivAt (fun y => BR r y) a z ∧ HasDerivAt (fun x => BZ x z) b r ∧ a - b = mu0 * Jt := by
  obtain ⟨dR, dZ, a, b, h1, h2, h3, h4, h5⟩ := h
  refine ⟨fun x y => -dZ x y / x, fun x y => 1 / x * dR x y, -b / r, a, ?_, ?_, h4.neg.div_const r, h3, ?_⟩
  · filter_upwards [h2] with y hy
    refine hy.congr_deriv ?_
    field_simp
  · filter_upwards [h1, eventually_ne_nhds hr] with x hx hx0
    refine hx.congr_deriv ?_
    field_simp
  · field_simp
    linear_combination -h5

/-- The condition is not met by any current density: with the flux `x + y`, pressure gradient 1 and no gradient of `f`, only `J = R` balances. -/
example (Jt : ℝ) (h : InForceBalance 1 (fun x y => x + y) (fun x y => x + y) (fun x _ => 3 / x) Jt 2 0) : Jt = 2 := by
  obtain ⟨psiR, psiZ, pR, pZ, JR, JZ, h1, h2, h3, h4, h5, h6, h7, h8, h9⟩ := h
  have e1 : psiR = 1 := h1.unique ((hasDerivAt_id (2 : ℝ)).add_const 0)
  have e3 : pR = 1 := h3.unique ((hasDerivAt_id (2 : ℝ)).add_const 0)
  have e6 : (2 : ℝ) * (1 * JZ) = 0 := by
    refine h6.unique ((hasDerivAt_const (2 : ℝ) (3 : ℝ)).congr_of_eventuallyEq ?_)
    filter_upwards [eventually_ne_nhds (two_ne_zero)] with x hx
    field_simp
  rw [e1, e3] at h7
  have : JZ = 0 := by linarith
  rw [this] at h7
  linarith

/-- A case meeting the hypotheses of `C98_given`: constant `p'` and `f f'`, flux 0 at the boundary and 1 on the axis, the point on the axis; the
flux function `x y - 1` at `(2, 1)`. -/
example : ∃ (J : Arr ℝ) (pr : Profile ℝ) (F : ℝ),
    givenJtor (1 : ℝ) 2 (fun i => 1 + (i : ℝ)) ⟨fun _ => 1, fun _ => 1, 2, none, none⟩ [(1, 1, 1)] [] (fun _ => .error .value)
      (fun c => if c = (0, 0) then 0 else 1) none = .ok (J, pr) ∧ pr.psiAxis = 1 ∧ pr.psiBndry = 0 ∧
    Given.fpol quadR Real.sqrt ⟨fun _ => 1, fun _ => 1, 2, none, none⟩ pr 0 = .ok F ∧ F ≠ 0 ∧ J (1, 1) = 5 / 2 ∧
    HasDerivAt (fun x : ℝ => x * 1 - 1) 1 2 := by
  have hd : ((List.range 2).all (fun i => decide ((fun i : ℕ => (1 : ℝ) + i) i ≠ 0)) && decide ((0 : ℝ) - 1 ≠ 0)) = true := by
    simp only [Bool.and_eq_true, List.all_eq_true, List.mem_range, decide_eq_true_eq]
    exact ⟨fun i _ => by positivity, by norm_num⟩
  refine ⟨fun c => (1 + (c.1 : ℝ)) * 1 + 1 / ((1 + (c.1 : ℝ)) * 1), ⟨fun _ => 1, fun _ => 1, 2, 1, 0⟩, √6, ?_, rfl, rfl, ?_, ?_, ?_, ?_⟩
  · simp only [givenJtor, locate, if_true, bind, Except.bind]
    rw [if_pos hd]
    rfl
  · simp only [Given.fpol, Profile.fpol, quadR]
    norm_num
  · positivity
  · norm_num
  · simpa using (hasDerivAt_id (2 : ℝ)).sub_const 1

end FreeGS.Jtor
