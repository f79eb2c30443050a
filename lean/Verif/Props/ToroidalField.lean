import Verif.Props.Fields
import Verif.Props.Jtor

/-!
# C136: strength and direction of the vacuum toroidal field
-/

set_option linter.unusedSectionVars false

namespace FreeGS.Equil

open FreeGS.GS
open FreeGS.Jtor (Params Given Profile constrainedProfile quadR)

universe u

section
variable {K : Type u} [Field K] [LinearOrder K] {C : Type u}

/-- **C136 (run).** Whatever the profile class: a calculation with another vacuum toroidal field, all else equal, goes through the same steps and ends with the
same equilibrium, that is the same flux, currents, boundary and core, or the same exception. -/
theorem C136_same_run (quad : (K → K) → K → K → K) (pow : K → K → K) (e : Env C K) (field : State C K → Arr K × Arr K) (p p' : Params K) (g g' : Given K)
    (hp : p'.Ip = p.Ip ∧ p'.am = p.am ∧ p'.an = p.an ∧ p'.Raxis = p.Raxis) (hg : g'.pprime = g.pprime ∧ g'.ffprime = g.ffprime) (target : K)
    (constrain : Option (State C K → Except Err (State C K))) (o : Picard.Opts K) (fuel : ℕ) (s : State C K) :
    Picard.picard (picardEnv e (paxisProfiles quad pow e p' target) constrain) o fuel s =
      Picard.picard (picardEnv e (paxisProfiles quad pow e p target) constrain) o fuel s ∧
    Picard.picard (picardEnv e (betapProfiles quad pow e field p' target) constrain) o fuel s =
      Picard.picard (picardEnv e (betapProfiles quad pow e field p target) constrain) o fuel s ∧
    Picard.picard (picardEnv e (givenProfiles e g') constrain) o fuel s = Picard.picard (picardEnv e (givenProfiles e g) constrain) o fuel s := by
  obtain ⟨I, f, am, an, Ra⟩ := p
  obtain ⟨I', f', am', an', Ra'⟩ := p'
  obtain ⟨pp, ff, fv, pf, fl⟩ := g
  obtain ⟨pp', ff', fv', pf', fl'⟩ := g'
  obtain ⟨rfl, rfl, rfl, rfl⟩ := hp
  obtain ⟨rfl, rfl⟩ := hg
  refine ⟨?_, ?_, ?_⟩
  · rfl
  · rfl
  · have : givenProfiles e ⟨pp', ff', fv', pf', fl'⟩ = givenProfiles e ⟨pp', ff', fv, pf, fl⟩ := by
      funext s psi b
      simp only [givenProfiles, Jtor.givenJtor]
      cases e.find psi with
      | error err => rfl
      | ok r =>
        obtain ⟨opt, xpt⟩ := r
        simp only [bind, Except.bind]
        cases Jtor.locate opt xpt (e.core psi opt xpt) (psi (0, 0)) b with
        | error err => rfl
        | ok pl =>
          dsimp only
          generalize (((List.range e.nx).all fun i => decide (e.R i ≠ 0)) && decide (pl.psiBndry - pl.psiAxis ≠ 0)) = t
          cases t <;> rfl
    rw [this]

/-- **C136 (given function).** If `f` is given as a function and it and the vacuum field are reversed, the toroidal field is reversed at every point. -/
theorem C136_reversed_given (e : FieldEnv C K) (s : State C K) (quad : (K → K) → K → K → K) (sqrt : K → K) (g : Given K) (pr pr' : Profile K) (f : K → K)
    (hf : g.fFunc = some f) (R Z : K) :
    Btor e s (some ⟨Given.fpol quad sqrt { g with fFunc := some fun x => -f x, fvac := -g.fvac } pr', -g.fvac⟩) R Z =
      (Btor e s (some ⟨g.fpol quad sqrt pr, g.fvac⟩) R Z).map (- ·) := by
  simp only [Btor, Given.fpol, hf]
  cases psiNRZ e s R Z with
  | error err => rfl
  | ok pn =>
    simp only [bind, Except.bind]
    cases s.mask with
    | none =>
      simp only [divide]
      split_ifs
      · rfl
      · simp only [Except.map, neg_div]
    | some m =>
      simp only [divide]
      split_ifs
      · rfl
      · simp only [Except.map, Except.ok.injEq]
        ring

/-- **C136 (reversed).** With `f` calculated from its gradient: reversing the vacuum field reverses the toroidal field at the grid points outside the core only. What is
missing: the core, see `C136_reversed_fails`. -/
theorem C136_reversed_partial (e : FieldEnv C K) (h : OnGrid e) (s : State C K) (quad : (K → K) → K → K → K) (sqrt : K → K) (pr : Profile K) (m : Arr K)
    (hm : s.mask = some m) (i j : ℕ) (hi : i < e.nx) (hj : j < e.ny) (hout : m (i, j) = 0) :
    Btor e s (some ⟨Profile.fpol quad sqrt { pr with fvac := -pr.fvac }, -pr.fvac⟩) (e.R i) (e.Z j) =
      (Btor e s (some ⟨pr.fpol quad sqrt, pr.fvac⟩) (e.R i) (e.Z j)).map (- ·) := by
  have hs : Profile.fpol quad sqrt { pr with fvac := -pr.fvac } = pr.fpol quad sqrt := by
    funext x
    simp only [Profile.fpol, neg_sq]
  simp only [Btor, hs, hm, h.1 m i j hi hj, hout]
  cases psiNRZ e s (e.R i) (e.Z j) with
  | error err => rfl
  | ok pn =>
    simp only [bind, Except.bind]
    cases pr.fpol quad sqrt pn with
    | error err => rfl
    | ok f =>
      simp only [divide]
      split_ifs
      · rfl
      · simp only [Except.map, Except.ok.injEq]
        ring

/-- **C136 refuted in the core.** At a grid point in the core the toroidal field is the same for both directions of the vacuum field: `fpol` is the positive
root. -/
theorem C136_reversed_fails (e : FieldEnv C K) (h : OnGrid e) (s : State C K) (quad : (K → K) → K → K → K) (sqrt : K → K) (pr : Profile K) (m : Arr K)
    (hm : s.mask = some m) (i j : ℕ) (hi : i < e.nx) (hj : j < e.ny) (hin : m (i, j) = 1) :
    Btor e s (some ⟨Profile.fpol quad sqrt { pr with fvac := -pr.fvac }, -pr.fvac⟩) (e.R i) (e.Z j) =
      Btor e s (some ⟨pr.fpol quad sqrt, pr.fvac⟩) (e.R i) (e.Z j) := by
  have hs : Profile.fpol quad sqrt { pr with fvac := -pr.fvac } = pr.fpol quad sqrt := by
    funext x
    simp only [Profile.fpol, neg_sq]
  simp only [Btor, hs, hm, h.1 m i j hi hj, hin, sub_self, zero_mul, mul_one, add_zero]

end

/-- A case of the theorems above: with `fvac` 7 and -7 the field is 7/5 and -7/5 outside the core, and 7/2 with both in the core. -/
example : ((solve (sampleFields [(3, 0, 50)] [(3, -2, 5)] []).toEnv (fun _ _ _ => .error .value) { sampleState with checkLimited := false }
      (some fun c => c.1 + 1) none none).toOption.map fun s =>
        [(7 : ℚ), -7].map fun f => [(2 : ℚ), 5].map fun R => (Btor (sampleFields [(3, 0, 50)] [(3, -2, 5)] []) s
          (some ⟨Profile.fpol (fun _ _ _ => 0) (fun x => if x = 49 then 7 else 0) ⟨fun _ => 0, fun _ => 0, f, 0, 1⟩, f⟩) R 0).toOption) =
    some [[some (7 / 2), some (7 / 5)], [some (7 / 2), some (-7 / 5)]] := by
  decide +kernel

section
variable {C : Type}

theorem fpol_stronger (pr : Profile ℝ) (f x a : ℝ) (ha : pr.fpol quadR Real.sqrt x = .ok a) (hf : |pr.fvac| ≤ |f|) :
    ∃ b, Profile.fpol quadR Real.sqrt { pr with fvac := f } x = .ok b ∧ a ≤ b := by
  have hsq : pr.fvac ^ 2 ≤ f ^ 2 := sq_le_sq.mpr hf
  simp only [Profile.fpol] at ha ⊢
  split_ifs at ha with hc
  cases ha
  rw [if_neg (by linarith [not_lt.mp hc])]
  exact ⟨_, rfl, Real.sqrt_le_sqrt (by linarith)⟩

/-- **C136 (profiles).** With another vacuum toroidal field the pressure is the same, and the square of `fpol` differs by the same amount in the whole plasma,
the difference of the squares of the vacuum values. With a stronger vacuum field `fpol` is at least as large and never fails where it did not before. For the two
constrained profiles after `Jtor`, and for given `p'` and `f f'`. -/
theorem C136_profiles (pow : ℝ → ℝ → ℝ) (mu0 : ℝ) (p : Params ℝ) (k : Jtor.Consts ℝ) (g : Given ℝ) (axis bndry f : ℝ) (pr pr' : Profile ℝ)
    (hpr : (pr = constrainedProfile pow mu0 p k ∧ pr' = constrainedProfile pow mu0 { p with fvac := f } k) ∨
      (pr = ⟨g.pprime, g.ffprime, g.fvac, axis, bndry⟩ ∧ pr' = ⟨g.pprime, g.ffprime, f, axis, bndry⟩)) (x : ℝ) :
    pr'.pressure quadR x = pr.pressure quadR x ∧
    (∀ a b, pr.fpol quadR Real.sqrt x = .ok a → pr'.fpol quadR Real.sqrt x = .ok b → b ^ 2 - a ^ 2 = f ^ 2 - pr.fvac ^ 2) ∧
    ∀ a, pr.fpol quadR Real.sqrt x = .ok a → |pr.fvac| ≤ |f| → ∃ b, pr'.fpol quadR Real.sqrt x = .ok b ∧ a ≤ b := by
  have h : pr' = { pr with fvac := f } := by rcases hpr with ⟨rfl, rfl⟩ | ⟨rfl, rfl⟩ <;> rfl
  subst h
  refine ⟨rfl, fun a b ha hb => ?_, fun a ha hf => fpol_stronger pr f x a ha hf⟩
  have h1 := (Jtor.fpol_sq ha).2
  have h2 := (Jtor.fpol_sq hb).2
  simp only at h2
  linarith

/-- A case: without current in the plasma `f` is 2 with the vacuum field 2, and 3 with -3. -/
example : Profile.fpol quadR Real.sqrt ⟨fun _ => 0, fun _ => 0, 2, 0, 1⟩ (1 / 2) = .ok 2 ∧
    Profile.fpol quadR Real.sqrt ⟨fun _ => 0, fun _ => 0, -3, 0, 1⟩ (1 / 2) = .ok 3 := by
  have h2 : Real.sqrt (2 ^ 2) = 2 := Real.sqrt_sq (by norm_num)
  have h3 : Real.sqrt ((-3) ^ 2) = 3 := by rw [neg_sq]; exact Real.sqrt_sq (by norm_num)
  simp only [Profile.fpol, quadR, intervalIntegral.integral_zero, zero_mul, mul_zero, zero_add, h2, h3]
  norm_num

/-- **C136 (jump).** If the vacuum field is negative, the toroidal field at a grid point in the core is not, and outside the core it is: it changes its direction at the
plasma edge. -/
theorem C136_negative_fails (e : FieldEnv C ℝ) (h : OnGrid e) (s : State C ℝ) (pr : Profile ℝ) (hneg : pr.fvac < 0) (m : Arr ℝ) (hm : s.mask = some m) (i j : ℕ)
    (hi : i < e.nx) (hj : j < e.ny) (hR : 0 < e.R i) (B : ℝ) (hB : Btor e s (some ⟨pr.fpol quadR Real.sqrt, pr.fvac⟩) (e.R i) (e.Z j) = .ok B) :
    (m (i, j) = 1 → 0 ≤ B) ∧ (m (i, j) = 0 → B < 0) := by
  obtain ⟨pn, hpn, h1⟩ := Jtor.bind_ok hB
  obtain ⟨f, hf, -⟩ := Jtor.bind_ok h1
  obtain ⟨h2, h3⟩ := C97_toroidal_on_grid e h s ⟨pr.fpol quadR Real.sqrt, pr.fvac⟩ m hm i j hi hj hR.ne' pn f hpn hf
  refine ⟨fun hin => ?_, fun hout => ?_⟩
  · rw [h2 hin] at hB
    cases hB
    exact div_nonneg (Jtor.fpol_sq hf).1 hR.le
  · rw [h3 hout] at hB
    cases hB
    exact div_neg_of_neg_of_pos hneg hR

end

end FreeGS.Equil
