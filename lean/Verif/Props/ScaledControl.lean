import Verif.Lemmas.ScaledControl
import Verif.Props.Control

/-!
# C99: the control system with all currents and fluxes multiplied
-/

set_option linter.unusedSectionVars false

namespace FreeGS.Control

variable {K : Type*} [Field K] [LinearOrder K] [IsStrictOrderedRing K]

/-- **C99.** If the control system can set up the problem for an equilibrium, it can for the equilibrium with all currents and fluxes
multiplied by `k`: the start values are multiplied by `k`, the objective of the multiplied changes is `k ^ 2` times the objective, and
the multiplied changes respect the multiplied limits exactly if the changes respect the limits. -/
theorem C99_control_problem {e : Env K} {c : Constrain K} {eq eq1 : Eq K} {p : Problem K} {k : K} (hk : k ≠ 0)
    (h : problem e c eq = .ok (p, eq1)) :
    ∃ p', problem e (timesConstrain k c) (timesEq k eq) = .ok (p', timesEq k eq1) ∧ p'.x0 = p.x0.map (k * ·) ∧
      (∀ x, p'.objective (x.map (k * ·)) = k ^ 2 * p.objective x) ∧
      (∀ x, p'.Honours (x.map (k * ·)) ↔ p.Honours x) := by
  obtain ⟨h1, h2⟩ := rows_eq e c eq
  obtain ⟨g1, g2⟩ := rows_eq e (timesConstrain k c) (timesEq k eq)
  have hn : (rows e c eq).2.machine.controlCurrents = eq.machine.controlCurrents := by
    rcases h2 with h | h <;> rw [h]
    exact Machine.controlCurrents_sync _
  have gs : (rows e (timesConstrain k c) (timesEq k eq)).2 = timesEq k (rows e c eq).2 := by
    have : timesEq k (rows e c eq).2 = timesEq k eq := by
      rcases h2 with h | h <;> rw [h]
      exact timesEq_of_sync k eq
    rw [this]
    rcases g2 with h | h <;> rw [h]
    exact timesEq_sync k eq
  have gm : (timesEq k (rows e c eq).2).machine = timesMachine k (rows e c eq).2.machine := rfl
  rw [problem] at h
  simp only [h1] at h
  rw [problem]
  simp only [g1, gs, specRows_times, gm, currents_times, List.length_map, List.isEmpty_map]
  split at h
  · cases h
  rename_i hne
  split at h
  · cases h
  rename_i x0 hx0
  split at h
  · cases h
  rename_i bs hbs
  simp only [Except.ok.injEq, Prod.mk.injEq] at h
  obtain ⟨rfl, rfl⟩ := h
  have hb := bounds_times k _ _ _ _ hbs
  have hlim : (timesConstrain k c).currentLims = c.currentLims.map fun ls => ls.map (timesLimits k) := rfl
  have hgam : (timesConstrain k c).gamma = c.gamma := rfl
  have hmax : (timesConstrain k c).maxTotal = c.maxTotal.map (|k| * ·) := rfl
  rw [if_neg hne, hgam, tikhonov_times k _ _ _ _ hx0]
  simp only [hlim, hb, hmax]
  refine ⟨_, rfl, rfl, fun x => objective_times k _ _ x, fun x => ?_⟩
  simp only [Problem.Honours, forall2_times hk]
  refine and_congr_right fun _ => ?_
  cases c.maxTotal with
  | none => simp
  | some t =>
    simp only [Option.map_some, List.mem_singleton, forall_eq, slack_times]
    exact mul_nonneg_iff_of_pos_left (abs_pos.2 hk)

/-- **C99.** The solutions of the multiplied problem are the multiplied solutions. -/
theorem C99_control_solutions {e : Env K} {c : Constrain K} {eq eq1 eq1' : Eq K} {p p' : Problem K} {k : K} (hk : k ≠ 0)
    (h : problem e c eq = .ok (p, eq1)) (h' : problem e (timesConstrain k c) (timesEq k eq) = .ok (p', eq1')) (x : List K) :
    p'.Minimises (x.map (k * ·)) ↔ p.Minimises x := by
  obtain ⟨q, hq, h0, ho, hh⟩ := C99_control_problem hk h
  rw [h', Except.ok.injEq, Prod.mk.injEq] at hq
  obtain ⟨rfl, -⟩ := hq
  have hk2 : 0 < k ^ 2 := by positivity
  have inv : ∀ y : List K, (y.map (k⁻¹ * ·)).map (k * ·) = y := fun y => by
    simp [Function.comp_def, mul_inv_cancel_left₀ hk]
  simp only [Problem.Minimises, hh, h0, List.length_map, ho]
  refine and_congr_right fun hl => and_congr_right fun _ => ⟨fun H y hy hyh => ?_, fun H y hy hyh => ?_⟩
  · have := H (y.map (k * ·)) (by simpa using hy) ((hh y).2 hyh)
    rw [ho] at this
    exact le_of_mul_le_mul_left this hk2
  · have g := H (y.map (k⁻¹ * ·)) (by simpa using hy) ((hh _).1 (by rwa [inv]))
    have := mul_le_mul_of_nonneg_left g hk2.le
    rwa [← ho (y.map (k⁻¹ * ·)), inv] at this

/-- **C23/C99.** With a regularisation the problem has at most one solution, also with limits. -/
theorem C99_control_unique {e : Env K} {c : Constrain K} {eq eq1 : Eq K} {p : Problem K} (hg : c.gamma ≠ 0)
    (h : problem e c eq = .ok (p, eq1)) {x y : List K} (hx : p.Minimises x) (hy : p.Minimises y) : x = y := by
  obtain ⟨h1, h2⟩ := rows_eq e c eq
  rw [problem] at h
  simp only [h1] at h
  have hn : (rows e c eq).2.machine.controlCurrents = eq.machine.controlCurrents := by
    rcases h2 with h | h <;> rw [h]
    exact Machine.controlCurrents_sync _
  split at h
  · cases h
  split at h
  · cases h
  rename_i x0 hx0
  split at h
  · cases h
  rename_i bs hbs
  simp only [Except.ok.injEq, Prod.mk.injEq] at h
  obtain ⟨rfl, rfl⟩ := h
  have hl : x0.length = eq.machine.controlCurrents.length := by
    rw [hn, tikhonov] at hx0
    split at hx0
    · cases hx0
    · simp only [Except.ok.injEq] at hx0
      rw [← hx0, List.length_ofFn]
  obtain ⟨lx, px, mx⟩ := hx
  obtain ⟨ly, py, my⟩ := hy
  have hz := honours_mid (cur := (rows e c eq).2.machine.controlCurrents) (by
    cases c.maxTotal with
    | none => simp
    | some t => simp only [List.mem_singleton, forall_eq]; exact ⟨t, rfl⟩) px py
  refine unique_min hg (specRows_length e c eq) (lx.trans hl) (ly.trans hl) (le_antisymm (mx y ly py) (my x lx px))
    (mx _ ?_ hz)
  simp only [List.length_zipWith, lx, ly, min_self]

/-- **C99.** If `constrain` succeeds and the optimiser has solved its problem, then `constrain` with the multiplied request, called for the
equilibrium with all currents and fluxes multiplied by `k`, with any optimiser that solves its problem, makes `k` times the changes and
leaves the multiplied equilibrium. -/
theorem C99_control {e : Env K} {opt opt' : Problem K → List K} {c : Constrain K} {eq eq' : Eq K} {x : List K} {k : K}
    (hk : k ≠ 0) (hg : c.gamma ≠ 0) (h : call e opt c eq = .ok (x, eq'))
    (ho : ∀ p eq1, problem e c eq = .ok (p, eq1) → p.Minimises (opt p))
    (ho' : ∀ p eq1, problem e (timesConstrain k c) (timesEq k eq) = .ok (p, eq1) → p.Minimises (opt' p)) :
    call e opt' (timesConstrain k c) (timesEq k eq) = .ok (x.map (k * ·), timesEq k eq') := by
  rw [call] at h ⊢
  split at h
  · cases h
  rename_i p eq1 hp
  obtain ⟨p', hp', h0, -, -⟩ := C99_control_problem hk hp
  rw [hp']
  simp only [h0, List.length_map]
  split at h
  · rename_i hpos
    simp only [Except.ok.injEq, Prod.mk.injEq] at h
    obtain ⟨rfl, rfl⟩ := h
    have hx := (C99_control_solutions hk hp hp' (opt p)).2 (ho p eq1 hp)
    have : opt' p' = (opt p).map (k * ·) := C99_control_unique (c := timesConstrain k c) hg hp' (ho' p' _ hp') hx
    rw [if_pos hpos]
    simp only [this]
    exact congrArg Except.ok (Prod.ext rfl (adjusted_times k eq1 (opt p)))
  · rename_i hpos
    simp only [Except.ok.injEq, Prod.mk.injEq] at h
    obtain ⟨rfl, rfl⟩ := h
    rw [if_neg hpos]

/-- Without limits the start values solve the problem, so an optimiser that returns them meets the hypotheses of `C99_control`. -/
theorem C99_control_start {e : Env K} {c : Constrain K} {eq : Eq K} (hg : c.gamma ≠ 0)
    (hl : c.currentLims = none) (ht : c.maxTotal = none) {p : Problem K} {eq1 : Eq K} (h : problem e c eq = .ok (p, eq1)) :
    p.Minimises p.x0 := by
  have hc : c.xpoints ≠ [] ∨ c.isoflux ≠ [] ∨ c.psivals ≠ [] := by
    by_contra hc
    simp only [not_or, not_not] at hc
    simp [problem, rows, xpointRows, isofluxRows, psivalRows, hc.1, hc.2.1, hc.2.2] at h
  obtain ⟨q, eq2, hq, hlen, hmin⟩ := C23_unique_minimiser e c eq hg hc (by simp [hl])
  rw [h, Except.ok.injEq, Prod.mk.injEq] at hq
  obtain ⟨rfl, rfl⟩ := hq
  obtain ⟨_, ho, _, hb, _⟩ := problem_ok h
  have hb' : p.bounds = List.replicate p.x0.length none := by
    rw [hl] at hb
    simp only [bounds, Except.ok.injEq] at hb
    rw [← hb, hlen]
  have hi : p.ineq = [] := by
    rw [problem] at h
    simp only [ht] at h
    split at h
    · cases h
    split at h
    · cases h
    split at h
    · cases h
    simp only [Except.ok.injEq, Prod.mk.injEq] at h
    rw [← h.1]
  refine ⟨rfl, ⟨?_, by simp [hi]⟩, fun y hy _ => ?_⟩
  · rw [hb']
    generalize p.x0 = l
    induction l with
    | nil => exact List.Forall₂.nil
    | cons a l ih => exact List.Forall₂.cons (by simp) ih
  · by_cases e1 : y = p.x0
    · rw [e1]
    · have := hmin y (hy.trans hlen) e1
      rw [ho, objective_eq, objective_eq]
      exact this.le

/-- The request of the examples without limits. -/
def exFree : Constrain ℚ := { exConstrain with currentLims := none, maxTotal := none }

/-- A case meeting the hypotheses of `C99_control`: two coils with the currents and the requested flux multiplied by -3. -/
example : ∃ x eq', call exEnv Problem.x0 exFree exEq = .ok (x, eq') ∧
    call exEnv Problem.x0 (timesConstrain (-3) exFree) (timesEq (-3) exEq) = .ok (x.map (-3 * ·), timesEq (-3) eq') := by
  obtain ⟨p, eq1, hp, hl, _⟩ := C23_unique_minimiser exEnv exFree exEq (by decide +kernel) (by decide +kernel) (by simp [exFree])
  have hc : ∃ r, call exEnv Problem.x0 exFree exEq = .ok r := by
    rw [call, hp]
    simp only
    split <;> exact ⟨_, rfl⟩
  obtain ⟨⟨x, eq'⟩, hr⟩ := hc
  exact ⟨x, eq', hr, C99_control (by norm_num) (by decide +kernel) hr
    (fun p eq1 h => C99_control_start (by decide +kernel) rfl rfl h)
    (fun p eq1 h => C99_control_start (by decide +kernel) rfl rfl h)⟩

example : (timesEq (-3) exEq).machine.coils.map (fun x => x.2.current) = [-9, -15] ∧
    (timesConstrain (-3) exConstrain).psivals = [(2, 0, -21)] ∧
    (timesConstrain (-3) exConstrain).currentLims = some [(-12, 12), (-3, 0)] ∧
    (timesConstrain (-3) exConstrain).maxTotal = some 30 := by decide +kernel

end FreeGS.Control
