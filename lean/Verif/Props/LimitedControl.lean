import Verif.Props.RepeatedControl
import Mathlib.Topology.Order.Compact
import Mathlib.Topology.Instances.Real.Lemmas

/-!
# C128: with limits, coil control has exactly one solution whenever the limits can be kept
-/

set_option linter.unusedSectionVars false

namespace FreeGS.Control

theorem continuous_zip {β : Type*} {f : ℝ → β → ℝ} (hf : ∀ b, Continuous fun a => f a b) : ∀ (n : ℕ) (l : List β),
    Continuous fun v : Fin n → ℝ => (List.zipWith f (List.ofFn v) l).sum := by
  intro n
  induction n with
  | zero => intro l; simpa using continuous_const
  | succ n ih =>
    intro l
    cases l with
    | nil => simpa using continuous_const
    | cons b l =>
      simp only [List.ofFn_succ, List.zipWith_cons_cons, List.sum_cons]
      exact ((hf b).comp (continuous_apply 0)).add ((ih l).comp (continuous_pi fun i => continuous_apply i.succ))

theorem continuous_dot (r : List ℝ) (n : ℕ) : Continuous fun v : Fin n → ℝ => dot r (List.ofFn v) := by
  have := continuous_zip (f := fun a b => b * a) (fun b => continuous_const.mul continuous_id) n r
  refine this.congr fun v => ?_
  rw [dot, List.zipWith_comm]

theorem continuous_objective (rs : List (Row ℝ)) (g : ℝ) (n : ℕ) : Continuous fun v : Fin n → ℝ => objective rs g (List.ofFn v) := by
  unfold objective
  refine Continuous.add ?_ ?_
  · induction rs with
    | nil => simpa using continuous_const
    | cons r rs ih =>
      simp only [List.map_cons, List.sum_cons]
      exact (((continuous_dot r.1 n).sub continuous_const).pow 2).add ih
  · simp only [List.map_ofFn, List.sum_ofFn, Function.comp_def]
    exact continuous_finset_sum _ fun i _ => ((continuous_const.mul (continuous_apply i)).sub continuous_const).pow 2

theorem closed_honours {p : Problem ℝ} {cur : List ℝ} (hi : ∀ f ∈ p.ineq, ∃ t, f = totalSlack cur t) (n : ℕ) :
    IsClosed {v : Fin n → ℝ | p.Honours (List.ofFn v)} := by
  have h1 : IsClosed {v : Fin n → ℝ | List.Forall₂ (fun b v => ∀ l u, b = some (l, u) → l ≤ v ∧ v ≤ u) p.bounds (List.ofFn v)} := by
    generalize p.bounds = bs
    clear hi
    induction n generalizing bs with
    | zero => exact isClosed_discrete _
    | succ n ih =>
      cases bs with
      | nil =>
        convert isClosed_empty using 1
        ext v
        simp [List.ofFn_succ]
      | cons b bs =>
        have h2 : IsClosed {v : Fin (n + 1) → ℝ | ∀ l u, b = some (l, u) → l ≤ v 0 ∧ v 0 ≤ u} := by
          cases b with
          | none => convert isClosed_univ using 1; ext v; simp
          | some lu =>
            have : {v : Fin (n + 1) → ℝ | ∀ l u, some lu = some (l, u) → l ≤ v 0 ∧ v 0 ≤ u} = {v | lu.1 ≤ v 0} ∩ {v | v 0 ≤ lu.2} := by
              ext v
              constructor
              · intro h; exact h _ _ rfl
              · rintro h l u hlu
                obtain rfl := Option.some.inj hlu
                exact h
            rw [this]
            exact (isClosed_le continuous_const (continuous_apply 0)).inter (isClosed_le (continuous_apply 0) continuous_const)
        have h3 := (ih bs).preimage (continuous_pi fun i => continuous_apply (A := fun _ : Fin (n + 1) => ℝ) i.succ)
        convert h2.inter h3 using 1
        ext v
        simp [List.ofFn_succ]
  have h2 : IsClosed {v : Fin n → ℝ | ∀ f ∈ p.ineq, 0 ≤ f (List.ofFn v)} := by
    simp only [Set.setOf_forall]
    refine isClosed_iInter fun f => isClosed_iInter fun hf => ?_
    obtain ⟨t, rfl⟩ := hi f hf
    refine isClosed_le continuous_const ?_
    unfold totalSlack
    exact ((continuous_zip (fun b => (continuous_id.add continuous_const).abs) n cur).sub continuous_const).neg
  exact h1.inter h2

theorem objective_ge (rs : List (Row ℝ)) (g : ℝ) {n : ℕ} (v : Fin n → ℝ) (i : Fin n) : g ^ 2 * v i ^ 2 ≤ objective rs g (List.ofFn v) := by
  have h1 : 0 ≤ (rs.map fun r => (dot r.1 (List.ofFn v) - r.2) ^ 2).sum :=
    List.sum_nonneg (by simp only [List.mem_map, forall_exists_index, and_imp]; rintro _ x _ rfl; positivity)
  have h2 : (g * v i - 0) ^ 2 ≤ ((List.ofFn v).map fun v => (g * v - 0) ^ 2).sum := by
    simp only [List.map_ofFn, List.sum_ofFn, Function.comp_def]
    exact Finset.single_le_sum (f := fun i => (g * v i - 0) ^ 2) (fun _ _ => sq_nonneg _) (Finset.mem_univ i)
  rw [objective]
  nlinarith

/-- If some change keeps the limits, the problem handed to the optimiser has a solution. -/
theorem minimiser_exists {e : Env ℝ} {c : Constrain ℝ} {eq eq1 : Eq ℝ} {p : Problem ℝ} (hg : c.gamma ≠ 0) (h : problem e c eq = .ok (p, eq1))
    {y : List ℝ} (hy : y.length = eq.machine.controlCurrents.length) (hh : p.Honours y) : ∃ x, p.Minimises x := by
  obtain ⟨-, hl, -, hx0, -, -, hi⟩ := problem_items h
  obtain ⟨-, ho, -⟩ := problem_ok h
  have hi' : ∀ f ∈ p.ineq, ∃ t, f = totalSlack eq.machine.controlCurrents t := by
    rw [hi]
    cases c.maxTotal with
    | none => simp
    | some t => simp only [List.mem_singleton, forall_eq]; exact ⟨t, rfl⟩
  rw [items_controlled hl] at hx0
  have of : ∀ z : List ℝ, z.length = eq.machine.controlCurrents.length →
      ∃ v : Fin eq.machine.controlCurrents.length → ℝ, List.ofFn v = z := fun z hz => by
    rw [← hz]
    exact ⟨z.get, List.ofFn_get z⟩
  obtain ⟨w, rfl⟩ := of y hy
  have hg2 : 0 < c.gamma ^ 2 := by positivity
  set F := fun v : Fin eq.machine.controlCurrents.length → ℝ => objective (specRows e c eq) c.gamma (List.ofFn v) with hF
  have hF0 : 0 ≤ F w := by
    simp only [hF, objective]
    refine add_nonneg (List.sum_nonneg ?_) (List.sum_nonneg ?_) <;>
      (simp only [List.mem_map, forall_exists_index, and_imp]; rintro _ x _ rfl; positivity)
  set r := F w / c.gamma ^ 2 + 1 with hr
  have hr1 : 1 ≤ r := by
    have : 0 ≤ F w / c.gamma ^ 2 := div_nonneg hF0 hg2.le
    linarith
  have hbox : ∀ v, F v ≤ F w → v ∈ Set.pi Set.univ fun _ => Set.Icc (-r) r := by
    intro v hv i _
    rw [Set.mem_Icc, ← abs_le]
    by_contra hn
    rw [not_le] at hn
    have h1 := (objective_ge (specRows e c eq) c.gamma v i).trans hv
    have h2 : r * r < |v i| * |v i| := mul_self_lt_mul_self (by linarith) hn
    have h3 : F w < c.gamma ^ 2 * r := by
      rw [hr, mul_add, mul_div_cancel₀ _ hg2.ne']
      linarith
    have h4 : |v i| * |v i| = v i ^ 2 := by rw [← sq, sq_abs]
    nlinarith
  have hc := ((isCompact_univ_pi fun _ : Fin eq.machine.controlCurrents.length => isCompact_Icc (a := -r) (b := r)).inter_left
    (closed_honours hi' eq.machine.controlCurrents.length))
  obtain ⟨x, ⟨hx1, -⟩, hx2⟩ := hc.exists_isMinOn ⟨w, hh, hbox w le_rfl⟩ (continuous_objective (specRows e c eq) c.gamma _).continuousOn
  refine ⟨List.ofFn x, by rw [List.length_ofFn, hx0], hx1, fun z hz hzh => ?_⟩
  obtain ⟨v, rfl⟩ := of z (by rw [hz, hx0])
  rw [ho]
  by_cases hv : F v ≤ F w
  · exact hx2 ⟨hzh, hbox v hv⟩
  · exact (hx2 ⟨hh, hbox w le_rfl⟩ : F x ≤ F w).trans (not_le.mp hv).le

/-- **C128.** A request with at least one constraint, a regularisation and limits (one pair per coil; a limit of the total current) that some currents
keep: exactly one change of the controlled currents keeps the limits and makes the squared errors plus `gamma^2` times its square minimal. -/
theorem C128_exactly_one (e : Env ℝ) (c : Constrain ℝ) (eq : Eq ℝ) (hg : c.gamma ≠ 0) (hc : c.xpoints ≠ [] ∨ c.isoflux ≠ [] ∨ c.psivals ≠ [])
    (hl : ∀ ls, c.currentLims = some ls → ls.length = eq.machine.coils.length) {y : List ℝ} (hy : y.length = eq.machine.controlCurrents.length)
    (hw : WithinLimits c (eq.adjusted y)) :
    ∃! x : List ℝ, (x.length = eq.machine.controlCurrents.length ∧ WithinLimits c (eq.adjusted x)) ∧
      ∀ z : List ℝ, z.length = eq.machine.controlCurrents.length → WithinLimits c (eq.adjusted z) →
        sumSq (constraintErrors e c (eq.adjusted x)) + c.gamma ^ 2 * sumSq x ≤ sumSq (constraintErrors e c (eq.adjusted z)) + c.gamma ^ 2 * sumSq z := by
  obtain ⟨p, eq1, hp, hx0, -⟩ := C23_unique_minimiser e c eq hg hc hl
  obtain ⟨-, -, -, -, -, ho, -⟩ := problem_items hp
  have hiff : ∀ x : List ℝ, p.Minimises x ↔ (x.length = eq.machine.controlCurrents.length ∧ WithinLimits c (eq.adjusted x)) ∧
      ∀ z : List ℝ, z.length = eq.machine.controlCurrents.length → WithinLimits c (eq.adjusted z) →
        sumSq (constraintErrors e c (eq.adjusted x)) + c.gamma ^ 2 * sumSq x ≤ sumSq (constraintErrors e c (eq.adjusted z)) + c.gamma ^ 2 * sumSq z := by
    intro x
    rw [Problem.Minimises, hx0]
    constructor
    · rintro ⟨h1, h2, h3⟩
      refine ⟨⟨h1, (honours_within hp h1).mp h2⟩, fun z hz hzw => ?_⟩
      have := h3 z hz ((honours_within hp hz).mpr hzw)
      rwa [ho, ho] at this
    · rintro ⟨⟨h1, h2⟩, h3⟩
      refine ⟨h1, (honours_within hp h1).mpr h2, fun z hz hzh => ?_⟩
      rw [ho, ho]
      exact h3 z hz ((honours_within hp hz).mp hzh)
  obtain ⟨x, hx⟩ := minimiser_exists hg hp hy ((honours_within hp hy).mpr hw)
  exact ⟨x, (hiff x).mp hx, fun z hz => C99_control_unique hg hp ((hiff z).mpr hz) hx⟩

/-- **C128 (the call).** With these limits, and an optimiser that solves the problems that have a solution, `constrain` succeeds and makes exactly this
change. -/
theorem C128_call (e : Env ℝ) (opt : Problem ℝ → List ℝ) (c : Constrain ℝ) (eq : Eq ℝ) (hg : c.gamma ≠ 0)
    (hc : c.xpoints ≠ [] ∨ c.isoflux ≠ [] ∨ c.psivals ≠ []) (hl : ∀ ls, c.currentLims = some ls → ls.length = eq.machine.coils.length)
    {y : List ℝ} (hy : y.length = eq.machine.controlCurrents.length) (hw : WithinLimits c (eq.adjusted y))
    (ho : ∀ p eq1, problem e c eq = .ok (p, eq1) → (∃ x, p.Minimises x) → p.Minimises (opt p)) :
    ∃ x eq', call e opt c eq = .ok (x, eq') ∧ WithinLimits c eq' ∧ x.length = eq.machine.controlCurrents.length ∧
      ∀ z : List ℝ, z.length = eq.machine.controlCurrents.length → WithinLimits c (eq.adjusted z) →
        sumSq (constraintErrors e c eq') + c.gamma ^ 2 * sumSq x ≤ sumSq (constraintErrors e c (eq.adjusted z)) + c.gamma ^ 2 * sumSq z := by
  obtain ⟨p, eq1, hp, hx0, -⟩ := C23_unique_minimiser e c eq hg hc hl
  have hex := minimiser_exists hg hp hy ((honours_within hp hy).mpr hw)
  have ho' : ∀ p eq1, problem e c eq = .ok (p, eq1) → p.Minimises (opt p) := by
    intro q eq2 hq
    rw [hp, Except.ok.injEq, Prod.mk.injEq] at hq
    obtain ⟨rfl, rfl⟩ := hq
    exact ho p eq1 hp hex
  have hcall : ∃ r, call e opt c eq = .ok r := by
    rw [call, hp]
    simp only
    split <;> exact ⟨_, rfl⟩
  obtain ⟨⟨x, eq'⟩, hcall⟩ := hcall
  obtain ⟨h1, -, h2, h3⟩ := call_step ho' hcall
  refine ⟨x, eq', hcall, h2, h1, fun z hz hzw => ?_⟩
  obtain ⟨-, -, -, h4⟩ := h3 z hz hzw
  have := mul_nonneg (sq_nonneg c.gamma) (sumSq_nonneg (rest x z))
  linarith

/-- Three coils with real currents, two of them controlled. -/
noncomputable def realCoils : Eq ℝ := ⟨⟨[("A", .coil (.point (PointCoil.make 1 0 3))), ("B", .coil (.point (PointCoil.make 2 1 5 1 false))),
  ("C", .coil (.point (PointCoil.make 3 2 4)))]⟩, fun _ _ _ => 1⟩

/-- Limits that the currents keep although nothing is left of the total: the hypotheses hold, and some optimiser solves all problems that have a
solution. -/
example : let c : Constrain ℝ := { gamma := 1, psivals := [(2, 0, 82)], currentLims := some [(-4, 4), (0, 1), (2, 9)], maxTotal := some 7 }
    c.gamma ≠ 0 ∧ (c.xpoints ≠ [] ∨ c.isoflux ≠ [] ∨ c.psivals ≠ []) ∧
    (∀ ls, c.currentLims = some ls → ls.length = realCoils.machine.coils.length) ∧
    ([] : List ℝ).length ≠ realCoils.machine.controlCurrents.length ∧ ([0, 0] : List ℝ).length = realCoils.machine.controlCurrents.length ∧
    WithinLimits c (realCoils.adjusted [0, 0]) ∧
    ∃ opt : Problem ℝ → List ℝ, ∀ e p eq1, problem e c realCoils = .ok (p, eq1) → (∃ x, p.Minimises x) → p.Minimises (opt p) := by
  classical
  have h0 : ([0, 0] : List ℝ).length = realCoils.machine.controlCurrents.length := by
    simp [realCoils, Machine.controlCurrents, Entry.control, AnyCoil.control, PointCoil.make]
  refine ⟨by simp, by simp, ?_, ?_, h0, ?_, fun p => if h : ∃ x, p.Minimises x then h.choose else [], ?_⟩
  · intro ls h
    obtain rfl := Option.some.inj h
    rfl
  · rw [← h0]
    simp
  · refine ⟨?_, ?_⟩
    · intro ls h
      obtain rfl := Option.some.inj h
      simp [realCoils, Eq.adjusted, Machine.controlAdjust, Machine.zipControl, Entry.control, AnyCoil.control, PointCoil.make, Entry.setCurrent,
        AnyCoil.setCurrent, Entry.current, AnyCoil.current]
      norm_num
    · intro t h
      obtain rfl := Option.some.inj h
      simp [realCoils, Eq.adjusted, Machine.controlAdjust, Machine.zipControl, Machine.controlCurrents, Entry.control, AnyCoil.control, PointCoil.make,
        Entry.setCurrent, AnyCoil.setCurrent, Entry.current, AnyCoil.current]
      norm_num
  · intro e p eq1 _ h
    simp only [dif_pos h]
    exact h.choose_spec

end FreeGS.Control
