import Verif.Lemmas.Control
import Verif.Props.Machine

/-!
# C22-C25, C65: coil control
-/

set_option linter.unusedSectionVars false

namespace FreeGS.Control

variable {K : Type*} [Field K] [LinearOrder K]

/-! ## Preliminaries -/

theorem zipControl_nil_right (f : K → K → K) (cs : List (String × Entry K)) :
    Machine.zipControl f cs [] = cs := by
  induction cs with
  | nil => simp [Machine.zipControl]
  | cons y cs ih =>
    obtain ⟨l, y⟩ := y
    cases hy : y.control
    · rw [Machine.zipControl_false f l cs [] hy, ih]
    · rw [Machine.zipControl_true_nil f l cs hy]

theorem adjusted_nil (eq : Eq K) : eq.adjusted [] = eq := by
  simp [Eq.adjusted, Machine.controlAdjust, zipControl_nil_right]

/-- What a successful call has done. -/
theorem call_ok {e : Env K} {opt : Problem K → List K} {c : Constrain K} {eq eq' : Eq K} {x : List K}
    (h : call e opt c eq = .ok (x, eq')) : ∃ p eq1, problem e c eq = .ok (p, eq1) ∧
      eq' = eq1.adjusted x ∧ (x = opt p ∨ x = p.x0 ∧ p.x0 = []) := by
  rw [call] at h
  split at h
  · cases h
  · rename_i p eq1 hp
    refine ⟨p, eq1, hp, ?_⟩
    split at h
    · simp only [Except.ok.injEq, Prod.mk.injEq] at h
      obtain ⟨rfl, rfl⟩ := h
      exact ⟨rfl, Or.inl rfl⟩
    · rename_i h0
      have h0 : p.x0 = [] := by simpa using h0
      simp only [Except.ok.injEq, Prod.mk.injEq] at h
      obtain ⟨rfl, rfl⟩ := h
      exact ⟨by rw [h0, adjusted_nil], Or.inr ⟨rfl, h0⟩⟩

theorem problem_ok {e : Env K} {c : Constrain K} {eq eq1 : Eq K} {p : Problem K}
    (h : problem e c eq = .ok (p, eq1)) :
    (eq1 = eq ∨ eq1 = eq.sync) ∧ p.objective = objective (specRows e c eq) c.gamma ∧
      tikhonov (specRows e c eq) eq.machine.controlCurrents.length c.gamma = .ok p.x0 ∧
      bounds c.currentLims eq.machine.controlCurrents.length eq1.machine = .ok p.bounds ∧
      (∀ t, c.maxTotal = some t → totalSlack eq.machine.controlCurrents t ∈ p.ineq) := by
  obtain ⟨h1, h2⟩ := rows_eq e c eq
  have hn : (rows e c eq).2.machine.controlCurrents = eq.machine.controlCurrents := by
    rcases h2 with h | h <;> rw [h]
    exact Machine.controlCurrents_sync _
  rw [problem] at h
  simp only [h1, hn] at h
  split at h
  · cases h
  split at h
  · cases h
  rename_i x0 hx0
  split at h
  · cases h
  rename_i bs hbs
  simp only [Except.ok.injEq, Prod.mk.injEq] at h
  obtain ⟨rfl, rfl⟩ := h
  exact ⟨h2, rfl, hx0, hbs, fun t ht => by simp [ht]⟩

theorem errors_of_sync (e : Env K) (c : Constrain K) {eq eq1 : Eq K} (h : eq1 = eq ∨ eq1 = eq.sync)
    (y : List K) : constraintErrors e c (eq1.adjusted y) = constraintErrors e c (eq.adjusted y) := by
  rcases h with rfl | rfl
  · rfl
  · simp only [constraintErrors, Eq.read_adjusted, Eq.read_sync, Eq.response_sync]

/-! ## The examples -/

/-- Two coils, the second one uncontrolled, no plasma. -/
def exEq : Eq ℚ := ⟨⟨[("A", .coil (.point (PointCoil.make 1 0 3))),
  ("B", .coil (.point (PointCoil.make 2 1 5 1 false)))]⟩, fun _ _ _ => 0⟩

/-- One flux value is requested; the total of currents is limited. -/
def exConstrain : Constrain ℚ :=
  { gamma := 1, psivals := [(2, 0, 7)], currentLims := some [(-4, 4), (0, 1)], maxTotal := some 10 }

variable [IsStrictOrderedRing K]

/-- **C22.** For a successful call of the control system with any optimiser: the function handed to the
optimiser is, for every vector of current changes, the sum of squares of the constraint errors that the equilibrium
would have after that change, plus `gamma^2` times the sum of squares of the changes; the errors after
the call are those of the returned change; and they all vanish if and only if the returned change solves the
linear system, i.e. reaches the value `gamma^2 * |x|^2`. -/
theorem C22_constraint_errors (e : Env K) (opt : Problem K → List K) (c : Constrain K) (eq eq' : Eq K)
    (x : List K) (h : call e opt c eq = .ok (x, eq')) :
    constraintErrors e c eq' = constraintErrors e c (eq.adjusted x) ∧
    ∃ p eq1, problem e c eq = .ok (p, eq1) ∧ (x = opt p ∨ eq.machine.controlCurrents = [] ∧ x = []) ∧
      (∀ y, p.objective y = sumSq (constraintErrors e c (eq.adjusted y)) + c.gamma ^ 2 * sumSq y) ∧
      (p.objective x = c.gamma ^ 2 * sumSq x ↔ Met e c eq') := by
  obtain ⟨p, eq1, hp, rfl, hx⟩ := call_ok h
  obtain ⟨h1, h2, h3, _⟩ := problem_ok hp
  have he := errors_of_sync e c h1 x
  have ho : ∀ y, p.objective y = sumSq (constraintErrors e c (eq.adjusted y)) + c.gamma ^ 2 * sumSq y := by
    intro y; rw [h2]; exact objective_eq e c eq c.gamma y
  refine ⟨he, p, eq1, hp, ?_, ho, ?_⟩
  · rcases hx with hx | ⟨hx, h0⟩
    · exact Or.inl hx
    · refine Or.inr ⟨?_, by rw [hx, h0]⟩
      have : p.x0.length = eq.machine.controlCurrents.length := by
        rw [tikhonov] at h3
        split at h3
        · cases h3
        · simp only [Except.ok.injEq] at h3
          rw [← h3]; simp
      rw [h0] at this
      exact List.length_eq_zero_iff.mp this.symm
  · rw [met_iff, ← sumSq_eq_zero, he, ho x]
    constructor <;> intro h <;> linarith

/-- **C22 (how well the constraints are met).** If the optimiser returns a change no worse than some change
`y`, the constraint error after the call is at most that of `y` plus `gamma^2 |y|^2`; in particular, if `y`
would meet all constraints exactly, the error is at most `gamma^2 |y|^2`. -/
theorem C22_error_bound (e : Env K) (opt : Problem K → List K) (c : Constrain K) (eq eq' : Eq K)
    (x y : List K) (h : call e opt c eq = .ok (x, eq'))
    (hy : y.length = eq.machine.controlCurrents.length)
    (hopt : ∀ p eq1, problem e c eq = .ok (p, eq1) → p.objective (opt p) ≤ p.objective y) :
    sumSq (constraintErrors e c eq') ≤ sumSq (constraintErrors e c (eq.adjusted y)) +
      c.gamma ^ 2 * (sumSq y - sumSq x) ∧
    (Met e c (eq.adjusted y) → sumSq (constraintErrors e c eq') ≤ c.gamma ^ 2 * sumSq y) := by
  obtain ⟨h1, p, eq1, hp, hx, ho, _⟩ := C22_constraint_errors e opt c eq eq' x h
  have key : p.objective x ≤ p.objective y := by
    rcases hx with rfl | ⟨h0, rfl⟩
    · exact hopt p eq1 hp
    · rw [h0] at hy
      rw [List.length_eq_zero_iff.mp hy]
  rw [ho, ho, ← h1] at key
  have h3 : 0 ≤ c.gamma ^ 2 * sumSq x := mul_nonneg (sq_nonneg _) (sumSq_nonneg x)
  refine ⟨by linarith, fun hm => ?_⟩
  rw [met_iff, ← sumSq_eq_zero] at hm
  rw [hm] at key
  linarith

/-- **C22 (no constraints).** With no constraint at all the call raises `ValueError`. -/
theorem C22_no_constraints (e : Env K) (opt : Problem K → List K) (c : Constrain K) (eq : Eq K)
    (h : c.xpoints = [] ∧ c.isoflux = [] ∧ c.psivals = []) : call e opt c eq = .error .value := by
  obtain ⟨h1, h2, h3⟩ := h
  simp [call, problem, rows, xpointRows, isofluxRows, psivalRows, h1, h2, h3]

/-- The request `psi(2, 0) = 7`: a change of `-2` leaves the error 20, a change of `-12` meets it. -/
example : (call exEnv (fun _ => [-2]) exConstrain exEq).map (fun r => (r.1, constraintErrors exEnv exConstrain r.2)) =
    .ok ([-2], [20]) ∧
    (call exEnv (fun _ => [-12]) exConstrain exEq).map (fun r => (r.1, constraintErrors exEnv exConstrain r.2)) =
    .ok ([-12], [0]) := by decide +kernel

theorem specRows_ne_nil (e : Env K) (c : Constrain K) (eq : Eq K)
    (hc : c.xpoints ≠ [] ∨ c.isoflux ≠ [] ∨ c.psivals ≠ []) : (specRows e c eq).isEmpty = false := by
  rw [← Bool.not_eq_true, List.isEmpty_iff, specRows]
  rcases hc with h | h | h
  · obtain ⟨a, l, h⟩ := List.exists_cons_of_ne_nil h
    simp [h]
  · simp [h]
  · simp [h]

theorem bounds_ok (c : Constrain K) (eq eq1 : Eq K) (h : eq1 = eq ∨ eq1 = eq.sync)
    (hl : ∀ ls, c.currentLims = some ls → ls.length = eq.machine.coils.length) :
    ∃ bs, bounds c.currentLims eq.machine.controlCurrents.length eq1.machine = .ok bs := by
  have hlen : eq1.machine.coils.length = eq.machine.coils.length := by
    rcases h with rfl | rfl
    · rfl
    · simp [Eq.sync, Machine.sync]
  unfold bounds
  split
  · exact ⟨_, rfl⟩
  · rename_i ls hls
    rw [if_pos (by rw [hlen]; exact hl ls hls)]
    exact ⟨_, rfl⟩

/-- **C23.** For every `gamma ≠ 0`, every machine and every non-empty set of constraints (and, if given, as
many current limits as coils) the start value is found without `LinAlgError`; it has one entry per controlled coil
and it is the unique minimiser of the squared constraint error plus `gamma^2` times the squared size of the
change. -/
theorem C23_unique_minimiser (e : Env K) (c : Constrain K) (eq : Eq K) (hg : c.gamma ≠ 0)
    (hc : c.xpoints ≠ [] ∨ c.isoflux ≠ [] ∨ c.psivals ≠ [])
    (hl : ∀ ls, c.currentLims = some ls → ls.length = eq.machine.coils.length) :
    ∃ p eq1, problem e c eq = .ok (p, eq1) ∧ p.x0.length = eq.machine.controlCurrents.length ∧
      ∀ y, y.length = eq.machine.controlCurrents.length → y ≠ p.x0 →
        sumSq (constraintErrors e c (eq.adjusted p.x0)) + c.gamma ^ 2 * sumSq p.x0 <
          sumSq (constraintErrors e c (eq.adjusted y)) + c.gamma ^ 2 * sumSq y := by
  obtain ⟨h1, h2⟩ := rows_eq e c eq
  have hn : (rows e c eq).2.machine.controlCurrents = eq.machine.controlCurrents := by
    rcases h2 with h | h <;> rw [h]
    exact Machine.controlCurrents_sync _
  obtain ⟨x0, hx0, hlen, hmul⟩ := tikhonov_spec (specRows e c eq) eq.machine.controlCurrents.length c.gamma hg
  obtain ⟨bs, hbs⟩ := bounds_ok c eq _ h2 hl
  have hp : problem e c eq = .ok (
        { objective := objective (specRows e c eq) c.gamma
          x0
          bounds := bs
          ineq := match c.maxTotal with
            | none => []
            | some t => [totalSlack eq.machine.controlCurrents t] }, (rows e c eq).2) := by
    rw [problem]
    simp only [h1, hn, specRows_ne_nil e c eq hc, hx0, hbs]
    rfl
  refine ⟨_, _, hp, hlen, fun y hy hne => ?_⟩
  simp only at hne ⊢
  rw [← objective_eq, ← objective_eq, objective_eq_J _ _ _ (specRows_length e c eq) _ hlen,
    objective_eq_J _ _ _ (specRows_length e c eq) _ hy]
  set n := eq.machine.controlCurrents.length
  set v : Fin n → K := fun i => x0.getD i 0
  set w : Fin n → K := fun i => y.getD i 0
  have hd : w - v ≠ 0 := by
    intro h0
    apply hne
    apply List.ext_getElem (by rw [hy, hlen])
    intro i h3 h4
    have := congrFun h0 ⟨i, by omega⟩
    simp only [w, v, Pi.sub_apply, Pi.zero_apply, sub_eq_zero] at this
    simpa [List.getD_eq_getElem?_getD, h3, h4] using this
  have hex := J_expand (specRows e c eq) n c.gamma v (w - v)
  rw [add_sub_cancel] at hex
  have hz : ∑ i, (w - v) i * ((normalMatrix (specRows e c eq) n c.gamma).mulVec v i -
      normalRhs (specRows e c eq) n i) = 0 :=
    Finset.sum_eq_zero fun i _ => by rw [hmul i]; ring
  rw [hex, hz]
  have := sq_form_pos (specRows e c eq) n c.gamma hg (w - v) hd
  linarith

/-- **C23 (gamma must not vanish).** With `gamma = 0` and fewer constraints than coils the call fails with
`LinAlgError`. -/
theorem C23_gamma_zero : ∃ (c : Constrain ℚ) (eq : Eq ℚ), c.gamma = 0 ∧ c.psivals ≠ [] ∧
    ∀ opt, call exEnv opt c eq = .error .linalg := by
  refine ⟨{ gamma := 0, psivals := [(2, 0, 7)] }, ⟨⟨[("A", .coil (.point (PointCoil.make 1 0 3))),
    ("B", .coil (.point (PointCoil.make 2 1 5)))]⟩, fun _ _ _ => 0⟩, rfl, by simp, fun opt => ?_⟩
  have h2 : (match problem exEnv { gamma := 0, psivals := [(2, 0, 7)] }
      (⟨⟨[("A", .coil (.point (PointCoil.make 1 0 3))),
        ("B", .coil (.point (PointCoil.make 2 1 5)))]⟩, fun _ _ _ => 0⟩ : Eq ℚ) with
      | .error err => some err
      | .ok _ => none) = some .linalg := by decide +kernel
  rw [call]
  split at h2
  · rename_i err herr
    rw [herr]
    simpa using h2
  · cases h2

/-- A case meeting the hypotheses of C23: one controlled coil, limits for both coils. -/
example : exConstrain.gamma ≠ 0 ∧ exConstrain.psivals ≠ [] ∧ exEq.machine.coils.length = 2 ∧
    (problem exEnv exConstrain exEq).map (fun r => (r.1.x0.length, r.1.bounds)) =
      .ok (1, [some (-7, 1)]) := by
  refine ⟨by decide +kernel, by decide +kernel, by decide +kernel, by decide +kernel⟩

/-! ## Current limits -/

theorem adjust_in_limits : ∀ (coils : List (String × Entry K)) (ls : List (K × K)) (x : List K),
    ls.length = coils.length →
    List.Forall₂ (fun b v => ∀ l u, b = some (l, u) → l ≤ v ∧ v ≤ u)
      ((coils.zip ls).filterMap fun p => if p.1.2.control then
        some (some (p.2.1 - p.1.2.current, p.2.2 - p.1.2.current)) else none) x →
    List.Forall₂ (fun y lim => y.2.control = true → lim.1 ≤ y.2.current ∧ y.2.current ≤ lim.2)
      (Machine.zipControl (fun I d => I + d) coils x) ls := by
  intro coils
  induction coils with
  | nil =>
    intro ls x hl _
    have : ls = [] := by simpa using hl
    subst this
    simp [Machine.zipControl]
  | cons y coils ih =>
    intro ls x hl hx
    cases ls with
    | nil => simp at hl
    | cons lim ls =>
      obtain ⟨lab, y⟩ := y
      have hl' : ls.length = coils.length := by simpa using hl
      cases hy : y.control
      · simp only [List.zip_cons_cons, List.filterMap_cons, hy, Bool.false_eq_true, if_false] at hx
        rw [Machine.zipControl_false _ lab coils x hy]
        exact List.Forall₂.cons (by simp [hy]) (ih ls x hl' hx)
      · simp only [List.zip_cons_cons, List.filterMap_cons, hy, if_true] at hx
        cases hx with
        | cons h1 h2 =>
          rename_i v x
          rw [Machine.zipControl_true_cons _ lab coils v x hy]
          refine List.Forall₂.cons ?_ (ih ls x hl' h2)
          intro _
          obtain ⟨h3, h4⟩ := h1 _ _ rfl
          simp only [Entry.current_setCurrent]
          constructor <;> linarith

theorem forall₂_getElem? {α β : Type*} {P : α → β → Prop} : ∀ {l : List α} {l' : List β},
    List.Forall₂ P l l' → ∀ {i : ℕ} {a : α} {b : β}, l[i]? = some a → l'[i]? = some b → P a b
  | _, _, .nil, i, a, b, h, _ => by simp at h
  | _, _, .cons h hs, 0, a, b, h1, h2 => by
    simp only [List.getElem?_cons_zero, Option.some.injEq] at h1 h2
    subst h1; subst h2; exact h
  | _, _, .cons h hs, i + 1, a, b, h1, h2 =>
    forall₂_getElem? hs (by simpa using h1) (by simpa using h2)

theorem zipControl_getElem? (f : K → K → K) : ∀ (coils : List (String × Entry K)) (x : List K) (i : ℕ)
    (l : String) (y : Entry K), (Machine.zipControl f coils x)[i]? = some (l, y) → y.control = false →
    coils[i]? = some (l, y) := by
  intro coils
  induction coils with
  | nil => intro x i l y h; simp [Machine.zipControl] at h
  | cons z coils ih =>
    intro x i l y h hy
    obtain ⟨lab, z⟩ := z
    cases hz : z.control
    · rw [Machine.zipControl_false _ lab coils x hz] at h
      cases i with
      | zero => simpa using h
      | succ i =>
        simp only [List.getElem?_cons_succ] at h ⊢
        exact ih x i l y h hy
    · cases x with
      | nil => rwa [Machine.zipControl_true_nil _ lab coils hz] at h
      | cons v x =>
        rw [Machine.zipControl_true_cons _ lab coils v x hz] at h
        cases i with
        | zero =>
          simp only [List.getElem?_cons_zero, Option.some.injEq, Prod.mk.injEq] at h
          obtain ⟨rfl, rfl⟩ := h
          simp [hz] at hy
        | succ i =>
          simp only [List.getElem?_cons_succ] at h ⊢
          exact ih x i l y h hy

/-- **C24.** If the optimiser respects the bounds and inequality constraints it is given, then after the call every
controlled entry's current lies in the limits given at its own position in the list, the sum of absolute
controlled currents is at most the requested total, and every uncontrolled entry has the current it had. -/
theorem C24_limits_respected (e : Env K) (opt : Problem K → List K) (c : Constrain K) (eq eq' : Eq K)
    (x : List K) (h : call e opt c eq = .ok (x, eq'))
    (hopt : ∀ p eq1, problem e c eq = .ok (p, eq1) → p.Honours (opt p)) :
    (∀ ls, c.currentLims = some ls → ls.length = eq.machine.coils.length ∧
      ∀ (i : ℕ) l y lim, eq'.machine.coils[i]? = some (l, y) → ls[i]? = some lim → y.control = true →
        lim.1 ≤ y.current ∧ y.current ≤ lim.2) ∧
    (∀ t, c.maxTotal = some t → (eq'.machine.controlCurrents.map fun I => |I|).sum ≤ t) ∧
    (∀ (i : ℕ) l y, eq'.machine.coils[i]? = some (l, y) → y.control = false →
      ∃ y0 : Entry K, eq.machine.coils[i]? = some (l, y0) ∧ y0.control = false ∧ y0.current = y.current) := by
  obtain ⟨p, eq1, hp, rfl, hx⟩ := call_ok h
  obtain ⟨h1, h2, h3, h4, h5⟩ := problem_ok hp
  obtain ⟨hb, hi⟩ := hopt p eq1 hp
  have hblen : p.bounds.length = eq.machine.controlCurrents.length := by
    unfold bounds at h4
    have hcc : eq1.machine.controlCurrents = eq.machine.controlCurrents := by
      rcases h1 with h | h <;> rw [h]
      exact Machine.controlCurrents_sync _
    split at h4
    · simp only [Except.ok.injEq] at h4; rw [← h4]; simp
    · rename_i ls hls
      split at h4
      · rename_i hl
        simp only [Except.ok.injEq] at h4
        rw [← h4, ← hcc, Machine.controlCurrents]
        have : ∀ (cs : List (String × Entry K)) (ls : List (K × K)), ls.length = cs.length →
            ((cs.zip ls).filterMap fun p => if p.1.2.control then
              some (some (p.2.1 - p.1.2.current, p.2.2 - p.1.2.current)) else none).length =
            ((cs.filter fun x => x.2.control).map fun x => x.2.current).length := by
          intro cs
          induction cs with
          | nil => intro ls _; simp
          | cons y cs ih =>
            intro ls hl
            cases ls with
            | nil => simp at hl
            | cons lim ls =>
              have := ih ls (by simpa using hl)
              cases hy : y.2.control <;>
                simp only [List.zip_cons_cons, List.filterMap_cons, List.filter_cons, hy, if_true, if_false,
                  List.map_cons, List.length_cons, this, Bool.false_eq_true]
        exact this _ _ hl
      · cases h4
  have hxlen : (opt p).length = eq.machine.controlCurrents.length := by rw [← hb.length_eq, hblen]
  have hxo : x = opt p := by
    rcases hx with hx | ⟨hx, h0⟩
    · exact hx
    · have : p.x0.length = eq.machine.controlCurrents.length := by
        rw [tikhonov] at h3
        split at h3
        · cases h3
        · simp only [Except.ok.injEq] at h3
          rw [← h3]; simp
      rw [h0] at this
      rw [hx, h0]
      exact (List.length_eq_zero_iff.mp (by rw [hxlen, ← this]; rfl)).symm
  subst hxo
  refine ⟨fun ls hls => ?_, fun t ht => ?_, fun i l y hy hyc => ?_⟩
  · simp only [bounds, hls] at h4
    split at h4
    · rename_i hl
      simp only [Except.ok.injEq] at h4
      rw [← h4] at hb
      have := adjust_in_limits eq1.machine.coils ls (opt p) hl hb
      refine ⟨?_, fun i l y lim hi hlim hyc => forall₂_getElem? this hi hlim hyc⟩
      rw [hl]
      rcases h1 with rfl | rfl
      · rfl
      · simp [Eq.sync, Machine.sync]
    · cases h4
  · have h6 := hi _ (h5 t ht)
    have hcc : eq1.machine.controlCurrents = eq.machine.controlCurrents := by
      rcases h1 with h | h <;> rw [h]
      exact Machine.controlCurrents_sync _
    have h7 := (C19_control_interface e eq1.machine (opt p) (by rw [hcc, hxlen])).2.1
    rw [Eq.adjusted]
    simp only [h7, hcc]
    rw [totalSlack] at h6
    have h8 : List.map (fun I => |I|) (List.zipWith (· + ·) eq.machine.controlCurrents (opt p)) =
        List.zipWith (fun d i => |d + i|) (opt p) eq.machine.controlCurrents := by
      rw [List.map_zipWith, List.zipWith_comm]
      congr 1
      funext a b
      rw [add_comm]
    rw [h8]
    linarith
  · have := zipControl_getElem? _ _ _ i l y hy hyc
    rcases h1 with rfl | rfl
    · exact ⟨y, this, hyc, rfl⟩
    · simp only [Eq.sync, Machine.sync, List.getElem?_map, Option.map_eq_some_iff, Prod.mk.injEq] at this
      obtain ⟨⟨l', y0⟩, h8, rfl, rfl⟩ := this
      exact ⟨y0, h8, by simpa using hyc, by simp⟩

/-- **C24 (wrong number of limits).** Limits must be given for every coil of the machine, controlled or not;
otherwise the call raises `AssertionError`. -/
theorem C24_wrong_length (e : Env K) (opt : Problem K → List K) (c : Constrain K) (eq : Eq K)
    (hg : c.gamma ≠ 0) (hc : c.xpoints ≠ [] ∨ c.isoflux ≠ [] ∨ c.psivals ≠ []) (ls : List (K × K))
    (hl : c.currentLims = some ls) (hlen : ls.length ≠ eq.machine.coils.length) :
    call e opt c eq = .error .assertion := by
  obtain ⟨h1, h2⟩ := rows_eq e c eq
  have hn : (rows e c eq).2.machine.controlCurrents = eq.machine.controlCurrents := by
    rcases h2 with h | h <;> rw [h]
    exact Machine.controlCurrents_sync _
  obtain ⟨x0, hx0, _⟩ := tikhonov_spec (specRows e c eq) eq.machine.controlCurrents.length c.gamma hg
  have hb : bounds c.currentLims eq.machine.controlCurrents.length (rows e c eq).2.machine =
      .error .assertion := by
    simp only [bounds, hl]
    rw [if_neg]
    rcases h2 with h | h <;> rw [h]
    · exact hlen
    · simpa [Eq.sync, Machine.sync] using hlen
  rw [call, problem]
  simp only [h1, hn, specRows_ne_nil e c eq hc, hx0, hb, if_false, Bool.false_eq_true]

/-- A case meeting the hypotheses of C24: the optimiser returns a change within the bounds. -/
example : (call exEnv (fun _ => [-5]) exConstrain exEq).map
      (fun r => r.2.machine.coils.map fun x => x.2.current) = .ok [-2, 5] ∧
    (problem exEnv exConstrain exEq).map (fun r => r.1.ineq.map fun f => f [-5]) = .ok [8] := by
  decide +kernel

example : ∀ p eq1, problem exEnv exConstrain exEq = .ok (p, eq1) → p.Honours [-5] := by
  intro p eq1 h
  have h1 : (problem exEnv exConstrain exEq).map (fun r => r.1.ineq.map fun f => f [-5]) = .ok [8] := by
    decide +kernel
  have h2 : (problem exEnv exConstrain exEq).map (fun r => r.1.bounds) = .ok [some (-7, 1)] := by
    decide +kernel
  rw [h] at h1 h2
  simp only [Except.map, Except.ok.injEq] at h1 h2
  refine ⟨?_, fun f hf => ?_⟩
  · rw [h2]
    refine List.Forall₂.cons ?_ List.Forall₂.nil
    intro l u hlu
    simp only [Option.some.injEq, Prod.mk.injEq] at hlu
    obtain ⟨rfl, rfl⟩ := hlu
    norm_num
  · have : f [-5] ∈ [(8 : ℚ)] := by rw [← h1]; exact List.mem_map_of_mem hf
    simp only [List.mem_singleton] at this
    rw [this]; norm_num

end FreeGS.Control
