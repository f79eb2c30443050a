import Verif.Props.StableControl

/-!
# C127: repeated coil control meets the request ever better
-/

set_option linter.unusedSectionVars false

namespace FreeGS.Control

variable {K : Type*} [Field K] [LinearOrder K] [IsStrictOrderedRing K]

/-- `constrain` called `n` times in a row, without a change of the plasma in between. -/
def callTimes (e : Env K) (opt : Problem K → List K) (c : Constrain K) : ℕ → Eq K → Except Err (Eq K)
  | 0, eq => .ok eq
  | n + 1, eq =>
    match call e opt c eq with
    | .error err => .error err
    | .ok (_, eq') => callTimes e opt c n eq'

/-- The currents are within the limits of the request. -/
def WithinLimits (c : Constrain K) (eq : Eq K) : Prop :=
  (∀ ls, c.currentLims = some ls → ∀ q ∈ eq.machine.coils.zip ls, q.1.2.control = true → q.2.1 ≤ q.1.2.current ∧ q.1.2.current ≤ q.2.2) ∧
  ∀ t, c.maxTotal = some t → (eq.machine.controlCurrents.map fun I => |I|).sum ≤ t

/-! ## Two adjustments -/

theorem Entry.setCurrent_setCurrent (v w : K) (x : Entry K) : (x.setCurrent v).setCurrent w = x.setCurrent w := by
  cases x with
  | coil c => simp [Entry.setCurrent]
  | circuit c => simp [Entry.setCurrent, Circuit.setCurrent, Function.comp_def]
  | solenoid s => rfl

theorem zipControl_add : ∀ (cs : List (String × Entry K)) (x y : List K), x.length = y.length →
    Machine.zipControl (fun I v => I + v) (Machine.zipControl (fun I v => I + v) cs x) y =
      Machine.zipControl (fun I v => I + v) cs (List.zipWith (· + ·) x y) := by
  intro cs
  induction cs with
  | nil => intro x y _; simp [Machine.zipControl]
  | cons q cs ih =>
    intro x y h
    obtain ⟨l, z⟩ := q
    cases hz : z.control with
    | false => rw [Machine.zipControl_false _ _ _ _ hz, Machine.zipControl_false _ _ _ _ hz, Machine.zipControl_false _ _ _ _ hz, ih x y h]
    | true =>
      match x, y, h with
      | [], [], _ => simp [zipControl_nil_right]
      | a :: x, b :: y, h =>
        rw [Machine.zipControl_true_cons _ _ _ _ _ hz, Machine.zipControl_true_cons _ _ _ _ _ (by simpa using hz), List.zipWith_cons_cons,
          Machine.zipControl_true_cons _ _ _ _ _ hz, ih x y (by simpa using h), Entry.setCurrent_setCurrent]
        simp [add_assoc]

theorem adjusted_adjusted (eq : Eq K) {x y : List K} (h : x.length = y.length) :
    (eq.adjusted x).adjusted y = eq.adjusted (List.zipWith (· + ·) x y) := by
  simp only [Eq.adjusted, Machine.controlAdjust, zipControl_add _ x y h]

theorem errors_sync_adjusted (e : Env K) (c : Constrain K) (eq : Eq K) (x : List K) :
    constraintErrors e c (eq.sync.adjusted x) = constraintErrors e c (eq.adjusted x) := by
  simp only [constraintErrors, Eq.read_adjusted, Eq.read_sync, Eq.response_sync]

theorem adjusted_currents (e : Env K) (eq : Eq K) {x : List K} (h : x.length = eq.machine.controlCurrents.length) :
    (eq.adjusted x).machine.controlCurrents = List.zipWith (· + ·) eq.machine.controlCurrents x :=
  (C19_control_interface e eq.machine x h).2.1

/-! ## The limits -/

theorem bounds_within (Q : List (Item K)) : ∀ y : List K, y.length = controlled Q →
    (List.Forall₂ (fun b v => ∀ l u, b = some (l, u) → l ≤ v ∧ v ≤ u) (boundsOf Q) y ↔
      ∀ q ∈ (Machine.zipControl (fun I v => I + v) (Q.map Prod.fst) y).zip (Q.map Prod.snd), q.1.2.control = true → ∀ lim, q.2 = some lim →
        lim.1 ≤ q.1.2.current ∧ q.1.2.current ≤ lim.2) := by
  induction Q with
  | nil =>
    intro y hy
    obtain rfl : y = [] := by simpa [controlled] using hy
    simp [boundsOf, Machine.zipControl]
  | cons q Q ih =>
    intro y hy
    obtain ⟨⟨l, z⟩, b⟩ := q
    simp only [List.map_cons]
    cases hq : z.control with
    | false =>
      rw [Machine.zipControl_false _ _ _ _ hq]
      have := ih y (by simpa [controlled, hq] using hy)
      simp only [boundsOf, List.filter_cons, hq, List.zip_cons_cons, List.mem_cons, forall_eq_or_imp] at this ⊢
      simpa using this
    | true =>
      match y, hy with
      | [], hy => simp [controlled, hq] at hy
      | v :: y, hy =>
        rw [Machine.zipControl_true_cons _ _ _ _ _ hq]
        have := ih y (by simpa [controlled, hq] using hy)
        simp only [boundsOf, List.filter_cons, hq, List.zip_cons_cons, List.mem_cons, forall_eq_or_imp, if_true, List.map_cons, List.forall₂_cons] at this ⊢
        rw [this]
        refine and_congr ?_ Iff.rfl
        cases b with
        | none => simp
        | some lim =>
          simp only [Option.map_some, Option.some.injEq, Prod.mk.injEq, Entry.control_setCurrent, hq, Entry.current_setCurrent, forall_const, forall_eq']
          constructor
          · intro h
            have := h _ _ ⟨rfl, rfl⟩
            constructor <;> linarith
          · rintro h l u ⟨rfl, rfl⟩
            constructor <;> linarith

/-- The optimiser's limits on the changes are limits on the currents afterwards. -/
theorem honours_within {e : Env K} {c : Constrain K} {eq eq1 : Eq K} {p : Problem K} (h : problem e c eq = .ok (p, eq1)) {y : List K}
    (hy : y.length = eq.machine.controlCurrents.length) : p.Honours y ↔ WithinLimits c (eq.adjusted y) := by
  obtain ⟨-, h1, -, -, h2, -, h3⟩ := problem_items h
  rw [Problem.Honours, WithinLimits, h2, h3, bounds_within _ y (by rw [hy, items_controlled h1]), items_coils h1]
  refine and_congr ?_ ?_
  · have hs : (items c eq).map Prod.snd = limitTags c.currentLims eq.machine.coils.length := List.map_snd_zip (by rw [limitTags_length h1])
    rw [hs]
    cases hc : c.currentLims with
    | none =>
      simp only [limitTags, reduceCtorEq, false_imp_iff, implies_true, iff_true]
      intro q hq _ lim hl
      have := List.eq_of_mem_replicate (List.of_mem_zip hq).2
      rw [hl] at this
      cases this
    | some ls =>
      simp only [limitTags, Option.some.injEq, forall_eq', List.zip_map_right, List.mem_map, Eq.adjusted, Machine.controlAdjust]
      constructor
      · intro h q hq hc
        exact h (q.1, some q.2) ⟨q, hq, rfl⟩ hc q.2 rfl
      · rintro h _ ⟨q, hq, rfl⟩ hc lim hl
        obtain rfl := Option.some.inj hl
        exact h q hq hc
  · rw [adjusted_currents e eq hy]
    cases c.maxTotal with
    | none => simp
    | some t =>
      simp only [List.mem_singleton, forall_eq, totalSlack, Option.some.injEq, forall_eq', List.map_zipWith]
      rw [List.zipWith_comm]
      have : (fun b a : K => |a + b|) = fun a b => |a + b| := by funext a b; rw [add_comm]
      rw [this]
      constructor <;> intro h <;> linarith

theorem Entry.sync_setCurrent (v : K) (x : Entry K) : x.sync.setCurrent v = (x.setCurrent v).sync := by
  rw [Entry.sync_of_synced (Entry.synced_setCurrent v x)]
  cases x with
  | coil c => rfl
  | circuit c => simp [Entry.sync, Entry.setCurrent, Circuit.sync, Circuit.setCurrent, Function.comp_def]
  | solenoid s => rfl

theorem zipControl_sync : ∀ (cs : List (String × Entry K)) (y : List K),
    Machine.zipControl (fun I v => I + v) (cs.map fun x => (x.1, x.2.sync)) y = (Machine.zipControl (fun I v => I + v) cs y).map fun x => (x.1, x.2.sync) := by
  intro cs
  induction cs with
  | nil => intro y; simp [Machine.zipControl]
  | cons q cs ih =>
    intro y
    obtain ⟨l, z⟩ := q
    rw [List.map_cons]
    cases hz : z.control with
    | false => rw [Machine.zipControl_false _ _ _ _ (by simpa using hz), Machine.zipControl_false _ _ _ _ hz, ih, List.map_cons]
    | true =>
      cases y with
      | nil => rw [zipControl_nil_right, zipControl_nil_right, List.map_cons]
      | cons v y =>
        rw [Machine.zipControl_true_cons _ _ _ _ _ (by simpa using hz), Machine.zipControl_true_cons _ _ _ _ _ hz, ih, List.map_cons,
          Entry.sync_setCurrent, Entry.current_sync]

theorem within_sync (c : Constrain K) (eq : Eq K) : WithinLimits c eq.sync ↔ WithinLimits c eq := by
  have h : eq.sync.machine.controlCurrents = eq.machine.controlCurrents := Machine.controlCurrents_sync _
  rw [WithinLimits, WithinLimits, h]
  refine and_congr (forall_congr' fun ls => imp_congr Iff.rfl ?_) Iff.rfl
  simp only [Eq.sync, Machine.sync, List.zip_map_left, List.mem_map, forall_exists_index, and_imp, forall_apply_eq_imp_iff₂, Prod.map_fst, Prod.map_snd, id_eq,
    Entry.control_sync, Entry.current_sync]

theorem within_sync_adjusted (c : Constrain K) (eq : Eq K) (y : List K) : WithinLimits c (eq.sync.adjusted y) ↔ WithinLimits c (eq.adjusted y) := by
  have h : eq.sync.adjusted y = (eq.adjusted y).sync := by
    simp only [Eq.adjusted, Eq.sync, Machine.controlAdjust, Machine.sync, zipControl_sync]
  rw [h, within_sync]

theorem sync_zero : ∀ cs : List (String × Entry K),
    (Machine.zipControl (fun I v => I + v) cs ((cs.filter fun x => x.2.control).map fun _ => 0)).map (fun x => (x.1, x.2.sync)) =
      cs.map fun x => (x.1, x.2.sync) := by
  intro cs
  induction cs with
  | nil => simp [Machine.zipControl]
  | cons q cs ih =>
    obtain ⟨l, z⟩ := q
    cases hz : z.control with
    | false => rw [List.filter_cons_of_neg (by simpa using hz), Machine.zipControl_false _ _ _ _ hz, List.map_cons, ih, List.map_cons]
    | true =>
      rw [List.filter_cons_of_pos (by simpa using hz), List.map_cons, Machine.zipControl_true_cons _ _ _ _ _ hz, List.map_cons, ih, List.map_cons, add_zero]
      congr 2
      cases z with
      | coil c => simp [Entry.sync, Entry.setCurrent, Entry.current]
      | circuit c => simp [Entry.sync, Entry.setCurrent, Entry.current, Circuit.sync, Circuit.setCurrent, Function.comp_def]
      | solenoid s => rfl

/-- Changes of zero leave the equilibrium as it is once a field has been read. -/
theorem adjusted_zero (eq : Eq K) : (eq.adjusted (eq.machine.controlCurrents.map fun _ => 0)).sync = eq.sync := by
  have := sync_zero eq.machine.coils
  simp only [Eq.adjusted, Eq.sync, Machine.controlAdjust, Machine.sync, Machine.controlCurrents, List.map_map, Function.comp_def] at this ⊢
  rw [this]

theorem errors_sync (e : Env K) (c : Constrain K) (eq : Eq K) : constraintErrors e c eq.sync = constraintErrors e c eq := by
  simp only [constraintErrors, Eq.read_sync]

/-! ## One call, and several -/

/-- The change that is left when the change `x` has been made out of `y`. -/
def rest (x y : List K) : List K := List.zipWith (· - ·) y x

theorem add_rest {x y : List K} (h : y.length = x.length) : List.zipWith (· + ·) x (rest x y) = y := by
  apply List.ext_getElem
  · simp [rest, h]
  · intro i _ _
    simp [rest]

theorem sumSq_rest (x y : List K) : sumSq (rest x y) = sumSq (List.zipWith (· - ·) x y) := by
  rw [rest, sumSq, sumSq, List.map_zipWith, List.map_zipWith, List.zipWith_comm]
  congr 2
  funext a b
  ring

theorem call_step {e : Env K} {opt : Problem K → List K} {c : Constrain K} {eq eq' : Eq K} {x : List K}
    (ho : ∀ p eq1, problem e c eq = .ok (p, eq1) → p.Minimises (opt p)) (h : call e opt c eq = .ok (x, eq')) :
    x.length = eq.machine.controlCurrents.length ∧ eq'.machine.controlCurrents.length = eq.machine.controlCurrents.length ∧ WithinLimits c eq' ∧
    ∀ y, y.length = eq.machine.controlCurrents.length → WithinLimits c (eq.adjusted y) →
      (rest x y).length = eq'.machine.controlCurrents.length ∧ WithinLimits c (eq'.adjusted (rest x y)) ∧
      constraintErrors e c (eq'.adjusted (rest x y)) = constraintErrors e c (eq.adjusted y) ∧
      sumSq (constraintErrors e c eq') + c.gamma ^ 2 * sumSq x + c.gamma ^ 2 * sumSq (rest x y) ≤
        sumSq (constraintErrors e c (eq.adjusted y)) + c.gamma ^ 2 * sumSq y := by
  obtain ⟨p, eq1, hp, rfl, hx⟩ := call_ok h
  obtain ⟨-, h1, rfl, h2, -, h3, -⟩ := problem_items hp
  have hmin := ho p _ hp
  have hxo : x = opt p := by
    rcases hx with hx | ⟨hx, hx0⟩
    · exact hx
    · have := hmin.1
      rw [hx0, List.length_nil, List.length_eq_zero_iff] at this
      rw [hx, hx0, this]
  rw [← hxo] at hmin
  have hlen : x.length = eq.machine.controlCurrents.length := by rw [hmin.1, h2, items_controlled h1]
  have hs : eq.sync.machine.controlCurrents = eq.machine.controlCurrents := Machine.controlCurrents_sync _
  have hl' : (eq.sync.adjusted x).machine.controlCurrents.length = eq.machine.controlCurrents.length := by
    rw [adjusted_currents e _ (by rw [hs, hlen]), hs]
    simp [hlen]
  refine ⟨hlen, hl', (within_sync_adjusted c eq x).mpr ((honours_within hp hlen).mp hmin.2.1), fun y hy hw => ?_⟩
  have hyx : y.length = x.length := by rw [hy, hlen]
  have hr : x.length = (rest x y).length := by simp [rest, hyx]
  refine ⟨by rw [← hr, hl', hlen], ?_, ?_, ?_⟩
  · rw [adjusted_adjusted _ hr, add_rest hyx, within_sync_adjusted]
    exact hw
  · rw [adjusted_adjusted _ hr, add_rest hyx, errors_sync_adjusted]
  · have := minimises_gap hp hmin hyx ((honours_within hp hy).mpr hw)
    rw [h3, h3] at this
    rw [errors_sync_adjusted, sumSq_rest]
    linarith [gap_ge (specRows e c eq) c.gamma x y]

/-- **C127 (monotone).** Calling `constrain` once more never makes the errors larger, as long as the currents were within the limits (as they are
after every call). -/
theorem C127_monotone {e : Env K} {opt : Problem K → List K} {c : Constrain K} {eq eq' : Eq K} {x : List K}
    (ho : ∀ p eq1, problem e c eq = .ok (p, eq1) → p.Minimises (opt p)) (h : call e opt c eq = .ok (x, eq')) :
    WithinLimits c eq' ∧
    (WithinLimits c eq → sumSq (constraintErrors e c eq') + 2 * c.gamma ^ 2 * sumSq x ≤ sumSq (constraintErrors e c eq)) := by
  obtain ⟨hlen, -, hw, hstep⟩ := call_step ho h
  refine ⟨hw, fun hw0 => ?_⟩
  obtain ⟨-, -, -, this⟩ := hstep (eq.machine.controlCurrents.map fun _ => 0) (by simp)
    (by rwa [← within_sync, adjusted_zero, within_sync])
  rw [← errors_sync e c (eq.adjusted _), adjusted_zero, errors_sync] at this
  have z : sumSq (eq.machine.controlCurrents.map fun _ => (0 : K)) = 0 := by
    rw [sumSq_eq_zero]
    simp
  have r : sumSq (rest x (eq.machine.controlCurrents.map fun _ => (0 : K))) = sumSq x := by
    have : rest x (eq.machine.controlCurrents.map fun _ => (0 : K)) = x.map fun v => -v := by
      apply List.ext_getElem
      · simp [rest, hlen]
      · intro i _ _
        simp [rest]
    rw [this, sumSq, sumSq, List.map_map]
    congr 1
    exact List.map_congr_left fun v _ => by simp
  rw [z, r] at this
  linarith

theorem callTimes_le {e : Env K} {opt : Problem K → List K} {c : Constrain K} (ho : ∀ eq p eq1, problem e c eq = .ok (p, eq1) → p.Minimises (opt p)) :
    ∀ (n : ℕ) (eq eqn : Eq K), WithinLimits c eq → callTimes e opt c n eq = .ok eqn → sumSq (constraintErrors e c eqn) ≤ sumSq (constraintErrors e c eq) := by
  intro n
  induction n with
  | zero =>
    intro eq eqn _ h
    rw [Except.ok.inj h]
  | succ n ih =>
    intro eq eqn hw h
    rw [callTimes] at h
    split at h
    · cases h
    rename_i x eq' hc
    obtain ⟨h1, h2⟩ := C127_monotone (ho eq) hc
    have := mul_nonneg (mul_nonneg (by norm_num : (0 : K) ≤ 2) (sq_nonneg c.gamma)) (sumSq_nonneg x)
    linarith [ih eq' eqn h1 h, h2 hw]

/-- **C127.** `constrain` called `n` times in a row, with an optimiser that solves its problems, for a plasma that stays as it is: for any change `y` of
the controlled currents that keeps within the limits, the squared errors that are left exceed those after `y` by at most `gamma^2 * |y|^2 / n`. -/
theorem C127_best {e : Env K} {opt : Problem K → List K} {c : Constrain K} (ho : ∀ eq p eq1, problem e c eq = .ok (p, eq1) → p.Minimises (opt p)) :
    ∀ (n : ℕ) (eq eqn : Eq K) (y : List K), callTimes e opt c n eq = .ok eqn → y.length = eq.machine.controlCurrents.length →
      WithinLimits c (eq.adjusted y) →
      n * sumSq (constraintErrors e c eqn) ≤ n * sumSq (constraintErrors e c (eq.adjusted y)) + c.gamma ^ 2 * sumSq y := by
  intro n
  induction n with
  | zero =>
    intro eq eqn y _ _ _
    have := mul_nonneg (sq_nonneg c.gamma) (sumSq_nonneg y)
    simpa using this
  | succ n ih =>
    intro eq eqn y h hy hw
    rw [callTimes] at h
    split at h
    · cases h
    rename_i x eq' hc
    obtain ⟨-, -, hw', hstep⟩ := call_step (ho eq) hc
    obtain ⟨r1, r2, r3, r4⟩ := hstep y hy hw
    have h1 := ih eq' eqn _ h r1 r2
    have h2 := callTimes_le ho n eq' eqn hw' h
    have h3 := mul_nonneg (sq_nonneg c.gamma) (sumSq_nonneg x)
    rw [r3] at h1
    push_cast
    linarith

/-- **C127 (met).** If some change of the controlled currents within the limits meets the whole request, the squared errors after `n` calls are at most
`gamma^2 * |y|^2 / n`: they go to zero. -/
theorem C127_met {e : Env K} {opt : Problem K → List K} {c : Constrain K} (ho : ∀ eq p eq1, problem e c eq = .ok (p, eq1) → p.Minimises (opt p))
    {n : ℕ} {eq eqn : Eq K} {y : List K} (h : callTimes e opt c n eq = .ok eqn) (hy : y.length = eq.machine.controlCurrents.length)
    (hw : WithinLimits c (eq.adjusted y)) (hm : Met e c (eq.adjusted y)) : n * sumSq (constraintErrors e c eqn) ≤ c.gamma ^ 2 * sumSq y := by
  have := C127_best ho n eq eqn y h hy hw
  rw [(sumSq_eq_zero _).mpr ((met_iff e c _).mp hm)] at this
  simpa using this

/-- **C127 (at rest).** If a call changes no current, then no admissible currents have smaller errors, whatever `gamma` is: in the end, as when the
Picard iteration has converged, the regularisation costs nothing. In particular the request is met if it can be. -/
theorem C127_at_rest {e : Env K} {opt : Problem K → List K} {c : Constrain K} {eq eq' : Eq K} {x : List K}
    (ho : ∀ p eq1, problem e c eq = .ok (p, eq1) → p.Minimises (opt p)) (h : call e opt c eq = .ok (x, eq')) (hx : ∀ v ∈ x, v = 0)
    {y : List K} (hy : y.length = eq.machine.controlCurrents.length) (hw : WithinLimits c (eq.adjusted y)) :
    sumSq (constraintErrors e c eq) ≤ sumSq (constraintErrors e c (eq.adjusted y)) ∧ (Met e c (eq.adjusted y) → Met e c eq) := by
  obtain ⟨hlen, -, -, hstep⟩ := call_step ho h
  obtain ⟨-, -, -, main⟩ := hstep y hy hw
  have hx0 : x = eq.machine.controlCurrents.map fun _ => 0 := by
    rw [List.map_const', List.eq_replicate_iff]
    exact ⟨hlen, hx⟩
  have hr : rest x y = y := by
    apply List.ext_getElem
    · simp [rest, hlen, hy]
    · intro i h1 h2
      have := hx _ (List.getElem_mem (show i < x.length by rw [hlen, ← hy]; exact h2))
      simp [rest, this]
  have he : constraintErrors e c eq' = constraintErrors e c eq := by
    obtain ⟨p, eq1, hp, rfl, -⟩ := call_ok h
    obtain ⟨-, -, rfl, -⟩ := problem_items hp
    rw [errors_sync_adjusted, hx0, ← errors_sync e c (eq.adjusted _), adjusted_zero, errors_sync]
  rw [hr, he] at main
  have hle : sumSq (constraintErrors e c eq) ≤ sumSq (constraintErrors e c (eq.adjusted y)) := by
    have := mul_nonneg (sq_nonneg c.gamma) (sumSq_nonneg x)
    linarith
  refine ⟨hle, fun hm => ?_⟩
  rw [(sumSq_eq_zero _).mpr ((met_iff e c _).mp hm)] at hle
  exact (met_iff e c eq).mpr ((sumSq_eq_zero _).mp (le_antisymm hle (sumSq_nonneg _)))

theorem callTimes_succeeds {c : Constrain ℚ} (hg : c.gamma ≠ 0) (hc : c.psivals ≠ []) (hl : c.currentLims = none) :
    ∀ (n : ℕ) (eq : Eq ℚ), ∃ r, callTimes exEnv (fun p => p.x0) c n eq = .ok r := by
  intro n
  induction n with
  | zero => exact fun eq => ⟨eq, rfl⟩
  | succ n ih =>
    intro eq
    obtain ⟨⟨x, eq'⟩, h⟩ := call_succeeds (eq := eq) hg hc hl
    obtain ⟨r, hr⟩ := ih eq'
    exact ⟨r, by rw [callTimes, h]; exact hr⟩

/-- A thousand calls for three coils (two of them controlled), asking for a flux of 82 where it is 72; the start values solve every problem, and
one ampere more in the last coil meets the request. -/
example : let c : Constrain ℚ := { gamma := 1, psivals := [(2, 0, 82)] }
    (∀ eq p eq1, problem exEnv c eq = .ok (p, eq1) → p.Minimises p.x0) ∧ (∃ r, callTimes exEnv (fun p => p.x0) c 1000 threeCoils = .ok r) ∧
    ([0, 1] : List ℚ).length = threeCoils.machine.controlCurrents.length ∧ WithinLimits c (threeCoils.adjusted [0, 1]) ∧
    Met exEnv c (threeCoils.adjusted [0, 1]) ∧ ¬Met exEnv c threeCoils :=
  ⟨fun _ _ _ h => C99_control_start (by norm_num) rfl rfl h, callTimes_succeeds (by norm_num) (by simp) rfl _ _, by decide +kernel,
    ⟨fun _ h => (by cases h), fun _ h => (by cases h)⟩, by rw [met_iff]; decide +kernel, by rw [met_iff]; decide +kernel⟩

/-- A request that is met already: the start values, which solve the problem, are zero. -/
example : let c : Constrain ℚ := { gamma := 1, psivals := [(2, 0, 72)] }
    ∃ eq', call exEnv (fun p => p.x0) c threeCoils = .ok ([0, 0], eq') ∧ ∀ v ∈ ([0, 0] : List ℚ), v = 0 := by
  intro c
  obtain ⟨⟨x, eq'⟩, h⟩ := call_succeeds (c := c) (eq := threeCoils) (by norm_num [c]) (by simp [c]) rfl
  have ho : ∀ p eq1, problem exEnv c threeCoils = .ok (p, eq1) → p.Minimises p.x0 := fun _ _ h => C99_control_start (by norm_num [c]) rfl rfl h
  have h1 := (C127_monotone ho h).2 ⟨fun _ h => (by cases h), fun _ h => (by cases h)⟩
  have h0 : sumSq (constraintErrors exEnv c threeCoils) = 0 := by decide +kernel
  have h2 : sumSq x = 0 := by
    rw [h0] at h1
    have g1 := sumSq_nonneg (constraintErrors exEnv c eq')
    have g2 := sumSq_nonneg x
    simp only [c] at h1 g1
    linarith
  obtain ⟨h3, -⟩ := call_step ho h
  have h4 : x = [0, 0] := by
    have : x = List.replicate 2 0 := List.eq_replicate_iff.mpr ⟨h3.trans (by decide +kernel), (sumSq_eq_zero x).mp h2⟩
    exact this
  exact ⟨eq', by rw [h, h4], by simp⟩

/-- Limits that the currents of the three coils keep, and limits that they do not. -/
example : WithinLimits (K := ℚ) { gamma := 1, psivals := [(2, 0, 82)], currentLims := some [(-4, 4), (0, 1), (2, 9)], maxTotal := some 10 } threeCoils ∧
    ¬WithinLimits (K := ℚ) { gamma := 1, psivals := [(2, 0, 82)], currentLims := some [(-4, 2), (0, 1), (2, 9)], maxTotal := some 10 } threeCoils ∧
    ¬WithinLimits (K := ℚ) { gamma := 1, psivals := [(2, 0, 82)], currentLims := some [(-4, 4), (0, 1), (2, 9)], maxTotal := some 6 } threeCoils := by
  refine ⟨⟨?_, ?_⟩, fun h => ?_, fun h => ?_⟩
  · intro ls h
    obtain rfl := Option.some.inj h
    decide +kernel
  · intro t h
    obtain rfl := Option.some.inj h
    decide +kernel
  · exact absurd (h.1 _ rfl) (by decide +kernel)
  · exact absurd (h.2 _ rfl) (by decide +kernel)

end FreeGS.Control
