import Verif.Props.ScaledControl

/-!
# C114: coil control does not depend on the order of requests and coils
-/

set_option linter.unusedSectionVars false

namespace FreeGS.Control

variable {K : Type*} [Field K] [LinearOrder K]

/-! ## Specification -/

/-- The same pair of points, possibly written the other way round. -/
def SamePair (p q : K × K × K × K) : Prop := q = p ∨ q = (p.2.2.1, p.2.2.2, p.1, p.2.1)

/-- The same requests in another order, with some isoflux pairs written the other way round. -/
structure SameRequests (c c' : Constrain K) : Prop where
  gamma : c'.gamma = c.gamma
  lims : c'.currentLims = c.currentLims
  total : c'.maxTotal = c.maxTotal
  xpoints : c.xpoints.Perm c'.xpoints
  isoflux : ∃ l : List (K × K × K × K), c.isoflux.Perm l ∧ List.Forall₂ SamePair l c'.isoflux
  psivals : c.psivals.Perm c'.psivals

/-! ## The state after the fields have been read -/

theorem xpointRows_snd (e : Env K) (l : List (K × K)) : ∀ eq : Eq K, (xpointRows e l eq).2 = if l = [] then eq else eq.sync := by
  induction l with
  | nil => intro eq; simp [xpointRows]
  | cons p l ih =>
    intro eq
    simp only [xpointRows, ih, Eq.field_snd, Eq.sync_sync]
    split <;> rfl

theorem isofluxRows_snd (e : Env K) (l : List (K × K × K × K)) : ∀ eq : Eq K, (isofluxRows e l eq).2 = if l = [] then eq else eq.sync := by
  induction l with
  | nil => intro eq; simp [isofluxRows]
  | cons p l ih =>
    intro eq
    obtain ⟨a, b, c, d⟩ := p
    simp only [isofluxRows, ih, Eq.field_snd, Eq.sync_sync]
    split <;> rfl

theorem psivalRows_snd (e : Env K) (l : List (K × K × K)) : ∀ eq : Eq K, (psivalRows e l eq).2 = if l = [] then eq else eq.sync := by
  induction l with
  | nil => intro eq; simp [psivalRows]
  | cons p l ih =>
    intro eq
    obtain ⟨a, b, c⟩ := p
    simp only [psivalRows, ih, Eq.field_snd, Eq.sync_sync]
    split <;> rfl

theorem rows_snd (e : Env K) (c : Constrain K) (eq : Eq K) :
    (rows e c eq).2 = if c.xpoints = [] ∧ c.isoflux = [] ∧ c.psivals = [] then eq else eq.sync := by
  simp only [rows, xpointRows_snd, isofluxRows_snd, psivalRows_snd]
  split_ifs <;> simp_all [Eq.sync_sync]

/-! ## Sums over rows -/

/-- The row with all signs changed. -/
def negRow (r : Row K) : Row K := (r.1.map fun v => -v, -r.2)

theorem isoflux_swap (e : Env K) (eq : Eq K) (a b c d : K) :
    (List.zipWith (fun a b => a - b) (eq.machine.controlResponse e .psi c d) (eq.machine.controlResponse e .psi a b),
      eq.read e .psi a b - eq.read e .psi c d) =
    negRow (List.zipWith (fun a b => a - b) (eq.machine.controlResponse e .psi a b) (eq.machine.controlResponse e .psi c d),
      eq.read e .psi c d - eq.read e .psi a b) := by
  simp only [negRow, Prod.mk.injEq, neg_sub, and_true]
  rw [List.map_zipWith, List.zipWith_comm]
  simp

/-- Sums of a function that does not see the sign of a row are the same for the same requests. -/
theorem sum_rows (e : Env K) {c c' : Constrain K} (h : SameRequests c c') (eq : Eq K) (F : Row K → K) (hF : ∀ r, F (negRow r) = F r) :
    ((specRows e c' eq).map F).sum = ((specRows e c eq).map F).sum := by
  obtain ⟨l, hl, hs⟩ := h.isoflux
  simp only [specRows, List.map_append, List.sum_append]
  congr 1
  · congr 1
    · exact (((h.xpoints.map _).flatten).map F).sum_eq.symm
    · rw [((hl.map _).map F).sum_eq]
      rw [List.map_map, List.map_map]
      congr 1
      clear hl
      generalize c'.isoflux = l' at hs
      induction hs with
      | nil => rfl
      | cons hp _ ih =>
        rw [List.map_cons, List.map_cons, ih]
        congr 1
        rcases hp with rfl | rfl
        · rfl
        · rw [Function.comp_apply, Function.comp_apply, isoflux_swap, hF]
  · exact ((h.psivals.map _).map F).sum_eq.symm

theorem getD_neg (l : List K) (i : ℕ) : (l.map fun v => -v).getD i 0 = -l.getD i 0 := by
  simp only [List.getD_eq_getElem?_getD, List.getElem?_map]
  cases l[i]? <;> simp

theorem dot_neg (l x : List K) : dot (l.map fun v => -v) x = -dot l x := by
  induction l generalizing x with
  | nil => simp [dot]
  | cons a l ih =>
    cases x with
    | nil => simp [dot]
    | cons b x =>
      have := ih x
      simp only [dot, List.map_cons, List.zipWith_cons_cons, List.sum_cons] at this ⊢
      rw [this]
      ring

theorem SameRequests.empty {c c' : Constrain K} (h : SameRequests c c') :
    (c'.xpoints = [] ∧ c'.isoflux = [] ∧ c'.psivals = []) ↔ (c.xpoints = [] ∧ c.isoflux = [] ∧ c.psivals = []) := by
  obtain ⟨l, hl, hs⟩ := h.isoflux
  rw [← List.length_eq_zero_iff, ← List.length_eq_zero_iff, ← List.length_eq_zero_iff, ← h.xpoints.length_eq, ← hs.length_eq, ← hl.length_eq,
    ← h.psivals.length_eq, List.length_eq_zero_iff, List.length_eq_zero_iff, List.length_eq_zero_iff]

variable [IsStrictOrderedRing K]

theorem specRows_empty (e : Env K) (c : Constrain K) (eq : Eq K) :
    (specRows e c eq).isEmpty = decide (c.xpoints = [] ∧ c.isoflux = [] ∧ c.psivals = []) := by
  by_cases h : c.xpoints = [] ∧ c.isoflux = [] ∧ c.psivals = []
  · simp [specRows, h.1, h.2.1, h.2.2]
  · rw [specRows_ne_nil e c eq (by tauto)]
    simp [h]

/-- **C114 (requests).** Whatever the optimiser does: `constrain` with the X-points, isoflux pairs and flux values in another order, and with isoflux
pairs written the other way round, has exactly the same outcome, whether it fails or changes the currents. -/
theorem C114_requests (e : Env K) (opt : Problem K → List K) {c c' : Constrain K} (h : SameRequests c c') (eq : Eq K) :
    call e opt c' eq = call e opt c eq := by
  have hp : problem e c' eq = problem e c eq := by
    have hM : ∀ n, normalMatrix (specRows e c' eq) n c.gamma = normalMatrix (specRows e c eq) n c.gamma := by
      intro n
      funext i j
      simp only [normalMatrix]
      rw [sum_rows e h eq (fun r => r.1.getD i 0 * r.1.getD j 0) fun r => by simp only [negRow, getD_neg]; ring]
    have hR : ∀ n, normalRhs (specRows e c' eq) n = normalRhs (specRows e c eq) n := by
      intro n
      funext i
      simp only [normalRhs]
      rw [sum_rows e h eq (fun r => r.1.getD i 0 * r.2) fun r => by simp only [negRow, getD_neg]; ring]
    have hO : objective (specRows e c' eq) c.gamma = objective (specRows e c eq) c.gamma := by
      funext x
      simp only [objective]
      rw [sum_rows e h eq (fun r => (dot r.1 x - r.2) ^ 2) fun r => by simp only [negRow, dot_neg]; ring]
    have hT : ∀ n, tikhonov (specRows e c' eq) n c.gamma = tikhonov (specRows e c eq) n c.gamma := by
      intro n
      simp only [tikhonov, hM, hR]
    have hS : (rows e c' eq).2 = (rows e c eq).2 := by
      rw [rows_snd, rows_snd]
      simp only [h.empty]
    have hE : (specRows e c' eq).isEmpty = (specRows e c eq).isEmpty := by
      rw [specRows_empty, specRows_empty]
      simp only [h.empty]
    simp only [problem, (rows_eq e c eq).1, (rows_eq e c' eq).1, hS, h.gamma, h.lims, h.total, hT, hO, hE]
  simp only [call, hp]

/-! ## The order of the coils -/

/-- An entry of the machine with its limits, if there are any. -/
abbrev Item (K : Type*) := (String × Entry K) × Option (K × K)

/-- The entries with the current changes of the controlled ones. -/
def changes : List (Item K) → List K → List (Item K × Option K)
  | [], _ => []
  | q :: qs, x =>
    match q.1.2.control, x with
    | true, [] => (q, none) :: changes qs []
    | true, v :: vs => (q, some v) :: changes qs vs
    | false, vs => (q, none) :: changes qs vs

theorem changes_false {q : Item K} (h : q.1.2.control = false) (qs : List (Item K)) (x : List K) :
    changes (q :: qs) x = (q, none) :: changes qs x := by
  simp [changes, h]

theorem changes_true {q : Item K} (h : q.1.2.control = true) (qs : List (Item K)) (v : K) (x : List K) :
    changes (q :: qs) (v :: x) = (q, some v) :: changes qs x := by
  simp [changes, h]

/-- Number of controlled entries. -/
def controlled (Q : List (Item K)) : ℕ := (Q.filter fun q => q.1.2.control).length

/-- Current changes can be carried over to another order. -/
theorem changes_perm {Q Q' : List (Item K)} (h : Q.Perm Q') : ∀ x : List K, x.length = controlled Q →
    ∃ x', x'.length = controlled Q' ∧ (changes Q x).Perm (changes Q' x') := by
  induction h with
  | nil => exact fun x hx => ⟨x, hx, List.Perm.refl _⟩
  | @cons q l l' _ ih =>
    intro x hx
    cases hq : q.1.2.control with
    | false =>
      obtain ⟨x', h1, h2⟩ := ih x (by simpa [controlled, hq] using hx)
      exact ⟨x', by simpa [controlled, hq] using h1, by rw [changes_false hq, changes_false hq]; exact h2.cons _⟩
    | true =>
      match x, hx with
      | [], hx => simp [controlled, hq] at hx
      | v :: x, hx =>
        obtain ⟨x', h1, h2⟩ := ih x (by simpa [controlled, hq] using hx)
        exact ⟨v :: x', by simpa [controlled, hq] using h1, by rw [changes_true hq, changes_true hq]; exact h2.cons _⟩
  | swap a b l =>
    intro x hx
    cases ha : a.1.2.control <;> cases hb : b.1.2.control
    · refine ⟨x, by simpa [controlled, ha, hb] using hx, ?_⟩
      rw [changes_false hb, changes_false ha, changes_false ha, changes_false hb]
      exact List.Perm.swap _ _ _
    · match x, hx with
      | [], hx => simp [controlled, ha, hb] at hx
      | v :: x, hx =>
        refine ⟨v :: x, by simpa [controlled, ha, hb] using hx, ?_⟩
        rw [changes_true hb, changes_false ha, changes_false ha, changes_true hb]
        exact List.Perm.swap _ _ _
    · match x, hx with
      | [], hx => simp [controlled, ha, hb] at hx
      | v :: x, hx =>
        refine ⟨v :: x, by simpa [controlled, ha, hb] using hx, ?_⟩
        rw [changes_false hb, changes_true ha, changes_true ha, changes_false hb]
        exact List.Perm.swap _ _ _
    · match x, hx with
      | [], hx => simp [controlled, ha, hb] at hx
      | [v], hx => simp [controlled, ha, hb] at hx
      | v :: w :: x, hx =>
        refine ⟨w :: v :: x, by simpa [controlled, ha, hb] using hx, ?_⟩
        rw [changes_true hb, changes_true ha, changes_true ha, changes_true hb]
        exact List.Perm.swap _ _ _
  | trans _ _ ih1 ih2 =>
    intro x hx
    obtain ⟨x1, h1, h2⟩ := ih1 x hx
    obtain ⟨x2, h3, h4⟩ := ih2 x1 h1
    exact ⟨x2, h3, h2.trans h4⟩

/-- The entry after its change. -/
def applied (t : Item K × Option K) : String × Entry K :=
  match t.2 with
  | none => t.1.1
  | some v => (t.1.1.1, t.1.1.2.setCurrent (t.1.1.2.current + v))

theorem adjust_changes (Q : List (Item K)) : ∀ x : List K,
    Machine.zipControl (fun I v => I + v) (Q.map Prod.fst) x = (changes Q x).map applied := by
  induction Q with
  | nil => intro x; simp [Machine.zipControl, changes]
  | cons q Q ih =>
    intro x
    obtain ⟨⟨l, y⟩, b⟩ := q
    rw [List.map_cons]
    cases hy : y.control with
    | false => rw [Machine.zipControl_false _ _ _ _ hy, changes_false hy, ih]; rfl
    | true =>
      cases x with
      | nil =>
        rw [Machine.zipControl_true_nil _ _ _ hy]
        have := ih []
        rw [zipControl_nil_right] at this
        simp only [changes, hy, List.map_cons, ← this, applied]
      | cons v x => rw [Machine.zipControl_true_cons _ _ _ _ _ hy, changes_true hy, ih]; rfl

theorem filterMap_changes (Q : List (Item K)) : ∀ x : List K, x.length = controlled Q → (changes Q x).filterMap Prod.snd = x := by
  induction Q with
  | nil => intro x hx; simpa [changes, controlled, eq_comm] using hx
  | cons q Q ih =>
    intro x hx
    cases hq : q.1.2.control with
    | false =>
      rw [changes_false hq]
      simpa using ih x (by simpa [controlled, hq] using hx)
    | true =>
      match x, hx with
      | [], hx => simp [controlled, hq] at hx
      | v :: x, hx =>
        rw [changes_true hq]
        simpa using ih x (by simpa [controlled, hq] using hx)

/-- The bounds of the controlled entries. -/
def boundsOf (Q : List (Item K)) : List (Option (K × K)) :=
  (Q.filter fun q => q.1.2.control).map fun q => q.2.map fun lim => (lim.1 - q.1.2.current, lim.2 - q.1.2.current)

theorem honours_changes (Q : List (Item K)) : ∀ x : List K, x.length = controlled Q →
    (List.Forall₂ (fun b v => ∀ l u, b = some (l, u) → l ≤ v ∧ v ≤ u) (boundsOf Q) x ↔
      ∀ t ∈ changes Q x, ∀ lim v, t.1.2 = some lim → t.2 = some v → lim.1 - t.1.1.2.current ≤ v ∧ v ≤ lim.2 - t.1.1.2.current) := by
  induction Q with
  | nil =>
    intro x hx
    obtain rfl : x = [] := by simpa [controlled] using hx
    simp [boundsOf, changes]
  | cons q Q ih =>
    intro x hx
    cases hq : q.1.2.control with
    | false =>
      rw [changes_false hq]
      have := ih x (by simpa [controlled, hq] using hx)
      simp only [boundsOf, List.filter_cons, hq, List.mem_cons, forall_eq_or_imp] at this ⊢
      simpa using this
    | true =>
      match x, hx with
      | [], hx => simp [controlled, hq] at hx
      | v :: x, hx =>
        rw [changes_true hq]
        have := ih x (by simpa [controlled, hq] using hx)
        simp only [boundsOf, List.filter_cons, hq, List.mem_cons, forall_eq_or_imp, if_true, List.map_cons, List.forall₂_cons] at this ⊢
        rw [this]
        refine and_congr ?_ Iff.rfl
        cases q.2 with
        | none => simp
        | some lim => simp

theorem total_changes (Q : List (Item K)) : ∀ x : List K, x.length = controlled Q →
    (List.zipWith (fun d i => |d + i|) x ((Q.filter fun q => q.1.2.control).map fun q => q.1.2.current)).sum =
      ((changes Q x).map fun t => match t.2 with | none => 0 | some v => |v + t.1.1.2.current|).sum := by
  induction Q with
  | nil => intro x _; simp [changes]
  | cons q Q ih =>
    intro x hx
    cases hq : q.1.2.control with
    | false =>
      rw [changes_false hq]
      have := ih x (by simpa [controlled, hq] using hx)
      simpa [hq] using this
    | true =>
      match x, hx with
      | [], hx => simp [controlled, hq] at hx
      | v :: x, hx =>
        rw [changes_true hq]
        have := ih x (by simpa [controlled, hq] using hx)
        simpa [hq] using this

/-- The limits as they go with the coils. -/
def limitTags (lims : Option (List (K × K))) (n : ℕ) : List (Option (K × K)) :=
  match lims with
  | none => List.replicate n none
  | some ls => ls.map some

/-- The entries of a machine with their limits. -/
def items (c : Constrain K) (eq : Eq K) : List (Item K) := eq.machine.coils.zip (limitTags c.currentLims eq.machine.coils.length)

/-- The same request for the same coils (each with its limits) in another order. -/
structure SameCoils (c c' : Constrain K) (eq eq' : Eq K) : Prop where
  gamma : c'.gamma = c.gamma
  total : c'.maxTotal = c.maxTotal
  xpoints : c'.xpoints = c.xpoints
  isoflux : c'.isoflux = c.isoflux
  psivals : c'.psivals = c.psivals
  plasma : eq'.plasma = eq.plasma
  limits : c'.currentLims.isSome = c.currentLims.isSome
  lengths : ∀ ls, c'.currentLims = some ls → ls.length = eq'.machine.coils.length
  coils : (items c eq).Perm (items c' eq')

theorem limitTags_length {lims : Option (List (K × K))} {n : ℕ} (h : ∀ ls, lims = some ls → ls.length = n) : (limitTags lims n).length = n := by
  cases lims with
  | none => simp [limitTags]
  | some ls => simpa [limitTags] using h ls rfl

theorem items_coils {c : Constrain K} {eq : Eq K} (h : ∀ ls, c.currentLims = some ls → ls.length = eq.machine.coils.length) :
    (items c eq).map Prod.fst = eq.machine.coils :=
  List.map_fst_zip (by rw [limitTags_length h])

theorem filter_zip_fst {α β : Type*} (f : α → Bool) (a : List α) : ∀ b : List β, a.length ≤ b.length →
    ((a.zip b).filter fun q => f q.1).map Prod.fst = a.filter f := by
  induction a with
  | nil => simp
  | cons x a ih =>
    intro b hb
    cases b with
    | nil => simp at hb
    | cons y b =>
      have := ih b (by simpa using hb)
      cases hx : f x <;> simp [hx, this]

theorem items_currents {c : Constrain K} {eq : Eq K} (h : ∀ ls, c.currentLims = some ls → ls.length = eq.machine.coils.length) :
    ((items c eq).filter fun q => q.1.2.control).map (fun q => q.1.2.current) = eq.machine.controlCurrents := by
  have := filter_zip_fst (fun y : String × Entry K => y.2.control) eq.machine.coils (limitTags c.currentLims eq.machine.coils.length) (by rw [limitTags_length h])
  rw [Machine.controlCurrents, ← this, List.map_map]
  rfl

theorem items_controlled {c : Constrain K} {eq : Eq K} (h : ∀ ls, c.currentLims = some ls → ls.length = eq.machine.coils.length) :
    controlled (items c eq) = eq.machine.controlCurrents.length := by
  rw [← items_currents h, List.length_map, controlled]

theorem bounds_eq {c : Constrain K} {eq : Eq K} {bs : List (Option (K × K))}
    (hb : bounds c.currentLims eq.machine.controlCurrents.length eq.sync.machine = .ok bs) :
    (∀ ls, c.currentLims = some ls → ls.length = eq.machine.coils.length) ∧ bs = boundsOf (items c eq) := by
  have hsl : eq.sync.machine.coils.length = eq.machine.coils.length := by simp [Eq.sync, Machine.sync]
  unfold bounds at hb
  cases hc : c.currentLims with
  | none =>
    rw [hc] at hb
    have h0 : ∀ ls, c.currentLims = some ls → ls.length = eq.machine.coils.length := by intro ls h; rw [hc] at h; cases h
    refine ⟨by simp, ?_⟩
    rw [← Except.ok.inj hb, ← items_controlled h0, boundsOf, controlled, eq_comm, List.eq_replicate_iff]
    refine ⟨by simp, fun b hb => ?_⟩
    obtain ⟨q, hq, rfl⟩ := List.mem_map.mp hb
    have := (List.of_mem_zip (List.mem_filter.mp hq).1).2
    rw [hc, limitTags] at this
    rw [List.eq_of_mem_replicate this]
    rfl
  | some ls =>
    rw [hc] at hb
    simp only at hb
    split at hb
    · rename_i hl
      rw [hsl] at hl
      refine ⟨fun ls' h => by rw [← Option.some.inj h]; exact hl, ?_⟩
      rw [← Except.ok.inj hb, boundsOf, items, hc, limitTags]
      simp only [Eq.sync, Machine.sync]
      clear hb hsl
      generalize eq.machine.coils = cs at hl
      clear hc
      induction cs generalizing ls with
      | nil => simp
      | cons y cs ih =>
        cases ls with
        | nil => simp at hl
        | cons lim ls =>
          have := ih ls (by simpa using hl)
          cases hy : y.2.control <;> simp [hy, this]
    · cases hb

/-- What the problem is, in terms of the entries with their limits. -/
theorem problem_items {e : Env K} {c : Constrain K} {eq eq1 : Eq K} {p : Problem K} (h : problem e c eq = .ok (p, eq1)) :
    ¬(c.xpoints = [] ∧ c.isoflux = [] ∧ c.psivals = []) ∧ (∀ ls, c.currentLims = some ls → ls.length = eq.machine.coils.length) ∧ eq1 = eq.sync ∧
    p.x0.length = controlled (items c eq) ∧ p.bounds = boundsOf (items c eq) ∧
    (∀ y, p.objective y = sumSq (constraintErrors e c (eq.adjusted y)) + c.gamma ^ 2 * sumSq y) ∧
    p.ineq = match c.maxTotal with
      | none => []
      | some t => [totalSlack eq.machine.controlCurrents t] := by
  have hn : eq.sync.machine.controlCurrents = eq.machine.controlCurrents := Machine.controlCurrents_sync _
  rw [problem] at h
  simp only [(rows_eq e c eq).1, rows_snd, specRows_empty] at h
  by_cases h0 : c.xpoints = [] ∧ c.isoflux = [] ∧ c.psivals = []
  · simp [h0] at h
  · simp only [h0, decide_false, if_false, Bool.false_eq_true, hn] at h
    split at h
    · cases h
    rename_i x0 hx0
    split at h
    · cases h
    rename_i bs hbs
    simp only [Except.ok.injEq, Prod.mk.injEq] at h
    obtain ⟨rfl, rfl⟩ := h
    obtain ⟨h1, h2⟩ := bounds_eq hbs
    refine ⟨h0, h1, rfl, ?_, h2, fun y => objective_eq e c eq c.gamma y, rfl⟩
    rw [items_controlled h1]
    rw [tikhonov] at hx0
    split at hx0
    · cases hx0
    · rw [← Except.ok.inj hx0, List.length_ofFn]

theorem honours_items {e : Env K} {c : Constrain K} {eq eq1 : Eq K} {p : Problem K} (h : problem e c eq = .ok (p, eq1)) {x : List K}
    (hx : x.length = controlled (items c eq)) : p.Honours x ↔
      (∀ t ∈ changes (items c eq) x, ∀ lim v, t.1.2 = some lim → t.2 = some v → lim.1 - t.1.1.2.current ≤ v ∧ v ≤ lim.2 - t.1.1.2.current) ∧
      ∀ T, c.maxTotal = some T → ((changes (items c eq) x).map fun t => match t.2 with | none => 0 | some v => |v + t.1.1.2.current|).sum ≤ T := by
  obtain ⟨-, h1, -, -, h2, -, h3⟩ := problem_items h
  rw [Problem.Honours, h2, h3, honours_changes _ x hx]
  refine and_congr Iff.rfl ?_
  cases c.maxTotal with
  | none => simp
  | some T =>
    simp only [List.mem_singleton, forall_eq, totalSlack, Option.some.injEq, forall_eq']
    rw [← items_currents h1, total_changes _ x hx]
    constructor <;> intro h <;> linarith

/-- The errors depend on the coils and not on their order. -/
theorem errors_perm (e : Env K) {c c' : Constrain K} {eq eq' : Eq K} (h1 : c'.xpoints = c.xpoints) (h2 : c'.isoflux = c.isoflux) (h3 : c'.psivals = c.psivals)
    (hp : eq'.plasma = eq.plasma) (h : eq.machine.coils.Perm eq'.machine.coils) : constraintErrors e c' eq' = constraintErrors e c eq := by
  have hr : ∀ q R Z, eq'.read e q R Z = eq.read e q R Z := by
    intro q R Z
    simp only [Eq.read, Eq.field, Machine.field_fst, hp]
    rw [(h.map _).sum_eq]
  simp only [constraintErrors, h1, h2, h3, hr]

theorem objective_items {e : Env K} {c c' : Constrain K} {eq eq' eq1 eq1' : Eq K} {p p' : Problem K} (h : problem e c eq = .ok (p, eq1))
    (h' : problem e c' eq' = .ok (p', eq1')) (hs : SameCoils c c' eq eq') {x x' : List K} (hx : x.length = controlled (items c eq))
    (hx' : x'.length = controlled (items c' eq')) (ht : (changes (items c eq) x).Perm (changes (items c' eq') x')) : p'.objective x' = p.objective x := by
  obtain ⟨-, h1, -, -, -, h2, -⟩ := problem_items h
  obtain ⟨-, h1', -, -, -, h2', -⟩ := problem_items h'
  have e1 : (eq.adjusted x).machine.coils = (changes (items c eq) x).map applied := by
    rw [← adjust_changes, items_coils h1]
    rfl
  have e2 : (eq'.adjusted x').machine.coils = (changes (items c' eq') x').map applied := by
    rw [← adjust_changes, items_coils h1']
    rfl
  rw [h2, h2', hs.gamma, errors_perm e hs.xpoints hs.isoflux hs.psivals (eq := eq.adjusted x) (eq' := eq'.adjusted x') hs.plasma
    (by rw [e1, e2]; exact ht.map _)]
  have e3 : sumSq x' = sumSq x := by
    have := ((ht.filterMap Prod.snd).map fun v => v ^ 2).sum_eq
    rw [filterMap_changes _ x hx, filterMap_changes _ x' hx'] at this
    exact this.symm
  rw [e3]

theorem SameCoils.symm {c c' : Constrain K} {eq eq' : Eq K} (h : SameCoils c c' eq eq') (hl : ∀ ls, c.currentLims = some ls → ls.length = eq.machine.coils.length) :
    SameCoils c' c eq' eq :=
  ⟨h.gamma.symm, h.total.symm, h.xpoints.symm, h.isoflux.symm, h.psivals.symm, h.plasma.symm, h.limits.symm, hl, h.coils.symm⟩

theorem honours_perm {e : Env K} {c c' : Constrain K} {eq eq' eq1 eq1' : Eq K} {p p' : Problem K} (h : problem e c eq = .ok (p, eq1))
    (h' : problem e c' eq' = .ok (p', eq1')) (hs : SameCoils c c' eq eq') {x x' : List K} (hx : x.length = controlled (items c eq))
    (hx' : x'.length = controlled (items c' eq')) (ht : (changes (items c eq) x).Perm (changes (items c' eq') x')) (hh : p.Honours x) : p'.Honours x' := by
  rw [honours_items h hx] at hh
  rw [honours_items h' hx']
  refine ⟨fun t htm => hh.1 t (ht.mem_iff.mpr htm), fun T hT => ?_⟩
  rw [← (ht.map _).sum_eq]
  exact hh.2 T (by rw [← hs.total]; exact hT)

theorem minimises_perm {e : Env K} {c c' : Constrain K} {eq eq' eq1 eq1' : Eq K} {p p' : Problem K} (h : problem e c eq = .ok (p, eq1))
    (h' : problem e c' eq' = .ok (p', eq1')) (hs : SameCoils c c' eq eq') {x x' : List K} (hx : x.length = controlled (items c eq))
    (hx' : x'.length = controlled (items c' eq')) (ht : (changes (items c eq) x).Perm (changes (items c' eq') x')) (hm : p.Minimises x) : p'.Minimises x' := by
  obtain ⟨-, h1, -, h2, -⟩ := problem_items h
  obtain ⟨-, -, -, h2', -⟩ := problem_items h'
  refine ⟨by rw [hx', h2'], honours_perm h h' hs hx hx' ht hm.2.1, fun y' hy' hh' => ?_⟩
  rw [h2'] at hy'
  obtain ⟨y, hy, hty⟩ := changes_perm hs.coils.symm y' hy'
  have hsy := hs.symm h1
  rw [objective_items h h' hs hx hx' ht, ← objective_items h' h hsy hy' hy hty]
  exact hm.2.2 y (by rw [hy, h2]) (honours_perm h' h hsy hy' hy hty hh')

/-- Reading a field synchronises the circuits, which keeps what has been changed. -/
theorem sync_changes (Q : List (Item K)) : ∀ x : List K,
    changes (Q.map fun q => ((q.1.1, q.1.2.sync), q.2)) x = (changes Q x).map fun t => (((t.1.1.1, t.1.1.2.sync), t.1.2), t.2) := by
  induction Q with
  | nil => intro x; simp [changes]
  | cons q Q ih =>
    intro x
    rw [List.map_cons]
    cases hq : q.1.2.control with
    | false => rw [changes_false (by simpa using hq), changes_false hq, ih]; rfl
    | true =>
      cases x with
      | nil =>
        have := ih []
        simp [changes, hq, this]
      | cons v x => rw [changes_true (by simpa using hq), changes_true hq, ih]; rfl

theorem synced_adjusted {c : Constrain K} {eq : Eq K} (h : ∀ ls, c.currentLims = some ls → ls.length = eq.machine.coils.length) (x : List K) :
    (eq.sync.adjusted x).machine.coils =
      ((changes (items c eq) x).map fun t => (((t.1.1.1, t.1.1.2.sync), t.1.2), t.2)).map applied := by
  rw [← sync_changes, ← adjust_changes, List.map_map]
  have : (items c eq).map (Prod.fst ∘ fun q => ((q.1.1, q.1.2.sync), q.2)) = eq.sync.machine.coils := by
    rw [show (Prod.fst ∘ fun q : Item K => ((q.1.1, q.1.2.sync), q.2)) = (fun y : String × Entry K => (y.1, y.2.sync)) ∘ Prod.fst from rfl,
      ← List.map_map, items_coils h]
    rfl
  rw [this]
  rfl

/-- **C114 (coils).** With a regularisation, and optimisers that solve their problem: if `constrain` succeeds, it also succeeds for the same coils (each with its
limits) in another order, and leaves the same coils with the same currents, in that other order. -/
theorem C114_coils (e : Env K) (opt opt' : Problem K → List K) {c c' : Constrain K} {eq eq' : Eq K} (hs : SameCoils c c' eq eq') (hg : c.gamma ≠ 0)
    (ho : ∀ p eq1, problem e c eq = .ok (p, eq1) → p.Minimises (opt p))
    (ho' : ∀ p eq1, problem e c' eq' = .ok (p, eq1) → p.Minimises (opt' p))
    {x : List K} {eq2 : Eq K} (h : call e opt c eq = .ok (x, eq2)) :
    ∃ x' eq2', call e opt' c' eq' = .ok (x', eq2') ∧ x.Perm x' ∧ eq2'.plasma = eq2.plasma ∧ eq2.machine.coils.Perm eq2'.machine.coils := by
  obtain ⟨p, eq1, hp, rfl, hx⟩ := call_ok h
  obtain ⟨h0, h1, rfl, h2, -⟩ := problem_items hp
  have hne : c'.xpoints ≠ [] ∨ c'.isoflux ≠ [] ∨ c'.psivals ≠ [] := by
    rw [hs.xpoints, hs.isoflux, hs.psivals]
    tauto
  obtain ⟨p', eq1', hp', -⟩ := C23_unique_minimiser e c' eq' (by rw [hs.gamma]; exact hg) hne hs.lengths
  obtain ⟨-, h1', rfl, h2', -⟩ := problem_items hp'
  have hmin := ho p _ hp
  have hmin' := ho' p' _ hp'
  have hxo : x = opt p := by
    rcases hx with hx | ⟨hx, hx0⟩
    · exact hx
    · have := hmin.1
      rw [hx0, List.length_nil, List.length_eq_zero_iff] at this
      rw [hx, hx0, this]
  have hxl : x.length = controlled (items c eq) := by rw [hxo, hmin.1, h2]
  obtain ⟨x', hxl', ht⟩ := changes_perm hs.coils x hxl
  have hm' : p'.Minimises x' := minimises_perm hp hp' hs hxl hxl' ht (by rw [hxo]; exact hmin)
  have hox : opt' p' = x' := C99_control_unique (by rw [hs.gamma]; exact hg) hp' hmin' hm'
  refine ⟨x', eq'.sync.adjusted x', ?_, ?_, hs.plasma, ?_⟩
  · rw [call, hp']
    simp only
    split
    · rw [hox]
      rfl
    · rename_i hpos
      have hx0 : p'.x0 = [] := by simpa using hpos
      have : x' = [] := by
        rw [← List.length_eq_zero_iff, hm'.1, hx0]
        rfl
      rw [hx0, this, adjusted_nil]
  · have := ht.filterMap Prod.snd
    rwa [filterMap_changes _ x hxl, filterMap_changes _ x' hxl'] at this
  · rw [synced_adjusted h1, synced_adjusted h1']
    exact (ht.map _).map _

/-! ## Examples -/

/-- Three coils, the second one uncontrolled. -/
def threeCoils : Eq ℚ := ⟨⟨[("A", .coil (.point (PointCoil.make 1 0 3))), ("B", .coil (.point (PointCoil.make 2 1 5 1 false))),
  ("C", .coil (.point (PointCoil.make 3 2 4)))]⟩, fun _ _ _ => 1⟩

/-- The same coils in another order. -/
def threeCoils' : Eq ℚ := ⟨⟨[("C", .coil (.point (PointCoil.make 3 2 4))), ("A", .coil (.point (PointCoil.make 1 0 3))),
  ("B", .coil (.point (PointCoil.make 2 1 5 1 false)))]⟩, fun _ _ _ => 1⟩

theorem call_succeeds {c : Constrain ℚ} {eq : Eq ℚ} (hg : c.gamma ≠ 0) (hc : c.psivals ≠ []) (hl : c.currentLims = none) :
    ∃ r, call exEnv (fun p => p.x0) c eq = .ok r := by
  obtain ⟨p, eq1, hp, -⟩ := C23_unique_minimiser exEnv c eq hg (Or.inr (Or.inr hc)) (fun ls h => by rw [hl] at h; cases h)
  rw [call, hp]
  simp only
  split
  · exact ⟨_, rfl⟩
  · exact ⟨_, rfl⟩

/-- Requests and the same requests in another order, a pair written the other way round; the call succeeds. -/
example : SameRequests (K := ℚ) { gamma := 1, xpoints := [(1, 2), (3, 4)], isoflux := [(1, 1, 2, 2), (5, 6, 7, 8)], psivals := [(2, 0, 7), (2, 1, 9)] }
      { gamma := 1, xpoints := [(3, 4), (1, 2)], isoflux := [(7, 8, 5, 6), (1, 1, 2, 2)], psivals := [(2, 1, 9), (2, 0, 7)] } ∧
    ∃ r, call exEnv (fun p => p.x0)
      { gamma := 1, xpoints := [(3, 4), (1, 2)], isoflux := [(7, 8, 5, 6), (1, 1, 2, 2)], psivals := [(2, 1, 9), (2, 0, 7)] } threeCoils = .ok r :=
  ⟨⟨rfl, rfl, rfl, List.Perm.swap _ _ _, ⟨[(5, 6, 7, 8), (1, 1, 2, 2)], List.Perm.swap _ _ _, .cons (Or.inr rfl) (.cons (Or.inl rfl) .nil)⟩,
    List.Perm.swap _ _ _⟩, call_succeeds (by norm_num) (by simp) rfl⟩

/-- The same coils with their limits in another order. -/
example : SameCoils (K := ℚ) { gamma := 1, psivals := [(2, 0, 7)], currentLims := some [(-4, 4), (0, 1), (2, 9)], maxTotal := some 10 }
    { gamma := 1, psivals := [(2, 0, 7)], currentLims := some [(2, 9), (-4, 4), (0, 1)], maxTotal := some 10 } threeCoils threeCoils' :=
  ⟨rfl, rfl, rfl, rfl, rfl, rfl, rfl, fun ls h => by rw [← Option.some.inj h]; rfl,
    ((List.Perm.swap _ _ _).cons _).trans (List.Perm.swap _ _ _)⟩

/-- Without limits the start values solve both problems, so `C114_coils` applies; the call succeeds. -/
example : (∀ p eq1, problem exEnv { gamma := 1, psivals := [(2, 0, 7)] } threeCoils = .ok (p, eq1) → p.Minimises p.x0) ∧
    (∀ p eq1, problem exEnv { gamma := 1, psivals := [(2, 0, 7)] } threeCoils' = .ok (p, eq1) → p.Minimises p.x0) ∧
    SameCoils (K := ℚ) { gamma := 1, psivals := [(2, 0, 7)] } { gamma := 1, psivals := [(2, 0, 7)] } threeCoils threeCoils' ∧
    ∃ r, call exEnv (fun p => p.x0) { gamma := 1, psivals := [(2, 0, 7)] } threeCoils = .ok r :=
  ⟨fun _ _ h => C99_control_start (by norm_num) rfl rfl h, fun _ _ h => C99_control_start (by norm_num) rfl rfl h,
    ⟨rfl, rfl, rfl, rfl, rfl, rfl, rfl, fun ls h => (by cases h), ((List.Perm.swap _ _ _).cons _).trans (List.Perm.swap _ _ _)⟩,
    call_succeeds (by norm_num) (by simp) rfl⟩

end FreeGS.Control
