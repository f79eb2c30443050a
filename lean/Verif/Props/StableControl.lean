import Verif.Props.ControlOrder

/-!
# C126: the currents that coil control finds depend continuously on the request and on the plasma
-/

set_option linter.unusedSectionVars false

namespace FreeGS.Control

variable {K : Type*} [Field K] [LinearOrder K] [IsStrictOrderedRing K]

/-- The same request except for the flux values: same points, same limits, same regularisation. -/
structure SamePoints (c c' : Constrain K) : Prop where
  xpoints : c'.xpoints = c.xpoints
  isoflux : c'.isoflux = c.isoflux
  psivals : c'.psivals.map (fun p => (p.1, p.2.1)) = c.psivals.map fun p => (p.1, p.2.1)
  gamma : c'.gamma = c.gamma
  limits : c'.currentLims = c.currentLims
  total : c'.maxTotal = c.maxTotal

/-! ## Strong convexity -/

theorem honours_mix {p : Problem K} {cur : List K} (hi : ∀ f ∈ p.ineq, ∃ t, f = totalSlack cur t) {s : K} (h0 : 0 ≤ s) (h1 : s ≤ 1) {x y : List K}
    (hx : p.Honours x) (hy : p.Honours y) : p.Honours (List.zipWith (fun a b => (1 - s) * a + s * b) x y) := by
  have h1 : 0 ≤ 1 - s := by linarith
  refine ⟨?_, fun f hf => ?_⟩
  · have g1 := hx.1
    have g2 := hy.1
    generalize p.bounds = bs at g1 g2
    clear hx hy
    induction g1 generalizing y with
    | nil => simp
    | cons h g1 ih =>
      cases g2 with
      | cons g g2 =>
        refine List.Forall₂.cons (fun l u hb => ?_) (ih g2)
        have a := h l u hb
        have b := g l u hb
        have a1 := mul_le_mul_of_nonneg_left a.1 h1
        have a2 := mul_le_mul_of_nonneg_left a.2 h1
        have b1 := mul_le_mul_of_nonneg_left b.1 h0
        have b2 := mul_le_mul_of_nonneg_left b.2 h0
        constructor <;> linarith
  · obtain ⟨t, rfl⟩ := hi f hf
    have g1 := hx.2 _ hf
    have g2 := hy.2 _ hf
    have hl : x.length = y.length := hx.1.length_eq.symm.trans hy.1.length_eq
    have : (List.zipWith (fun d i => |d + i|) (List.zipWith (fun a b => (1 - s) * a + s * b) x y) cur).sum ≤
        (1 - s) * (List.zipWith (fun d i => |d + i|) x cur).sum + s * (List.zipWith (fun d i => |d + i|) y cur).sum := by
      clear hx hy g1 g2 hf hi
      induction x generalizing y cur with
      | nil => cases y with
        | nil => simp
        | cons _ _ => simp at hl
      | cons a x ih => cases y with
        | nil => simp at hl
        | cons b y => cases cur with
          | nil => simp
          | cons i cur =>
            have := ih (cur := cur) (y := y) (by simpa using hl)
            simp only [List.zipWith_cons_cons, List.sum_cons]
            have h3 : |(1 - s) * a + s * b + i| ≤ (1 - s) * |a + i| + s * |b + i| := by
              have := abs_add_le ((1 - s) * (a + i)) (s * (b + i))
              rw [abs_mul, abs_mul, abs_of_nonneg h0, abs_of_nonneg h1] at this
              refine le_trans (le_of_eq ?_) this
              congr 1
              ring
            linarith
    simp only [totalSlack] at g1 g2 ⊢
    have a1 := mul_nonneg h1 g1
    have a2 := mul_nonneg h0 g2
    linarith

theorem dot_mix (a : List K) (s : K) : ∀ x y : List K, x.length = y.length →
    dot a (List.zipWith (fun a b => (1 - s) * a + s * b) x y) = (1 - s) * dot a x + s * dot a y := by
  induction a with
  | nil => intro x y _; simp [dot]
  | cons v a ih =>
    intro x y h
    match x, y, h with
    | [], [], _ => simp [dot]
    | b :: x, d :: y, h =>
      have := ih x y (by simpa using h)
      simp only [dot, List.zipWith_cons_cons, List.sum_cons] at this ⊢
      rw [this]
      ring

/-- How far two changes of the currents are apart: in what the request sees, and in the currents. -/
def gap (rs : List (Row K)) (g : K) (x y : List K) : K :=
  (rs.map fun r => (dot r.1 x - dot r.1 y) ^ 2).sum + g ^ 2 * sumSq (List.zipWith (· - ·) x y)

theorem gap_ge (rs : List (Row K)) (g : K) (x y : List K) : g ^ 2 * sumSq (List.zipWith (· - ·) x y) ≤ gap rs g x y :=
  le_add_of_nonneg_left (List.sum_nonneg (by simp only [List.mem_map, forall_exists_index, and_imp]; rintro _ r _ rfl; positivity))

theorem objective_mix (g s : K) (rs : List (Row K)) {x y : List K} (h : x.length = y.length) :
    objective rs g (List.zipWith (fun a b => (1 - s) * a + s * b) x y) =
      (1 - s) * objective rs g x + s * objective rs g y - s * (1 - s) * gap rs g x y := by
  have a : (rs.map fun r => (dot r.1 (List.zipWith (fun a b => (1 - s) * a + s * b) x y) - r.2) ^ 2).sum =
      (1 - s) * (rs.map fun r => (dot r.1 x - r.2) ^ 2).sum + s * (rs.map fun r => (dot r.1 y - r.2) ^ 2).sum -
        s * (1 - s) * (rs.map fun r => (dot r.1 x - dot r.1 y) ^ 2).sum := by
    induction rs with
    | nil => simp
    | cons r rs ih =>
      simp only [List.map_cons, List.sum_cons]
      rw [dot_mix _ _ _ _ h]
      linear_combination ih
  have b : ((List.zipWith (fun a b => (1 - s) * a + s * b) x y).map fun v => (g * v - 0) ^ 2).sum =
      (1 - s) * (x.map fun v => (g * v - 0) ^ 2).sum + s * (y.map fun v => (g * v - 0) ^ 2).sum -
        s * (1 - s) * (g ^ 2 * sumSq (List.zipWith (· - ·) x y)) := by
    clear a
    induction x generalizing y with
    | nil => cases y with
      | nil => simp [sumSq]
      | cons _ _ => simp at h
    | cons a x ih => cases y with
      | nil => simp at h
      | cons b y =>
        have := ih (y := y) (by simpa using h)
        simp only [sumSq, List.zipWith_cons_cons, List.map_cons, List.sum_cons] at this ⊢
        linear_combination this
  simp only [objective, gap]
  linear_combination a + b

/-- The solution is better than any other admissible change, by at least the gap between them. -/
theorem minimises_gap {e : Env K} {c : Constrain K} {eq eq1 : Eq K} {p : Problem K} (h : problem e c eq = .ok (p, eq1)) {x y : List K}
    (hx : p.Minimises x) (hy : y.length = x.length) (hh : p.Honours y) :
    p.objective x + gap (specRows e c eq) c.gamma x y ≤ p.objective y := by
  obtain ⟨-, -, -, -, -, -, hi⟩ := problem_items h
  obtain ⟨-, ho, -⟩ := problem_ok h
  have step : ∀ s : K, 0 < s → s ≤ 1 → p.objective x + (1 - s) * gap (specRows e c eq) c.gamma x y ≤ p.objective y := by
    intro s h0 h1
    have hm := honours_mix (cur := eq.machine.controlCurrents) (by
      rw [hi]
      cases c.maxTotal with
      | none => simp
      | some t => simp only [List.mem_singleton, forall_eq]; exact ⟨t, rfl⟩) h0.le h1 hx.2.1 hh
    have := hx.2.2 _ (by simp [hy, hx.1]) hm
    rw [ho, objective_mix c.gamma s _ hy.symm] at this
    rw [ho]
    have h3 : s * (objective (specRows e c eq) c.gamma x + (1 - s) * gap (specRows e c eq) c.gamma x y) ≤
        s * objective (specRows e c eq) c.gamma y := by linarith
    exact le_of_mul_le_mul_left h3 h0
  have hQ0 : 0 ≤ gap (specRows e c eq) c.gamma x y :=
    (mul_nonneg (sq_nonneg _) (sumSq_nonneg _)).trans (gap_ge (specRows e c eq) c.gamma x y)
  generalize gap (specRows e c eq) c.gamma x y = Q at step hQ0 ⊢
  by_contra hn
  rw [not_le] at hn
  have h1 := step 1 one_pos le_rfl
  have hpos : 0 < Q := by linarith
  have h2 := step ((p.objective x + Q - p.objective y) / (2 * Q)) (div_pos (by linarith) (by linarith)) (by
    rw [div_le_one (by linarith)]
    linarith)
  have h3 : (1 - (p.objective x + Q - p.objective y) / (2 * Q)) * Q = Q - (p.objective x + Q - p.objective y) / 2 := by
    field_simp
  rw [h3] at h2
  linarith

/-- Two least-squares problems with the same matrix: if each solution is better than the other's by the gap between them, they differ by no more
than half of the right-hand sides. -/
theorem two_gap (g : K) (x y : List K) : ∀ rs rs' : List (Row K), List.Forall₂ (fun r r' => r'.1 = r.1) rs rs' →
    objective rs g x + gap rs g x y ≤ objective rs g y → objective rs' g y + gap rs' g y x ≤ objective rs' g x →
    4 * g ^ 2 * sumSq (List.zipWith (· - ·) x y) ≤ sumSq (List.zipWith (fun r r' : Row K => r.2 - r'.2) rs rs') := by
  intro rs rs' hr h1 h2
  have key : 2 * ((rs.map fun r => (dot r.1 y - r.2) ^ 2).sum + (rs'.map fun r => (dot r.1 x - r.2) ^ 2).sum -
      (rs.map fun r => (dot r.1 x - r.2) ^ 2).sum - (rs'.map fun r => (dot r.1 y - r.2) ^ 2).sum -
      (rs.map fun r => (dot r.1 x - dot r.1 y) ^ 2).sum - (rs'.map fun r => (dot r.1 y - dot r.1 x) ^ 2).sum) ≤
        sumSq (List.zipWith (fun r r' : Row K => r.2 - r'.2) rs rs') := by
    clear h1 h2
    induction hr with
    | nil => simp [sumSq]
    | @cons r r' rs rs' hr1 hr2 ih =>
      simp only [sumSq, List.zipWith_cons_cons, List.map_cons, List.sum_cons] at ih ⊢
      rw [hr1]
      nlinarith [sq_nonneg (2 * (dot r.1 x - dot r.1 y) - (r.2 - r'.2))]
  have hs : sumSq (List.zipWith (· - ·) y x) = sumSq (List.zipWith (· - ·) x y) := by
    rw [sumSq, sumSq, List.map_zipWith, List.map_zipWith, List.zipWith_comm]
    congr 2
    funext a b
    ring
  simp only [objective, gap, hs] at h1 h2
  linarith

theorem SamePoints.rows {c c' : Constrain K} (hc : SamePoints c c') (e : Env K) {eq eq' : Eq K} (hm : eq'.machine = eq.machine) :
    List.Forall₂ (fun r r' : Row K => r'.1 = r.1) (specRows e c eq) (specRows e c' eq') := by
  have h : (specRows e c' eq').map Prod.fst = (specRows e c eq).map Prod.fst := by
    have hp : c'.psivals.map (fun p => eq.machine.controlResponse e .psi p.1 p.2.1) = c.psivals.map fun p => eq.machine.controlResponse e .psi p.1 p.2.1 := by
      have := congrArg (List.map fun p : K × K => eq.machine.controlResponse e .psi p.1 p.2) hc.psivals
      simpa only [List.map_map, Function.comp_def] using this
    simp only [specRows, hm, hc.xpoints, hc.isoflux, List.map_append, List.map_flatten, List.map_map, Function.comp_def, List.map_cons, List.map_nil, hp]
  have h2 : List.Forall₂ (fun a b : List K => a = b) ((specRows e c eq).map Prod.fst) ((specRows e c' eq').map Prod.fst) := by
    rw [← h]
    exact List.forall₂_refl _
  rw [List.forall₂_map_left_iff, List.forall₂_map_right_iff] at h2
  exact h2.imp fun _ _ h => h.symm

theorem rhs_gap (e : Env K) (c c' : Constrain K) (eq eq' : Eq K) :
    sumSq (List.zipWith (fun r r' : Row K => r.2 - r'.2) (specRows e c eq) (specRows e c' eq')) =
      sumSq (List.zipWith (· - ·) (constraintErrors e c eq) (constraintErrors e c' eq')) := by
  have h := residuals e c eq []
  have h' := residuals e c' eq' []
  rw [adjusted_nil] at h h'
  rw [← h, ← h']
  simp only [sumSq, List.zipWith_map, List.map_zipWith]
  congr 2
  funext r r'
  simp only [dot, List.zipWith_nil_right, List.sum_nil]
  ring

/-- **C126.** Two calls of `constrain` on the same machine, with the same points, limits and regularisation but other flux values or another
plasma, with optimisers that solve their problems: `4 * gamma^2` times the squared difference of the controlled currents that they leave is at
most the squared difference of the constraint errors that they find. -/
theorem C126_stable (e : Env K) (opt opt' : Problem K → List K) {c c' : Constrain K} (hc : SamePoints c c') {eq eq' : Eq K}
    (hm : eq'.machine = eq.machine) (ho : ∀ p eq1, problem e c eq = .ok (p, eq1) → p.Minimises (opt p))
    (ho' : ∀ p eq1, problem e c' eq' = .ok (p, eq1) → p.Minimises (opt' p)) {x x' : List K} {eq2 eq2' : Eq K}
    (h : call e opt c eq = .ok (x, eq2)) (h' : call e opt' c' eq' = .ok (x', eq2')) :
    4 * c.gamma ^ 2 * sumSq (List.zipWith (· - ·) eq2.machine.controlCurrents eq2'.machine.controlCurrents) ≤
      sumSq (List.zipWith (· - ·) (constraintErrors e c eq) (constraintErrors e c' eq')) := by
  obtain ⟨p, eq1, hp, rfl, hx⟩ := call_ok h
  obtain ⟨p', eq1', hp', rfl, hx'⟩ := call_ok h'
  obtain ⟨-, h1, rfl, h2, h3, -, h4⟩ := problem_items hp
  obtain ⟨-, h1', rfl, h2', h3', -, h4'⟩ := problem_items hp'
  obtain ⟨-, o1, -⟩ := problem_ok hp
  obtain ⟨-, o1', -⟩ := problem_ok hp'
  have hmin := ho p _ hp
  have hmin' := ho' p' _ hp'
  have solved : ∀ (p : Problem K) (x y : List K), p.Minimises y → (x = y ∨ x = p.x0 ∧ p.x0 = []) → x = y := by
    intro p x y hy hx
    rcases hx with hx | ⟨hx, hx0⟩
    · exact hx
    · have := hy.1
      rw [hx0, List.length_nil, List.length_eq_zero_iff] at this
      rw [hx, hx0, this]
  have hxo := solved p x _ hmin hx
  have hxo' := solved p' x' _ hmin' hx'
  rw [← hxo] at hmin
  rw [← hxo'] at hmin'
  have hitems : items c' eq' = items c eq := by rw [items, items, hm, hc.limits]
  have hineq : p'.ineq = p.ineq := by rw [h4, h4', hc.total, hm]
  have hbnd : p'.bounds = p.bounds := by rw [h3, h3', hitems]
  have hlen : x.length = eq.machine.controlCurrents.length := by rw [hmin.1, h2, items_controlled h1]
  have hlen' : x'.length = eq.machine.controlCurrents.length := by rw [hmin'.1, h2', hitems, items_controlled h1]
  have hhon : ∀ y, p'.Honours y ↔ p.Honours y := fun y => by simp only [Problem.Honours, hbnd, hineq]
  have g1 := minimises_gap hp hmin (by rw [hlen, hlen']) ((hhon x').mp hmin'.2.1)
  have g2 := minimises_gap hp' hmin' (by rw [hlen, hlen']) ((hhon x).mpr hmin.2.1)
  rw [o1] at g1
  rw [o1', hc.gamma] at g2
  have main := two_gap c.gamma x x' _ _ (hc.rows e hm) g1 g2
  rw [rhs_gap] at main
  refine le_trans (le_of_eq ?_) main
  have hs : eq.sync.machine.controlCurrents = eq.machine.controlCurrents := Machine.controlCurrents_sync _
  have hs' : eq'.sync.machine.controlCurrents = eq.machine.controlCurrents := (Machine.controlCurrents_sync _).trans (by rw [hm])
  rw [Eq.adjusted, Eq.adjusted, (C19_control_interface e eq.sync.machine x (by rw [hs, hlen])).2.1,
    (C19_control_interface e eq'.sync.machine x' (by rw [hs', hlen'])).2.1, hs, hs']
  congr 2
  apply List.ext_getElem
  · simp [hlen, hlen']
  · intro i _ _
    simp

/-- **C126** (flux values). If only the requested flux values differ, `2 * gamma` times the difference of the currents is at most the difference of these. -/
theorem C126_flux_values (e : Env K) (opt opt' : Problem K → List K) {c c' : Constrain K} (hc : SamePoints c c') {eq : Eq K}
    (ho : ∀ p eq1, problem e c eq = .ok (p, eq1) → p.Minimises (opt p))
    (ho' : ∀ p eq1, problem e c' eq = .ok (p, eq1) → p.Minimises (opt' p)) {x x' : List K} {eq2 eq2' : Eq K}
    (h : call e opt c eq = .ok (x, eq2)) (h' : call e opt' c' eq = .ok (x', eq2')) :
    4 * c.gamma ^ 2 * sumSq (List.zipWith (· - ·) eq2.machine.controlCurrents eq2'.machine.controlCurrents) ≤
      sumSq (List.zipWith (· - ·) (c.psivals.map fun p => p.2.2) (c'.psivals.map fun p => p.2.2)) := by
  refine (C126_stable e opt opt' hc rfl ho ho' h h').trans (le_of_eq ?_)
  have zero : ∀ l : List K, sumSq (List.zipWith (· - ·) l l) = 0 := by
    intro l
    rw [sumSq_eq_zero]
    intro v hv
    rw [List.zipWith_self, List.mem_map] at hv
    obtain ⟨a, -, rfl⟩ := hv
    exact sub_self a
  have app : ∀ a b : List K, sumSq (a ++ b) = sumSq a + sumSq b := fun a b => by simp [sumSq]
  rw [constraintErrors, constraintErrors, hc.xpoints, hc.isoflux]
  rw [List.zipWith_append (by simp), app, zero, zero_add]
  have hp := hc.psivals
  generalize c.psivals = l at hp ⊢
  generalize c'.psivals = l' at hp ⊢
  induction l generalizing l' with
  | nil => simp
  | cons a l ih =>
    cases l' with
    | nil => simp at hp
    | cons b l' =>
      simp only [List.map_cons, List.cons.injEq, Prod.mk.injEq] at hp
      have := ih l' hp.2
      simp only [sumSq, List.map_cons, List.zipWith_cons_cons, List.sum_cons] at this ⊢
      rw [this, hp.1.1, hp.1.2]
      ring

/-- **C126** (plasma). If only the plasma differs, `2 * gamma` times the difference of the currents is at most that of
its field and flux at the points of the request. -/
theorem C126_plasma (e : Env K) (opt opt' : Problem K → List K) {c : Constrain K} {eq eq' : Eq K} (hm : eq'.machine = eq.machine)
    (ho : ∀ p eq1, problem e c eq = .ok (p, eq1) → p.Minimises (opt p))
    (ho' : ∀ p eq1, problem e c eq' = .ok (p, eq1) → p.Minimises (opt' p)) {x x' : List K} {eq2 eq2' : Eq K}
    (h : call e opt c eq = .ok (x, eq2)) (h' : call e opt' c eq' = .ok (x', eq2')) :
    let D := fun q R Z => eq.plasma q R Z - eq'.plasma q R Z
    4 * c.gamma ^ 2 * sumSq (List.zipWith (· - ·) eq2.machine.controlCurrents eq2'.machine.controlCurrents) ≤
      sumSq ((c.xpoints.map fun p => [D .br p.1 p.2, D .bz p.1 p.2]).flatten ++ (c.isoflux.map fun p => D .psi p.1 p.2.1 - D .psi p.2.2.1 p.2.2.2) ++
        c.psivals.map fun p => D .psi p.1 p.2.1) := by
  intro D
  refine (C126_stable e opt opt' ⟨rfl, rfl, rfl, rfl, rfl, rfl⟩ hm ho ho' h h').trans (le_of_eq ?_)
  have hread : ∀ q R Z, eq.read e q R Z - eq'.read e q R Z = D q R Z := by
    intro q R Z
    simp only [Eq.read, Eq.field, hm, D]
    ring
  congr 1
  rw [constraintErrors, constraintErrors, List.zipWith_append (by simp [Function.comp_def]), List.zipWith_append (by simp [Function.comp_def])]
  refine congrArg₂ _ (congrArg₂ _ ?_ ?_) ?_
  · induction c.xpoints with
    | nil => simp
    | cons p l ih =>
      simp only [List.map_cons, List.flatten_cons, List.cons_append, List.nil_append, List.zipWith_cons_cons, ih, hread]
  · rw [List.zipWith_map, List.zipWith_self]
    refine List.map_congr_left fun p _ => ?_
    rw [← hread, ← hread]
    ring
  · rw [List.zipWith_map, List.zipWith_self]
    refine List.map_congr_left fun p _ => ?_
    rw [← hread]
    ring

/-- Two requests that differ in the flux value only, for the same equilibrium; the start values solve both problems, and both calls succeed. -/
example : SamePoints (K := ℚ) { gamma := 1, psivals := [(2, 0, 7)] } { gamma := 1, psivals := [(2, 0, 8)] } ∧
    (∀ p eq1, problem exEnv { gamma := 1, psivals := [(2, 0, 7)] } threeCoils = .ok (p, eq1) → p.Minimises p.x0) ∧
    (∀ p eq1, problem exEnv { gamma := 1, psivals := [(2, 0, 8)] } threeCoils = .ok (p, eq1) → p.Minimises p.x0) ∧
    (∃ r, call exEnv (fun p => p.x0) { gamma := 1, psivals := [(2, 0, 7)] } threeCoils = .ok r) ∧
    ∃ r, call exEnv (fun p => p.x0) { gamma := 1, psivals := [(2, 0, 8)] } threeCoils = .ok r :=
  ⟨⟨rfl, rfl, rfl, rfl, rfl, rfl⟩, fun _ _ h => C99_control_start (by norm_num) rfl rfl h, fun _ _ h => C99_control_start (by norm_num) rfl rfl h,
    call_succeeds (by norm_num) (by simp) rfl, call_succeeds (by norm_num) (by simp) rfl⟩

/-- The same request for the same coils with another plasma; the start values solve both problems, and both calls succeed. -/
example : ({ threeCoils with plasma := fun _ R _ => R } : Eq ℚ).machine = threeCoils.machine ∧
    (∀ p eq1, problem exEnv { gamma := 1, psivals := [(2, 0, 7)] } threeCoils = .ok (p, eq1) → p.Minimises p.x0) ∧
    (∀ p eq1, problem exEnv { gamma := 1, psivals := [(2, 0, 7)] } { threeCoils with plasma := fun _ R _ => R } = .ok (p, eq1) → p.Minimises p.x0) ∧
    (∃ r, call exEnv (fun p => p.x0) { gamma := 1, psivals := [(2, 0, 7)] } threeCoils = .ok r) ∧
    ∃ r, call exEnv (fun p => p.x0) { gamma := 1, psivals := [(2, 0, 7)] } { threeCoils with plasma := fun _ R _ => R } = .ok r :=
  ⟨rfl, fun _ _ h => C99_control_start (by norm_num) rfl rfl h, fun _ _ h => C99_control_start (by norm_num) rfl rfl h,
    call_succeeds (by norm_num) (by simp) rfl, call_succeeds (by norm_num) (by simp) rfl⟩

end FreeGS.Control
