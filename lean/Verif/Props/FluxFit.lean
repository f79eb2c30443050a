import Verif.Props.Control

/-!
# C25, C65: fits of the coil currents to a flux map
-/

set_option linter.unusedSectionVars false

namespace FreeGS.Control

variable {K : Type*} [Field K] [LinearOrder K]

theorem zipWith_add_const (k : K) : ∀ a ws : List K, ws.length = a.length →
    (List.zipWith (· * ·) (a.map (· + k)) ws).sum = (List.zipWith (· * ·) a ws).sum + k * ws.sum := by
  intro a
  induction a with
  | nil => intro ws h; simp [List.length_eq_zero_iff.mp h]
  | cons x a ih =>
    intro ws h
    cases ws with
    | nil => simp at h
    | cons w ws =>
      simp only [List.map_cons, List.zipWith_cons_cons, List.sum_cons, ih ws (by simpa using h)]
      ring

theorem average_add_const (k : K) (a : List K) (w : Weights K) :
    average (a.map (· + k)) w = (average a w).map (· + k) := by
  cases w with
  | scalar w => rfl
  | array ws =>
    simp only [average, List.length_map]
    split
    · rename_i h
      split
      · rfl
      · rename_i h0
        rw [zipWith_add_const k a ws h]
        simp only [Except.map]
        congr 1
        field_simp
    · rfl

theorem psiLoop_add_const (m : Machine K) (k : K) : ∀ ts (ps : List K),
    psiLoop m ts (ps.map (· + k)) = (psiLoop m ts ps).map fun l => l.map (· + k) := by
  intro ts
  induction ts with
  | nil => intro ps; cases ps <;> rfl
  | cons t ts ih =>
    intro ps
    cases ps with
    | nil => rfl
    | cons p ps =>
      simp only [List.map_cons, psiLoop, ih]
      cases m.calcFromGreens t with
      | error _ => rfl
      | ok v =>
        simp only
        cases psiLoop m ts ps with
        | error _ => rfl
        | ok rest =>
          simp only [Except.map, List.map_cons, Except.ok.injEq, List.cons.injEq, and_true]
          ring

theorem zipWith_shift (k av : K) : ∀ psi target : List K,
    List.zipWith (fun p t => p - (av + k) - t) (psi.map (· + k)) target =
      List.zipWith (fun p t => p - av - t) psi target := by
  intro psi target
  rw [List.zipWith_map_left]
  congr 1
  funext p t
  ring

theorem difference_plasma_shift (k : K) (target : List K) (w : Weights K) (g : Grid K) (m : Machine K)
    (currents : List K) :
    difference target w { g with plasma := g.plasma.map (· + k) } m currents =
      difference target w g m currents := by
  simp only [difference, Grid.psi, psiLoop_add_const]
  cases psiLoop (m.setControlCurrents currents) g.tables g.plasma with
  | error _ => rfl
  | ok psi =>
    simp only [Except.map, average_add_const]
    cases average psi w with
    | error _ => rfl
    | ok av => simp only [zipWith_shift]

/-- **C25 (`ConstrainPsi2D`).** Adding a constant to the target gives the same fit (same object, or the same
exception), and adding a constant to the plasma flux gives, for all currents, the same residual. -/
theorem C25_offset_ignored (k : K) (target : List K) (weights : Option (Weights K)) (c : Psi2D K) (g : Grid K)
    (m : Machine K) (currents : List K) :
    Psi2D.make (target.map (· + k)) weights = Psi2D.make target weights ∧
    c.difference { g with plasma := g.plasma.map (· + k) } m currents = c.difference g m currents := by
  refine ⟨?_, difference_plasma_shift k _ _ g m currents⟩
  simp only [Psi2D.make, List.length_map, average_add_const]
  cases average target (weights.getD (.array (List.replicate target.length 1))) with
  | error _ => rfl
  | ok av =>
    simp only [Except.map, List.map_map, Except.ok.injEq, Psi2D.mk.injEq, and_true]
    refine List.map_congr_left fun t _ => ?_
    simp only [Function.comp_apply]
    ring

/-- **C25 (`ConstrainPsi2DAdvanced`).** The plasma flux may be shifted by a constant here as well. Missing: the same
for the target, which is false (`C25_advanced_target_offset_matters`). -/
theorem C25_advanced_plasma_offset_partial (k : K) (c : Psi2DAdvanced K) (g : Grid K) (m : Machine K)
    (currents : List K) :
    c.difference { g with plasma := g.plasma.map (· + k) } m currents = c.difference g m currents := by
  simp only [Psi2DAdvanced.difference, difference_plasma_shift]

/-- A machine with one controlled coil and a grid of two points. -/
def fitMachine : Machine ℚ := ⟨[("A", .coil (.point (PointCoil.make 1 0 3)))]⟩

/-- Tables and plasma flux of the two grid points. -/
def fitGrid : Grid ℚ where
  tables := [fun _ => some (.val 2), fun _ => some (.val 5)]
  plasma := [10, 20]

/-- **C25 refuted for `ConstrainPsi2DAdvanced`.** Adding one to the target changes the function that is minimised:
the average of the target is not removed. -/
theorem C25_advanced_target_offset_matters : ∃ (target : List ℚ) (w : Weights ℚ) (currents : List ℚ),
    (Psi2DAdvanced.make target w).difference fitGrid fitMachine currents = .ok (225 / 2) ∧
    (Psi2DAdvanced.make (target.map (· + 1)) w).difference fitGrid fitMachine currents = .ok (229 / 2) :=
  ⟨[1, -1], .array [1, 1], [1], by decide +kernel, by decide +kernel⟩

/-- A fit that is set up without exception, and its residual. -/
example : (Psi2D.make [(1 : ℚ), 3]).map (fun c => (c.target, c.difference fitGrid fitMachine [1])) =
    .ok ([-1, 1], .ok [-11 / 2, 11 / 2]) := by decide +kernel

/-! ## Current limits of the bounded fits -/

/-- `v` lies between the two numbers of a limit, in either order. -/
def Between (v : K) (lim : K × K) : Prop := min lim.1 lim.2 ≤ v ∧ v ≤ max lim.1 lim.2

theorem clampStart_between (lim : K × K) (sc : K) : Between (clampStart lim sc) lim := by
  have hle : min lim.1 lim.2 ≤ max lim.1 lim.2 := min_le_max
  simp only [clampStart, Between]
  split
  · assumption
  · split
    · exact ⟨le_refl _, hle⟩
    · exact ⟨hle, le_refl _⟩

theorem advancedStart_ok (ls : List (K × K)) : ∀ (cs : List K) (i : ℕ) st,
    advancedStart (some ls) cs i = .ok st →
      List.Forall₂ Between (st.map Prod.fst) (st.map Prod.snd) ∧ st.length = cs.length ∧
      ∀ j : ℕ, j < cs.length → ∃ lim, ls[i + j]? = some lim ∧
        (st.map Prod.snd)[j]? = some (min lim.1 lim.2, max lim.1 lim.2) := by
  intro cs
  induction cs with
  | nil =>
    intro i st h
    simp only [advancedStart, Except.ok.injEq] at h
    subst h
    simp
  | cons sc cs ih =>
    intro i st h
    simp only [advancedStart] at h
    split at h
    · cases h
    rename_i lim hlim
    split at h
    · cases h
    rename_i r hr
    simp only [Except.ok.injEq] at h
    subst h
    obtain ⟨h1, h2, h3⟩ := ih (i + 1) r hr
    refine ⟨List.Forall₂.cons ?_ h1, by simp [h2], ?_⟩
    · have := clampStart_between lim sc
      have hle : min lim.1 lim.2 ≤ max lim.1 lim.2 := min_le_max
      simp only [Between] at this ⊢
      rwa [min_eq_left hle, max_eq_right hle]
    · intro j hj
      cases j with
      | zero => exact ⟨lim, by simpa using hlim, by simp⟩
      | succ j =>
        obtain ⟨lim', h4, h5⟩ := h3 j (by simpa using hj)
        exact ⟨lim', by rw [← h4]; congr 1; omega, by simpa using h5⟩

/-- **C65.** Let the bounded fits run with any optimiser that stays within the bounds whenever it is started
within the bounds. If the call succeeds, the `j`-th controlled entry's current lies between the two numbers of the
`j`-th limit, in whichever order they are given; labels and control flags and the uncontrolled entries are
unchanged. Missing: limits are matched with the controlled coils only, while `constrain` matches them with
all coils; the default arguments fail (`C65_default_limits_fail`, `C65_default_weights_fail`). -/
theorem C65_limits_partial (lbfgs : (List K → Except Err K) → List K → List (K × K) → Except Err (List K))
    (hopt : ∀ f x0 bs x, List.Forall₂ Between x0 bs → lbfgs f x0 bs = .ok x → List.Forall₂ Between x bs)
    (diff : List K → Except Err K) (ls : List (K × K)) (m m' : Machine K)
    (h : advancedCall lbfgs diff (some ls) m = .ok m') :
    (∀ (j : ℕ) I, m'.controlCurrents[j]? = some I → ∃ lim, ls[j]? = some lim ∧ Between I lim) ∧
    m'.coils.map (fun x => (x.1, x.2.control)) = m.coils.map (fun x => (x.1, x.2.control)) ∧
    m'.coils.filter (fun x => !x.2.control) = m.coils.filter (fun x => !x.2.control) := by
  rw [advancedCall] at h
  split at h
  · cases h
  rename_i st hst
  obtain ⟨h1, h2, h3⟩ := advancedStart_ok ls _ _ _ hst
  split at h
  · cases h
  rename_i x hx
  simp only [Except.ok.injEq] at h
  have hf := hopt _ _ _ _ h1 hx
  have hl : x.length = m.controlCurrents.length := by rw [hf.length_eq]; simpa using h2
  refine ⟨fun j I hj => ?_, ?_, ?_⟩
  · subst h
    have hc : (m.setControlCurrents x).controlCurrents = x := by
      rw [C19_other_lengths, hl]
      simp [← hl]
    rw [hc] at hj
    obtain ⟨hjl, _⟩ := List.getElem?_eq_some_iff.mp hj
    obtain ⟨lim, h4, h5⟩ := h3 j (by omega)
    refine ⟨lim, by simpa using h4, ?_⟩
    have := forall₂_getElem? hf hj h5
    have hle : min lim.1 lim.2 ≤ max lim.1 lim.2 := min_le_max
    simp only [Between] at this ⊢
    rwa [min_eq_left hle, max_eq_right hle] at this
  · subst h; exact Machine.zipControl_keys _ _ _
  · subst h; exact Machine.zipControl_uncontrolled _ _ _

/-- **C65 (start values).** If all currents are within their limits already, the optimiser is started at
exactly these currents, so one that returns its start value leaves the machine's controlled currents alone. -/
theorem C65_start_unchanged (diff : List K → Except Err K) (ls : List (K × K)) (m : Machine K)
    (h : ∀ (j : ℕ) I, m.controlCurrents[j]? = some I → ∃ lim, ls[j]? = some lim ∧ Between I lim) :
    ∃ m', advancedCall (fun _ x0 _ => .ok x0) diff (some ls) m = .ok m' ∧
      m'.controlCurrents = m.controlCurrents := by
  have key : ∀ (cs : List K) (i : ℕ),
      (∀ (j : ℕ) I, cs[j]? = some I → ∃ lim, ls[i + j]? = some lim ∧ Between I lim) →
      ∃ st, advancedStart (some ls) cs i = .ok st ∧ st.map Prod.fst = cs := by
    intro cs
    induction cs with
    | nil => intro i _; exact ⟨[], rfl, rfl⟩
    | cons c cs ih =>
      intro i hi
      obtain ⟨lim, h1, h2⟩ := hi 0 c (by simp)
      obtain ⟨st, h3, h4⟩ := ih (i + 1) fun j I hj => by
        obtain ⟨lim, h5, h6⟩ := hi (j + 1) I (by simpa using hj)
        exact ⟨lim, by rw [← h5]; congr 1; omega, h6⟩
      simp only [add_zero] at h1
      refine ⟨_, by simp only [advancedStart, h1, h3]; rfl, ?_⟩
      simp only [List.map_cons, h4, List.cons.injEq, and_true, clampStart]
      exact if_pos h2
  obtain ⟨st, h1, h2⟩ := key m.controlCurrents 0 (by simpa using h)
  refine ⟨_, by simp only [advancedCall, h1]; rfl, ?_⟩
  rw [h2, C19_other_lengths]
  simp

/-- **C65 refuted (default limits).** Without `current_lims` the call raises `TypeError` as soon as there is a
controlled coil, whatever the optimiser. -/
theorem C65_default_limits_fail
    (lbfgs : (List K → Except Err K) → List K → List (K × K) → Except Err (List K))
    (target : List K) (w : Weights K) (g : Grid K) (m : Machine K) (h : m.controlCurrents ≠ []) :
    advancedCall lbfgs ((Psi2DAdvanced.make target w).difference g m) (Psi2DAdvanced.make target w).currentLims m =
      .error .type := by
  obtain ⟨a, l, h⟩ := List.exists_cons_of_ne_nil h
  simp [advancedCall, Psi2DAdvanced.make, h, advancedStart]

/-- **C65 refuted (default weights).** With the default weight `1.0`, the function to be minimised raises `TypeError`
for all currents for which the flux can be computed. -/
theorem C65_default_weights_fail (target : List K) (lims : Option (List (K × K))) (g : Grid K)
    (m : Machine K) (currents : List K) (psi : List K)
    (h : g.psi (m.setControlCurrents currents) = .ok psi) :
    (Psi2DAdvanced.make target (currentLims := lims)).difference g m currents = .error .type := by
  simp [Psi2DAdvanced.difference, difference, Psi2DAdvanced.make, h, average]

/-- Cases meeting the hypotheses of the C65 theorems: limits in the wrong order, start value 3 outside. -/
example : (advancedCall (fun _ x0 _ => .ok x0) (fun _ => .ok 0) (some [(2, (1 : ℚ))]) fitMachine).map
      (fun m => m.controlCurrents) = .ok [2] ∧
    fitGrid.psi (fitMachine.setControlCurrents [7]) = .ok [24, 55] ∧ fitMachine.controlCurrents = [3] := by
  decide +kernel

end FreeGS.Control
