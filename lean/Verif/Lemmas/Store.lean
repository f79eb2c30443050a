import Verif.Spec.Store
import Mathlib.Tactic.Ring

/-! # Lemmas on `FreeGS.Store` -/

set_option linter.unusedSectionVars false

namespace FreeGS.Store

open FreeGS.GS FreeGS.Critical FreeGS.Equil

universe u
variable {K : Type u} [Field K] [LinearOrder K] {C : Type u}

/-! ## Worlds -/

@[simp] theorem write_next (w : World C K) (r : Ref) (v : Arr K) : (w.write r v).next = w.next := rfl
@[simp] theorem write_eqs (w : World C K) (r : Ref) (v : Arr K) : (w.write r v).eqs = w.eqs := rfl
@[simp] theorem write_machines (w : World C K) (r : Ref) (v : Arr K) : (w.write r v).machines = w.machines := rfl
@[simp] theorem write_count (w : World C K) (r : Ref) (v : Arr K) : (w.write r v).count = w.count := rfl
@[simp] theorem write_same (w : World C K) (r : Ref) (v : Arr K) : (w.write r v).arrays r = v := by simp [World.write]
theorem write_other (w : World C K) {r q : Ref} (v : Arr K) (h : q ≠ r) : (w.write r v).arrays q = w.arrays q := by
  simp [World.write, Function.update_of_ne h]
@[simp] theorem alloc_next (w : World C K) (v : Arr K) : (w.alloc v).next = w.next + 1 := rfl
@[simp] theorem alloc_eqs (w : World C K) (v : Arr K) : (w.alloc v).eqs = w.eqs := rfl
@[simp] theorem alloc_machines (w : World C K) (v : Arr K) : (w.alloc v).machines = w.machines := rfl
@[simp] theorem alloc_count (w : World C K) (v : Arr K) : (w.alloc v).count = w.count := rfl
@[simp] theorem alloc_same (w : World C K) (v : Arr K) : (w.alloc v).arrays w.next = v := by simp [World.alloc]
theorem alloc_other (w : World C K) {q : Ref} (v : Arr K) (h : q ≠ w.next) : (w.alloc v).arrays q = w.arrays q := by
  simp [World.alloc, Function.update_of_ne h]
@[simp] theorem setEq_arrays (w : World C K) (i : ℕ) (o : Obj K) : (w.setEq i o).arrays = w.arrays := rfl
@[simp] theorem setEq_next (w : World C K) (i : ℕ) (o : Obj K) : (w.setEq i o).next = w.next := rfl
@[simp] theorem setEq_machines (w : World C K) (i : ℕ) (o : Obj K) : (w.setEq i o).machines = w.machines := rfl
@[simp] theorem setEq_count (w : World C K) (i : ℕ) (o : Obj K) : (w.setEq i o).count = w.count := rfl
@[simp] theorem setEq_same (w : World C K) (i : ℕ) (o : Obj K) : (w.setEq i o).eqs i = o := by simp [World.setEq]
theorem setEq_other (w : World C K) {i j : ℕ} (o : Obj K) (h : j ≠ i) : (w.setEq i o).eqs j = w.eqs j := by
  simp [World.setEq, Function.update_of_ne h]
@[simp] theorem setAttrs_arrays (w : World C K) (i : ℕ) (a : Attrs K) : (w.setAttrs i a).arrays = w.arrays := rfl
@[simp] theorem setAttrs_next (w : World C K) (i : ℕ) (a : Attrs K) : (w.setAttrs i a).next = w.next := rfl
@[simp] theorem setAttrs_machines (w : World C K) (i : ℕ) (a : Attrs K) : (w.setAttrs i a).machines = w.machines := rfl
@[simp] theorem setAttrs_count (w : World C K) (i : ℕ) (a : Attrs K) : (w.setAttrs i a).count = w.count := rfl
@[simp] theorem setAttrs_same (w : World C K) (i : ℕ) (a : Attrs K) : (w.setAttrs i a).eqs i = { w.eqs i with attrs := a } := by
  simp [World.setAttrs]
theorem setAttrs_other (w : World C K) {i j : ℕ} (a : Attrs K) (h : j ≠ i) : (w.setAttrs i a).eqs j = w.eqs j := by
  simp [World.setAttrs, setEq_other w _ h]

theorem setEq_self (w : World C K) (i : ℕ) : w.setEq i (w.eqs i) = w := by
  simp [World.setEq]

theorem setAttrs_setAttrs (w : World C K) (i : ℕ) (a b : Attrs K) : (w.setAttrs i a).setAttrs i b = w.setAttrs i b := by
  simp [World.setAttrs, World.setEq]

@[simp] theorem view_setAttrs (w : World C K) (i : ℕ) (a : Attrs K) : (w.setAttrs i a).view i = put (w.view i) a := by
  simp only [World.view, setAttrs_same, setAttrs_machines, setAttrs_arrays, put]

theorem put_put (st : State C K) (a b : Attrs K) : put (put st a) b = put st b := rfl

/-! ## Only -/

theorem Only.refl (i : ℕ) (w : World C K) : Only i w w :=
  ⟨fun _ _ _ => rfl, le_rfl, fun _ _ => rfl, rfl, fun _ _ => rfl, rfl, .inl rfl⟩

theorem Only.trans {i : ℕ} {w w' w'' : World C K} (h : Only i w w') (g : Only i w' w'') : Only i w w'' where
  arrays r h1 h2 := by
    rw [g.arrays r (lt_of_lt_of_le h1 h.next), h.arrays r h1 h2]
    rcases h.psi with e | e
    · rwa [e]
    · have := e.1; omega
  next := le_trans h.next g.next
  machines m hm := by rw [g.machines m (by rwa [h.machine]), h.machines m hm]
  count := by rw [g.count, h.count]
  others j hj := by rw [g.others j hj, h.others j hj]
  machine := by rw [g.machine, h.machine]
  psi := by
    have h1 := h.next
    have h2 := g.next
    rcases g.psi with e | e
    · rcases h.psi with f | f
      · left; rw [e, f]
      · right; rw [e]; exact ⟨f.1, lt_of_lt_of_le f.2 h2⟩
    · right; exact ⟨le_trans h1 e.1, e.2⟩

theorem Only.write (i : ℕ) (w : World C K) (v : Arr K) : Only i w (w.write (w.eqs i).psi v) :=
  ⟨fun _ _ h => write_other w v h, le_rfl, fun _ _ => rfl, rfl, fun _ _ => rfl, rfl, .inl rfl⟩

theorem Only.alloc (i : ℕ) (w : World C K) (v : Arr K) : Only i w (w.alloc v) :=
  ⟨fun _ h _ => alloc_other w v (by omega), Nat.le_succ _, fun _ _ => rfl, rfl, fun _ _ => rfl, rfl, .inl rfl⟩

theorem Only.setEq (i : ℕ) (w : World C K) (o : Obj K) (hm : o.machine = (w.eqs i).machine) (hp : o.psi = (w.eqs i).psi) :
    Only i w (w.setEq i o) :=
  ⟨fun _ _ _ => rfl, le_rfl, fun _ _ => rfl, rfl, fun _ h => setEq_other w o h, by simp [hm], .inl (by simp [hp])⟩

theorem Only.setAttrs (i : ℕ) (w : World C K) (a : Attrs K) : Only i w (w.setAttrs i a) := Only.setEq i w _ rfl rfl

/-! ## Steps -/

theorem updateBoundary_only (s : Setup C K) (i : ℕ) (q : Arr K) (w : World C K) : Only i w (updateBoundary s i q w).2 := by
  rw [updateBoundary]; exact Only.setAttrs i w _

theorem updateBoundary_world (s : Setup C K) (i : ℕ) (q : Arr K) (w : World C K) :
    ∃ a, (updateBoundary s i q w).2 = w.setAttrs i a := ⟨_, rfl⟩

theorem callSolver_arrays (s : Setup C K) (i : ℕ) (rhs : Arr K) (w : World C K) :
    Only i w (callSolver s (w.eqs i).psi rhs w).2 ∧ (callSolver s (w.eqs i).psi rhs w).2.machines = w.machines ∧
      (callSolver s (w.eqs i).psi rhs w).2.eqs = w.eqs ∧
      ((callSolver s (w.eqs i).psi rhs w).1 = (w.eqs i).psi ∨
        (callSolver s (w.eqs i).psi rhs w).1 = w.next ∧ (callSolver s (w.eqs i).psi rhs w).2.next = w.next + 1) := by
  rw [callSolver]
  split
  · exact ⟨Only.write i w _, rfl, rfl, .inl rfl⟩
  · exact ⟨Only.alloc i w _, rfl, rfl, .inr ⟨rfl, rfl⟩⟩

theorem applyBoundary_only (s : Setup C K) (J : Arr K) (i : ℕ) (w : World C K) :
    Only i w (applyBoundary s J (w.eqs i).psi w).2 ∧ (applyBoundary s J (w.eqs i).psi w).2.machines = w.machines ∧
      (applyBoundary s J (w.eqs i).psi w).2.eqs = w.eqs := by
  rw [applyBoundary]
  split
  · exact ⟨Only.write i w _, rfl, rfl⟩
  · exact ⟨Only.write i w _, rfl, rfl⟩
  · obtain ⟨h1, h2, h3, -⟩ := callSolver_arrays s i (setEdge s.nx s.ny (fun c => s.R c.1 * J c) fun _ => 0) w
    simp only
    split
    · exact ⟨h1, h2, h3⟩
    · refine ⟨h1.trans ?_, h2, h3⟩
      have h4 := congrFun h3 i
      rw [← h4]
      rw [h4]
      have := Only.write i (callSolver s (w.eqs i).psi (setEdge s.nx s.ny (fun c => s.R c.1 * J c) fun _ => 0) w).2
        (hagenowRun (hagenowIntegral s.green s.nx s.ny s.R s.Z (hagenowNormal s.nx s.ny (s.R 1 - s.R 0) (s.Z 1 - s.Z 0)
          (s.sqrt ((s.R 1 - s.R 0) ^ 2 + (s.Z 1 - s.Z 0) ^ 2))
          ((callSolver s (w.eqs i).psi (setEdge s.nx s.ny (fun c => s.R c.1 * J c) fun _ => 0) w).2.arrays
            (callSolver s (w.eqs i).psi (setEdge s.nx s.ny (fun c => s.R c.1 * J c) fun _ => 0) w).1))) s.R s.Z
          (hagenowPoints s.nx s.ny) ((callSolver s (w.eqs i).psi (setEdge s.nx s.ny (fun c => s.R c.1 * J c) fun _ => 0) w).2.arrays
            (w.eqs i).psi)).2
      rw [h4] at this
      exact this
  · exact ⟨Only.write i w _, rfl, rfl⟩

theorem density_only (s : Setup C K) (p : Profile C K) (i : ℕ) (given psi0 : Option Ref) (b : Option K) (w : World C K) :
    Only i w (density s p i given psi0 b w).2 ∧ (density s p i given psi0 b w).2.machines = w.machines ∧
      ((density s p i given psi0 b w).2.eqs i).psi = (w.eqs i).psi ∧
      ((density s p i given psi0 b w).2.eqs i).jtor = (w.eqs i).jtor ∧
      ∀ J, (density s p i given psi0 b w).1 = .ok J → given = some J ∨
        (w.next ≤ J ∧ J < (density s p i given psi0 b w).2.next) := by
  cases given with
  | some J => exact ⟨Only.refl i w, rfl, rfl, rfl, fun J' h => .inl (by cases h; rfl)⟩
  | none =>
    unfold density
    simp only
    split
    · next x hx => exact ⟨Only.setAttrs i w _, rfl, by simp, by simp, fun J h => by cases h⟩
    · next J' hJ =>
      exact ⟨(Only.setAttrs i w _).trans (Only.alloc i _ _), rfl, by simp, by simp, fun J h => by cases h; exact .inr ⟨le_rfl, by simp⟩⟩

/-- What the second half of the solve changes. -/
theorem finish_only (s : Setup C K) (i : ℕ) (J : Ref) (w : World C K) :
    Only i w (finish s i J w).2 ∧ (finish s i J w).2.machines = w.machines ∧
      (((finish s i J w).2.eqs i).jtor = (w.eqs i).jtor ∨ ((finish s i J w).2.eqs i).jtor = some J) := by
  obtain ⟨h1, h2, h3⟩ := applyBoundary_only s (w.arrays J) i w
  unfold finish
  rcases hb : applyBoundary s (w.arrays J) (w.eqs i).psi w with ⟨_ | x, w1⟩
  · rw [hb] at h1 h2 h3
    simp only at h1 h2 h3 ⊢
    set rhs := setEdge s.nx s.ny (fun c => -s.mu0 * s.R c.1 * w1.arrays J c) (w1.arrays (w1.eqs i).psi)
    obtain ⟨g1, g2, g3, g4⟩ := callSolver_arrays s i rhs w1
    set r := callSolver s (w1.eqs i).psi rhs w1
    clear_value r rhs
    set w2 := r.2.setEq i { r.2.eqs i with psi := r.1, attrs := { (r.2.eqs i).attrs with spline := r.2.arrays r.1 } } with hw2
    have o2 : Only i w1 w2 := by
      refine ⟨fun q hq hq' => ?_, g1.next, fun m hm => g1.machines m hm, g1.count, fun j hj => ?_, ?_, ?_⟩
      · rw [hw2, setEq_arrays]; exact g1.arrays q hq hq'
      · rw [hw2, setEq_other _ _ hj]; exact g1.others j hj
      · rw [hw2, setEq_same]; exact g1.machine
      · rw [hw2, setEq_same, setEq_next]
        rcases g4 with e | ⟨e1, e2⟩
        · exact .inl e
        · right; simp only; rw [e1, e2]; omega
    have m2 : w2.machines = w.machines := by rw [hw2, setEq_machines, g2, h2]
    have j2 : (w2.eqs i).jtor = (w.eqs i).jtor := by rw [hw2, setEq_same]; simp only; rw [g3, h3]
    clear_value w2
    have u1 := updateBoundary_only s i (psi s.env (w2.view i)) w2
    obtain ⟨a, u2⟩ := updateBoundary_world s i (psi s.env (w2.view i)) w2
    rcases hu : updateBoundary s i (psi s.env (w2.view i)) w2 with ⟨_ | x, w3⟩
    · rw [hu] at u1 u2
      simp only at u1 u2 ⊢
      split
      · refine ⟨(h1.trans o2).trans u1, ?_, .inl ?_⟩
        · rw [u2]; exact m2
        · rw [u2, setAttrs_same]; exact j2
      · refine ⟨((h1.trans o2).trans u1).trans (Only.setEq i w3 _ rfl rfl), ?_, .inr ?_⟩
        · rw [u2]; exact m2
        · rw [setEq_same]
    · rw [hu] at u1 u2
      refine ⟨(h1.trans o2).trans u1, ?_, .inl ?_⟩
      · simp only at u2 ⊢; rw [u2]; exact m2
      · simp only at u2 ⊢; rw [u2, setAttrs_same]; exact j2
  · rw [hb] at h1 h2 h3
    simp only at h1 h2 h3 ⊢
    exact ⟨h1, h2, .inl (by rw [h3])⟩

/-- What a linear solve changes. -/
theorem solve_only (s : Setup C K) (p : Profile C K) (i : ℕ) (given psi0 : Option Ref) (b : Option K) (w : World C K) :
    Only i w (solve s p i given psi0 b w).2 ∧ (solve s p i given psi0 b w).2.machines = w.machines ∧
      (((solve s p i given psi0 b w).2.eqs i).jtor = (w.eqs i).jtor ∨
        (∃ J, given = some J ∧ ((solve s p i given psi0 b w).2.eqs i).jtor = some J) ∨
        ∃ J, ((solve s p i given psi0 b w).2.eqs i).jtor = some J ∧ w.next ≤ J ∧ J < (solve s p i given psi0 b w).2.next ∧
          ((w.eqs i).psi < w.next → ((solve s p i given psi0 b w).2.eqs i).psi ≠ J)) := by
  unfold solve
  have u1 := updateBoundary_only s i (psi s.env (w.view i)) w
  obtain ⟨a, u2⟩ := updateBoundary_world s i (psi s.env (w.view i)) w
  rcases hu : updateBoundary s i (psi s.env (w.view i)) w with ⟨_ | x, w1⟩
  · rw [hu] at u1 u2
    simp only at u1 u2 ⊢
    have n1 : w1.next = w.next := by rw [u2]; rfl
    have p1 : (w1.eqs i).psi = (w.eqs i).psi := by rw [u2, setAttrs_same]
    have j1 : (w1.eqs i).jtor = (w.eqs i).jtor := by rw [u2, setAttrs_same]
    have m1 : w1.machines = w.machines := by rw [u2]; rfl
    obtain ⟨d1, d2, d3, d4, d5⟩ := density_only s p i given psi0 b w1
    rcases hd : density s p i given psi0 b w1 with ⟨x | J, w2⟩
    · rw [hd] at d1 d2 d3 d4
      simp only at d1 d2 d3 d4 ⊢
      exact ⟨u1.trans d1, d2.trans m1, .inl (d4.trans j1)⟩
    · rw [hd] at d1 d2 d3 d4 d5
      simp only at d1 d2 d3 d4 d5 ⊢
      obtain ⟨f1, f2, f3⟩ := finish_only s i J w2
      refine ⟨(u1.trans d1).trans f1, (f2.trans d2).trans m1, ?_⟩
      rcases f3 with f3 | f3
      · exact .inl ((f3.trans d4).trans j1)
      · right
        rcases d5 J rfl with d5 | ⟨d5, d6⟩
        · exact .inl ⟨J, d5, f3⟩
        · refine .inr ⟨J, f3, by omega, lt_of_lt_of_le d6 f1.next, fun hlt => ?_⟩
          rcases f1.psi with e | e
          · rw [e, d3, p1]; omega
          · have := e.1; omega
  · rw [hu] at u1 u2
    simp only at u1 u2 ⊢
    exact ⟨u1, by rw [u2]; rfl, .inl (by rw [u2, setAttrs_same])⟩

theorem adjust_only (f : Option (Constrain C K)) (i : ℕ) (w : World C K) :
    Only i w (adjust f i w).2 ∧ (adjust f i w).2.eqs = w.eqs ∧ (adjust f i w).2.arrays = w.arrays ∧ (adjust f i w).2.next = w.next ∧
      (f = none → (adjust f i w).2.machines = w.machines) := by
  cases f with
  | none => exact ⟨Only.refl i w, rfl, rfl, rfl, fun _ => rfl⟩
  | some f =>
    refine ⟨⟨fun _ _ _ => rfl, le_rfl, fun m hm => ?_, rfl, fun _ _ => rfl, rfl, .inl rfl⟩, rfl, rfl, rfl, fun h => by cases h⟩
    simp [adjust, World.setMachine, Function.update_of_ne hm]

/-- `Only`, with the reference to the current density new or as before, and not the flux array. -/
structure Own (i : ℕ) (w w' : World C K) : Prop where
  only : Only i w w'
  jtor : (w'.eqs i).jtor = (w.eqs i).jtor ∨ ∃ J, (w'.eqs i).jtor = some J ∧ w.next ≤ J ∧ J < w'.next
  ne : (w.eqs i).psi < w.next → (∀ J, (w.eqs i).jtor = some J → J < w.next) → (w.eqs i).jtor ≠ some (w.eqs i).psi →
    (w'.eqs i).jtor ≠ some (w'.eqs i).psi

theorem Own.refl (i : ℕ) (w : World C K) : Own i w w := ⟨Only.refl i w, .inl rfl, fun _ _ h => h⟩

theorem Own.trans {i : ℕ} {w w' w'' : World C K} (h : Own i w w') (g : Own i w' w'') : Own i w w'' where
  only := h.only.trans g.only
  jtor := by
    rcases g.jtor with e | ⟨J, e1, e2, e3⟩
    · rcases h.jtor with f | ⟨J, f1, f2, f3⟩
      · exact .inl (e.trans f)
      · exact .inr ⟨J, e.trans f1, f2, lt_of_lt_of_le f3 g.only.next⟩
    · exact .inr ⟨J, e1, le_trans h.only.next e2, e3⟩
  ne h1 h2 h3 := by
    refine g.ne ?_ ?_ (h.ne h1 h2 h3)
    · have := h.only.next
      rcases h.only.psi with e | e
      · rw [e]; omega
      · exact e.2
    · intro J hJ
      have := h.only.next
      rcases h.jtor with f | ⟨J', f1, f2, f3⟩
      · have := h2 J (f.symm.trans hJ); omega
      · rw [f1] at hJ; cases hJ; exact f3

theorem Own.of_only {i : ℕ} {w w' : World C K} (h : Only i w w') (hj : (w'.eqs i).jtor = (w.eqs i).jtor) : Own i w w' :=
  ⟨h, .inl hj, fun _ h2 h3 e => by
    rw [hj] at e
    rcases h.psi with f | f
    · rw [f] at e; exact h3 e
    · have := h2 _ e; omega⟩

theorem solve_own (s : Setup C K) (p : Profile C K) (i : ℕ) (psi0 : Option Ref) (b : Option K) (w : World C K) :
    Own i w (solve s p i none psi0 b w).2 := by
  obtain ⟨h1, h2, h3⟩ := solve_only s p i none psi0 b w
  rcases h3 with h3 | ⟨J, h3, -⟩ | ⟨J, h3, h4, h5, h6⟩
  · exact Own.of_only h1 h3
  · cases h3
  · exact ⟨h1, .inr ⟨J, h3, h4, h5⟩, fun e _ _ f => h6 e (by rw [h3] at f; cases f; rfl)⟩

theorem picardSolve_own (s : Setup C K) (p : Profile C K) (i : ℕ) (cl : Bool) (q : List K) (b : Option K) (w : World C K) :
    Own i w (picardSolve s p i cl q b w).2 ∧ (picardSolve s p i cl q b w).2.machines = w.machines := by
  unfold picardSolve
  refine ⟨((Own.of_only (Only.setAttrs i w _) (by simp)).trans (Own.of_only (Only.alloc i _ _) (by simp))).trans (solve_own s p i _ b _), ?_⟩
  rw [(solve_only s p i none _ b _).2.1]; rfl

theorem adjust_own (f : Option (Constrain C K)) (i : ℕ) (w : World C K) : Own i w (adjust f i w).2 :=
  Own.of_only (adjust_only f i w).1 (by rw [(adjust_only f i w).2.1])

theorem pass_own (s : Setup C K) (p : Profile C K) (f : Option (Constrain C K)) (o : Picard.Opts K) (i : ℕ) (w : World C K) (v : Vars K) :
    (∀ r, pass s p f o i w v = .stop r → Own i w r.2 ∧ (f = none → r.2.machines = w.machines)) ∧
      ∀ w' v', pass s p f o i w v = .more w' v' → Own i w w' ∧ (f = none → w'.machines = w.machines) := by
  unfold pass
  simp only
  set check : Bool := (decide (o.limitIt ≤ v.iteration) || v.hasBeenLimited) && o.checkLimited
  set bb := (if check then (w.eqs i).attrs.psiBndry else o.psiBndry)
  clear_value check bb
  obtain ⟨h1, h2⟩ := picardSolve_own s p i check v.psi bb w
  rcases hp : picardSolve s p i check v.psi bb w with ⟨_ | x, w1⟩
  · rw [hp] at h1 h2
    simp only at h1 h2 ⊢
    have a1 := adjust_own f i w1
    have a2 := (adjust_only f i w1).2.2.2.2
    rcases ha : adjust f i w1 with ⟨_ | x, w2⟩
    · rw [ha] at a1 a2
      simp only at a1 a2 ⊢
      split
      · exact ⟨fun r h => by cases h; exact ⟨h1, fun _ => h2⟩, fun w' v' h => by cases h⟩
      · split
        · exact ⟨fun r h => by cases h; exact ⟨h1.trans a1, fun e => (a2 e).trans h2⟩, fun w' v' h => by cases h⟩
        · exact ⟨fun r h => (by cases h), fun w' v' h => by cases h; exact ⟨h1.trans a1, fun e => (a2 e).trans h2⟩⟩
    · rw [ha] at a1 a2
      simp only at a1 a2 ⊢
      split
      · exact ⟨fun r h => by cases h; exact ⟨h1, fun _ => h2⟩, fun w' v' h => by cases h⟩
      · exact ⟨fun r h => by cases h; exact ⟨h1.trans a1, fun e => (a2 e).trans h2⟩, fun w' v' h => by cases h⟩
  · rw [hp] at h1 h2
    exact ⟨fun r h => by cases h; exact ⟨h1, fun _ => h2⟩, fun w' v' h => by cases h⟩

theorem picardLoop_own (s : Setup C K) (p : Profile C K) (f : Option (Constrain C K)) (o : Picard.Opts K) (i : ℕ) (fuel : ℕ) :
    ∀ (w : World C K) (v : Vars K) (r : Out C K), picardLoop s p f o i fuel w v = some r →
      Own i w r.2 ∧ (f = none → r.2.machines = w.machines) := by
  induction fuel with
  | zero => intro w v r h; cases h
  | succ n ih =>
    intro w v r h
    rw [picardLoop] at h
    obtain ⟨h1, h2⟩ := pass_own s p f o i w v
    rcases hp : pass s p f o i w v with r' | ⟨w', v'⟩
    · rw [hp] at h; cases h; exact h1 r hp
    · rw [hp] at h
      obtain ⟨g1, g2⟩ := h2 w' v' hp
      obtain ⟨g3, g4⟩ := ih w' v' r h
      exact ⟨g1.trans g3, fun e => (g4 e).trans (g2 e)⟩

theorem picard_own (s : Setup C K) (p : Profile C K) (f : Option (Constrain C K)) (o : Picard.Opts K) (i fuel : ℕ) (w : World C K)
    (r : Out C K) (h : picard s p f o i fuel w = some r) : Own i w r.2 ∧ (f = none → r.2.machines = w.machines) := by
  unfold picard at h
  have a1 := adjust_own f i w
  have a2 := (adjust_only f i w).2.2.2.2
  rcases ha : adjust f i w with ⟨_ | x, w1⟩
  · rw [ha] at a1 a2 h
    simp only at a1 a2 h
    obtain ⟨g3, g4⟩ := picardLoop_own s p f o i fuel _ _ r h
    exact ⟨a1.trans g3, fun e => (g4 e).trans (a2 e)⟩
  · rw [ha] at a1 a2 h
    cases h
    exact ⟨a1, a2⟩

/-! ## Histories -/

theorem separate_of_own {i : ℕ} {w w' : World C K} (hi : i < w.count) (h : Own i w w') (hs : Separate w) : Separate w' := by
  have hn := h.only.next
  have hp : ∀ k, k < w.count → (w'.eqs k).psi = (w.eqs k).psi ∨ k = i ∧ w.next ≤ (w'.eqs k).psi ∧ (w'.eqs k).psi < w'.next := by
    intro k hk
    by_cases e : k = i
    · subst e
      rcases h.only.psi with f | f
      · exact .inl f
      · exact .inr ⟨rfl, f⟩
    · left; rw [h.only.others k e]
  have hj : ∀ k, k < w.count → (w'.eqs k).jtor = (w.eqs k).jtor ∨ k = i ∧ ∃ J, (w'.eqs k).jtor = some J ∧ w.next ≤ J ∧ J < w'.next := by
    intro k hk
    by_cases e : k = i
    · subst e
      rcases h.jtor with f | f
      · exact .inl f
      · exact .inr ⟨rfl, f⟩
    · left; rw [h.only.others k e]
  refine ⟨fun k hk => ?_, fun k hk r hr => ?_, fun k l hk hl hne => ?_, fun k l hk hl e => ?_⟩ <;>
    rw [h.only.count] at hk <;> try rw [h.only.count] at hl
  · rcases hp k hk with e | ⟨-, -, e⟩
    · rw [e]; have := hs.psi_lt k hk; omega
    · exact e
  · rcases hj k hk with e | ⟨-, J, e1, e2, e3⟩
    · have := hs.jtor_lt k hk r (e ▸ hr); omega
    · rw [e1] at hr; cases hr; exact e3
  · have a := hs.psi_lt k hk
    have b := hs.psi_lt l hl
    rcases hp k hk with e | ⟨e0, e, -⟩ <;> rcases hp l hl with f | ⟨f0, f, -⟩
    · rw [e, f]; exact hs.psi_ne k l hk hl hne
    · omega
    · omega
    · omega
  · by_cases hkl : k = i ∧ l = i
    · obtain ⟨rfl, rfl⟩ := hkl
      exact h.ne (hs.psi_lt _ hi) (hs.jtor_lt _ hi) (hs.jtor_ne _ _ hi hi) e
    · rcases hj k hk with e1 | ⟨e0, J, e1, e2, e3⟩
      · rw [e1] at e
        rcases hp l hl with f | ⟨f0, f, -⟩
        · rw [f] at e; exact hs.jtor_ne k l hk hl e
        · have := hs.jtor_lt k hk _ e; omega
      · rw [e1] at e
        cases e
        rcases hp l hl with f | ⟨f0, f, -⟩
        · have := hs.psi_lt l hl; omega
        · exact hkl ⟨e0, f0⟩

theorem view_of_only {i j : ℕ} {w w' : World C K} (hs : Separate w) (hi : i < w.count) (hj : j < w.count) (hne : i ≠ j) (h : Only i w w')
    (hm : w'.machines (w.eqs j).machine = w.machines (w.eqs j).machine) : w'.view j = w.view j := by
  have e := h.others j (Ne.symm hne)
  have e1 : w'.arrays (w.eqs j).psi = w.arrays (w.eqs j).psi :=
    h.arrays _ (hs.psi_lt j hj) (hs.psi_ne j i hj hi (Ne.symm hne))
  have e2 : (w.eqs j).jtor.map w'.arrays = (w.eqs j).jtor.map w.arrays := by
    rcases hJ : (w.eqs j).jtor with _ | J
    · rfl
    · simp only [Option.map_some]
      rw [h.arrays J (hs.jtor_lt j hj J hJ) (fun e => hs.jtor_ne j i hj hi (by rw [hJ, e]))]
  simp only [World.view, e, hm, e1, e2]

theorem solve_careful_own (s : Setup C K) (p : Profile C K) (i : ℕ) (given psi0 : Option Ref) (b : Option K) (w : World C K)
    (hs : Separate w) (hi : i < w.count) (hg : ∀ r, given = some r → r < w.next ∧ ∀ k, k < w.count → (w.eqs k).psi ≠ r) :
    Separate (solve s p i given psi0 b w).2 := by
  obtain ⟨h1, h2, h3⟩ := solve_only s p i given psi0 b w
  rcases h3 with h3 | ⟨J, rfl, h3⟩ | ⟨J, h3, h4, h5, h6⟩
  · exact separate_of_own hi (Own.of_only h1 h3) hs
  · obtain ⟨g1, g2⟩ := hg J rfl
    set w' := (solve s p i (some J) psi0 b w).2
    clear_value w'
    have hn := h1.next
    have hp : ∀ k, k < w.count → (w'.eqs k).psi = (w.eqs k).psi ∨ k = i ∧ w.next ≤ (w'.eqs k).psi ∧ (w'.eqs k).psi < w'.next := by
      intro k hk
      by_cases e : k = i
      · subst e
        rcases h1.psi with f | f
        · exact .inl f
        · exact .inr ⟨rfl, f⟩
      · left; rw [h1.others k e]
    have hj : ∀ k, k < w.count → (w'.eqs k).jtor = (w.eqs k).jtor ∨ (w'.eqs k).jtor = some J := by
      intro k hk
      by_cases e : k = i
      · subst e; exact .inr h3
      · left; rw [h1.others k e]
    refine ⟨fun k hk => ?_, fun k hk r hr => ?_, fun k l hk hl hne => ?_, fun k l hk hl e => ?_⟩ <;>
      rw [h1.count] at hk <;> try rw [h1.count] at hl
    · rcases hp k hk with e | ⟨-, -, e⟩
      · rw [e]; have := hs.psi_lt k hk; omega
      · exact e
    · rcases hj k hk with e | e
      · have := hs.jtor_lt k hk r (e ▸ hr); omega
      · rw [e] at hr; cases hr; omega
    · have a := hs.psi_lt k hk
      have b := hs.psi_lt l hl
      rcases hp k hk with e | ⟨e0, e, -⟩ <;> rcases hp l hl with f | ⟨f0, f, -⟩
      · rw [e, f]; exact hs.psi_ne k l hk hl hne
      · omega
      · omega
      · omega
    · rcases hj k hk with e1 | e1 <;> rw [e1] at e
      · rcases hp l hl with f | ⟨f0, f, -⟩
        · rw [f] at e; exact hs.jtor_ne k l hk hl e
        · have := hs.jtor_lt k hk _ e; omega
      · cases e
        rcases hp l hl with f | ⟨f0, f, -⟩
        · exact g2 l hl f.symm
        · omega
  · exact separate_of_own hi ⟨h1, .inr ⟨J, h3, h4, h5⟩, fun e _ _ f => h6 e (by rw [h3] at f; cases f; rfl)⟩ hs

/-- Making a new equilibrium. -/
theorem create_spec (s : Setup C K) (m : ℕ) (psi0 : Option Ref) (start : Arr K) (current : K) (cl : Bool) (w : World C K)
    (h0 : ∀ r, psi0 = some r → r < w.next) :
    ∃ x n, (create s m psi0 start current cl w).2.next = n ∧ w.next ≤ n ∧ x < n ∧ (psi0 = some x ∨ w.next ≤ x) ∧
      (∀ r, r < w.next → (create s m psi0 start current cl w).2.arrays r = w.arrays r) ∧
      (create s m psi0 start current cl w).2.machines = w.machines ∧
      (∀ k, k ≠ w.count → (create s m psi0 start current cl w).2.eqs k = w.eqs k) ∧
      ((create s m psi0 start current cl w).2.eqs w.count).psi = x ∧
      ((create s m psi0 start current cl w).2.eqs w.count).jtor = none ∧
      ((create s m psi0 start current cl w).2.count = w.count ∨ (create s m psi0 start current cl w).2.count = w.count + 1) := by
  obtain ⟨x, w1, hr, hw⟩ : ∃ x w1, startArray psi0 start w = (x, w1) ∧
      (w1.next = w1.next ∧ w.next ≤ w1.next ∧ x < w1.next ∧ (psi0 = some x ∨ w.next ≤ x) ∧
      (∀ r, r < w.next → w1.arrays r = w.arrays r) ∧ w1.machines = w.machines ∧ w1.eqs = w.eqs ∧ w1.count = w.count) := by
    cases psi0 with
    | some r => exact ⟨r, w, rfl, rfl, le_rfl, h0 r rfl, .inl rfl, fun _ _ => rfl, rfl, rfl, rfl⟩
    | none => exact ⟨w.next, w.alloc start, rfl, rfl, Nat.le_succ _, Nat.lt_succ_self _, .inr le_rfl,
        fun r hr => alloc_other w start (by omega), rfl, rfl, rfl⟩
  obtain ⟨-, h1, h2, h3, h4, h5, h6, h7⟩ := hw
  refine ⟨x, w1.next, ?_⟩
  unfold create
  simp only
  rw [hr]
  simp only
  set w2 := w1.setEq w1.count
    ⟨m, x, none, ⟨w1.arrays x, current, cl, none, none, none, none, none, false, none⟩⟩ with hw2
  have e1 : w2.next = w1.next := rfl
  have e2 : w2.arrays = w1.arrays := rfl
  have e3 : w2.machines = w1.machines := rfl
  have e4 : w2.count = w1.count := rfl
  have e5 : (w2.eqs w1.count).psi = x := by rw [hw2, setEq_same]
  have e6 : (w2.eqs w1.count).jtor = none := by rw [hw2, setEq_same]
  have e7 : ∀ k, k ≠ w1.count → w2.eqs k = w1.eqs k := fun k hk => by rw [hw2, setEq_other _ _ hk]
  clear_value w2
  obtain ⟨a, u⟩ := updateBoundary_world s w1.count (psi s.env (w2.view w1.count)) w2
  rcases hu : updateBoundary s w1.count (psi s.env (w2.view w1.count)) w2 with ⟨_ | y, w3⟩ <;> rw [hu] at u <;> simp only at u ⊢ <;>
    subst u <;>
    refine ⟨e1, h1, h2, h3, fun r hr => ?_, ?_, fun k hk => ?_, ?_, ?_, ?_⟩
  · simp only [setAttrs_arrays, e2]; exact h4 r hr
  · simp only [setAttrs_machines, e3, h5]
  · rw [setAttrs_other _ _ (by rw [h7]; exact hk), e7 k (by rw [h7]; exact hk), h6]
  · rw [← h7, setAttrs_same]; exact e5
  · rw [← h7, setAttrs_same]; exact e6
  · rw [h7]; exact .inr rfl
  · simp only [setAttrs_arrays, e2]; exact h4 r hr
  · simp only [setAttrs_machines, e3, h5]
  · rw [setAttrs_other _ _ (by rw [h7]; exact hk), e7 k (by rw [h7]; exact hk), h6]
  · rw [← h7, setAttrs_same]; exact e5
  · rw [← h7, setAttrs_same]; exact e6
  · rw [setAttrs_count, e4, h7]; exact .inl rfl

theorem step_careful {j : ℕ} {w : World C K} (hs : Separate w) (hj : j < w.count) {c : Call C K} (hc : Careful j w c) :
    Separate (c.run w) ∧ j < (c.run w).count ∧ (c.run w).view j = w.view j := by
  cases c with
  | array v =>
    refine ⟨⟨fun k hk => ?_, fun k hk r hr => ?_, hs.psi_ne, hs.jtor_ne⟩, hj, ?_⟩
    · have := hs.psi_lt k hk; simp only [Call.run, alloc_eqs, alloc_next]; omega
    · have := hs.jtor_lt k hk r hr; simp only [Call.run, alloc_next]; omega
    · simp only [Call.run, World.view, alloc_eqs, alloc_machines]
      rw [alloc_other w v (by have := hs.psi_lt j hj; omega)]
      rcases hJ : (w.eqs j).jtor with _ | J
      · rfl
      · simp only [Option.map_some]
        rw [alloc_other w v (by have := hs.jtor_lt j hj J hJ; omega)]
  | assign r v =>
    refine ⟨⟨hs.psi_lt, hs.jtor_lt, hs.psi_ne, hs.jtor_ne⟩, hj, ?_⟩
    simp only [Call.run, World.view, write_eqs, write_machines]
    rw [write_other w v hc.1]
    rcases hJ : (w.eqs j).jtor with _ | J
    · rfl
    · simp only [Option.map_some]
      rw [write_other w v (fun e => hc.2 (by rw [hJ, e]))]
  | machine m c =>
    refine ⟨⟨hs.psi_lt, hs.jtor_lt, hs.psi_ne, hs.jtor_ne⟩, hj, ?_⟩
    simp only [Call.run, World.view, World.setMachine]
    rw [Function.update_of_ne (Ne.symm hc)]
  | create s m psi0 start current cl =>
    simp only [Careful] at hc
    obtain ⟨x, n, h1, h2, h3, h4, h5, h6, h7, h8, h9, h10⟩ := create_spec s m psi0 start current cl w (fun r hr => (hc r hr).1)
    simp only [Call.run]
    set w' := (create s m psi0 start current cl w).2
    clear_value w'
    have hx : ∀ k, k < w.count → (w.eqs k).psi ≠ x ∧ (w.eqs k).jtor ≠ some x := by
      intro k hk
      rcases h4 with e | e
      · exact (hc x e).2 k hk
      · refine ⟨?_, fun f => ?_⟩
        · have := hs.psi_lt k hk; omega
        · have := hs.jtor_lt k hk x f; omega
    have hk' : ∀ k, k < w'.count → k < w.count ∧ w'.eqs k = w.eqs k ∨ k = w.count := by
      intro k hk
      by_cases e : k = w.count
      · exact .inr e
      · left; exact ⟨by omega, h7 k e⟩
    refine ⟨⟨fun k hk => ?_, fun k hk r hr => ?_, fun k l hk hl hne => ?_, fun k l hk hl => ?_⟩, by omega, ?_⟩
    · rcases hk' k hk with ⟨a, e⟩ | e
      · rw [e, h1]; have := hs.psi_lt k a; omega
      · rw [e, h8, h1]; exact h3
    · rcases hk' k hk with ⟨a, e⟩ | e
      · rw [h1]; have := hs.jtor_lt k a r (e ▸ hr); omega
      · rw [e, h9] at hr; cases hr
    · rcases hk' k hk with ⟨a, e⟩ | e <;> rcases hk' l hl with ⟨b, f⟩ | f
      · rw [e, f]; exact hs.psi_ne k l a b hne
      · rw [e, f, h8]; exact (hx k a).1
      · rw [e, f, h8]; exact Ne.symm (hx l b).1
      · omega
    · rcases hk' k hk with ⟨a, e⟩ | e
      · rcases hk' l hl with ⟨b, f⟩ | f
        · rw [e, f]; exact hs.jtor_ne k l a b
        · rw [e, f, h8]; exact (hx k a).2
      · rw [e, h9]; exact fun h => by cases h
    · have e := h7 j (by omega)
      simp only [World.view, e, h6, h5 _ (hs.psi_lt j hj)]
      rcases hJ : (w.eqs j).jtor with _ | J
      · rfl
      · simp only [Option.map_some]
        rw [h5 J (hs.jtor_lt j hj J hJ)]
  | solve s p i given psi0 b =>
    obtain ⟨h1, h2, h3⟩ := hc
    obtain ⟨g1, g2, -⟩ := solve_only s p i given psi0 b w
    refine ⟨solve_careful_own s p i given psi0 b w hs h2 h3, ?_, view_of_only hs h2 hj h1 g1 (by simp only [Call.run]; rw [g2])⟩
    simp only [Call.run]; rw [g1.count]; exact hj
  | picard s p f o i fuel =>
    obtain ⟨h1, h2, h3⟩ := hc
    simp only [Call.run]
    rcases hp : picard s p f o i fuel w with _ | r
    · exact ⟨hs, hj, rfl⟩
    · obtain ⟨g1, g2⟩ := picard_own s p f o i fuel w r hp
      simp only [Option.map_some, Option.getD_some]
      refine ⟨separate_of_own h2 g1 hs, by rw [g1.only.count]; exact hj, view_of_only hs h2 hj h1 g1.only ?_⟩
      by_cases e : f = none
      · rw [g2 e]
      · exact g1.only.machines _ (Ne.symm (h3 e))

end FreeGS.Store
