import Verif.Lemmas.StoreSound

/-!
# C120: a calculation changes only the equilibrium it is asked for
-/

set_option linter.unusedSectionVars false

namespace FreeGS.Store

open FreeGS.GS FreeGS.Critical FreeGS.Equil

universe u
variable {K : Type u} [Field K] [LinearOrder K] {C : Type u}

/-! ## A small case -/

/-- A grid of 3 × 3 points; the machine is a number, its flux is the same everywhere; the axis is in the middle. -/
def small (boundary : Boundary ℚ) (inPlace : Bool) (n : ℕ) : Setup ℚ ℚ :=
  { mu0 := 1, nx := n, ny := n, R := fun i => i + 1, Z := fun j => j, coilPsi := fun c _ => c, limits := fun _ => none
    find := fun a => .ok ([(0, 0, a (1, 1))], [(0, 0, a (0, 0))]), core := fun a _ _ _ => .ok a, interp := fun a _ _ => a (1, 1)
    sqrt := fun x => x, green := fun _ _ _ _ => 1, boundary := boundary, solver := fun x b c => x c / 2 + b c, inPlace := inPlace }

/-- A current density of 1 everywhere. -/
def ones : Profile ℚ ℚ := unconstrained fun _ _ => .ok fun _ => 1

theorem ones_matches : Matches ones (fun st q b => do
    let J ← (fun (_ : Arr ℚ) (_ : Option ℚ) => (Except.ok (fun _ => 1) : Except Err (Arr ℚ))) q b
    .ok (st, J)) := matches_unconstrained _

/-- One array of the caller, no equilibrium yet. -/
def empty : World ℚ ℚ :=
  { arrays := fun _ _ => 5, next := 1, machines := fun _ => 2, count := 0
    eqs := fun _ => ⟨0, 0, none, ⟨fun _ => 0, 0, false, none, none, none, none, none, false, none⟩⟩ }

/-- Two equilibria with starting guesses of their own and machines 0 and 1. -/
def two : World ℚ ℚ :=
  runAll empty [.create (small .free false 3) 0 none (fun _ => 3) 0 false, .create (small .free false 3) 1 none (fun _ => 4) 0 false]

/-! ## What is changed -/

/-- **C120.** `eq.solve(...)`, whether it returns or raises, changes no array that existed before except the flux array of this
equilibrium, no machine, and no other equilibrium. In particular the arrays given as `Jtor` and `psi` are unchanged, unless one is the
flux array itself. -/
theorem C120_solve (s : Setup C K) (p : Profile C K) (i : ℕ) (given psi0 : Option ℕ) (b : Option K) (w : World C K) :
    Only i w (solve s p i given psi0 b w).2 ∧ (solve s p i given psi0 b w).2.machines = w.machines :=
  ⟨(solve_only s p i given psi0 b w).1, (solve_only s p i given psi0 b w).2.1⟩

/-- The solve changes something, and the other equilibrium exists. -/
example : (solve (small .free false 3) ones 0 none none none two).1 = none ∧ two.count = 2 ∧
    (((solve (small .free false 3) ones 0 none none none two).2.view 0).plasmaPsi (1, 1) ≠ (two.view 0).plasmaPsi (1, 1)) ∧
    (((solve (small .free false 3) ones 0 none none none two).2.view 1).plasmaPsi (1, 1) = 4) := by decide +kernel

/-- **C120.** Picard iteration changes no array that existed before except the flux array of its equilibrium, no other equilibrium, and
no machine except that of its equilibrium; without control, no machine. -/
theorem C120_picard (s : Setup C K) (p : Profile C K) (f : Option (Constrain C K)) (o : Picard.Opts K) (i fuel : ℕ) (w : World C K)
    (r : Out C K) (h : picard s p f o i fuel w = some r) : Only i w r.2 ∧ (f = none → r.2.machines = w.machines) :=
  ⟨(picard_own s p f o i fuel w r h).1.only, (picard_own s p f o i fuel w r h).2⟩

/-- A control that sets the current of the machine to 7. -/
def seven : Constrain ℚ ℚ := fun _ => (none, 7)

/-- Options: two passes at most. -/
def opts : Picard.Opts ℚ :=
  { rtol := 1, atol := 0, blend := 0, maxits := some 2, psiBndry := none, checkLimited := false, waitForLimited := false, limitIt := 0 }

example : ((picard (small .free false 3) ones (some seven) opts 0 5 two).map fun r => (r.2.machines 0, r.2.machines 1)) = some (7, 2) := by
  decide +kernel

/-- **C120.** To make an equilibrium changes no array, no machine and no other equilibrium; without `psi` it gets a flux array of its own, and
with `psi` it keeps the array given. -/
theorem C120_create (s : Setup C K) (m : ℕ) (psi0 : Option ℕ) (start : Arr K) (current : K) (cl : Bool) (w : World C K)
    (h0 : ∀ r, psi0 = some r → r < w.next) :
    let w' := (create s m psi0 start current cl w).2
    (∀ r, r < w.next → w'.arrays r = w.arrays r) ∧ w'.machines = w.machines ∧ (∀ k, k < w.count → w'.eqs k = w.eqs k) ∧
      (∀ r, psi0 = some r → (w'.eqs w.count).psi = r) ∧ (psi0 = none → w.next ≤ (w'.eqs w.count).psi) := by
  intro w'
  obtain ⟨x, n, h1, h2, h3, h4, h5, h6, h7, h8, h9, h10⟩ := create_spec s m psi0 start current cl w h0
  refine ⟨h5, h6, fun k hk => h7 k (by omega), fun r hr => ?_, fun hr => ?_⟩
  · rcases h4 with e | e
    · rw [hr] at e; cases e; exact h8
    · subst hr
      obtain ⟨a, ha⟩ := updateBoundary_world s w.count (psi s.env ((w.setEq w.count ⟨m, r, none, ⟨w.arrays r, current, cl, none, none, none,
        none, none, false, none⟩⟩).view w.count)) (w.setEq w.count ⟨m, r, none, ⟨w.arrays r, current, cl, none, none, none, none, none,
        false, none⟩⟩)
      simp only [w', create, startArray]
      generalize updateBoundary s w.count (psi s.env ((w.setEq w.count ⟨m, r, none, ⟨w.arrays r, current, cl, none, none, none,
        none, none, false, none⟩⟩).view w.count)) (w.setEq w.count ⟨m, r, none, ⟨w.arrays r, current, cl, none, none, none, none, none,
        false, none⟩⟩) = u at ha ⊢
      rcases u with ⟨_ | y, u⟩ <;> simp only at ha ⊢ <;> rw [ha, setAttrs_same, setEq_same]
  · rcases h4 with e | e
    · rw [hr] at e; cases e
    · rw [h8]; exact e

example : (create (small .free false 3) 0 (some 0) (fun _ => 3) 0 false empty).1 = none ∧
    ((create (small .free false 3) 0 (some 0) (fun _ => 3) 0 false empty).2.eqs 0).psi = 0 ∧
    ((create (small .free false 3) 0 none (fun _ => 3) 0 false empty).2.eqs 0).psi = 1 := by decide +kernel

/-- **C120.** Whatever is done afterwards — making arrays and equilibria, writing to arrays, setting currents of machines, solving, iterating,
with or without exceptions — an equilibrium stays exactly as it is, as long as no call is addressed to it, its machine or its arrays, and
no call is given an array that an equilibrium holds as its flux. -/
theorem C120_history (j : ℕ) (l : List (Call C K)) :
    ∀ (w : World C K), Separate w → j < w.count → CarefulAll j w l → (runAll w l).view j = w.view j ∧ Separate (runAll w l) := by
  induction l with
  | nil => intro w h _ _; exact ⟨rfl, h⟩
  | cons c l ih =>
    intro w hs hj hc
    obtain ⟨h1, h2, h3⟩ := step_careful hs hj hc.1
    obtain ⟨h4, h5⟩ := ih (c.run w) h1 h2 hc.2
    exact ⟨by rw [← h3, ← h4]; rfl, h5⟩

/-- The two equilibria are separate, and a history that solves for the first, changes its machine and the caller's array is careful of
the second. -/
theorem two_separate : Separate two := by
  have e0 : (two.eqs 0).psi = 1 := by decide +kernel
  have e1 : (two.eqs 1).psi = 2 := by decide +kernel
  have j0 : (two.eqs 0).jtor = none := by decide +kernel
  have j1 : (two.eqs 1).jtor = none := by decide +kernel
  have hc : two.count = 2 := by decide +kernel
  have hn : two.next = 3 := by decide +kernel
  have hj : ∀ i, i < two.count → (two.eqs i).jtor = none := by
    intro i hi
    rw [hc] at hi
    interval_cases i <;> assumption
  refine ⟨fun i hi => ?_, fun i hi r hr => ?_, fun i j hi hj' hne => ?_, fun i j hi _ => ?_⟩
  · rw [hc] at hi
    interval_cases i <;> simp [e0, e1, hn]
  · rw [hj i hi] at hr; cases hr
  · rw [hc] at hi hj'
    interval_cases i <;> interval_cases j <;> simp_all
  · rw [hj i hi]; simp

example : CarefulAll 1 two [.assign 0 (fun _ => 9), .solve (small .free false 3) ones 0 none (some 0) none, .machine 0 8,
    .picard (small .free false 3) ones (some seven) opts 0 5, .create (small .free false 3) 1 none (fun _ => 1) 0 false] := by
  have e1 : (two.eqs 1).psi = 2 := by decide +kernel
  have j1 : (two.eqs 1).jtor = none := by decide +kernel
  refine ⟨⟨by decide +kernel, by decide +kernel⟩, ⟨by decide, by decide +kernel, fun r hr => (by cases hr)⟩,
    (by show (0 : ℕ) ≠ _; decide +kernel), ⟨by decide, by decide +kernel, fun _ => (by decide +kernel)⟩, fun r hr => (by cases hr), trivial⟩

/-! ## What is computed -/

/-- **C120.** What `eq.solve` makes of this equilibrium depends only on the values: on what can be seen of the equilibrium, and on the values in
the arrays given. It is what the model of values (C70) says, for each of the boundary functions and solvers, except von Hagenow's boundary
with a solver that works in place. -/
theorem C120_values (s : Setup C K) (hs : NotShared s) {p : Profile C K} {q : Profiles C K} (hp : Matches p q) (i : ℕ)
    (given psi0 : Option ℕ) (b : Option K) (w : World C K) (hw : Good w i)
    (hg : ∀ r, given = some r → r < w.next ∧ r ≠ (w.eqs i).psi) :
    seen i (solve s p i given psi0 b w) = Equil.solve s.env q (w.view i) (given.map w.arrays) (psi0.map w.arrays) b :=
  solve_seen s hs hp i given psi0 b w hw.psi hw.jtor hg

/-- **C120.** The same for Picard iteration. -/
theorem C120_picard_values (s : Setup C K) (hs : NotShared s) {p : Profile C K} {q : Profiles C K} (hp : Matches p q)
    (f : Option (Constrain C K)) (o : Picard.Opts K) (i fuel : ℕ) (w : World C K) (hw : Good w i) :
    SameOutcome i (picard s p f o i fuel w) (Picard.picard (picardEnv s.env q (f.map constrainValues)) o fuel (w.view i)) :=
  picard_seen s hs hp f o i fuel w hw

/-- **C120.** The profile objects of jtor.py are among those meant. -/
theorem C120_profiles (quad : (K → K) → K → K → K) (pow : K → K → K) (s : Setup C K) (field : State C K → Arr K × Arr K)
    (p : Jtor.Params K) (v : K) (g : Jtor.Given K) :
    Matches (paxis quad pow s p v) (paxisProfiles quad pow s.env p v) ∧
      Matches (betap quad pow s field p v) (betapProfiles quad pow s.env field p v) ∧
      Matches (givenFunctions s g) (givenProfiles s.env g) :=
  ⟨matches_paxis quad pow s p v, matches_betap quad pow s field p v, matches_given s g⟩

theorem two_good : Good two 0 := ⟨by decide +kernel, fun r hr => by
  have j0 : (two.eqs 0).jtor = none := by decide +kernel
  rw [j0] at hr; cases hr⟩

example : NotShared (small .free true 3) ∧ NotShared (small .hagenow false 5) ∧ Good two 0 ∧
    (seen 0 (solve (small .free true 3) ones 0 none none none two)).isOk = true :=
  ⟨fun _ => trivial, fun h => (by cases h), two_good, by decide +kernel⟩

/-! ## What fails -/

/-- **C120 fails** for an array given as `psi` when the equilibrium is made: it is kept, not copied, and the next solve writes the boundary values
into the caller's array. -/
theorem C120_given_psi_fails :
    let w1 := create (small .free false 3) 0 (some 0) (fun _ => 0) 0 false empty
    let w2 := solve (small .free false 3) ones 0 none none none w1.2
    w1.1 = none ∧ w2.1 = none ∧ empty.arrays 0 (0, 0) = 5 ∧ w1.2.arrays 0 (0, 0) = 5 ∧ w2.2.arrays 0 (0, 0) ≠ 5 := by
  decide +kernel

/-- **C120 fails** for two equilibria made from one array: to solve for the first changes the flux of the second, while its interpolation of
the flux stays as it was. -/
theorem C120_shared_psi_fails :
    let w1 := create (small .free false 3) 0 (some 0) (fun _ => 0) 0 false empty
    let w2 := create (small .free false 3) 1 (some 0) (fun _ => 0) 0 false w1.2
    let w3 := solve (small .free false 3) ones 0 none none none w2.2
    w1.1 = none ∧ w2.1 = none ∧ w3.1 = none ∧ (w3.2.view 1).plasmaPsi (0, 0) ≠ (w2.2.view 1).plasmaPsi (0, 0) ∧
      (w3.2.view 1).plasmaPsi (0, 0) ≠ (w3.2.view 1).spline (0, 0) := by
  decide +kernel

/-- **C120 fails** for two equilibria with one machine: Picard iteration of the first with a control changes the total flux of the second,
while its axis and boundary flux stay as they were. -/
theorem C120_shared_machine_fails :
    let w1 := create (small .free false 3) 0 none (fun _ => 3) 0 false empty
    let w2 := create (small .free false 3) 0 none (fun _ => 4) 0 false w1.2
    w1.1 = none ∧ w2.1 = none ∧
      ((picard (small .free false 3) ones (some seven) opts 0 5 w2.2).map fun r =>
        ((psi (small .free false 3).env (r.2.view 1) (0, 0), (r.2.view 1).psiBndry),
          psi (small .free false 3).env (w2.2.view 1) (0, 0), (w2.2.view 1).psiBndry)) = some ((11, some 6), 6, some 6) := by
  decide +kernel

/-- **C120 fails** for the array given as `Jtor`: it is kept, not copied, and when the caller writes to it later the current density of the
equilibrium changes, but not its current. -/
theorem C120_given_jtor_fails :
    let w1 := create (small .free false 3) 0 none (fun _ => 3) 0 false empty
    let w2 := solve (small .free false 3) ones 0 (some 0) none none w1.2
    let w3 := w2.2.write 0 fun _ => 0
    w1.1 = none ∧ w2.1 = none ∧ ((w3.view 0).jtor.map fun J => J (1, 1)) = some 0 ∧ (w3.view 0).current = (w2.2.view 0).current ∧
      (w3.view 0).current ≠ 0 := by
  decide +kernel

/-- **C120 fails** for von Hagenow's boundary with a solver that works in place: the boundary function overwrites the flux with its own auxiliary
solution, from which the solver then starts, so that the outcome is not the one that the values of the boundary function give. -/
theorem C120_hagenow_fails :
    (∃ w, (solve (small .hagenow true 5) ones 0 none none none two) = (none, w) ∧
      (w.view 0).plasmaPsi (2, 2) ≠ ((solve (small .hagenow false 5) ones 0 none none none two).2.view 0).plasmaPsi (2, 2)) := by
  refine ⟨(solve (small .hagenow true 5) ones 0 none none none two).2, Prod.ext ?_ rfl, ?_⟩ <;> decide +kernel

end FreeGS.Store
