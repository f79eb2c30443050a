import Verif.Model.OptimiseEq
import Verif.Props.Optimiser
import Verif.Props.Picard

/-!
# C105: optimisation of an equilibrium
-/

set_option linter.unusedSectionVars false

namespace FreeGS.Optimiser



variable {O S K : Type*} [Field K] [LinearOrder K] [LinearOrder S] [OrderTop S]

/-- The equilibrium `eq` is a solution: `picard.solve`, with its default arguments and within its 50 iterations, returned it for an
equilibrium with up-to-date Green's functions. -/
def Solved (p : Problem O S K) (eq : O) : Prop :=
  ∃ start hist, Picard.picard p.picard picardDefaults 51 (p.refresh start) = .ok (some (eq, hist))

theorem solveAndMeasure_finite {p : Problem O S K} {x : O} (h : (solveAndMeasure p x).1 < ⊤) :
    Solved p (solveAndMeasure p x).2 ∧ p.measure (solveAndMeasure p x).2 = .ok (solveAndMeasure p x).1 := by
  simp only [solveAndMeasure] at h ⊢
  cases hp : Picard.picard p.picard picardDefaults 51 (p.refresh x) with
  | error e => rw [hp] at h; exact absurd h (lt_irrefl _)
  | ok r =>
    cases r with
    | none => rw [hp] at h; exact absurd h (lt_irrefl _)
    | some r =>
      rw [hp] at h
      simp only at h ⊢
      cases hm : p.measure r.1 with
      | error e => rw [hm] at h; exact absurd h (lt_irrefl _)
      | ok s => exact ⟨⟨_, _, hp⟩, hm⟩

/-- **C105** (candidates). In every population, the first one included, the score of a candidate is the measure of that equilibrium, which is a
solution, or the score is infinite. -/
theorem C105_candidates (p : Problem O S K) (eq : O) (controls : List (Control O K)) (maxgen N : ℕ) (CR F : K) (r : Rng K)
    (run : Run S O) (h : optimiseEq p eq controls maxgen N CR F r = .ok run) :
    ∀ s ∈ run.history, ∀ q, (q = s.1 ∨ q ∈ s.2) → (Solved p q.2 ∧ p.measure q.2 = .ok q.1) ∨ q.1 = ⊤ := by
  have hc := C03_population_never_worse eq controls _ maxgen N CR F r run h
  have key : ∀ q : S × O, (∃ x, q = solveAndMeasure p x) → (Solved p q.2 ∧ p.measure q.2 = .ok q.1) ∨ q.1 = ⊤ := by
    rintro q ⟨x, rfl⟩
    rcases (le_top : (solveAndMeasure p x).1 ≤ ⊤).lt_or_eq with hlt | he
    · exact Or.inl (solveAndMeasure_finite hlt)
    · exact Or.inr he
  intro s hs q hq
  obtain ⟨_, h2, h3⟩ := hc.2.1 s hs
  rcases hq with rfl | hq
  · exact key _ h2
  · exact key _ (h3 q hq)

/-- **C105** (what is kept). Every candidate, failed or not, is kept in the state its solve left it in: the solved equilibrium when the
iteration returned, also if it could not be measured, and otherwise the half-solved one with an infinite score. -/
theorem C105_what_is_kept (p : Problem O S K) (eq : O) (controls : List (Control O K)) (maxgen N : ℕ) (CR F : K) (r : Rng K)
    (run : Run S O) (h : optimiseEq p eq controls maxgen N CR F r = .ok run) :
    ∀ s ∈ run.history, ∀ q, (q = s.1 ∨ q ∈ s.2) → ∃ x,
      (∀ eq' hist, Picard.picard p.picard picardDefaults 51 (p.refresh x) = .ok (some (eq', hist)) →
        q.2 = eq' ∧ (p.measure eq' = .ok q.1 ∨ ((∃ e, p.measure eq' = .error e) ∧ q.1 = ⊤))) ∧
      ((∀ eq' hist, Picard.picard p.picard picardDefaults 51 (p.refresh x) ≠ .ok (some (eq', hist))) →
        q = (⊤, p.broken (p.refresh x))) := by
  have hc := C03_population_never_worse eq controls _ maxgen N CR F r run h
  have key : ∀ x,
      (∀ eq' hist, Picard.picard p.picard picardDefaults 51 (p.refresh x) = .ok (some (eq', hist)) →
        (solveAndMeasure p x).2 = eq' ∧ (p.measure eq' = .ok (solveAndMeasure p x).1 ∨
          ((∃ e, p.measure eq' = .error e) ∧ (solveAndMeasure p x).1 = ⊤))) ∧
      ((∀ eq' hist, Picard.picard p.picard picardDefaults 51 (p.refresh x) ≠ .ok (some (eq', hist))) →
        solveAndMeasure p x = (⊤, p.broken (p.refresh x))) := by
    intro x
    constructor
    · intro eq' hist hp
      simp only [solveAndMeasure, hp]
      cases hm : p.measure eq' with
      | error e => exact ⟨rfl, Or.inr ⟨⟨e, rfl⟩, rfl⟩⟩
      | ok m => exact ⟨rfl, Or.inl rfl⟩
    · intro hne
      cases hp : Picard.picard p.picard picardDefaults 51 (p.refresh x) with
      | error e => simp only [solveAndMeasure, hp]
      | ok r =>
        cases r with
        | none => simp only [solveAndMeasure, hp]
        | some r => exact absurd hp (hne r.1 r.2)
  intro s hs q hq
  obtain ⟨_, h2, h3⟩ := hc.2.1 s hs
  have hx : ∃ x, q = solveAndMeasure p x := by
    rcases hq with rfl | hq
    · exact h2
    · exact h3 q hq
  obtain ⟨x, rfl⟩ := hx
  exact ⟨x, key x⟩

/-- **C105** (failed solves). A candidate whose solve failed never takes the place of another one: the members of later populations with
infinite score were in the first one, in the same place. -/
theorem C105_failed_never_enters (p : Problem O S K) (eq : O) (controls : List (Control O K)) (maxgen N : ℕ) (CR F : K) (r : Rng K)
    (run : Run S O) (h : optimiseEq p eq controls maxgen N CR F r = .ok run) :
    ∀ s ∈ run.history, ∀ (i : ℕ) (q : S × O), s.2[i]? = some q → q.1 = ⊤ → run.initPop[i]? = some q := by
  have hc := (C03_population_never_worse eq controls _ maxgen N CR F r run h).2.2.1
  have key : ∀ (l : List ((S × O) × List (S × O))) (a : (S × O) × List (S × O)),
      List.IsChain (fun a b : (S × O) × List (S × O) => b.1.1 ≤ a.1.1 ∧
        List.Forall₂ (fun old new => new = old ∨ new.1 < old.1) a.2 b.2) (a :: l) →
      ∀ s ∈ a :: l, ∀ (i : ℕ) (q : S × O), s.2[i]? = some q → q.1 = ⊤ → a.2[i]? = some q := by
    intro l
    induction l with
    | nil =>
      intro a _ s hs i q h1 _
      rw [List.mem_singleton.mp hs] at h1
      exact h1
    | cons b l ih =>
      intro a hchain s hs i q h1 h2
      rw [List.isChain_cons_cons] at hchain
      rcases List.mem_cons.mp hs with rfl | hs
      · exact h1
      · have hb := ih b hchain.2 s hs i q h1 h2
        have hf := List.forall₂_iff_get.mp hchain.1.2
        obtain ⟨hi, hq⟩ := List.getElem?_eq_some_iff.mp hb
        have hi' : i < a.2.length := by rw [hf.1]; exact hi
        rcases hf.2 i hi' hi with h3 | h3
        · simp only [List.get_eq_getElem] at h3
          rw [List.getElem?_eq_getElem hi', ← h3, hq]
        · simp only [List.get_eq_getElem, hq] at h3
          rw [h2] at h3
          exact absurd h3 not_top_lt
  exact key _ _ hc

theorem chain_still (measure : O → S × O) (s : (S × O) × List (S × O)) (l : List ((S × O) × List (S × O)))
    (h : List.IsChain (GenStep measure) (s :: l)) (hl : ((s :: l).getLast (by simp)).2 = s.2) :
    ((s :: l).getLast (by simp)).1 = s.1 := by
  induction l generalizing s with
  | nil => rfl
  | cons t l ih =>
    have hall := chain_lower measure _ _ h
    rw [List.isChain_cons_cons] at h
    obtain ⟨⟨h1, h2, h3⟩, h4⟩ := h
    have i2 := (chain_lower measure _ _ h4).2
    rw [List.getLast_cons (by simp)] at hl ⊢
    have hst : t.2 = s.2 := by
      refine List.ext_getElem h3.length_eq.symm fun i hi hi' => ?_
      rw [List.forall₂_iff_get] at h3 i2
      have a := h3.2 i hi' hi
      have hj : i < ((t :: l).getLast (by simp)).2.length := by rw [hl]; exact hi'
      have b := i2.2 i hi hj
      simp only [List.get_eq_getElem] at a b
      have hv : (((t :: l).getLast (by simp)).2)[i] = s.2[i] := by simp only [hl]
      rw [hv] at b
      rcases a with a | a
      · exact a
      · rcases b with b | b
        · exact b.symm
        · exact absurd (b.1.trans a.1) (lt_irrefl _)
    rw [ih t h4 (by rw [hl, hst])]
    rcases h2 with h2 | h2
    · exact h2
    · exact absurd hst h2.2

/-- **C105** (result). The equilibrium that is returned was solved and measured if the solves of the first population all succeeded or any
candidate was replaced later; otherwise it is one of the first candidates, and its solve or measure failed. -/
theorem C105_returned (p : Problem O S K) (eq : O) (controls : List (Control O K)) (maxgen N : ℕ) (CR F : K) (r : Rng K)
    (run : Run S O) (h : optimiseEq p eq controls maxgen N CR F r = .ok run) :
    (((∀ q ∈ run.initPop, q.1 < ⊤) ∨ (run.history.getLast (by simp [Run.history])).2 ≠ run.initPop) →
      ∃ score, score < ⊤ ∧ Solved p run.result ∧ p.measure run.result = .ok score ∧
        List.Forall₂ (fun first fin : S × O => fin = first ∨ score ≤ fin.1) run.initPop
          (run.history.getLast (by simp [Run.history])).2) ∧
    ((∃ q ∈ run.initPop, q.1 = ⊤) → (run.history.getLast (by simp [Run.history])).2 = run.initPop →
      ∃ q ∈ run.initPop, run.result = q.2 ∧ q.1 = ⊤) := by
  have hc := C03_population_never_worse eq controls _ maxgen N CR F r run h
  obtain ⟨_, ⟨new, i1, _, _, i4, i5, i6⟩, e1, e2, e3⟩ := optimise_cases h
  have hbest : run.initBest ∈ run.initPop := by
    rw [i1]
    rcases i4 with i4 | i4
    · rw [i4]; exact List.mem_cons_self
    · exact List.mem_cons_of_mem _ i4
  obtain ⟨l1, l2⟩ := chain_lower _ _ _ e2
  constructor
  · intro hcase
    obtain ⟨_, ⟨x, hx⟩, _⟩ := hc.2.1 _ (List.getLast_mem (l := run.history) (by simp [Run.history]))
    have hfin : (run.history.getLast (by simp [Run.history])).1.1 < ⊤ := by
      rcases hcase with h0 | hne
      · exact lt_of_le_of_lt l1 (h0 _ hbest)
      · by_contra hn
        apply hne
        refine List.ext_getElem l2.length_eq.symm fun i hi hi' => ?_
        rcases (List.forall₂_iff_get.mp l2).2 i hi' hi with a | a
        · exact a
        · exact absurd (lt_of_le_of_lt a.2 (lt_of_lt_of_le a.1 le_top)) hn
    have hs := solveAndMeasure_finite (p := p) (x := x) (by rw [← hx]; exact hfin)
    rw [← hx, e3] at hs
    refine ⟨_, hfin, hs.1, hs.2, ?_⟩
    exact l2.imp fun a b hab => hab.imp id fun hh => hh.2
  · rintro ⟨q, hq, ht⟩ hsame
    have hb := chain_still _ _ _ e2 hsame
    refine ⟨run.initBest, hbest, ?_, ?_⟩
    · rw [← e3]; exact congrArg Prod.snd hb
    · refine top_le_iff.mp ?_
      rw [← ht]
      rw [i1] at hq
      rcases List.mem_cons.mp hq with rfl | hq
      · exact i5
      · exact i6 q hq

/-- **C105** (solution). What it means to be a solution: it comes from a linear solve of an equilibrium `s` whose currents were adjusted, and this
solve changed the flux everywhere by less than `1e-10`, or by less than a thousandth of its range. -/
theorem C105_converged [IsStrictOrderedRing K] (p : Problem O S K) (n : ℕ) (hn : 0 < n) (hpsi : ∀ s, (p.picard.psi s).length = n) (eq : O)
    (h : Solved p eq) :
    ∃ s₀ s, p.picard.adjust s₀ = .ok s ∧ p.picard.solve s false (p.picard.psi s) none = .ok eq ∧
      ((∀ d ∈ List.zipWith (fun x y => |x - y|) (p.picard.psi s) (p.picard.psi eq), d < 1 / 10 ^ 10) ∨
        ∃ lo ∈ p.picard.psi eq, ∃ hi ∈ p.picard.psi eq, lo < hi ∧
          ∀ d ∈ List.zipWith (fun x y => |x - y|) (p.picard.psi s) (p.picard.psi eq), d < 1 / 10 ^ 3 * (hi - lo)) := by
  obtain ⟨start, hist, h⟩ := h
  obtain ⟨k, s, q, l, b, hrun, hstep, _, hflux, _⟩ := Picard.C39_converged_partial _ _ n hn hpsi _ _ _ _ h
  have hq : q = p.picard.psi s ∧ ∃ s₀, p.picard.adjust s₀ = .ok s := by
    cases hrun with
    | start h => exact ⟨rfl, _, h⟩
    | next r hs ha =>
      refine ⟨?_, _, ha⟩
      have h1 := Picard.inv_length hpsi r
      refine List.ext_getElem (by rw [List.length_zipWith, hpsi, h1, min_self]) fun i hi hi' => ?_
      simp [picardDefaults]
  obtain ⟨rfl, s₀, hs₀⟩ := hq
  refine ⟨s₀, s, hs₀, ?_, ?_⟩
  · simpa [Picard.step, Picard.Checks, picardDefaults] using hstep
  · obtain ⟨m, lo, hi, hm, hlo, hhi, hd⟩ := hflux
    rcases hd with hd | ⟨h1, h2⟩
    · exact Or.inl fun d hdm => lt_of_le_of_lt (hm.2 d hdm) hd
    · exact Or.inr ⟨lo, hlo.1, hi, hhi.1, h1, fun d hdm => lt_of_le_of_lt (hm.2 d hdm) h2⟩

/-- **C105** (no endless solve). With the default arguments an iteration ends within 51 linear solves, with a result or an exception. -/
theorem C105_solve_ends (p : Problem O S K) (eq : O) : Picard.picard p.picard picardDefaults 51 eq ≠ .ok none :=
  Picard.C39_terminates p.picard picardDefaults 50 rfl (by norm_num) eq

/-- **C105** (finding). The equilibrium that is given is itself solved: it is the first of the population, with what the solve made of it. -/
theorem C105_argument_is_solved (p : Problem O S K) (eq : O) (controls : List (Control O K)) (maxgen N : ℕ) (CR F : K) (r : Rng K)
    (run : Run S O) (h : optimiseEq p eq controls maxgen N CR F r = .ok run) : run.initPop.head? = some (solveAndMeasure p eq) := by
  obtain ⟨_, ⟨new, i1, _⟩, _⟩ := optimise_cases h
  rw [i1]; rfl

/-! ## A case -/

/-- An equilibrium described by a flux and a coil radius: the solve sets the flux to the radius, and fails for a radius above two. -/
def toy : Problem (ℚ × ℚ) (WithTop ℚ) ℚ :=
  { refresh := id
    picard :=
      { constrain := none
        psi := fun s => [0, s.1]
        solve := fun s _ _ _ => if 2 < s.2 then .error .value else .ok (s.2, s.2)
        bndry := fun s => some s.2
        limited := fun _ => false }
    broken := id
    measure := fun s => .ok ((s.1 - 1) ^ 2 : ℚ) }

/-- The radius as control. -/
def toyControl : Control (ℚ × ℚ) ℚ := ⟨fun s => s.2, fun s v => (s.1, v)⟩

/-- The random numbers of the cases. -/
def toyRng (u : ℚ) : Rng ℚ := ⟨fun _ => 1, fun _ => u, fun _ => 0⟩

/-- Whether a run ended with a result that has a property. -/
def ended {α : Type*} (x : Except Err α) (P : α → Bool) : Bool :=
  match x with
  | .ok a => P a
  | .error _ => false

/-- A run in which all solves succeed: the argument has radius three halves and flux seven, two generations. It meets the first hypothesis
of `C105_returned`; the argument is solved, and the result is. -/
example : ended (optimiseEq toy (7, 3 / 2) [toyControl, toyControl] 2 4 0 (1 / 2) (toyRng 0)) (fun run =>
    decide (run.initPop.head? = some ((((1 / 4 : ℚ) : ℚ) : WithTop ℚ), (3 / 2, 3 / 2))) &&
    decide (∀ q ∈ run.initPop, q.1 < ⊤) && decide (run.result.1 = run.result.2)) = true := by
  decide +kernel

/-- A run in which the solves of the changed candidates fail: the radius of the argument is two, those of the others larger. No candidate is
replaced, and a failed one is returned, although the argument was solved. It meets the hypotheses of the second part of `C105_returned`. -/
example : ended (optimiseEq toy (7, 2) [toyControl, toyControl] 1 4 0 (1 / 2) (toyRng 1)) (fun run =>
    decide (run.initPop.head? = some ((((1 : ℚ) : ℚ) : WithTop ℚ), (2, 2))) &&
    decide (∃ q ∈ run.initPop, q.1 = ⊤) && decide (2 < run.result.2) &&
    decide ((run.history.getLast (by simp [Run.history])).2 = run.initPop)) = true := by
  decide +kernel

end FreeGS.Optimiser
