import Verif.Props.PicardConvergence
import Verif.Props.Equilibrium
import Verif.Props.Convergence

/-!
# C104: convergence of the Picard iteration of an equilibrium
-/

set_option linter.unusedSectionVars false

namespace FreeGS.Equil

open FreeGS.GS FreeGS.Critical FreeGS.Picard
open FreeGS.Jtor (integrate)

universe u
variable {C : Type}

/-- Two arrays differ nowhere on the grid by more than `D`. -/
def Near (nx ny : ℕ) (D : ℝ) (a b : Arr ℝ) : Prop := ∀ c, OnGrid nx ny c → |a c - b c| ≤ D

/-- The total flux `P` is a solution of the free boundary problem for the coils `T`, the current density `J` as a function of the flux,
and the edge values `edge` of the plasma flux as a function of the current density; `op` is the discrete Grad-Shafranov operator. -/
def SelfConsistent (e : Env C ℝ) (d : Domain ℝ) (op : Arr ℝ → ℕ × ℕ → ℝ) (T : C) (J edge : Arr ℝ → Arr ℝ) (P : Arr ℝ) : Prop :=
  (∀ c, Inside e.nx e.ny c → op (fun c => P c - e.coilPsi T c) c = -e.mu0 * gridR d e.nx c.1 * J P c) ∧
  ∀ c, OnEdge e.nx e.ny c → P c - e.coilPsi T c = edge (J P) c

/-- Two arrays that differ by at most `E` on the edge, and whose images under `op` differ by at most `D` inside, differ nowhere by more
than `κ E + S D`. -/
def Stable (nx ny : ℕ) (op : Arr ℝ → ℕ × ℕ → ℝ) (κ S : ℝ) : Prop :=
  ∀ u u' E D, 0 ≤ D → (∀ c, OnEdge nx ny c → |u c - u' c| ≤ E) → (∀ c, Inside nx ny c → |op u c - op u' c| ≤ D) →
    Near nx ny (κ * E + S * D) u u'

/-- What is asked of an equilibrium without limiter: the solver inverts `op`; `J` is the current density, with slope `ℓ`; `edge` are the edge values that the
boundary function sets, with slope `g`; an axis and an X-point with the flux `B`, with slope `L`, are always found. -/
structure Regular (e : Env C ℝ) (d : Domain ℝ) (op : Arr ℝ → ℕ × ℕ → ℝ) (profiles : Profiles C ℝ) (J edge : Arr ℝ → Arr ℝ)
    (B : Arr ℝ → ℝ) (ℓ g L : ℝ) : Prop where
  nx : 2 ≤ e.nx
  ny : 2 ≤ e.ny
  Rmin : 0 ≤ d.Rmin
  R : d.Rmin < d.Rmax
  Z : d.Zmin < d.Zmax
  grid : ∀ i, e.R i = gridR d e.nx i
  solver : Inverts e.nx e.ny op e.solver
  profiles : ∀ s P b, ∃ s', profiles s P b = .ok (s', J P) ∧ s'.tokamak = s.tokamak ∧ s'.checkLimited = s.checkLimited
  slopeJ : ∀ P P' D, Near e.nx e.ny D P P' → Near e.nx e.ny (ℓ * D) (J P) (J P')
  boundary : ∀ j p, ∃ a, e.boundary j p = .ok a ∧ ∀ c, OnEdge e.nx e.ny c → a c = edge j c
  slopeEdge : ∀ j j' D, Near e.nx e.ny D j j' → ∀ c, OnEdge e.nx e.ny c → |edge j c - edge j' c| ≤ g * D
  find : ∀ P, ∃ o os x xs m, e.find P = .ok (o :: os, x :: xs) ∧ e.core P (o :: os) (x :: xs) none = .ok m ∧ x.2.2 = B P
  slopeB : ∀ P P' D, Near e.nx e.ny D P P' → |B P - B P'| ≤ L * D
  integral : ∀ j, ∃ I, integrate e.nx e.ny e.R e.Z j = .ok I
  ℓ : 0 ≤ ℓ
  g : 0 ≤ g

theorem near_ofValues {nx ny : ℕ} {D : ℝ} {p p' : List ℝ} (hp : p.length = nx * ny) (h : Within D p p') :
    Near nx ny D (ofValues ny p) (ofValues ny p') := by
  intro c hc
  have hlt : c.1 * ny + c.2 < nx * ny := by
    have h1 := hc.1
    have h2 := hc.2
    calc c.1 * ny + c.2 < c.1 * ny + ny := by omega
      _ = (c.1 + 1) * ny := by ring
      _ ≤ nx * ny := Nat.mul_le_mul_right _ h1
  rw [Within, List.forall₂_iff_get] at h
  have h1 : c.1 * ny + c.2 < p.length := by rw [hp]; exact hlt
  have h2 : c.1 * ny + c.2 < p'.length := by rw [← h.1]; exact h1
  have := h.2 _ h1 h2
  simp only [ofValues, unflat, List.getD_eq_getElem?_getD, List.getElem?_eq_getElem h1, List.getElem?_eq_getElem h2, Option.getD_some]
  simpa using this

theorem within_values {nx ny : ℕ} {D : ℝ} {a b : Arr ℝ} (h : Near nx ny D a b) : Within D (values nx ny a) (values nx ny b) := by
  rw [Within, List.forall₂_iff_get]
  refine ⟨by rw [values_length, values_length], fun i h1 h2 => ?_⟩
  rw [values_length] at h1
  simp only [values, List.get_eq_getElem, List.getElem_map, List.getElem_range, flat]
  have hny : 0 < ny := Nat.pos_of_ne_zero fun h0 => by rw [h0, Nat.mul_zero] at h1; omega
  exact h _ ⟨Nat.div_lt_of_lt_mul (by rw [mul_comm]; exact h1), Nat.mod_lt _ hny⟩

theorem near_of_within {nx ny : ℕ} {D : ℝ} {a b : Arr ℝ} (h : Within D (values nx ny a) (values nx ny b)) : Near nx ny D a b := by
  intro c hc
  have hlt : c.1 * ny + c.2 < nx * ny := by
    have h1 := hc.1
    have h2 := hc.2
    calc c.1 * ny + c.2 < c.1 * ny + ny := by omega
      _ = (c.1 + 1) * ny := by ring
      _ ≤ nx * ny := Nat.mul_le_mul_right _ h1
  rw [Within, List.forall₂_iff_get] at h
  have := h.2 (c.1 * ny + c.2) (by rw [values_length]; exact hlt) (by rw [values_length]; exact hlt)
  simp only [values, List.get_eq_getElem, List.getElem_map, List.getElem_range, flat] at this
  have h2 := hc.2
  rw [show (c.1 * ny + c.2) / ny = c.1 by rw [mul_comm, Nat.mul_add_div (by omega), Nat.div_eq_of_lt h2, add_zero],
    show (c.1 * ny + c.2) % ny = c.2 by rw [mul_comm, Nat.mul_add_mod, Nat.mod_eq_of_lt h2]] at this
  exact this

variable {e : Env C ℝ} {d : Domain ℝ} {op : Arr ℝ → ℕ × ℕ → ℝ} {κ S : ℝ} {profiles : Profiles C ℝ} {J edge : Arr ℝ → Arr ℝ} {B : Arr ℝ → ℝ} {ℓ g L : ℝ}

/-- The total flux after a linear solve with the flux `P`. -/
def nextFlux (e : Env C ℝ) (T : C) (J edge : Arr ℝ → Arr ℝ) (P : Arr ℝ) : Arr ℝ := fun c =>
  e.solver (fun _ => 0) (setEdge e.nx e.ny (fun c => -e.mu0 * e.R c.1 * J P c) (edge (J P))) c + e.coilPsi T c

theorem solves_sub {nx ny : ℕ} {A : ℕ → ℕ → ℝ} {u u' b b' : Arr ℝ} (h : Solves nx ny A u b) (h' : Solves nx ny A u' b') :
    Solves nx ny A (fun c => u c - u' c) (fun c => b c - b' c) := by
  intro c hc
  show _ = b c - b' c
  rw [← h c hc, ← h' c hc]
  simp only [matVec, flat, mul_sub, Finset.sum_sub_distrib]

/-- The second-order operator is stable with `κ = 1` and an eighth of the squared height. -/
theorem stable_second_order (d : Domain ℝ) {nx ny : ℕ} (hnx : 2 ≤ nx) (hny : 2 ≤ ny) (h0 : 0 ≤ d.Rmin) (hR : d.Rmin < d.Rmax)
    (hZ : d.Zmin < d.Zmax) : Stable nx ny (centralDelta d nx ny) 1 ((d.Zmax - d.Zmin) ^ 2 / 8) := by
  intro u u' E D hD hE hI
  set rhs : Arr ℝ → Arr ℝ := fun u c => if isInterior nx ny c then centralDelta d nx ny u c else u c with hrhs
  have hs : ∀ u, Solves nx ny (gsSparse d nx ny) u (rhs u) := by
    intro u c hc
    rcases grid_cases hc with he | hi
    · rw [(C35_matrix_is_operator d nx ny _).2 c he, hrhs]; simp [(edge_iff.mp he).2]
    · rw [((C35_matrix_is_operator d nx ny _).1 c hi).2, hrhs]; simp [inside_iff.mp hi]
  have := C92_stability d nx ny hnx hny h0 hR hZ _ _ (solves_sub (hs u) (hs u')) E D
    (fun c hc => by simp only [hrhs, (edge_iff.mp hc).2]; exact hE c hc)
    (fun c hc => by simp only [hrhs, inside_iff.mp hc]; exact hI c hc) hD
  intro c hc
  rw [one_mul]
  exact this c hc

/-- The answer of the linear system to a change of the current density. -/
theorem solves_near (hreg : Regular e d op profiles J edge B ℓ g L) (hst : Stable e.nx e.ny op κ S) {u u' P P' : Arr ℝ} {D : ℝ} (hD : 0 ≤ D)
    (hbi : ∀ c, Inside e.nx e.ny c → op u c = -e.mu0 * gridR d e.nx c.1 * J P c)
    (hbi' : ∀ c, Inside e.nx e.ny c → op u' c = -e.mu0 * gridR d e.nx c.1 * J P' c)
    (hbe : ∀ c, OnEdge e.nx e.ny c → u c = edge (J P) c) (hbe' : ∀ c, OnEdge e.nx e.ny c → u' c = edge (J P') c)
    (hP : Near e.nx e.ny D P P') :
    Near e.nx e.ny ((κ * g + S * (|e.mu0| * d.Rmax)) * ℓ * D) u u' := by
  have hJ := hreg.slopeJ P P' D hP
  have hst := hst u u' (g * (ℓ * D)) (|e.mu0| * d.Rmax * (ℓ * D)) ?_ ?_ ?_
  · intro c hc
    refine (hst c hc).trans (le_of_eq ?_)
    ring
  · have := hreg.ℓ
    have : 0 ≤ d.Rmax := by linarith [hreg.Rmin, hreg.R]
    positivity
  · intro c hc
    rw [hbe c hc, hbe' c hc]
    exact hreg.slopeEdge _ _ _ hJ c hc
  · intro c hc
    rw [hbi c hc, hbi' c hc]
    have hg := grid_inside d hreg.nx hreg.ny hreg.R hreg.Z hc
    have hR0 : 0 ≤ gridR d e.nx c.1 := by linarith [hreg.Rmin, hg.1, hg.2.2.2.2.1]
    have hR1 : gridR d e.nx c.1 ≤ d.Rmax := by linarith [hg.2.1, hg.2.2.2.2.1]
    rw [show -e.mu0 * gridR d e.nx c.1 * J P c - -e.mu0 * gridR d e.nx c.1 * J P' c =
      -(e.mu0 * gridR d e.nx c.1 * (J P c - J P' c)) by ring, abs_neg, abs_mul, abs_mul, abs_of_nonneg hR0]
    have h1 := hJ c (inside_onGrid hc)
    have h2 : 0 ≤ |e.mu0| * d.Rmax := mul_nonneg (abs_nonneg _) (hR0.trans hR1)
    gcongr

/-- What the solver returns for the right-hand side of the equilibrium. -/
theorem solver_rhs (hreg : Regular e d op profiles J edge B ℓ g L) (x P a : Arr ℝ) :
    (∀ c, Inside e.nx e.ny c → op (e.solver x (setEdge e.nx e.ny (fun c => -e.mu0 * e.R c.1 * J P c) a)) c =
      -e.mu0 * gridR d e.nx c.1 * J P c) ∧
    ∀ c, OnEdge e.nx e.ny c → e.solver x (setEdge e.nx e.ny (fun c => -e.mu0 * e.R c.1 * J P c) a) c = a c := by
  refine ⟨fun c hc => ?_, fun c hc => ?_⟩
  · rw [(hreg.solver _ _).1 c hc, setEdge_inside _ _ hc, hreg.grid]
  · rw [(hreg.solver _ _).2 c hc, setEdge_edge _ _ hc]

theorem next_near (hreg : Regular e d op profiles J edge B ℓ g L) (hst : Stable e.nx e.ny op κ S) (T : C) {P P' : Arr ℝ} {D : ℝ} (hD : 0 ≤ D)
    (hP : Near e.nx e.ny D P P') :
    Near e.nx e.ny ((κ * g + S * (|e.mu0| * d.Rmax)) * ℓ * D) (nextFlux e T J edge P) (nextFlux e T J edge P') := by
  have h1 := solver_rhs hreg (fun _ => 0) P (edge (J P))
  have h2 := solver_rhs hreg (fun _ => 0) P' (edge (J P'))
  have := solves_near hreg hst hD h1.1 h2.1 h1.2 h2.2 hP
  intro c hc
  have h := this c hc
  simp only [nextFlux]
  rwa [add_sub_add_right_eq_sub]

theorem updateBoundary_regular (hreg : Regular e d op profiles J edge B ℓ g L) (s : State C ℝ) (hs : s.checkLimited = false) (P : Arr ℝ) :
    ∃ s', updateBoundary e s P = .ok s' ∧ s'.tokamak = s.tokamak ∧ s'.checkLimited = false ∧ s'.plasmaPsi = s.plasmaPsi ∧
      s'.psiBndry = some (B P) := by
  obtain ⟨o, os, x, xs, m, h1, h2, h3⟩ := hreg.find P
  refine ⟨{ s with psiAxis := some o.2.2, psiXpt := some x.2.2, psiBndry := some x.2.2, isLimited := false, mask := some m }, ?_, rfl, hs, rfl,
    by rw [← h3]⟩
  rw [updateBoundary, h1]
  simp only [bind, Except.bind, hs, Bool.false_eq_true, if_false, h2]

theorem solve_regular (hreg : Regular e d op profiles J edge B ℓ g L) (hst : Stable e.nx e.ny op κ S) (s : State C ℝ)
    (hs : s.checkLimited = false) (P : Arr ℝ) (b : Option ℝ) :
    ∃ s', solve e profiles s none (some P) b = .ok s' ∧ s'.tokamak = s.tokamak ∧ s'.psiBndry = some (B (psi e s')) ∧
      Near e.nx e.ny 0 (psi e s') (nextFlux e s.tokamak J edge P) := by
  obtain ⟨s1, a1, a2, a3, a4, a5⟩ := updateBoundary_regular hreg s hs (psi e s)
  obtain ⟨s2, b1, b2, b3⟩ := hreg.profiles s1 P b
  obtain ⟨a, c1, c2⟩ := hreg.boundary (J P) s2.plasmaPsi
  set sol := e.solver a (setEdge e.nx e.ny (fun c => -e.mu0 * e.R c.1 * J P c) a) with hsol
  set s3 : State C ℝ := { s2 with plasmaPsi := sol, spline := sol } with hs3
  obtain ⟨s4, d1, d2, d3, d4, d5⟩ := updateBoundary_regular hreg s3 (by rw [hs3]; exact b3.trans a3) (psi e s3)
  obtain ⟨I, hI⟩ := hreg.integral (J P)
  refine ⟨{ s4 with current := I, jtor := some (J P) }, ?_, ?_, ?_, ?_⟩
  · rw [solve, a1]
    simp only [bind, Except.bind, density, Option.getD_some, b1, c1, updatePlasmaPsi]
    rw [← hsol, ← hs3, d1]
    simp only [hI]
  · show s4.tokamak = s.tokamak
    rw [d2]
    exact b2.trans a2
  · show s4.psiBndry = some (B (psi e { s4 with current := I, jtor := some (J P) }))
    have : psi e { s4 with current := I, jtor := some (J P) } = psi e s3 := by
      funext c
      simp only [psi, d4, d2]
    rw [this]
    exact d5
  · intro c hc
    have hpsi : psi e { s4 with current := I, jtor := some (J P) } c = sol c + e.coilPsi s.tokamak c := by
      show s4.plasmaPsi c + e.coilPsi s4.tokamak c = _
      rw [d4, d2, hs3]
      simp only [b2, a2]
    have k1 := solver_rhs hreg a P a
    have k2 := solver_rhs hreg (fun _ => 0) P (edge (J P))
    have := solves_near hreg hst (P := P) (P' := P) (D := 0) le_rfl k1.1 k2.1 (fun c hc => (k1.2 c hc).trans (c2 c hc)) k2.2
      (fun c _ => by rw [sub_self, abs_zero]) c hc
    rw [mul_zero] at this
    rw [hpsi, nextFlux, add_sub_add_right_eq_sub]
    exact this

theorem eq_of_near_zero {nx ny : ℕ} {a b : Arr ℝ} (h : Near nx ny 0 a b) (c : ℕ × ℕ) (hc : OnGrid nx ny c) : a c = b c :=
  sub_eq_zero.mp (abs_nonpos_iff.mp (h c hc))

theorem values_of_near {nx ny : ℕ} {a b : Arr ℝ} (h : Near nx ny 0 a b) : values nx ny a = values nx ny b := by
  have := within_values h
  rw [Within] at this
  refine List.forall₂_eq_eq_eq ▸ (this.imp fun x y hxy => sub_eq_zero.mp (abs_nonpos_iff.mp hxy))

/-- **C104** (equilibrium, any solver). Let a change of the flux by at most `D` change the current density by at most `ℓ D`, let a change of the
current density by at most `D` change the edge values by at most `g D`, and let an axis and an X-point always be found. Let the solver
invert an operator `op` that is stable with constants `κ` for the edge values and `S` for the right-hand side. If
`q = (κ g + S μ₀ Rmax) ℓ` is below one, then for given coil currents the discrete free boundary problem has exactly one
solution, and `picard.solve` with these coils, without control, limiter and `maxits`, with `blend` from zero up to but not one, returns
from every start, with a flux that differs from the solution by at most `q / (1 - q)` times the last change of the flux. -/
theorem C104_any_solver (e : Env C ℝ) (d : Domain ℝ) (op : Arr ℝ → ℕ × ℕ → ℝ) (profiles : Profiles C ℝ) (J edge : Arr ℝ → Arr ℝ)
    (B : Arr ℝ → ℝ) (κ S ℓ g L q : ℝ) (hreg : Regular e d op profiles J edge B ℓ g L) (hst : Stable e.nx e.ny op κ S) (hκ : 0 ≤ κ) (hS : 0 ≤ S)
    (hq : q = (κ * g + S * (|e.mu0| * d.Rmax)) * ℓ) (hq1 : q < 1) (T : C)
    (o : Opts ℝ) (hcl : o.checkLimited = false) (hw : o.waitForLimited = false) (hb0 : 0 ≤ o.blend) (hb1 : o.blend < 1)
    (hatol : 0 < o.atol) (hm : ∀ mx, o.maxits = some mx → mx = 0) :
    ∃ P, SelfConsistent e d op T J edge P ∧
      (∀ P', SelfConsistent e d op T J edge P' → ∀ c, OnGrid e.nx e.ny c → P' c = P c) ∧
      ∀ s0 : State C ℝ, s0.tokamak = T → ∃ fuel s' hist, picard (picardEnv e profiles none) o fuel s0 = .ok (some (s', hist)) ∧
        ∃ dl r, hist.getLast? = some (dl, r) ∧ ∀ c, OnGrid e.nx e.ny c → |psi e s' c - P c| ≤ q / (1 - q) * dl := by
  have hN : 0 < e.nx * e.ny := Nat.mul_pos (by linarith [hreg.nx]) (by linarith [hreg.ny])
  have hq0 : 0 ≤ q := by
    rw [hq]
    have := hreg.ℓ
    have := hreg.g
    have : 0 ≤ d.Rmax := by linarith [hreg.Rmin, hreg.R]
    positivity
  set F : List ℝ → List ℝ := fun p => values e.nx e.ny (nextFlux e T J edge (ofValues e.ny p)) with hF
  set BF : List ℝ → ℝ := fun p => B (nextFlux e T J edge (ofValues e.ny p)) with hBF
  have hcontr : Contracts (e.nx * e.ny) F q := by
    intro p p' D hp _ h
    have hD : 0 ≤ D := by
      cases h with
      | nil => rw [List.length_nil] at hp; omega
      | cons h1 _ => exact (abs_nonneg _).trans h1
    rw [hq]
    exact within_values (next_near hreg hst T hD (near_ofValues hp h))
  have hfol : Tracks (e.nx * e.ny) BF (L * q) := by
    intro p p' D hp _ h
    have hD : 0 ≤ D := by
      cases h with
      | nil => rw [List.length_nil] at hp; omega
      | cons h1 _ => exact (abs_nonneg _).trans h1
    have := hreg.slopeB _ _ _ (next_near hreg hst T hD (near_ofValues hp h))
    rw [← hq] at this
    rw [mul_assoc]
    exact this
  have hresp : Responds (picardEnv e profiles none) o (e.nx * e.ny) (fun s => s.tokamak = T) F BF := by
    intro s p hs hp
    obtain ⟨s', h1, h2, h3, h4⟩ := solve_regular hreg hst { s with checkLimited := false } rfl (ofValues e.ny p) o.psiBndry
    have hs' : ({ s with checkLimited := false } : State C ℝ).tokamak = T := hs
    rw [hs'] at h2 h4
    refine ⟨s', h1, values_of_near h4, ?_, h2⟩
    show s'.psiBndry = _
    rw [h3]
    have := hreg.slopeB _ _ _ h4
    rw [mul_zero] at this
    rw [sub_eq_zero.mp (abs_nonpos_iff.mp this)]
  obtain ⟨sol, s1, s2, s3, s4⟩ := C104_contraction (picardEnv e profiles none) o (e.nx * e.ny) hN (fun s => values_length _ _ _) hcl hw rfl
    (fun s => s.tokamak = T) F BF (fun p _ => values_length _ _ _) hresp q (L * q) hq0 hq1 hcontr hfol hb0 hb1 hatol hm
  set P := nextFlux e T J edge (ofValues e.ny sol) with hP
  have hval : values e.nx e.ny P = sol := s2
  have hPsol : Near e.nx e.ny 0 P (ofValues e.ny sol) := by
    apply near_of_within
    rw [hval, values_ofValues s1]
    rw [Within, List.forall₂_iff_get]
    exact ⟨rfl, fun i h1 h2 => by rw [sub_self, abs_zero]⟩
  have hJP : Near e.nx e.ny 0 (J P) (J (ofValues e.ny sol)) := by
    have := hreg.slopeJ _ _ _ hPsol
    rwa [mul_zero] at this
  refine ⟨P, ⟨fun c hc => ?_, fun c hc => ?_⟩, fun P' hP' c hc => ?_, fun s0 hs0 => ?_⟩
  · have h1 : (fun c => P c - e.coilPsi T c) = e.solver (fun _ => 0) (setEdge e.nx e.ny (fun c => -e.mu0 * e.R c.1 * J (ofValues e.ny sol) c)
        (edge (J (ofValues e.ny sol)))) := by
      funext c; rw [hP]; simp only [nextFlux]; ring
    rw [h1, (hreg.solver _ _).1 c hc, setEdge_inside _ _ hc, hreg.grid, eq_of_near_zero hJP c (inside_onGrid hc)]
  · have h1 : P c - e.coilPsi T c = e.solver (fun _ => 0) (setEdge e.nx e.ny (fun c => -e.mu0 * e.R c.1 * J (ofValues e.ny sol) c)
        (edge (J (ofValues e.ny sol)))) c := by
      rw [hP]; simp only [nextFlux]; ring
    rw [h1, (hreg.solver _ _).2 c hc, setEdge_edge _ _ hc]
    have := hreg.slopeEdge _ _ _ hJP c hc
    rw [mul_zero] at this
    exact (sub_eq_zero.mp (abs_nonpos_iff.mp this)).symm
  · have hn : Near e.nx e.ny 0 (ofValues e.ny (values e.nx e.ny P')) P' := by
      apply near_of_within
      rw [values_ofValues (values_length _ _ _), Within, List.forall₂_iff_get]
      exact ⟨rfl, fun i h1 h2 => by rw [sub_self, abs_zero]⟩
    have k1 := solver_rhs hreg (fun _ => 0) (ofValues e.ny (values e.nx e.ny P')) (edge (J (ofValues e.ny (values e.nx e.ny P'))))
    have hnear := solves_near hreg hst (u' := fun c => P' c - e.coilPsi T c) (P := ofValues e.ny (values e.nx e.ny P')) (P' := P') (D := 0) le_rfl
      k1.1 hP'.1 k1.2 hP'.2 hn
    rw [mul_zero] at hnear
    have hfix : F (values e.nx e.ny P') = values e.nx e.ny P' := by
      apply values_of_near
      intro c hc
      have := hnear c hc
      simp only [nextFlux]
      convert this using 2
      ring
    have := s3 _ (values_length _ _ _) hfix
    rw [← hval] at this
    apply eq_of_near_zero (nx := e.nx) (ny := e.ny) _ c hc
    apply near_of_within
    rw [this, Within, List.forall₂_iff_get]
    exact ⟨rfl, fun i h1 h2 => by rw [sub_self, abs_zero]⟩
  · obtain ⟨fuel, s', hist, h1, dl, r, h2, h3⟩ := s4 s0 hs0
    refine ⟨fuel, s', hist, h1, dl, r, h2, ?_⟩
    rw [← hval] at h3
    exact near_of_within h3

/-- **C104** (equilibrium). With the second-order solver: `κ = 1` and `S = (Zmax - Zmin)² / 8`. -/
theorem C104_equilibrium (e : Env C ℝ) (d : Domain ℝ) (profiles : Profiles C ℝ) (J edge : Arr ℝ → Arr ℝ) (B : Arr ℝ → ℝ) (ℓ g L q : ℝ)
    (hreg : Regular e d (centralDelta d e.nx e.ny) profiles J edge B ℓ g L)
    (hq : q = (g + (d.Zmax - d.Zmin) ^ 2 / 8 * (|e.mu0| * d.Rmax)) * ℓ) (hq1 : q < 1) (T : C)
    (o : Opts ℝ) (hcl : o.checkLimited = false) (hw : o.waitForLimited = false) (hb0 : 0 ≤ o.blend) (hb1 : o.blend < 1)
    (hatol : 0 < o.atol) (hm : ∀ mx, o.maxits = some mx → mx = 0) :
    ∃ P, SelfConsistent e d (centralDelta d e.nx e.ny) T J edge P ∧
      (∀ P', SelfConsistent e d (centralDelta d e.nx e.ny) T J edge P' → ∀ c, OnGrid e.nx e.ny c → P' c = P c) ∧
      ∀ s0 : State C ℝ, s0.tokamak = T → ∃ fuel s' hist, picard (picardEnv e profiles none) o fuel s0 = .ok (some (s', hist)) ∧
        ∃ dl r, hist.getLast? = some (dl, r) ∧ ∀ c, OnGrid e.nx e.ny c → |psi e s' c - P c| ≤ q / (1 - q) * dl :=
  C104_any_solver e d _ profiles J edge B 1 _ ℓ g L q hreg (stable_second_order d hreg.nx hreg.ny hreg.Rmin hreg.R hreg.Z) zero_le_one
    (by positivity) (by rw [hq, one_mul]) hq1 T o hcl hw hb0 hb1 hatol hm

/-! ## A case -/

/-- A 3 × 3 grid on `1 ≤ R ≤ 2`, `-1 ≤ Z ≤ 1` with one coil of the given current, the X-point at the corner and the edge kept at zero plasma
flux. -/
noncomputable def smallEnv : Env ℝ ℝ :=
  { mu0 := 1
    nx := 3
    ny := 3
    R := gridR ⟨1, 2, -1, 1⟩ 3
    Z := gridZ ⟨1, 2, -1, 1⟩ 3
    coilPsi := fun T c => T * c.1
    limits := fun _ => none
    find := fun P => .ok ([(3 / 2, 0, P (1, 1))], [(1, -1, P (0, 0))])
    core := fun _ _ _ _ => .ok fun _ => 1
    interp := fun a _ _ => a (0, 0)
    fixed := true
    boundary := fun _ p => .ok (fixedBoundary 3 3 p)
    solver := fun _ b => (C35_unique_solution (⟨1, 2, -1, 1⟩ : Domain ℝ) 3 3 (by norm_num) (by norm_num) (by norm_num) (by norm_num) (by norm_num)
      b).1.choose }

/-- A current density of half the flux: `q` is one half. -/
theorem small_regular : Regular smallEnv ⟨1, 2, -1, 1⟩ (centralDelta ⟨1, 2, -1, 1⟩ 3 3) (fun s P _ => .ok (s, fun c => P c / 2)) (fun P c => P c / 2) (fun _ _ => 0)
    (fun P => P (0, 0)) (1 / 2) 0 1 where
  nx := by show 2 ≤ 3; norm_num
  ny := by show 2 ≤ 3; norm_num
  Rmin := by norm_num
  R := by norm_num
  Z := by norm_num
  grid := fun i => rfl
  solver := fun x b => by
    have h := (C35_unique_solution (⟨1, 2, -1, 1⟩ : Domain ℝ) 3 3 (by norm_num) (by norm_num) (by norm_num) (by norm_num) (by norm_num)
      b).1.choose_spec
    refine ⟨fun c hc => ?_, fun c hc => ?_⟩
    · rw [← h c (inside_onGrid hc)]
      exact ((C35_matrix_is_operator (⟨1, 2, -1, 1⟩ : Domain ℝ) 3 3 _).1 c hc).2.symm
    · rw [← h c hc.1]
      exact ((C35_matrix_is_operator (⟨1, 2, -1, 1⟩ : Domain ℝ) 3 3 _).2 c hc).symm
  profiles := fun s P b => ⟨s, rfl, rfl, rfl⟩
  slopeJ := fun P P' D h c hc => by
    have := h c hc
    rw [← sub_div, abs_div, abs_of_pos (by norm_num : (0 : ℝ) < 2)]
    linarith
  boundary := fun j p => ⟨_, rfl, fun c hc => setEdge_edge _ _ hc⟩
  slopeEdge := fun j j' D _ c _ => by simp
  find := fun P => ⟨_, _, _, _, _, rfl, rfl, rfl⟩
  slopeB := fun P P' D h => by
    have := h (0, 0) ⟨by show 0 < 3; norm_num, by show 0 < 3; norm_num⟩
    rwa [one_mul]
  integral := fun j => ⟨_, integrate_three _ _ j⟩
  ℓ := by norm_num
  g := le_rfl

/-- A case of `C104_equilibrium`, with coil current 7, `blend = 0.3` and the usual tolerances. -/
example : ∃ P, SelfConsistent smallEnv ⟨1, 2, -1, 1⟩ (centralDelta ⟨1, 2, -1, 1⟩ 3 3) 7 (fun P c => P c / 2) (fun _ _ => 0) P ∧
    ∀ s0 : State ℝ ℝ, s0.tokamak = 7 → ∃ fuel s' hist,
      picard (picardEnv smallEnv (fun s P _ => .ok (s, fun c => P c / 2)) none)
        ⟨1 / 1000, 1 / 10000000000, 3 / 10, none, none, false, false, 0⟩ fuel s0 = .ok (some (s', hist)) ∧
      ∃ dl r, hist.getLast? = some (dl, r) ∧ ∀ c, OnGrid 3 3 c → |psi smallEnv s' c - P c| ≤ dl := by
  obtain ⟨P, h1, _, h3⟩ := C104_equilibrium smallEnv ⟨1, 2, -1, 1⟩ _ _ _ _ _ _ _ (1 / 2) small_regular
    (by rw [show smallEnv.mu0 = 1 from rfl]; norm_num) (by norm_num) 7 ⟨1 / 1000, 1 / 10000000000, 3 / 10, none, none, false, false, 0⟩ rfl rfl
    (by norm_num) (by norm_num) (by norm_num) (fun mx h => by cases h)
  refine ⟨P, h1, fun s0 hs => ?_⟩
  obtain ⟨fuel, s', hist, a, dl, r, b, c⟩ := h3 s0 hs
  refine ⟨fuel, s', hist, a, dl, r, b, fun x hx => (c x hx).trans (le_of_eq (by ring))⟩

end FreeGS.Equil
