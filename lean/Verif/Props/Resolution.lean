import Verif.Model.Resolution
import Verif.Lemmas.Multigrid
import Verif.Props.Multigrid
import Mathlib.Data.Rat.Floor

/-!
# Changing the resolution (C44)
-/

set_option linter.unusedSectionVars false

namespace FreeGS.Resolution

open FreeGS.GS FreeGS.MG
open FreeGS.Critical (Domain linspaceAt)

universe u
variable {M P Q K : Type u} [Field K] [LinearOrder K] [IsStrictOrderedRing K]

/-! ## Specification -/

/-- The interpolation of an array passes through its values at the grid points, where it exists (cubic splines need four points). -/
def Interpolates (spline : Domain K → ℕ → ℕ → Arr K → K → K → K) : Prop :=
  ∀ (d : Domain K) (nx ny : ℕ) (a : Arr K), d.Rmin < d.Rmax → d.Zmin < d.Zmax → 4 ≤ nx → 4 ≤ ny → ∀ i j, i < nx → j < ny →
    spline d nx ny a (linspaceAt d.Rmin d.Rmax nx i) (linspaceAt d.Zmin d.Zmax ny j) = a (i, j)

/-- Machine, domain, profiles and control of one equilibrium are those of the other. -/
def SameSetup (a b : Eqm M P Q K) : Prop :=
  a.tokamak = b.tokamak ∧ a.dom = b.dom ∧ a.profiles = b.profiles ∧ a.control = b.control

/-! ## Helpers -/

theorem make_ok {e : Ext M P Q K} {t : M} {d : Domain K} {nx ny : ℕ} {b : Boundary} {psi : Option (Arr K)} {I : K} {o : ℕ} {l : Bool}
    {s : Eqm M P Q K} (h : make e t d nx ny b psi I o l = .ok s) :
    s = ⟨t, d, nx, ny, b, o, l, I, psi.getD (e.start nx ny), none, none⟩ ∧ (o = 2 ∨ o = 4) ∧ 2 ≤ nx ∧ 2 ≤ ny := by
  unfold make at h
  simp only at h
  by_cases h1 : nx < 2 ∨ ny < 2
  · rw [if_pos h1] at h; cases h
  rw [if_neg h1] at h
  split at h
  · cases h
  · by_cases h2 : o = 2 ∨ o = 4
    · rw [if_pos h2] at h
      split at h
      · cases h
      · cases h
        exact ⟨rfl, h2, by omega, by omega⟩
    · rw [if_neg h2] at h; cases h

theorem setPsi_ok {e : Ext M P Q K} {s r : Eqm M P Q K} {psi : Arr K} (h : setPsi e s psi = .ok r) : r = { s with plasmaPsi := psi } := by
  unfold setPsi at h
  split at h
  · cases h
  · cases h; rfl

theorem refine_ok {e : Ext M P Q K} {eq r : Eqm M P Q K} {nx ny : Option ℕ} (h : refine e eq nx ny = .ok r) :
    r = ⟨eq.tokamak, eq.dom, doubled nx eq.nx, doubled ny eq.ny, eq.boundary, eq.order, false, 0,
      fun c => e.spline eq.dom eq.nx eq.ny eq.plasmaPsi (linspaceAt eq.dom.Rmin eq.dom.Rmax (doubled nx eq.nx) c.1)
        (linspaceAt eq.dom.Zmin eq.dom.Zmax (doubled ny eq.ny) c.2), eq.profiles, eq.control⟩ := by
  unfold refine at h
  split at h
  · cases h
  · rename_i s hs
    obtain ⟨rfl, -⟩ := make_ok hs
    simp only at h
    split at h
    · cases h
    · rename_i q hq
      rw [setPsi_ok hq] at h
      cases h
      rfl

theorem coarsen_ok {e : Ext M P Q K} {eq r : Eqm M P Q K} (h : coarsen e eq = .ok r) :
    r = ⟨eq.tokamak, eq.dom, (restrict ⟨eq.nx, eq.ny, eq.plasmaPsi⟩).nx, (restrict ⟨eq.nx, eq.ny, eq.plasmaPsi⟩).ny, .free, 4, false, 0,
      (restrict ⟨eq.nx, eq.ny, eq.plasmaPsi⟩).val, eq.profiles, eq.control⟩ := by
  unfold coarsen at h
  simp only at h
  split at h
  · cases h
  · rename_i s hs
    obtain ⟨rfl, -⟩ := make_ok hs
    split at h
    · cases h
    · rename_i q hq
      rw [setPsi_ok hq] at h
      cases h
      rfl

/-- Every second point of the doubled grid is a point of the grid. -/
theorem linspaceAt_doubled (a b : K) {n : ℕ} (hn : 2 ≤ n) (i : ℕ) : linspaceAt a b (2 * (n - 1) + 1) (2 * i) = linspaceAt a b n i := by
  have h1 : ((n : K) - 1) ≠ 0 := by
    have : (1 : K) < n := by exact_mod_cast (by omega : 1 < n)
    exact (sub_pos.mpr this).ne'
  rw [linspaceAt, linspaceAt, if_neg (by omega), if_neg (by omega)]
  push_cast [Nat.cast_sub (by omega : 1 ≤ n)]
  rw [show (2 * ((n : K) - 1) + 1 - 1) = 2 * ((n : K) - 1) by ring]
  field_simp

/-! ## C44 -/

/-- **C44 (refine).** `refine` keeps machine, domain, profiles, control, boundary function and order; it doubles the number of intervals
in the directions for which no size (or size zero) is given. The flux of the plasma is unchanged at the old grid points. -/
theorem C44_refine (e : Ext M P Q K) (hs : Interpolates e.spline) (eq r : Eqm M P Q K) (nx ny : Option ℕ) (h : refine e eq nx ny = .ok r) :
    SameSetup r eq ∧ r.boundary = eq.boundary ∧ r.order = eq.order ∧
    (nx.getD 0 = 0 → r.nx - 1 = 2 * (eq.nx - 1)) ∧ (ny.getD 0 = 0 → r.ny - 1 = 2 * (eq.ny - 1)) ∧
    (∀ k, nx = some k → k ≠ 0 → r.nx = k) ∧ (∀ k, ny = some k → k ≠ 0 → r.ny = k) ∧
    (eq.dom.Rmin < eq.dom.Rmax → eq.dom.Zmin < eq.dom.Zmax → 4 ≤ eq.nx → 4 ≤ eq.ny → nx.getD 0 = 0 → ny.getD 0 = 0 →
      ∀ i j, i < eq.nx → j < eq.ny → r.plasmaPsi (2 * i, 2 * j) = eq.plasmaPsi (i, j)) := by
  obtain rfl := refine_ok h
  have hd : ∀ (n : Option ℕ) (m : ℕ), n.getD 0 = 0 → doubled n m = 2 * (m - 1) + 1 := by
    intro n m hn
    cases n with
    | none => rfl
    | some k => cases k with
      | zero => rfl
      | succ k => simp at hn
  have hg : ∀ (n : Option ℕ) (m k : ℕ), n = some k → k ≠ 0 → doubled n m = k := by
    rintro n m k rfl hk
    cases k with
    | zero => exact absurd rfl hk
    | succ k => rfl
  refine ⟨⟨rfl, rfl, rfl, rfl⟩, rfl, rfl, fun h1 => ?_, fun h1 => ?_, fun k h1 h2 => hg nx _ k h1 h2, fun k h1 h2 => hg ny _ k h1 h2,
    fun hR hZ hx hy h1 h2 i j hi hj => ?_⟩
  · show doubled nx eq.nx - 1 = _; rw [hd nx _ h1]; omega
  · show doubled ny eq.ny - 1 = _; rw [hd ny _ h1]; omega
  · show e.spline eq.dom eq.nx eq.ny eq.plasmaPsi (linspaceAt eq.dom.Rmin eq.dom.Rmax (doubled nx eq.nx) (2 * i))
        (linspaceAt eq.dom.Zmin eq.dom.Zmax (doubled ny eq.ny) (2 * j)) = _
    rw [hd nx _ h1, hd ny _ h2, linspaceAt_doubled _ _ (by omega), linspaceAt_doubled _ _ (by omega)]
    exact hs _ _ _ _ hR hZ hx hy i j hi hj

/-- **C44 (coarsen, part).** `coarsen` keeps machine, domain, profiles and control. If both sizes are odd it halves the number of intervals,
keeps every second value of the plasma flux inside and sets the plasma flux on the edge to zero; otherwise it changes nothing.
The full claim asks for boundary function and order to be kept as well: see `C44_coarsen_resets`. -/
theorem C44_coarsen_partial (e : Ext M P Q K) (eq r : Eqm M P Q K) (h : coarsen e eq = .ok r) :
    SameSetup r eq ∧
    (eq.nx % 2 = 1 → eq.ny % 2 = 1 → 2 * (r.nx - 1) = eq.nx - 1 ∧ 2 * (r.ny - 1) = eq.ny - 1 ∧
      ∀ c, OnGrid r.nx r.ny c → (Inside r.nx r.ny c → r.plasmaPsi c = eq.plasmaPsi (2 * c.1, 2 * c.2)) ∧
        (¬ Inside r.nx r.ny c → r.plasmaPsi c = 0)) ∧
    (¬ (eq.nx % 2 = 1 ∧ eq.ny % 2 = 1) → r.nx = eq.nx ∧ r.ny = eq.ny ∧ r.plasmaPsi = eq.plasmaPsi) := by
  obtain rfl := coarsen_ok h
  refine ⟨⟨rfl, rfl, rfl, rfl⟩, fun h1 h2 => ?_, fun h1 => ?_⟩
  · have hv := restrict_val (g := ⟨eq.nx, eq.ny, eq.plasmaPsi⟩) h1 h2 false
    rw [show restrict (⟨eq.nx, eq.ny, eq.plasmaPsi⟩ : Grid K) = restrict ⟨eq.nx, eq.ny, eq.plasmaPsi⟩ false from rfl, hv]
    simp only [half]
    refine ⟨by omega, by omega, fun c _ => ⟨fun hi => ?_, fun hi => ?_⟩⟩
    · rw [if_pos (by simp only [isInterior, decide_eq_true_eq]; exact hi)]
      simp
    · rw [if_neg (by simp only [isInterior, decide_eq_true_eq]; exact hi)]
  · have : odd eq.nx eq.ny = true := by
      by_contra ho
      exact h1 (odd_false.mp (by simpa using ho))
    rw [show restrict (⟨eq.nx, eq.ny, eq.plasmaPsi⟩ : Grid K) = ⟨eq.nx, eq.ny, eq.plasmaPsi⟩ by rw [restrict, if_pos this]]
    exact ⟨rfl, rfl, rfl⟩

/-- **C44 (refine then coarsen, part).** Refining with the default sizes and coarsening again restores the grid size and the plasma flux
inside, and keeps machine, domain, profiles and control. The plasma flux on the edge is lost, and the full claim asks for
boundary function and order as well: see `C44_coarsen_resets`. -/
theorem C44_refine_coarsen_partial (e : Ext M P Q K) (hs : Interpolates e.spline) (eq r s : Eqm M P Q K)
    (hR : eq.dom.Rmin < eq.dom.Rmax) (hZ : eq.dom.Zmin < eq.dom.Zmax) (hx : 4 ≤ eq.nx) (hy : 4 ≤ eq.ny)
    (h : refine e eq = .ok r) (h' : coarsen e r = .ok s) :
    SameSetup s eq ∧ s.nx = eq.nx ∧ s.ny = eq.ny ∧
    ∀ c, OnGrid eq.nx eq.ny c → 
      (Inside eq.nx eq.ny c → s.plasmaPsi c = eq.plasmaPsi c) ∧ (¬ Inside eq.nx eq.ny c → s.plasmaPsi c = 0) := by
  obtain ⟨⟨a1, a2, a3, a4⟩, -, -, a5, a6, -, -, a7⟩ := C44_refine e hs eq r none none h
  obtain ⟨⟨b1, b2, b3, b4⟩, b5, -⟩ := C44_coarsen_partial e r s h'
  have e1 : r.nx = 2 * (eq.nx - 1) + 1 := by rw [refine_ok h]; rfl
  have e2 : r.ny = 2 * (eq.ny - 1) + 1 := by rw [refine_ok h]; rfl
  obtain ⟨c1, c2, c3⟩ := b5 (by omega) (by omega)
  have f1 : 1 ≤ s.nx := by rw [coarsen_ok h', restrict_val (by show r.nx % 2 = 1; omega) (by show r.ny % 2 = 1; omega)]; simp [half]
  have f2 : 1 ≤ s.ny := by rw [coarsen_ok h', restrict_val (by show r.nx % 2 = 1; omega) (by show r.ny % 2 = 1; omega)]; simp [half]
  have d1 : s.nx = eq.nx := by omega
  have d2 : s.ny = eq.ny := by omega
  refine ⟨⟨b1.trans a1, b2.trans a2, b3.trans a3, b4.trans a4⟩, d1, d2, fun c hc => ?_⟩
  rw [d1, d2] at c3
  exact ⟨fun hi => ((c3 c hc).1 hi).trans (a7 hR hZ hx hy rfl rfl c.1 c.2 hc.1 hc.2), (c3 c hc).2⟩

/-- **C44 (finding).** Whatever the equilibrium, the coarsened one has a free boundary and the fourth order scheme; both `refine` and
`coarsen` forget the plasma current and that the limiter is to be checked. So for an equilibrium with fixed boundary or with
the second order scheme the claim is false. -/
theorem C44_coarsen_resets (e : Ext M P Q K) (eq r : Eqm M P Q K) :
    (coarsen e eq = .ok r → r.boundary = .free ∧ r.order = 4 ∧ r.checkLimited = false ∧ r.current = 0) ∧
    (∀ nx ny, refine e eq nx ny = .ok r → r.checkLimited = false ∧ r.current = 0) := by
  refine ⟨fun h => ?_, fun nx ny h => ?_⟩
  · obtain rfl := coarsen_ok h
    exact ⟨rfl, rfl, rfl, rfl⟩
  · obtain rfl := refine_ok h
    exact ⟨rfl, rfl⟩

/-- **C44 (newDomain, part).** `newDomain` keeps every domain limit that is not given and, on a square grid, the sizes that are not given;
given ones are used. On any grid the size in `Z` that is not given becomes the old size in `R`, so the claim is false on grids
that are not square; the result always has a free boundary and the fourth order scheme. -/
theorem C44_newDomain_partial (e : Ext M P Q K) (eq r : Eqm M P Q K) (Rmin Rmax Zmin Zmax : Option K) (nx ny : Option ℕ)
    (h : newDomain e eq Rmin Rmax Zmin Zmax nx ny = .ok r) :
    r.tokamak = eq.tokamak ∧ r.profiles = eq.profiles ∧ r.dom.Rmin = Rmin.getD eq.dom.Rmin ∧ r.dom.Rmax = Rmax.getD eq.dom.Rmax ∧
    r.dom.Zmin = Zmin.getD eq.dom.Zmin ∧ r.dom.Zmax = Zmax.getD eq.dom.Zmax ∧ r.nx = nx.getD eq.nx ∧
    (eq.nx = eq.ny → r.ny = ny.getD eq.ny) ∧
    (eq.nx ≠ eq.ny → ny = none → r.ny = eq.nx ∧ r.ny ≠ eq.ny) ∧ r.boundary = .free ∧ r.order = 4 := by
  unfold newDomain at h
  simp only at h
  split at h
  · cases h
  · rename_i s hs
    obtain ⟨rfl, -⟩ := make_ok hs
    split at h
    · cases h
    · rename_i p hp
      split at h
      · cases h
      · cases h
        exact ⟨rfl, hp.symm, rfl, rfl, rfl, rfl, rfl, fun h => by rw [← h], fun h1 h2 => ⟨by rw [h2]; rfl, by rw [h2]; exact h1⟩, rfl, rfl⟩

/-! ## The hypotheses can be met -/

/-- A lookup of the nearest point below: passes through the values. -/
def lookup (d : Domain ℚ) (nx ny : ℕ) (a : Arr ℚ) (r z : ℚ) : ℚ :=
  a (⌊(r - d.Rmin) / ((d.Rmax - d.Rmin) / ((nx : ℚ) - 1))⌋₊, ⌊(z - d.Zmin) / ((d.Zmax - d.Zmin) / ((ny : ℚ) - 1))⌋₊)

theorem lookup_interpolates : Interpolates lookup := by
  intro d nx ny a hR hZ hx hy i j hi hj
  have key : ∀ (a b : ℚ) (n i : ℕ), a < b → 4 ≤ n → ⌊(linspaceAt a b n i - a) / ((b - a) / ((n : ℚ) - 1))⌋₊ = i := by
    intro a b n i hab hn
    have h1 : (0 : ℚ) < n - 1 := by
      have : (4 : ℚ) ≤ n := by exact_mod_cast hn
      linarith
    have h2 : (b - a) / ((n : ℚ) - 1) ≠ 0 := (div_pos (sub_pos.mpr hab) h1).ne'
    rw [linspaceAt, if_neg (by omega), add_sub_cancel_left, mul_div_assoc, div_self h2, mul_one, Nat.floor_natCast]
  rw [lookup, key _ _ _ _ hR hx, key _ _ _ _ hZ hy]

/-- An equilibrium with fixed boundary and second order on a 5 x 7 grid. -/
def exampleEq : Eqm ℕ ℕ ℕ ℚ :=
  { tokamak := 3, dom := ⟨1, 2, -1, 1⟩, nx := 5, ny := 7, boundary := .fixed, order := 2, checkLimited := true, current := 5
    plasmaPsi := fun c => (c.1 + 10 * c.2 : ℚ), profiles := some 4, control := none }

def exampleExt : Ext ℕ ℕ ℕ ℚ :=
  { start := fun _ _ _ => 0, update := fun _ => .ok (), solver := fun _ _ _ _ => .ok (), spline := lookup
    resolve := fun _ _ _ => .ok (fun _ => 1, 2) }

example : ∃ r s : Eqm ℕ ℕ ℕ ℚ, refine exampleExt exampleEq = .ok r ∧ coarsen exampleExt r = .ok s ∧
    s.nx = 5 ∧ s.ny = 7 ∧ s.plasmaPsi (1, 2) = 21 ∧ s.plasmaPsi (0, 2) = 0 ∧ r.boundary = .fixed ∧ s.boundary = .free ∧ s.order = 4 := by
  obtain ⟨r, hr⟩ : ∃ r : Eqm ℕ ℕ ℕ ℚ, refine exampleExt exampleEq = .ok r := ⟨_, rfl⟩
  obtain ⟨s, hs⟩ : ∃ s : Eqm ℕ ℕ ℕ ℚ, coarsen exampleExt r = .ok s := by
    obtain rfl := refine_ok hr
    exact ⟨_, rfl⟩
  obtain ⟨h1, h2, h3, h4⟩ := C44_refine_coarsen_partial exampleExt lookup_interpolates exampleEq r s (by norm_num [exampleEq])
    (by norm_num [exampleEq]) (by decide) (by decide) hr hs
  refine ⟨r, s, hr, hs, h2, h3, ?_, ?_, by obtain rfl := refine_ok hr; rfl, ((C44_coarsen_resets _ _ _).1 hs).1,
    ((C44_coarsen_resets _ _ _).1 hs).2.1⟩
  · rw [(h4 (1, 2) ⟨by decide, by decide⟩).1 (by simp [Inside, exampleEq])]; norm_num [exampleEq]
  · rw [(h4 (0, 2) ⟨by decide, by decide⟩).2 (by simp [Inside])]

/-- `newDomain` on the 5 x 7 grid without further arguments: the result has 5 x 5 points. -/
example : ∃ r : Eqm ℕ ℕ ℕ ℚ, newDomain exampleExt exampleEq = .ok r ∧ r.nx = 5 ∧ r.ny = 5 ∧ exampleEq.ny = 7 := ⟨_, rfl, rfl, rfl, rfl⟩

end FreeGS.Resolution
