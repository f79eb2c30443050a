import Verif.Model.Equilibrium
import Verif.Props.GradShafranov
import Verif.Props.Jtor
import Verif.Props.Picard

/-!
# Limited or diverted plasma (C40), the linear solve (C70), the converged equilibrium (C71)
-/

set_option linter.unusedSectionVars false

namespace FreeGS.Equil

open FreeGS.GS FreeGS.Critical FreeGS.Jtor

universe u
variable {K : Type u} [Field K] [LinearOrder K] {C : Type u}

/-! ## The plasma boundary -/

theorem argmaxLoop_spec (f : K × K → K) : ∀ (l : List (K × K)) (best : K × K),
    argmaxLoop f l best ∈ best :: l ∧ ∀ q ∈ best :: l, f q ≤ f (argmaxLoop f l best) := by
  intro l
  induction l with
  | nil => exact fun best => ⟨List.mem_cons_self, fun q hq => by rw [List.mem_singleton.mp hq]; exact le_refl _⟩
  | cons a l ih =>
    intro best
    rw [argmaxLoop]
    by_cases h : f best < f a
    · rw [if_pos h]
      obtain ⟨h1, h2⟩ := ih a
      refine ⟨List.mem_cons_of_mem _ h1, fun q hq => ?_⟩
      rcases List.mem_cons.mp hq with rfl | hq
      · exact le_trans (le_of_lt h) (h2 a List.mem_cons_self)
      · exact h2 q hq
    · rw [if_neg h]
      obtain ⟨h1, h2⟩ := ih best
      refine ⟨?_, fun q hq => ?_⟩
      · rcases List.mem_cons.mp h1 with h1 | h1
        · rw [h1]; exact List.mem_cons_self
        · exact List.mem_cons_of_mem _ (List.mem_cons_of_mem _ h1)
      · rcases List.mem_cons.mp hq with rfl | hq
        · exact h2 _ List.mem_cons_self
        · rcases List.mem_cons.mp hq with rfl | hq
          · exact le_trans (not_lt.mp h) (h2 _ List.mem_cons_self)
          · exact h2 q (List.mem_cons_of_mem _ hq)

/-- The limiter point `q` is not above or below three quarters of the height of the first X-point, if there is one. -/
def InReach (xpt : List (Point K)) (q : K × K) : Prop := ∀ x ∈ xpt.head?, |q.2| < |3 / 4 * x.2.1|

theorem mem_keptPoints {xpt : List (Point K)} {pts : List (K × K)} {q : K × K} :
    q ∈ keptPoints xpt pts ↔ q ∈ pts ∧ InReach xpt q := by
  cases xpt with
  | nil => simp [keptPoints, InReach]
  | cons x xs => simp [keptPoints, InReach]

theorem limiterContact_ok {e : Env C K} {psi : Arr K} {pts : List (K × K)} {q : K × K} {L : K}
    (h : limiterContact e psi pts = .ok (q, L)) :
    e.nx = e.ny ∧ q ∈ pts ∧ L = e.interp (fun c => psi (c.2, c.1)) q.1 q.2 ∧
      ∀ r ∈ pts, e.interp (fun c => psi (c.2, c.1)) r.1 r.2 ≤ L := by
  rw [limiterContact] at h
  split_ifs at h with hn
  cases pts with
  | nil => cases h
  | cons a pts =>
    simp only [Except.ok.injEq, Prod.mk.injEq] at h
    obtain ⟨rfl, rfl⟩ := h
    obtain ⟨h1, h2⟩ := argmaxLoop_spec (fun q : K × K => e.interp (transpose psi) q.1 q.2) pts a
    exact ⟨not_not.mp hn, h1, rfl, h2⟩

/-- **C40 (limiter checked).** With limits checked and a wall: the contact point is a limiter point in reach, the limiter flux is the largest
over those points; the boundary flux is that of the first X-point or of the limiter, whichever is nearer to the flux on the axis if the
axis is a maximum; the plasma is reported limited exactly when the boundary flux is that of the limiter, and always if there is no
X-point. What is missing of the full statement: the flux is taken from the transposed map (`C40_limiter_flux_transposed`), and for a
minimum on the axis the wrong one is taken (`C40_negative_current`). -/
theorem C40_checked_partial [IsStrictOrderedRing K] (e : Env C K) (s s' : State C K) (psi : Arr K) (o : Point K) (os xpt : List (Point K))
    (pts : List (K × K)) (hfind : e.find psi = .ok (o :: os, xpt)) (hcheck : s.checkLimited = true)
    (hlim : e.limits s.tokamak = some pts) (h : updateBoundary e s psi = .ok s') :
    ∃ q L b, s'.contact = some q ∧ s'.psiLimit = some L ∧ s'.psiBndry = some b ∧ s'.psiAxis = some o.2.2 ∧
      q ∈ pts ∧ InReach xpt q ∧ L = e.interp (fun c => psi (c.2, c.1)) q.1 q.2 ∧
      (∀ r ∈ pts, InReach xpt r → e.interp (fun c => psi (c.2, c.1)) r.1 r.2 ≤ L) ∧
      (s'.isLimited = true ↔ b = L) ∧
      (xpt = [] → b = L) ∧
      ∀ x ∈ xpt.head?, (b = x.2.2 ∨ b = L) ∧
        (x.2.2 ≤ o.2.2 → L ≤ o.2.2 → |o.2.2 - b| ≤ |o.2.2 - x.2.2| ∧ |o.2.2 - b| ≤ |o.2.2 - L|) := by
  rw [updateBoundary, hfind] at h
  simp only [bind, Except.bind, hcheck, if_true, hlim] at h
  cases hc : limiterContact e psi (keptPoints xpt pts) with
  | error err => rw [hc] at h; cases h
  | ok r =>
    obtain ⟨q, L⟩ := r
    rw [hc] at h
    simp only at h
    obtain ⟨_, h1, h2, h3⟩ := limiterContact_ok hc
    have h1' := mem_keptPoints.mp h1
    have h3' := fun r hr hr' => h3 r (mem_keptPoints.mpr ⟨hr, hr'⟩)
    cases xpt with
    | nil =>
      cases h
      exact ⟨q, L, L, rfl, rfl, rfl, rfl, h1'.1, h1'.2, h2, h3', by simp, fun _ => rfl, by simp⟩
    | cons x xs =>
      simp only at h
      cases hm : e.core psi (o :: os) (x :: xs) (some (max x.2.2 L)) with
      | error err => rw [hm] at h; cases h
      | ok m =>
        rw [hm] at h
        cases h
        refine ⟨q, L, max x.2.2 L, rfl, rfl, rfl, rfl, h1'.1, h1'.2, h2, h3', by simp, by simp, fun y hy => ?_⟩
        cases hy
        refine ⟨max_choice _ _, fun hx hl => ?_⟩
        have hmax : max x.2.2 L ≤ o.2.2 := max_le hx hl
        rw [abs_of_nonneg (sub_nonneg.mpr hmax), abs_of_nonneg (sub_nonneg.mpr hx), abs_of_nonneg (sub_nonneg.mpr hl)]
        exact ⟨sub_le_sub_left (le_max_left _ _) _, sub_le_sub_left (le_max_right _ _) _⟩

/-- **C40 (limiter not checked).** Without a check, or without a wall, the plasma is never reported limited and the boundary flux is that of
the first X-point; without X-points it is the flux of the corner for a fixed boundary, and there is none otherwise. -/
theorem C40_unchecked (e : Env C K) (s s' : State C K) (psi : Arr K) (o : Point K) (os xpt : List (Point K))
    (hfind : e.find psi = .ok (o :: os, xpt)) (hcheck : s.checkLimited = false ∨ e.limits s.tokamak = none)
    (h : updateBoundary e s psi = .ok s') :
    s'.isLimited = false ∧ s'.psiAxis = some o.2.2 ∧ (∀ x ∈ xpt.head?, s'.psiBndry = some x.2.2) ∧
      (xpt = [] → s'.psiBndry = if e.fixed then some (psi (0, 0)) else none) := by
  have hl : (if s.checkLimited then e.limits s.tokamak else none) = none := by
    rcases hcheck with h | h
    · rw [h]; rfl
    · rw [h, ite_self]
  rw [updateBoundary, hfind] at h
  simp only [bind, Except.bind, hl] at h
  cases xpt with
  | nil =>
    cases h
    exact ⟨rfl, rfl, by simp, fun _ => rfl⟩
  | cons x xs =>
    simp only at h
    cases hm : e.core psi (o :: os) (x :: xs) none with
    | error err => rw [hm] at h; cases h
    | ok m =>
      rw [hm] at h
      cases h
      exact ⟨rfl, rfl, fun y hy => by cases hy; rfl, by simp⟩

/-- **C40 (finding).** The limiter flux at a limiter point that is a grid point is the flux at the transposed grid point. -/
theorem C40_limiter_flux_transposed [IsStrictOrderedRing K] (e : Env C K) (s s' : State C K) (psi : Arr K) (o : Point K) (os xpt : List (Point K))
    (pts : List (K × K)) (hfind : e.find psi = .ok (o :: os, xpt)) (hcheck : s.checkLimited = true)
    (hlim : e.limits s.tokamak = some pts) (h : updateBoundary e s psi = .ok s')
    (hinterp : ∀ a i j, i < e.nx → j < e.ny → e.interp a (e.R i) (e.Z j) = a (i, j)) (i j : ℕ) (hi : i < e.nx) (hj : j < e.ny)
    (hq : s'.contact = some (e.R i, e.Z j)) : s'.psiLimit = some (psi (j, i)) := by
  obtain ⟨q, L, b, h1, h2, _, _, _, _, h3, _⟩ := C40_checked_partial e s s' psi o os xpt pts hfind hcheck hlim h
  rw [hq] at h1
  cases h1
  rw [h2, h3, hinterp _ _ _ hi hj]

/-- **C40 (finding).** On a grid that is not square, limits cannot be checked: `ValueError`. -/
theorem C40_rectangular_error (e : Env C K) (s : State C K) (psi : Arr K) (o : Point K) (os xpt : List (Point K))
    (pts : List (K × K)) (hfind : e.find psi = .ok (o :: os, xpt)) (hcheck : s.checkLimited = true)
    (hlim : e.limits s.tokamak = some pts) (hn : e.nx ≠ e.ny) : updateBoundary e s psi = .error .value := by
  rw [updateBoundary, hfind]
  simp only [bind, Except.bind, hcheck, if_true, hlim, limiterContact, hn, ne_eq, not_false_eq_true]

/-- **C40 (finding).** If the first X-point is so close to the midplane that no limiter point is in reach, `ValueError`. -/
theorem C40_no_point_in_reach_error (e : Env C K) (s : State C K) (psi : Arr K) (o : Point K) (os xpt : List (Point K))
    (pts : List (K × K)) (hfind : e.find psi = .ok (o :: os, xpt)) (hcheck : s.checkLimited = true)
    (hlim : e.limits s.tokamak = some pts) (hn : ∀ q ∈ pts, ¬InReach xpt q) : updateBoundary e s psi = .error .value := by
  have hk : keptPoints xpt pts = [] := by
    rw [List.eq_nil_iff_forall_not_mem]
    intro q hq
    exact hn q (mem_keptPoints.mp hq).1 (mem_keptPoints.mp hq).2
  rw [updateBoundary, hfind]
  simp only [bind, Except.bind, hcheck, if_true, hlim, limiterContact, hk]
  split_ifs <;> rfl

/-- **C40 (no axis).** If the flux has no O-point nothing is changed: the boundary flux, the mask and `is_limited` are those of an earlier
flux. -/
theorem C40_no_axis (e : Env C K) (s : State C K) (psi : Arr K) (xpt : List (Point K)) (hfind : e.find psi = .ok ([], xpt)) :
    updateBoundary e s psi = .ok s := by
  rw [updateBoundary, hfind]
  rfl

/-! ### Cases -/

/-- An environment on a 5 × 5 grid with the given critical points and limiter points; the interpolation takes the value at the nearest
lower grid point. -/
def sampleEnv (opt xpt : List (Point ℚ)) (pts : List (ℚ × ℚ)) : Env Unit ℚ :=
  { mu0 := 1
    nx := 5
    ny := 5
    R := fun i => i + 1
    Z := fun j => j - 2
    coilPsi := fun _ _ => 0
    limits := fun _ => some pts
    find := fun _ => .ok (opt, xpt)
    core := fun _ _ _ _ => .ok fun _ => 1
    interp := fun a r z => a ((⌊r - 1⌋).toNat, (⌊z + 2⌋).toNat)
    fixed := false
    boundary := fun _ p => .ok p
    solver := fun _ b => b }

/-- An equilibrium that was not solved yet. -/
def sampleState : State Unit ℚ := ⟨(), fun _ => 0, fun _ => 0, 0, none, true, none, none, none, none, none, false, none⟩

/-- A flux map with different values at a grid point and its transposed. -/
def samplePsi : Arr ℚ := fun c => c.1 + 10 * c.2

/-- A case meeting the hypotheses of C40: the plasma touches the limiter point `(2, 0)`, which is the grid point `(1, 2)`; its flux is 21,
the code finds 12. -/
example : (updateBoundary (sampleEnv [(3, 0, 50)] [(3, -2, 5)] [(1, 0), (2, 0), (1, 2)]) sampleState samplePsi).toOption.map
      (fun s => (s.contact, s.psiLimit, s.psiBndry, s.isLimited)) = some (some (2, 0), some 12, some 12, true) ∧
    samplePsi (1, 2) = 21 := by
  decide +kernel

/-- **C40 (finding).** If the flux has a minimum on the axis (negative plasma current), the boundary flux is the one of X-point and limiter that
is farther from the axis, so that the plasma is taken to reach beyond the limiter. -/
theorem C40_negative_current :
    ∃ (e : Env Unit ℚ) (s s' : State Unit ℚ) (psi : Arr ℚ) (L X b a : ℚ), updateBoundary e s psi = .ok s' ∧
      s.checkLimited = true ∧ s'.psiAxis = some a ∧ s'.psiLimit = some L ∧ s'.psiXpt = some X ∧ s'.psiBndry = some b ∧
      a < L ∧ L < X ∧ b = X ∧ s'.isLimited = false := by
  have h : (updateBoundary (sampleEnv [(3, 0, -50)] [(3, -2, 20)] [(1, 0), (2, 0), (1, 2)]) sampleState samplePsi).toOption.map
      (fun s => (s.psiAxis, s.psiLimit, s.psiXpt, s.psiBndry, s.isLimited)) =
      some (some (-50), some 12, some 20, some 20, false) := by decide +kernel
  cases hu : updateBoundary (sampleEnv [(3, 0, -50)] [(3, -2, 20)] [(1, 0), (2, 0), (1, 2)]) sampleState samplePsi with
  | error err => rw [hu] at h; cases h
  | ok s' =>
    rw [hu] at h
    simp only [Except.toOption, Option.map_some, Option.some.injEq, Prod.mk.injEq] at h
    exact ⟨_, _, s', _, 12, 20, 20, -50, hu, rfl, h.1, h.2.1, h.2.2.1, h.2.2.2.1, by norm_num, by norm_num, rfl, h.2.2.2.2⟩

/-! ## The linear solve -/

/-- The attributes that `_updateBoundaryPsi` leaves alone. -/
theorem updateBoundary_frame {e : Env C K} {s s' : State C K} {P : Arr K} (h : updateBoundary e s P = .ok s') :
    s'.tokamak = s.tokamak ∧ s'.plasmaPsi = s.plasmaPsi ∧ s'.spline = s.spline ∧ s'.current = s.current ∧ s'.jtor = s.jtor ∧
      s'.checkLimited = s.checkLimited := by
  rw [updateBoundary] at h
  cases hf : e.find P with
  | error err => rw [hf] at h; cases h
  | ok r =>
    obtain ⟨opt, xpt⟩ := r
    rw [hf] at h
    simp only [bind, Except.bind] at h
    cases opt with
    | nil => cases h; exact ⟨rfl, rfl, rfl, rfl, rfl, rfl⟩
    | cons o os =>
      simp only at h
      cases hl : (if s.checkLimited then e.limits s.tokamak else none) with
      | none =>
        rw [hl] at h
        cases xpt with
        | nil => cases h; exact ⟨rfl, rfl, rfl, rfl, rfl, rfl⟩
        | cons x xs =>
          simp only at h
          cases hm : e.core P (o :: os) (x :: xs) none with
          | error err => rw [hm] at h; cases h
          | ok m => rw [hm] at h; cases h; exact ⟨rfl, rfl, rfl, rfl, rfl, rfl⟩
      | some pts =>
        rw [hl] at h
        simp only at h
        cases hc : limiterContact e P (keptPoints xpt pts) with
        | error err => rw [hc] at h; cases h
        | ok r =>
          rw [hc] at h
          cases xpt with
          | nil => cases h; exact ⟨rfl, rfl, rfl, rfl, rfl, rfl⟩
          | cons x xs =>
            simp only at h
            cases hm : e.core P (o :: os) (x :: xs) (some (max x.2.2 r.2)) with
            | error err => rw [hm] at h; cases h
            | ok m => rw [hm] at h; cases h; exact ⟨rfl, rfl, rfl, rfl, rfl, rfl⟩

/-- Calling `_updateBoundaryPsi` again with the same flux changes nothing, also after `_current` and `Jtor` were assigned. -/
theorem updateBoundary_again {e : Env C K} {s s' : State C K} {P : Arr K} (I : K) (J : Option (Arr K))
    (h : updateBoundary e s P = .ok s') :
    updateBoundary e { s' with current := I, jtor := J } P = .ok { s' with current := I, jtor := J } := by
  rw [updateBoundary] at h ⊢
  cases hf : e.find P with
  | error err => rw [hf] at h; cases h
  | ok r =>
    obtain ⟨opt, xpt⟩ := r
    rw [hf] at h
    simp only [bind, Except.bind] at h ⊢
    cases opt with
    | nil => cases h; rfl
    | cons o os =>
      simp only at h ⊢
      cases hl : (if s.checkLimited then e.limits s.tokamak else none) with
      | none =>
        rw [hl] at h
        cases xpt with
        | nil => cases h; simp only [hl]
        | cons x xs =>
          simp only at h
          cases hm : e.core P (o :: os) (x :: xs) none with
          | error err => rw [hm] at h; cases h
          | ok m => rw [hm] at h; cases h; simp only [hl]
      | some pts =>
        rw [hl] at h
        simp only at h
        cases hc : limiterContact e P (keptPoints xpt pts) with
        | error err => rw [hc] at h; cases h
        | ok r =>
          rw [hc] at h
          cases xpt with
          | nil => cases h; simp only [hl, hc]
          | cons x xs =>
            simp only at h
            cases hm : e.core P (o :: os) (x :: xs) (some (max x.2.2 r.2)) with
            | error err => rw [hm] at h; cases h
            | ok m => rw [hm] at h; cases h; simp only [hl, hc, hm]

/-- What a successful `solve` did. -/
theorem solve_ok {e : Env C K} {profiles : Profiles C K} {s s' : State C K} {given psi0 : Option (Arr K)} {psiBndry : Option K}
    (h : solve e profiles s given psi0 psiBndry = .ok s') :
    ∃ s1 s2 J edge s3 I, updateBoundary e s (psi e s) = .ok s1 ∧
      density e profiles s1 given psi0 psiBndry = .ok (s2, J) ∧
      e.boundary J s2.plasmaPsi = .ok edge ∧
      updatePlasmaPsi e { s2 with plasmaPsi := edge }
        (e.solver edge (setEdge e.nx e.ny (fun c => -e.mu0 * e.R c.1 * J c) edge)) = .ok s3 ∧
      integrate e.nx e.ny e.R e.Z J = .ok I ∧ s' = { s3 with current := I, jtor := some J } := by
  rw [solve] at h
  obtain ⟨s1, h1, h⟩ := bind_ok h
  obtain ⟨⟨s2, J⟩, h2, h⟩ := bind_ok h
  obtain ⟨edge, h3, h⟩ := bind_ok h
  obtain ⟨s3, h4, h⟩ := bind_ok h
  obtain ⟨I, h5, h⟩ := bind_ok h
  cases h
  exact ⟨s1, s2, J, edge, s3, I, h1, h2, h3, h4, h5, rfl⟩

/-- A solver that inverts the operator `op` in the interior and keeps the values on the edge. -/
def Inverts (nx ny : ℕ) (op : Arr K → ℕ × ℕ → K) (solver : Arr K → Arr K → Arr K) : Prop :=
  ∀ x b, (∀ c, Inside nx ny c → op (solver x b) c = b c) ∧ ∀ c, OnEdge nx ny c → solver x b c = b c

/-- The operation of changing the tokamak is not among those of a profile object. -/
def KeepsTokamak (profiles : Profiles C K) : Prop := ∀ s P b s' J, profiles s P b = .ok (s', J) → s'.tokamak = s.tokamak

/-- **C70.** After `eq.solve` the equilibrium is consistent with itself: the plasma flux satisfies the discrete Grad-Shafranov equation for the
current density that is stored, its edge values are those the boundary function gives for that current density, the plasma current is
its integral, the interpolation of the flux is that of the new flux, and axis, boundary flux, limiter contact and core mask are those
of the new total flux: to compute them again changes nothing. The coils are unchanged. -/
theorem C70_consistent (e : Env C K) (op : Arr K → ℕ × ℕ → K) (hsolver : Inverts e.nx e.ny op e.solver) (profiles : Profiles C K)
    (s s' : State C K) (given psi0 : Option (Arr K)) (psiBndry : Option K)
    (h : solve e profiles s given psi0 psiBndry = .ok s') :
    ∃ (J before : Arr K) (edge : Arr K), s'.jtor = some J ∧ (∀ g, given = some g → J = g) ∧
      (∀ c, Inside e.nx e.ny c → op s'.plasmaPsi c = -e.mu0 * e.R c.1 * J c) ∧
      e.boundary J before = .ok edge ∧ (∀ c, OnEdge e.nx e.ny c → s'.plasmaPsi c = edge c) ∧
      integrate e.nx e.ny e.R e.Z J = .ok s'.current ∧ s'.spline = s'.plasmaPsi ∧
      updateBoundary e s' (psi e s') = .ok s' ∧ (KeepsTokamak profiles → s'.tokamak = s.tokamak) := by
  obtain ⟨s1, s2, J, edge, s3, I, h1, h2, h3, h4, h5, rfl⟩ := solve_ok h
  rw [updatePlasmaPsi] at h4
  simp only at h4
  obtain ⟨f1, f2, f3, f4, f5, f6⟩ := updateBoundary_frame h4
  simp only at f1 f2 f3
  refine ⟨J, s2.plasmaPsi, edge, rfl, ?_, ?_, h3, ?_, h5, ?_, ?_, ?_⟩
  · rintro g rfl
    cases h2
    rfl
  · intro c hc
    show op s3.plasmaPsi c = _
    rw [f2, (hsolver _ _).1 c hc, setEdge_inside _ _ hc]
  · intro c hc
    show s3.plasmaPsi c = _
    rw [f2, (hsolver _ _).2 c hc, setEdge_edge _ _ hc]
  · show s3.spline = s3.plasmaPsi
    rw [f2, f3]
  · have hp : psi e { s3 with current := I, jtor := some J } =
        psi e { s2 with plasmaPsi := e.solver edge (setEdge e.nx e.ny (fun c => -e.mu0 * e.R c.1 * J c) edge)
                        spline := e.solver edge (setEdge e.nx e.ny (fun c => -e.mu0 * e.R c.1 * J c) edge) } := by
      funext c
      rw [psi, psi]
      simp only [f1, f2]
    rw [hp]
    exact updateBoundary_again I (some J) h4
  · intro hk
    show s3.tokamak = _
    rw [f1]
    have t1 := (updateBoundary_frame h1).1
    cases given with
    | some g => cases h2; exact t1
    | none => rw [← t1]; exact hk _ _ _ _ _ h2

/-- The direct solver with the second-order matrix inverts the finite-difference operator (C35). -/
theorem inverts_second_order (d : Domain K) (nx ny : ℕ) (factorized : (ℕ → K) → ℕ → K)
    (hfac : ∀ b, ∀ r < nx * ny, matVec (nx * ny) (gsSparse d nx ny) (factorized b) r = b r) :
    Inverts nx ny (centralDelta d nx ny) fun _ b => mgDirect factorized ny b := by
  intro x b
  have hrow : ∀ c : ℕ × ℕ, OnGrid nx ny c →
      matVec (nx * ny) (gsSparse d nx ny) (flat ny (mgDirect factorized ny b)) (c.1 * ny + c.2) = b c := by
    intro c hc
    have e : flat ny (mgDirect factorized ny b) = factorized (flat ny b) := by
      funext r
      show unflat ny _ (r / ny, r % ny) = _
      rw [unflat]
      simp only
      rw [mul_comm, Nat.div_add_mod r ny]
    rw [e, hfac _ _ (row_lt hc.1 hc.2), flat_row hc.2]
  obtain ⟨h1, h2⟩ := C35_matrix_is_operator d nx ny (mgDirect factorized ny b)
  exact ⟨fun c hc => by rw [← (h1 c hc).2, hrow c (inside_onGrid hc)], fun c hc => (h2 c hc).symm.trans (hrow c hc.1)⟩

/-- **C70 (second order).** The second-order solver meets the hypothesis of C70 with the finite-difference operator. -/
theorem C70_second_order [IsStrictOrderedRing K] (d : Domain K) (nx ny : ℕ) (hnx : 2 ≤ nx) (hny : 2 ≤ ny) (h0 : 0 ≤ d.Rmin)
    (hR : d.Rmin < d.Rmax) (hZ : d.Zmin < d.Zmax) :
    ∃ factorized : (ℕ → K) → ℕ → K, (∀ b, ∀ r < nx * ny, matVec (nx * ny) (gsSparse d nx ny) (factorized b) r = b r) ∧
      Inverts nx ny (centralDelta d nx ny) fun _ b => mgDirect factorized ny b := by
  obtain ⟨f, hf⟩ := (C34_second_order 1 d nx ny hnx hny h0 hR hZ).1
  exact ⟨f, hf, inverts_second_order d nx ny f hf⟩

/-! ## The converged equilibrium -/

theorem values_ofValues {nx ny : ℕ} {l : List K} (h : l.length = nx * ny) : values nx ny (ofValues ny l) = l := by
  apply List.ext_getElem
  · rw [values, List.length_map, List.length_range, h]
  · intro i h1 h2
    simp only [values, List.getElem_map, List.getElem_range, flat, ofValues, unflat]
    rw [mul_comm, Nat.div_add_mod i ny, List.getD_eq_getElem?_getD, List.getElem?_eq_getElem h2, Option.getD_some]

theorem values_length (nx ny : ℕ) (a : Arr K) : (values nx ny a).length = nx * ny := by
  rw [values, List.length_map, List.length_range]

/-- **C71.** Let `picard.solve` return with a profile that fixes axis pressure and plasma current. Then there is a flux map `prev`, closer to
the final total flux than the tolerance, and profile functions `pr` such that the plasma flux solves the discrete Grad-Shafranov
equation `Δ*ψ = -(μ₀ R² p' + f f')` with `p'`, `f f'` taken at the normalised flux of `prev` in the core and zero outside; the pressure on
the axis and the plasma current are the ones asked for. -/
theorem C71_self_consistent {C : Type} (e : Env C ℝ) (hmu : e.mu0 ≠ 0) (hgrid : 0 < e.nx * e.ny) (op : Arr ℝ → ℕ × ℕ → ℝ)
    (hsolver : Inverts e.nx e.ny op e.solver) (p : Params ℝ) (paxis : ℝ) (constrain : Option (State C ℝ → Except Err (State C ℝ)))
    (o : Picard.Opts ℝ) (fuel : ℕ) (s0 s' : State C ℝ) (hist : List (ℝ × Option ℝ))
    (h : Picard.picard (picardEnv e (paxisProfiles quadR powR e p paxis) constrain) o fuel s0 = .ok (some (s', hist))) :
    ∃ (prev : Arr ℝ) (pr : Profile ℝ) (opt xpt : List (Point ℝ)) (b : Option ℝ) (pl : Plasma ℝ),
      Picard.FluxConverged o (values e.nx e.ny prev) (values e.nx e.ny (psi e s')) ∧
      e.find prev = .ok (opt, xpt) ∧ locate opt xpt (e.core prev opt xpt) (prev (0, 0)) b = .ok pl ∧
      (∀ c, Inside e.nx e.ny c →
        let pn := (prev c - pr.psiAxis) / (pr.psiBndry - pr.psiAxis)
        op s'.plasmaPsi c = -(e.mu0 * e.R c.1 ^ 2 * pr.pprime pn + pr.ffprime pn) * pl.maskAt c) ∧
      pr.pressure quadR 0 = paxis ∧ s'.current = p.Ip ∧ updateBoundary e s' (psi e s') = .ok s' := by
  obtain ⟨n, s, q, l, b, hrun, hstep, _, hflux, _⟩ := Picard.C39_converged_partial _ o (e.nx * e.ny) hgrid
    (fun s => values_length _ _ _) fuel s0 s' hist h
  have hq := Picard.inv_length (fun s => values_length e.nx e.ny _) hrun
  have hs : ∃ cl pb, solve e (paxisProfiles quadR powR e p paxis) { s with checkLimited := cl } none (some (ofValues e.ny q)) pb = .ok s' := by
    rw [Picard.step] at hstep
    split_ifs at hstep
    · exact ⟨_, _, hstep⟩
    · exact ⟨_, _, hstep⟩
  obtain ⟨cl, pb, hs⟩ := hs
  obtain ⟨J', _, _, hJ', _, hop, _, _, hint', _, hagain, _⟩ := C70_consistent e op hsolver _ _ _ _ _ _ hs
  obtain ⟨s1, s2, J, edge, s3, I, _, hden, _, _, hint, rfl⟩ := solve_ok hs
  cases hJ'
  obtain ⟨s4, _, hden⟩ := bind_ok hden
  obtain ⟨⟨opt, xpt⟩, hfind, hden⟩ := bind_ok hden
  obtain ⟨⟨J2, k⟩, hpax, hden⟩ := bind_ok hden
  cases hden
  obtain ⟨hI, hpr⟩ := C30_current_and_axis_pressure e.mu0 hpax
  obtain ⟨pl, hloc, hform⟩ := C32_paxis hmu hpax
  obtain ⟨pl', _, hj⟩ := bind_ok hpax
  obtain ⟨⟨hR, _, _⟩, _⟩ := jtorPaxis_ok hj
  refine ⟨ofValues e.ny q, constrainedProfile powR e.mu0 p k, opt, xpt, s2.psiBndry, pl, ?_, hfind, hloc, ?_, hpr, ?_, hagain⟩
  · rw [values_ofValues hq]
    exact hflux
  · intro c hc
    have hR' := hR c.1 (inside_onGrid hc).1
    have hf := hform c (inside_onGrid hc).1
    simp only at hf ⊢
    rw [hop c hc, hf]
    simp only [Option.getD_some]
    field_simp
  · rw [hI] at hint
    cases hint
    rfl

/-- **C71 (poloidal beta).** The same for a profile that fixes the poloidal beta and the plasma current; the fields `B` are those of the
equilibrium `at` at the time the profile was calculated. -/
theorem C71_self_consistent_betap {C : Type} (e : Env C ℝ) (hmu : e.mu0 ≠ 0) (hgrid : 0 < e.nx * e.ny) (op : Arr ℝ → ℕ × ℕ → ℝ)
    (hsolver : Inverts e.nx e.ny op e.solver) (field : State C ℝ → Arr ℝ × Arr ℝ) (p : Params ℝ) (betap : ℝ)
    (constrain : Option (State C ℝ → Except Err (State C ℝ)))
    (o : Picard.Opts ℝ) (fuel : ℕ) (s0 s' : State C ℝ) (hist : List (ℝ × Option ℝ))
    (h : Picard.picard (picardEnv e (betapProfiles quadR powR e field p betap) constrain) o fuel s0 = .ok (some (s', hist))) :
    ∃ (prev : Arr ℝ) (pr : Profile ℝ) (opt xpt : List (Point ℝ)) (b : Option ℝ) (pl : Plasma ℝ) (at' : State C ℝ) (pInt bInt : ℝ),
      Picard.FluxConverged o (values e.nx e.ny prev) (values e.nx e.ny (psi e s')) ∧
      e.find prev = .ok (opt, xpt) ∧ locate opt xpt (e.core prev opt xpt) (prev (0, 0)) b = .ok pl ∧
      (∀ c, Inside e.nx e.ny c →
        let pn := (prev c - pr.psiAxis) / (pr.psiBndry - pr.psiAxis)
        op s'.plasmaPsi c = -(e.mu0 * e.R c.1 ^ 2 * pr.pprime pn + pr.ffprime pn) * pl.maskAt c) ∧
      integrate e.nx e.ny e.R e.Z (fun c => pressureArr e.nx e.ny pr pl prev c * e.R c.1) = .ok pInt ∧
      integrate e.nx e.ny e.R e.Z (fun c => pl.masked (fun c => (field at').1 c ^ 2 + (field at').2 c ^ 2) c * e.R c.1) = .ok bInt ∧
      2 * e.mu0 * pInt = betap * bInt ∧ s'.current = p.Ip ∧ updateBoundary e s' (psi e s') = .ok s' := by
  obtain ⟨n, s, q, l, b, hrun, hstep, _, hflux, _⟩ := Picard.C39_converged_partial _ o (e.nx * e.ny) hgrid
    (fun s => values_length _ _ _) fuel s0 s' hist h
  have hq := Picard.inv_length (fun s => values_length e.nx e.ny _) hrun
  have hs : ∃ cl pb, solve e (betapProfiles quadR powR e field p betap) { s with checkLimited := cl } none (some (ofValues e.ny q)) pb = .ok s' := by
    rw [Picard.step] at hstep
    split_ifs at hstep
    · exact ⟨_, _, hstep⟩
    · exact ⟨_, _, hstep⟩
  obtain ⟨cl, pb, hs⟩ := hs
  obtain ⟨J', _, _, hJ', _, hop, _, _, hint', _, hagain, _⟩ := C70_consistent e op hsolver _ _ _ _ _ _ hs
  obtain ⟨s1, s2, J, edge, s3, I, _, hden, _, _, hint, rfl⟩ := solve_ok hs
  cases hJ'
  obtain ⟨s4, _, hden⟩ := bind_ok hden
  obtain ⟨⟨opt, xpt⟩, hfind, hden⟩ := bind_ok hden
  obtain ⟨⟨J2, k⟩, hpax, hden⟩ := bind_ok hden
  cases hden
  obtain ⟨hI, pl2, hloc2, pInt, bInt, hp1, hp2, hp3⟩ := C31_current_and_beta hmu hpax
  obtain ⟨pl, hloc, hform⟩ := C32_betap hmu hpax
  rw [hloc] at hloc2
  cases hloc2
  obtain ⟨pl', _, hj⟩ := bind_ok hpax
  have hR : ∀ i < e.nx, e.R i ≠ 0 := by
    rw [jtorBetap] at hj
    split_ifs at hj with hd
    exact (divisible_iff.mp hd).1
  refine ⟨ofValues e.ny q, constrainedProfile powR e.mu0 p k, opt, xpt, s2.psiBndry, pl2, s2, pInt, bInt, ?_, hfind, hloc, ?_, hp1, hp2,
    hp3, ?_, hagain⟩
  · rw [values_ofValues hq]
    exact hflux
  · intro c hc
    have hR' := hR c.1 (inside_onGrid hc).1
    have hf := hform c (inside_onGrid hc).1
    simp only at hf ⊢
    rw [hop c hc, hf]
    simp only [Option.getD_some]
    field_simp
  · rw [hI] at hint
    cases hint
    rfl

theorem givenJtor_at [IsStrictOrderedRing K] {mu0 : K} {nx : ℕ} {R : ℕ → K} {g : Given K} {opt xpt : List (Point K)} {coreMask : Option K → Except Err (Arr K)}
    {psi J : Arr K} {b : Option K} {pr : Profile K} (h : givenJtor mu0 nx R g opt xpt coreMask psi b = .ok (J, pr)) :
    ∃ pl, locate opt xpt coreMask (psi (0, 0)) b = .ok pl ∧
      pr.pprime = g.pprime ∧ pr.ffprime = g.ffprime ∧ pr.fvac = g.fvac ∧ ∀ c,
      let pn := max 0 (min 1 ((psi c - pr.psiAxis) / (pr.psiBndry - pr.psiAxis)))
      J c = (R c.1 * pr.pprime pn + pr.ffprime pn / (mu0 * R c.1)) * pl.maskAt c := by
  obtain ⟨pl, hloc, h⟩ := bind_ok h
  refine ⟨pl, hloc, ?_⟩
  split_ifs at h with hc
  cases h
  refine ⟨rfl, rfl, rfl, fun c => ?_⟩
  simp only
  have hm : pl.masked (fun c => R c.1 * g.pprime (clip (pl.norm psi c) 0 1) + g.ffprime (clip (pl.norm psi c) 0 1) / (R c.1 * mu0)) c =
      (R c.1 * g.pprime (clip (pl.norm psi c) 0 1) + g.ffprime (clip (pl.norm psi c) 0 1) / (R c.1 * mu0)) * pl.maskAt c := by
    rw [Plasma.masked, Plasma.maskAt]
    cases pl.mask with
    | none => rw [mul_one]
    | some m => rfl
  have hcl : ∀ t : K, min (max t 0) 1 = max 0 (min 1 t) := by
    intro t
    rcases le_total t 0 with h | h
    · rw [max_eq_right h, min_eq_left zero_le_one, min_eq_right (le_trans h zero_le_one), max_eq_left h]
    · rw [max_eq_left h, min_comm, max_eq_right (le_min zero_le_one h)]
  rw [hm, clip, hcl, Plasma.norm, mul_comm mu0]

/-- **C71 (given functions).** The same for profiles given as functions `p'` and `f f'`: the plasma flux solves the discrete Grad-Shafranov
equation with these functions at the normalised flux of `prev`, limited to the range from 0 to 1; the plasma current is the integral of the
current density that is stored. -/
theorem C71_self_consistent_given [IsStrictOrderedRing K] (e : Env C K) (hmu : e.mu0 ≠ 0) (hgrid : 0 < e.nx * e.ny) (op : Arr K → ℕ × ℕ → K)
    (hsolver : Inverts e.nx e.ny op e.solver) (g : Given K) (constrain : Option (State C K → Except Err (State C K)))
    (o : Picard.Opts K) (fuel : ℕ) (s0 s' : State C K) (hist : List (K × Option K))
    (h : Picard.picard (picardEnv e (givenProfiles e g) constrain) o fuel s0 = .ok (some (s', hist))) :
    ∃ (prev J : Arr K) (opt xpt : List (Point K)) (b : Option K) (pl : Plasma K),
      Picard.FluxConverged o (values e.nx e.ny prev) (values e.nx e.ny (psi e s')) ∧
      e.find prev = .ok (opt, xpt) ∧ locate opt xpt (e.core prev opt xpt) (prev (0, 0)) b = .ok pl ∧
      (∀ c, Inside e.nx e.ny c →
        let pn := max 0 (min 1 ((prev c - pl.psiAxis) / (pl.psiBndry - pl.psiAxis)))
        op s'.plasmaPsi c = -(e.mu0 * e.R c.1 ^ 2 * g.pprime pn + g.ffprime pn) * pl.maskAt c) ∧
      s'.jtor = some J ∧ (∀ c, Inside e.nx e.ny c → op s'.plasmaPsi c = -e.mu0 * e.R c.1 * J c) ∧
      integrate e.nx e.ny e.R e.Z J = .ok s'.current ∧ updateBoundary e s' (psi e s') = .ok s' := by
  obtain ⟨n, s, q, l, b, hrun, hstep, _, hflux, _⟩ := Picard.C39_converged_partial _ o (e.nx * e.ny) hgrid
    (fun s => values_length _ _ _) fuel s0 s' hist h
  have hq := Picard.inv_length (fun s => values_length e.nx e.ny _) hrun
  have hs : ∃ cl pb, solve e (givenProfiles e g) { s with checkLimited := cl } none (some (ofValues e.ny q)) pb = .ok s' := by
    rw [Picard.step] at hstep
    split_ifs at hstep
    · exact ⟨_, _, hstep⟩
    · exact ⟨_, _, hstep⟩
  obtain ⟨cl, pb, hs⟩ := hs
  obtain ⟨J', _, _, hJ', _, hop, _, _, hint', _, hagain, _⟩ := C70_consistent e op hsolver _ _ _ _ _ _ hs
  obtain ⟨s1, s2, J, edge, s3, I, _, hden, _, _, hint, rfl⟩ := solve_ok hs
  cases hJ'
  obtain ⟨⟨opt, xpt⟩, hfind, hden⟩ := bind_ok hden
  obtain ⟨⟨J2, pr⟩, hj, hden⟩ := bind_ok hden
  cases hden
  obtain ⟨pl, hloc, hp, hff, _, hform⟩ := givenJtor_at hj
  obtain ⟨pl', hloc', hj⟩ := bind_ok hj
  rw [hloc] at hloc'
  cases hloc'
  split_ifs at hj with hR
  rw [Bool.and_eq_true, List.all_eq_true] at hR
  cases hj
  refine ⟨ofValues e.ny q, _, opt, xpt, pb, pl, ?_, hfind, hloc, ?_, rfl, hop, hint', hagain⟩
  · rw [values_ofValues hq]
    exact hflux
  · intro c hc
    have hR' : e.R c.1 ≠ 0 := by simpa using hR.1 c.1 (List.mem_range.mpr (inside_onGrid hc).1)
    have hf := hform c
    simp only at hf ⊢
    rw [hop c hc]
    simp only [Option.getD_some] at hf ⊢
    rw [hf]
    field_simp

/-! ### A run -/

theorem romb_three (y : ℕ → ℝ) : romb y 3 = .ok ((y 0 + 4 * y 1 + y 2) / 3) := by
  have hl : rombLevels (3 - 1) (3 - 1) 1 0 = (2, 1) := rfl
  rw [romb, hl]
  simp only [Nat.add_one_sub_one, if_true, rombTable, rombTrap, Except.ok.injEq]
  norm_num
  ring

theorem integrate_three (R Z : ℕ → ℝ) (a : Arr ℝ) : integrate 3 3 R Z a =
    .ok (((a (0, 0) + 4 * a (0, 1) + a (0, 2)) / 3 + 4 * ((a (1, 0) + 4 * a (1, 1) + a (1, 2)) / 3) +
      (a (2, 0) + 4 * a (2, 1) + a (2, 2)) / 3) / 3 * (R 1 - R 0) * (Z 1 - Z 0)) := by
  rw [integrate, romb2, romb_three]
  simp only [romb_three, Except.toOption, Option.getD_some]
  rfl

/-- A 3 × 3 grid with `R = 1, 2, 3`, the whole of it plasma, and the identity as operator. -/
noncomputable def runEnv : Env Unit ℝ :=
  { mu0 := 1
    nx := 3
    ny := 3
    R := fun i => i + 1
    Z := fun j => j - 1
    coilPsi := fun _ _ => 0
    limits := fun _ => none
    find := fun _ => .ok ([(2, 0, 1)], [(2, -1, 0)])
    core := fun _ _ _ _ => .ok fun _ => 1
    interp := fun a r z => a ((⌊r - 1⌋).toNat, (⌊z + 1⌋).toNat)
    fixed := true
    boundary := fun _ p => .ok p
    solver := fun _ b => b }

/-- One megaampere, no pressure, uniform profile. -/
noncomputable def runParams : Params ℝ := ⟨1000000, 1, 1, 0, 2⟩

theorem run_jtor : ∃ J : Arr ℝ, ∃ k, ∀ (psi : Arr ℝ) (b : Option ℝ),
    paxisJtor quadR powR 3 3 runEnv.R runEnv.Z runParams 0 [(2, 0, 1)] [(2, -1, 0)] (fun _ => .ok fun _ => 1) (some 0) psi b =
      .ok (J, k) := by
  have hsh : shape powR 1 0 = fun _ => 1 := by
    funext x
    rw [shape, powR, Real.rpow_zero]
  have hq : quadR (fun _ => (1 : ℝ)) 0 1 = 1 := by
    rw [quadR]; simp
  refine ⟨fun c => 225000 * (2 / (c.1 + 1)), ⟨225000, 0, 0, 1⟩, fun psi b => ?_⟩
  · rw [paxisJtor, show locate [(2, 0, 1)] [(2, -1, 0)] (fun _ => .ok fun _ => 1) (psi (0, 0)) (some 0) =
      .ok ⟨1, 0, some fun _ => 1⟩ from rfl]
    show jtorPaxis quadR powR 3 3 runEnv.R runEnv.Z runParams 0 ⟨1, 0, some fun _ => 1⟩ psi = _
    have hsa : shapeArray powR runParams ⟨1, 0, some fun _ => 1⟩ psi = fun _ => 1 := by
      funext c
      simp only [shapeArray, Plasma.masked, runParams, hsh, mul_one]
    have hd : divisible 3 runEnv.R runParams ⟨1, 0, some fun _ => 1⟩ = true := by
      rw [divisible_iff]
      refine ⟨fun i _ => ?_, by norm_num [runParams], by norm_num⟩
      show (i : ℝ) + 1 ≠ 0
      positivity
    rw [jtorPaxis, if_pos hd]
    simp only [runParams, hsh, hq]
    rw [if_neg (by norm_num), finish]
    have hsa' := hsa
    rw [runParams] at hsa'
    simp only [hsa', integrate_three]
    norm_num [runEnv, bind, Except.bind]

theorem run_update (s : State Unit ℝ) (P : Arr ℝ) : updateBoundary runEnv s P =
    .ok { s with psiAxis := some 1, psiXpt := some 0, psiBndry := some 0, isLimited := false, mask := some fun _ => 1 } := by
  obtain ⟨_, _, _, _, _, cl, _, _, _, _, _, _, _⟩ := s
  cases cl <;> rfl

theorem run_solve : ∃ rhs : Arr ℝ, ∀ (s : State Unit ℝ) (q : Arr ℝ) (pb : Option ℝ),
    ∃ s', solve runEnv (paxisProfiles quadR powR runEnv runParams 0) s none (some q) pb = .ok s' ∧
      s'.plasmaPsi = setEdge 3 3 rhs s.plasmaPsi ∧ s'.psiBndry = some 0 ∧ s'.isLimited = false := by
  obtain ⟨J, k, hJ⟩ := run_jtor
  refine ⟨fun c => -1 * runEnv.R c.1 * J c, fun s q pb => ?_⟩
  rw [solve, run_update]
  have hd : ∀ s, density runEnv (paxisProfiles quadR powR runEnv runParams 0) s none (some q) pb =
      .ok ({ s with psiAxis := some 1, psiXpt := some 0, psiBndry := some 0, isLimited := false, mask := some fun _ => 1 }, J) := by
    intro s
    rw [density]
    show paxisProfiles quadR powR runEnv runParams 0 s q pb = _
    rw [paxisProfiles, run_update]
    have := hJ q pb
    show (paxisJtor quadR powR 3 3 runEnv.R runEnv.Z runParams 0 [(2, 0, 1)] [(2, -1, 0)] (fun _ => .ok fun _ => 1) (some 0) q pb >>= _) = _
    rw [this]
    rfl
  have hbd : ∀ J p, runEnv.boundary J p = .ok p := fun _ _ => rfl
  have hint : integrate runEnv.nx runEnv.ny runEnv.R runEnv.Z J = _ := integrate_three _ _ _
  simp only [bind, Except.bind, hd, updatePlasmaPsi, run_update, hbd, hint]
  exact ⟨_, rfl, rfl, rfl, rfl⟩

theorem setEdge_twice (nx ny : ℕ) (a f : Arr ℝ) : setEdge nx ny a (setEdge nx ny a f) = setEdge nx ny a f := by
  funext c
  simp only [setEdge]
  split_ifs <;> rfl

/-- A case meeting the hypotheses of C70: one linear solve. -/
example (s : State Unit ℝ) : Inverts runEnv.nx runEnv.ny (fun a c => a c) runEnv.solver ∧
    ∃ s', solve runEnv (paxisProfiles quadR powR runEnv runParams 0) s none (some (psi runEnv s)) none = .ok s' := by
  refine ⟨fun x b => ⟨fun c _ => rfl, fun c _ => rfl⟩, ?_⟩
  obtain ⟨_, h⟩ := run_solve
  obtain ⟨s', h, _⟩ := h s (psi runEnv s) none
  exact ⟨s', h⟩

/-- The iteration returns after at most two steps if the solution does not depend on the flux before. -/
theorem run_returns_of (profiles : Profiles Unit ℝ) (hrun : ∃ rhs : Arr ℝ, ∀ (s : State Unit ℝ) (q : Arr ℝ),
    ∃ s', solve runEnv profiles s none (some q) none = .ok s' ∧
      s'.plasmaPsi = setEdge 3 3 rhs s.plasmaPsi ∧ s'.psiBndry = some 0 ∧ s'.isLimited = false) :
    ∃ s' hist, Picard.picard (picardEnv runEnv profiles none)
      ⟨1 / 1000, 1 / 10000000000, 0, none, some 50, false, false, 0⟩ 2
      ⟨(), fun _ => 0, fun _ => 0, 0, none, false, none, none, none, none, none, false, none⟩ = .ok (some (s', hist)) := by
  obtain ⟨rhs, hs⟩ := hrun
  set E := picardEnv runEnv profiles none with hE
  set o : Picard.Opts ℝ := ⟨1 / 1000, 1 / 10000000000, 0, none, some 50, false, false, 0⟩ with ho
  set s0 : State Unit ℝ := ⟨(), fun _ => 0, fun _ => 0, 0, none, false, none, none, none, none, none, false, none⟩ with hs0
  have hstep : ∀ n l s p, ∃ s', Picard.step E o n l s p = .ok s' ∧ s'.plasmaPsi = setEdge 3 3 rhs s.plasmaPsi ∧ E.bndry s' = some 0 := by
    intro n l s p
    obtain ⟨s', h1, h2, h3, _⟩ := hs { s with checkLimited := false } (ofValues 3 p)
    exact ⟨s', h1, h2, h3⟩
  have herr : ∀ n v err, n ≤ 1 → Picard.Inv E o s0 n v → Picard.body E o v ≠ .error err := by
    intro n v err hn hI h
    rcases Picard.body_error hI h with ⟨s, p, l, h1⟩ | ⟨s, h1⟩ | ⟨_, m, h1, _, h2, _⟩
    · obtain ⟨s', h2, _⟩ := hstep n l s p
      rw [h2] at h1
      cases h1
    · cases h1
    · cases h1
      omega
  rw [Picard.picard, show E.adjust s0 = .ok s0 from rfl]
  have hI0 : Picard.Inv E o s0 0 ⟨s0, E.psi s0, 0, 0, none, false, []⟩ := Picard.start_inv rfl
  simp only [Picard.loop]
  cases hb : Picard.body E o ⟨s0, E.psi s0, 0, 0, none, false, []⟩ with
  | error err => exact absurd hb (herr 0 _ err (by omega) hI0)
  | ok r =>
    cases r with
    | done q hist => exact ⟨q, hist, rfl⟩
    | more w =>
      have hI1 := (Picard.body_more hI0 hb).1
      simp only
      cases hb1 : Picard.body E o w with
      | error err => exact absurd hb1 (herr 1 _ err (by omega) hI1)
      | ok r =>
        cases r with
        | done q hist => exact ⟨q, hist, rfl⟩
        | more w' =>
          exfalso
          obtain ⟨b, hr, hi, hbn, _⟩ := hI1
          obtain ⟨weq, wpsi, wit, wb, wc, wl, wh⟩ := w
          simp only at hr hi hbn
          cases hr with
          | next r hs1 ha =>
          cases r with
          | start ha0 =>
          cases ha
          cases ha0
          obtain ⟨s1, h1, h2, h3⟩ := hstep 0 false s0 (E.psi s0)
          rw [h1] at hs1
          cases hs1
          have hlen : ∀ s, (E.psi s).length = 9 := fun s => values_length 3 3 _
          have hp : List.zipWith (fun x y => (1 - o.blend) * x + o.blend * y) (E.psi weq) (E.psi s0) = E.psi weq := by
            apply List.ext_getElem
            · rw [List.length_zipWith, hlen, hlen, min_self]
            · intro i h1 h2
              rw [List.getElem_zipWith]
              simp only [ho]
              ring
          rw [hp] at hb1
          obtain ⟨s2, g1, g2, g3⟩ := hstep 1 (false || E.limited weq) weq (E.psi weq)
          have hpsi : E.psi s2 = E.psi weq := by
            show values 3 3 (psi runEnv s2) = values 3 3 (psi runEnv weq)
            congr 1
            funext c
            show s2.plasmaPsi c + 0 = weq.plasmaPsi c + 0
            rw [g2, h2, setEdge_twice]
          have hst := Picard.step_eq E o (n := 1) (v := ⟨weq, E.psi weq, wit, wb, wc, false || E.limited weq, wh⟩) hi
          simp only at hst
          simp only [Picard.body] at hb1
          rw [hst, g1] at hb1
          simp only [hpsi, g3] at hb1
          have hmax : Picard.maxChange (E.psi weq) (E.psi weq) = 0 := by
            have hne : List.zipWith (fun x y => |x - y|) (E.psi weq) (E.psi weq) ≠ [] := by
              intro h0
              have := congrArg List.length h0
              rw [List.length_zipWith, hlen, min_self] at this
              cases this
            have := (Picard.amax_isMax hne).1
            rw [List.zipWith_self, List.mem_map] at this
            obtain ⟨x, _, hx⟩ := this
            rw [Picard.maxChange, List.zipWith_self, ← hx, sub_self, abs_zero]
          have hwb : wb = 0 := by
            rw [hbn, h3]
            rfl
          rw [if_pos] at hb1
          · cases hb1
          · rw [hmax, hwb]
            simp [ho]

theorem run_returns : ∃ s' hist, Picard.picard (picardEnv runEnv (paxisProfiles quadR powR runEnv runParams 0) none)
      ⟨1 / 1000, 1 / 10000000000, 0, none, some 50, false, false, 0⟩ 2
      ⟨(), fun _ => 0, fun _ => 0, 0, none, false, none, none, none, none, none, false, none⟩ = .ok (some (s', hist)) :=
  run_returns_of _ (by obtain ⟨rhs, h⟩ := run_solve; exact ⟨rhs, fun s q => h s q none⟩)

/-- The profiles `p' = 1`, `f f' = 2`. -/
def runGiven : Given ℝ := ⟨fun _ => 1, fun _ => 2, 1, none, none⟩

theorem run_solve_given : ∃ rhs : Arr ℝ, ∀ (s : State Unit ℝ) (q : Arr ℝ),
    ∃ s', solve runEnv (givenProfiles runEnv runGiven) s none (some q) none = .ok s' ∧
      s'.plasmaPsi = setEdge 3 3 rhs s.plasmaPsi ∧ s'.psiBndry = some 0 ∧ s'.isLimited = false := by
  refine ⟨fun c => -1 * runEnv.R c.1 * ((runEnv.R c.1 * 1 + 2 / (runEnv.R c.1 * 1)) * 1), fun s q => ?_⟩
  rw [solve, run_update]
  have hR : ((List.range runEnv.nx).all fun i => decide (runEnv.R i ≠ 0)) = true := by
    rw [List.all_eq_true]
    intro i _
    simp only [decide_eq_true_eq]
    show (i : ℝ) + 1 ≠ 0
    positivity
  have hd : ∀ s, density runEnv (givenProfiles runEnv runGiven) s none (some q) none =
      .ok (s, fun c => (runEnv.R c.1 * 1 + 2 / (runEnv.R c.1 * 1)) * 1) := by
    intro s
    show givenProfiles runEnv runGiven s q none = _
    rw [givenProfiles]
    show (givenJtor 1 3 runEnv.R runGiven [(2, 0, 1)] [(2, -1, 0)] (fun _ => .ok fun _ => 1) q none >>= _) = _
    have hl : locate [(2, 0, 1)] [(2, -1, 0)] (fun _ => .ok fun _ => 1) (q (0, 0)) none =
        .ok (⟨1, 0, some fun _ => 1⟩ : Plasma ℝ) := rfl
    have hR' : ((List.range 3).all fun i => decide (runEnv.R i ≠ 0)) = true := hR
    simp only [givenJtor, hl, bind, Except.bind, hR', Bool.true_and]
    rw [if_pos (by norm_num)]
    rfl
  have hbd : ∀ J p, runEnv.boundary J p = .ok p := fun _ _ => rfl
  have hint : ∀ J, integrate runEnv.nx runEnv.ny runEnv.R runEnv.Z J = _ := fun J => integrate_three _ _ J
  simp only [bind, Except.bind, hd, updatePlasmaPsi, run_update, hbd, hint]
  exact ⟨_, rfl, rfl, rfl, rfl⟩

/-- A case meeting the hypotheses of C71. -/
example : Inverts runEnv.nx runEnv.ny (fun a c => a c) runEnv.solver ∧ runEnv.mu0 ≠ 0 ∧ 0 < runEnv.nx * runEnv.ny ∧
    ∃ s' hist, Picard.picard (picardEnv runEnv (paxisProfiles quadR powR runEnv runParams 0) none)
      ⟨1 / 1000, 1 / 10000000000, 0, none, some 50, false, false, 0⟩ 2
      ⟨(), fun _ => 0, fun _ => 0, 0, none, false, none, none, none, none, none, false, none⟩ = .ok (some (s', hist)) :=
  ⟨fun x b => ⟨fun c _ => rfl, fun c _ => rfl⟩, one_ne_zero, by decide, run_returns⟩

/-- A case meeting the hypotheses of C71 for given functions. -/
example : ∃ s' hist, Picard.picard (picardEnv runEnv (givenProfiles runEnv runGiven) none)
      ⟨1 / 1000, 1 / 10000000000, 0, none, some 50, false, false, 0⟩ 2
      ⟨(), fun _ => 0, fun _ => 0, 0, none, false, none, none, none, none, none, false, none⟩ = .ok (some (s', hist)) :=
  run_returns_of _ run_solve_given

end FreeGS.Equil
