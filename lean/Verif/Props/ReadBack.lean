import Verif.Lemmas.ReadBack
import Verif.Props.GeqdskRead
import Verif.Props.Geqdsk

/-!
# C103: a file that describes an equilibrium is read as that equilibrium
-/

set_option linter.unusedSectionVars false

namespace FreeGS.Geqdsk

open FreeGS.GS (Arr setEdge)
open FreeGS.Equil
open FreeGS.Critical (Domain linspaceAt Point)

universe u
variable {K : Type u} [Field K] [LinearOrder K] {C : Type u}

/-- The domain of a file. -/
def fileDomain (d : Data K) : Domain K := ⟨d.rleft, d.rleft + d.rdim, d.zmid - 1 / 2 * d.zdim, d.zmid + 1 / 2 * d.zdim⟩

/-- The grid of a file. -/
def fileEnv (l : Lib C K) (d : Data K) : Equil.Env (Reactor C K) K := l.env (fileDomain d) d.nx d.ny

/-- The current density with the profiles of the file for a flux map with given axis, boundary and mask. -/
def fileDensity (l : Lib C K) (d : Data K) (psi : Arr K) (a b : K) (m : Arr K) : Arr K := fun c =>
  let pn := clip ((psi c - a) / (b - a)) 0 1
  ((fileEnv l d).R c.1 * (fileProfiles l d).pprime pn + (fileProfiles l d).ffprime pn / ((fileEnv l d).R c.1 * l.mu0)) * m c

/-- The file `d` describes the equilibrium `s` with fluxes `a` on axis and `b` on the boundary and core mask `m`: up to a constant `k` it holds the
flux of `s`; axis, boundary and mask stored in `s` are those of its flux; the flux lies between that on axis and that on the boundary where the
mask is not zero; the plasma flux of `s` is the solution for the current density `J` that follows from the profiles of the file. (An array has no
values off the grid; `grid` says what stands for them here.) -/
structure Describes (l : Lib C K) (d : Data K) (s : State (Reactor C K) K) (a b k : K) (m J : Arr K) : Prop where
  sizes : ∃ i j, d.nx = 2 ^ i + 1 ∧ d.ny = 2 ^ j + 1
  flux : ∀ c, d.psi c = Equil.psi (fileEnv l d) s c - k
  simagx : d.simagx = a - k
  sibdry : d.sibdry = b - k
  R0 : d.rcentr = s.tokamak.R0
  wall : ∀ w, d.lim = some w → s.tokamak.wall = some w
  check : s.checkLimited = true
  axis : ∃ o os xpt, l.find (fileDomain d) d.nx d.ny (Equil.psi (fileEnv l d) s) = .ok (o :: os, xpt)
  stored : updateBoundary (fileEnv l d) s (Equil.psi (fileEnv l d) s) = .ok s
  psiAxis : s.psiAxis = some a
  psiBndry : s.psiBndry = some b
  mask : s.mask = some m
  between : ∀ c, m c ≠ 0 → 0 ≤ (Equil.psi (fileEnv l d) s c - a) / (b - a) ∧ (Equil.psi (fileEnv l d) s c - a) / (b - a) ≤ 1
  density : J = fileDensity l d (Equil.psi (fileEnv l d) s) a b m
  solves : ∀ p edge, l.boundary (fileDomain d) d.nx d.ny J p = .ok edge →
    l.solver (fileDomain d) d.nx d.ny edge (setEdge d.nx d.ny (fun c => -l.mu0 * (fileEnv l d).R c.1 * J c) edge) = s.plasmaPsi
  grid : ofValues d.ny (values d.nx d.ny (Equil.psi (fileEnv l d) s)) = Equil.psi (fileEnv l d) s

/-- The optimiser, if it returns, returns currents at which the sum of squares is smallest. -/
def Minimises (n : ℕ) (f : State C K → List K → Except Err (State C K × List K)) (s : State C K) (opt : Search K (List K)) : Prop :=
  ∀ s' x, opt.run f s = .ok (s', x) → ∀ y s1 d1, y.length = n → f s y = .ok (s1, d1) →
    ∃ s2 d2, f s x = .ok (s2, d2) ∧ (d2.map fun v => v * v).sum ≤ (d1.map fun v => v * v).sum

variable [IsStrictOrderedRing K]

/-- At the currents of the equilibrium all differences of the fit vanish. -/
theorem normDifference_exact {e : Equil.Env C K} {ctl : Controls C K} {n : ℕ} {s0 s : State C K} {f : NormFit K} {a b : K} {x0 : List K}
    (hx0 : x0.length = n) (hs0 : ctl.set s0.tokamak x0 = s0.tokamak)
    (hax : ∃ o os xpt, e.find (psi e s0) = .ok (o :: os, xpt)) (hst : updateBoundary e s0 (psi e s0) = .ok s0)
    (ha : s0.psiAxis = some a) (hb : s0.psiBndry = some b) (hab : b - a ≠ 0)
    (htarget : ∀ c, f.weights c ≠ 0 → f.target c = (psi e s0 c - a) / (b - a)) (hsame : SameProblem ctl n s0 s) :
    ∃ s2 d2, normDifference e ctl f s x0 = .ok (s2, d2) ∧ ∀ v ∈ d2, v = 0 := by
  have hw0 : withCurrents ctl s x0 = { s with tokamak := s0.tokamak } := by
    rw [withCurrents, hsame.coils x0 hx0, hs0]
  have hpsi0 : psi e (withCurrents ctl s x0) = psi e s0 := by
    funext c
    simp only [hw0, psi, hsame.plasma]
  obtain ⟨o, os, xpt, hax⟩ := hax
  have hne : ∀ opt xpt, e.find (psi e s0) = .ok (opt, xpt) → opt ≠ [] := by
    intro opt xpt h
    rw [hax] at h
    cases h
    simp
  have hup := updateBoundary_fresh e s0 (withCurrents ctl s x0) (psi e s0) hsame.check (by rw [hw0]) hne
  rw [hst] at hup
  have hmap := normDifference_map e ctl f s x0
  rw [hpsi0, hup] at hmap
  simp only [Except.map, Except.bind, Equil.residual, ha, hb, if_neg hab] at hmap
  cases hnd : normDifference e ctl f s x0 with
  | error err => rw [hnd] at hmap; cases hmap
  | ok r =>
    rw [hnd] at hmap
    simp only [Except.ok.injEq] at hmap
    refine ⟨r.1, r.2, rfl, fun v hv => ?_⟩
    rw [hmap] at hv
    obtain ⟨i, -, rfl⟩ := List.mem_map.mp hv
    simp only [GS.flat]
    by_cases hw : f.weights (i / e.ny, i % e.ny) = 0
    · rw [hw, mul_zero]
    · rw [htarget _ hw, sub_self, zero_mul]

/-- The fit in the iteration finds the currents of the equilibrium. -/
theorem normFit_finds {e : Equil.Env C K} {ctl : Controls C K} {n : ℕ} {s0 s s' : State C K} {f : NormFit K} {a b : K} {x0 : List K}
    {lsq : List K → Search K (List K)} (ho : ctl.Overwrites n) (hx0 : x0.length = n) (hs0 : ctl.set s0.tokamak x0 = s0.tokamak)
    (hax : ∃ o os xpt, e.find (psi e s0) = .ok (o :: os, xpt)) (hst : updateBoundary e s0 (psi e s0) = .ok s0)
    (ha : s0.psiAxis = some a) (hb : s0.psiBndry = some b) (hab : b - a ≠ 0)
    (htarget : ∀ c, f.weights c ≠ 0 → f.target c = (psi e s0 c - a) / (b - a))
    (hunique : ∀ x : List K, x.length = n → (∃ k' c', ∀ q : ℕ × ℕ, q.1 < e.nx → q.2 < e.ny → f.weights q ≠ 0 →
      psi e (withCurrents ctl s0 x) q = k' * psi e s0 q + c') → x = x0)
    (hsized : (lsq (ctl.get s.tokamak)).Sized n) (hconf : (lsq (ctl.get s.tokamak)).Confirms)
    (hmin : Minimises n (normDifference e ctl f) s (lsq (ctl.get s.tokamak)))
    (hsame : SameProblem ctl n s0 s) (h : normFit e ctl f lsq s = .ok s') :
    s'.tokamak = s0.tokamak ∧ s'.plasmaPsi = s0.plasmaPsi ∧ s'.checkLimited = s0.checkLimited ∧ s'.psiBndry = some b := by
  have hagain := C88_boundary_partial e ctl f lsq s s' n ho hsized hconf h
  rw [normFit] at h
  cases hr : (lsq (ctl.get s.tokamak)).run (normDifference e ctl f) s with
  | error err => rw [hr] at h; cases h
  | ok q =>
    obtain ⟨s1, x⟩ := q
    rw [hr] at h
    simp only [Except.ok.injEq] at h
    subst h
    obtain ⟨hq, hx⟩ := run_sized (Q := SameProblem ctl n s0) (fun s x r hs hx hd => hs.trans (SameProblem.step ho hx (d := r.2) hd)) hsized _ _ hsame hr
    simp only at hq hx
    obtain ⟨o, os, xpt, hax⟩ := hax
    have hne : ∀ opt xpt, e.find (psi e s0) = .ok (opt, xpt) → opt ≠ [] := by
      intro opt xpt h
      rw [hax] at h
      cases h
      simp
    have hd0 := normDifference_exact (f := f) hx0 hs0 ⟨o, os, xpt, hax⟩ hst ha hb hab htarget hsame
    obtain ⟨s2, d2, hd0, hz⟩ := hd0
    obtain ⟨s3, d3, hd3, hle⟩ := hmin s1 x hr x0 s2 d2 hx0 hd0
    have hz2 : (d2.map fun v => v * v).sum ≤ 0 := by
      apply le_of_eq
      apply List.sum_eq_zero
      intro v hv
      obtain ⟨w, hw, rfl⟩ := List.mem_map.mp hv
      rw [hz w hw, mul_zero]
    have hz3 := sum_sq_zero d3 (hle.trans hz2)
    obtain ⟨-, a', b', -, -, hab', rfl⟩ := normDifference_ok hd3
    have hpsix : psi e (withCurrents ctl s x) = psi e (withCurrents ctl s0 x) := by
      funext c
      simp only [psi, withCurrents, hsame.plasma, hsame.coils x hx]
    have hxx : x = x0 := by
      refine hunique x hx ⟨(b' - a') / (b - a), a' - (b' - a') / (b - a) * a, fun q h1 h2 hw => ?_⟩
      have := values_zero hz3 q h1 h2
      rw [mul_eq_zero, or_iff_left hw, sub_eq_zero, htarget q hw, hpsix] at this
      have h3 := (div_eq_iff hab').mp this
      have h4 : psi e (withCurrents ctl s0 x) q = (psi e s0 q - a) / (b - a) * (b' - a') + a' := by rw [← h3]; ring
      rw [h4]
      ring
    subst hxx
    have htok : ctl.set s1.tokamak x = s0.tokamak := by rw [hq.coils x hx, hs0]
    have hpsi1 : psi e { s1 with tokamak := ctl.set s1.tokamak x } = psi e s0 := by
      funext c
      simp only [psi, htok, hq.plasma]
    refine ⟨htok, hq.plasma, hq.check, ?_⟩
    rw [hpsi1] at hagain
    have := updateBoundary_fresh e s0 { s1 with tokamak := ctl.set s1.tokamak x } (psi e s0) hq.check htok hne
    rw [hagain, hst] at this
    simp only [Except.map, Except.ok.injEq, Prod.mk.injEq] at this
    rw [this.2, hb]

/-- One solve of the iteration gives the equilibrium again. -/
theorem solve_again {l : Lib C K} {d : Data K} {s0 s s' : State (Reactor C K) K} {a b k : K} {m J : Arr K} (D : Describes l d s0 a b k m J)
    (hcore : ∀ P opt x xs, l.core (fileDomain d) d.nx d.ny P opt (x :: xs) none = l.core (fileDomain d) d.nx d.ny P opt (x :: xs) (some x.2.2))
    (ht : s.tokamak = s0.tokamak)
    (h : Equil.solve (fileEnv l d) (givenProfiles (fileEnv l d) (fileProfiles l d)) { s with checkLimited := true } none
      (some (Equil.psi (fileEnv l d) s0)) (some b) = .ok s') :
    s'.tokamak = s0.tokamak ∧ s'.plasmaPsi = s0.plasmaPsi ∧ s'.checkLimited = true ∧ s'.jtor = some J ∧ found s' = found s0 ∧
      Jtor.integrate d.nx d.ny (fileEnv l d).R (fileEnv l d).Z J = .ok s'.current := by
  obtain ⟨s1, s2, J', edge, s3, I, h1, h2, h3, h4, h5, rfl⟩ := solve_ok h
  obtain ⟨o, os, xpt, hax⟩ := D.axis
  obtain ⟨hc, o', os', ho, hpa⟩ := updateBoundary_core (e := fileEnv l d) hcore hax (by simp) D.stored D.psiBndry D.mask
  cases ho
  rw [D.psiAxis] at hpa
  cases hpa
  obtain ⟨⟨opt, xpt'⟩, hfind, h2⟩ := Jtor.bind_ok h2
  rw [Option.getD_some, show (fileEnv l d).find _ = _ from hax] at hfind
  cases hfind
  obtain ⟨⟨J2, pr⟩, hj, h2⟩ := Jtor.bind_ok h2
  cases h2
  have hJ : J' = J := by
    rw [Jtor.givenJtor] at hj
    obtain ⟨pl, hloc, hj⟩ := Jtor.bind_ok hj
    simp only [Jtor.locate] at hloc
    simp only [Option.getD_some] at hloc hc
    rw [hc] at hloc
    cases hloc
    split at hj
    · cases hj
      rw [D.density]
      rfl
    · cases hj
  subst hJ
  rw [updatePlasmaPsi] at h4
  simp only at h4
  have hsol : (fileEnv l d).solver edge (setEdge (fileEnv l d).nx (fileEnv l d).ny (fun c => -(fileEnv l d).mu0 * (fileEnv l d).R c.1 * J' c) edge) =
    s0.plasmaPsi := D.solves _ _ h3
  rw [hsol] at h4
  obtain ⟨f1, f2, -, -, -, f6⟩ := updateBoundary_frame h4
  obtain ⟨g1, -, -, -, -, g6⟩ := updateBoundary_frame h1
  simp only at f1 f2 f6 g1 g6
  have hpsi : Equil.psi (fileEnv l d) { s1 with plasmaPsi := s0.plasmaPsi, spline := s0.plasmaPsi } = Equil.psi (fileEnv l d) s0 := by
    funext c
    simp only [Equil.psi, g1, ht]
  rw [hpsi] at h4
  have hfd := updateBoundary_found (fileEnv l d) s0 { s1 with plasmaPsi := s0.plasmaPsi, spline := s0.plasmaPsi }
    (Equil.psi (fileEnv l d) s0) (by simp only [g6, D.check]) (by simp only [g1, ht]) (fun opt xpt h => by
      rw [show (fileEnv l d).find _ = _ from hax] at h
      cases h
      simp)
  rw [h4, D.stored] at hfd
  simp only [Except.map, Except.ok.injEq] at hfd
  refine ⟨by simp only [f1, g1, ht], f2, by simp only [f6, g6], rfl, ?_, h5⟩
  exact hfd

/-- **C103 (reading back), part.** A file on a grid of `2^i + 1` by `2^j + 1` points describes an equilibrium `s0` exactly. It is read with the machine
of `s0`, its controlled currents being such that the coils make no flux. The routines for critical points, core mask and interpolation follow a shift of the flux; only
the currents of `s0` make a flux that is a multiple of that of `s0` up to a constant in the plasma; the optimiser of the iteration finds minima, and
returns the currents it tried last. Then, if `read` returns, it returns this equilibrium: machine with all currents, plasma flux, current density, axis,
boundary and mask, and as current the integral of the current density. Missing: `current_bounds`, other sizes; other optimisers leave a boundary flux that is not the
one of the final currents (`C88_stale_boundary`); and files of `write` do not hold the profiles of the equilibrium (C47). -/
theorem C103_reads_back_partial (l : Lib C K) (o : ReadOpts K) (d : Data K) (t : Reactor C K) (fuel : ℕ) (r : Reading C K)
    (h : readFile l o d t fuel = .ok (some r)) (hbounds : o.bounds = none)
    (s0 : State (Reactor C K) K) (a b k : K) (m J : Arr K) (D : Describes l d s0 a b k m J)
    (n : ℕ) (x0 : List K) (hx0 : x0.length = n)
    (hmachine : s0.tokamak = { t with coils := l.set t.coils x0, R0 := s0.tokamak.R0 })
    (hzero : ∀ c, l.coilPsi (fileDomain d) d.nx d.ny t.coils c = 0)
    (ho : ∀ c x y, x.length = n → y.length = n → l.set (l.set c x) y = l.set c y)
    (hshift : Follows (fileEnv l d) 1 (-k))
    (hcore : ∀ P opt x xs, l.core (fileDomain d) d.nx d.ny P opt (x :: xs) none = l.core (fileDomain d) d.nx d.ny P opt (x :: xs) (some x.2.2))
    (hunique : ∀ x : List K, x.length = n → (∃ k' c', ∀ q : ℕ × ℕ, q.1 < d.nx → q.2 < d.ny → m q ≠ 0 →
      s0.plasmaPsi q + l.coilPsi (fileDomain d) d.nx d.ny (l.set t.coils x) q = k' * Equil.psi (fileEnv l d) s0 q + c') → x = x0)
    (hlsq : ∀ x, (l.lsq x).Sized n) (hnorm : ∀ x, (l.lsqNorm x).Sized n ∧ (l.lsqNorm x).Confirms)
    (hmin : ∀ s, SameProblem l.controls n s0 s → Minimises n (normDifference (fileEnv l d) l.controls
      ⟨fun c => min (max ((Equil.psi (fileEnv l d) s0 c - a) / (b - a)) 0) (11 / 10), m⟩) s (l.lsqNorm (l.get s.tokamak.coils))) :
    r.eq.tokamak = s0.tokamak ∧ r.eq.plasmaPsi = s0.plasmaPsi ∧ r.eq.jtor = some J ∧ r.eq.psiAxis = some a ∧ r.eq.psiBndry = some b ∧
      r.eq.isLimited = s0.isLimited ∧ r.eq.mask = some m ∧ Equil.psi (fileEnv l d) r.eq = Equil.psi (fileEnv l d) s0 ∧
      Jtor.integrate d.nx d.ny (fileEnv l d).R (fileEnv l d).Z J = .ok r.eq.current := by
  obtain ⟨tg, s, Jf, mf, htg, hp, hr⟩ := readFile_ok h
  obtain ⟨g1, g2, g3, g4, g5, g6, g7, g8⟩ := target_ok htg
  obtain ⟨-, hmk, -, hmask, hR, hJf⟩ := prepareFrom_ok hp
  have htok := prepareFrom_tokamak hp
  obtain ⟨hnx, hny, -, hup⟩ := makeEq_ok hmk
  have hN : 0 < tg.nx * tg.ny := Nat.mul_pos (by omega) (by omega)
  -- sizes and domain
  have hres : resized d.nx d.ny d.psi = .ok (d.nx, d.ny, d.psi) := by
    obtain ⟨i, j, hi, hj⟩ := D.sizes
    have hpow : (isPow2 ((d.nx : ℤ) - 1) && isPow2 ((d.ny : ℤ) - 1)) = true := by
      rw [Bool.and_eq_true, hi, hj]
      push_cast
      rw [add_sub_cancel_right, add_sub_cancel_right]
      exact ⟨(C45_isPow2_partial _ (by positivity)).mpr ⟨i, rfl⟩, (C45_isPow2_partial _ (by positivity)).mpr ⟨j, rfl⟩⟩
    unfold resized
    rw [if_pos hpow]
  rw [hres] at g1
  simp only [Except.ok.injEq, Prod.mk.injEq] at g1
  obtain ⟨e1, e2, e3⟩ := g1
  have hdom : tg.dom = fileDomain d := g5
  rw [hdom, ← e1, ← e2] at hr hup hJf
  rw [← e1, ← e2] at hN
  have hab : b - a ≠ 0 := by
    rw [D.sibdry, D.simagx] at g2
    intro h0
    exact g2 (by linear_combination h0)
  have hnorm' : tg.psiNorm = fun c => min (max ((Equil.psi (fileEnv l d) s0 c - a) / (b - a)) 0) (11 / 10) := by
    rw [g3]
    funext c
    rw [← e3, D.flux, D.sibdry, D.simagx, clip]
    congr 3
    · ring
    · ring
  -- the machine
  have hF : fileMachine t tg = { t with R0 := s0.tokamak.R0 } := by
    have hwall : tg.wall = t.wall := by
      have : s0.tokamak.wall = t.wall := by rw [hmachine]
      cases hl : d.lim with
      | none => exact g8 hl
      | some w =>
        by_cases h3 : 3 < w.length
        · rw [g6 w hl h3, ← this, D.wall w hl]
        · exact g7 w hl h3
    rw [fileMachine, hwall, g4, D.R0]
  have hset : ∀ x, l.controls.set (fileMachine t tg) x = { t with coils := l.set t.coils x, R0 := s0.tokamak.R0 } := by
    intro x
    rw [hF]
    rfl
  have hover : l.controls.Overwrites n := fun q x y hx hy => by
    show ({ q with coils := l.set (l.set q.coils x) y } : Reactor C K) = _
    rw [ho _ _ _ hx hy]
    rfl
  have ht0 : l.controls.set (fileMachine t tg) x0 = s0.tokamak := by rw [hset, ← hmachine]
  have hcoils : ∀ x, x.length = n → l.controls.set s0.tokamak x = l.controls.set (fileMachine t tg) x := fun x hx => by
    rw [← ht0]
    exact hover _ _ _ hx0 hx
  have hs0 : l.controls.set s0.tokamak x0 = s0.tokamak := by rw [hcoils x0 hx0, ht0]
  -- the first mask and current density
  obtain ⟨q0, qs, xpt0, hax⟩ := D.axis
  have hne : ∀ opt xpt, (fileEnv l d).find (Equil.psi (fileEnv l d) s0) = .ok (opt, xpt) → opt ≠ [] := by
    intro opt xpt h
    rw [show (fileEnv l d).find _ = _ from hax] at h
    cases h
    simp
  have hflux : (fun c => tg.psi c + l.coilPsi (fileDomain d) d.nx d.ny (fileMachine t tg).coils c) = affine 1 (-k) (Equil.psi (fileEnv l d) s0) := by
    funext c
    rw [← e3, D.flux, affine, show (fileMachine t tg).coils = t.coils from rfl, hzero]
    ring
  have hlim : (fileEnv l d).limits (fileMachine t tg) = (fileEnv l d).limits s0.tokamak := by
    rw [← ht0]
    rfl
  have hm : mf = m := by
    rw [hflux] at hup
    have := updateBoundary_shift_mask hshift s0 ⟨fileMachine t tg, tg.psi, tg.psi, 0, none, true, none, none, none, none, none, false, none⟩
      (Equil.psi (fileEnv l d) s0) (by rw [D.check]) hlim hne
    rw [show updateBoundary (fileEnv l d) _ (affine 1 (-k) (Equil.psi (fileEnv l d) s0)) = _ from hup, D.stored] at this
    simp only [Except.map, Except.ok.injEq] at this
    rw [hmask, D.mask] at this
    cases this
    rfl
  subst hm
  have hcut : ∀ c, mf c ≠ 0 → tg.psiNorm c = (Equil.psi (fileEnv l d) s0 c - a) / (b - a) := by
    intro c hc
    obtain ⟨b1, b2⟩ := D.between c hc
    rw [hnorm']
    simp only
    rw [max_eq_left b1, min_eq_left (b2.trans (by norm_num))]
  have hJ : Jf = J := by
    rw [hJf, D.density]
    funext c
    simp only [fileDensity]
    by_cases hc : mf c = 0
    · rw [hc, mul_zero, mul_zero]
    · obtain ⟨b1, b2⟩ := D.between c hc
      have : clip ((Equil.psi (fileEnv l d) s0 c - a) / (b - a)) 0 1 = tg.psiNorm c := by
        rw [hcut c hc, clip]
        simp only [max_eq_left b1, min_eq_left b2]
      rw [this]
      rfl
  subst hJ
  -- the first solve and the first fit
  obtain ⟨s1, s2, m', hist, opt, xpt, h1, h2, hm', h3, -⟩ := reconstruct_ok hr
  cases hm'
  have hs1 : SameProblem l.controls n s0 s1 := by
    obtain ⟨u1, u2⟩ := solve_given h1
    obtain ⟨v1, v2, J', edge, v3, I, w1, w2, w3, w4, w5, rfl⟩ := solve_ok h1
    cases w2
    rw [updatePlasmaPsi] at w4
    obtain ⟨-, f2, -⟩ := updateBoundary_frame w4
    refine ⟨?_, ?_, fun x hx => ?_⟩
    · show v3.plasmaPsi = _
      rw [f2]
      exact D.solves _ _ w3
    · rw [u2, D.check]
    · rw [u1, hcoils x hx]
      show l.controls.set s.tokamak x = _
      rw [htok]
  have hs2 : SameProblem l.controls n s0 s2 := by
    rw [firstFit, hbounds] at h2
    simp only at h2
    split at h2
    · cases h2
    rename_i c _
    rw [fluxFit] at h2
    cases hrun : (l.lsq (l.controls.get s1.tokamak)).run (fluxDifference (l.env (fileDomain d) d.nx d.ny) l.controls c) s1 with
    | error err => rw [hrun] at h2; cases h2
    | ok q =>
      rw [hrun] at h2
      simp only [Except.ok.injEq] at h2
      have hst : ∀ (s : State (Reactor C K) K) x, SameProblem l.controls n s0 s → x.length = n →
          SameProblem l.controls n s0 { s with tokamak := l.controls.set s.tokamak x } := fun s x hs hx =>
        ⟨hs.plasma, hs.check, fun y hy => by rw [← hs.coils y hy]; exact hover _ _ _ hx hy⟩
      obtain ⟨k1, k2⟩ := run_sized (Q := SameProblem l.controls n s0) (fun s x r hs hx hd => by
        rw [fluxDifference_ok hd]
        exact hst s x hs hx) (hlsq _) _ _ hs1 hrun
      rw [← h2]
      exact hst _ _ k1 k2
  -- the iteration
  obtain ⟨num, s', p, lim, bb, hrun, hstep, -⟩ := Picard.C39_converged_partial _ _ (d.nx * d.ny) hN
    (fun s => values_length _ _ _) _ _ _ _ h3
  have hadj : ∀ s s', SameProblem l.controls n s0 s → iterationFit l (fileEnv l d) o ⟨tg.psiNorm, mf⟩ s = .ok s' →
      s'.tokamak = s0.tokamak ∧ s'.plasmaPsi = s0.plasmaPsi ∧ s'.checkLimited = s0.checkLimited ∧ s'.psiBndry = some b := by
    intro s s' hs ha
    rw [iterationFit, hbounds] at ha
    refine normFit_finds hover hx0 hs0 ⟨q0, qs, xpt0, hax⟩ D.stored D.psiAxis D.psiBndry hab hcut (fun x hx hk => hunique x hx ?_)
      (hnorm _).1 (hnorm _).2 ?_ hs ha
    · obtain ⟨k', c', hk⟩ := hk
      refine ⟨k', c', fun q h1 h2 hq => ?_⟩
      rw [← hk q h1 h2 hq]
      simp only [Equil.psi, withCurrents, hcoils x hx, hset]
      rfl
    · rw [hnorm']
      exact hmin s hs
  have hcheck : ∀ n lim, Picard.Checks (picardOpts o) n lim = true := fun n lim => by simp [Picard.Checks, picardOpts]
  have hone : ∀ n lim s s' p, (s : State (Reactor C K) K).tokamak = s0.tokamak → s.psiBndry = some b →
      p = values d.nx d.ny (Equil.psi (fileEnv l d) s0) →
      Picard.step (picardEnv (l.env (fileDomain d) d.nx d.ny) (givenProfiles (l.env (fileDomain d) d.nx d.ny) (fileProfiles l d))
        (some (iterationFit l (l.env (fileDomain d) d.nx d.ny) o ⟨tg.psiNorm, mf⟩))) (picardOpts o) n lim s p = .ok s' →
      s'.tokamak = s0.tokamak ∧ s'.plasmaPsi = s0.plasmaPsi ∧ s'.checkLimited = true ∧ s'.jtor = some Jf ∧ found s' = found s0 ∧
        Jtor.integrate d.nx d.ny (fileEnv l d).R (fileEnv l d).Z Jf = .ok s'.current := by
    intro n lim s s' p h1 h2 h3 h4
    rw [Picard.step, if_pos (hcheck n lim)] at h4
    change Equil.solve (fileEnv l d) (givenProfiles (fileEnv l d) (fileProfiles l d)) { s with checkLimited := true } none
      (some (ofValues d.ny p)) s.psiBndry = .ok s' at h4
    rw [h3, D.grid] at h4
    refine solve_again (s := s) D hcore h1 ?_
    rw [← h2]
    exact h4
  have hinv : ∀ n s p lim bb, Picard.Run (picardEnv (l.env (fileDomain d) d.nx d.ny)
        (givenProfiles (l.env (fileDomain d) d.nx d.ny) (fileProfiles l d))
        (some (iterationFit l (l.env (fileDomain d) d.nx d.ny) o ⟨tg.psiNorm, mf⟩))) (picardOpts o) s2 n s p lim bb →
      s.tokamak = s0.tokamak ∧ s.plasmaPsi = s0.plasmaPsi ∧ s.psiBndry = some b ∧ p = values d.nx d.ny (Equil.psi (fileEnv l d) s0) := by
    have hps : ∀ s : State (Reactor C K) K, s.tokamak = s0.tokamak → s.plasmaPsi = s0.plasmaPsi →
        Equil.psi (fileEnv l d) s = Equil.psi (fileEnv l d) s0 := fun s h1 h2 => by
      funext c
      simp only [Equil.psi, h1, h2]
    intro n s p lim bb hrun
    induction hrun with
    | start ha =>
      obtain ⟨i1, i2, -, i4⟩ := hadj _ _ hs2 ha
      exact ⟨i1, i2, i4, by rw [← hps _ i1 i2]; rfl⟩
    | next _ hs ha ih =>
      obtain ⟨j1, j2, j3, j4⟩ := ih
      obtain ⟨v1, v2, v3, -⟩ := hone _ _ _ _ _ j1 j3 j4 hs
      obtain ⟨i1, i2, -, i4⟩ := hadj _ _ ⟨v2, by rw [v3, D.check], fun x hx => by rw [v1]⟩ ha
      refine ⟨i1, i2, i4, ?_⟩
      rw [j4]
      show List.zipWith _ (values d.nx d.ny (Equil.psi (fileEnv l d) _)) _ = _
      rw [hps _ i1 i2, List.zipWith_self]
      conv_rhs => rw [← List.map_id (values d.nx d.ny (Equil.psi (fileEnv l d) s0))]
      refine List.map_congr_left fun x _ => ?_
      simp only [id]
      ring
  obtain ⟨j1, j2, j3, j4⟩ := hinv _ _ _ _ _ hrun
  obtain ⟨v1, v2, v3, v4, v5, v6⟩ := hone _ _ _ _ _ j1 j3 j4 hstep
  simp only [found, Prod.mk.injEq] at v5
  refine ⟨v1, v2, v4, v5.1.trans D.psiAxis, v5.2.1.trans D.psiBndry, v5.2.2.1, v5.2.2.2.trans D.mask, ?_, v6⟩
  funext c
  simp only [Equil.psi, v1, v2]

/-! ## A case: 5 x 5 points, one controlled coil, constant `p'` -/

namespace Case

/-- Total flux of the equilibrium. -/
def total : Arr ℚ := ofValues 5 [8, 5, 4, 5, 8, 5, 2, 1, 2, 5, 4, 1, 0, 1, 4, 5, 2, 1, 2, 5, 8, 5, 4, 5, 8]

/-- The plasma is in the inner 3 x 3 points. -/
def core : Arr ℚ := fun c => if 1 ≤ c.1 ∧ c.1 ≤ 3 ∧ 1 ≤ c.2 ∧ c.2 ≤ 3 then 1 else 0

/-- Plasma flux: `R` squared in the plasma. -/
def plasma : Arr ℚ := fun c => linspaceAt 1 3 5 c.1 * linspaceAt 1 3 5 c.1 * core c

/-- The routines: axis and X-point at fixed points of the grid; the solver multiplies by -1 inside; the splines are linear; the first
fit is wrong; the optimiser of the iteration tries two currents. With bounds the start values are kept. -/
def lib : Lib ℚ ℚ :=
  { mu0 := 1
    coilPsi := fun _ _ _ I c => I * (total c - plasma c)
    find := fun _ _ _ P => .ok ([(2, 0, P (2, 2))], [(2, -1, P (2, 0))])
    core := fun _ _ _ _ _ _ _ => .ok core
    interp := fun _ _ _ P _ _ => P (2, 2)
    boundary := fun _ _ _ _ _ => .ok fun _ => 0
    solver := fun _ _ _ _ rhs c => if core c = 0 then rhs c else -rhs c
    spline := fun n v x => v 0 + (v 1 - v 0) * (n - 1) * x
    dspline := fun n v _ => (v 1 - v 0) * (n - 1)
    guess := fun _ _ _ => 0
    separatrix := fun _ _ _ _ _ _ _ => .ok []
    get := fun I => [I]
    set := fun I x => x.headD I
    lsq := fun _ => .ask [2] fun _ => .stop [3]
    lsqNorm := fun _ => .ask [2] fun _ => .ask [1] fun _ => .stop [1]
    lbfgs := fun x _ => .ask x fun _ => .stop x
    lbfgsNorm := fun x _ => .ask x fun _ => .stop x }

/-- The file: the flux less 7. -/
def file : Data ℚ :=
  { nx := 5, ny := 5, rdim := 2, zdim := 2, rcentr := 2, bcentr := 1, rleft := 1, zmid := 0, rmagx := 2, zmagx := 0, simagx := -7, sibdry := -3
    cpasma := 0, fpol := fun _ => 3, pres := fun k => k, ffprime := fun _ => 0, pprime := fun _ => 1, psi := fun c => total c - 7
    qpsi := fun _ => 1, lim := none, rbdry := [], zbdry := [] }

def machine : Reactor ℚ ℚ := ⟨0, none, none, 9⟩

def opts : ReadOpts ℚ := ⟨1 / 1000, 8, 1 / 2, false, some 50, none⟩

/-- The equilibrium: current 1 in the coil. -/
def eq0 : State (Reactor ℚ ℚ) ℚ :=
  ⟨⟨1, none, none, 2⟩, plasma, plasma, 0, none, true, some 0, some 4, some 4, none, none, false, some core⟩

/-- What `read` takes from the file. -/
def target : Target ℚ :=
  { nx := 5, ny := 5, psi := file.psi, psiNorm := fun c => clip ((file.psi c - -7) / (-3 - -7)) 0 (11 / 10), knot := linspaceAt 0 1 5
    pres := file.pres, fpol := file.fpol, R0 := 2, fvac := 2 * 1, dom := ⟨1, 1 + 2, 0 - 1 / 2 * 2, 0 + 1 / 2 * 2⟩, wall := none }

theorem reads (w : Option (List (ℚ × ℚ))) : read file w = .ok { target with wall := w } := by
  have hpow : (isPow2 ((5 : ℤ) - 1) && isPow2 ((5 : ℤ) - 1)) = true := by
    rw [Bool.and_eq_true, and_self, show ((5 : ℤ) - 1) = 4 by norm_num]
    exact (C45_isPow2_partial 4 (by norm_num)).mpr ⟨2, by norm_num⟩
  have hres : resized file.nx file.ny file.psi = .ok (5, 5, file.psi) := by
    unfold resized
    rw [if_pos (show (isPow2 ((file.nx : ℤ) - 1) && isPow2 ((file.ny : ℤ) - 1)) = true from hpow)]
    rfl
  rw [read, hres]
  simp only
  rw [if_neg (by norm_num [file])]
  rfl

/-- `read` returns. -/
theorem returns : ∃ r, readFile lib opts file machine 9 = .ok (some r) := by
  have h : (match readFrom lib opts file machine target 9 with
    | .ok (some _) => true
    | _ => false) = true := by decide +kernel
  rw [readFile, show machine.wall = none from rfl, reads]
  change ∃ r, readFrom lib opts file machine target 9 = _
  cases hr : readFrom lib opts file machine target 9 with
  | error err => rw [hr] at h; cases h
  | ok o =>
    cases o with
    | none => rw [hr] at h; cases h
    | some r => exact ⟨r, rfl⟩

theorem flux : Equil.psi (fileEnv lib file) eq0 = total := by
  funext c
  show plasma c + 1 * (total c - plasma c) = total c
  ring

theorem describes : Describes lib file eq0 0 4 7 core (fileDensity lib file total 0 4 core) where
  sizes := ⟨2, 2, by norm_num [file], by norm_num [file]⟩
  flux := fun c => by rw [flux]; rfl
  simagx := by norm_num [file]
  sibdry := by norm_num [file]
  R0 := rfl
  wall := fun w h => by cases h
  check := rfl
  axis := ⟨_, _, _, rfl⟩
  stored := by rw [flux]; rfl
  psiAxis := rfl
  psiBndry := rfl
  mask := rfl
  between := fun c hc => by
    rw [flux]
    obtain ⟨i, j⟩ := c
    have hc' : 1 ≤ i ∧ i ≤ 3 ∧ 1 ≤ j ∧ j ≤ 3 := by
      by_contra h
      exact hc (if_neg h)
    obtain ⟨h1, h2, h3, h4⟩ := hc'
    interval_cases i <;> interval_cases j <;> decide +kernel
  density := by rw [flux]
  solves := fun p edge h => by
    cases h
    funext c
    show (if core c = 0 then setEdge 5 5 _ (fun _ => 0) c else -(setEdge 5 5 _ (fun _ => 0) c)) = plasma c
    by_cases hc : core c = 0
    · simp only [plasma, hc, mul_zero, if_true, setEdge, fileDensity, ite_self]
    · rw [if_neg hc]
      obtain ⟨i, j⟩ := c
      have hc' : 1 ≤ i ∧ i ≤ 3 ∧ 1 ≤ j ∧ j ≤ 3 := by
        by_contra h
        exact hc (if_neg h)
      obtain ⟨h1, h2, h3, h4⟩ := hc'
      interval_cases i <;> interval_cases j <;> decide +kernel
  grid := by
    rw [flux]
    show ofValues 5 (values 5 5 (ofValues 5 _)) = ofValues 5 _
    rw [values_ofValues (by rfl)]

theorem overwrites (c : ℚ) (x y : List ℚ) (_ : x.length = 1) (hy : y.length = 1) : lib.set (lib.set c x) y = lib.set c y := by
  obtain ⟨b, rfl⟩ := List.length_eq_one_iff.mp hy
  rfl

theorem follows : Follows (fileEnv lib file) 1 (-7) :=
  ⟨fun _ => rfl, fun _ _ _ _ => rfl, fun _ _ _ => rfl⟩

theorem unique (x : List ℚ) (hx : x.length = 1) (h : ∃ k' c', ∀ q : ℕ × ℕ, q.1 < 5 → q.2 < 5 → core q ≠ 0 →
    plasma q + lib.coilPsi (fileDomain file) 5 5 (lib.set 0 x) q = k' * total q + c') : x = [1] := by
  obtain ⟨I, rfl⟩ := List.length_eq_one_iff.mp hx
  obtain ⟨k', c', h⟩ := h
  have h1 := h (1, 2) (by norm_num) (by norm_num) (by decide +kernel)
  have h2 := h (3, 2) (by norm_num) (by norm_num) (by decide +kernel)
  have p1 : plasma (1, 2) = 9 / 4 := by decide +kernel
  have p2 : plasma (3, 2) = 25 / 4 := by decide +kernel
  have t1 : total (1, 2) = 1 := by decide +kernel
  have t2 : total (3, 2) = 1 := by decide +kernel
  change plasma (1, 2) + I * (total (1, 2) - plasma (1, 2)) = _ at h1
  change plasma (3, 2) + I * (total (3, 2) - plasma (3, 2)) = _ at h2
  rw [p1, t1] at h1
  rw [p2, t2] at h2
  congr 1
  linarith

theorem minimises (s : State (Reactor ℚ ℚ) ℚ) (hs : SameProblem lib.controls 1 eq0 s) : Minimises 1 (normDifference (fileEnv lib file) lib.controls
    ⟨fun c => min (max ((Equil.psi (fileEnv lib file) eq0 c - 0) / (4 - 0)) 0) (11 / 10), core⟩) s (lib.lsqNorm (lib.get s.tokamak.coils)) := by
  intro s' x hr y s1 d1 _ _
  have hx : x = [1] := by
    change Search.run _ (.ask [2] fun _ => .ask [1] fun _ => .stop [1]) s = _ at hr
    rw [Search.run] at hr
    split at hr
    · cases hr
    rw [Search.run] at hr
    split at hr
    · cases hr
    cases hr
    rfl
  subst hx
  obtain ⟨s2, d2, h2, hz⟩ := normDifference_exact (e := fileEnv lib file) (ctl := lib.controls) (n := 1) (s0 := eq0) (s := s)
    (f := ⟨fun c => min (max ((Equil.psi (fileEnv lib file) eq0 c - 0) / (4 - 0)) 0) (11 / 10), core⟩) (a := 0) (b := 4) (x0 := [1]) rfl rfl
    ⟨_, _, _, rfl⟩ describes.stored rfl rfl (by norm_num) (fun c hc => by
      obtain ⟨b1, b2⟩ := describes.between c hc
      simp only
      rw [max_eq_left b1, min_eq_left (b2.trans (by norm_num))]) hs
  refine ⟨s2, d2, h2, ?_⟩
  have h0 : (d2.map fun v => v * v).sum = 0 := by
    apply List.sum_eq_zero
    intro v hv
    obtain ⟨w, hw, rfl⟩ := List.mem_map.mp hv
    rw [hz w hw, mul_zero]
  rw [h0]
  refine List.sum_nonneg fun v hv => ?_
  obtain ⟨w, -, rfl⟩ := List.mem_map.mp hv
  exact mul_self_nonneg w

end Case

/-- All hypotheses of `C103_reads_back_partial` hold in this case, with a machine without current and a first fit that is wrong: the
equilibrium is read back. -/
example : ∃ r, readFile Case.lib Case.opts Case.file Case.machine 9 = .ok (some r) ∧ r.eq.tokamak.coils = 1 ∧ r.eq.plasmaPsi = Case.plasma ∧
    r.eq.psiAxis = some 0 ∧ r.eq.psiBndry = some 4 ∧ r.eq.mask = some Case.core ∧
    Equil.psi (fileEnv Case.lib Case.file) r.eq = Case.total := by
  obtain ⟨r, h⟩ := Case.returns
  obtain ⟨a1, a2, -, a4, a5, -, a7, a8, -⟩ := C103_reads_back_partial Case.lib Case.opts Case.file Case.machine 9 r h rfl Case.eq0 0 4 7 Case.core _
    Case.describes 1 [1] rfl rfl (fun c => zero_mul _) Case.overwrites Case.follows (fun _ _ _ _ => rfl)
    (fun x hx h => Case.unique x hx (by rw [Case.flux] at h; exact h))
    (fun _ => .ask _ _ rfl fun _ => .stop _ rfl) (fun _ => ⟨.ask _ _ rfl fun _ => .ask _ _ rfl fun _ => .stop _ rfl, .ask _ _ fun _ => .last _ _ fun _ => rfl⟩)
    Case.minimises
  exact ⟨r, h, by rw [a1]; rfl, a2, a4, a5, a7, by rw [a8, Case.flux]⟩

namespace Case

/-- A run that returns. -/
theorem returns_of {l : Lib ℚ ℚ} {o : ReadOpts ℚ} {t : Reactor ℚ ℚ} {fuel : ℕ} (ht : t.wall = none)
    (h : (match readFrom l o file t target fuel with
      | .ok (some _) => true
      | _ => false) = true) : ∃ r, readFile l o file t fuel = .ok (some r) := by
  rw [readFile, ht, reads]
  change ∃ r, readFrom l o file t target fuel = _
  cases hr : readFrom l o file t target fuel with
  | error err => rw [hr] at h; cases h
  | ok o =>
    cases o with
    | none => rw [hr] at h; cases h
    | some r => exact ⟨r, rfl⟩

theorem size {nx ny : ℕ} {psi : Arr ℚ} (h : resized file.nx file.ny file.psi = .ok (nx, ny, psi)) : nx = 5 ∧ ny = 5 := by
  have hr := reads none
  obtain ⟨g, -⟩ := target_ok hr
  rw [h] at g
  cases g
  exact ⟨rfl, rfl⟩

end Case

/-- `C103_returned`, `C103_ends` and `C103_consistent` in this case. -/
example : ∃ r, readFile Case.lib Case.opts Case.file Case.machine 51 = .ok (some r) ∧ r.nx = 5 ∧ r.eq.tokamak.R0 = 2 ∧
    (∃ x xs iso, r.control = some (x :: xs, iso)) ∧ ∃ prev, Picard.FluxConverged (picardOpts Case.opts) (values 5 5 prev)
      (values 5 5 (Equil.psi (Case.lib.env r.dom 5 5) r.eq)) := by
  have hends := C103_ends Case.lib Case.opts Case.file Case.machine 50 (by norm_num) rfl
  obtain ⟨r, h⟩ : ∃ r, readFile Case.lib Case.opts Case.file Case.machine 51 = .ok (some r) := Case.returns_of rfl (by decide +kernel)
  obtain ⟨-, ⟨psi, hsize⟩, -, -, -, -, hR0, -, -, -, -, -, opt, xpt, hf, -, hc⟩ := C103_returned _ _ _ _ _ _ h
  obtain ⟨hx, hy⟩ := Case.size hsize
  cases hf
  obtain ⟨iso, -, hc⟩ := hc (by simp)
  obtain ⟨prev, J, -, -, -, -, hconv, -⟩ := C103_consistent Case.lib Case.opts Case.file Case.machine 51 r h (by norm_num [Case.lib]) (fun a c => -a c)
    (by
      rw [hx, hy]
      intro x b
      refine ⟨fun c hc => ?_, fun c hc => ?_⟩
      · obtain ⟨h1, h2, h3, h4⟩ := hc
        have : Case.core c = 1 := if_pos ⟨h1, by omega, h3, by omega⟩
        show -(if Case.core c = 0 then b c else -b c) = b c
        rw [this, if_neg one_ne_zero, neg_neg]
      · have : Case.core c = 0 := if_neg (by unfold GS.OnEdge at hc; omega)
        show (if Case.core c = 0 then b c else -b c) = b c
        rw [if_pos this])
  rw [hx, hy] at hconv
  exact ⟨r, h, hx, hR0, ⟨_, _, _, hc⟩, prev, hconv⟩

/-- `C103_bounds` in this case: start value 0, bounds 5 and 1. -/
example : ∃ r, readFile Case.lib { Case.opts with bounds := some [(5, 1)] } Case.file Case.machine 9 = .ok (some r) ∧
    1 ≤ r.eq.tokamak.coils ∧ r.eq.tokamak.coils ≤ 5 := by
  obtain ⟨r, h⟩ : ∃ r, readFile Case.lib { Case.opts with bounds := some [(5, 1)] } Case.file Case.machine 9 = .ok (some r) :=
    Case.returns_of rfl (by decide +kernel)
  obtain ⟨lim, hl, hb⟩ := C103_bounds _ _ _ _ _ _ h [(5, 1)] rfl (fun _ _ h => .ask _ _ fun _ => .stop _ h)
    (fun c x hx => by
      obtain ⟨b, rfl⟩ := List.length_eq_one_iff.mp hx
      rfl) (fun _ _ => rfl) 0 r.eq.tokamak.coils rfl
  cases hl
  obtain ⟨h1, h2⟩ := hb
  norm_num at h1 h2
  exact ⟨r, h, h1, h2⟩

/-- `C103_first_fit`, `C103_first_fit_bounds`: in this case with the plasma flux of the equilibrium the differences vanish for current 1, not for current 2; the
quantities minimised with and without bounds differ by the same number for both. -/
example : (match Control.Psi2D.make (values 5 5 Case.file.psi) (some (.array (values 5 5 Case.core))) with
    | .error _ => false
    | .ok c =>
      let adv := Control.Psi2DAdvanced.make (values 5 5 Case.file.psi) (.array (values 5 5 Case.core)) none
      let e := Case.lib.env ⟨1, 3, -1, 1⟩ 5 5
      match fluxDifference e Case.lib.controls c Case.eq0 [1], fluxDifference e Case.lib.controls c Case.eq0 [2],
        fluxSquares e Case.lib.controls adv Case.eq0 [1], fluxSquares e Case.lib.controls adv Case.eq0 [2] with
      | .ok (_, d1), .ok (_, d2), .ok (_, v1), .ok (_, v2) => d1.all (fun v => decide (v = 0)) && !d2.all (fun v => decide (v = 0)) &&
          decide (v1 - (d1.map fun y => y * y).sum = v2 - (d2.map fun y => y * y).sum)
      | _, _, _, _ => false) = true := by
  decide +kernel

/-- `C103_no_xpoint_fails`: no X-point is ever found. -/
example : ∃ err, readFile { Case.lib with find := fun _ _ _ P => .ok ([(2, 0, P (2, 2))], []) } Case.opts Case.file Case.machine 9 = .error err :=
  C103_no_xpoint_fails _ _ _ _ _ fun _ _ => ⟨_, rfl⟩

/-- `C103_limiter_fails`: the same file with a limiter. -/
example : ∃ err, readFile Case.lib Case.opts { Case.file with lim := some [(1, -1), (3, -1), (3, 1), (1, 1)] } Case.machine 9 = .error err :=
  C103_limiter_fails _ _ _ _ _ _ rfl (by decide) rfl

/-- `C103_rectangular_fails`: a file with 5 x 3 points. -/
example : ∃ err, readFile Case.lib Case.opts { Case.file with ny := 3 } { Case.machine with wall := some [(1, -1), (3, -1), (3, 1), (1, 1)], points := some [(1, 0)] } 9 =
    .error err := by
  refine C103_rectangular_fails _ _ _ _ _ 5 3 Case.file.psi ?_ (by norm_num) rfl _ rfl
  unfold resized
  rw [if_pos]
  · rfl
  · rw [Bool.and_eq_true]
    exact ⟨(C45_isPow2_partial _ (by norm_num [Case.file])).mpr ⟨2, by norm_num [Case.file]⟩, (C45_isPow2_partial _ (by norm_num)).mpr ⟨1, by norm_num⟩⟩

/-- `C103_fit_sol_bounds_fails`: the case of bounds above with `fit_sol`. -/
example : ∃ err, readFile Case.lib { Case.opts with bounds := some [(5, 1)], fitSol := true } Case.file Case.machine 9 = .error err :=
  C103_fit_sol_bounds_fails _ _ _ _ _ [(5, 1)] rfl rfl fun _ _ => ⟨_, _, rfl⟩

/-- Routines that find an X-point only if the flux is not constant. -/
noncomputable def domainLib : Lib ℝ ℝ :=
  { mu0 := 1
    coilPsi := fun _ _ _ I c => I * c.2
    find := fun _ _ _ P => .ok ([(2, 0, P (2, 2))], if P (2, 0) = P (2, 2) then [] else [(2, -1, P (2, 0))])
    core := fun _ _ _ _ _ _ _ => .ok fun _ => 1
    interp := fun _ _ _ P _ _ => P (2, 2)
    boundary := fun _ _ _ _ _ => .ok fun _ => 0
    solver := fun _ _ _ _ rhs => rhs
    spline := fun _ v _ => v 0
    dspline := fun n v _ => (v 1 - v 0) * (n - 1)
    guess := fun _ _ _ => 0
    separatrix := fun _ _ _ _ _ _ _ => .ok []
    get := fun I => [I]
    set := fun I x => x.headD I
    lsq := fun x => .stop x
    lsqNorm := fun x => .stop x
    lbfgs := fun x _ => .stop x
    lbfgsNorm := fun x _ => .stop x }

/-- `C103_domain_fails`: a machine without currents and a constant starting guess, whatever the file. -/
example (o : ReadOpts ℝ) (d : Data ℝ) (dom : Domain ℝ) : ∃ err, readDomain domainLib o d dom ⟨0, none, none, 1⟩ 9 = .error err :=
  C103_domain_fails _ _ _ _ _ _ fun _ _ _ => ⟨[(2, 0, 0)], by simp [domainLib]⟩

/-- **C103 (currents before: negation).** What `read` returns is not a function of the file and the machine apart from its controlled currents:
the flux of the coils as they are is added to that of the file before axis and mask are found. Here the file of the case above
is read if the coil carries no current, and cannot be read if it carries current before. -/
theorem C103_currents_before_fails : ∃ (l : Lib ℚ ℚ) (o : ReadOpts ℚ) (d : Data ℚ) (t : Reactor ℚ ℚ) (x : List ℚ) (fuel : ℕ),
    (l.get t.coils).length = x.length ∧ (∃ r, readFile l o d t fuel = .ok (some r)) ∧
      ∃ err, readFile l o d { t with coils := l.set t.coils x } fuel = .error err := by
  refine ⟨{ Case.lib with find := fun _ _ _ P => .ok ([(2, 0, P (2, 2))], if P (2, 2) < P (2, 0) then [(2, -1, P (2, 0))] else []) },
    Case.opts, Case.file, Case.machine, [-1], 9, rfl, Case.returns_of rfl (by decide +kernel), ?_⟩
  refine C103_no_xpoint_fails _ _ _ _ _ fun tg htg => ?_
  rw [show ({ Case.machine with coils := _ } : Reactor ℚ ℚ).wall = none from rfl, Case.reads] at htg
  cases htg
  refine ⟨[(2, 0, -3)], ?_⟩
  decide +kernel

end FreeGS.Geqdsk
