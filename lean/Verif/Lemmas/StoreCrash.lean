import Verif.Lemmas.StoreValues

/-! # What is left after an exception -/

set_option linter.unusedSectionVars false

namespace FreeGS.Store

open FreeGS.GS FreeGS.Critical FreeGS.Equil

universe u
variable {K : Type u} [Field K] [LinearOrder K] {C : Type u}

/-! ## The boundary functions do all or nothing -/

theorem assignRun_none_or_all (value : ℕ × ℕ → Except Err K) (hv : ∀ c c' x, value c = .error x → ∃ y, value c' = .error y)
    (l : List (ℕ × ℕ)) (q : Arr K) (x : Err) (h : (assignRun value l q).1 = some x) : (assignRun value l q).2 = q := by
  cases l with
  | nil => cases h
  | cons c rest =>
    rw [assignRun] at h ⊢
    rcases hc : value c with y | v
    · rfl
    · exfalso
      rw [hc] at h
      simp only at h
      have hok : ∀ c' y, value c' ≠ .error y := fun c' y e => by
        obtain ⟨z, hz⟩ := hv c' c y e
        rw [hc] at hz; cases hz
      have key : ∀ (l : List (ℕ × ℕ)) (q : Arr K), (assignRun value l q).1 = none := by
        intro l
        induction l with
        | nil => intro q; rfl
        | cons d rest ih =>
          intro q
          rw [assignRun]
          rcases hd : value d with y | v
          · exact (hok d y hd).elim
          · exact ih _
      rw [key] at h; cases h

theorem hagenowRun_none_or_all (value : K → K → Except Err K) (hv : ∀ a b a' b' x, value a b = .error x → ∃ y, value a' b' = .error y)
    (R Z : ℕ → K) (l : List ((ℕ × ℕ) × K × K)) (q : Arr K) (x : Err) (h : (hagenowRun value R Z l q).1 = some x) :
    (hagenowRun value R Z l q).2 = q := by
  cases l with
  | nil => cases h
  | cons c rest =>
    obtain ⟨c, er, ez⟩ := c
    rw [hagenowRun] at h ⊢
    rcases hc : value (R c.1 + er) (Z c.2 + ez) with y | v
    · rfl
    · exfalso
      rw [hc] at h
      simp only at h
      have hok : ∀ a b y, value a b ≠ .error y := fun a b y e => by
        obtain ⟨z, hz⟩ := hv a b _ _ y e
        rw [hc] at hz; cases hz
      have key : ∀ (l : List ((ℕ × ℕ) × K × K)) (q : Arr K), (hagenowRun value R Z l q).1 = none := by
        intro l
        induction l with
        | nil => intro q; rfl
        | cons d rest ih =>
          intro q
          obtain ⟨d, er', ez'⟩ := d
          rw [hagenowRun]
          rcases hd : value (R d.1 + er') (Z d.2 + ez') with y | v
          · exact (hok _ _ y hd).elim
          · exact ih _
      rw [key] at h; cases h

theorem romb_error_iff (y y' : ℕ → K) (n : ℕ) (x : Err) (h : romb y n = .error x) : romb y' n = .error x := by
  unfold romb at h ⊢
  simp only at h ⊢
  split at h
  · cases h
  · next hn => rw [if_neg hn]; exact h

theorem romb2_error_iff (nx ny : ℕ) (a a' : Arr K) (x : Err) (h : romb2 nx ny a = .error x) : romb2 nx ny a' = .error x := by
  unfold romb2 at h ⊢
  rcases hy : romb (fun _ => (0 : K)) ny with y | v
  · rw [hy] at h; exact h
  · rw [hy] at h
    exact romb_error_iff _ _ nx x h

theorem edgeFlux_error_iff (G : K → K → K → K → K) (nx ny : ℕ) (R Z : ℕ → K) (J : Arr K) (c c' : ℕ × ℕ) (x : Err)
    (h : edgeFlux G nx ny R Z J c = .error x) : edgeFlux G nx ny R Z J c' = .error x := by
  unfold edgeFlux at h ⊢
  simp only at h ⊢
  rcases hr : romb2 nx ny (fun p => (Arr.set (fun p => G (R p.1) (Z p.2) (R c.1) (Z c.2)) c 0) p * J p) with y | v
  · rw [hr] at h
    cases h
    rw [romb2_error_iff nx ny _ _ x hr]
  · rw [hr] at h; cases h

theorem hagenowIntegral_error_iff (G : K → K → K → K → K) (nx ny : ℕ) (R Z : ℕ → K) (n : Normal K) (a b a' b' : K) (x : Err)
    (h : hagenowIntegral G nx ny R Z n a b = .error x) : ∃ y, hagenowIntegral G nx ny R Z n a' b' = .error y := by
  rcases hq : hagenowIntegral G nx ny R Z n a' b' with y | v
  · exact ⟨y, rfl⟩
  · exfalso
    unfold hagenowIntegral at h hq
    simp only at h hq
    have key : ∀ (y y' : ℕ → K) (m : ℕ), (∀ x, romb y m ≠ .error x) → ∃ v, romb y' m = .ok v := by
      intro y y' m hm
      rcases e : romb y' m with x | v
      · exact (hm x (romb_error_iff _ _ _ _ e)).elim
      · exact ⟨v, rfl⟩
    split at hq
    · next l r d u e1 e2 e3 e4 =>
      obtain ⟨v1, f1⟩ := key _ (fun y => G (R 0) (Z y) a b * n.L y / R 0) ny (fun x e => by rw [e1] at e; cases e)
      obtain ⟨v2, f2⟩ := key _ (fun y => G (R (nx - 1)) (Z y) a b * n.R y / R (nx - 1)) ny (fun x e => by rw [e2] at e; cases e)
      obtain ⟨v3, f3⟩ := key _ (fun x => G (R x) (Z 0) a b * n.D x / R x) nx (fun x e => by rw [e3] at e; cases e)
      obtain ⟨v4, f4⟩ := key _ (fun x => G (R x) (Z (ny - 1)) a b * n.U x / R x) nx (fun x e => by rw [e4] at e; cases e)
      rw [f1, f2, f3, f4] at h
      cases h
    all_goals cases hq

/-- The boundary functions of boundary.py change the flux array completely, or raise and leave it. -/
theorem applyBoundary_failed (s : Setup C K) (hs : NotShared s) (hu : ∀ f, s.boundary ≠ .user f) (J : Arr K) (x : Ref) (w : World C K)
    (hx : x < w.next) (y : Err) (h : (applyBoundary s J x w).1 = some y) : (applyBoundary s J x w).2.arrays x = w.arrays x := by
  unfold applyBoundary at h ⊢
  rw [NotShared] at hs
  cases hb : s.boundary with
  | fixed => rw [hb] at h; cases h
  | free =>
    rw [hb] at h
    simp only at h ⊢
    rw [write_same]
    exact assignRun_none_or_all _ (fun c c' x e => ⟨x, edgeFlux_error_iff _ _ _ _ _ _ c c' x e⟩) _ _ y h
  | hagenow =>
    rw [hb] at h hs
    have hi : s.inPlace = false := by
      cases h : s.inPlace with
      | false => rfl
      | true => exact (hs h).elim
    simp only [callSolver, hi, Bool.false_eq_true, if_false] at h ⊢
    by_cases h5 : s.nx < 5 ∨ s.ny < 5
    · simp only [h5, if_true]
      exact alloc_other w _ (by omega)
    · simp only [h5, if_false] at h ⊢
      rw [write_same, hagenowRun_none_or_all _ (fun a b a' b' x e => hagenowIntegral_error_iff _ _ _ _ _ _ a b a' b' x e) _ _ _ _ y h]
      exact alloc_other w _ (by omega)
  | user f => exact (hu f hb).elim

/-! ## The solve -/

theorem Untouched.setAttrs {i : ℕ} {w : World C K} {a : Attrs K} (h1 : a.spline = (w.eqs i).attrs.spline)
    (h2 : a.current = (w.eqs i).attrs.current) (h3 : a.checkLimited = (w.eqs i).attrs.checkLimited) : Untouched i w (w.setAttrs i a) :=
  ⟨by simp, by simp, by simp [h1], by simp [h2], by simp [h3], by simp⟩

theorem finish_failed (s : Setup C K) (hs : NotShared s) (hu : ∀ f, s.boundary ≠ .user f) (i : ℕ) (J : Ref) (w : World C K)
    (hx : (w.eqs i).psi < w.next) (hJ : J < w.next ∧ J ≠ (w.eqs i).psi) (y : Err) (h : (finish s i J w).1 = some y) :
    Untouched i w (finish s i J w).2 ∨ Renewed s i (w.arrays J) w (finish s i J w).2 := by
  have b1 := applyBoundary_values s hs (w.arrays J) (w.eqs i).psi w hx
  have b2 := applyBoundary_failed s hs hu (w.arrays J) (w.eqs i).psi w hx
  obtain ⟨b3, b4, b5⟩ := applyBoundary_only s (w.arrays J) i w
  unfold finish at h ⊢
  rcases hb : applyBoundary s (w.arrays J) (w.eqs i).psi w with ⟨_ | x, w1⟩
  · right
    rw [hb] at b1 b3 b4 b5 h
    simp only at b1 b3 b4 b5 h ⊢
    have hJ1 : w1.arrays J = w.arrays J := b3.arrays J hJ.1 hJ.2
    have hn1 := b3.next
    rw [b5] at h ⊢
    set rhs := setEdge s.nx s.ny (fun c => -s.mu0 * s.R c.1 * w1.arrays J c) (w1.arrays (w.eqs i).psi) with hrhs
    have c1 := callSolver_arrays s i rhs w1
    rw [b5] at c1
    obtain ⟨c1, c2, c3, c4⟩ := c1
    have c5 := callSolver_values s (w.eqs i).psi rhs w1
    have e1 : (callSolver s (w.eqs i).psi rhs w1).2.arrays (callSolver s (w.eqs i).psi rhs w1).1 =
        s.solver (w1.arrays (w.eqs i).psi) (setEdge s.nx s.ny (fun c => -s.mu0 * s.R c.1 * w.arrays J c) (w1.arrays (w.eqs i).psi)) := by
      rw [c5, hrhs, hJ1]
    set r := callSolver s (w.eqs i).psi rhs w1
    clear_value r rhs
    rw [c3] at h ⊢
    set w2 := r.2.setEq i { (w.eqs i) with psi := r.1, attrs := { (w.eqs i).attrs with spline := r.2.arrays r.1 } } with hw2
    have o2 : w2.eqs i = { (w.eqs i) with psi := r.1, attrs := { (w.eqs i).attrs with spline := r.2.arrays r.1 } } := by
      rw [hw2, setEq_same]
    have a2 : w2.arrays = r.2.arrays := rfl
    clear_value w2
    obtain ⟨a, ha, k1, k2, k3⟩ := updateBoundary_keeps s i (psi s.env (w2.view i)) w2
    rw [o2] at k1 k2 k3
    simp only at k1 k2 k3
    have main : Renewed s i (w.arrays J) w (w2.setAttrs i a) := by
      refine ⟨?_, ⟨w1.arrays (w.eqs i).psi, b1.symm, ?_⟩, ?_, ?_, ?_⟩
      · rw [setAttrs_same, setAttrs_arrays, o2, a2]; exact k1
      · rw [setAttrs_same, setAttrs_arrays, o2, a2]; exact e1
      · rw [setAttrs_same]; exact k2
      · rw [setAttrs_same]; exact k3
      · rw [setAttrs_same, o2]
    rcases hu' : updateBoundary s i (psi s.env (w2.view i)) w2 with ⟨_ | x, w3⟩
    · rw [hu'] at ha h
      simp only at ha h ⊢
      subst ha
      split
      · exact main
      · next I hI => rw [hI] at h; cases h
    · rw [hu'] at ha
      simp only at ha ⊢
      subst ha
      exact main
  · left
    rw [hb] at b2 b3 b5
    simp only at b2 b3 b5 ⊢
    have := b2 x rfl
    exact ⟨by rw [b5], this, by rw [b5], by rw [b5], by rw [b5], by rw [b5]⟩

theorem density_keeps (s : Setup C K) {p : Profile C K} {q : Profiles C K} (hp : Matches p q) (i : ℕ) (given psi0 : Option Ref)
    (b : Option K) (w : World C K) (hx : (w.eqs i).psi < w.next) : Untouched i w (density s p i given psi0 b w).2 := by
  cases given with
  | some J => exact ⟨rfl, rfl, rfl, rfl, rfl, rfl⟩
  | none =>
    unfold density
    simp only
    set Q := (match psi0 with | some r => w.arrays r | none => psi s.env (w.view i))
    obtain ⟨k1, k2, k3⟩ := hp.keeps w i Q b
    split
    · exact Untouched.setAttrs k1 k2 k3
    · have := Untouched.setAttrs (i := i) (w := w) k1 k2 k3
      refine ⟨this.psi, ?_, this.spline, this.current, this.checkLimited, this.jtor⟩
      rw [alloc_other _ _ (by simp only [setAttrs_next]; omega)]
      exact this.flux

theorem Untouched.trans {i : ℕ} {w w' w'' : World C K} (h : Untouched i w w') (g : Untouched i w' w'') : Untouched i w w'' :=
  ⟨g.psi.trans h.psi, by have := g.flux; rw [h.psi] at this; exact this.trans h.flux, g.spline.trans h.spline, g.current.trans h.current,
    g.checkLimited.trans h.checkLimited, g.jtor.trans h.jtor⟩

theorem Untouched.renewed {s : Setup C K} {i : ℕ} {J : Arr K} {w w' w'' : World C K} (h : Untouched i w w') (g : Renewed s i J w' w'') :
    Renewed s i J w w'' := by
  refine ⟨g.spline, ?_, g.current.trans h.current, g.checkLimited.trans h.checkLimited, g.jtor.trans h.jtor⟩
  have := g.flux
  rw [h.psi, h.flux] at this
  exact this

/-- What is left after an exception. -/
theorem solve_failed (s : Setup C K) (hs : NotShared s) (hu : ∀ f, s.boundary ≠ .user f) {p : Profile C K} {q : Profiles C K}
    (hp : Matches p q) (i : ℕ) (given psi0 : Option Ref) (b : Option K) (w : World C K) (hx : (w.eqs i).psi < w.next)
    (hg : ∀ r, given = some r → r < w.next ∧ r ≠ (w.eqs i).psi) (y : Err) (h : (solve s p i given psi0 b w).1 = some y) :
    Untouched i w (solve s p i given psi0 b w).2 ∨ ∃ J : Arr K, (∀ r, given = some r → J = w.arrays r) ∧
      Renewed s i J w (solve s p i given psi0 b w).2 := by
  unfold solve at h ⊢
  obtain ⟨a, ha, k1, k2, k3⟩ := updateBoundary_keeps s i (psi s.env (w.view i)) w
  have t1 := Untouched.setAttrs (i := i) (w := w) k1 k2 k3
  rcases hu' : updateBoundary s i (psi s.env (w.view i)) w with ⟨_ | x, w1⟩
  · rw [hu'] at ha h
    simp only at ha h ⊢
    subst ha
    have hx1 : ((w.setAttrs i a).eqs i).psi < (w.setAttrs i a).next := by rw [setAttrs_same]; exact hx
    have t2 := density_keeps s hp i given psi0 b (w.setAttrs i a) hx1
    obtain ⟨d1, d2, d3, d4, d5⟩ := density_only s p i given psi0 b (w.setAttrs i a)
    rcases hd : density s p i given psi0 b (w.setAttrs i a) with ⟨x | J, w2⟩
    · rw [hd] at t2
      exact .inl (t1.trans t2)
    · rw [hd] at t2 d1 d5 h
      simp only at t2 d1 d5 h ⊢
      have hn := d1.next
      rw [setAttrs_next] at hn
      have t := t1.trans t2
      have hJ : J < w2.next ∧ J ≠ (w2.eqs i).psi := by
        rw [t.psi]
        rcases d5 J rfl with e | ⟨e1, e2⟩
        · obtain ⟨h1, h2⟩ := hg J e
          exact ⟨by omega, h2⟩
        · rw [setAttrs_next] at e1
          exact ⟨e2, by omega⟩
      rcases finish_failed s hs hu i J w2 (by rw [t.psi]; omega) hJ y h with f | f
      · exact .inl (t.trans f)
      · refine .inr ⟨w2.arrays J, fun r hr => ?_, t.renewed f⟩
        obtain ⟨h1, h2⟩ := hg r hr
        subst hr
        simp only [density] at hd
        cases hd
        rfl
  · rw [hu'] at ha
    simp only at ha ⊢
    subst ha
    exact .inl t1

end FreeGS.Store
