import Verif.Model.NormFit
import Verif.Props.Equilibrium
import Verif.Props.FluxFit

/-!
# C88: fits of the coil currents to a normalised flux map
-/

set_option linter.unusedSectionVars false

namespace FreeGS.Equil

open FreeGS.GS FreeGS.Critical FreeGS.Jtor

universe u
variable {K : Type u} [Field K] [LinearOrder K] {C : Type u}

/-- Setting `n` currents leaves nothing of `n` currents set before. -/
def Controls.Overwrites (ctl : Controls C K) (n : ℕ) : Prop :=
  ∀ t x y, x.length = n → y.length = n → ctl.set (ctl.set t x) y = ctl.set t y

/-- The equilibrium `s` with other coil currents. -/
def withCurrents (ctl : Controls C K) (s : State C K) (x : List K) : State C K := { s with tokamak := ctl.set s.tokamak x }

/-- Whenever critical points can be found for some `n` coil currents, there is a magnetic axis among them. -/
def HasAxis (e : Env C K) (ctl : Controls C K) (n : ℕ) (s : State C K) : Prop :=
  ∀ x : List K, x.length = n → ∀ opt xpt, e.find (psi e (withCurrents ctl s x)) = .ok (opt, xpt) → opt ≠ []

/-- Two equilibria with the same plasma flux, limiter check and coils up to the currents of the controlled coils. The axis and boundary
fluxes stored in them may differ. -/
structure SameProblem (ctl : Controls C K) (n : ℕ) (s s' : State C K) : Prop where
  plasma : s'.plasmaPsi = s.plasmaPsi
  check : s'.checkLimited = s.checkLimited
  coils : ∀ x : List K, x.length = n → ctl.set s'.tokamak x = ctl.set s.tokamak x

/-- All currents the optimiser asks for or returns have `n` values. -/
inductive Search.Sized {A : Type u} (n : ℕ) : Search K A → Prop
  | stop (x) : x.length = n → Sized n (.stop x)
  | ask (x next) : x.length = n → (∀ r, Sized n (next r)) → Sized n (.ask x next)

theorem updateBoundary_fresh (e : Env C K) (s s' : State C K) (P : Arr K) (hc : s'.checkLimited = s.checkLimited)
    (ht : s'.tokamak = s.tokamak) (h : ∀ opt xpt, e.find P = .ok (opt, xpt) → opt ≠ []) :
    (updateBoundary e s' P).map (fun s => (s.psiAxis, s.psiBndry)) = (updateBoundary e s P).map fun s => (s.psiAxis, s.psiBndry) := by
  rw [updateBoundary, updateBoundary]
  cases hf : e.find P with
  | error err => rfl
  | ok r =>
    obtain ⟨opt, xpt⟩ := r
    simp only [bind, Except.bind]
    cases opt with
    | nil => exact absurd rfl (h _ _ hf)
    | cons o os =>
      simp only [hc, ht]
      cases hl : (if s.checkLimited then e.limits s.tokamak else none) with
      | none =>
        cases xpt with
        | nil => rfl
        | cons x xs =>
          simp only
          cases e.core P (o :: os) (x :: xs) none <;> rfl
      | some pts =>
        simp only
        cases limiterContact e P (keptPoints xpt pts) with
        | error err => rfl
        | ok r =>
          cases xpt with
          | nil => rfl
          | cons x xs =>
            simp only
            cases e.core P (o :: os) (x :: xs) (some (max x.2.2 r.2)) <;> rfl

/-- The value of `psinorm_difference` from axis and boundary flux. -/
def residual (nx ny : ℕ) (f : NormFit K) (flux : Arr K) : Option K × Option K → Except Err (List K)
  | (none, _) => .error .attribute
  | (some _, none) => .error .type
  | (some a, some b) =>
    if b - a = 0 then .error .nonfinite else .ok (values nx ny fun c => ((flux c - a) / (b - a) - f.target c) * f.weights c)

theorem normDifference_map (e : Env C K) (ctl : Controls C K) (f : NormFit K) (s : State C K) (x : List K) :
    (normDifference e ctl f s x).map Prod.snd =
      ((updateBoundary e (withCurrents ctl s x) (psi e (withCurrents ctl s x))).map fun s => (s.psiAxis, s.psiBndry)).bind
        (residual e.nx e.ny f (psi e (withCurrents ctl s x))) := by
  rw [normDifference]
  simp only [withCurrents]
  cases updateBoundary e { s with tokamak := ctl.set s.tokamak x } (psi e { s with tokamak := ctl.set s.tokamak x }) with
  | error err => rfl
  | ok s2 =>
    simp only [Except.map, Except.bind, residual]
    cases s2.psiAxis with
    | none => rfl
    | some a =>
      cases s2.psiBndry with
      | none => rfl
      | some b => simp only; split_ifs <;> rfl

theorem normDifference_congr {e : Env C K} {ctl : Controls C K} {n : ℕ} {s s' : State C K} (f : NormFit K) (hs : SameProblem ctl n s s')
    (ha : HasAxis e ctl n s) {x : List K} (hx : x.length = n) :
    (normDifference e ctl f s' x).map Prod.snd = (normDifference e ctl f s x).map Prod.snd := by
  rw [normDifference_map, normDifference_map]
  have hp : psi e (withCurrents ctl s' x) = psi e (withCurrents ctl s x) := by
    funext c
    simp only [psi, withCurrents, hs.plasma, hs.coils x hx]
  rw [hp, updateBoundary_fresh e (withCurrents ctl s x) (withCurrents ctl s' x) _ hs.check (hs.coils x hx) (ha x hx)]

theorem normDifference_ok {e : Env C K} {ctl : Controls C K} {f : NormFit K} {s s' : State C K} {x d : List K}
    (h : normDifference e ctl f s x = .ok (s', d)) :
    updateBoundary e (withCurrents ctl s x) (psi e (withCurrents ctl s x)) = .ok s' ∧
    ∃ a b, s'.psiAxis = some a ∧ s'.psiBndry = some b ∧ b - a ≠ 0 ∧
      d = values e.nx e.ny fun c => ((psi e (withCurrents ctl s x) c - a) / (b - a) - f.target c) * f.weights c := by
  rw [normDifference] at h
  simp only [withCurrents]
  cases hu : updateBoundary e { s with tokamak := ctl.set s.tokamak x } (psi e { s with tokamak := ctl.set s.tokamak x }) with
  | error err => rw [hu] at h; cases h
  | ok s2 =>
    rw [hu] at h
    simp only at h
    cases ha : s2.psiAxis with
    | none => rw [ha] at h; cases h
    | some a =>
      cases hb : s2.psiBndry with
      | none => rw [ha, hb] at h; cases h
      | some b =>
        rw [ha, hb] at h
        simp only at h
        by_cases h0 : b - a = 0
        · rw [if_pos h0] at h; cases h
        · rw [if_neg h0] at h
          cases h
          exact ⟨rfl, a, b, ha, hb, h0, rfl⟩

theorem SameProblem.step {e : Env C K} {ctl : Controls C K} {n : ℕ} {s s' : State C K} {f : NormFit K} {x d : List K}
    (ho : ctl.Overwrites n) (hx : x.length = n) (h : normDifference e ctl f s x = .ok (s', d)) : SameProblem ctl n s s' := by
  obtain ⟨hu, -⟩ := normDifference_ok h
  obtain ⟨h1, h2, -, -, -, h6⟩ := updateBoundary_frame hu
  refine ⟨h2, h6, fun y hy => ?_⟩
  rw [h1]
  exact ho _ x y hx hy

theorem SameProblem.trans {ctl : Controls C K} {n : ℕ} {s s' s'' : State C K} (h : SameProblem ctl n s s') (h' : SameProblem ctl n s' s'') :
    SameProblem ctl n s s'' :=
  ⟨h'.plasma.trans h.plasma, h'.check.trans h.check, fun x hx => (h'.coils x hx).trans (h.coils x hx)⟩

theorem SameProblem.symm {ctl : Controls C K} {n : ℕ} {s s' : State C K} (h : SameProblem ctl n s s') : SameProblem ctl n s' s :=
  ⟨h.plasma.symm, h.check.symm, fun x hx => (h.coils x hx).symm⟩

theorem SameProblem.refl (ctl : Controls C K) (n : ℕ) (s : State C K) : SameProblem ctl n s s := ⟨rfl, rfl, fun _ _ => rfl⟩

theorem HasAxis.congr {e : Env C K} {ctl : Controls C K} {n : ℕ} {s s' : State C K} (h : HasAxis e ctl n s) (hs : SameProblem ctl n s s') :
    HasAxis e ctl n s' := by
  intro x hx
  have hp : psi e (withCurrents ctl s' x) = psi e (withCurrents ctl s x) := by
    funext c
    simp only [psi, withCurrents, hs.plasma, hs.coils x hx]
  rw [hp]
  exact h x hx

theorem run_congr {e : Env C K} {ctl : Controls C K} {n : ℕ} (f : NormFit K) (ho : ctl.Overwrites n) {s0 : State C K} (ha : HasAxis e ctl n s0)
    (opt : Search K (List K)) (hn : opt.Sized n) : ∀ s s' : State C K, SameProblem ctl n s0 s → SameProblem ctl n s0 s' →
      (opt.run (normDifference e ctl f) s').map Prod.snd = (opt.run (normDifference e ctl f) s).map Prod.snd := by
  induction hn with
  | stop x _ => intros; rfl
  | ask x next hx _ ih =>
    intro s s' h h'
    have key := normDifference_congr f (h.symm.trans h') (ha.congr h) hx
    simp only [Search.run]
    cases hd : normDifference e ctl f s x with
    | error err =>
      rw [hd] at key
      cases hd' : normDifference e ctl f s' x with
      | error err' => rw [hd'] at key; simp only [Except.map, Except.error.injEq] at key; rw [key]
      | ok r => rw [hd'] at key; cases key
    | ok r =>
      obtain ⟨s1, d⟩ := r
      rw [hd] at key
      cases hd' : normDifference e ctl f s' x with
      | error err' => rw [hd'] at key; cases key
      | ok r' =>
        obtain ⟨s1', d'⟩ := r'
        rw [hd'] at key
        simp only [Except.map, Except.ok.injEq] at key
        subst key
        exact ih d' s1 s1' (h.trans (SameProblem.step ho hx hd)) (h'.trans (SameProblem.step ho hx hd'))

/-- **C88.** If there is a magnetic axis whatever the coil currents, the function that is minimised depends on the currents only: not on the
axis and boundary flux stored in the equilibrium, nor on what was tried before; any optimiser that starts from given currents ends with
the same currents, or the same exception. Missing: fluxes without magnetic axis (`C88_history`). -/
theorem C88_history_free_partial (e : Env C K) (ctl : Controls C K) (f : NormFit K) (n : ℕ) (ho : ctl.Overwrites n) (s : State C K)
    (ha : HasAxis e ctl n s) :
    (∀ s' x, SameProblem ctl n s s' → x.length = n →
      (normDifference e ctl f s' x).map Prod.snd = (normDifference e ctl f s x).map Prod.snd) ∧
    (∀ s' d x y, y.length = n → x.length = n → normDifference e ctl f s y = .ok (s', d) →
      (normDifference e ctl f s' x).map Prod.snd = (normDifference e ctl f s x).map Prod.snd) ∧
    ∀ s' (opt : Search K (List K)), SameProblem ctl n s s' → opt.Sized n →
      (opt.run (normDifference e ctl f) s').map Prod.snd = (opt.run (normDifference e ctl f) s).map Prod.snd :=
  ⟨fun _ _ hs hx => normDifference_congr f hs ha hx,
    fun _ _ _ _ hy hx h => normDifference_congr f (SameProblem.step ho hy h) ha hx,
    fun _ opt hs hn => run_congr f ho ha opt hn _ _ (SameProblem.refl ctl n s) hs⟩

/-! ## What is minimised -/

theorem mem_values {nx ny : ℕ} {a : Arr K} {v : K} : v ∈ values nx ny a ↔ ∃ i < nx, ∃ j < ny, v = a (i, j) := by
  simp only [values, List.mem_map, List.mem_range, flat]
  constructor
  · rintro ⟨r, hr, rfl⟩
    have hny : 0 < ny := by
      rcases Nat.eq_zero_or_pos ny with h | h
      · simp [h] at hr
      · exact h
    refine ⟨r / ny, ?_, r % ny, Nat.mod_lt _ hny, rfl⟩
    rw [Nat.div_lt_iff_lt_mul hny]
    exact hr
  · rintro ⟨i, hi, j, hj, rfl⟩
    have hny : 0 < ny := by omega
    refine ⟨i * ny + j, ?_, ?_⟩
    · calc i * ny + j < i * ny + ny := by omega
        _ = (i + 1) * ny := by ring
        _ ≤ nx * ny := Nat.mul_le_mul_right _ hi
    · have h1 : (i * ny + j) / ny = i := by
        rw [Nat.add_comm, Nat.add_mul_div_right _ _ hny, Nat.div_eq_of_lt hj, zero_add]
      have h2 : (i * ny + j) % ny = j := by
        rw [Nat.add_comm, Nat.add_mul_mod_self_right, Nat.mod_eq_of_lt hj]
      rw [h1, h2]

/-- The flux is `a + target (b - a)` wherever the weight is not zero: `a` on the axis, `b` on the boundary. -/
def Fitted (nx ny : ℕ) (f : NormFit K) (flux : Arr K) (a b : K) : Prop :=
  ∀ i < nx, ∀ j < ny, f.weights (i, j) = 0 ∨ flux (i, j) = a + f.target (i, j) * (b - a)

theorem values_fitted {nx ny : ℕ} {f : NormFit K} {flux : Arr K} {a b : K} (h0 : b - a ≠ 0) :
    (∀ v ∈ values nx ny fun c => ((flux c - a) / (b - a) - f.target c) * f.weights c, v = 0) ↔ Fitted nx ny f flux a b := by
  constructor
  · intro h i hi j hj
    have := h _ (mem_values.mpr ⟨i, hi, j, hj, rfl⟩)
    rcases mul_eq_zero.mp this with h1 | h1
    · right
      rw [sub_eq_zero, div_eq_iff h0] at h1
      rw [← h1]; ring
    · exact Or.inl h1
  · intro h v hv
    obtain ⟨i, hi, j, hj, rfl⟩ := mem_values.mp hv
    rcases h i hi j hj with h1 | h1
    · rw [h1, mul_zero]
    · rw [h1, add_sub_cancel_left, mul_div_cancel_right₀ _ h0, sub_self, zero_mul]

/-- **C88.** All differences vanish exactly if the flux with the given currents has the target as its normalised flux wherever the weight is not
zero. The equilibrium is left with these currents and the axis and boundary flux that belong to them. There is one difference for each
grid point. -/
theorem C88_exact_fit (e : Env C K) (ctl : Controls C K) (f : NormFit K) (s s' : State C K) (x d : List K)
    (h : normDifference e ctl f s x = .ok (s', d)) :
    d.length = e.nx * e.ny ∧ s'.tokamak = ctl.set s.tokamak x ∧ s'.plasmaPsi = s.plasmaPsi ∧
    ∃ a b, a ≠ b ∧ s'.psiAxis = some a ∧ s'.psiBndry = some b ∧ ((∀ v ∈ d, v = 0) ↔ Fitted e.nx e.ny f (psi e s') a b) := by
  obtain ⟨hu, a, b, h1, h2, h3, rfl⟩ := normDifference_ok h
  obtain ⟨f1, f2, -⟩ := updateBoundary_frame hu
  have hp : psi e s' = psi e (withCurrents ctl s x) := by
    funext c; simp only [psi, f1, f2]
  refine ⟨by simp [values], f1, f2, a, b, fun hab => h3 (by rw [hab, sub_self]), h1, h2, ?_⟩
  rw [hp]
  exact values_fitted h3

theorem sum_squares_eq_zero [IsStrictOrderedRing K] : ∀ l : List K, 0 ≤ (l.map fun x => x * x).sum ∧
    ((l.map fun x => x * x).sum = 0 ↔ ∀ v ∈ l, v = 0) := by
  intro l
  induction l with
  | nil => simp
  | cons a l ih =>
    obtain ⟨h1, h2⟩ := ih
    have ha := mul_self_nonneg a
    simp only [List.map_cons, List.sum_cons, List.mem_cons, forall_eq_or_imp]
    refine ⟨add_nonneg ha h1, ?_⟩
    rw [add_eq_zero_iff_of_nonneg ha h1, h2, mul_self_eq_zero]

/-- **C88 (`ConstrainPsiNorm2DAdvanced`).** The function that is minimised is never negative, and zero exactly if the flux has the target as its
normalised flux wherever the weight is not zero. -/
theorem C88_exact_fit_advanced [IsStrictOrderedRing K] (e : Env C K) (ctl : Controls C K) (f : NormFit K) (s s' : State C K) (x : List K) (q : K)
    (h : normSquares e ctl f s x = .ok (s', q)) :
    0 ≤ q ∧ s'.tokamak = ctl.set s.tokamak x ∧
    ∃ a b, a ≠ b ∧ s'.psiAxis = some a ∧ s'.psiBndry = some b ∧ (q = 0 ↔ Fitted e.nx e.ny f (psi e s') a b) := by
  rw [normSquares] at h
  cases hd : normDifference e ctl f s x with
  | error err => rw [hd] at h; cases h
  | ok r =>
    obtain ⟨s1, d⟩ := r
    rw [hd] at h
    cases h
    obtain ⟨-, h2, -, a, b, h4, h5, h6, h7⟩ := C88_exact_fit e ctl f s s' x d hd
    obtain ⟨h8, h9⟩ := sum_squares_eq_zero d
    exact ⟨h8, h2, a, b, h4, h5, h6, h9.trans h7⟩

/-! ## Scaling the flux -/

/-- The flux map times `k` plus `c`. -/
def affine (k c : K) (P : Arr K) : Arr K := fun x => k * P x + c

/-- A critical point of the scaled flux. -/
def affinePoint (k c : K) (p : Point K) : Point K := (p.1, p.2.1, k * p.2.2 + c)

/-- The search for critical points, the core mask and the interpolation follow a change of scale and origin of the flux. -/
structure Follows (e : Env C K) (k c : K) : Prop where
  find : ∀ P, e.find (affine k c P) = (e.find P).map fun r => (r.1.map (affinePoint k c), r.2.map (affinePoint k c))
  core : ∀ P opt xpt (b : Option K), e.core (affine k c P) (opt.map (affinePoint k c)) (xpt.map (affinePoint k c)) (b.map fun b => k * b + c) =
    e.core P opt xpt b
  interp : ∀ P R Z, e.interp (affine k c P) R Z = k * e.interp P R Z + c

/-- Same grid, same routines, same kind of boundary; the coils may differ. -/
structure SameTools (e e' : Env C K) : Prop where
  nx : e'.nx = e.nx
  ny : e'.ny = e.ny
  find : e'.find = e.find
  core : e'.core = e.core
  interp : e'.interp = e.interp
  fixed : e'.fixed = e.fixed

section
variable [IsStrictOrderedRing K]

theorem argmaxLoop_affine {k c : K} (hk : 0 < k) (f : K × K → K) : ∀ (l : List (K × K)) (best : K × K),
    argmaxLoop (fun q => k * f q + c) l best = argmaxLoop f l best := by
  intro l
  induction l with
  | nil => intro best; rfl
  | cons q l ih =>
    intro best
    have : (k * f best + c < k * f q + c) ↔ f best < f q := by
      rw [add_lt_add_iff_right, mul_lt_mul_iff_right₀ hk]
    simp only [argmaxLoop, this, ih]

theorem limiterContact_affine {e e' : Env C K} (he : SameTools e e') {k c : K} (hk : 0 < k) (hf : Follows e k c) (P : Arr K) (pts : List (K × K)) :
    limiterContact e' (affine k c P) pts = (limiterContact e P pts).map fun r => (r.1, k * r.2 + c) := by
  have hi : (fun q : K × K => e'.interp (transpose (affine k c P)) q.1 q.2) = fun q => k * e.interp (transpose P) q.1 q.2 + c := by
    funext q
    rw [he.interp]
    exact hf.interp (transpose P) q.1 q.2
  rw [limiterContact, limiterContact, he.nx, he.ny]
  by_cases h : e.nx ≠ e.ny
  · rw [if_pos h, if_pos h]; rfl
  · rw [if_neg h, if_neg h]
    cases pts with
    | nil => rfl
    | cons q rest =>
      simp only [hi]
      rw [argmaxLoop_affine hk]
      simp only [Except.map, Except.ok.injEq, Prod.mk.injEq, true_and]
      exact congrFun hi _

theorem keptPoints_affine (k c : K) (xpt : List (Point K)) (pts : List (K × K)) :
    keptPoints (xpt.map (affinePoint k c)) pts = keptPoints xpt pts := by
  cases xpt <;> rfl

theorem updateBoundary_affine {e e' : Env C K} (he : SameTools e e') {k c : K} (hk : 0 < k) (hf : Follows e k c) (s s' : State C K) (P : Arr K)
    (hc : s'.checkLimited = s.checkLimited) (ht : e'.limits s'.tokamak = e.limits s.tokamak)
    (h : ∀ opt xpt, e.find P = .ok (opt, xpt) → opt ≠ []) :
    (updateBoundary e' s' (affine k c P)).map (fun s => (s.psiAxis, s.psiBndry)) =
      (updateBoundary e s P).map fun s => (s.psiAxis.map fun v => k * v + c, s.psiBndry.map fun v => k * v + c) := by
  rw [updateBoundary, updateBoundary, he.find, he.core, he.fixed, hf.find]
  cases hfind : e.find P with
  | error err => rfl
  | ok r =>
    obtain ⟨opt, xpt⟩ := r
    simp only [bind, Except.bind, Except.map]
    cases opt with
    | nil => exact absurd rfl (h _ _ hfind)
    | cons o os =>
      simp only [hc, ht, List.map_cons]
      cases hl : (if s.checkLimited then e.limits s.tokamak else none) with
      | none =>
        cases xpt with
        | nil =>
          simp only [List.map_nil]
          by_cases hfx : e.fixed
          · simp [hfx, affinePoint, affine]
          · simp [hfx, affinePoint]
        | cons x xs =>
          simp only [List.map_cons]
          have := hf.core P (o :: os) (x :: xs) none
          simp only [List.map_cons, Option.map_none] at this
          rw [this]
          cases e.core P (o :: os) (x :: xs) none <;> rfl
      | some pts =>
        simp only [keptPoints_affine, limiterContact_affine he hk hf]
        cases limiterContact e P (keptPoints xpt pts) with
        | error err => rfl
        | ok r =>
          cases xpt with
          | nil => rfl
          | cons x xs =>
            simp only [Except.map, List.map_cons]
            have hmax : max (affinePoint k c x).2.2 (k * r.2 + c) = k * max x.2.2 r.2 + c := by
              simp only [affinePoint]
              rw [max_add_add_right, ← mul_max_of_nonneg _ _ hk.le]
            have := hf.core P (o :: os) (x :: xs) (some (max x.2.2 r.2))
            simp only [List.map_cons, Option.map_some] at this
            rw [hmax, this]
            cases e.core P (o :: os) (x :: xs) (some (max x.2.2 r.2)) <;> rfl

theorem residual_affine {k c : K} (hk : k ≠ 0) (nx ny : ℕ) (f : NormFit K) (flux : Arr K) (ab : Option K × Option K) :
    residual nx ny f (affine k c flux) (ab.1.map (fun v => k * v + c), ab.2.map fun v => k * v + c) = residual nx ny f flux ab := by
  obtain ⟨a, b⟩ := ab
  cases a with
  | none => rfl
  | some a =>
    cases b with
    | none => rfl
    | some b =>
      have e1 : k * b + c - (k * a + c) = k * (b - a) := by ring
      simp only [Option.map_some, residual, e1, mul_eq_zero, hk, false_or]
      by_cases h0 : b - a = 0
      · rw [if_pos h0, if_pos h0]
      · rw [if_neg h0, if_neg h0]
        congr 2
        funext x
        have e2 : affine k c flux x - (k * a + c) = k * (flux x - a) := by simp only [affine]; ring
        rw [e2, mul_div_mul_left _ _ hk]

/-- **C88.** Scaling all fluxes by a positive factor and adding a constant does not change the differences: for an equilibrium `s'` whose flux at
the currents `x'` is that of `s` at the currents `x`, scaled and shifted, they are the same. -/
theorem C88_scale_free (e e' : Env C K) (ctl ctl' : Controls C K) (f : NormFit K) (s s' : State C K) (x x' : List K) (k c : K) (hk : 0 < k)
    (hf : Follows e k c) (he : SameTools e e')
    (hp : psi e' (withCurrents ctl' s' x') = affine k c (psi e (withCurrents ctl s x)))
    (hc : s'.checkLimited = s.checkLimited) (ht : e'.limits (ctl'.set s'.tokamak x') = e.limits (ctl.set s.tokamak x))
    (ha : ∀ opt xpt, e.find (psi e (withCurrents ctl s x)) = .ok (opt, xpt) → opt ≠ []) :
    (normDifference e' ctl' f s' x').map Prod.snd = (normDifference e ctl f s x).map Prod.snd := by
  rw [normDifference_map, normDifference_map, hp]
  have h1 := updateBoundary_affine he hk hf (withCurrents ctl s x) (withCurrents ctl' s' x') (psi e (withCurrents ctl s x)) hc ht ha
  rw [h1]
  have h4 : ∀ r : Except Err (State C K), (r.map fun s => (s.psiAxis.map (fun v => k * v + c), s.psiBndry.map fun v => k * v + c)) =
      (r.map fun s => (s.psiAxis, s.psiBndry)).map fun ab => (ab.1.map (fun v => k * v + c), ab.2.map fun v => k * v + c) := by
    intro r; cases r <;> rfl
  rw [h4, he.nx, he.ny]
  cases (updateBoundary e (withCurrents ctl s x) (psi e (withCurrents ctl s x))).map fun s => (s.psiAxis, s.psiBndry) with
  | error err => rfl
  | ok ab => exact residual_affine hk.ne' _ _ _ _ _

end

/-! ## After the fit -/

/-- The optimiser returns currents at which it has just evaluated the function. -/
inductive Search.Confirms {A : Type u} : Search K A → Prop
  | last (x next) : (∀ r, next r = .stop x) → Confirms (.ask x next)
  | ask (x next) : (∀ r, Confirms (next r)) → Confirms (.ask x next)

/-- **C88.** If the optimiser returns currents at which it has evaluated the function last, then after the fit the stored axis and boundary flux
and the core mask are those of the final flux: updating them again changes nothing. Missing: optimisers that try further currents
before they return the best (`C88_stale_boundary`). -/
theorem C88_boundary_partial (e : Env C K) (ctl : Controls C K) (f : NormFit K) (lsq : List K → Search K (List K)) (s s' : State C K) (n : ℕ)
    (ho : ctl.Overwrites n) (hn : (lsq (ctl.get s.tokamak)).Sized n) (hl : (lsq (ctl.get s.tokamak)).Confirms)
    (h : normFit e ctl f lsq s = .ok s') : updateBoundary e s' (psi e s') = .ok s' := by
  rw [normFit] at h
  revert h hn
  generalize lsq (ctl.get s.tokamak) = opt at hl
  have key : ∀ s r : _, opt.Sized n → opt.run (normDifference e ctl f) s = .ok r →
      updateBoundary e { r.1 with tokamak := ctl.set r.1.tokamak r.2 } (psi e { r.1 with tokamak := ctl.set r.1.tokamak r.2 }) =
        .ok { r.1 with tokamak := ctl.set r.1.tokamak r.2 } := by
    induction hl with
    | last x next hs =>
      intro s r hn h
      cases hn with
      | ask _ _ hx _ =>
      rw [Search.run] at h
      cases hd : normDifference e ctl f s x with
      | error err => rw [hd] at h; cases h
      | ok q =>
        obtain ⟨s1, d⟩ := q
        rw [hd] at h
        simp only [hs, Search.run, Except.ok.injEq] at h
        subst h
        obtain ⟨hu, -⟩ := normDifference_ok hd
        obtain ⟨f1, f2, -⟩ := updateBoundary_frame hu
        have ht : ctl.set s1.tokamak x = s1.tokamak := by
          rw [f1]
          exact ho _ _ _ hx hx
        have hs1 : { s1 with tokamak := ctl.set s1.tokamak x } = s1 := by rw [ht]
        simp only [hs1]
        have hp : psi e s1 = psi e (withCurrents ctl s x) := by
          funext c; simp only [psi, f1, f2]
        rw [hp]
        exact updateBoundary_again s1.current s1.jtor hu
    | ask x next _ ih =>
      intro s r hn h
      cases hn with
      | ask _ _ hx hnext =>
      rw [Search.run] at h
      cases hd : normDifference e ctl f s x with
      | error err => rw [hd] at h; cases h
      | ok q =>
        rw [hd] at h
        exact ih q.2 q.1 r (hnext q.2) h
  intro hn h
  cases hr : opt.run (normDifference e ctl f) s with
  | error err => rw [hr] at h; cases h
  | ok r =>
    rw [hr] at h
    cases h
    exact key s r hn hr

/-- All currents the optimiser may return are within the bounds. -/
inductive Search.Ends {A : Type u} (p : List K → Prop) : Search K A → Prop
  | stop (x) : p x → Ends p (.stop x)
  | ask (x next) : (∀ r, Ends p (next r)) → Ends p (.ask x next)

theorem run_ends {A : Type u} {p : List K → Prop} {f : State C K → List K → Except Err (State C K × A)} {opt : Search K A} (h : opt.Ends p) :
    ∀ {s : State C K} {r}, opt.run f s = .ok r → p r.2 := by
  induction h with
  | stop x hx => intro s r h; cases h; exact hx
  | ask x next _ ih =>
    intro s r h
    rw [Search.run] at h
    cases hd : f s x with
    | error err => rw [hd] at h; cases h
    | ok q => rw [hd] at h; exact ih q.2 h

/-- **C65 (`ConstrainPsiNorm2DAdvanced`).** With an optimiser that stays within the bounds when it is started within them, after the fit the
`j`-th controlled current lies between the two numbers of the `j`-th limit, in either order. Missing: as for the other bounded fit, limits
have to be given (`C65_norm_default_limits_fail`). -/
theorem C65_norm_limits_partial (e : Env C K) (ctl : Controls C K) (f : NormFit K) (ls : List (K × K))
    (lbfgs : List K → List (K × K) → Search K K)
    (hopt : ∀ x0 bs, List.Forall₂ Control.Between x0 bs → (lbfgs x0 bs).Ends fun x => List.Forall₂ Control.Between x bs)
    (hget : ∀ t x, x.length = (ctl.get t).length → ctl.get (ctl.set t x) = x)
    (hlen : ∀ t x, (ctl.get (ctl.set t x)).length = (ctl.get t).length)
    (s s' : State C K) (h : normFitAdvanced e ctl f (some ls) lbfgs s = .ok s') :
    (ctl.get s'.tokamak).length = (ctl.get s.tokamak).length ∧
    ∀ (j : ℕ) I, (ctl.get s'.tokamak)[j]? = some I → ∃ lim, ls[j]? = some lim ∧ Control.Between I lim := by
  rw [normFitAdvanced] at h
  cases hst : Control.advancedStart (some ls) (ctl.get s.tokamak) 0 with
  | error err => rw [hst] at h; cases h
  | ok st =>
    rw [hst] at h
    simp only at h
    obtain ⟨h1, h2, h3⟩ := Control.advancedStart_ok ls _ _ _ hst
    cases hr : (lbfgs (st.map Prod.fst) (st.map Prod.snd)).run (normSquares e ctl f) s with
    | error err => rw [hr] at h; cases h
    | ok r =>
      rw [hr] at h
      cases h
      have hf := run_ends (hopt _ _ h1) hr
      have hsz : ∀ (opt : Search K K) (s0 : State C K) (q), opt.run (normSquares e ctl f) s0 = .ok q →
          (ctl.get q.1.tokamak).length = (ctl.get s0.tokamak).length := by
        intro opt
        induction opt with
        | stop x => intro s0 q h; cases h; rfl
        | ask x next ih =>
          intro s0 q h
          rw [Search.run] at h
          cases hd : normSquares e ctl f s0 x with
          | error err => rw [hd] at h; cases h
          | ok q1 =>
            rw [hd] at h
            rw [ih q1.2 q1.1 q h]
            rw [normSquares] at hd
            cases hn : normDifference e ctl f s0 x with
            | error err => rw [hn] at hd; cases hd
            | ok q2 =>
              rw [hn] at hd
              cases hd
              obtain ⟨hu, -⟩ := normDifference_ok hn
              rw [(updateBoundary_frame hu).1]
              exact hlen _ _
      have hl : (ctl.get r.1.tokamak).length = (ctl.get s.tokamak).length := hsz _ _ _ hr
      have hx : r.2.length = (ctl.get s.tokamak).length := by rw [hf.length_eq]; simpa using h2
      have hc : ctl.get (ctl.set r.1.tokamak r.2) = r.2 := hget _ _ (by rw [hl, hx])
      refine ⟨by rw [hc, hx], fun j I hj => ?_⟩
      simp only [hc] at hj
      obtain ⟨hjl, _⟩ := List.getElem?_eq_some_iff.mp hj
      obtain ⟨lim, h4, h5⟩ := h3 j (by omega)
      refine ⟨lim, by simpa using h4, ?_⟩
      have := Control.forall₂_getElem? hf hj h5
      have hle : min lim.1 lim.2 ≤ max lim.1 lim.2 := min_le_max
      simp only [Control.Between] at this ⊢
      rwa [min_eq_left hle, max_eq_right hle] at this

/-- **C65 refuted (default limits, normalised flux).** Without `current_lims` the call raises `TypeError` as soon as there is a controlled coil. -/
theorem C65_norm_default_limits_fail (e : Env C K) (ctl : Controls C K) (f : NormFit K) (lbfgs : List K → List (K × K) → Search K K)
    (s : State C K) (h : ctl.get s.tokamak ≠ []) : normFitAdvanced e ctl f none lbfgs s = .error .type := by
  obtain ⟨a, l, h⟩ := List.exists_cons_of_ne_nil h
  simp [normFitAdvanced, h, Control.advancedStart]

/-! ## The machine of C19 as the controlled machine, and witnesses -/

/-- The machine with its control interface. -/
def machineControls : Controls (Machine K) K := ⟨Machine.controlCurrents, fun m x => m.setControlCurrents x⟩

theorem zipControl_twice : ∀ (cs : List (String × Entry K)) (x y : List K), x.length ≤ y.length →
    Machine.zipControl (fun _ v => v) (Machine.zipControl (fun _ v => v) cs x) y = Machine.zipControl (fun _ v => v) cs y := by
  have hset : ∀ (t : Entry K) (u v : K), (t.setCurrent u).setCurrent v = t.setCurrent v := by
    intro t u v
    cases t with
    | coil c => cases c <;> rfl
    | circuit c =>
      simp only [Entry.setCurrent, Circuit.setCurrent, List.map_map, Entry.circuit.injEq, Circuit.mk.injEq, true_and, and_true]
      refine List.map_congr_left fun z _ => ?_
      obtain ⟨l, c, m⟩ := z
      cases c <;> rfl
    | solenoid s => rfl
  have hctl : ∀ (t : Entry K) (u : K), (t.setCurrent u).control = t.control := by
    intro t u
    cases t with
    | coil c => cases c <;> rfl
    | circuit c => rfl
    | solenoid s => rfl
  intro cs
  induction cs with
  | nil => intros; rfl
  | cons c cs ih =>
    intro x y h
    obtain ⟨l, t⟩ := c
    cases ht : t.control with
    | false => rw [Machine.zipControl_false _ _ _ _ ht, Machine.zipControl_false _ _ _ _ ht, Machine.zipControl_false _ _ _ _ ht, ih x y h]
    | true =>
      cases x with
      | nil => rw [Machine.zipControl_true_nil _ _ _ ht]
      | cons u x =>
        cases y with
        | nil => simp at h
        | cons v y =>
          rw [Machine.zipControl_true_cons _ _ _ _ _ ht, Machine.zipControl_true_cons _ _ _ _ _ ht,
            Machine.zipControl_true_cons _ _ _ _ _ (by rw [hctl]; exact ht), hset, ih x y (by simpa using h)]

/-- The control interface of a machine meets the hypotheses on `ctl`. -/
theorem machineControls_overwrites (n : ℕ) : (machineControls : Controls (Machine K) K).Overwrites n := by
  intro m x y hx hy
  simp only [machineControls, Machine.setControlCurrents]
  rw [zipControl_twice _ _ _ (by omega)]

/-- A tokamak that is its list of currents; the first times the R index, plus the second, is added to the plasma flux, which is the Z index.
The axis is at the corner, the X-point at grid point (1, 1). If the first current is zero there is no O-point. -/
def fitEnv : Env (List ℚ) ℚ :=
  { mu0 := 1, nx := 2, ny := 2, R := fun i => i + 1, Z := fun i => i, coilPsi := fun t c => t.getD 0 0 * c.1 + t.getD 1 0, limits := fun _ => none,
    find := fun P => if P (1, 0) = P (0, 0) then .ok ([], []) else .ok ([(0, 0, P (0, 0))], [(1, 1, P (1, 1))]),
    core := fun _ _ _ _ => .ok fun _ => 1, interp := fun P _ _ => P (0, 0), fixed := false, boundary := fun _ p => .ok p,
    solver := fun _ b => b }

def listControls : Controls (List ℚ) ℚ := ⟨id, fun _ x => x⟩

def fitState : State (List ℚ) ℚ := ⟨[1, 0], fun c => c.2, fun c => c.2, 0, none, false, some 0, some 2, some 2, none, none, false, none⟩

def target : NormFit ℚ := ⟨fun c => (c.1 + c.2 : ℚ) / 2, fun _ => 1⟩

/-- Hypotheses of C88_history_free_partial, C88_boundary_partial and C65_norm_limits_partial are met by the list of currents. -/
example : listControls.Overwrites 2 ∧ (∀ t x, x.length = (listControls.get t).length → listControls.get (listControls.set t x) = x) :=
  ⟨fun _ _ _ _ _ => rfl, fun _ _ _ => rfl⟩

/-- An optimiser that returns its last trial, and one that stays within the bounds. -/
example : (Search.ask [1, 0] fun _ : List ℚ => .stop [(1 : ℚ), 0]).Confirms ∧ (Search.ask [1, 0] fun _ : List ℚ => .stop [(1 : ℚ), 0]).Sized 2 :=
  ⟨.last _ _ fun _ => rfl, .ask _ _ rfl fun _ => .stop _ rfl⟩

example : ∀ (x0 : List ℚ) bs, List.Forall₂ Control.Between x0 bs →
    (Search.ask x0 fun _ : ℚ => .stop x0).Ends fun x => List.Forall₂ Control.Between x bs := fun _ _ h => .ask _ _ fun _ => .stop _ h

/-- An environment in which there is always an axis. -/
example : HasAxis { fitEnv with find := fun P => .ok ([(0, 0, P (0, 0))], [(1, 1, P (1, 1))]) } listControls 2 fitState := by
  intro x _ opt xpt h
  cases h
  simp

/-- Three times the currents and three times the plasma flux, plus five: the hypotheses of C88_scale_free, and a fit that is not exact. -/
example : Follows { fitEnv with find := fun P => .ok ([(0, 0, P (0, 0))], [(1, 1, P (1, 1))]) } 3 5 :=
  ⟨fun P => rfl, fun P opt xpt b => rfl, fun P R Z => rfl⟩

example : (normDifference fitEnv listControls target fitState [3, 7]).map Prod.snd = .ok [0, -1 / 4, 1 / 4, 0] ∧
    (normDifference fitEnv listControls target fitState [1, 7]).map Prod.snd = .ok [0, 0, 0, 0] ∧
    (normSquares fitEnv listControls target fitState [3, 7]).map Prod.snd = .ok (1 / 8) := by
  decide +kernel

/-- **C88 is false for fluxes without O-point:** the differences are then computed with the axis and boundary flux of whatever was tried before.
The same currents give different values after different trials. -/
theorem C88_history : ∃ (e : Env (List ℚ) ℚ) (ctl : Controls (List ℚ) ℚ) (f : NormFit ℚ) (s s1 s2 : State (List ℚ) ℚ) (x y z d1 d2 : List ℚ),
    ctl.Overwrites 2 ∧ (normDifference e ctl f s y = .ok (s1, d1)) ∧ (normDifference e ctl f s z = .ok (s2, d2)) ∧
    ∃ r1 r2, (normDifference e ctl f s1 x).map Prod.snd = .ok r1 ∧ (normDifference e ctl f s2 x).map Prod.snd = .ok r2 ∧ r1 ≠ r2 := by
  have h1 : ((normDifference fitEnv listControls target fitState [1, 0]).map fun r =>
      (normDifference fitEnv listControls target r.1 [0, 0]).map Prod.snd) = .ok (.ok [0, 0, -1 / 2, -1 / 2]) := by decide +kernel
  have h2 : ((normDifference fitEnv listControls target fitState [3, 0]).map fun r =>
      (normDifference fitEnv listControls target r.1 [0, 0]).map Prod.snd) = .ok (.ok [0, -1 / 4, -1 / 2, -3 / 4]) := by decide +kernel
  cases e1 : normDifference fitEnv listControls target fitState [1, 0] with
  | error err => rw [e1] at h1; cases h1
  | ok r1 =>
    cases e2 : normDifference fitEnv listControls target fitState [3, 0] with
    | error err => rw [e2] at h2; cases h2
    | ok r2 =>
      rw [e1] at h1; rw [e2] at h2
      simp only [Except.map, Except.ok.injEq] at h1 h2
      exact ⟨fitEnv, listControls, target, fitState, r1.1, r2.1, [0, 0], [1, 0], [3, 0], r1.2, r2.2, fun _ _ _ _ _ => rfl, e1, e2, _, _,
        h1, h2, by decide +kernel⟩

/-- **C88 is false for optimisers that try further currents before they return:** the boundary flux stored after the fit is that of the last
trial, not that of the flux with the final currents. -/
theorem C88_stale_boundary : ∃ (e : Env (List ℚ) ℚ) (ctl : Controls (List ℚ) ℚ) (f : NormFit ℚ) (lsq : List ℚ → Search ℚ (List ℚ))
    (s s' s'' : State (List ℚ) ℚ), normFit e ctl f lsq s = .ok s' ∧ updateBoundary e s' (psi e s') = .ok s'' ∧
      s'.psiBndry = some 4 ∧ s''.psiBndry = some 2 := by
  have h : ((normFit fitEnv listControls target (fun _ => .ask [1, 0] fun _ => .ask [3, 0] fun _ => .stop [1, 0]) fitState).map fun s' =>
      (s'.psiBndry, (updateBoundary fitEnv s' (psi fitEnv s')).map fun s'' => s''.psiBndry)) = .ok (some 4, .ok (some 2)) := by
    decide +kernel
  cases e1 : normFit fitEnv listControls target (fun _ => .ask [1, 0] fun _ => .ask [3, 0] fun _ => .stop [1, 0]) fitState with
  | error err => rw [e1] at h; cases h
  | ok s' =>
    rw [e1] at h
    simp only [Except.map, Except.ok.injEq, Prod.mk.injEq] at h
    cases e2 : updateBoundary fitEnv s' (psi fitEnv s') with
    | error err => rw [e2] at h; cases h.2
    | ok s'' =>
      rw [e2] at h
      simp only [Except.ok.injEq] at h
      exact ⟨_, _, _, _, _, s', s'', e1, e2, h.1, h.2⟩

end FreeGS.Equil
