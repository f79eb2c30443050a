import Verif.Spec.Scaling
import Verif.Lemmas.Jtor
import Verif.Lemmas.Global

/-!
# Lemmas about scaled equilibria
-/

set_option linter.unusedSectionVars false

namespace FreeGS.Equil

open FreeGS.GS FreeGS.Critical FreeGS.Jtor

universe u
variable {K : Type u} [Field K] [LinearOrder K] [IsStrictOrderedRing K] {C : Type u}

theorem keptPoints_scaled (k : K) (xpt : List (Point K)) (pts : List (K × K)) : keptPoints (xpt.map (timesPoint k)) pts = keptPoints xpt pts := by
  cases xpt <;> rfl

theorem argmaxLoop_scaled {k : K} (hk : 0 < k) {f g : K × K → K} (h : ∀ q, g q = k * f q) : ∀ l b, argmaxLoop g l b = argmaxLoop f l b
  | [], _ => rfl
  | q :: l, b => by
    simp only [argmaxLoop, h, mul_lt_mul_iff_right₀ hk]
    exact argmaxLoop_scaled hk h l _

theorem limiterContact_scaled {k : K} {tok : C → C} {e e' : Env C K} (hs : Scales k tok e e') (hk : 0 < k) {P : Arr K}
    {pts : List (K × K)} {q : K × K} {v : K} (h : limiterContact e P pts = .ok (q, v)) :
    limiterContact e' (times k P) pts = .ok (q, k * v) := by
  have ht : transpose (times k P) = times k (transpose P) := rfl
  simp only [limiterContact, hs.nx, hs.ny, ht, hs.interp] at h ⊢
  split at h
  · cases h
  · rename_i hn
    rw [if_neg hn]
    cases pts with
    | nil => cases h
    | cons p pts =>
      simp only [Except.ok.injEq, Prod.mk.injEq] at h ⊢
      rw [argmaxLoop_scaled hk (f := fun q : K × K => e.interp (transpose P) q.1 q.2) (fun q => rfl)]
      exact ⟨h.1, by rw [h.2]⟩

theorem max_scaled {k : K} (hk : 0 < k) (a b : K) : max (k * a) (k * b) = k * max a b := (mul_max_of_nonneg a b hk.le).symm

theorem updateBoundary_scaled {k : K} (hk0 : k ≠ 0) {tok : C → C} {e e' : Env C K} (hs : Scales k tok e e') {s s' : State C K} {P : Arr K}
    (hk : 0 < k ∨ s.checkLimited = false) (h : updateBoundary e s P = .ok s') :
    s'.checkLimited = s.checkLimited ∧ updateBoundary e' (scaled k tok s) (times k P) = .ok (scaled k tok s') := by
  obtain ⟨⟨opt, xpt⟩, hf, h⟩ := bind_ok h
  have hf' := hs.find _ _ _ hf
  simp only [updateBoundary, hf', bind, Except.bind]
  cases opt with
  | nil => simp only at h; cases h; exact ⟨rfl, rfl⟩
  | cons o os =>
    simp only [List.map_cons] at h ⊢
    have hl : (if (scaled k tok s).checkLimited = true then e'.limits (scaled k tok s).tokamak else none) =
        if s.checkLimited = true then e.limits s.tokamak else none := by
      simp only [scaled, hs.limits]
    simp only [hl]
    cases hlim : (if s.checkLimited = true then e.limits s.tokamak else none) with
    | some pts =>
      have hk : 0 < k := by
        rcases hk with hk | hk
        · exact hk
        · rw [hk] at hlim; simp at hlim
      simp only [hlim] at h
      obtain ⟨⟨q, v⟩, hq, h⟩ := bind_ok h
      simp only [keptPoints_scaled, limiterContact_scaled hs hk hq]
      cases xpt with
      | nil => simp only at h; cases h; exact ⟨rfl, rfl⟩
      | cons x xs =>
        simp only [List.map_cons] at h ⊢
        obtain ⟨m, hm, h⟩ := bind_ok h
        have hm' := hs.core _ _ _ _ _ hm
        simp only [List.map_cons, Option.map_some] at hm'
        have h1 : max (timesPoint k x).2.2 (k * v) = k * max x.2.2 v := max_scaled hk _ _
        simp only [h1, hm']
        cases h
        refine ⟨rfl, ?_⟩
        simp only [scaled, Option.map_some, Except.ok.injEq, State.mk.injEq, timesPoint, mul_right_inj' hk0, and_self]
    | none =>
      simp only [hlim] at h
      cases xpt with
      | nil =>
        simp only at h ⊢
        cases h
        refine ⟨rfl, ?_⟩
        simp only [hs.fixed, List.map_nil, scaled, Except.ok.injEq, State.mk.injEq, true_and, and_true, Option.map_some, timesPoint]
        split <;> rfl
      | cons x xs =>
        simp only [List.map_cons] at h ⊢
        obtain ⟨m, hm, h⟩ := bind_ok h
        have hm' := hs.core _ _ _ _ _ hm
        simp only [List.map_cons, Option.map_none] at hm'
        simp only [hm']
        cases h
        exact ⟨rfl, rfl⟩

theorem psi_scaled {k : K} {tok : C → C} {e e' : Env C K} (hs : Scales k tok e e') (s : State C K) :
    psi e' (scaled k tok s) = times k (psi e s) := by
  funext c
  show k * s.plasmaPsi c + e'.coilPsi (tok s.tokamak) c = k * (s.plasmaPsi c + e.coilPsi s.tokamak c)
  rw [hs.coils, mul_add]
  rfl

theorem integrate_scaled {k : K} {nx ny : ℕ} {R Z : ℕ → K} {a : Arr K} {I : K} (h : integrate nx ny R Z a = .ok I) :
    integrate nx ny R Z (times k a) = .ok (k * I) := by
  obtain ⟨v, hv, h⟩ := bind_ok h
  have h1 : romb2 nx ny (times k a) = .ok (k * v) := by
    rw [show times k a = fun c => k * a c from rfl, Global.romb2_smul, hv]
    rfl
  cases h
  simp only [integrate, h1, bind, Except.bind, Except.ok.injEq]
  ring

theorem setEdge_scaled (k : K) (nx ny : ℕ) (a f : Arr K) : setEdge nx ny (times k a) (times k f) = times k (setEdge nx ny a f) := by
  funext c
  simp only [setEdge, times]
  split_ifs <;> rfl

theorem updatePlasmaPsi_scaled {k : K} (hk0 : k ≠ 0) {tok : C → C} {e e' : Env C K} (hs : Scales k tok e e') {s s' : State C K} {Q : Arr K}
    (hk : 0 < k ∨ s.checkLimited = false) (h : updatePlasmaPsi e s Q = .ok s') :
    s'.checkLimited = s.checkLimited ∧ updatePlasmaPsi e' (scaled k tok s) (times k Q) = .ok (scaled k tok s') := by
  have := updateBoundary_scaled (tok := tok) hk0 hs (s := { s with plasmaPsi := Q, spline := Q }) hk h
  rw [← psi_scaled hs] at this
  exact this

/-- One linear solve of the scaled equilibrium. -/
theorem solve_scaled {k : K} (hk0 : k ≠ 0) {tok : C → C} {e e' : Env C K} (hs : Scales k tok e e') {profiles profiles' : Profiles C K}
    (hp : ProfilesScale k tok profiles profiles') {s s' : State C K} {given psi0 : Option (Arr K)} {b : Option K}
    (hk : 0 < k ∨ s.checkLimited = false) (h : solve e profiles s given psi0 b = .ok s') :
    s'.checkLimited = s.checkLimited ∧
    solve e' profiles' (scaled k tok s) (given.map (times k)) (psi0.map (times k)) (b.map (k * ·)) = .ok (scaled k tok s') := by
  obtain ⟨s1, h1, h⟩ := bind_ok h
  obtain ⟨⟨s2, J⟩, h2, h⟩ := bind_ok h
  obtain ⟨edge, h3, h⟩ := bind_ok h
  obtain ⟨s4, h4, h⟩ := bind_ok h
  obtain ⟨I, h5, h⟩ := bind_ok h
  cases h
  obtain ⟨c1, u1⟩ := updateBoundary_scaled hk0 hs hk h1
  have hk1 : 0 < k ∨ s1.checkLimited = false := by rw [c1]; exact hk
  obtain ⟨c2, u2⟩ : s2.checkLimited = s1.checkLimited ∧ density e' profiles' (scaled k tok s1) (given.map (times k)) (psi0.map (times k))
      (b.map (k * ·)) = .ok (scaled k tok s2, times k J) := by
    cases given with
    | some g => cases h2; exact ⟨rfl, rfl⟩
    | none =>
      have := hp _ _ _ _ _ hk1 h2
      simp only [density, Option.map_none]
      rw [psi_scaled hs]
      have hg : ∀ x : Arr K, (psi0.map (times k)).getD (times k x) = times k (psi0.getD x) := by
        intro x; cases psi0 <;> rfl
      rw [hg]
      exact this
  have hk2 : 0 < k ∨ s2.checkLimited = false := by rw [c2]; exact hk1
  have u3 := hs.boundary _ _ _ h3
  obtain ⟨c4, u4⟩ := updatePlasmaPsi_scaled (tok := tok) hk0 hs (by exact hk2) h4
  refine ⟨by rw [← c1, ← c2]; exact c4, ?_⟩
  have hrhs : e'.solver (times k edge) (setEdge e'.nx e'.ny (fun c => -e'.mu0 * e'.R c.1 * times k J c) (times k edge)) =
      times k (e.solver edge (setEdge e.nx e.ny (fun c => -e.mu0 * e.R c.1 * J c) edge)) := by
    rw [← hs.solver, ← setEdge_scaled, hs.nx, hs.ny, hs.mu0, hs.R]
    congr 2
    funext c
    simp only [times]; ring
  have e1 : (scaled k tok s2).plasmaPsi = times k s2.plasmaPsi := rfl
  have e2 : ({ scaled k tok s2 with plasmaPsi := times k edge } : State C K) = scaled k tok { s2 with plasmaPsi := edge } := rfl
  have u5 := integrate_scaled (k := k) h5
  simp only [solve, psi_scaled hs, u1, bind, Except.bind, u2, e1, u3, hrhs, e2, u4]
  rw [hs.nx, hs.ny, hs.R, hs.Z, u5]
  rfl

/-! ## Profiles -/

/-- The plasma with `k` times the flux. -/
def scaledPlasma (k : K) (pl : Plasma K) : Plasma K := ⟨k * pl.psiAxis, k * pl.psiBndry, pl.mask⟩

theorem locate_scaled {k : K} {opt xpt : List (Point K)} {core core' : Option K → Except Err (Arr K)} {p00 : K} {b : Option K} {pl : Plasma K}
    (hc : ∀ b m, core b = .ok m → core' (b.map (k * ·)) = .ok m) (h : locate opt xpt core p00 b = .ok pl) :
    locate (opt.map (timesPoint k)) (xpt.map (timesPoint k)) core' (k * p00) (b.map (k * ·)) = .ok (scaledPlasma k pl) := by
  cases opt with
  | nil => cases h
  | cons o os =>
    cases b with
    | some v =>
      obtain ⟨m, hm, h⟩ := bind_ok h
      have := hc _ _ hm
      cases h
      simp only [Option.map_some] at this
      simp only [locate, List.map_cons, Option.map_some, this, bind, Except.bind]
      rfl
    | none =>
      cases xpt with
      | nil => cases h; rfl
      | cons x xs =>
        obtain ⟨m, hm, h⟩ := bind_ok h
        have := hc _ _ hm
        cases h
        simp only [Option.map_none] at this
        simp only [locate, List.map_cons, Option.map_none, this, bind, Except.bind]
        rfl

theorem norm_scaled {k : K} (hk : k ≠ 0) (pl : Plasma K) (P : Arr K) : (scaledPlasma k pl).norm (times k P) = pl.norm P := by
  funext c
  simp only [Plasma.norm, scaledPlasma, times, ← mul_sub]
  exact mul_div_mul_left _ _ hk

theorem masked_scaled (k : K) (pl : Plasma K) (a : Arr K) : (scaledPlasma k pl).masked a = pl.masked a := rfl

theorem masked_times (k : K) (pl : Plasma K) (a : Arr K) : pl.masked (times k a) = times k (pl.masked a) := by
  simp only [Plasma.masked]
  cases pl.mask with
  | none => rfl
  | some m => funext c; simp only [times]; ring

theorem shapeArray_scaled {k : K} (hk : k ≠ 0) (pow : K → K → K) (p : Params K) (pl : Plasma K) (P : Arr K) :
    shapeArray pow (scaledParams k p) (scaledPlasma k pl) (times k P) = shapeArray pow p pl P := by
  simp only [shapeArray, norm_scaled hk, masked_scaled]
  rfl

theorem finish_scaled {k : K} (hk : k ≠ 0) {pow : K → K → K} {nx ny : ℕ} {R Z : ℕ → K} {p : Params K} {pl : Plasma K} {P J : Arr K} {LB : K}
    {c : Consts K} (h : finish pow nx ny R Z p pl P LB = .ok (J, c)) :
    finish pow nx ny R Z (scaledParams k p) (scaledPlasma k pl) (times k P) (k * LB) =
      .ok (times k J, ⟨k * c.L, c.Beta0, k * c.psiBndry, k * c.psiAxis⟩) := by
  simp only [finish, shapeArray_scaled hk] at h ⊢
  obtain ⟨IR, h1, h⟩ := bind_ok h
  obtain ⟨I_R, h2, h⟩ := bind_ok h
  have e1 : (scaledParams k p).Raxis = p.Raxis := rfl
  have e2 : (scaledParams k p).Ip = k * p.Ip := rfl
  simp only [e1, e2, h1, h2, bind, Except.bind]
  split at h
  · cases h
  · rename_i h0
    rw [if_neg h0]
    split at h
    · cases h
    · rename_i hL
      have eL : k * p.Ip / I_R - k * LB * (IR / I_R - 1) = k * (p.Ip / I_R - LB * (IR / I_R - 1)) := by ring
      rw [eL, if_neg (mul_ne_zero hk hL)]
      cases h
      simp only [Except.ok.injEq, Prod.mk.injEq, Consts.mk.injEq, true_and, scaledPlasma, and_true, mul_div_mul_left _ _ hk]
      funext c
      simp only [times]
      ring

theorem divisible_scaled {k : K} (hk : k ≠ 0) (nx : ℕ) (R : ℕ → K) (p : Params K) (pl : Plasma K) :
    divisible nx R (scaledParams k p) (scaledPlasma k pl) = divisible nx R p pl := by
  have : (k * pl.psiBndry - k * pl.psiAxis ≠ 0) = (pl.psiBndry - pl.psiAxis ≠ 0) := by
    rw [← mul_sub]; simp [hk]
  simp only [divisible, scaledPlasma, this]
  rfl

theorem jtorPaxis_scaled {k : K} (hk : k ≠ 0) {quad : (K → K) → K → K → K} {pow : K → K → K} {nx ny : ℕ} {R Z : ℕ → K} {p : Params K}
    {paxis : K} {pl : Plasma K} {P J : Arr K} {c : Consts K} (h : jtorPaxis quad pow nx ny R Z p paxis pl P = .ok (J, c)) :
    jtorPaxis quad pow nx ny R Z (scaledParams k p) (k ^ 2 * paxis) (scaledPlasma k pl) (times k P) =
      .ok (times k J, ⟨k * c.L, c.Beta0, k * c.psiBndry, k * c.psiAxis⟩) := by
  simp only [jtorPaxis, divisible_scaled hk] at h ⊢
  have e1 : (scaledParams k p).Raxis = p.Raxis := rfl
  have e2 : (scaledParams k p).am = p.am := rfl
  have e3 : (scaledParams k p).an = p.an := rfl
  have e4 : quad (shape pow p.am p.an) 0 1 * (k * pl.psiBndry - k * pl.psiAxis) =
      k * (quad (shape pow p.am p.an) 0 1 * (pl.psiBndry - pl.psiAxis)) := by ring
  simp only [e1, e2, e3]
  simp only [scaledPlasma, e4]
  split at h
  · rename_i hd
    rw [if_pos hd]
    split at h
    · cases h
    · rename_i h0
      rw [if_neg (mul_ne_zero hk h0)]
      have e5 : -(k ^ 2 * paxis) * p.Raxis / (k * (quad (shape pow p.am p.an) 0 1 * (pl.psiBndry - pl.psiAxis))) =
          k * (-paxis * p.Raxis / (quad (shape pow p.am p.an) 0 1 * (pl.psiBndry - pl.psiAxis))) := by
        field_simp
      rw [e5]
      exact finish_scaled hk h
  · cases h

theorem jtorBetap_scaled {k : K} (hk : k ≠ 0) {quad : (K → K) → K → K → K} {pow : K → K → K} {mu0 : K} {nx ny : ℕ} {R Z : ℕ → K}
    {p : Params K} {betap : K} {pl : Plasma K} {Br Bz P J : Arr K} {c : Consts K}
    (h : jtorBetap quad pow mu0 nx ny R Z p betap pl Br Bz P = .ok (J, c)) :
    jtorBetap quad pow mu0 nx ny R Z (scaledParams k p) betap (scaledPlasma k pl) (times k Br) (times k Bz) (times k P) =
      .ok (times k J, ⟨k * c.L, c.Beta0, k * c.psiBndry, k * c.psiAxis⟩) := by
  simp only [jtorBetap, divisible_scaled hk] at h ⊢
  split at h
  · rename_i hd
    rw [if_pos hd]
    obtain ⟨pInt, h1, h⟩ := bind_ok h
    obtain ⟨bInt, h2, h⟩ := bind_ok h
    have e1 : pfunc quad pow nx ny (scaledParams k p) (scaledPlasma k pl) (times k P) = times k (pfunc quad pow nx ny p pl P) := by
      rw [pfunc, norm_scaled hk, masked_scaled, pfunc, ← masked_times]
      congr 1
      funext c
      simp only [times, scaledPlasma, scaledParams, mul_ite, mul_zero]
      congr 1
      ring
    have e2 : (scaledPlasma k pl).masked (fun c => times k Br c ^ 2 + times k Bz c ^ 2) =
        times (k ^ 2) (pl.masked fun c => Br c ^ 2 + Bz c ^ 2) := by
      rw [masked_scaled, ← masked_times]
      congr 1
      funext c
      simp only [times]; ring
    have e3 : ∀ (k : K) (a : Arr K), (fun c : ℕ × ℕ => times k a c * R c.1) = times k fun c => a c * R c.1 := by
      intro k a; funext c; simp only [times]; ring
    simp only [e1, e2, e3, integrate_scaled h1, integrate_scaled h2, bind, Except.bind]
    split at h
    · cases h
    · rename_i h0
      rw [if_neg (mul_ne_zero hk h0)]
      have e5 : k ^ 2 * bInt / (k * pInt) * (-betap * (scaledParams k p).Raxis) / (2 * mu0) =
          k * (bInt / pInt * (-betap * p.Raxis) / (2 * mu0)) := by
        have : k ^ 2 * bInt / (k * pInt) = k * (bInt / pInt) := by field_simp
        rw [this, show (scaledParams k p).Raxis = p.Raxis from rfl]
        ring
      rw [e5]
      exact finish_scaled hk h
  · cases h

end FreeGS.Equil

/-! ## Picard iteration -/

namespace FreeGS.Picard

variable {K : Type*} [Field K] [LinearOrder K] [IsStrictOrderedRing K] {S : Type*}

theorem foldl_max_pos {k : K} (hk : 0 < k) : ∀ (l : List K) (x : K), (l.map (k * ·)).foldl max (k * x) = k * l.foldl max x
  | [], _ => rfl
  | y :: l, x => by
    simp only [List.map_cons, List.foldl_cons, ← mul_max_of_nonneg _ _ hk.le]
    exact foldl_max_pos hk l _

theorem foldl_min_pos {k : K} (hk : 0 < k) : ∀ (l : List K) (x : K), (l.map (k * ·)).foldl min (k * x) = k * l.foldl min x
  | [], _ => rfl
  | y :: l, x => by
    simp only [List.map_cons, List.foldl_cons, ← mul_min_of_nonneg _ _ hk.le]
    exact foldl_min_pos hk l _

theorem foldl_max_neg {k : K} (hk : k < 0) : ∀ (l : List K) (x : K), (l.map (k * ·)).foldl max (k * x) = k * l.foldl min x
  | [], _ => rfl
  | y :: l, x => by
    have : max (k * x) (k * y) = k * min x y := by
      rcases le_total x y with h | h
      · rw [min_eq_left h, max_eq_left (mul_le_mul_of_nonpos_left h hk.le)]
      · rw [min_eq_right h, max_eq_right (mul_le_mul_of_nonpos_left h hk.le)]
    simp only [List.map_cons, List.foldl_cons, this]
    exact foldl_max_neg hk l _

theorem foldl_min_neg {k : K} (hk : k < 0) : ∀ (l : List K) (x : K), (l.map (k * ·)).foldl min (k * x) = k * l.foldl max x
  | [], _ => rfl
  | y :: l, x => by
    have : min (k * x) (k * y) = k * max x y := by
      rcases le_total x y with h | h
      · rw [max_eq_right h, min_eq_right (mul_le_mul_of_nonpos_left h hk.le)]
      · rw [max_eq_left h, min_eq_left (mul_le_mul_of_nonpos_left h hk.le)]
    simp only [List.map_cons, List.foldl_cons, this]
    exact foldl_min_neg hk l _

theorem spread_scaled {k : K} (hk : k ≠ 0) (l : List K) : amax (l.map (k * ·)) - amin (l.map (k * ·)) = |k| * (amax l - amin l) := by
  cases l with
  | nil => simp [amax, amin]
  | cons x l =>
    simp only [amax, amin, List.map_cons]
    rcases lt_or_gt_of_ne hk with h | h
    · rw [foldl_max_neg h, foldl_min_neg h, abs_of_neg h]; ring
    · rw [foldl_max_pos h, foldl_min_pos h, abs_of_pos h]; ring

theorem maxChange_scaled {k : K} (hk : k ≠ 0) (a b : List K) : maxChange (a.map (k * ·)) (b.map (k * ·)) = |k| * maxChange a b := by
  have h : List.zipWith (fun x y => |x - y|) (a.map (k * ·)) (b.map (k * ·)) = (List.zipWith (fun x y => |x - y|) a b).map (|k| * ·) := by
    rw [List.zipWith_map, List.map_zipWith]
    congr 1
    funext x y
    rw [← mul_sub, abs_mul]
  rw [maxChange, h, maxChange]
  cases List.zipWith (fun x y => |x - y|) a b with
  | nil => simp [amax]
  | cons x l => exact foldl_max_pos (abs_pos.mpr hk) l x

theorem relChange_scaled {k : K} (hk : k ≠ 0) (c : K) (l : List K) : relChange (|k| * c) (l.map (k * ·)) = relChange c l := by
  have h := abs_ne_zero.mpr hk
  simp only [relChange, spread_scaled hk, mul_eq_zero, h, false_or, mul_div_mul_left _ _ h]

theorem relOk_scaled {k : K} (hk : k ≠ 0) (c : K) (l : List K) (rtol : K) : relOk (|k| * c) (l.map (k * ·)) rtol = relOk c l rtol := by
  have h := abs_ne_zero.mpr hk
  simp only [relOk, spread_scaled hk, ne_eq, mul_eq_zero, h, false_or, mul_div_mul_left _ _ h]

/-- The second environment does to the states changed by `T` what the first does to the others. -/
structure Follows (k : K) (T : S → S) (ok : Bool → Prop) (e e' : Env S K) : Prop where
  adjust : ∀ s s', e.adjust s = .ok s' → e'.adjust (T s) = .ok (T s')
  psi : ∀ s, e'.psi (T s) = (e.psi s).map (k * ·)
  solve : ∀ s cl p b s', ok cl → e.solve s cl p b = .ok s' → e'.solve (T s) cl (p.map (k * ·)) (b.map (k * ·)) = .ok (T s')
  bndry : ∀ s, e'.bndry (T s) = (e.bndry s).map (k * ·)
  limited : ∀ s, e'.limited (T s) = e.limited s

/-- The local variables of the second run. -/
def Vars.follow (k : K) (T : S → S) (v : Vars S K) : Vars S K :=
  ⟨T v.eq, v.psi.map (k * ·), v.iteration, k * v.bndry, v.bndryChange.map (k * ·), v.hasBeenLimited, v.hist.map fun p => (|k| * p.1, p.2)⟩

def Outcome.follow (k : K) (T : S → S) : Outcome S K → Outcome S K
  | .done s h => .done (T s) (h.map fun p => (|k| * p.1, p.2))
  | .more v => .more (v.follow k T)

theorem body_follows {k : K} (hk : k ≠ 0) {T : S → S} {ok : Bool → Prop} {e e' : Env S K} (hf : Follows k T ok e e') (o : Opts K)
    (hok : ok false ∧ (o.checkLimited = true → ok true)) (v : Vars S K) (r : Outcome S K) (h : body e o v = .ok r) :
    body e' { o with atol := |k| * o.atol, psiBndry := o.psiBndry.map (k * ·) } (v.follow k T) = .ok (r.follow k T) := by
  have hk' := abs_pos.mpr hk
  simp only [body] at h
  split at h
  · cases h
  · rename_i eq hsol
    have hsol' : (if ((decide (o.limitIt ≤ v.iteration) || v.hasBeenLimited) && o.checkLimited) = true then
        e'.solve (T v.eq) true (v.psi.map (k * ·)) ((e.bndry v.eq).map (k * ·)) else
        e'.solve (T v.eq) false (v.psi.map (k * ·)) (o.psiBndry.map (k * ·))) = .ok (T eq) := by
      split at hsol
      · rename_i hc
        rw [if_pos hc]
        exact hf.solve _ _ _ _ _ (hok.2 (by simp only [Bool.and_eq_true] at hc; exact hc.2)) hsol
      · rename_i hc
        rw [if_neg hc]
        exact hf.solve _ _ _ _ _ hok.1 hsol
    have e0 : (v.follow k T).eq = T v.eq := rfl
    have e1 : (v.follow k T).psi = v.psi.map (k * ·) := rfl
    have e2 : (v.follow k T).iteration = v.iteration := rfl
    have e3 : (v.follow k T).bndry = k * v.bndry := rfl
    have e4 : (v.follow k T).bndryChange = v.bndryChange.map (k * ·) := rfl
    have e5 : (v.follow k T).hasBeenLimited = v.hasBeenLimited := rfl
    have e6 : (v.follow k T).hist = v.hist.map fun p => (|k| * p.1, p.2) := rfl
    have hh : ∀ (c : K) (l : List K), (v.hist.map (fun p => (|k| * p.1, p.2)) ++ [(|k| * c, relChange c l)]) =
        (v.hist ++ [(c, relChange c l)]).map fun p => (|k| * p.1, p.2) := by
      intro c l; simp
    have hz : ∀ s, List.zipWith (fun x y => (1 - o.blend) * x + o.blend * y) ((e.psi s).map (k * ·)) (v.psi.map (k * ·)) =
        (List.zipWith (fun x y => (1 - o.blend) * x + o.blend * y) (e.psi s) v.psi).map (k * ·) := by
      intro s
      rw [List.zipWith_map, List.map_zipWith]
      congr 1
      funext x y
      ring
    simp only [body, e0, e1, e2, e3, e4, e5, e6, hf.bndry]
    simp only [hsol', hf.limited, hf.psi, maxChange_scaled hk, relOk_scaled hk, relChange_scaled hk,
      mul_lt_mul_iff_right₀ hk', hf.bndry]
    simp only [hh]
    have fin : ∀ (c c' : Bool) (b b' : K) (bc bc' : Option K) (hl : Bool) (hi : List (K × Option K)), c' = c → b' = k * b → bc' = bc.map (k * ·) →
        (if c = true then .ok (.done eq hi) else
          match e.adjust eq with
          | .error err => .error err
          | .ok eq =>
            match o.maxits with
            | some m =>
              if m ≠ 0 ∧ m < v.iteration + 1 then .error .runtime
              else .ok (.more ⟨eq, List.zipWith (fun x y => (1 - o.blend) * x + o.blend * y) (e.psi eq) v.psi, v.iteration + 1, b, bc, hl, hi⟩)
            | none => .ok (.more ⟨eq, List.zipWith (fun x y => (1 - o.blend) * x + o.blend * y) (e.psi eq) v.psi, v.iteration + 1, b, bc, hl, hi⟩))
          = Except.ok r →
        (if c' = true then .ok (.done (T eq) (hi.map fun p => (|k| * p.1, p.2))) else
          match e'.adjust (T eq) with
          | .error err => .error err
          | .ok eq =>
            match o.maxits with
            | some m =>
              if m ≠ 0 ∧ m < v.iteration + 1 then .error .runtime
              else .ok (.more ⟨eq, List.zipWith (fun x y => (1 - o.blend) * x + o.blend * y) (e'.psi eq) (v.psi.map (k * ·)), v.iteration + 1, b',
                bc', hl, hi.map fun p => (|k| * p.1, p.2)⟩)
            | none => .ok (.more ⟨eq, List.zipWith (fun x y => (1 - o.blend) * x + o.blend * y) (e'.psi eq) (v.psi.map (k * ·)), v.iteration + 1, b',
                bc', hl, hi.map fun p => (|k| * p.1, p.2)⟩))
          = Except.ok (r.follow k T) := by
      rintro c c' b b' bc bc' hl hi rfl rfl rfl h
      split at h
      · rename_i hcond
        rw [if_pos hcond]
        cases h
        rfl
      · rename_i hcond
        rw [if_neg hcond]
        split at h
        · cases h
        · rename_i eq1 hadj
          simp only [hf.adjust _ _ hadj, hf.psi, hz]
          split at h
          · rename_i m hm
            split at h
            · cases h
            · rename_i hit
              rw [if_neg hit]
              cases h
              rfl
          · cases h
            rfl
    revert h
    cases e.bndry eq with
    | some b =>
      apply fin
      · simp only [Option.map_some, ← mul_sub, mul_div_mul_left _ _ hk, ne_eq, mul_eq_zero, hk, false_or, abs_mul, mul_lt_mul_iff_right₀ hk']
      · rfl
      · simp only [Option.map_some, mul_sub]
    | none =>
      apply fin
      · cases v.bndryChange with
        | none => rfl
        | some c => simp only [Option.map_none, Option.map_some, abs_mul, mul_lt_mul_iff_right₀ hk']
      · rfl
      · rfl

theorem loop_follows {k : K} (hk : k ≠ 0) {T : S → S} {ok : Bool → Prop} {e e' : Env S K} (hf : Follows k T ok e e') (o : Opts K)
    (hok : ok false ∧ (o.checkLimited = true → ok true)) : ∀ (fuel : ℕ) (v : Vars S K) (s : S) (hist : List (K × Option K)),
    loop e o fuel v = .ok (some (s, hist)) →
    loop e' { o with atol := |k| * o.atol, psiBndry := o.psiBndry.map (k * ·) } fuel (v.follow k T) =
      .ok (some (T s, hist.map fun p => (|k| * p.1, p.2)))
  | 0, _, _, _, h => by cases h
  | fuel + 1, v, s, hist, h => by
    simp only [loop] at h ⊢
    split at h
    · cases h
    · rename_i eq hi hb
      rw [body_follows hk hf o hok v _ hb]
      cases h
      rfl
    · rename_i v' hb
      rw [body_follows hk hf o hok v _ hb]
      exact loop_follows hk hf o hok fuel v' s hist h

theorem picard_follows {k : K} (hk : k ≠ 0) {T : S → S} {ok : Bool → Prop} {e e' : Env S K} (hf : Follows k T ok e e') (o : Opts K)
    (hok : ok false ∧ (o.checkLimited = true → ok true)) (fuel : ℕ) (s s' : S) (hist : List (K × Option K))
    (h : picard e o fuel s = .ok (some (s', hist))) :
    picard e' { o with atol := |k| * o.atol, psiBndry := o.psiBndry.map (k * ·) } fuel (T s) =
      .ok (some (T s', hist.map fun p => (|k| * p.1, p.2))) := by
  simp only [picard] at h ⊢
  split at h
  · cases h
  · rename_i eq hadj
    have := loop_follows hk hf o hok fuel _ s' hist h
    simp only [Vars.follow, mul_zero, Option.map_none, List.map_nil] at this
    rw [hf.adjust _ _ hadj]
    simp only [hf.psi]
    exact this

end FreeGS.Picard
