import Verif.Lemmas.Resize

/-!
# Lemmas about one linear solve and the profiles in another size
-/

set_option linter.unusedSectionVars false

namespace FreeGS.Equil

open FreeGS.GS FreeGS.Critical FreeGS.Jtor

universe u
variable {K : Type u} [Field K] [LinearOrder K] [IsStrictOrderedRing K] {C : Type u} {l : K}

theorem keptPoints_resize (hl : 0 < l) (xpt : List (Point K)) (pts : List (K × K)) :
    keptPoints (xpt.map (resizePoint l)) (pts.map fun q => (l * q.1, l * q.2)) = (keptPoints xpt pts).map fun q => (l * q.1, l * q.2) := by
  cases xpt with
  | nil => rfl
  | cons x xs =>
    simp only [keptPoints, List.map_cons, List.filter_map]
    congr 2
    funext q
    have : |3 / 4 * (l * x.2.1)| = l * |3 / 4 * x.2.1| := by rw [show 3 / 4 * (l * x.2.1) = l * (3 / 4 * x.2.1) by ring, abs_mul, abs_of_pos hl]
    simp only [Function.comp, resizePoint, this, abs_mul l, abs_of_pos hl, mul_lt_mul_iff_right₀ hl]

theorem argmaxLoop_resize (hl : 0 < l) {f g : K × K → K} (h : ∀ q : K × K, g (l * q.1, l * q.2) = l * f q) : ∀ (ps : List (K × K)) (b : K × K),
    argmaxLoop g (ps.map fun q => (l * q.1, l * q.2)) (l * b.1, l * b.2) = (l * (argmaxLoop f ps b).1, l * (argmaxLoop f ps b).2)
  | [], _ => rfl
  | q :: ps, b => by
    simp only [argmaxLoop, List.map_cons, h, mul_lt_mul_iff_right₀ hl]
    rw [← argmaxLoop_resize hl h ps]
    split <;> rfl

theorem limiterContact_resize {tok : C → C} {e e' : Env C K} (hs : Resizes l tok e e') (hl : 0 < l) {P : Arr K}
    {pts : List (K × K)} {q : K × K} {v : K} (h : limiterContact e P pts = .ok (q, v)) :
    limiterContact e' (times l P) (pts.map fun q => (l * q.1, l * q.2)) = .ok ((l * q.1, l * q.2), l * v) := by
  have ht : transpose (times l P) = times l (transpose P) := rfl
  simp only [limiterContact, hs.nx, hs.ny, ht] at h ⊢
  split at h
  · cases h
  · rename_i hn
    rw [if_neg hn]
    cases pts with
    | nil => cases h
    | cons p pts =>
      simp only [Except.ok.injEq, Prod.mk.injEq, List.map_cons] at h ⊢
      rw [argmaxLoop_resize hl (f := fun q : K × K => e.interp (transpose P) q.1 q.2) (fun q => hs.interp _ _ _)]
      simp only [hs.interp]
      rw [h.2, h.1]
      exact ⟨rfl, rfl⟩

theorem updateBoundary_resize (hl : 0 < l) {tok : C → C} {e e' : Env C K} (hs : Resizes l tok e e') {s s' : State C K} {P : Arr K}
    (h : updateBoundary e s P = .ok s') : updateBoundary e' (resized l tok s) (times l P) = .ok (resized l tok s') := by
  have hl0 := hl.ne'
  obtain ⟨⟨opt, xpt⟩, hf, h⟩ := bind_ok h
  have hf' := hs.find _ _ _ hf
  simp only [updateBoundary, hf', bind, Except.bind]
  cases opt with
  | nil => simp only at h; cases h; rfl
  | cons o os =>
    simp only [List.map_cons] at h ⊢
    have hli : (if (resized l tok s).checkLimited = true then e'.limits (resized l tok s).tokamak else none) =
        (if s.checkLimited = true then e.limits s.tokamak else none).map fun w => w.map fun q => (l * q.1, l * q.2) := by
      simp only [resized, hs.limits]
      split <;> rfl
    simp only [hli]
    cases hlim : (if s.checkLimited = true then e.limits s.tokamak else none) with
    | some pts =>
      simp only [hlim] at h
      obtain ⟨⟨q, v⟩, hq, h⟩ := bind_ok h
      simp only [Option.map_some, keptPoints_resize hl, limiterContact_resize hs hl hq]
      cases xpt with
      | nil => simp only at h; cases h; rfl
      | cons x xs =>
        simp only [List.map_cons] at h ⊢
        obtain ⟨m, hm, h⟩ := bind_ok h
        have hm' := hs.core _ _ _ _ _ hm
        simp only [List.map_cons, Option.map_some] at hm'
        have h1 : max (resizePoint l x).2.2 (l * v) = l * max x.2.2 v := max_scaled hl _ _
        simp only [h1, hm']
        cases h
        simp only [resized, Option.map_some, Except.ok.injEq, State.mk.injEq, resizePoint, mul_right_inj' hl0, and_self]
    | none =>
      simp only [hlim] at h
      simp only [Option.map_none]
      cases xpt with
      | nil =>
        simp only at h ⊢
        cases h
        simp only [hs.fixed, List.map_nil, resized, Except.ok.injEq, State.mk.injEq, true_and, and_true, Option.map_some, resizePoint]
        split <;> rfl
      | cons x xs =>
        simp only [List.map_cons] at h ⊢
        obtain ⟨m, hm, h⟩ := bind_ok h
        have hm' := hs.core _ _ _ _ _ hm
        simp only [List.map_cons, Option.map_none] at hm'
        simp only [hm']
        cases h
        rfl

theorem psi_resize {tok : C → C} {e e' : Env C K} (hs : Resizes l tok e e') (s : State C K) : psi e' (resized l tok s) = times l (psi e s) := by
  funext c
  show l * s.plasmaPsi c + e'.coilPsi (tok s.tokamak) c = l * (s.plasmaPsi c + e.coilPsi s.tokamak c)
  rw [hs.coils, mul_add]
  rfl

theorem integrate_resize {k : K} {nx ny : ℕ} {R Z R' Z' : ℕ → K} (hR : ∀ i, R' i = l * R i) (hZ : ∀ j, Z' j = l * Z j) {a : Arr K} {I : K}
    (h : integrate nx ny R Z a = .ok I) : integrate nx ny R' Z' (times k a) = .ok (l ^ 2 * k * I) := by
  obtain ⟨v, hv, h⟩ := bind_ok h
  have h1 : romb2 nx ny (times k a) = .ok (k * v) := by
    rw [show times k a = fun c => k * a c from rfl, Global.romb2_smul, hv]
    rfl
  cases h
  simp only [integrate, h1, bind, Except.bind, Except.ok.injEq, hR, hZ]
  ring

theorem updatePlasmaPsi_resize (hl : 0 < l) {tok : C → C} {e e' : Env C K} (hs : Resizes l tok e e') {s s' : State C K} {Q : Arr K}
    (h : updatePlasmaPsi e s Q = .ok s') : updatePlasmaPsi e' (resized l tok s) (times l Q) = .ok (resized l tok s') := by
  have := updateBoundary_resize (tok := tok) hl hs (s := { s with plasmaPsi := Q, spline := Q }) h
  rw [← psi_resize hs] at this
  exact this

/-- One linear solve in the other size. -/
theorem solve_resize (hl : 0 < l) {tok : C → C} {e e' : Env C K} (hs : Resizes l tok e e') {profiles profiles' : Profiles C K}
    (hp : ProfilesResize l tok profiles profiles') {s s' : State C K} {given psi0 : Option (Arr K)} {b : Option K}
    (h : solve e profiles s given psi0 b = .ok s') :
    solve e' profiles' (resized l tok s) (given.map (times (1 / l ^ 2))) (psi0.map (times l)) (b.map (l * ·)) = .ok (resized l tok s') := by
  have hl0 := hl.ne'
  obtain ⟨s1, h1, h⟩ := bind_ok h
  obtain ⟨⟨s2, J⟩, h2, h⟩ := bind_ok h
  obtain ⟨edge, h3, h⟩ := bind_ok h
  obtain ⟨s4, h4, h⟩ := bind_ok h
  obtain ⟨I, h5, h⟩ := bind_ok h
  cases h
  have u1 := updateBoundary_resize hl hs h1
  have u2 : density e' profiles' (resized l tok s1) (given.map (times (1 / l ^ 2))) (psi0.map (times l))
      (b.map (l * ·)) = .ok (resized l tok s2, times (1 / l ^ 2) J) := by
    cases given with
    | some g => cases h2; rfl
    | none =>
      have := hp _ _ _ _ _ h2
      simp only [density, Option.map_none]
      rw [psi_resize hs]
      have hg : ∀ x : Arr K, (psi0.map (times l)).getD (times l x) = times l (psi0.getD x) := by
        intro x; cases psi0 <;> rfl
      rw [hg]
      exact this
  have u3 := hs.boundary _ _ _ h3
  have u4 := updatePlasmaPsi_resize (tok := tok) hl hs h4
  have hrhs : e'.solver (times l edge) (setEdge e'.nx e'.ny (fun c => -e'.mu0 * e'.R c.1 * times (1 / l ^ 2) J c) (times l edge)) =
      times l (e.solver edge (setEdge e.nx e.ny (fun c => -e.mu0 * e.R c.1 * J c) edge)) := by
    rw [← hs.solver, hs.nx, hs.ny, hs.mu0]
    congr 2
    funext c
    simp only [times, hs.R]
    field_simp
  have e1 : (resized l tok s2).plasmaPsi = times l s2.plasmaPsi := rfl
  have e2 : ({ resized l tok s2 with plasmaPsi := times l edge } : State C K) = resized l tok { s2 with plasmaPsi := edge } := rfl
  have u5 := integrate_resize (k := 1 / l ^ 2) hs.R hs.Z h5
  have e3 : l ^ 2 * (1 / l ^ 2) * I = I := by field_simp
  simp only [solve, psi_resize hs, u1, bind, Except.bind, u2, e1, u3, hrhs, e2, u4]
  rw [hs.nx, hs.ny, u5, e3]
  rfl

/-! ## Profiles -/

theorem locate_resize {opt xpt : List (Point K)} {core core' : Option K → Except Err (Arr K)} {p00 : K} {b : Option K} {pl : Plasma K}
    (hc : ∀ b m, core b = .ok m → core' (b.map (l * ·)) = .ok m) (h : locate opt xpt core p00 b = .ok pl) :
    locate (opt.map (resizePoint l)) (xpt.map (resizePoint l)) core' (l * p00) (b.map (l * ·)) = .ok (scaledPlasma l pl) := by
  cases opt with
  | nil => cases h
  | cons o os =>
    cases b with
    | some v =>
      obtain ⟨m, hm, h⟩ := bind_ok h
      have := hc _ _ hm
      cases h
      simp only [Option.map_some] at this
      simp only [locate, List.map_cons, Option.map_some, this, bind, Except.bind]
      rfl
    | none =>
      cases xpt with
      | nil => cases h; rfl
      | cons x xs =>
        obtain ⟨m, hm, h⟩ := bind_ok h
        have := hc _ _ hm
        cases h
        simp only [Option.map_none] at this
        simp only [locate, List.map_cons, Option.map_none, this, bind, Except.bind]
        rfl

theorem shapeArray_resize (hl : l ≠ 0) (pow : K → K → K) (p : Params K) (pl : Plasma K) (P : Arr K) :
    shapeArray pow (resizedParams l p) (scaledPlasma l pl) (times l P) = shapeArray pow p pl P := by
  simp only [shapeArray, norm_scaled hl, masked_scaled]
  rfl

theorem finish_resize (hl : l ≠ 0) {pow : K → K → K} {nx ny : ℕ} {R Z R' Z' : ℕ → K} (hR : ∀ i, R' i = l * R i) (hZ : ∀ j, Z' j = l * Z j)
    {p : Params K} {pl : Plasma K} {P J : Arr K} {LB : K} {c : Consts K} (h : finish pow nx ny R Z p pl P LB = .ok (J, c)) :
    finish pow nx ny R' Z' (resizedParams l p) (scaledPlasma l pl) (times l P) (LB / l ^ 2) =
      .ok (times (1 / l ^ 2) J, ⟨c.L / l ^ 2, c.Beta0, l * c.psiBndry, l * c.psiAxis⟩) := by
  have hl2 : l ^ 2 ≠ 0 := pow_ne_zero 2 hl
  simp only [finish, shapeArray_resize hl] at h ⊢
  obtain ⟨IR, h1, h⟩ := bind_ok h
  obtain ⟨I_R, h2, h⟩ := bind_ok h
  have e1 : (resizedParams l p).Raxis = l * p.Raxis := rfl
  have e2 : (resizedParams l p).Ip = p.Ip := rfl
  have q1 : ∀ js r ra : K, js * (l * r) / (l * ra) = js * r / ra := fun js r ra => by
    rw [show js * (l * r) = l * (js * r) by ring, mul_div_mul_left _ _ hl]
  have g1 := integrate_resize (k := 1) hR hZ h1
  have g2 := integrate_resize (k := 1) hR hZ h2
  have t1 : ∀ a : Arr K, times 1 a = a := fun a => by funext c; simp [times]
  rw [t1, mul_one] at g1 g2
  simp only [e1, e2, hR, q1, g1, g2, bind, Except.bind]
  split at h
  · cases h
  · rename_i h0
    rw [if_neg (mul_ne_zero hl2 h0)]
    split at h
    · cases h
    · rename_i hL
      have eL : p.Ip / (l ^ 2 * I_R) - LB / l ^ 2 * (l ^ 2 * IR / (l ^ 2 * I_R) - 1) = (p.Ip / I_R - LB * (IR / I_R - 1)) / l ^ 2 := by
        rw [mul_div_mul_left _ _ hl2]
        field_simp
      rw [eL, if_neg (div_ne_zero hL hl2)]
      cases h
      simp only [Except.ok.injEq, Prod.mk.injEq, Consts.mk.injEq, true_and, scaledPlasma, and_true, div_div_div_cancel_right₀ hl2]
      funext c
      have q2 : ∀ a r ra : K, a * (l * r) / (l * ra) = a * r / ra := q1
      simp only [times, q2]
      ring

theorem divisible_resize (hl : l ≠ 0) (nx : ℕ) {R R' : ℕ → K} (hR : ∀ i, R' i = l * R i) (p : Params K) (pl : Plasma K) :
    divisible nx R' (resizedParams l p) (scaledPlasma l pl) = divisible nx R p pl := by
  have : (l * pl.psiBndry - l * pl.psiAxis ≠ 0) = (pl.psiBndry - pl.psiAxis ≠ 0) := by
    rw [← mul_sub]; simp [hl]
  have h2 : ∀ x : K, (l * x ≠ 0) = (x ≠ 0) := fun x => by simp [hl]
  simp only [divisible, scaledPlasma, this, resizedParams, hR, h2]

theorem jtorPaxis_resize (hl : l ≠ 0) {quad : (K → K) → K → K → K} {pow : K → K → K} {nx ny : ℕ} {R Z R' Z' : ℕ → K} (hR : ∀ i, R' i = l * R i)
    (hZ : ∀ j, Z' j = l * Z j) {p : Params K} {paxis : K} {pl : Plasma K} {P J : Arr K} {c : Consts K}
    (h : jtorPaxis quad pow nx ny R Z p paxis pl P = .ok (J, c)) :
    jtorPaxis quad pow nx ny R' Z' (resizedParams l p) (paxis / l ^ 2) (scaledPlasma l pl) (times l P) =
      .ok (times (1 / l ^ 2) J, ⟨c.L / l ^ 2, c.Beta0, l * c.psiBndry, l * c.psiAxis⟩) := by
  simp only [jtorPaxis, divisible_resize hl nx hR] at h ⊢
  have e1 : (resizedParams l p).Raxis = l * p.Raxis := rfl
  have e2 : (resizedParams l p).am = p.am := rfl
  have e3 : (resizedParams l p).an = p.an := rfl
  have e4 : quad (shape pow p.am p.an) 0 1 * (l * pl.psiBndry - l * pl.psiAxis) =
      l * (quad (shape pow p.am p.an) 0 1 * (pl.psiBndry - pl.psiAxis)) := by ring
  simp only [e1, e2, e3]
  simp only [scaledPlasma, e4]
  split at h
  · rename_i hd
    rw [if_pos hd]
    split at h
    · cases h
    · rename_i h0
      rw [if_neg (mul_ne_zero hl h0)]
      have e5 : -(paxis / l ^ 2) * (l * p.Raxis) / (l * (quad (shape pow p.am p.an) 0 1 * (pl.psiBndry - pl.psiAxis))) =
          (-paxis * p.Raxis / (quad (shape pow p.am p.an) 0 1 * (pl.psiBndry - pl.psiAxis))) / l ^ 2 := by
        rw [show -(paxis / l ^ 2) * (l * p.Raxis) = l * (-paxis * p.Raxis / l ^ 2) by ring, mul_div_mul_left _ _ hl, div_right_comm]
      rw [e5]
      exact finish_resize hl hR hZ h
  · cases h

theorem jtorBetap_resize (hl : l ≠ 0) {quad : (K → K) → K → K → K} {pow : K → K → K} {mu0 : K} {nx ny : ℕ} {R Z R' Z' : ℕ → K}
    (hR : ∀ i, R' i = l * R i) (hZ : ∀ j, Z' j = l * Z j) {p : Params K} {betap : K} {pl : Plasma K} {Br Bz P J : Arr K} {c : Consts K}
    (h : jtorBetap quad pow mu0 nx ny R Z p betap pl Br Bz P = .ok (J, c)) :
    jtorBetap quad pow mu0 nx ny R' Z' (resizedParams l p) betap (scaledPlasma l pl) (times (1 / l) Br) (times (1 / l) Bz) (times l P) =
      .ok (times (1 / l ^ 2) J, ⟨c.L / l ^ 2, c.Beta0, l * c.psiBndry, l * c.psiAxis⟩) := by
  simp only [jtorBetap, divisible_resize hl nx hR] at h ⊢
  split at h
  · rename_i hd
    rw [if_pos hd]
    obtain ⟨pInt, h1, h⟩ := bind_ok h
    obtain ⟨bInt, h2, h⟩ := bind_ok h
    have e1 : pfunc quad pow nx ny (resizedParams l p) (scaledPlasma l pl) (times l P) = times l (pfunc quad pow nx ny p pl P) := by
      rw [pfunc, norm_scaled hl, masked_scaled, pfunc, ← masked_times]
      congr 1
      funext c
      simp only [times, scaledPlasma, resizedParams, mul_ite, mul_zero]
      congr 1
      ring
    have e2 : (scaledPlasma l pl).masked (fun c => times (1 / l) Br c ^ 2 + times (1 / l) Bz c ^ 2) =
        times (1 / l ^ 2) (pl.masked fun c => Br c ^ 2 + Bz c ^ 2) := by
      rw [masked_scaled, ← masked_times]
      congr 1
      funext c
      simp only [times]; ring
    have e3 : ∀ (k : K) (a : Arr K), (fun c : ℕ × ℕ => times k a c * R' c.1) = times (k * l) fun c => a c * R c.1 := by
      intro k a; funext c; simp only [times, hR]; ring
    simp only [e1, e2, e3, integrate_resize hR hZ h1, integrate_resize hR hZ h2, bind, Except.bind]
    split at h
    · cases h
    · rename_i h0
      rw [if_neg (mul_ne_zero (mul_ne_zero (pow_ne_zero 2 hl) (mul_ne_zero hl hl)) h0)]
      have e5 : l ^ 2 * (1 / l ^ 2 * l) * bInt / (l ^ 2 * (l * l) * pInt) * (-betap * (resizedParams l p).Raxis) / (2 * mu0) =
          bInt / pInt * (-betap * p.Raxis) / (2 * mu0) / l ^ 2 := by
        have : l ^ 2 * (1 / l ^ 2 * l) * bInt / (l ^ 2 * (l * l) * pInt) = bInt / pInt / l ^ 3 := by field_simp
        rw [this, show (resizedParams l p).Raxis = l * p.Raxis from rfl]
        have : bInt / pInt / l ^ 3 * (-betap * (l * p.Raxis)) = bInt / pInt * (-betap * p.Raxis) / l ^ 2 := by field_simp
        rw [this, div_right_comm]
      rw [e5]
      exact finish_resize hl hR hZ h
  · cases h

theorem givenJtor_resize (hl : l ≠ 0) {mu0 : K} {nx : ℕ} {R R' : ℕ → K} (hR : ∀ i, R' i = l * R i) {g : Given K} {opt xpt : List (Point K)}
    {core core' : Option K → Except Err (Arr K)} (hc : ∀ b m, core b = .ok m → core' (b.map (l * ·)) = .ok m) {P : Arr K} {b : Option K}
    {J : Arr K} {pr : Profile K} (h : givenJtor mu0 nx R g opt xpt core P b = .ok (J, pr)) :
    givenJtor mu0 nx R' (resizedGiven l g) (opt.map (resizePoint l)) (xpt.map (resizePoint l)) core' (times l P) (b.map (l * ·)) =
      .ok (times (1 / l ^ 2) J, ⟨(resizedGiven l g).pprime, (resizedGiven l g).ffprime, g.fvac, l * pr.psiAxis, l * pr.psiBndry⟩) := by
  obtain ⟨pl, hl', hj⟩ := bind_ok h
  have u2 := locate_resize hc hl'
  have hd : (decide ((scaledPlasma l pl).psiBndry - (scaledPlasma l pl).psiAxis ≠ 0)) = decide (pl.psiBndry - pl.psiAxis ≠ 0) := by
    simp only [scaledPlasma, ← mul_sub, ne_eq, mul_eq_zero, hl, false_or]
  have h2 : ∀ x : K, (l * x ≠ 0) = (x ≠ 0) := fun x => by simp [hl]
  simp only [givenJtor]
  rw [show times l P (0, 0) = l * P (0, 0) from rfl, u2]
  simp only [bind, Except.bind, hd, norm_scaled hl, hR, h2]
  split at hj
  · rename_i hc
    rw [if_pos hc]
    cases hj
    simp only [Except.ok.injEq, Prod.mk.injEq]
    refine ⟨?_, rfl⟩
    rw [masked_scaled, ← masked_times]
    congr 1
    funext c
    simp only [times, resizedGiven]
    have k1 : ∀ r x : K, l * r * (x / l ^ 3) = 1 / l ^ 2 * (r * x) := fun r x => by field_simp
    have k2 : ∀ r x : K, x / l / (l * r * mu0) = 1 / l ^ 2 * (x / (r * mu0)) := fun r x => by
      rw [div_div, show l * (l * r * mu0) = l ^ 2 * (r * mu0) by ring, one_div, div_eq_mul_inv, mul_inv, div_eq_mul_inv]
      ring
    rw [k1, k2, mul_add]
  · cases hj

end FreeGS.Equil
