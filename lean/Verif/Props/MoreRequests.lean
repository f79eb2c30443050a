import Verif.Props.GammaControl

/-!
# C132: further requests and wider limits in coil control
-/

set_option linter.unusedSectionVars false

namespace FreeGS.Control

variable {K : Type*} [Field K] [LinearOrder K] [IsStrictOrderedRing K]

/-- The requests of `c` together with those of `d`. -/
def Constrain.plus (c d : Constrain K) : Constrain K :=
  { c with xpoints := c.xpoints ++ d.xpoints, isoflux := c.isoflux ++ d.isoflux, psivals := c.psivals ++ d.psivals }

theorem sumSq_append (a b : List K) : sumSq (a ++ b) = sumSq a + sumSq b := by simp [sumSq]

theorem errors_plus (e : Env K) (c d : Constrain K) (eq : Eq K) :
    sumSq (constraintErrors e (c.plus d) eq) = sumSq (constraintErrors e c eq) + sumSq (constraintErrors e d eq) := by
  simp only [constraintErrors, Constrain.plus, List.map_append, List.flatten_append, sumSq_append]
  ring

theorem equal_of_rest {x y : List K} (hl : y.length = x.length) (h : sumSq (rest x y) = 0) : y = x := by
  have h4 := (sumSq_eq_zero _).mp h
  have h6 : rest x y = List.replicate x.length 0 := List.eq_replicate_iff.mpr ⟨by simp [rest, hl], h4⟩
  rw [← add_rest hl, h6]
  apply List.ext_getElem
  · simp
  · intro i _ _
    simp

/-- **C132 (requests).** The requests of `c` alone, and together with further ones, both problems solved. The further requests are met better if they are
asked for, the first ones are then met no better (errors and changes of the currents taken together, as the documentation describes); how much
the currents differ is limited by how badly the further requests were met without asking. -/
theorem C132_requests {e : Env K} {opt opt' : Problem K → List K} {c d : Constrain K} {eq eq1 eq1' : Eq K} {x x' : List K}
    (ho : ∀ p eq2, problem e c eq = .ok (p, eq2) → p.Minimises (opt p))
    (ho' : ∀ p eq2, problem e (c.plus d) eq = .ok (p, eq2) → p.Minimises (opt' p))
    (h : call e opt c eq = .ok (x, eq1)) (h' : call e opt' (c.plus d) eq = .ok (x', eq1')) :
    sumSq (constraintErrors e d eq1') + 2 * (c.gamma ^ 2 * sumSq (List.zipWith (· - ·) x x')) ≤ sumSq (constraintErrors e d eq1) ∧
    sumSq (constraintErrors e c eq1) + c.gamma ^ 2 * sumSq x ≤ sumSq (constraintErrors e c eq1') + c.gamma ^ 2 * sumSq x' := by
  obtain ⟨l1, -, w1, s1⟩ := call_step ho h
  obtain ⟨l2, -, w2, s2⟩ := call_step ho' h'
  have e1 := call_adjusted h
  have e2 := call_adjusted h'
  rw [e1, within_sync_adjusted] at w1
  rw [e2, within_sync_adjusted] at w2
  obtain ⟨-, -, -, a1⟩ := s1 x' l2 w2
  obtain ⟨-, -, -, a2⟩ := s2 x l1 w1
  rw [errors_plus, errors_plus] at a2
  simp only [e1, e2, errors_sync_adjusted] at a1 a2 ⊢
  rw [sumSq_rest] at a1
  have f4 : sumSq (rest x' x) = sumSq (List.zipWith (· - ·) x x') := rfl
  rw [f4, show (c.plus d).gamma = c.gamma from rfl] at a2
  have b1 := mul_nonneg (sq_nonneg c.gamma) (sumSq_nonneg (List.zipWith (· - ·) x x'))
  constructor <;> linarith

/-- **C132 (already met).** Asking besides for something that would have been so anyway changes nothing. -/
theorem C132_already_met {e : Env K} {opt opt' : Problem K → List K} {c d : Constrain K} {eq eq1 eq1' : Eq K} {x x' : List K} (hg : c.gamma ≠ 0)
    (ho : ∀ p eq2, problem e c eq = .ok (p, eq2) → p.Minimises (opt p))
    (ho' : ∀ p eq2, problem e (c.plus d) eq = .ok (p, eq2) → p.Minimises (opt' p))
    (h : call e opt c eq = .ok (x, eq1)) (h' : call e opt' (c.plus d) eq = .ok (x', eq1')) (hm : Met e d eq1) : x' = x ∧ eq1' = eq1 := by
  obtain ⟨a, -⟩ := C132_requests ho ho' h h'
  have hz : sumSq (constraintErrors e d eq1) = 0 := (sumSq_eq_zero _).mpr ((met_iff e d eq1).mp hm)
  have hp : 0 < c.gamma ^ 2 := by positivity
  have h0 := sumSq_nonneg (constraintErrors e d eq1')
  have h1 := sumSq_nonneg (List.zipWith (· - ·) x x')
  have h2 : sumSq (List.zipWith (· - ·) x x') = 0 := by
    rcases h1.lt_or_eq with h3 | h3
    · have := mul_pos hp h3
      linarith
    · exact h3.symm
  have hx : x' = x := equal_of_rest (by rw [(call_step ho h).1, (call_step ho' h').1]) (by rw [sumSq_rest, h2])
  exact ⟨hx, by rw [call_adjusted h, call_adjusted h', hx]⟩

/-- The limits of `c'` allow at least what those of `c` allow. -/
def Wider (c c' : Constrain K) : Prop :=
  (c'.currentLims = none ∨ ∃ ls ls', c.currentLims = some ls ∧ c'.currentLims = some ls' ∧ List.Forall₂ (fun a b => b.1 ≤ a.1 ∧ a.2 ≤ b.2) ls ls') ∧
  (c'.maxTotal = none ∨ ∃ t t', c.maxTotal = some t ∧ c'.maxTotal = some t' ∧ t ≤ t')

theorem within_wider {c c' : Constrain K} (hw : Wider c c') {eq : Eq K} (h : WithinLimits c eq) : WithinLimits c' eq := by
  constructor
  · rcases hw.1 with h1 | ⟨ls, ls', h1, h2, h3⟩
    · intro ls hls
      rw [h1] at hls
      cases hls
    · intro ls'' hls q hq hc
      rw [h2] at hls
      cases hls
      have key := h.1 ls h1
      clear h h1 h2
      generalize eq.machine.coils = cs at hq key
      induction h3 generalizing cs with
      | nil => simp at hq
      | @cons a b l l' hab _ ih =>
        rcases cs with _ | ⟨x, cs⟩
        · simp at hq
        · simp only [List.zip_cons_cons, List.mem_cons] at hq key
          rcases hq with rfl | hq
          · have := key (x, a) (Or.inl rfl) hc
            exact ⟨hab.1.trans this.1, this.2.trans hab.2⟩
          · exact ih cs hq fun q hq hc => key q (Or.inr hq) hc
  · rcases hw.2 with h1 | ⟨t, t', h1, h2, h3⟩
    · intro t ht
      rw [h1] at ht
      cases ht
    · intro t'' ht
      rw [h2] at ht
      cases ht
      exact (h.2 t h1).trans h3

/-- **C132 (limits).** The same requests with wider limits, both problems solved. Errors and changes of the currents, taken together, are no larger with the
wider limits. If the result for the wider limits keeps the narrower ones, both results are the same. -/
theorem C132_limits {e : Env K} {opt opt' : Problem K → List K} {c : Constrain K} {lims : Option (List (K × K))} {t : Option K} {eq eq1 eq1' : Eq K} {x x' : List K}
    (hw : Wider c { c with currentLims := lims, maxTotal := t })
    (ho : ∀ p eq2, problem e c eq = .ok (p, eq2) → p.Minimises (opt p))
    (ho' : ∀ p eq2, problem e { c with currentLims := lims, maxTotal := t } eq = .ok (p, eq2) → p.Minimises (opt' p))
    (h : call e opt c eq = .ok (x, eq1)) (h' : call e opt' { c with currentLims := lims, maxTotal := t } eq = .ok (x', eq1')) :
    sumSq (constraintErrors e c eq1') + c.gamma ^ 2 * sumSq x' + c.gamma ^ 2 * sumSq (List.zipWith (· - ·) x x') ≤
      sumSq (constraintErrors e c eq1) + c.gamma ^ 2 * sumSq x ∧
    (c.gamma ≠ 0 → WithinLimits c eq1' → x' = x ∧ eq1' = eq1) := by
  obtain ⟨l1, -, w1, s1⟩ := call_step ho h
  obtain ⟨l2, -, w2, s2⟩ := call_step ho' h'
  have e1 := call_adjusted h
  have e2 := call_adjusted h'
  rw [e1, within_sync_adjusted] at w1
  obtain ⟨-, -, -, a2⟩ := s2 x l1 (within_wider hw w1)
  have f3 : ∀ q, constraintErrors e { c with currentLims := lims, maxTotal := t } q = constraintErrors e c q := fun _ => rfl
  have f4 : sumSq (rest x' x) = sumSq (List.zipWith (· - ·) x x') := rfl
  rw [f3, f3, f4] at a2
  simp only [e1, e2, errors_sync_adjusted] at a2 ⊢
  refine ⟨a2, fun hg hin => ?_⟩
  rw [within_sync_adjusted] at hin
  obtain ⟨-, -, -, a1⟩ := s1 x' l2 hin
  rw [sumSq_rest, e1, errors_sync_adjusted] at a1
  have hp : 0 < c.gamma ^ 2 := by positivity
  have h1 := sumSq_nonneg (List.zipWith (· - ·) x x')
  have h2 : sumSq (List.zipWith (· - ·) x x') = 0 := by
    rcases h1.lt_or_eq with h3 | h3
    · have := mul_pos hp h3
      linarith
    · exact h3.symm
  have hx : x' = x := equal_of_rest (by rw [l1, l2]) (by rw [sumSq_rest, h2])
  exact ⟨hx, by rw [hx]⟩

/-! ## More controlled coils -/

/-- The second equilibrium is the first with the `control` attribute of some of the coils set to `True`. -/
def MoreControlled (eq eq' : Eq K) : Prop :=
  eq'.plasma = eq.plasma ∧ List.Forall₂ (fun a b => b = a ∨ b = (a.1, a.2.setControl true)) eq.machine.coils eq'.machine.coils

/-- What matters of two entries of the machines. -/
def SameSource (a b : String × Entry K) : Prop :=
  b.2.current = a.2.current ∧ (∀ e q R Z, b.2.response e q R Z = a.2.response e q R Z) ∧ (a.2.control = true → b.2.control = true)

theorem sameSource {a b : String × Entry K} (h : b = a ∨ b = (a.1, a.2.setControl true)) : SameSource a b := by
  rcases h with rfl | rfl
  · exact ⟨rfl, fun _ _ _ _ => rfl, id⟩
  · rcases a with ⟨l, x⟩
    cases x with
    | coil c => refine ⟨?_, fun e q R Z => ?_, fun _ => ?_⟩ <;> cases c <;> rfl
    | circuit c =>
      refine ⟨rfl, fun e q R Z => ?_, fun _ => rfl⟩
      show (c.setControl true).response e q R Z = c.response e q R Z
      rw [Circuit.response_eq, Circuit.response_eq, Circuit.setControl, List.map_map]
      congr 1
      refine List.map_congr_left fun x _ => ?_
      rcases x with ⟨_, y, _⟩
      cases y <;> rfl
    | solenoid s => exact ⟨rfl, fun _ _ _ _ => rfl, fun _ => rfl⟩

/-- Changes of the controlled currents, with zeros for the coils that are controlled in addition. -/
def spread : List (String × Entry K) → List (String × Entry K) → List K → List K
  | a :: as, b :: bs, xs =>
    if b.2.control then
      if a.2.control then
        match xs with
        | [] => 0 :: spread as bs []
        | x :: xs => x :: spread as bs xs
      else 0 :: spread as bs xs
    else spread as bs xs
  | _, _, _ => []

theorem spread_spec {as bs : List (String × Entry K)} (h : List.Forall₂ SameSource as bs) : ∀ xs : List K,
    xs.length = (as.filter fun x => x.2.control).length →
    (spread as bs xs).length = (bs.filter fun x => x.2.control).length ∧ sumSq (spread as bs xs) = sumSq xs ∧
    ∀ e q R Z, dot ((bs.filter fun x => x.2.control).map fun x => x.2.response e q R Z) (spread as bs xs) =
      dot ((as.filter fun x => x.2.control).map fun x => x.2.response e q R Z) xs := by
  induction h with
  | nil => intro xs hx; simp at hx; subst hx; simp [spread]
  | @cons a b as bs hab _ ih =>
    intro xs hx
    obtain ⟨-, h2, h3⟩ := hab
    by_cases ha : a.2.control = true
    · have hb := h3 ha
      rcases xs with _ | ⟨x, xs⟩
      · simp [ha] at hx
      · simp only [ha, List.filter_cons_of_pos, List.length_cons, add_left_inj] at hx
        obtain ⟨i1, i2, i3⟩ := ih xs hx
        refine ⟨by simp [spread, ha, hb, i1], ?_, fun e q R Z => ?_⟩
        · simp only [spread, ha, hb, if_true]
          simp only [sumSq, List.map_cons, List.sum_cons] at i2 ⊢
          rw [i2]
        · have := i3 e q R Z
          simp only [dot] at this ⊢
          simp only [spread, ha, hb, if_true, List.filter_cons_of_pos, List.map_cons, List.zipWith_cons_cons, List.sum_cons, this, h2]
    · have hx' : xs.length = (as.filter fun x => x.2.control).length := by simpa [ha] using hx
      obtain ⟨i1, i2, i3⟩ := ih xs hx'
      by_cases hb : b.2.control = true
      · refine ⟨by simp [spread, ha, hb, i1], ?_, fun e q R Z => ?_⟩
        · simp only [spread, ha, hb, if_true]
          simp only [sumSq] at i2 ⊢
          simp [i2]
        · have := i3 e q R Z
          simp only [dot] at this ⊢
          simp [spread, ha, hb, this]
      · refine ⟨by simp [spread, hb, i1], by simp [spread, hb, i2], fun e q R Z => ?_⟩
        simp [spread, ha, hb, i3 e q R Z]

theorem read_same {e : Env K} {eq eq' : Eq K} (hp : eq'.plasma = eq.plasma) (h : List.Forall₂ SameSource eq.machine.coils eq'.machine.coils) (q : Quantity) (R Z : K) :
    eq'.read e q R Z = eq.read e q R Z := by
  simp only [Eq.read, Eq.field, Machine.field_fst, hp]
  congr 2
  generalize eq.machine.coils = as at h
  generalize eq'.machine.coils = bs at h
  induction h with
  | nil => rfl
  | cons hab _ ih => simp only [List.map_cons, ih, hab.1, hab.2.1]

/-- **C132 (coils).** The same requests without limits of the currents, with more coils controlled, both problems solved: errors and changes of the currents,
taken together, are no larger than with fewer coils. -/
theorem C132_coils {e : Env K} {opt opt' : Problem K → List K} {c : Constrain K} {eq eq' eq1 eq1' : Eq K} {x x' : List K} (hc : MoreControlled eq eq')
    (hl : c.currentLims = none) (ht : c.maxTotal = none)
    (ho : ∀ p eq2, problem e c eq = .ok (p, eq2) → p.Minimises (opt p)) (ho' : ∀ p eq2, problem e c eq' = .ok (p, eq2) → p.Minimises (opt' p))
    (h : call e opt c eq = .ok (x, eq1)) (h' : call e opt' c eq' = .ok (x', eq1')) :
    sumSq (constraintErrors e c eq1') + c.gamma ^ 2 * sumSq x' ≤ sumSq (constraintErrors e c eq1) + c.gamma ^ 2 * sumSq x := by
  obtain ⟨hp, hf⟩ := hc
  have hf' := hf.imp fun _ _ => sameSource
  obtain ⟨l1, -, -, -⟩ := call_step ho h
  obtain ⟨l2, -, w2, s2⟩ := call_step ho' h'
  obtain ⟨j1, j2, j3⟩ := spread_spec hf' x (by rw [l1]; simp [Machine.controlCurrents])
  obtain ⟨-, -, -, a⟩ := s2 (spread eq.machine.coils eq'.machine.coils x) (by rw [j1]; simp [Machine.controlCurrents])
    ⟨fun ls hls => (by rw [hl] at hls; cases hls), fun t htt => (by rw [ht] at htt; cases htt)⟩
  have he : constraintErrors e c (eq'.adjusted (spread eq.machine.coils eq'.machine.coils x)) = constraintErrors e c eq1 := by
    rw [call_adjusted h, errors_sync_adjusted]
    simp only [constraintErrors, Eq.read_adjusted, read_same hp hf', Machine.controlResponse, j3]
  rw [he, j2] at a
  have := mul_nonneg (sq_nonneg c.gamma) (sumSq_nonneg (rest x' (spread eq.machine.coils eq'.machine.coils x)))
  linarith

/-- A flux of 82 asked for where it is 72, and a second one where it is 72 as well. -/
example : let c : Constrain ℚ := { gamma := 1, psivals := [(2, 0, 82)] }
    let d : Constrain ℚ := { gamma := 1, psivals := [(2, 0, 70)] }
    (∀ p eq1, problem exEnv c threeCoils = .ok (p, eq1) → p.Minimises p.x0) ∧
    (∀ p eq1, problem exEnv (c.plus d) threeCoils = .ok (p, eq1) → p.Minimises p.x0) ∧
    (∃ r, call exEnv (fun p => p.x0) c threeCoils = .ok r) ∧ (∃ r, call exEnv (fun p => p.x0) (c.plus d) threeCoils = .ok r) ∧
    Wider { c with maxTotal := some 3 } c ∧ Wider { c with maxTotal := some 3 } { c with maxTotal := some 4 } ∧
    MoreControlled threeCoils ⟨⟨threeCoils.machine.coils.map fun a => (a.1, a.2.setControl true)⟩, threeCoils.plasma⟩ :=
  ⟨fun _ _ h => C99_control_start (by norm_num) rfl rfl h, fun _ _ h => C99_control_start (by norm_num [Constrain.plus]) rfl rfl h,
    call_succeeds (by norm_num) (by simp) rfl, call_succeeds (by norm_num [Constrain.plus]) (by simp [Constrain.plus]) rfl, ⟨.inl rfl, .inl rfl⟩,
    ⟨.inl rfl, .inr ⟨3, 4, rfl, rfl, by norm_num⟩⟩,
    rfl, List.forall₂_map_right_iff.mpr (List.forall₂_same.mpr fun _ _ => .inr rfl)⟩

end FreeGS.Control
