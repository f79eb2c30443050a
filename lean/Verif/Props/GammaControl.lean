import Verif.Props.RepeatedControl

/-!
# C130: what the regularisation parameter of coil control does
-/

set_option linter.unusedSectionVars false

namespace FreeGS.Control

variable {K : Type*} [Field K] [LinearOrder K] [IsStrictOrderedRing K]

theorem call_adjusted {e : Env K} {opt : Problem K → List K} {c : Constrain K} {eq eq' : Eq K} {x : List K} (h : call e opt c eq = .ok (x, eq')) :
    eq' = eq.sync.adjusted x := by
  obtain ⟨p, eq1, hp, rfl, -⟩ := call_ok h
  obtain ⟨-, -, rfl, -⟩ := problem_items hp
  rfl

/-- **C130.** The same request with two values of `gamma`, both problems solved, with the same limits of the currents if there are any. The larger
`gamma` gives the smaller change of currents and leaves the larger errors; and the two changes differ by little if the two values do:
`(g² + g'²) |x - x'|² ≤ (g'² - g²) (|x|² - |x'|²)`. -/
theorem C130_tradeoff {e : Env K} {opt opt' : Problem K → List K} {c : Constrain K} {g : K} {eq eq1 eq1' : Eq K} {x x' : List K}
    (ho : ∀ p eq2, problem e c eq = .ok (p, eq2) → p.Minimises (opt p))
    (ho' : ∀ p eq2, problem e { c with gamma := g } eq = .ok (p, eq2) → p.Minimises (opt' p))
    (h : call e opt c eq = .ok (x, eq1)) (h' : call e opt' { c with gamma := g } eq = .ok (x', eq1')) (hg : |c.gamma| < |g|) :
    sumSq x' ≤ sumSq x ∧ sumSq (constraintErrors e c eq1) ≤ sumSq (constraintErrors e c eq1') ∧
      (c.gamma ^ 2 + g ^ 2) * sumSq (List.zipWith (· - ·) x x') ≤ (g ^ 2 - c.gamma ^ 2) * (sumSq x - sumSq x') := by
  obtain ⟨l1, -, w1, s1⟩ := call_step ho h
  obtain ⟨l2, -, w2, s2⟩ := call_step ho' h'
  have e1 := call_adjusted h
  have e2 := call_adjusted h'
  rw [e1, within_sync_adjusted] at w1
  rw [e2, within_sync_adjusted] at w2
  obtain ⟨-, -, -, a1⟩ := s1 x' l2 w2
  obtain ⟨-, -, -, a2⟩ := s2 x l1 w1
  have f1 : constraintErrors e c (eq.adjusted x) = constraintErrors e c eq1 := by rw [e1, errors_sync_adjusted]
  have f2 : constraintErrors e c (eq.adjusted x') = constraintErrors e c eq1' := by rw [e2, errors_sync_adjusted]
  rw [f2, sumSq_rest] at a1
  have f3 : ∀ q, constraintErrors e { c with gamma := g } q = constraintErrors e c q := fun _ => rfl
  rw [f3, f3, f1, sumSq_rest] at a2
  have f4 : sumSq (List.zipWith (· - ·) x' x) = sumSq (List.zipWith (· - ·) x x') := by rw [← sumSq_rest]; rfl
  rw [f4] at a2
  simp only at a2
  have hsq : c.gamma ^ 2 < g ^ 2 := sq_lt_sq.mpr hg
  have hd := sumSq_nonneg (List.zipWith (· - ·) x x')
  generalize sumSq (List.zipWith (· - ·) x x') = D at a1 a2 hd
  have hmain : (c.gamma ^ 2 + g ^ 2) * D ≤ (g ^ 2 - c.gamma ^ 2) * (sumSq x - sumSq x') := by linarith
  have h0 : 0 ≤ (g ^ 2 - c.gamma ^ 2) * (sumSq x - sumSq x') := (mul_nonneg (add_nonneg (sq_nonneg _) (sq_nonneg _)) hd).trans hmain
  have hX : sumSq x' ≤ sumSq x := by
    have := nonneg_of_mul_nonneg_right h0 (by linarith)
    linarith
  refine ⟨hX, ?_, hmain⟩
  have b1 := mul_nonneg (sq_nonneg c.gamma) hd
  have b2 := mul_le_mul_of_nonneg_left hX (sq_nonneg c.gamma)
  linarith

/-- **C130 (small gamma).** The errors that a call leaves exceed those of any admissible change `y` of the currents by at most `gamma² |y|²`: for `gamma`
small enough the errors are as near to the smallest possible ones as one likes. -/
theorem C130_small {e : Env K} {opt : Problem K → List K} {c : Constrain K} {eq eq1 : Eq K} {x y : List K} {ε : K}
    (ho : ∀ p eq2, problem e c eq = .ok (p, eq2) → p.Minimises (opt p)) (h : call e opt c eq = .ok (x, eq1))
    (hy : y.length = eq.machine.controlCurrents.length) (hw : WithinLimits c (eq.adjusted y)) (hg : c.gamma ^ 2 * sumSq y ≤ ε) :
    WithinLimits c eq1 ∧ sumSq (constraintErrors e c eq1) ≤ sumSq (constraintErrors e c (eq.adjusted y)) + ε := by
  obtain ⟨-, -, w1, s1⟩ := call_step ho h
  obtain ⟨-, -, -, a1⟩ := s1 y hy hw
  have b1 := mul_nonneg (sq_nonneg c.gamma) (sumSq_nonneg (rest x y))
  have b2 := mul_nonneg (sq_nonneg c.gamma) (sumSq_nonneg x)
  exact ⟨w1, by linarith⟩

/-- **C130 (smallest change).** Among the admissible changes that leave no larger errors than a call does, none is smaller than the one that the call
makes, and only that one is as small. -/
theorem C130_smallest_change {e : Env K} {opt : Problem K → List K} {c : Constrain K} {eq eq1 : Eq K} {x y : List K} (hg : c.gamma ≠ 0)
    (ho : ∀ p eq2, problem e c eq = .ok (p, eq2) → p.Minimises (opt p)) (h : call e opt c eq = .ok (x, eq1))
    (hy : y.length = eq.machine.controlCurrents.length) (hw : WithinLimits c (eq.adjusted y))
    (hle : sumSq (constraintErrors e c (eq.adjusted y)) ≤ sumSq (constraintErrors e c eq1)) :
    sumSq x ≤ sumSq y ∧ (sumSq y = sumSq x → y = x) := by
  obtain ⟨l1, -, -, s1⟩ := call_step ho h
  obtain ⟨-, -, -, a1⟩ := s1 y hy hw
  have hpos : 0 < c.gamma ^ 2 := by positivity
  have hr := sumSq_nonneg (rest x y)
  have h1 : c.gamma ^ 2 * (sumSq x + sumSq (rest x y)) ≤ c.gamma ^ 2 * sumSq y := by linarith
  have h2 := le_of_mul_le_mul_left h1 hpos
  refine ⟨by linarith, fun he => ?_⟩
  have h3 : sumSq (rest x y) = 0 := le_antisymm (by linarith) hr
  have h4 := (sumSq_eq_zero _).mp h3
  have h5 := add_rest (x := x) (y := y) (by rw [hy, l1])
  have h6 : rest x y = List.replicate x.length 0 := List.eq_replicate_iff.mpr ⟨by simp [rest, hy, l1], h4⟩
  rw [← h5, h6]
  apply List.ext_getElem
  · simp
  · intro i _ _
    simp

/-- Three coils, two of them controlled, a flux of 82 asked for where it is 72; `gamma` one and two. -/
example : let c : Constrain ℚ := { gamma := 1, psivals := [(2, 0, 82)] }
    (∀ p eq1, problem exEnv c threeCoils = .ok (p, eq1) → p.Minimises p.x0) ∧
    (∀ p eq1, problem exEnv { c with gamma := 2 } threeCoils = .ok (p, eq1) → p.Minimises p.x0) ∧
    (∃ r, call exEnv (fun p => p.x0) c threeCoils = .ok r) ∧ (∃ r, call exEnv (fun p => p.x0) { c with gamma := 2 } threeCoils = .ok r) ∧
    |c.gamma| < |(2 : ℚ)| ∧ WithinLimits c (threeCoils.adjusted [0, 1]) ∧ sumSq (constraintErrors exEnv c (threeCoils.adjusted [0, 1])) = 0 :=
  ⟨fun _ _ h => C99_control_start (by norm_num) rfl rfl h, fun _ _ h => C99_control_start (by norm_num) rfl rfl h,
    call_succeeds (by norm_num) (by simp) rfl, call_succeeds (by norm_num) (by simp) rfl, by norm_num,
    ⟨fun _ h => (by cases h), fun _ h => (by cases h)⟩, by decide +kernel⟩

end FreeGS.Control
