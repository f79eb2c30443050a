import Verif.Props.Picard
import Verif.Spec.PicardConvergence
import Mathlib.Topology.MetricSpace.Contracting
import Mathlib.Topology.MetricSpace.Pseudo.Pi
import Mathlib.Analysis.SpecificLimits.Basic
import Mathlib.Tactic.LinearCombination

/-!
# C104: when the Picard iteration converges
-/

set_option linter.unusedSectionVars false

namespace FreeGS.Picard

universe u
variable {K : Type*} [Field K] [LinearOrder K] [IsStrictOrderedRing K] {S : Type*}

/-! ## Flux maps close to each other -/

theorem Within.length {d : K} {p p' : List K} (h : Within d p p') : p.length = p'.length := List.Forall₂.length_eq h

theorem Within.mono {d d' : K} {p p' : List K} (h : Within d p p') (hd : d ≤ d') : Within d' p p' :=
  List.Forall₂.imp (fun _ _ h => h.trans hd) h

theorem within_iff {d : K} {p p' : List K} :
    Within d p p' ↔ p.length = p'.length ∧ ∀ x ∈ List.zipWith (fun x y => |x - y|) p p', x ≤ d := by
  constructor
  · intro h
    refine ⟨h.length, ?_⟩
    induction h with
    | nil => simp
    | cons h1 _ ih => simpa using ⟨h1, by simpa using ih⟩
  · rintro ⟨h1, h2⟩
    induction p generalizing p' with
    | nil =>
      cases p' with
      | nil => exact .nil
      | cons y ys => simp at h1
    | cons x xs ih =>
      cases p' with
      | nil => simp at h1
      | cons y ys =>
        rw [List.zipWith_cons_cons] at h2
        exact .cons (h2 _ List.mem_cons_self) (ih (by simpa using h1) fun z hz => h2 z (List.mem_cons_of_mem _ hz))

theorem maxChange_le {d : K} {p p' : List K} (hp : 0 < p.length) (h : Within d p p') : maxChange p p' ≤ d := by
  have hne : List.zipWith (fun x y => |x - y|) p p' ≠ [] := by
    intro h0
    have := congrArg List.length h0
    rw [List.length_zipWith, ← h.length, min_self, List.length_nil] at this
    omega
  exact (within_iff.mp h).2 _ (amax_isMax hne).1

theorem within_maxChange {p p' : List K} (h : p.length = p'.length) : Within (maxChange p p') p p' := by
  refine within_iff.mpr ⟨h, fun x hx => ?_⟩
  exact (amax_isMax (List.ne_nil_of_mem hx)).2 x hx

theorem maxChange_nonneg (p p' : List K) : 0 ≤ maxChange p p' := by
  rw [maxChange]
  cases hz : List.zipWith (fun x y => |x - y|) p p' with
  | nil => exact le_rfl
  | cons a as =>
    have h1 := (amax_isMax (l := a :: as) (by simp)).1
    rw [← hz] at h1 ⊢
    obtain ⟨i, hi, h2⟩ := List.mem_iff_getElem.mp h1
    rw [List.getElem_zipWith] at h2
    rw [← h2]
    exact abs_nonneg _

theorem Within.triangle {a b : K} {p p' p'' : List K} (h : Within a p p') (h' : Within b p' p'') : Within (a + b) p p'' := by
  induction h generalizing p'' with
  | nil => cases h'; exact .nil
  | cons h1 _ ih =>
    cases h' with
    | cons h2 h3 => exact .cons ((abs_sub_le _ _ _).trans (add_le_add h1 h2)) (ih h3)

theorem Within.symm {d : K} {p p' : List K} (h : Within d p p') : Within d p' p := by
  induction h with
  | nil => exact .nil
  | cons h1 _ ih => exact .cons (by rw [abs_sub_comm]; exact h1) ih

/-- Blending towards a flux map that both are close to. -/
theorem within_blend {a b w : K} (h0 : 0 ≤ w) (h1 : w ≤ 1) {p p' r : List K} (h : Within a p r) (h' : Within b p' r) :
    Within ((1 - w) * a + w * b) (List.zipWith (fun x y => (1 - w) * x + w * y) p p') r := by
  induction h generalizing p' with
  | nil => cases h'; exact .nil
  | cons e1 _ ih =>
    cases h' with
    | cons e2 e3 =>
      refine .cons ?_ (ih e3)
      rename_i x y l1 l2 _ z l3
      have : (1 - w) * x + w * z - y = (1 - w) * (x - y) + w * (z - y) := by ring
      rw [this]
      refine (abs_add_le _ _).trans ?_
      rw [abs_mul, abs_mul, abs_of_nonneg h0, abs_of_nonneg (by linarith : 0 ≤ 1 - w)]
      exact add_le_add (mul_le_mul_of_nonneg_left e1 (by linarith)) (mul_le_mul_of_nonneg_left e2 h0)

/-! ## The loop -/

theorem loop_more_fuel {e : Env S K} {o : Opts K} {r : S × List (K × Option K)} : ∀ (f k : ℕ) (v : Vars S K),
    loop e o f v = .ok (some r) → loop e o (f + k) v = .ok (some r) := by
  intro f
  induction f with
  | zero => intro k v h; cases h
  | succ f ih =>
    intro k v h
    rw [Nat.add_right_comm, loop]
    rw [loop] at h
    cases hb : body e o v with
    | error err => rw [hb] at h; cases h
    | ok q =>
      rw [hb] at h
      cases q with
      | done s hi => exact h
      | more w => exact ih k w h

/-- A pass in which nothing is raised and a boundary flux is found. -/
theorem body_found {e : Env S K} {o : Opts K} {n : ℕ} {v : Vars S K} {s' s'' : S} {bd : K} (hi : v.iteration = n)
    (hs : step e o n v.hasBeenLimited v.eq v.psi = .ok s') (ha : e.adjust s' = .ok s'') (hb : e.bndry s' = some bd) :
    (∃ hist, body e o v = .ok (.done s' hist) ∧ hist.length = v.hist.length + 1) ∨
    (((∀ mx, o.maxits = some mx → mx = 0 ∨ (n : ℤ) + 1 ≤ mx) → ∃ w, body e o v = .ok (.more w) ∧ w.bndry = bd ∧ w.eq = s'' ∧
      w.psi = List.zipWith (fun x y => (1 - o.blend) * x + o.blend * y) (e.psi s'') v.psi) ∧
      ¬ (maxChange v.psi (e.psi s') < o.atol ∧ |v.bndry - bd| < o.atol ∧ o.waitForLimited = false)) := by
  simp only [body]
  rw [step_eq e o hi, hs]
  simp only [hb, ha]
  split_ifs with hc
  · exact Or.inl ⟨_, rfl, by simp⟩
  · refine Or.inr ⟨fun hm => ?_, ?_⟩
    · cases hmx : o.maxits with
      | none => exact ⟨_, rfl, rfl, rfl, rfl⟩
      | some mx =>
        simp only
        rw [if_neg]
        · exact ⟨_, rfl, rfl, rfl, rfl⟩
        · rintro ⟨h1, h2⟩
          rcases hm mx hmx with h3 | h3
          · exact h1 h3
          · rw [hi] at h2; omega
    · rintro ⟨h1, h2, h3⟩
      apply hc
      simp [h1, h2, h3]

theorem loop_returns {e : Env S K} {o : Opts K} {eq0 : S} {δ : S → List K → K} {ρ c β D : K} {N m : ℕ} (hN : 0 < N)
    (hpsi : ∀ s, (e.psi s).length = N) (hA : Approaches e o eq0 δ ρ c β) (h0 : 0 ≤ ρ) (h1 : ρ ≤ 1) (hc : 0 ≤ c)
    (hm : ∀ mx, o.maxits = some mx → mx = 0 ∨ (m : ℤ) + 1 ≤ mx) (hw : o.waitForLimited = false) (hD0 : 0 ≤ D)
    (hD : 2 * c * (ρ ^ m * D) < o.atol) :
    ∀ (f n : ℕ) (v : Vars S K), Inv e o eq0 n v → f + n = m + 1 → δ v.eq v.psi ≤ ρ ^ n * D →
      (∀ k, n = k + 1 → |v.bndry - β| ≤ c * (ρ ^ k * D)) → ∃ r, loop e o (f + 1) v = .ok (some r) ∧ r.2.length ≤ m + 2 := by
  intro f
  induction f with
  | zero =>
    intro n v hI hf hd hb
    obtain ⟨b, hr, hi, _, hh⟩ := id hI
    obtain ⟨s', s'', bd, e1, e2, e3, e4, e5, e6⟩ := hA.step _ _ _ _ _ hr
    rw [loop]
    have hpow : ρ ^ n * D ≤ ρ ^ m * D := mul_le_mul_of_nonneg_right (pow_le_pow_of_le_one h0 h1 (by omega)) hD0
    have hx : c * δ v.eq v.psi ≤ c * (ρ ^ m * D) := mul_le_mul_of_nonneg_left (hd.trans hpow) hc
    have hx0 : 0 ≤ c * (ρ ^ m * D) := by positivity
    rcases body_found hi e1 e2 e3 with ⟨hist, h2, h3⟩ | ⟨_, h2⟩
    · rw [h2]; exact ⟨_, rfl, by rw [h3, hh]; omega⟩
    · exfalso
      refine h2 ⟨?_, ?_, hw⟩
      · have := maxChange_le (by rw [inv_length hpsi hr]; exact hN) e4
        linarith
      · have h3 := hb m (by omega)
        have h4 := abs_sub_le v.bndry β bd
        rw [abs_sub_comm β bd] at h4
        linarith
  | succ f ih =>
    intro n v hI hf hd hb
    obtain ⟨b, hr, hi, _, hh⟩ := id hI
    obtain ⟨s', s'', bd, e1, e2, e3, e4, e5, e6⟩ := hA.step _ _ _ _ _ hr
    rw [loop]
    rcases body_found hi e1 e2 e3 with ⟨hist, h2, h3⟩ | ⟨h2, _⟩
    · rw [h2]; exact ⟨_, rfl, by rw [h3, hh]; omega⟩
    · obtain ⟨w, h3, h4, h5, h6⟩ := h2 fun mx hmx => (hm mx hmx).imp id fun h => by omega
      rw [h3]
      refine ih (n + 1) w (body_more hI h3).1 (by omega) ?_ fun k hk => ?_
      · rw [h5, h6, pow_succ']
        refine e6.trans ?_
        rw [mul_assoc]
        exact mul_le_mul_of_nonneg_left hd h0
      · obtain rfl : n = k := by omega
        rw [h4]
        exact e5.trans (mul_le_mul_of_nonneg_left hd hc)

/-- **C104** (convergence). If some distance from the solution shrinks in every step, then `picard.solve` returns, and within the number of
steps after which the distance is small against `atol`: with `m` such that `2 c ρ^m` times the distance at the start is below
`atol`, at most `m + 2` linear solves are made, for every `maxits` larger than `m`, or none. -/
theorem C104_converges (e : Env S K) (o : Opts K) (eq0 s0 : S) (N : ℕ) (hN : 0 < N) (hpsi : ∀ s, (e.psi s).length = N)
    (h0 : e.adjust eq0 = .ok s0) (δ : S → List K → K) (ρ c β : K) (hA : Approaches e o eq0 δ ρ c β) (hρ0 : 0 ≤ ρ) (hρ1 : ρ ≤ 1)
    (hc : 0 ≤ c) (hw : o.waitForLimited = false) (m : ℕ) (hm : ∀ mx, o.maxits = some mx → mx = 0 ∨ (m : ℤ) + 1 ≤ mx)
    (hD : 2 * c * (ρ ^ m * δ s0 (e.psi s0)) < o.atol) :
    ∃ eq' hist, hist.length ≤ m + 2 ∧ ∀ fuel, m + 2 ≤ fuel → picard e o fuel eq0 = .ok (some (eq', hist)) := by
  obtain ⟨r, h1, h2⟩ := loop_returns hN hpsi hA hρ0 hρ1 hc hm hw (hA.nonneg s0 (e.psi s0)) hD (m + 1) 0
    ⟨s0, e.psi s0, 0, 0, none, false, []⟩ (start_inv h0) (by omega) (by simp) (fun k hk => by omega)
  refine ⟨r.1, r.2, h2, fun fuel hf => ?_⟩
  rw [picard, h0]
  obtain ⟨k, rfl⟩ := Nat.exists_eq_add_of_le hf
  exact loop_more_fuel _ k _ h1

/-! ## Contractions -/

theorem step_responds {e : Env S K} {o : Opts K} {N : ℕ} {Q : S → Prop} {F : List K → List K} {B : List K → K}
    (hr : Responds e o N Q F B) (hcl : o.checkLimited = false) {n : ℕ} {l : Bool} {s : S} {p : List K} (hQ : Q s) (hp : p.length = N) :
    ∃ s', step e o n l s p = .ok s' ∧ e.psi s' = F p ∧ e.bndry s' = some (B p) ∧ Q s' := by
  obtain ⟨s', h1, h2⟩ := hr s p hQ hp
  exact ⟨s', by rw [step, Checks, hcl]; exact h1, h2⟩

theorem run_in {e : Env S K} {o : Opts K} {N : ℕ} {Q : S → Prop} {F : List K → List K} {B : List K → K}
    (hpsi : ∀ s, (e.psi s).length = N) (hr : Responds e o N Q F B) (hcl : o.checkLimited = false) (hcon : e.constrain = none) {eq0 s : S}
    {n : ℕ} {p : List K} {l : Bool} {b : Option K} (h0 : Q eq0) (h : Run e o eq0 n s p l b) : Q s := by
  induction h with
  | start h =>
    rw [Env.adjust, hcon] at h
    cases h
    exact h0
  | next hrun hs ha ih =>
    rw [Env.adjust, hcon] at ha
    cases ha
    obtain ⟨s', h1, _, _, h4⟩ := step_responds hr hcl ih (inv_length hpsi hrun)
    rw [hs] at h1
    cases h1
    exact h4

/-- **C104** (error). If the linear solve brings flux maps closer by the factor `q < 1`, the flux that is returned is not farther from the
solution than `q / (1 - q)` times the last entry of the convergence list. -/
theorem C104_error (e : Env S K) (o : Opts K) (N : ℕ) (hN : 0 < N) (hpsi : ∀ s, (e.psi s).length = N) (hcl : o.checkLimited = false)
    (hcon : e.constrain = none) (Q : S → Prop) (F : List K → List K) (B : List K → K) (hr : Responds e o N Q F B) (q : K) (hq1 : q < 1)
    (hq : Contracts N F q) (sol : List K) (hsol : sol.length = N) (hfix : F sol = sol) (fuel : ℕ) (eq0 eq' : S) (h0 : Q eq0)
    (hist : List (K × Option K)) (h : picard e o fuel eq0 = .ok (some (eq', hist))) :
    ∃ d r, hist.getLast? = some (d, r) ∧ Within (q / (1 - q) * d) (e.psi eq') sol := by
  rw [picard] at h
  cases ha : e.adjust eq0 with
  | error err => rw [ha] at h; cases h
  | ok s =>
    rw [ha] at h
    obtain ⟨m, v, h1, h2, _⟩ := loop_done fuel 0 _ (start_inv ha) h
    obtain ⟨b0, hr0, hi, _⟩ := id h1
    have hlen := inv_length hpsi hr0
    obtain ⟨b, _, hst, _⟩ := body_done hN hpsi hlen h1 h2
    obtain ⟨s', hst', hh⟩ := body_hist hi h2
    rw [hst] at hst'
    cases hst'
    simp only at hh
    obtain ⟨s1, e1, e2, _⟩ := step_responds hr hcl (n := m) (l := v.hasBeenLimited) (s := v.eq)
      (run_in hpsi hr hcl hcon h0 hr0) hlen
    rw [hst] at e1
    cases e1
    refine ⟨maxChange v.psi (e.psi eq'), relChange (maxChange v.psi (e.psi eq')) (e.psi eq'), by rw [hh]; simp, ?_⟩
    have hF : (F v.psi).length = N := by rw [← e2]; exact hpsi _
    set d := maxChange v.psi (e.psi eq') with hd
    set E := maxChange (F v.psi) sol with hE
    have w1 : Within d v.psi (F v.psi) := by rw [hd, e2]; exact within_maxChange (by rw [hlen, hF])
    have w2 : Within E (F v.psi) sol := within_maxChange (by rw [hF, hsol])
    have w3 := hq _ _ _ hlen hsol (w1.triangle w2)
    rw [hfix] at w3
    have hle : E ≤ q * (d + E) := maxChange_le (by omega) w3
    rw [e2]
    refine w2.mono ?_
    rw [div_mul_eq_mul_div, le_div_iff₀ (by linarith)]
    linarith

/-- The distance from a solution of which a linear solve is a contraction shrinks. -/
theorem contraction_approaches {e : Env S K} {o : Opts K} {N : ℕ} (hN : 0 < N) (hpsi : ∀ s, (e.psi s).length = N)
    (hcl : o.checkLimited = false) (hcon : e.constrain = none) {Q : S → Prop} {F : List K → List K} {B : List K → K}
    (hr : Responds e o N Q F B) {q L : K} (hq : Contracts N F q) (hL : Tracks N B L) (hb0 : 0 ≤ o.blend) (hb1 : o.blend ≤ 1)
    {sol : List K} (hsol : sol.length = N) (hfix : F sol = sol) (eq0 : S) (h0 : Q eq0) :
    Approaches e o eq0 (fun _ p => maxChange p sol) ((1 - o.blend) * q + o.blend) (max (1 + q) L) (B sol) where
  nonneg := fun _ p => maxChange_nonneg p sol
  step := by
    intro n s p l b hrun
    have hlen := inv_length hpsi hrun
    obtain ⟨s', h1, h2, h3, _⟩ := step_responds hr hcl (n := n) (l := l) (s := s) (run_in hpsi hr hcl hcon h0 hrun) hlen
    have hF : (F p).length = N := by rw [← h2]; exact hpsi _
    have hd0 := maxChange_nonneg p sol
    have w1 : Within (maxChange p sol) p sol := within_maxChange (by rw [hlen, hsol])
    have w2 := hq _ _ _ hlen hsol w1
    rw [hfix] at w2
    refine ⟨s', s', B p, h1, by rw [Env.adjust, hcon], h3, ?_, ?_, ?_⟩
    · rw [h2]
      refine (w1.triangle w2.symm).mono ?_
      have := mul_le_mul_of_nonneg_right (le_max_left (1 + q) L) hd0
      linarith
    · exact (hL _ _ _ hlen hsol w1).trans (mul_le_mul_of_nonneg_right (le_max_right _ _) hd0)
    · simp only [h2]
      refine maxChange_le ?_ ((within_blend hb0 hb1 w2 w1).mono ?_)
      · rw [List.length_zipWith, hF, hlen, min_self]; exact hN
      · apply le_of_eq; ring

/-- **C104** (contraction). Without coil control and limiter, with `blend` from zero up to but not one, and a linear solve that brings flux
maps closer by the factor `q < 1`: from every start `picard.solve` returns, if `maxits` does not stop it, and the number of linear
solves is at most `m + 2` if `2 max(1 + q, L) ((1 - blend) q + blend)^m` times the distance of the initial flux from the solution is
below `atol`. -/
theorem C104_contraction_steps (e : Env S K) (o : Opts K) (N : ℕ) (hN : 0 < N) (hpsi : ∀ s, (e.psi s).length = N)
    (hcl : o.checkLimited = false) (hw : o.waitForLimited = false) (hcon : e.constrain = none) (Q : S → Prop)
    (F : List K → List K) (B : List K → K) (hr : Responds e o N Q F B) (q L : K) (hq0 : 0 ≤ q) (hq1 : q < 1) (hq : Contracts N F q) (hL : Tracks N B L) (hb0 : 0 ≤ o.blend)
    (hb1 : o.blend < 1) (sol : List K) (hsol : sol.length = N) (hfix : F sol = sol) (eq0 : S) (h0 : Q eq0) (d : K)
    (hd : Within d (e.psi eq0) sol) (m : ℕ) (hm : ∀ mx, o.maxits = some mx → mx = 0 ∨ (m : ℤ) + 1 ≤ mx)
    (hD : 2 * max (1 + q) L * (((1 - o.blend) * q + o.blend) ^ m * d) < o.atol) :
    ∃ eq' hist, hist.length ≤ m + 2 ∧ ∀ fuel, m + 2 ≤ fuel → picard e o fuel eq0 = .ok (some (eq', hist)) := by
  have hρ0 : 0 ≤ (1 - o.blend) * q + o.blend := by nlinarith
  have hρ1 : (1 - o.blend) * q + o.blend ≤ 1 := by nlinarith
  have hc : 0 ≤ max (1 + q) L := le_max_of_le_left (by linarith)
  refine C104_converges e o eq0 eq0 N hN hpsi (by rw [Env.adjust, hcon]) _ _ _ _
    (contraction_approaches hN hpsi hcl hcon hr hq hL hb0 hb1.le hsol hfix eq0 h0) hρ0 hρ1 hc hw m hm (lt_of_le_of_lt ?_ hD)
  have := maxChange_le (by rw [hpsi]; exact hN) hd
  gcongr

/-- A contraction of the flux maps of size `N` has a solution. -/
theorem contraction_solution {N : ℕ} (hN : 0 < N) {F : List ℝ → List ℝ} (hlen : ∀ p, p.length = N → (F p).length = N) {q : ℝ} (hq0 : 0 ≤ q)
    (hq1 : q < 1) (hq : Contracts N F q) : ∃ sol, sol.length = N ∧ F sol = sol := by
  haveI : Nonempty (Fin N) := ⟨⟨0, hN⟩⟩
  let G : (Fin N → ℝ) → Fin N → ℝ := fun v i => (F (List.ofFn v)).getD i 0
  have hG : ContractingWith ⟨q, hq0⟩ G := by
    refine ⟨by exact_mod_cast hq1, LipschitzWith.of_dist_le_mul fun v w => ?_⟩
    have hv : Within (dist v w) (List.ofFn v) (List.ofFn w) := by
      rw [Within, List.forall₂_iff_get]
      refine ⟨by simp, fun i h1 h2 => ?_⟩
      have := dist_le_pi_dist v w ⟨i, by simpa using h1⟩
      rw [Real.dist_eq] at this
      simpa using this
    have hFw := hq _ _ _ (by simp) (by simp) hv
    rw [Within, List.forall₂_iff_get] at hFw
    refine (dist_pi_le_iff (by positivity)).mpr fun i => ?_
    have h1 := hlen (List.ofFn v) (by simp)
    have h2 := hlen (List.ofFn w) (by simp)
    have := hFw.2 i (by rw [h1]; exact i.2) (by rw [h2]; exact i.2)
    rw [Real.dist_eq]
    simp only [G, List.getD_eq_getElem?_getD]
    rw [List.getElem?_eq_getElem (by rw [h1]; exact i.2), List.getElem?_eq_getElem (by rw [h2]; exact i.2)]
    change |_| ≤ q * dist v w
    simpa using this
  have hfix := hG.fixedPoint_isFixedPt
  set v := ContractingWith.fixedPoint G hG with hv
  refine ⟨List.ofFn v, by simp, ?_⟩
  have h1 := hlen (List.ofFn v) (by simp)
  refine List.ext_getElem (by rw [h1]; simp) fun i hi hi' => ?_
  have h2 := congrFun hfix ⟨i, by rw [← h1]; exact hi⟩
  simp only [G, List.getD_eq_getElem?_getD] at h2
  rw [List.getElem?_eq_getElem hi] at h2
  simpa using h2

/-- **C104** (contraction, real numbers). Without coil control and limiter, with `blend` from zero up to but not one, a positive `atol`, no
`maxits`, and a linear solve that brings flux maps closer by the factor `q < 1`: there is exactly one flux map that the linear solve
reproduces, and from every start `picard.solve` returns, with a flux that is not farther from it than `q / (1 - q)` times the last
change of the flux. -/
theorem C104_contraction (e : Env S ℝ) (o : Opts ℝ) (N : ℕ) (hN : 0 < N) (hpsi : ∀ s, (e.psi s).length = N)
    (hcl : o.checkLimited = false) (hw : o.waitForLimited = false) (hcon : e.constrain = none) (Q : S → Prop)
    (F : List ℝ → List ℝ) (B : List ℝ → ℝ) (hF : ∀ p, p.length = N → (F p).length = N) (hr : Responds e o N Q F B) (q L : ℝ) (hq0 : 0 ≤ q) (hq1 : q < 1) (hq : Contracts N F q) (hL : Tracks N B L) (hb0 : 0 ≤ o.blend)
    (hb1 : o.blend < 1) (hatol : 0 < o.atol) (hm : ∀ mx, o.maxits = some mx → mx = 0) :
    ∃ sol, sol.length = N ∧ F sol = sol ∧ (∀ p, p.length = N → F p = p → p = sol) ∧
      ∀ eq0, Q eq0 → ∃ fuel eq' hist, picard e o fuel eq0 = .ok (some (eq', hist)) ∧
        ∃ d r, hist.getLast? = some (d, r) ∧ Within (q / (1 - q) * d) (e.psi eq') sol := by
  obtain ⟨sol, h1, h2⟩ := contraction_solution hN hF hq0 hq1 hq
  refine ⟨sol, h1, h2, fun p hp hfix => ?_, fun eq0 hQ => ?_⟩
  · have w := hq _ _ _ hp h1 (within_maxChange (by rw [hp, h1]))
    rw [hfix, h2] at w
    have hle := maxChange_le (by omega) w
    have h0 := maxChange_nonneg p sol
    have hz : maxChange p sol = 0 := by nlinarith
    have w0 : Within 0 p sol := by rw [← hz]; exact within_maxChange (by rw [hp, h1])
    clear hle h0 hz w hfix h2 hp h1
    induction w0 with
    | nil => rfl
    | cons h _ ih => rw [ih, sub_eq_zero.mp (abs_nonpos_iff.mp h)]
  · set ρ := (1 - o.blend) * q + o.blend with hρ
    have hρ0 : 0 ≤ ρ := by nlinarith
    have hρ1 : ρ < 1 := by nlinarith
    set d := maxChange (e.psi eq0) sol with hd
    have hlim : Filter.Tendsto (fun m : ℕ => 2 * max (1 + q) L * (ρ ^ m * d)) Filter.atTop (nhds (2 * max (1 + q) L * (0 * d))) :=
      ((tendsto_pow_atTop_nhds_zero_of_lt_one hρ0 hρ1).mul_const d).const_mul _
    have hev := hlim.eventually (gt_mem_nhds (by simpa using hatol))
    obtain ⟨m, hmm⟩ := hev.exists
    obtain ⟨eq', hist, _, h4⟩ := C104_contraction_steps e o N hN hpsi hcl hw hcon Q F B hr q L hq0 hq1 hq hL hb0 hb1 sol h1 h2 eq0
      hQ d
      (within_maxChange (by rw [hpsi, h1])) m (fun mx h => Or.inl (hm mx h)) hmm
    exact ⟨m + 2, eq', hist, h4 _ le_rfl,
      C104_error e o N hN hpsi hcl hcon Q F B hr q hq1 hq sol h1 h2 (m + 2) eq0 eq' hQ hist (h4 _ le_rfl)⟩

/-! ## Oscillation -/

/-- An equilibrium with one flux value, in which the linear solve answers a flux `x` with `-a x`. -/
def flipping (a : K) : Env K K :=
  { constrain := none
    psi := fun x => [x]
    solve := fun _ _ p _ => .ok (-a * p.headD 0)
    bndry := fun _ => some 1
    limited := fun _ => false }

theorem flipping_loop (a : K) (ha : 1 ≤ a) (o : Opts K) (hb : o.blend = 0) (hm : o.maxits = none) :
    ∀ (fuel : ℕ) (v : Vars K K) (y : K), v.psi = [y] → o.atol ≤ (1 + a) * |y| → loop (flipping a) o fuel v = .ok none := by
  intro fuel
  induction fuel with
  | zero => intro v y _ _; rfl
  | succ f ih =>
    intro v y hv hy
    have hch : maxChange v.psi [-a * y] = (1 + a) * |y| := by
      rw [hv, maxChange]
      show |y - -a * y| = _
      rw [show y - -a * y = (1 + a) * y by ring, abs_mul, abs_of_nonneg (by linarith)]
    have hs : ∀ b bo, (flipping a).solve v.eq b v.psi bo = .ok (-a * y) := by
      intro b bo; rw [hv]; rfl
    have hp : (flipping a).psi (-a * y) = [-a * y] := rfl
    have hrel : relOk (maxChange v.psi [-a * y]) [-a * y] o.rtol = false := by
      simp [relOk, amax, amin]
    have hat : ¬ maxChange v.psi [-a * y] < o.atol := by rw [hch]; exact not_lt.mpr hy
    rw [loop]
    have hbody : ∃ w, body (flipping a) o v = .ok (.more w) ∧ w.psi = [-a * y] := by
      simp only [body, hs, ite_self, hp, hrel, hat, decide_false, Bool.or_false, Bool.false_and, Env.adjust, hm]
      refine ⟨_, rfl, ?_⟩
      simp [flipping, hv, hb]
    obtain ⟨w, h1, h2⟩ := hbody
    rw [h1]
    refine ih w (-a * y) h2 (hy.trans ?_)
    rw [abs_mul, abs_neg, abs_of_nonneg (by linarith : 0 ≤ a)]
    have := abs_nonneg y
    nlinarith [mul_nonneg this (by linarith : 0 ≤ a - 1)]

/-- **C104** (finding). Without blending and without `maxits` the call need not come back: if the linear solve answers a change of the flux
with a change of the opposite sign that is not smaller, the iteration goes on for ever, although there is exactly one solution. -/
theorem C104_oscillates_fails (a : K) (ha : 1 ≤ a) (o : Opts K) (hb : o.blend = 0) (hm : o.maxits = none) (x : K)
    (hx : o.atol ≤ (1 + a) * |x|) :
    (∀ y b bo, (flipping a).solve y b [y] bo = .ok y ↔ y = 0) ∧ ∀ fuel, picard (flipping a) o fuel x = .ok none := by
  refine ⟨fun y b bo => ?_, fun fuel => flipping_loop a ha o hb hm fuel _ x rfl hx⟩
  show Except.ok (-a * y) = Except.ok y ↔ _
  rw [Except.ok.injEq]
  constructor
  · intro h
    have : (1 + a) * y = 0 := by linear_combination -h
    exact (mul_eq_zero.mp this).resolve_left fun h => by linarith
  · rintro rfl; ring

/-- A case of `C104_oscillates_fails` with the usual tolerances. -/
example : ∀ fuel, picard (flipping (1 : ℚ)) { sampleOpts with maxits := none } fuel 5 = .ok none :=
  (C104_oscillates_fails 1 le_rfl _ rfl rfl 5 (by norm_num [sampleOpts])).2

/-- **C104** (blending). Blending removes the oscillation: with `blend` such that `|blend - a (1 - blend)| < 1` the iteration of the same
equilibrium returns from every start. -/
theorem C104_blending (a : ℝ) (ha : 0 ≤ a) (o : Opts ℝ) (hb : |o.blend - a * (1 - o.blend)| < 1) (hatol : 0 < o.atol)
    (hw : o.waitForLimited = false) (hm : ∀ mx, o.maxits = some mx → mx = 0) (x : ℝ) :
    ∃ fuel eq' hist, picard (flipping a) o fuel x = .ok (some (eq', hist)) := by
  set ρ := |o.blend - a * (1 - o.blend)| with hρ
  have hlast : ∀ n s p l b, Run (flipping a) o x n s p l b → ∃ y, p = [y] := by
    intro n s p l b h
    induction h with
    | start h => exact ⟨_, rfl⟩
    | next _ _ _ ih => obtain ⟨y, rfl⟩ := ih; exact ⟨_, rfl⟩
  have hA : Approaches (flipping a) o x (fun _ p => |p.headD 0|) ρ (1 + a) 1 := by
    refine ⟨fun _ _ => abs_nonneg _, fun n s p l b h => ?_⟩
    obtain ⟨y, rfl⟩ := hlast _ _ _ _ _ h
    refine ⟨-a * y, -a * y, 1, ?_, rfl, rfl, .cons ?_ .nil, ?_, ?_⟩
    · rw [step]; split_ifs <;> rfl
    · show |y - -a * y| ≤ (1 + a) * |y|
      rw [show y - -a * y = (1 + a) * y by ring, abs_mul, abs_of_nonneg (by linarith)]
    · rw [sub_self, abs_zero]; positivity
    · show |(1 - o.blend) * (-a * y) + o.blend * y| ≤ ρ * |y|
      rw [show (1 - o.blend) * (-a * y) + o.blend * y = (o.blend - a * (1 - o.blend)) * y by ring, abs_mul]
  have hlim : Filter.Tendsto (fun m : ℕ => 2 * (1 + a) * (ρ ^ m * |x|)) Filter.atTop (nhds (2 * (1 + a) * (0 * |x|))) :=
    ((tendsto_pow_atTop_nhds_zero_of_lt_one (abs_nonneg _) hb).mul_const _).const_mul _
  obtain ⟨m, hmm⟩ := (hlim.eventually (gt_mem_nhds (by simpa using hatol))).exists
  obtain ⟨eq', hist, _, h4⟩ := C104_converges (flipping a) o x x 1 one_pos (fun _ => rfl) rfl _ ρ (1 + a) 1 hA (abs_nonneg _) hb.le
    (by linarith) hw m (fun mx h => Or.inl (hm mx h)) hmm
  exact ⟨m + 2, eq', hist, h4 _ le_rfl⟩

/-- A case of `C104_blending`: `blend = 1/2` stops the oscillation of the case above. -/
example : ∃ fuel eq' hist, picard (flipping (1 : ℝ)) ⟨1 / 1000, 1 / 10000000000, 1 / 2, none, none, false, false, 0⟩ fuel 5 =
    .ok (some (eq', hist)) :=
  C104_blending 1 zero_le_one _ (by norm_num) (by norm_num) rfl (fun mx h => by cases h) 5

end FreeGS.Picard
