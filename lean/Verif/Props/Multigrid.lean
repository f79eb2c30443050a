import Verif.Lemmas.Multigrid

/-!
# Multigrid: restriction and interpolation (C42), sizes (C43), fixed point (C41), linearity (C72)
-/

set_option linter.unusedSectionVars false

namespace FreeGS.MG

open FreeGS.GS

variable {K : Type*} [Field K] [LinearOrder K] [IsStrictOrderedRing K]

/-! ## C42 -/

/-- **C42.** `interpolate` returns `2n - 1` points for `n` and is bilinear: a fine point on a coarse point has its value, one between two
coarse points their mean, one between four the mean of the four. The edge of the coarse array counts as zero whatever its values. -/
theorem C42_interpolate_bilinear (g : Grid K) (hx : 1 ≤ g.nx) (hy : 1 ≤ g.ny) :
    Shape (interpolate g) (2 * g.nx - 1) (2 * g.ny - 1) ∧ ∀ x y : ℕ,
      (interpolate g).val (2 * x, 2 * y) = zeroEdge g (x, y) ∧
      (interpolate g).val (2 * x + 1, 2 * y) = (zeroEdge g (x, y) + zeroEdge g (x + 1, y)) / 2 ∧
      (interpolate g).val (2 * x, 2 * y + 1) = (zeroEdge g (x, y) + zeroEdge g (x, y + 1)) / 2 ∧
      (interpolate g).val (2 * x + 1, 2 * y + 1) =
        (zeroEdge g (x, y) + zeroEdge g (x + 1, y) + zeroEdge g (x, y + 1) + zeroEdge g (x + 1, y + 1)) / 4 := by
  refine ⟨⟨?_, ?_⟩, interpolate_eq g⟩ <;> simp only [interpolate] <;> omega

theorem restrict_val {g : Grid K} (h1 : g.nx % 2 = 1) (h2 : g.ny % 2 = 1) (avg : Bool) :
    restrict g avg = ⟨half g.nx, half g.ny, fun c => if isInterior (half g.nx) (half g.ny) c then
      (if avg then g.val (2 * c.1, 2 * c.2) / 4 else g.val (2 * c.1, 2 * c.2)) else 0⟩ := by
  rw [restrict, if_neg (by rw [odd_false.mpr ⟨h1, h2⟩]; simp)]
  simp only [Grid.mk.injEq, true_and]
  funext c
  cases avg <;> by_cases h : isInterior (half g.nx) (half g.ny) c = true <;> simp [h]

/-- **C42.** `restrict` undoes `interpolate`: the shape and all values inside are restored; the edge values are zero. -/
theorem C42_restrict_interpolate (g : Grid K) (hx : 1 ≤ g.nx) (hy : 1 ≤ g.ny) :
    Shape (restrict (interpolate g)) g.nx g.ny ∧
      (∀ c, Inside g.nx g.ny c → (restrict (interpolate g)).val c = g.val c) ∧
      ∀ c, ¬Inside g.nx g.ny c → (restrict (interpolate g)).val c = 0 := by
  have e1 : (interpolate g).nx = 2 * (g.nx - 1) + 1 := rfl
  have e2 : (interpolate g).ny = 2 * (g.ny - 1) + 1 := rfl
  have e3 : half (interpolate g).nx = g.nx := by rw [e1, half]; omega
  have e4 : half (interpolate g).ny = g.ny := by rw [e2, half]; omega
  rw [restrict_val (by rw [e1]; omega) (by rw [e2]; omega), e3, e4]
  have hin : ∀ c, Inside g.nx g.ny c ↔ isInterior g.nx g.ny c = true := fun c => by
    simp only [Inside, isInterior, decide_eq_true_eq]; rfl
  refine ⟨⟨rfl, rfl⟩, fun c hc => ?_, fun c hc => ?_⟩
  · have := (interpolate_eq g c.1 c.2).1
    simp only [(hin c).mp hc, if_true, Bool.false_eq_true, if_false, this, zeroEdge_eq]
  · simp only [Bool.eq_false_iff.mpr (mt (hin c).mpr hc), Bool.false_eq_true, if_false]

/-- **C42.** Both maps are linear, at every point; in particular zero goes to zero. -/
theorem C42_linear (g h : Grid K) (a : K) (hs : Shape h g.nx g.ny) (avg : Bool) :
    (∀ c, (interpolate (combine g a h)).val c = (interpolate g).val c + a * (interpolate h).val c) ∧
    (∀ c, (restrict (combine g a h) avg).val c = (restrict g avg).val c + a * (restrict h avg).val c) ∧
    ∀ nx ny c, (interpolate (zeros nx ny : Grid K)).val c = 0 ∧ (restrict (zeros nx ny : Grid K) avg).val c = 0 := by
  obtain ⟨h1, h2⟩ := hs
  refine ⟨fun c => ?_, fun c => ?_, fun nx ny c => ⟨?_, ?_⟩⟩
  · rw [interpolate_val, interpolate_val, interpolate_val, h1, h2, ← List.sum_map_mul_left, ← map_add_sum]
    simp only [combine]
    congr 1
    apply List.map_congr_left
    intro p _
    ring
  · by_cases ho : odd g.nx g.ny
    · have ho' : odd h.nx h.ny = true := by rw [h1, h2]; exact ho
      rw [restrict, restrict, restrict, if_pos (by exact ho), if_pos ho, if_pos ho']
      rfl
    · obtain ⟨o1, o2⟩ := odd_false.mp (Bool.eq_false_iff.mpr ho)
      rw [restrict_val (g := combine g a h) o1 o2, restrict_val o1 o2, restrict_val (by rw [h1]; exact o1) (by rw [h2]; exact o2), h1, h2]
      simp only [combine]
      by_cases hi : isInterior (half g.nx) (half g.ny) c = true <;> cases avg <;> simp [hi] <;> ring
  · rw [interpolate_val]
    simp [zeros]
  · rw [restrict]
    by_cases ho : odd (zeros nx ny : Grid K).nx (zeros nx ny : Grid K).ny
    · rw [if_pos ho]; rfl
    · rw [if_neg ho]
      cases avg <;> simp [zeros]

/-- **C42.** For arrays with an odd number of points in both directions, `restrict` takes every second point: a field that is constant
inside stays the same constant at the interior points of the coarse array. Missing: with `avg` the constant is divided by
four (`C42_avg_quarters`). -/
theorem C42_constant_partial (g : Grid K) (h1 : g.nx % 2 = 1) (h2 : g.ny % 2 = 1) (v : K)
    (hv : ∀ c, Inside g.nx g.ny c → g.val c = v) :
    Shape (restrict g) ((g.nx + 1) / 2) ((g.ny + 1) / 2) ∧
      ∀ c, Inside ((g.nx + 1) / 2) ((g.ny + 1) / 2) c → (restrict g).val c = v := by
  have e : ∀ n : ℕ, n % 2 = 1 → half n = (n + 1) / 2 := fun n hn => by rw [half]; omega
  rw [restrict_val h1 h2, e _ h1, e _ h2]
  refine ⟨⟨rfl, rfl⟩, fun c hc => ?_⟩
  have : isInterior ((g.nx + 1) / 2) ((g.ny + 1) / 2) c = true := by
    simp only [Inside, isInterior, decide_eq_true_eq] at hc ⊢; exact hc
  simp only [this, if_true, Bool.false_eq_true, if_false]
  apply hv
  simp only [Inside] at hc ⊢
  omega

/-- **C42 (finding).** `restrict(avg=True)` does not average: it takes a quarter of every second point, so that a constant becomes a
quarter of itself. -/
theorem C42_avg_quarters (g : Grid K) (h1 : g.nx % 2 = 1) (h2 : g.ny % 2 = 1) (c : ℕ × ℕ)
    (hc : Inside ((g.nx + 1) / 2) ((g.ny + 1) / 2) c) : (restrict g true).val c = g.val (2 * c.1, 2 * c.2) / 4 := by
  have e : ∀ n : ℕ, n % 2 = 1 → half n = (n + 1) / 2 := fun n hn => by rw [half]; omega
  rw [restrict_val h1 h2, e _ h1, e _ h2]
  have : isInterior ((g.nx + 1) / 2) ((g.ny + 1) / 2) c = true := by
    simp only [Inside, isInterior, decide_eq_true_eq] at hc ⊢; exact hc
  simp only [this, if_true]

/-- Cases for C42: a 3 × 4 array, and a constant 5 × 5 array with other values on the edge. -/
example : let g : Grid ℚ := ⟨3, 4, fun c => c.1 + 10 * c.2⟩
    ((interpolate g).val (2, 3), (interpolate g).val (2, 2), (interpolate g).val (1, 1)) = (16, 11, 11 / 4) := by decide +kernel
example : (5 % 2 = 1) ∧ (let g : Grid ℚ := ⟨5, 5, fun c => if c.1 = 0 then 9 else 7⟩
    ((restrict g).val (1, 1), (restrict g true).val (1, 1)) = (7, 7 / 4)) := by decide +kernel

/-! ## C43 -/

/-- A solver that belongs to a grid and a matrix. -/
def Good : Solver K → ℕ → ℕ → Mat K → Prop
  | .direct N solve, nx, ny, A => N = A.N ∧ A.N = nx * ny ∧ ∀ b, ∀ i < A.N, matVec A.N A.e (solve b) i = b i
  | .smooth B _ _, nx, ny, A => B = A ∧ A.N = nx * ny ∧ ∀ i < A.N, A.e i i ≠ 0
  | .cycle B _ _ sub, nx, ny, A => B = A ∧ A.N = nx * ny ∧ (∀ i < A.N, A.e i i ≠ 0) ∧ nx % 2 = 1 ∧ ny % 2 = 1 ∧
      ∃ A', Good sub (half nx) (half ny) A'

theorem createVcycle_good {gen : ℕ → ℕ → Except Err (Mat K)} (hgen : Generates gen)
    {factor : Mat K → Except Err ((ℕ → K) → ℕ → K)} (hfac : Factors factor) (niter : ℕ) (direct : Bool) :
    ∀ (nlevels nx ny ncycle : ℕ) {s : Solver K}, createVcycle gen factor niter direct nlevels nx ny ncycle = .ok s →
      ∃ A, gen nx ny = .ok A ∧ Good s nx ny A := by
  have low : ∀ (nx ny ncycle : ℕ) (s : Solver K), createVcycle gen factor niter direct 1 nx ny ncycle = .ok s → ∃ A, gen nx ny = .ok A ∧ Good s nx ny A := by
    intro nx ny ncycle s h
    simp only [createVcycle] at h
    cases hA : gen nx ny with
    | error err => rw [hA] at h; cases h
    | ok A =>
      rw [hA] at h
      simp only [lowest] at h
      refine ⟨A, rfl, ?_⟩
      split_ifs at h
      · cases hf : factor A with
        | error err => rw [hf] at h; cases h
        | ok solve =>
          rw [hf] at h
          cases h
          exact ⟨rfl, (hgen _ _ _ hA).1, hfac _ _ hf⟩
      · cases h
        exact ⟨rfl, hgen _ _ _ hA⟩
  intro nlevels
  induction nlevels using Nat.twoStepInduction with
  | zero => exact fun nx ny ncycle s h => low nx ny ncycle s h
  | one => exact fun nx ny ncycle s h => low nx ny ncycle s h
  | more n _ ih =>
    intro nx ny ncycle s h
    simp only [createVcycle] at h
    by_cases ho : odd nx ny = true
    · rw [if_pos ho] at h
      exact low nx ny ncycle s h
    · rw [if_neg ho] at h
      cases hs : createVcycle gen factor niter direct (n + 1) (half nx) (half ny) 1 with
      | error err => rw [hs] at h; cases h
      | ok sub =>
        rw [hs] at h
        simp only at h
        cases hA : gen nx ny with
        | error err => rw [hA] at h; cases h
        | ok A =>
          rw [hA] at h
          cases h
          obtain ⟨A', _, hsub⟩ := ih _ _ _ hs
          obtain ⟨o1, o2⟩ := odd_false.mp (Bool.eq_false_iff.mpr ho)
          exact ⟨A, rfl, rfl, (hgen _ _ _ hA).1, (hgen _ _ _ hA).2, o1, o2, A', hsub⟩

theorem jacobiStep_ok {A : Mat K} (hd : ∀ i < A.N, A.e i i ≠ 0) (b x : ℕ → K) :
    jacobiStep A b x = .ok fun i => x i + (b i - matVec A.N A.e x i) / A.e i i := by
  rw [jacobiStep, if_neg]
  simp only [List.any_eq_true, List.mem_range, decide_eq_true_eq, not_exists, not_and]
  exact hd

theorem repeatE_ok {α : Type*} {f : α → Except Err α} (h : ∀ x, ∃ y, f x = .ok y) : ∀ n x, ∃ y, repeatE f n x = .ok y
  | 0, x => ⟨x, rfl⟩
  | n + 1, x => by
    obtain ⟨y, hy⟩ := h x
    rw [repeatE, hy]
    exact repeatE_ok h n y

theorem restrict_shape {g : Grid K} (h1 : g.nx % 2 = 1) (h2 : g.ny % 2 = 1) : Shape (restrict g) (half g.nx) (half g.ny) := by
  rw [restrict_val h1 h2]
  exact ⟨rfl, rfl⟩

theorem cycles_ok {A : Mat K} (hd : ∀ i < A.N, A.e i i ≠ 0) {nx ny : ℕ} (hN : A.N = nx * ny) (ncycle niter : ℕ)
    {middle : (ℕ → K) → (ℕ → K) → Except Err (ℕ → K)} (hm : ∀ b v, ∃ y, middle b v = .ok y) {x b : Grid K} (hx : Shape x nx ny)
    (hb : Shape b nx ny) : ∃ y, cycles A ncycle niter middle x b = .ok y ∧ Shape y nx ny := by
  have hj : ∀ v, ∃ y, jacobiStep A b.flat v = .ok y := fun v => ⟨_, jacobiStep_ok hd _ _⟩
  have h1 : ∀ v, ∃ y, oneCycle A niter b.flat (middle b.flat) v = .ok y := by
    intro v
    obtain ⟨x1, e1⟩ := repeatE_ok hj niter v
    obtain ⟨x2, e2⟩ := hm b.flat x1
    obtain ⟨x3, e3⟩ := repeatE_ok hj niter x2
    exact ⟨x3, by rw [oneCycle, e1]; simp only [e2, e3]⟩
  obtain ⟨v, hv⟩ := repeatE_ok h1 ncycle x.flat
  rw [cycles, if_pos (by rw [hx.1, hx.2, hb.1, hb.2, hN]; exact ⟨rfl, rfl⟩), hv]
  exact ⟨_, rfl, hx.1, hx.2⟩

theorem run_ok : ∀ (s : Solver K) {nx ny : ℕ} {A : Mat K}, Good s nx ny A → ∀ {x b : Grid K}, Shape x nx ny → Shape b nx ny →
    ∃ y, run s x b = .ok y ∧ Shape y nx ny
  | .direct N solve, nx, ny, A, h, x, b, hx, hb => by
    obtain ⟨h1, h2, _⟩ := h
    rw [run, if_pos (by rw [hb.1, hb.2, h1, h2])]
    exact ⟨_, rfl, hb⟩
  | .smooth B ncycle niter, nx, ny, A, h, x, b, hx, hb => by
    obtain ⟨rfl, h2, h3⟩ := h
    rw [run]
    exact cycles_ok h3 h2 ncycle niter (fun _ v => ⟨v, rfl⟩) hx hb
  | .cycle B ncycle niter sub, nx, ny, A, h, x, b, hx, hb => by
    obtain ⟨rfl, h2, h3, h4, h5, A', h6⟩ := h
    rw [run]
    refine cycles_ok h3 h2 ncycle niter (fun bv v => ?_) hx hb
    rw [correction]
    simp only
    have hr := restrict_shape (g := ⟨x.nx, x.ny, unflat x.ny fun i => bv i - matVec B.N B.e v i⟩) (by rw [hx.1]; exact h4)
      (by rw [hx.2]; exact h5)
    simp only [hx.1, hx.2] at hr
    obtain ⟨y, hy, hs⟩ := run_ok sub h6 (x := zeros (half nx) (half ny)) ⟨rfl, rfl⟩ hr
    simp only [hx.1, hx.2]
    rw [show zeros (restrict ⟨nx, ny, unflat ny fun i => bv i - matVec B.N B.e v i⟩).nx
      (restrict ⟨nx, ny, unflat ny fun i => bv i - matVec B.N B.e v i⟩).ny = (zeros (half nx) (half ny) : Grid K) by rw [hr.1, hr.2], hy]
    simp only
    rw [if_pos (by simp only [interpolate]; rw [hs.1, hs.2, half_twice h4, half_twice h5])]
    exact ⟨_, rfl⟩

/-- **C43.** A solver made by `createVcycle` for a grid of `nx` × `ny` points accepts arrays of that shape and returns one: at all levels the
restricted arrays have the size of the matrix of the next level, and the interpolated ones the size they are added to. (Any
mismatch raises `ValueError` in the model.) -/
theorem C43_sizes_fit {gen : ℕ → ℕ → Except Err (Mat K)} (hgen : Generates gen) {factor : Mat K → Except Err ((ℕ → K) → ℕ → K)}
    (hfac : Factors factor) (nlevels nx ny ncycle niter : ℕ) (direct : Bool) {s : Solver K}
    (hs : createVcycle gen factor niter direct nlevels nx ny ncycle = .ok s) (x b : Grid K) (hx : Shape x nx ny) (hb : Shape b nx ny) :
    ∃ y, run s x b = .ok y ∧ Shape y nx ny := by
  obtain ⟨A, _, h⟩ := createVcycle_good hgen hfac niter direct nlevels nx ny ncycle hs
  exact run_ok s h hx hb

/-- **C43.** The recursion ends: there are as many levels as asked for, unless the grid cannot be halved so often. Level `k` exists exactly
if `2 ^ (k - 1)` divides both `nx - 1` and `ny - 1`, and `k` is at most `nlevels`. -/
theorem C43_number_of_levels (gen : ℕ → ℕ → Except Err (Mat K)) (factor : Mat K → Except Err ((ℕ → K) → ℕ → K)) (niter : ℕ) (direct : Bool) :
    ∀ (nlevels nx ny ncycle : ℕ), 1 ≤ nlevels → 1 ≤ nx → 1 ≤ ny → ∀ s : Solver K,
      createVcycle gen factor niter direct nlevels nx ny ncycle = .ok s →
      ∀ k, 1 ≤ k → (k ≤ s.levels ↔ k ≤ nlevels ∧ 2 ^ (k - 1) ∣ nx - 1 ∧ 2 ^ (k - 1) ∣ ny - 1) := by
  have low : ∀ (nx ny ncycle : ℕ) (s : Solver K), createVcycle gen factor niter direct 1 nx ny ncycle = .ok s → s.levels = 1 := by
    intro nx ny ncycle s h
    simp only [createVcycle] at h
    cases hA : gen nx ny with
    | error err => rw [hA] at h; cases h
    | ok A =>
      rw [hA] at h
      simp only [lowest] at h
      split_ifs at h
      · cases hf : factor A with
        | error err => rw [hf] at h; cases h
        | ok solve =>
          rw [hf] at h
          cases h
          rfl
      · cases h
        rfl
  intro nlevels
  induction nlevels using Nat.twoStepInduction with
  | zero => intro nx ny ncycle h0; omega
  | one =>
    intro nx ny ncycle _ h1 h2 s h k hk
    rw [low nx ny ncycle s h]
    constructor
    · intro hk'
      have : k = 1 := by omega
      subst this
      simp
    · exact fun h => h.1
  | more n _ ih =>
    intro nx ny ncycle _ h1 h2 s h k hk
    simp only [createVcycle] at h
    by_cases ho : odd nx ny = true
    · rw [if_pos ho] at h
      rw [low nx ny ncycle s h]
      simp only [odd, decide_eq_true_eq] at ho
      constructor
      · intro hk'
        have : k = 1 := by omega
        subst this
        simp
      · rintro ⟨_, d1, d2⟩
        by_contra hc
        obtain ⟨j, rfl⟩ : ∃ j, k = j + 2 := ⟨k - 2, by omega⟩
        rw [show j + 2 - 1 = j + 1 by omega, pow_succ] at d1 d2
        have e1 := dvd_trans (Dvd.intro_left _ rfl) d1
        have e2 := dvd_trans (Dvd.intro_left _ rfl) d2
        omega
    · rw [if_neg ho] at h
      cases hs : createVcycle gen factor niter direct (n + 1) (half nx) (half ny) 1 with
      | error err => rw [hs] at h; cases h
      | ok sub =>
        rw [hs] at h
        simp only at h
        cases hA : gen nx ny with
        | error err => rw [hA] at h; cases h
        | ok A =>
          rw [hA] at h
          cases h
          obtain ⟨o1, o2⟩ := odd_false.mp (Bool.eq_false_iff.mpr ho)
          have := ih (half nx) (half ny) 1 (by omega) (by rw [half]; omega) (by rw [half]; omega) sub hs
          rw [Solver.levels]
          by_cases hk1 : k = 1
          · subst hk1
            simp
          · obtain ⟨j, rfl⟩ : ∃ j, k = j + 2 := ⟨k - 2, by omega⟩
            rw [show j + 2 ≤ sub.levels + 1 ↔ j + 1 ≤ sub.levels by omega, this (j + 1) (by omega)]
            have key : ∀ m : ℕ, m % 2 = 1 → (2 ^ (j + 1 - 1) ∣ half m - 1 ↔ 2 ^ (j + 2 - 1) ∣ m - 1) := by
              intro m hm
              have e : m - 1 = 2 * (half m - 1) := by rw [half]; omega
              rw [e, show j + 2 - 1 = j + 1 by omega, pow_succ', show j + 1 - 1 = j by omega,
                Nat.mul_dvd_mul_iff_left (by omega)]
            rw [key nx o1, key ny o2]
            omega

/-! ## C72: the solver is linear -/

/-- `w = u + a v` on the first `N` indices. -/
def Lin (N : ℕ) (a : K) (u v w : ℕ → K) : Prop := ∀ i < N, w i = u i + a * v i

theorem repeatE_lin {P : (ℕ → K) → (ℕ → K) → (ℕ → K) → Prop} {f g h : (ℕ → K) → Except Err (ℕ → K)}
    (hs : ∀ u v w, P u v w → ∃ u' v' w', f u = .ok u' ∧ g v = .ok v' ∧ h w = .ok w' ∧ P u' v' w') :
    ∀ n u v w, P u v w → ∃ u' v' w', repeatE f n u = .ok u' ∧ repeatE g n v = .ok v' ∧ repeatE h n w = .ok w' ∧ P u' v' w'
  | 0, u, v, w, hp => ⟨u, v, w, rfl, rfl, rfl, hp⟩
  | n + 1, u, v, w, hp => by
    obtain ⟨u', v', w', e1, e2, e3, hp'⟩ := hs u v w hp
    rw [repeatE, repeatE, repeatE, e1, e2, e3]
    exact repeatE_lin hs n u' v' w' hp'

theorem jacobi_lin {A : Mat K} (hd : ∀ i < A.N, A.e i i ≠ 0) {a : K} {b c d : ℕ → K} (hb : Lin A.N a b c d) (u v w : ℕ → K)
    (h : Lin A.N a u v w) : ∃ u' v' w', jacobiStep A b u = .ok u' ∧ jacobiStep A c v = .ok v' ∧ jacobiStep A d w = .ok w' ∧
      Lin A.N a u' v' w' := by
  refine ⟨_, _, _, jacobiStep_ok hd _ _, jacobiStep_ok hd _ _, jacobiStep_ok hd _ _, fun i hi => ?_⟩
  have := matVec_congr (N := A.N) (A := A.e) (u := w) (v := fun i => u i + a * v i) h i
  simp only
  rw [this, matVec_combine, h i hi, hb i hi]
  have := hd i hi
  field_simp
  ring

theorem cycles_lin {A : Mat K} (hd : ∀ i < A.N, A.e i i ≠ 0) {nx ny : ℕ} (hN : A.N = nx * ny) (ncycle niter : ℕ) {a : K}
    {m : (ℕ → K) → (ℕ → K) → Except Err (ℕ → K)}
    (hm : ∀ b c d, Lin A.N a b c d → ∀ u v w, Lin A.N a u v w → ∃ u' v' w', m b u = .ok u' ∧ m c v = .ok v' ∧ m d w = .ok w' ∧
      Lin A.N a u' v' w')
    {x x' x'' b b' b'' : Grid K} (hx : Shape x nx ny) (hx' : Shape x' nx ny) (hx'' : Same x'' (combine x a x')) (hb : Shape b nx ny)
    (hb' : Shape b' nx ny) (hb'' : Same b'' (combine b a b')) :
    ∃ y y' y'', cycles A ncycle niter m x b = .ok y ∧ cycles A ncycle niter m x' b' = .ok y' ∧ cycles A ncycle niter m x'' b'' = .ok y'' ∧
      Shape y nx ny ∧ Shape y' nx ny ∧ Same y'' (combine y a y') := by
  have lin : ∀ {g g' g'' : Grid K}, Shape g nx ny → Shape g' nx ny → Same g'' (combine g a g') → Lin A.N a g.flat g'.flat g''.flat := by
    intro g g' g'' h1 h2 h3 i hi
    obtain ⟨e1, e2, e3⟩ := h3
    have hn : 0 < ny := Nat.pos_of_ne_zero fun h => by rw [h] at hN; omega
    have f1 : g''.ny = ny := e2.trans h1.2
    have f2 : g''.nx = nx := e1.trans h1.1
    simp only [Grid.flat, GS.flat]
    rw [e3, combine, f1, h1.2, h2.2]
    refine ⟨?_, ?_⟩
    · rw [f1, f2]; exact Nat.div_lt_of_lt_mul (by rw [Nat.mul_comm, ← hN]; exact hi)
    · rw [f1]; exact Nat.mod_lt _ hn
  have lx := lin hx hx' hx''
  have lb := lin hb hb' hb''
  have sx'' : Shape x'' nx ny := ⟨hx''.1.trans hx.1, hx''.2.1.trans hx.2⟩
  have sb'' : Shape b'' nx ny := ⟨hb''.1.trans hb.1, hb''.2.1.trans hb.2⟩
  obtain ⟨u, v, w, e1, e2, e3, hl⟩ := repeatE_lin (P := Lin A.N a) (f := oneCycle A niter b.flat (m b.flat))
    (g := oneCycle A niter b'.flat (m b'.flat)) (h := oneCycle A niter b''.flat (m b''.flat)) (by
      intro u v w h
      obtain ⟨u1, v1, w1, p1, p2, p3, h1⟩ := repeatE_lin (jacobi_lin hd lb) niter u v w h
      obtain ⟨u2, v2, w2, q1, q2, q3, h2⟩ := hm _ _ _ lb u1 v1 w1 h1
      obtain ⟨u3, v3, w3, r1, r2, r3, h3⟩ := repeatE_lin (jacobi_lin hd lb) niter u2 v2 w2 h2
      refine ⟨u3, v3, w3, ?_, ?_, ?_, h3⟩
      · rw [oneCycle, p1]; simp only [q1, r1]
      · rw [oneCycle, p2]; simp only [q2, r2]
      · rw [oneCycle, p3]; simp only [q3, r3]) ncycle x.flat x'.flat x''.flat lx
  refine ⟨⟨x.nx, x.ny, unflat x.ny u⟩, ⟨x'.nx, x'.ny, unflat x'.ny v⟩, ⟨x''.nx, x''.ny, unflat x''.ny w⟩, ?_, ?_, ?_, hx, hx', ?_⟩
  · rw [cycles, if_pos (by rw [hx.1, hx.2, hb.1, hb.2, hN]; exact ⟨rfl, rfl⟩), e1]
  · rw [cycles, if_pos (by rw [hx'.1, hx'.2, hb'.1, hb'.2, hN]; exact ⟨rfl, rfl⟩), e2]
  · rw [cycles, if_pos (by rw [sx''.1, sx''.2, sb''.1, sb''.2, hN]; exact ⟨rfl, rfl⟩), e3]
  · refine ⟨hx''.1, hx''.2.1, fun c hc => ?_⟩
    simp only [combine, unflat]
    rw [sx''.2, hx.2, hx'.2]
    apply hl
    obtain ⟨c1, c2⟩ := hc
    simp only [sx''.1, sx''.2] at c1 c2
    rw [hN]
    exact row_lt c1 c2

theorem restrict_lin {g g' g'' : Grid K} {a : K} (h1 : g.nx % 2 = 1) (h2 : g.ny % 2 = 1) (h' : Shape g' g.nx g.ny)
    (h'' : Same g'' (combine g a g')) : Same (restrict g'') (combine (restrict g) a (restrict g')) := by
  obtain ⟨e1, e2, e3⟩ := h''
  have e1 : g''.nx = g.nx := e1
  have e2 : g''.ny = g.ny := e2
  rw [restrict_val h1 h2, restrict_val (g := g') (by rw [h'.1]; exact h1) (by rw [h'.2]; exact h2),
    restrict_val (g := g'') (by rw [e1]; exact h1) (by rw [e2]; exact h2)]
  refine ⟨by simp only [combine, e1], by simp only [combine, e2], fun c hc => ?_⟩
  simp only [combine, e1, e2, h'.1, h'.2, Bool.false_eq_true, if_false] at hc ⊢
  by_cases hi : isInterior (half g.nx) (half g.ny) c = true
  · simp only [hi, if_true]
    rw [e3]
    · rfl
    · rw [isInterior, decide_eq_true_eq] at hi
      simp only [half] at hi
      exact ⟨by rw [e1]; omega, by rw [e2]; omega⟩
  · simp [hi]

theorem interpolate_lin {g g' g'' : Grid K} {a : K} (h' : Shape g' g.nx g.ny) (h'' : Same g'' (combine g a g')) (c : ℕ × ℕ) :
    (interpolate g'').val c = (interpolate g).val c + a * (interpolate g').val c := by
  obtain ⟨e1, e2, e3⟩ := h''
  rw [← (C42_linear g g' a h' false).1 c, interpolate_val, interpolate_val]
  rw [show g''.nx = (combine g a g').nx from e1, show g''.ny = (combine g a g').ny from e2]
  congr 1
  apply List.map_congr_left
  intro p hp
  rw [e3]
  have := mem_interior.mp hp
  simp only [isInterior, decide_eq_true_eq] at this
  exact ⟨by rw [e1]; omega, by rw [e2]; omega⟩

theorem run_lin (a : K) : ∀ (s : Solver K) {nx ny : ℕ} {A : Mat K}, Good s nx ny A → ∀ {x x' x'' b b' b'' : Grid K}, Shape x nx ny →
    Shape x' nx ny → Same x'' (combine x a x') → Shape b nx ny → Shape b' nx ny → Same b'' (combine b a b') →
    ∃ y y' y'', run s x b = .ok y ∧ run s x' b' = .ok y' ∧ run s x'' b'' = .ok y'' ∧ Shape y nx ny ∧ Shape y' nx ny ∧
      Same y'' (combine y a y')
  | .direct N solve, nx, ny, A, h, x, x', x'', b, b', b'', hx, hx', hx'', hb, hb', hb'' => by
    obtain ⟨rfl, h2, h3⟩ := h
    have sb'' : Shape b'' nx ny := ⟨hb''.1.trans hb.1, hb''.2.1.trans hb.2⟩
    rw [run, run, run, if_pos (by rw [hb.1, hb.2, h2]), if_pos (by rw [hb'.1, hb'.2, h2]), if_pos (by rw [sb''.1, sb''.2, h2])]
    refine ⟨_, _, _, rfl, rfl, rfl, hb, hb', hb''.1, hb''.2.1, fun c hc => ?_⟩
    simp only [combine, unflat]
    obtain ⟨c1, c2⟩ := hc
    simp only [sb''.1, sb''.2] at c1 c2
    rw [sb''.2, hb.2, hb'.2]
    refine unique_of_solvable h3 (u := solve b''.flat) (v := fun i => solve b.flat i + a * solve b'.flat i) ?_ _
      (by rw [h2]; exact row_lt c1 c2)
    intro i hi
    rw [matVec_combine, h3 _ i hi, h3 _ i hi, h3 _ i hi]
    have hn : 0 < ny := by omega
    simp only [Grid.flat, GS.flat]
    rw [hb''.2.2, combine, sb''.2, hb.2, hb'.2]
    refine ⟨?_, ?_⟩
    · rw [sb''.1, sb''.2]; exact Nat.div_lt_of_lt_mul (by rw [Nat.mul_comm, ← h2]; exact hi)
    · rw [sb''.2]; exact Nat.mod_lt _ hn
  | .smooth B ncycle niter, nx, ny, A, h, x, x', x'', b, b', b'', hx, hx', hx'', hb, hb', hb'' => by
    obtain ⟨rfl, h2, h3⟩ := h
    rw [run, run, run]
    exact cycles_lin h3 h2 ncycle niter (fun _ _ _ _ u v w h => ⟨u, v, w, rfl, rfl, rfl, h⟩) hx hx' hx'' hb hb' hb''
  | .cycle B ncycle niter sub, nx, ny, A, h, x, x', x'', b, b', b'', hx, hx', hx'', hb, hb', hb'' => by
    obtain ⟨rfl, h2, h3, h4, h5, A', h6⟩ := h
    have sx'' : Shape x'' nx ny := ⟨hx''.1.trans hx.1, hx''.2.1.trans hx.2⟩
    rw [run, run, run, hx.1, hx.2, hx'.1, hx'.2, sx''.1, sx''.2]
    refine cycles_lin h3 h2 ncycle niter (m := fun bv => correction B nx ny bv (run sub)) ?_ hx hx' hx'' hb hb' hb''
    intro b c d hb u v w hu
    simp only [correction]
    set g : Grid K := ⟨nx, ny, unflat ny fun i => b i - matVec B.N B.e u i⟩ with hg
    set g' : Grid K := ⟨nx, ny, unflat ny fun i => c i - matVec B.N B.e v i⟩ with hg'
    set g'' : Grid K := ⟨nx, ny, unflat ny fun i => d i - matVec B.N B.e w i⟩ with hg''
    have sg : Same g'' (combine g a g') := by
      refine ⟨rfl, rfl, fun p hp => ?_⟩
      simp only [hg, hg', hg'', combine, unflat]
      rw [matVec_congr (u := w) (v := fun i => u i + a * v i) hu, matVec_combine, hb _ (by rw [h2]; exact row_lt hp.1 hp.2)]
      ring
    have r := restrict_shape (g := g) h4 h5
    have r' := restrict_shape (g := g') h4 h5
    have r'' := restrict_shape (g := g'') h4 h5
    have hr := restrict_lin (g := g) (g' := g') h4 h5 ⟨rfl, rfl⟩ sg
    rw [r.1, r.2, r'.1, r'.2, r''.1, r''.2]
    obtain ⟨y, y', y'', p1, p2, p3, q1, q2, q3⟩ := run_lin a sub h6 (x := zeros (half nx) (half ny)) (x' := zeros (half nx) (half ny))
      (x'' := zeros (half nx) (half ny)) ⟨rfl, rfl⟩ ⟨rfl, rfl⟩ ⟨rfl, rfl, fun c _ => by simp [combine, zeros]⟩ r r' hr
    have q4 : Shape y'' (half nx) (half ny) := ⟨q3.1.trans q1.1, q3.2.1.trans q1.2⟩
    have sz : ∀ z : Grid K, Shape z (half nx) (half ny) → (interpolate z).nx = nx ∧ (interpolate z).ny = ny := fun z hz =>
      ⟨by simp only [interpolate]; rw [hz.1, half_twice h4], by simp only [interpolate]; rw [hz.2, half_twice h5]⟩
    have e1 : g.nx = nx := rfl
    have e2 : g.ny = ny := rfl
    rw [e1, e2, p1, p2, p3]
    simp only [(sz y q1).1, (sz y q1).2, (sz y' q2).1, (sz y' q2).2, (sz y'' q4).1, (sz y'' q4).2, if_true]
    refine ⟨_, _, _, rfl, rfl, rfl, fun i hi => ?_⟩
    simp only
    rw [hu i hi]
    simp only [Grid.flat, GS.flat, (sz y q1).2, (sz y' q2).2, (sz y'' q4).2]
    rw [interpolate_lin ⟨q2.1.trans q1.1.symm, q2.2.trans q1.2.symm⟩ q3]
    ring

/-- **C72.** The solver made by `createVcycle` is linear in the starting guess and the right-hand side together: the result for
`x + a x'`, `b + a b'` is the result for `x`, `b` plus `a` times the one for `x'`, `b'`. -/
theorem C72_solver_linear {gen : ℕ → ℕ → Except Err (Mat K)} (hgen : Generates gen) {factor : Mat K → Except Err ((ℕ → K) → ℕ → K)}
    (hfac : Factors factor) (nlevels nx ny ncycle niter : ℕ) (direct : Bool) {s : Solver K}
    (hs : createVcycle gen factor niter direct nlevels nx ny ncycle = .ok s) (a : K) (x x' b b' : Grid K) (hx : Shape x nx ny)
    (hx' : Shape x' nx ny) (hb : Shape b nx ny) (hb' : Shape b' nx ny) :
    ∃ y y' y'', run s x b = .ok y ∧ run s x' b' = .ok y' ∧ run s (combine x a x') (combine b a b') = .ok y'' ∧
      Same y'' (combine y a y') := by
  obtain ⟨A, _, h⟩ := createVcycle_good hgen hfac niter direct nlevels nx ny ncycle hs
  obtain ⟨y, y', y'', h1, h2, h3, _, _, h4⟩ := run_lin a s h hx hx' ⟨rfl, rfl, fun _ _ => rfl⟩ hb hb' ⟨rfl, rfl, fun _ _ => rfl⟩
  exact ⟨y, y', y'', h1, h2, h3, h4⟩

/-! ## C41 -/

theorem repeatE_inv {P : (ℕ → K) → Prop} {f : (ℕ → K) → Except Err (ℕ → K)} (hs : ∀ u, P u → ∃ u', f u = .ok u' ∧ P u') :
    ∀ n u, P u → ∃ u', repeatE f n u = .ok u' ∧ P u'
  | 0, u, hp => ⟨u, rfl, hp⟩
  | n + 1, u, hp => by
    obtain ⟨u', e1, hp'⟩ := hs u hp
    rw [repeatE, e1]
    exact repeatE_inv hs n u' hp'

theorem cycles_fixed {A : Mat K} (hd : ∀ i < A.N, A.e i i ≠ 0) {nx ny : ℕ} (hN : A.N = nx * ny) (ncycle niter : ℕ)
    {m : (ℕ → K) → (ℕ → K) → Except Err (ℕ → K)}
    (hm : ∀ b u, (∀ i < A.N, matVec A.N A.e u i = b i) → ∃ u', m b u = .ok u' ∧ ∀ i < A.N, u' i = u i)
    {x b : Grid K} (hx : Shape x nx ny) (hb : Shape b nx ny) (h : Solves nx ny A.e x.val b.val) :
    ∃ y, cycles A ncycle niter m x b = .ok y ∧ Same y x := by
  have hAx : ∀ i < A.N, matVec A.N A.e x.flat i = b.flat i := by
    intro i hi
    obtain ⟨p, q, hp, hq, rfl⟩ := exists_row (nx := nx) (ny := ny) (by rw [← hN]; exact hi)
    have := h (p, q) ⟨hp, hq⟩
    simp only [Grid.flat, hx.2, hb.2] at this ⊢
    rw [flat_row hq, hN]
    exact this
  have hj : ∀ u : ℕ → K, (∀ i < A.N, u i = x.flat i) → ∃ u', jacobiStep A b.flat u = .ok u' ∧ ∀ i < A.N, u' i = x.flat i := by
    intro u hu
    refine ⟨_, jacobiStep_ok hd _ _, fun i hi => ?_⟩
    rw [matVec_congr hu, hAx i hi, hu i hi, sub_self, zero_div, add_zero]
  obtain ⟨v, hv, hvx⟩ := repeatE_inv (P := fun u => ∀ i < A.N, u i = x.flat i) (f := oneCycle A niter b.flat (m b.flat)) (by
    intro u hu
    obtain ⟨u1, e1, h1⟩ := repeatE_inv hj niter u hu
    obtain ⟨u2, e2, h2⟩ := hm b.flat u1 (fun i hi => by rw [matVec_congr h1]; exact hAx i hi)
    obtain ⟨u3, e3, h3⟩ := repeatE_inv hj niter u2 (fun i hi => (h2 i hi).trans (h1 i hi))
    exact ⟨u3, by rw [oneCycle, e1]; simp only [e2, e3], h3⟩) ncycle x.flat (fun _ _ => rfl)
  refine ⟨⟨x.nx, x.ny, unflat x.ny v⟩, by rw [cycles, if_pos (by rw [hx.1, hx.2, hb.1, hb.2, hN]; exact ⟨rfl, rfl⟩), hv], rfl, rfl,
    fun c hc => ?_⟩
  simp only [unflat]
  obtain ⟨c1, c2⟩ := hc
  simp only [hx.1, hx.2] at c1 c2
  rw [hvx, Grid.flat, hx.2, flat_row c2]
  rw [hx.2, hN]
  exact row_lt c1 c2

theorem run_fixed : ∀ (s : Solver K) {nx ny : ℕ} {A : Mat K}, Good s nx ny A → ∀ {x b : Grid K}, Shape x nx ny → Shape b nx ny →
    Solves nx ny A.e x.val b.val → ∃ y, run s x b = .ok y ∧ Same y x
  | .direct N solve, nx, ny, A, h, x, b, hx, hb, hs => by
    obtain ⟨rfl, h2, h3⟩ := h
    rw [run, if_pos (by rw [hb.1, hb.2, h2])]
    refine ⟨_, rfl, hb.1.trans hx.1.symm, hb.2.trans hx.2.symm, fun c hc => ?_⟩
    obtain ⟨c1, c2⟩ := hc
    simp only [hb.1, hb.2] at c1 c2
    simp only [unflat]
    rw [hb.2, ← flat_row (x := c.1) c2 x.val]
    refine unique_of_solvable h3 (fun i hi => ?_) _ (by rw [h2]; exact row_lt c1 c2)
    rw [h3 _ i hi]
    obtain ⟨p, q, hp, hq, rfl⟩ := exists_row (nx := nx) (ny := ny) (by rw [← h2]; exact hi)
    rw [Grid.flat, hb.2, flat_row hq, ← hs (p, q) ⟨hp, hq⟩, h2]
  | .smooth B ncycle niter, nx, ny, A, h, x, b, hx, hb, hs => by
    obtain ⟨rfl, h2, h3⟩ := h
    rw [run]
    exact cycles_fixed h3 h2 ncycle niter (fun _ u _ => ⟨u, rfl, fun _ _ => rfl⟩) hx hb hs
  | .cycle B ncycle niter sub, nx, ny, A, h, x, b, hx, hb, hs => by
    obtain ⟨rfl, h2, h3, h4, h5, A', h6⟩ := h
    rw [run, hx.1, hx.2]
    refine cycles_fixed h3 h2 ncycle niter (m := fun bv => correction B nx ny bv (run sub)) ?_ hx hb hs
    intro b u hu
    simp only [correction]
    set g : Grid K := ⟨nx, ny, unflat ny fun i => b i - matVec B.N B.e u i⟩ with hg
    have r := restrict_shape (g := g) h4 h5
    have hz : ∀ c, (restrict g).val c = 0 := by
      intro c
      rw [restrict_val h4 h5]
      by_cases hi : isInterior (half g.nx) (half g.ny) c = true
      · simp only [Bool.false_eq_true, if_false, hg, unflat]
        rw [isInterior, decide_eq_true_eq] at hi
        simp only [half, hg] at hi
        rw [hu _ (by rw [h2]; exact row_lt (by omega) (by omega)), sub_self, ite_self]
      · simp [hi]
    have hzs : Solves (half nx) (half ny) A'.e (zeros (half nx) (half ny) : Grid K).val (restrict g).val := by
      intro c hc
      rw [hz]
      simp [matVec, GS.flat, zeros]
    obtain ⟨y, p1, p2⟩ := run_fixed sub h6 (x := zeros (half nx) (half ny)) ⟨rfl, rfl⟩ r hzs
    have e1 : g.nx = nx := rfl
    have e2 : g.ny = ny := rfl
    rw [r.1, r.2, e1, e2, p1]
    have s1 : (interpolate y).nx = nx := by simp only [interpolate]; rw [p2.1]; exact half_twice h4
    have s2 : (interpolate y).ny = ny := by simp only [interpolate]; rw [p2.2.1]; exact half_twice h5
    simp only [s1, s2, if_true]
    refine ⟨_, rfl, fun i _ => ?_⟩
    simp only [Grid.flat, GS.flat]
    rw [interpolate_val, List.sum_eq_zero, add_zero]
    intro v hv
    obtain ⟨p, hp, rfl⟩ := List.mem_map.mp hv
    have := mem_interior.mp hp
    simp only [isInterior, decide_eq_true_eq] at this
    rw [p2.2.2 p ⟨by omega, by omega⟩]
    simp [zeros]

/-- **C41.** For any number of levels, cycles and smoothing steps, with a direct solver or Jacobi steps on the lowest level, the solver made
by `createVcycle` returns its starting guess unchanged if that solves `A x = b`. -/
theorem C41_exact_solution_unchanged {gen : ℕ → ℕ → Except Err (Mat K)} (hgen : Generates gen)
    {factor : Mat K → Except Err ((ℕ → K) → ℕ → K)} (hfac : Factors factor) (nlevels nx ny ncycle niter : ℕ) (direct : Bool)
    {s : Solver K} (hs : createVcycle gen factor niter direct nlevels nx ny ncycle = .ok s) {A : Mat K} (hA : gen nx ny = .ok A)
    (x b : Grid K) (hx : Shape x nx ny) (hb : Shape b nx ny) (hsol : Solves nx ny A.e x.val b.val) :
    ∃ y, run s x b = .ok y ∧ Same y x := by
  obtain ⟨A', hA', h⟩ := createVcycle_good hgen hfac niter direct nlevels nx ny ncycle hs
  rw [hA] at hA'
  cases hA'
  exact run_fixed s h hx hb hsol

/-- **C72.** The error of the result is the result for the error: if `x*` solves `A x* = b`, then starting from `x` the difference of the
result from `x*` is what the solver makes of `x - x*` with right-hand side zero. It does not depend on `b`. -/
theorem C72_error_propagation {gen : ℕ → ℕ → Except Err (Mat K)} (hgen : Generates gen)
    {factor : Mat K → Except Err ((ℕ → K) → ℕ → K)} (hfac : Factors factor) (nlevels nx ny ncycle niter : ℕ) (direct : Bool)
    {s : Solver K} (hs : createVcycle gen factor niter direct nlevels nx ny ncycle = .ok s) {A : Mat K} (hA : gen nx ny = .ok A)
    (x xs b : Grid K) (hx : Shape x nx ny) (hxs : Shape xs nx ny) (hb : Shape b nx ny) (hsol : Solves nx ny A.e xs.val b.val) :
    ∃ y e, run s x b = .ok y ∧ run s (combine x (-1) xs) (zeros nx ny) = .ok e ∧ Same (combine y (-1) xs) e := by
  obtain ⟨A', hA', h⟩ := createVcycle_good hgen hfac niter direct nlevels nx ny ncycle hs
  obtain ⟨ys, h1, h2⟩ := C41_exact_solution_unchanged hgen hfac nlevels nx ny ncycle niter direct hs hA xs b hxs hb hsol
  obtain ⟨y, ys', e, e1, e2, e3, q1, _, e4⟩ := run_lin (-1) s h hx hxs (x'' := combine x (-1) xs) ⟨rfl, rfl, fun _ _ => rfl⟩ hb hb
    (b'' := zeros nx ny) ⟨hb.1.symm, hb.2.symm, fun c _ => by simp [combine, zeros]⟩
  rw [h1] at e2
  cases e2
  refine ⟨y, e, e1, e3, e4.1.symm, e4.2.1.symm, fun c hc => ?_⟩
  have hc' : OnGrid nx ny c := by rw [← q1.1, ← q1.2]; exact hc
  rw [e4.2.2 c (by rw [e4.1, e4.2.1]; exact hc)]
  simp only [combine]
  rw [h2.2.2 c (by rw [h2.1, h2.2.1, hxs.1, hxs.2]; exact hc')]

/-- **C41.** One Jacobi step leaves `x` unchanged only if it solves the equation: with a matrix, and with an operator
(`smoothJacobi`). -/
theorem C41_jacobi_unchanged_only_if :
    (∀ (A : Mat K) (b x y : ℕ → K), jacobiStep A b x = .ok y →
      ((∀ i < A.N, y i = x i) ↔ ∀ i < A.N, matVec A.N A.e x i = b i)) ∧
    ∀ (A : Op K) (dx dy : K) (b x y : Grid K), smoothJacobi A dx dy b x = .ok y →
      (Same y x ↔ ∀ c, OnGrid x.nx x.ny c → A.apply dx dy x c = b.val c) := by
  constructor
  · intro A b x y h
    rw [jacobiStep] at h
    split_ifs at h with hd
    simp only [List.any_eq_true, List.mem_range, decide_eq_true_eq, not_exists, not_and] at hd
    cases h
    refine forall_congr' fun i => forall_congr' fun hi => ?_
    simp only
    have := hd i hi
    rw [add_eq_left, div_eq_zero_iff, or_iff_left this, sub_eq_zero, eq_comm]
  · intro A dx dy b x y h
    rw [smoothJacobi] at h
    split_ifs at h with h1 hd
    simp only [List.any_eq_true, List.mem_range, decide_eq_true_eq, not_exists, not_and] at hd
    cases h
    simp only [Same, true_and]
    refine forall_congr' fun c => forall_congr' fun hc => ?_
    rw [add_eq_left, div_eq_zero_iff, or_iff_left (hd c.1 hc.1 c.2 hc.2), sub_eq_zero, eq_comm]

end FreeGS.MG
