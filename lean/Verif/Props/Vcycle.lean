import Verif.Lemmas.VcycleGrowth

/-!
# C122: convergence of the multigrid solver
-/

set_option linter.unusedSectionVars false

namespace FreeGS.MG

open FreeGS.GS
open FreeGS.Critical (Domain)

variable {K : Type*} [Field K] [LinearOrder K] [IsStrictOrderedRing K]

/-- **C122.** The solver made by `setSolverVcycle` converges to the solution of the Grad-Shafranov matrix equation, if enough Jacobi steps
are made on each level: for every grid, number of levels and `q > 0` there is a number of steps from which on each cycle
multiplies the largest error by at most `q`, for every right-hand side and starting guess and any number of cycles. Missing:
for few steps this fails (`C122_no_steps_fails`, `C122_growth_fails`). -/
theorem C122_converges_partial [Archimedean K] (d : Domain K) (h0 : 0 ≤ d.Rmin) (hR : d.Rmin < d.Rmax) (hZ : d.Zmin < d.Zmax) (direct : Bool)
    (nlevels nx ny : ℕ) (hnx : 2 ≤ nx) (hny : 2 ≤ ny) (q : K) (hq : 0 < q) :
    ∃ n, ∀ niter, n ≤ niter → ∀ factor : Mat K → Except Err ((ℕ → K) → ℕ → K), Factors factor → ∀ ncycle s,
      setSolverVcycle d factor nx ny nlevels ncycle niter direct = .ok s →
      ∀ x b xs : Grid K, Shape x nx ny → Shape b nx ny → Shape xs nx ny → Solves nx ny (gsSparse d nx ny) xs.val b.val → ∀ M : K,
        (∀ c, OnGrid nx ny c → |x.val c - xs.val c| ≤ M) →
        ∃ y, run s x b = .ok y ∧ Shape y nx ny ∧ ∀ c, OnGrid nx ny c → |y.val c - xs.val c| ≤ q ^ ncycle * M :=
  vcycle_contracts d h0 hR hZ direct nlevels nx ny hnx hny q hq

/-- **C122.** Hence, with enough steps on each level, more and more cycles reach any accuracy from any starting guess. -/
theorem C122_any_accuracy_partial [Archimedean K] (d : Domain K) (h0 : 0 ≤ d.Rmin) (hR : d.Rmin < d.Rmax) (hZ : d.Zmin < d.Zmax) (direct : Bool)
    (nlevels nx ny : ℕ) (hnx : 2 ≤ nx) (hny : 2 ≤ ny) :
    ∃ n, ∀ niter, n ≤ niter → ∀ factor : Mat K → Except Err ((ℕ → K) → ℕ → K), Factors factor →
      ∀ x b xs : Grid K, Shape x nx ny → Shape b nx ny → Shape xs nx ny → Solves nx ny (gsSparse d nx ny) xs.val b.val → ∀ ε : K, 0 < ε →
        ∃ m, ∀ ncycle, m ≤ ncycle → ∀ s, setSolverVcycle d factor nx ny nlevels ncycle niter direct = .ok s →
          ∃ y, run s x b = .ok y ∧ Shape y nx ny ∧ ∀ c, OnGrid nx ny c → |y.val c - xs.val c| < ε := by
  obtain ⟨n, hn⟩ := C122_converges_partial d h0 hR hZ direct nlevels nx ny hnx hny (1 / 2) (by norm_num)
  refine ⟨n, fun niter hle factor hfac x b xs hx hb hxs hsol ε hε => ?_⟩
  let S := (Finset.range nx ×ˢ Finset.range ny : Finset (ℕ × ℕ))
  let M : K := ∑ c ∈ S, |x.val c - xs.val c|
  have hM : ∀ c, OnGrid nx ny c → |x.val c - xs.val c| ≤ M := fun c hc =>
    Finset.single_le_sum (f := fun c => |x.val c - xs.val c|) (fun _ _ => abs_nonneg _)
      (Finset.mem_product.mpr ⟨Finset.mem_range.mpr hc.1, Finset.mem_range.mpr hc.2⟩)
  have hM0 : 0 ≤ M := Finset.sum_nonneg fun _ _ => abs_nonneg _
  obtain ⟨m, hm⟩ := exists_pow_lt_of_lt_one (show 0 < ε / (M + 1) by positivity) (show (1 / 2 : K) < 1 by norm_num)
  refine ⟨m, fun ncycle hc s hs => ?_⟩
  obtain ⟨y, h1, h2, h3⟩ := hn niter hle factor hfac ncycle s hs x b xs hx hb hxs hsol M hM
  refine ⟨y, h1, h2, fun c hc' => lt_of_le_of_lt (h3 c hc') ?_⟩
  have p := lt_of_le_of_lt (pow_le_pow_of_le_one (by norm_num : (0 : K) ≤ 1 / 2) (by norm_num) hc) hm
  rw [lt_div_iff₀ (by positivity)] at p
  have := pow_nonneg (by norm_num : (0 : K) ≤ 1 / 2) ncycle
  nlinarith

/-- The hypotheses of C122 are met: four levels on a 17 × 9 grid, for every right-hand side. -/
example (b : Grid ℚ) (hb : Shape b 17 9) (niter ncycle : ℕ) : ∃ (s : Solver ℚ) (xs : Grid ℚ), setSolverVcycle ⟨1, 2, -1, 1⟩ someFactor 17 9 4 ncycle niter true = .ok s ∧
    Factors (someFactor (K := ℚ)) ∧ Shape xs 17 9 ∧ Solves 17 9 (gsSparse ⟨1, 2, -1, 1⟩ 17 9) xs.val b.val := by
  obtain ⟨s, hs⟩ := vcycle_exists (⟨1, 2, -1, 1⟩ : Domain ℚ) (by norm_num) (by norm_num) (by norm_num) niter true 4 17 9 ncycle (by norm_num)
    (by norm_num)
  obtain ⟨psi, hpsi⟩ := (C35_unique_solution (⟨1, 2, -1, 1⟩ : Domain ℚ) 17 9 (by norm_num) (by norm_num) (by norm_num) (by norm_num) (by norm_num)
    b.val).1
  exact ⟨s, ⟨17, 9, psi⟩, hs, someFactor_factors, ⟨rfl, rfl⟩, hpsi⟩

/-- **C122 (finding).** `restrict` passes only every second value of the residual to the next level, instead of a mean of its neighbours.
So without Jacobi steps (`niter = 0`) nothing is done about the residual at the other points: for a right-hand side that is not zero at
one of them only, any number of cycles on any number of levels returns the starting guess zero. -/
theorem C122_no_steps_fails (d : Domain K) (hR : d.Rmin < d.Rmax) (hZ : d.Zmin < d.Zmax) (nx ny : ℕ) (hnx : 3 ≤ nx) (hny : 3 ≤ ny)
    (o1 : nx % 2 = 1) (o2 : ny % 2 = 1) : ∃ b : Grid K, Shape b nx ny ∧ ¬Solves nx ny (gsSparse d nx ny) (fun _ => 0) b.val ∧
      ∀ factor : Mat K → Except Err ((ℕ → K) → ℕ → K), Factors factor → ∀ (direct : Bool) (nlevels ncycle : ℕ) (s : Solver K), 2 ≤ nlevels →
        setSolverVcycle d factor nx ny nlevels ncycle 0 direct = .ok s → ∃ y, run s (zeros nx ny) b = .ok y ∧ Same y (zeros nx ny) := by
  have hz : ∀ (N : ℕ) (A : ℕ → ℕ → K) (r : ℕ), matVec N A (fun _ => 0) r = 0 := by intro N A r; simp [matVec]
  refine ⟨⟨nx, ny, fun c => if c = (1, 1) then 1 else 0⟩, ⟨rfl, rfl⟩, fun h => ?_, fun factor hfac direct nlevels ncycle s hl hs => ?_⟩
  · have := h (1, 1) ⟨by simp only; omega, by simp only; omega⟩
    rw [show GS.flat ny (fun _ => (0 : K)) = fun _ => 0 from rfl, hz] at this
    simp at this
  · obtain ⟨n, rfl⟩ : ∃ n, nlevels = n + 2 := ⟨nlevels - 2, by omega⟩
    have ho : odd nx ny = false := odd_false.mpr ⟨o1, o2⟩
    simp only [setSolverVcycle, createVcycle, ho, Bool.false_eq_true, if_false, gsGen, if_neg (show ¬(nx = 1 ∨ ny = 1) by omega)] at hs
    cases hsub : createVcycle (gsGen d) factor 0 direct (n + 1) (half nx) (half ny) 1 with
    | error err => rw [hsub] at hs; cases hs
    | ok sub =>
      rw [hsub] at hs
      cases hs
      obtain ⟨A', hA', hgood⟩ := createVcycle_good (gs_generates d hR hZ) hfac 0 direct (n + 1) (half nx) (half ny) 1 hsub
      set b : Grid K := ⟨nx, ny, fun c => if c = (1, 1) then 1 else 0⟩ with hb
      -- the correction to zero is zero
      have hcor : ∀ u : ℕ → K, (∀ i < nx * ny, u i = 0) → ∃ u', correction ⟨nx * ny, gsSparse d nx ny⟩ nx ny b.flat (run sub) u = .ok u' ∧
          ∀ i < nx * ny, u' i = 0 := by
        intro u hu
        set g : Grid K := ⟨nx, ny, unflat ny fun i => b.flat i - matVec (nx * ny) (gsSparse d nx ny) u i⟩ with hg
        have r := restrict_shape (g := g) o1 o2
        have hval : ∀ c, (restrict g).val c = 0 := by
          intro c
          rw [restrict_val o1 o2]
          simp only [Bool.false_eq_true, if_false]
          split_ifs with hi
          · simp only [hg, unflat]
            rw [matVec_congr (v := fun _ => 0) hu, hz]
            have h := isInterior_iff.mp hi
            simp only [hg, half] at h
            simp only [hb, Grid.flat]
            rw [flat_row (by omega), if_neg, sub_zero]
            intro hc
            have := congrArg Prod.fst hc
            simp only at this
            omega
          · rfl
        obtain ⟨y, hy, hsame⟩ := run_fixed sub hgood (x := zeros (half nx) (half ny)) (b := restrict g) ⟨rfl, rfl⟩ r (fun c hc => by
          rw [hval]
          rw [show GS.flat (half ny) (zeros (half nx) (half ny) : Grid K).val = fun _ => 0 from rfl, hz])
        have hy0 : ∀ c, |(interpolate y).val c| ≤ 0 := interpolate_bound le_rfl (fun c hc => by
          rw [hsame.2.2 c hc]; simp [zeros])
        refine ⟨fun i => u i + (interpolate y).flat i, ?_, fun i hi => ?_⟩
        · rw [correction]
          simp only
          rw [← hg, r.1, r.2]
          simp only [hg]
          rw [← hg, hy]
          simp only
          rw [if_pos]
          simp only [interpolate]
          rw [hsame.1, hsame.2.1]
          simp only [zeros]
          rw [half_twice o1, half_twice o2]
        · simp only
          rw [hu i hi, zero_add]
          exact abs_eq_zero.mp (le_antisymm (hy0 _) (abs_nonneg _))
      obtain ⟨v, hv, hv0⟩ := repeatE_inv (P := fun u => ∀ i < nx * ny, u i = 0)
        (f := oneCycle ⟨nx * ny, gsSparse d nx ny⟩ 0 b.flat (correction ⟨nx * ny, gsSparse d nx ny⟩ nx ny b.flat (run sub))) (fun u hu => by
          obtain ⟨u', e, h⟩ := hcor u hu
          exact ⟨u', by simp only [oneCycle, repeatE, e], h⟩) ncycle (zeros nx ny : Grid K).flat (fun i _ => rfl)
      refine ⟨⟨nx, ny, unflat ny v⟩, ?_, rfl, rfl, fun c hc => ?_⟩
      · rw [run, cycles, if_pos ⟨rfl, rfl⟩]
        rw [show (zeros nx ny : Grid K).nx = nx from rfl, show (zeros nx ny : Grid K).ny = ny from rfl, hv]
      · simp only [unflat, zeros]
        exact hv0 _ (row_lt hc.1 hc.2)

/-- **C122 (finding).** For the same reason a cycle can make the error larger instead of smaller, by any factor and whatever the number of
Jacobi steps: for each `niter` and `F` there are a grid and a starting guess such that one cycle on two levels, with an
exact solver on the second, multiplies the largest error by more than `F`. The solution here is zero. -/
theorem C122_growth_fails [Archimedean K] (niter : ℕ) (F : K) : ∃ (n : ℕ) (x : Grid K), 3 ≤ n ∧ Shape x n n ∧
    Solves n n (gsSparse ⟨1, 2, 0, 1⟩ n n) (zeros n n : Grid K).val (zeros n n : Grid K).val ∧
    ∀ factor : Mat K → Except Err ((ℕ → K) → ℕ → K), Factors factor → ∀ s, setSolverVcycle ⟨1, 2, 0, 1⟩ factor n n 2 1 niter true = .ok s →
      ∃ y c, run s x (zeros n n) = .ok y ∧ OnGrid n n c ∧ ∀ c', OnGrid n n c' → F * |x.val c'| < |y.val c| := by
  obtain ⟨N, hN⟩ := exists_nat_gt (max (5 * |F| + 6) (5 / 2 * niter + 2))
  have hN1 : 5 * |F| + 6 < (N : K) := lt_of_le_of_lt (le_max_left _ _) hN
  have hN2 : 5 / 2 * (niter : K) + 2 < N := lt_of_le_of_lt (le_max_right _ _) hN
  have hF := abs_nonneg F
  have hN3 : 6 < N := by
    have : (6 : K) < N := by linarith
    exact_mod_cast this
  have hn1 : (0 : K) < ((2 * N : ℕ) : K) - 1 := by push_cast; linarith
  set mu : K := decay (2 * N) with hmu
  have hsmall : 5 / 4 / (((2 * N : ℕ) : K) - 1) ≤ 1 := by
    rw [div_le_one hn1]; push_cast; linarith
  have hmu0 : 0 ≤ mu := by rw [hmu, decay]; linarith
  have hmu1 : mu ≤ 1 := by
    rw [hmu, decay]
    have : 0 ≤ 5 / 4 / (((2 * N : ℕ) : K) - 1) := by positivity
    linarith
  have hmuk : 1 / 2 ≤ mu ^ niter := by
    have b := one_add_mul_le_pow (a := -(5 / 4 / (((2 * N : ℕ) : K) - 1))) (by linarith) niter
    have e : 1 + -(5 / 4 / (((2 * N : ℕ) : K) - 1)) = mu := by rw [hmu, decay]; ring
    rw [e] at b
    have : (niter : K) * (5 / 4 / (((2 * N : ℕ) : K) - 1)) ≤ 1 / 2 := by
      rw [mul_div_assoc', div_le_iff₀ hn1]
      push_cast
      have : (0 : K) ≤ niter := Nat.cast_nonneg _
      linarith
    linarith
  have hmuk1 : mu ^ niter ≤ 1 := pow_le_one₀ hmu0 hmu1
  set S : K := hill (2 * N) (N, N) with hS
  have hS0 : 0 < S := by
    rw [hS, hill]
    push_cast
    have : (0 : K) < N := by linarith
    have h2 : (0 : K) < 2 * N - N := by linarith
    positivity
  set a : K := -(-1) ^ niter with ha
  have haa : a * a = 1 := by
    rw [ha, neg_mul_neg, ← mul_pow]; norm_num
  have habs : |a| = 1 := by rw [ha, abs_neg, abs_pow, abs_neg, abs_one, one_pow]
  have hch : ∀ c : ℕ × ℕ, |(chess c : K)| = 1 := by intro c; rw [chess, abs_pow, abs_neg, abs_one, one_pow]
  set x : Grid K := ⟨2 * N + 1, 2 * N + 1, fun c => a * (chess c * hill (2 * N) c)⟩ with hx
  have hzero : (zeros (2 * N + 1) (2 * N + 1) : Grid K).flat = fun _ => 0 := rfl
  refine ⟨2 * N + 1, x, by omega, ⟨rfl, rfl⟩, fun c hc => by
    rw [show GS.flat (2 * N + 1) (zeros (2 * N + 1) (2 * N + 1) : Grid K).val = fun _ => 0 from rfl]; simp [matVec, zeros], fun factor hfac s hs => ?_⟩
  have o1 : (2 * N + 1) % 2 = 1 := by omega
  have hh : half (2 * N + 1) = N + 1 := by rw [half]; omega
  have ho : odd (2 * N + 1) (2 * N + 1) = false := odd_false.mpr ⟨o1, o1⟩
  have hb : (⟨1, 2, 0, 1⟩ : Domain K) = box := rfl
  rw [hb] at hs
  simp only [setSolverVcycle, createVcycle, ho, Bool.false_eq_true, if_false, gsGen, lowest, if_true, hh,
    if_neg (show ¬(2 * N + 1 = 1 ∨ 2 * N + 1 = 1) by omega), if_neg (show ¬(N + 1 = 1 ∨ N + 1 = 1) by omega)] at hs
  cases hf : factor ⟨(N + 1) * (N + 1), gsSparse box (N + 1) (N + 1)⟩ with
  | error err => rw [hf] at hs; cases hs
  | ok solve =>
    rw [hf] at hs
    cases hs
    -- the steps before the correction
    obtain ⟨u1, v1, e1, h1, h2⟩ := steps_chess (K := K) (n := 2 * N) (by omega) hmu0 (S := S) niter x.flat (hill (2 * N)) a 1 haa zero_le_one
      (fun p q hp hq => by rw [hx, Grid.flat, flat_row hq])
      (fun p q hp hq => by rw [one_mul]; exact ⟨le_rfl, hill_le hp hq⟩)
    have hsign : (-1) ^ niter * a = (-1 : K) := by
      rw [ha, mul_neg, ← mul_pow]; norm_num
    simp only [hsign, mul_one] at h1 h2
    -- the right-hand side of the second level
    set g : Grid K := ⟨2 * N + 1, 2 * N + 1, unflat (2 * N + 1) fun i => (0 : K) -
      matVec ((2 * N + 1) * (2 * N + 1)) (gsSparse box (2 * N + 1) (2 * N + 1)) u1 i⟩ with hg
    have r := restrict_shape (g := g) o1 o1
    simp only [hg] at r
    rw [← hg, hh] at r
    have hu1 : ∀ p q, p < 2 * N + 1 → q < 2 * N + 1 → unflat (2 * N + 1) u1 (p, q) = (-1) * (chess (p, q) * v1 (p, q)) + 0 * v1 (p, q) := by
      intro p q hp hq
      rw [show unflat (2 * N + 1) u1 (p, q) = u1 (p * (2 * N + 1) + q) from rfl, h1 p q hp hq]
      ring
    have hval : ∀ p q, (restrict g).val (p, q) = if isInterior (N + 1) (N + 1) (p, q) then
        -(4 * ((2 * N : ℕ) : K) ^ 2 * (mean (2 * N) v1 (2 * p, 2 * q) + v1 (2 * p, 2 * q))) else 0 := by
      intro p q
      rw [restrict_val o1 o1]
      simp only [Bool.false_eq_true, if_false]
      rw [show half g.nx = N + 1 from hh]
      by_cases hi : isInterior (N + 1) (N + 1) (p, q) = true
      · rw [if_pos hi, if_pos hi]
        have h := isInterior_iff.mp hi
        simp only at h
        have hi2 : isInterior (2 * N + 1) (2 * N + 1) (2 * p, 2 * q) = true :=
          isInterior_iff.mpr ⟨by simp only; omega, by simp only; omega, by simp only; omega, by simp only; omega⟩
        simp only [hg, unflat]
        rw [← matVec_congr (u := GS.flat (2 * N + 1) (unflat (2 * N + 1) u1)) (fun i _ => flat_unflat u1 i (by omega)),
          box_apply (by omega) _ (by omega) (by omega), if_pos hi2,
          mean_congr (v := fun c => (-1) * (chess c * v1 c) + 0 * v1 c) hu1 (by omega) (by omega), mean_add (2 * N) (fun c => chess c * v1 c) v1,
          mean_chess, hu1 _ _ (by omega) (by omega)]
        have : (chess (2 * p, 2 * q) : K) = 1 := by
          rw [chess]; exact Even.neg_one_pow ⟨p + q, by simp only; ring⟩
        rw [this]
        ring
      · rw [if_neg hi, if_neg hi]
    set z : Arr K := unflat (N + 1) (solve (restrict g).flat) with hzdef
    have hz : Solves (N + 1) (N + 1) (gsSparse box (N + 1) (N + 1)) z (restrict g).val := by
      intro c hc
      rw [hzdef, matVec_congr (v := solve (restrict g).flat) (fun i _ => flat_unflat _ i (by omega)),
        hfac _ _ hf (restrict g).flat _ (row_lt hc.1 hc.2), Grid.flat, r.2, flat_row hc.2]
    have hNm : (0 : K) < (N : K) - 1 := by linarith
    have hzb := coarse_bound (K := K) (by omega : 2 ≤ N) hz (c := 256 / 5 * ((N : K) - 1) * mu ^ niter) (by positivity)
      (fun p q hi => by
        have h := isInterior_iff.mp hi
        simp only at h
        rw [hval, if_pos hi]
        have m := (h2 (2 * p) (2 * q) (by omega) (by omega)).1
        have m2 : 0 ≤ mean (2 * N) v1 (2 * p, 2 * q) := by
          have := mean_mono (K := K) (n := 2 * N) (u := fun _ => 0) (v := v1) (by omega) (fun x y hx hy =>
            le_trans (mul_nonneg (pow_nonneg hmu0 niter) (hill_nonneg hx hy)) (h2 x y hx hy).1) (by omega : 2 * p < 2 * N + 1)
            (by omega : 2 * q < 2 * N + 1)
          refine le_trans (le_of_eq ?_) this
          simp [mean]
        have e : (hill (2 * N) (2 * p, 2 * q) : K) = 16 * hill N (p, q) := by
          simp only [hill]; push_cast; ring
        rw [e] at m
        have e2 : 256 / 5 * ((N : K) - 1) * mu ^ niter * (5 * (N : K) ^ 2 / ((N : K) - 1)) * hill N (p, q) =
            16 * (N : K) ^ 2 * (mu ^ niter * (16 * hill N (p, q))) := by
          field_simp
          ring
        rw [e2]
        have e3 : 4 * ((2 * N : ℕ) : K) ^ 2 = 16 * (N : K) ^ 2 := by push_cast; ring
        rw [e3]
        have := mul_le_mul_of_nonneg_left (show mu ^ niter * (16 * hill N (p, q)) ≤ mean (2 * N) v1 (2 * p, 2 * q) + v1 (2 * p, 2 * q) by linarith)
          (show (0 : K) ≤ 16 * (N : K) ^ 2 by positivity)
        linarith)
      (fun p hp => by
        obtain ⟨p, q⟩ := p
        rw [hval, if_neg]
        intro hi
        have h := isInterior_iff.mp hi
        simp only [OnEdge, OnGrid] at hp h
        omega)
    have hint := interpolate_hill (K := K) (by omega : 2 ≤ N) (g := ⟨N + 1, N + 1, z⟩) ⟨rfl, rfl⟩ (by positivity) hzb
    -- the correction
    set y1 : Grid K := ⟨N + 1, N + 1, z⟩ with hy1
    have hcor : correction ⟨(2 * N + 1) * (2 * N + 1), gsSparse box (2 * N + 1) (2 * N + 1)⟩ (2 * N + 1) (2 * N + 1) (fun _ => (0 : K))
        (run (.direct ((N + 1) * (N + 1)) solve)) u1 = .ok fun i => u1 i + (interpolate y1).flat i := by
      rw [correction]
      simp only
      rw [← hg, r.1, r.2]
      simp only [run]
      rw [if_pos (by rw [r.1, r.2])]
      simp only [r.1, r.2]
      rw [← hzdef, ← hy1, if_pos]
      simp only [interpolate, hy1]
      rw [show 2 * (N + 1 - 1) + 1 = 2 * N + 1 by omega]
    -- the steps after it
    obtain ⟨u3, e3, h3⟩ := steps_sum (K := K) (n := 2 * N) (by omega) hmu0 hS0.le niter (fun i => u1 i + (interpolate y1).flat i)
      (fun c => (-1) * (chess c * v1 c)) (fun c => (interpolate y1).val c) (256 / 5 * ((N : K) - 1) * mu ^ niter / 64) (by positivity)
      (fun p q hp hq => by
        rw [h1 p q hp hq, Grid.flat, show (interpolate y1).ny = 2 * N + 1 by simp only [interpolate, hy1]; omega, flat_row hq])
      (fun p q hp hq => by
        refine ⟨?_, hint p q hp hq⟩
        have h := h2 p q hp hq
        rw [abs_mul, abs_mul, hch, abs_neg, abs_one, one_mul, one_mul,
          abs_of_nonneg (le_trans (mul_nonneg (pow_nonneg hmu0 niter) (hill_nonneg hp hq)) h.1)]
        exact h.2)
    refine ⟨⟨2 * N + 1, 2 * N + 1, unflat (2 * N + 1) u3⟩, (N, N), ?_, ⟨by simp only; omega, by simp only; omega⟩, fun c' hc' => ?_⟩
    · rw [run, cycles, if_pos ⟨rfl, rfl⟩]
      rw [show x.nx = 2 * N + 1 from rfl, show x.ny = 2 * N + 1 from rfl, hzero]
      simp only [repeatE, oneCycle, e1, hcor, e3]
    · have h := h3 N N (by omega) (by omega)
      have hxle : |x.val c'| ≤ S := by
        simp only [hx]
        rw [abs_mul, abs_mul, habs, hch, one_mul, one_mul, abs_of_nonneg (hill_nonneg hc'.1 hc'.2)]
        exact hill_le hc'.1 hc'.2
      have hy : |F| * S < u3 (N * (2 * N + 1) + N) := by
        refine lt_of_lt_of_le ?_ h
        rw [← hS, ← hmu]
        have m : 1 / 4 ≤ mu ^ niter * mu ^ niter := by nlinarith
        have m2 : (4 / 5 * ((N : K) - 1)) * (1 / 4) ≤ 4 / 5 * ((N : K) - 1) * (mu ^ niter * mu ^ niter) :=
          mul_le_mul_of_nonneg_left m (by linarith)
        have m3 : |F| + 1 < mu ^ niter * (256 / 5 * ((N : K) - 1) * mu ^ niter / 64) := by
          have : mu ^ niter * (256 / 5 * ((N : K) - 1) * mu ^ niter / 64) = 4 / 5 * ((N : K) - 1) * (mu ^ niter * mu ^ niter) := by ring
          rw [this]
          linarith
        have m4 := mul_lt_mul_of_pos_right m3 hS0
        linarith
      calc F * |x.val c'| ≤ |F| * |x.val c'| := mul_le_mul_of_nonneg_right (le_abs_self F) (abs_nonneg _)
        _ ≤ |F| * S := mul_le_mul_of_nonneg_left hxle hF
        _ < u3 (N * (2 * N + 1) + N) := hy
        _ ≤ _ := le_abs_self _

/-- The solvers of `C122_no_steps_fails` and `C122_growth_fails` exist. -/
example (n niter : ℕ) (hn : 3 ≤ n) : ∃ s, setSolverVcycle (⟨1, 2, 0, 1⟩ : Domain ℚ) someFactor n n 2 1 niter true = .ok s :=
  vcycle_exists _ (by norm_num) (by norm_num) (by norm_num) niter true 2 n n 1 (by omega) (by omega)

end FreeGS.MG
