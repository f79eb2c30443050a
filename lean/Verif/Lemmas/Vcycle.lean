import Verif.Props.Smoothing
import Verif.Props.Convergence

/-!
# Lemmas on the error of a V-cycle
-/

set_option linter.unusedSectionVars false

namespace FreeGS.MG

open FreeGS.GS
open FreeGS.Critical (Domain)

variable {K : Type*} [Field K] [LinearOrder K] [IsStrictOrderedRing K]

/-- The values of two flattened arrays differ by at most `M`. -/
def Near (nx ny : ℕ) (u v : ℕ → K) (M : K) : Prop := ∀ x y, x < nx → y < ny → |u (x * ny + y) - v (x * ny + y)| ≤ M

theorem Near.nonneg {nx ny : ℕ} (hnx : 2 ≤ nx) (hny : 2 ≤ ny) {u v : ℕ → K} {M : K} (h : Near nx ny u v M) : 0 ≤ M :=
  le_trans (abs_nonneg _) (h 0 0 (by omega) (by omega))

/-- The bound of the weights. -/
def top (ny : ℕ) : K := (ny : K) ^ 2 + 1

theorem top_ge (ny : ℕ) : (1 : K) ≤ top ny := by
  rw [top]; nlinarith [sq_nonneg (ny : K)]

/-- Jacobi steps. -/
theorem steps_error (d : Domain K) {nx ny : ℕ} (hnx : 2 ≤ nx) (hny : 2 ≤ ny) (h0 : 0 ≤ d.Rmin) (hR : d.Rmin < d.Rmax)
    (hZ : d.Zmin < d.Zmax) {b xs : ℕ → K} (hsol : ∀ i < nx * ny, matVec (nx * ny) (gsSparse d nx ny) xs i = b i) (n : ℕ) {u : ℕ → K} {M : K}
    (hM : Near nx ny u xs M) : ∃ u', repeatE (jacobiStep ⟨nx * ny, gsSparse d nx ny⟩ b) n u = .ok u' ∧
      Near nx ny u' xs (top ny * rate d nx ny ^ n * M) := by
  obtain ⟨q0, q1⟩ := rate_bounds d hnx hny hR hZ
  have hM0 := hM.nonneg hnx hny
  have hd := (gs_generates d hR hZ nx ny ⟨nx * ny, gsSparse d nx ny⟩ (by rw [gsGen, if_neg (by omega)])).2
  have key : ∀ n (N : K) (u : ℕ → K), (∀ x y, x < nx → y < ny → |u (x * ny + y) - xs (x * ny + y)| ≤ N * weight ny y) →
      ∃ u', repeatE (jacobiStep ⟨nx * ny, gsSparse d nx ny⟩ b) n u = .ok u' ∧
        ∀ x y, x < nx → y < ny → |u' (x * ny + y) - xs (x * ny + y)| ≤ rate d nx ny ^ n * N * weight ny y := by
    intro n
    induction n with
    | zero => exact fun N u h => ⟨u, rfl, by simpa using h⟩
    | succ n ih =>
      intro N u h
      obtain ⟨u', e, h'⟩ := ih (rate d nx ny * N) (fun i => u i + (b i - matVec (nx * ny) (gsSparse d nx ny) u i) / gsSparse d nx ny i i) (jacobi_error d hnx hny h0 hR hZ hsol h)
      refine ⟨u', by rw [repeatE, jacobiStep_ok hd]; exact e, fun x y hx hy => ?_⟩
      have := h' x y hx hy
      rw [pow_succ]
      calc _ ≤ _ := this
        _ = _ := by ring
  obtain ⟨u', e, h⟩ := key n M u (fun x y hx hy => le_trans (hM x y hx hy) (le_mul_of_one_le_right hM0 (weight_bounds hy).1))
  refine ⟨u', e, fun x y hx hy => le_trans (h x y hx hy) ?_⟩
  have w := (weight_bounds (K := K) hy).2
  calc rate d nx ny ^ n * M * weight ny y ≤ rate d nx ny ^ n * M * top ny :=
        mul_le_mul_of_nonneg_left w (mul_nonneg (pow_nonneg q0 n) hM0)
    _ = _ := by ring

/-- The sum of the inverse squares of the distances of grid points. -/
def fineness (d : Domain K) (nx ny : ℕ) : K := 1 / stepR d nx ^ 2 + 1 / stepZ d ny ^ 2

/-- The residual belonging to an error. -/
theorem residual_bound (d : Domain K) {nx ny : ℕ} (hnx : 2 ≤ nx) (hny : 2 ≤ ny) (h0 : 0 ≤ d.Rmin) (hR : d.Rmin < d.Rmax)
    (hZ : d.Zmin < d.Zmax) {b xs u : ℕ → K} (hsol : ∀ i < nx * ny, matVec (nx * ny) (gsSparse d nx ny) xs i = b i) {M : K}
    (hM : Near nx ny u xs M) {x y : ℕ} (hi : isInterior nx ny (x, y) = true) :
    |b (x * ny + y) - matVec (nx * ny) (gsSparse d nx ny) u (x * ny + y)| ≤ 4 * fineness d nx ny * M := by
  obtain ⟨h1, h2, h3, h4⟩ := isInterior_iff.mp hi
  simp only at h1 h2 h3 h4
  have hx : x < nx := by omega
  have hy : y < ny := by omega
  have hny0 : 0 < ny := by omega
  set e : Arr K := unflat ny fun i => u i - xs i with he
  have hev : ∀ p q, e (p, q) = u (p * ny + q) - xs (p * ny + q) := fun p q => rfl
  have hflat : ∀ i, GS.flat ny e i = u i - xs i := fun i => flat_unflat _ i hny0
  have hmv : matVec (nx * ny) (gsSparse d nx ny) u (x * ny + y) = b (x * ny + y) +
      matVec (nx * ny) (gsSparse d nx ny) (GS.flat ny e) (x * ny + y) := by
    rw [matVec_congr (u := GS.flat ny e) (v := fun i => u i - xs i) (fun i _ => hflat i), matVec_sub, hsol _ (row_lt hx hy)]
    ring
  rw [hmv, gsSparse_apply d nx ny e hx hy, show ∀ a c : K, a - (a + c) = -c by intros; ring, abs_neg]
  simp only [elliptic, hi, if_true]
  have a : 0 < spacingR d nx := spacing_pos hR hnx
  have c : 0 < spacingZ d ny := spacing_pos hZ hny
  set R := d.Rmin + spacingR d nx * (x : K) with hRdef
  have hx1 : (1 : K) ≤ x := by exact_mod_cast h1
  have hRge : spacingR d nx ≤ R := by rw [hRdef]; nlinarith
  have hf : fineness d nx ny = 1 / spacingR d nx ^ 2 + 1 / spacingZ d ny ^ 2 := rfl
  rw [hf]
  set iR := 1 / spacingR d nx ^ 2 with hiR
  set iZ := 1 / spacingZ d ny ^ 2 with hiZ
  have hiR0 : 0 < iR := by positivity
  have hiZ0 : 0 < iZ := by positivity
  set t := 1 / (2 * R * spacingR d nx) with ht
  have hR0 : 0 < R := lt_of_lt_of_le a hRge
  have ht0 : 0 < t := by positivity
  have htR : t ≤ iR := by
    rw [ht, hiR]
    refine one_div_le_one_div_of_le (by positivity) ?_
    nlinarith
  have eu := hM x (y + 1) hx h4
  have ed := hM x (y - 1) hx (by omega)
  have el := hM (x - 1) y (by omega) hy
  have er := hM (x + 1) y h2 hy
  have ec := hM x y hx hy
  rw [← hev] at eu ed el er ec
  rw [abs_le] at *
  have b1 := mul_le_mul_of_nonneg_left ed.2 hiZ0.le
  have b1' := mul_le_mul_of_nonneg_left ed.1 hiZ0.le
  have b2 := mul_le_mul_of_nonneg_left el.2 (show 0 ≤ iR + t by positivity)
  have b2' := mul_le_mul_of_nonneg_left el.1 (show 0 ≤ iR + t by positivity)
  have b3 := mul_le_mul_of_nonneg_left er.2 (sub_nonneg.mpr htR)
  have b3' := mul_le_mul_of_nonneg_left er.1 (sub_nonneg.mpr htR)
  have b4 := mul_le_mul_of_nonneg_left eu.2 hiZ0.le
  have b4' := mul_le_mul_of_nonneg_left eu.1 hiZ0.le
  have b5 := mul_le_mul_of_nonneg_left ec.2 (show 0 ≤ 2 * (iR + iZ) by positivity)
  have b5' := mul_le_mul_of_nonneg_left ec.1 (show 0 ≤ 2 * (iR + iZ) by positivity)
  constructor <;> linarith

theorem interpolate_bound {g : Grid K} {M : K} (h0 : 0 ≤ M) (h : ∀ c, OnGrid g.nx g.ny c → |g.val c| ≤ M) (c : ℕ × ℕ) :
    |(interpolate g).val c| ≤ M := by
  have hz : ∀ c, |zeroEdge g c| ≤ M := by
    intro c
    rw [zeroEdge]
    split_ifs with hc
    · exact h c ⟨by omega, by omega⟩
    · simpa using h0
  obtain ⟨x, y⟩ := c
  obtain ⟨i1, i2, i3, i4⟩ := interpolate_eq g (x / 2) (y / 2)
  have z1 := abs_le.mp (hz (x / 2, y / 2))
  have z2 := abs_le.mp (hz (x / 2 + 1, y / 2))
  have z3 := abs_le.mp (hz (x / 2, y / 2 + 1))
  have z4 := abs_le.mp (hz (x / 2 + 1, y / 2 + 1))
  rcases Nat.mod_two_eq_zero_or_one x with hx | hx <;> rcases Nat.mod_two_eq_zero_or_one y with hy | hy
  · rw [show (x, y) = (2 * (x / 2), 2 * (y / 2)) by ext <;> simp only <;> omega, i1]
    exact hz _
  · rw [show (x, y) = (2 * (x / 2), 2 * (y / 2) + 1) by ext <;> simp only <;> omega, i3, abs_le]
    constructor <;> linarith
  · rw [show (x, y) = (2 * (x / 2) + 1, 2 * (y / 2)) by ext <;> simp only <;> omega, i2, abs_le]
    constructor <;> linarith
  · rw [show (x, y) = (2 * (x / 2) + 1, 2 * (y / 2) + 1) by ext <;> simp only <;> omega, i4, abs_le]
    constructor <;> linarith

/-- Whatever the right-hand side, the solver multiplies errors by at most `q`. -/
def Contracts (d : Domain K) (nx ny : ℕ) (s : Solver K) (q : K) : Prop :=
  ∀ x b xs : Grid K, Shape x nx ny → Shape b nx ny → Shape xs nx ny → Solves nx ny (gsSparse d nx ny) xs.val b.val → ∀ M : K,
    (∀ c, OnGrid nx ny c → |x.val c - xs.val c| ≤ M) →
    ∃ y, run s x b = .ok y ∧ Shape y nx ny ∧ ∀ c, OnGrid nx ny c → |y.val c - xs.val c| ≤ q * M

/-- By how much the correction from the next level can increase an error. -/
def growth (d : Domain K) (nx ny : ℕ) : K := 1 + (d.Zmax - d.Zmin) ^ 2 * fineness d nx ny

theorem fineness_pos (d : Domain K) {nx ny : ℕ} (hnx : 2 ≤ nx) (hny : 2 ≤ ny) (hR : d.Rmin < d.Rmax) (hZ : d.Zmin < d.Zmax) :
    0 < fineness d nx ny := by
  have a : 0 < stepR d nx := spacing_pos hR hnx
  have b : 0 < stepZ d ny := spacing_pos hZ hny
  rw [fineness]
  positivity

theorem growth_ge (d : Domain K) {nx ny : ℕ} (hnx : 2 ≤ nx) (hny : 2 ≤ ny) (hR : d.Rmin < d.Rmax) (hZ : d.Zmin < d.Zmax) :
    1 ≤ growth d nx ny := by
  have := fineness_pos d hnx hny hR hZ
  rw [growth]
  nlinarith [mul_nonneg (sq_nonneg (d.Zmax - d.Zmin)) this.le]

/-- The correction from the next level. -/
theorem correction_error (d : Domain K) {nx ny : ℕ} (hnx : 2 ≤ nx) (hny : 2 ≤ ny) (h0 : 0 ≤ d.Rmin) (hR : d.Rmin < d.Rmax)
    (hZ : d.Zmin < d.Zmax) (o1 : nx % 2 = 1) (o2 : ny % 2 = 1) {sub : Solver K} (hsub : Contracts d (half nx) (half ny) sub 1)
    {b xs u : ℕ → K} (hsol : ∀ i < nx * ny, matVec (nx * ny) (gsSparse d nx ny) xs i = b i) {M : K} (hM : Near nx ny u xs M) :
    ∃ u', correction ⟨nx * ny, gsSparse d nx ny⟩ nx ny b (run sub) u = .ok u' ∧ Near nx ny u' xs (growth d nx ny * M) := by
  have hM0 := hM.nonneg hnx hny
  have hf := fineness_pos d hnx hny hR hZ
  have hhx : 2 ≤ half nx := by rw [half]; omega
  have hhy : 2 ≤ half ny := by rw [half]; omega
  set g : Grid K := ⟨nx, ny, unflat ny fun i => b i - matVec (nx * ny) (gsSparse d nx ny) u i⟩ with hg
  have r := restrict_shape (g := g) o1 o2
  have hval : ∀ c, (restrict g).val c = if isInterior (half nx) (half ny) c then g.val (2 * c.1, 2 * c.2) else 0 := by
    intro c
    rw [restrict_val o1 o2]
    simp [hg]
  obtain ⟨zs, hzs⟩ := (C35_unique_solution d (half nx) (half ny) hhx hhy h0 hR hZ (restrict g).val).1
  have hz : ∀ c, OnGrid (half nx) (half ny) c → |zs c| ≤ 0 + (d.Zmax - d.Zmin) ^ 2 / 8 * (4 * fineness d nx ny * M) := by
    refine C92_stability d (half nx) (half ny) hhx hhy h0 hR hZ zs _ hzs 0 (4 * fineness d nx ny * M) (fun c hc => ?_) (fun c hc => ?_)
      (by positivity)
    · rw [hval, if_neg]
      · simp
      · intro hi
        have h := isInterior_iff.mp hi
        simp only [OnEdge, OnGrid] at hc
        omega
    · have hi : isInterior (half nx) (half ny) c = true := inside_iff.mp hc
      rw [hval, if_pos hi]
      refine residual_bound d hnx hny h0 hR hZ hsol hM ?_
      have h := isInterior_iff.mp hi
      simp only [half] at h
      exact isInterior_iff.mpr ⟨by simp only; omega, by simp only; omega, by simp only; omega, by simp only; omega⟩
  obtain ⟨y, hy, sy, ey⟩ := hsub (zeros (half nx) (half ny)) (restrict g) ⟨half nx, half ny, zs⟩ ⟨rfl, rfl⟩ r ⟨rfl, rfl⟩ hzs
    (0 + (d.Zmax - d.Zmin) ^ 2 / 8 * (4 * fineness d nx ny * M)) (fun c hc => by simpa [zeros] using hz c hc)
  set N := 0 + (d.Zmax - d.Zmin) ^ 2 / 8 * (4 * fineness d nx ny * M) with hN
  have hN0 : 0 ≤ N := by rw [hN]; positivity
  have hyb : ∀ c, OnGrid y.nx y.ny c → |y.val c| ≤ 2 * N := by
    intro c hc
    rw [sy.1, sy.2] at hc
    have a1 := abs_le.mp (ey c hc)
    have a2 := abs_le.mp (hz c hc)
    simp only at a1 a2
    rw [abs_le]
    constructor <;> linarith
  have hup := interpolate_bound (g := y) (M := 2 * N) (by linarith) hyb
  refine ⟨fun i => u i + (interpolate y).flat i, ?_, fun p q hp hq => ?_⟩
  · rw [correction]
    simp only
    rw [← hg, r.1, r.2]
    simp only [hg]
    rw [← hg, hy]
    simp only
    rw [if_pos]
    simp only [interpolate]
    rw [sy.1, sy.2, half_twice o1, half_twice o2]
  · have a1 := abs_le.mp (hM p q hp hq)
    have a2 := abs_le.mp (hup ((p * ny + q) / (interpolate y).ny, (p * ny + q) % (interpolate y).ny))
    have a2 : -(2 * N) ≤ (interpolate y).flat (p * ny + q) ∧ (interpolate y).flat (p * ny + q) ≤ 2 * N := a2
    have e : growth d nx ny * M = M + 2 * N := by rw [hN, growth]; ring
    rw [e, abs_le]
    constructor <;> linarith

/-- One cycle with any correction that increases errors by at most a factor `L`. -/
theorem cycle_error (d : Domain K) {nx ny : ℕ} (hnx : 2 ≤ nx) (hny : 2 ≤ ny) (h0 : 0 ≤ d.Rmin) (hR : d.Rmin < d.Rmax)
    (hZ : d.Zmin < d.Zmax) {b xs : ℕ → K} (hsol : ∀ i < nx * ny, matVec (nx * ny) (gsSparse d nx ny) xs i = b i) {L q : K} {niter : ℕ}
    (hq : top ny * rate d nx ny ^ niter * (L * (top ny * rate d nx ny ^ niter)) ≤ q)
    {middle : (ℕ → K) → Except Err (ℕ → K)}
    (hm : ∀ u M, Near nx ny u xs M → ∃ u', middle u = .ok u' ∧ Near nx ny u' xs (L * M)) :
    ∀ (n : ℕ) (u : ℕ → K) (M : K), Near nx ny u xs M →
      ∃ u', repeatE (oneCycle ⟨nx * ny, gsSparse d nx ny⟩ niter b middle) n u = .ok u' ∧ Near nx ny u' xs (q ^ n * M) := by
  intro n
  induction n with
  | zero => exact fun u M h => ⟨u, rfl, by simpa using h⟩
  | succ n ih =>
    intro u M h
    have hM0 := h.nonneg hnx hny
    obtain ⟨u1, e1, h1⟩ := steps_error d hnx hny h0 hR hZ hsol niter h
    obtain ⟨u2, e2, h2⟩ := hm _ _ h1
    obtain ⟨u3, e3, h3⟩ := steps_error d hnx hny h0 hR hZ hsol niter h2
    have h3' : Near nx ny u3 xs (q * M) := fun x y hx hy => by
      refine le_trans (h3 x y hx hy) ?_
      calc top ny * rate d nx ny ^ niter * (L * (top ny * rate d nx ny ^ niter * M))
          = top ny * rate d nx ny ^ niter * (L * (top ny * rate d nx ny ^ niter)) * M := by ring
        _ ≤ q * M := mul_le_mul_of_nonneg_right hq hM0
    obtain ⟨u4, e4, h4⟩ := ih u3 _ h3'
    refine ⟨u4, by rw [repeatE, oneCycle, e1]; simp only [e2, e3]; exact e4, fun x y hx hy => ?_⟩
    have := h4 x y hx hy
    rw [pow_succ]
    calc _ ≤ _ := this
      _ = _ := by ring

theorem cycles_contract (d : Domain K) {nx ny : ℕ} (hnx : 2 ≤ nx) (hny : 2 ≤ ny) (h0 : 0 ≤ d.Rmin) (hR : d.Rmin < d.Rmax)
    (hZ : d.Zmin < d.Zmax) {L q : K} {ncycle niter : ℕ}
    (hq : top ny * rate d nx ny ^ niter * (L * (top ny * rate d nx ny ^ niter)) ≤ q)
    {middle : (ℕ → K) → (ℕ → K) → Except Err (ℕ → K)}
    (hm : ∀ b xs : ℕ → K, (∀ i < nx * ny, matVec (nx * ny) (gsSparse d nx ny) xs i = b i) →
      ∀ u M, Near nx ny u xs M → ∃ u', middle b u = .ok u' ∧ Near nx ny u' xs (L * M))
    {x b xs : Grid K} (hx : Shape x nx ny) (hb : Shape b nx ny) (hxs : Shape xs nx ny)
    (hsol : Solves nx ny (gsSparse d nx ny) xs.val b.val) {M : K} (hM : ∀ c, OnGrid nx ny c → |x.val c - xs.val c| ≤ M) :
    ∃ y, cycles ⟨nx * ny, gsSparse d nx ny⟩ ncycle niter middle x b = .ok y ∧ Shape y nx ny ∧
      ∀ c, OnGrid nx ny c → |y.val c - xs.val c| ≤ q ^ ncycle * M := by
  have hs : ∀ i < nx * ny, matVec (nx * ny) (gsSparse d nx ny) xs.flat i = b.flat i := by
    intro i hi
    obtain ⟨p, q, hp, hq, rfl⟩ := exists_row hi
    rw [Grid.flat, hxs.2, Grid.flat, hb.2, flat_row hq]
    exact hsol (p, q) ⟨hp, hq⟩
  obtain ⟨v, hv, hE⟩ := cycle_error d hnx hny h0 hR hZ hs hq (hm _ _ hs) ncycle x.flat M (fun p q hp hq => by
    rw [Grid.flat, hx.2, Grid.flat, hxs.2, flat_row hq, flat_row hq]
    exact hM (p, q) ⟨hp, hq⟩)
  refine ⟨⟨x.nx, x.ny, unflat x.ny v⟩, ?_, hx, fun c hc => ?_⟩
  · rw [cycles, if_pos (by rw [hx.1, hx.2, hb.1, hb.2]; exact ⟨rfl, rfl⟩), hv]
  · have := hE c.1 c.2 hc.1 hc.2
    rw [Grid.flat, hxs.2, flat_row hc.2] at this
    simp only [unflat, hx.2]
    exact this

/-- Enough Jacobi steps make the factor of a cycle as small as wanted. -/
theorem enough [Archimedean K] (d : Domain K) {nx ny : ℕ} (hnx : 2 ≤ nx) (hny : 2 ≤ ny) (hR : d.Rmin < d.Rmax) (hZ : d.Zmin < d.Zmax)
    {L q : K} (hL : 1 ≤ L) (hq : 0 < q) :
    ∃ n0, ∀ n, n0 ≤ n → top ny * rate d nx ny ^ n * (L * (top ny * rate d nx ny ^ n)) ≤ q := by
  obtain ⟨q0, q1⟩ := rate_bounds d hnx hny hR hZ
  have ht := top_ge (K := K) ny
  have hD : 0 < top ny ^ 2 * L := by positivity
  obtain ⟨n0, hn⟩ := exists_pow_lt_of_lt_one (div_pos hq hD) q1
  refine ⟨n0, fun n hle => ?_⟩
  have h1 := pow_le_pow_of_le_one q0 q1.le hle
  have h2 := lt_of_le_of_lt h1 hn
  rw [lt_div_iff₀ hD] at h2
  have h3 := pow_nonneg q0 n
  have h4 : rate d nx ny ^ n ≤ 1 := pow_le_one₀ q0 q1.le
  calc top ny * rate d nx ny ^ n * (L * (top ny * rate d nx ny ^ n)) = rate d nx ny ^ n * (rate d nx ny ^ n * (top ny ^ 2 * L)) := by ring
    _ ≤ 1 * (rate d nx ny ^ n * (top ny ^ 2 * L)) := mul_le_mul_of_nonneg_right h4 (by positivity)
    _ ≤ q := by linarith

/-- All levels. -/
theorem vcycle_contracts [Archimedean K] (d : Domain K) (h0 : 0 ≤ d.Rmin) (hR : d.Rmin < d.Rmax) (hZ : d.Zmin < d.Zmax) (direct : Bool) :
    ∀ (nlevels nx ny : ℕ), 2 ≤ nx → 2 ≤ ny → ∀ q : K, 0 < q → ∃ n0, ∀ niter, n0 ≤ niter →
      ∀ factor : Mat K → Except Err ((ℕ → K) → ℕ → K), Factors factor → ∀ ncycle s,
        createVcycle (gsGen d) factor niter direct nlevels nx ny ncycle = .ok s → Contracts d nx ny s (q ^ ncycle) := by
  have low : ∀ (nx ny : ℕ), 2 ≤ nx → 2 ≤ ny → ∀ q : K, 0 < q → ∃ n0, ∀ niter, n0 ≤ niter →
      ∀ factor : Mat K → Except Err ((ℕ → K) → ℕ → K), Factors factor → ∀ ncycle s,
        createVcycle (gsGen d) factor niter direct 1 nx ny ncycle = .ok s → Contracts d nx ny s (q ^ ncycle) := by
    intro nx ny hnx hny q hq
    obtain ⟨n0, hn⟩ := enough d hnx hny hR hZ (le_refl (1 : K)) hq
    refine ⟨n0, fun niter hle factor hfac ncycle s hs => ?_⟩
    simp only [createVcycle, gsGen, if_neg (show ¬(nx = 1 ∨ ny = 1) by omega), lowest] at hs
    split_ifs at hs with hd
    · cases hf : factor ⟨nx * ny, gsSparse d nx ny⟩ with
      | error err => rw [hf] at hs; cases hs
      | ok solve =>
        rw [hf] at hs
        cases hs
        intro x b xs hx hb hxs hsol M hM
        have hM0 : 0 ≤ M := le_trans (abs_nonneg _) (hM (0, 0) ⟨by simp only; omega, by simp only; omega⟩)
        refine ⟨⟨b.nx, b.ny, unflat b.ny (solve b.flat)⟩, by rw [run, if_pos (by rw [hb.1, hb.2])], hb, fun c hc => ?_⟩
        have h2 : Solves nx ny (gsSparse d nx ny) (unflat b.ny (solve b.flat)) b.val := by
          intro c hc
          rw [hb.2, matVec_congr (v := solve b.flat) (fun i _ => flat_unflat _ i (by omega)), hfac _ _ hf b.flat _ (row_lt hc.1 hc.2), Grid.flat, hb.2,
            flat_row hc.2]
        have := (C35_unique_solution d nx ny hnx hny h0 hR hZ b.val).2 _ _ h2 hsol c hc
        simp only
        rw [this, sub_self, abs_zero]
        positivity
    · cases hs
      intro x b xs hx hb hxs hsol M hM
      rw [run]
      exact cycles_contract d hnx hny h0 hR hZ (hn niter hle) (middle := fun _ v => .ok v)
        (fun _ _ _ u M h => ⟨u, rfl, by rwa [one_mul]⟩) hx hb hxs hsol hM
  intro nlevels
  induction nlevels using Nat.twoStepInduction with
  | zero => exact fun nx ny hnx hny q hq => low nx ny hnx hny q hq
  | one => exact low
  | more n _ ih =>
    intro nx ny hnx hny q hq
    by_cases ho : odd nx ny = true
    · obtain ⟨n0, hn⟩ := low nx ny hnx hny q hq
      refine ⟨n0, fun niter hle factor hfac ncycle s hs => hn niter hle factor hfac ncycle s ?_⟩
      simp only [createVcycle, if_pos ho] at hs ⊢
      exact hs
    · obtain ⟨o1, o2⟩ := odd_false.mp (Bool.eq_false_iff.mpr ho)
      obtain ⟨n1, hn1⟩ := ih (half nx) (half ny) (by rw [half]; omega) (by rw [half]; omega) 1 one_pos
      obtain ⟨n2, hn2⟩ := enough d hnx hny hR hZ (growth_ge d hnx hny hR hZ) hq
      refine ⟨max n1 n2, fun niter hle factor hfac ncycle s hs => ?_⟩
      simp only [createVcycle, if_neg ho] at hs
      cases hsub : createVcycle (gsGen d) factor niter direct (n + 1) (half nx) (half ny) 1 with
      | error err => rw [hsub] at hs; cases hs
      | ok sub =>
        rw [hsub] at hs
        simp only [gsGen, if_neg (show ¬(nx = 1 ∨ ny = 1) by omega)] at hs
        cases hs
        have hc := hn1 niter (le_trans (le_max_left _ _) hle) factor hfac 1 sub hsub
        rw [one_pow] at hc
        intro x b xs hx hb hxs hsol M hM
        rw [run, hx.1, hx.2]
        exact cycles_contract d hnx hny h0 hR hZ (hn2 niter (le_trans (le_max_right _ _) hle))
          (middle := fun bv => correction ⟨nx * ny, gsSparse d nx ny⟩ nx ny bv (run sub))
          (fun _ _ hs _ _ h => correction_error d hnx hny h0 hR hZ o1 o2 hc hs h) hx hb hxs hsol hM

end FreeGS.MG
