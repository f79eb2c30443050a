import Verif.Lemmas.Geqdsk
import Mathlib.Data.Nat.Log

/-!
# G-EQDSK and DivGeo files: C45, C46, C47, C56, C57, C75
-/

set_option linter.unusedSectionVars false

namespace FreeGS.Geqdsk

open FreeGS.GS
open FreeGS.Critical (Domain linspaceAt Point)

variable {K : Type*} [Field K] [LinearOrder K] [IsStrictOrderedRing K]

/-! ## C45: powers of two -/

/-- **C45 (part).** `isPow2` of an integer other than zero, negative ones included, is true exactly for the powers of two. The full
claim covers zero as well: see `C45_isPow2_zero`. -/
theorem C45_isPow2_partial (v : ℤ) (hv : v ≠ 0) : isPow2 v = true ↔ ∃ k : ℕ, v = 2 ^ k := by
  rw [isPow2, decide_eq_true_eq]
  rcases v with n | n
  · cases n with
    | zero => exact absurd rfl hv
    | succ n =>
      have h1 : (Int.ofNat (n + 1)) - 1 = Int.ofNat n := by simp
      rw [h1]
      show ((((n + 1) &&& n : ℕ) : ℤ) = 0) ↔ _
      have h2 := Nat.and_sub_one_eq_zero_iff_isPowerOfTwo (n := n + 1) (by omega)
      simp only [Nat.add_sub_cancel] at h2
      rw [Int.natCast_eq_zero, h2]
      constructor
      · rintro ⟨k, hk⟩
        exact ⟨k, by show ((n + 1 : ℕ) : ℤ) = _; rw [hk]; push_cast; rfl⟩
      · rintro ⟨k, hk⟩
        refine ⟨k, ?_⟩
        have : ((n + 1 : ℕ) : ℤ) = ((2 ^ k : ℕ) : ℤ) := by push_cast; push_cast at hk; exact hk
        exact_mod_cast this
  · constructor
    · intro h
      have h1 : Int.negSucc n - 1 = Int.negSucc (n + 1) := by simp [Int.negSucc_eq]; ring
      rw [h1] at h
      cases h
    · rintro ⟨k, hk⟩
      have : (0 : ℤ) < 2 ^ k := by positivity
      rw [← hk] at this
      exact absurd this (by simp [Int.negSucc_eq])

example : isPow2 64 = true ∧ isPow2 65 = false ∧ isPow2 (-4) = false := by decide +kernel

/-- **C45 (finding).** Zero counts as a power of two, so a grid with a single point is not resized. -/
theorem C45_isPow2_zero : isPow2 0 = true ∧ ¬ ∃ k : ℕ, (0 : ℤ) = 2 ^ k :=
  ⟨by decide +kernel, fun ⟨k, hk⟩ => absurd hk (by positivity)⟩

/-- **C45.** `ceilPow2` of a positive number is the smallest power of two (with an integer exponent) that is not below it; of other numbers
it raises `ValueError`. For integers the result is an integer. -/
theorem C45_ceilPow2 (x : ℝ) :
    (0 < x → ∃ k : ℤ, ceilPow2 x = .ok (2 ^ k) ∧ x ≤ 2 ^ k ∧ ∀ m : ℤ, x ≤ 2 ^ m → (2 : ℝ) ^ k ≤ 2 ^ m) ∧
    (x ≤ 0 → ceilPow2 x = .error .value) ∧
    (∀ n m : ℕ, (n : ℝ) = x → ceilPow2Int n = .ok m → ceilPow2 x = .ok (m : ℝ) ∧ ∃ k : ℕ, m = 2 ^ k) := by
  refine ⟨fun hx => ⟨Int.clog 2 x, ceilPow2_eq hx, ?_, fun m hm => ?_⟩, fun hx => by rw [ceilPow2, if_pos hx], fun n m hn hm => ?_⟩
  · have := Int.self_le_zpow_clog (b := 2) (by norm_num) x
    simpa using this
  · have := (Int.le_zpow_iff_clog_le (b := 2) (by norm_num) hx (x := m)).mp (by simpa using hm)
    exact zpow_le_zpow_right₀ (by norm_num) this
  · subst hn
    have h0 : n ≠ 0 := by rintro rfl; simp [ceilPow2Int] at hm
    rw [ceilPow2Int_eq h0] at hm
    cases hm
    refine ⟨?_, _, rfl⟩
    rw [ceilPow2_eq (by positivity), Int.clog_natCast]
    push_cast
    rw [zpow_natCast]

/-- The smallest number of the form `2^k + 1` that is not below `n`. -/
def LeastSize (n m : ℕ) : Prop := (∃ k, m = 2 ^ k + 1) ∧ n ≤ m ∧ ∀ k, n ≤ 2 ^ k + 1 → m ≤ 2 ^ k + 1

theorem leastSize_of_pow2 {n : ℕ} (hn : 2 ≤ n) (h : isPow2 ((n : ℤ) - 1) = true) : LeastSize n n := by
  obtain ⟨k, hk⟩ := (C45_isPow2_partial _ (by omega)).mp h
  have : n = 2 ^ k + 1 := by
    have : (n : ℤ) = ((2 ^ k + 1 : ℕ) : ℤ) := by push_cast; linarith
    exact_mod_cast this
  exact ⟨⟨k, this⟩, le_refl _, fun _ h => h⟩

theorem leastSize_of_ceil {n m : ℕ} (hn : 2 ≤ n) (h : ceilPow2Int (n - 1) = .ok m) : LeastSize n (m + 1) := by
  rw [ceilPow2Int_eq (by omega)] at h
  cases h
  refine ⟨⟨_, rfl⟩, ?_, fun k hk => ?_⟩
  · have := Nat.le_pow_clog (b := 2) (by norm_num) (n - 1); omega
  · have := Nat.pow_le_pow_right (n := 2) (by norm_num) (Nat.clog_le_of_le_pow (b := 2) (x := n - 1) (y := k) (by omega)); omega

theorem leastSize_unique {n a b : ℕ} (h : LeastSize n a) (h' : LeastSize n b) : a = b := by
  obtain ⟨⟨i, hi⟩, h2, h3⟩ := h
  obtain ⟨⟨j, hj⟩, h5, h6⟩ := h'
  have a1 := h3 j (hj ▸ h5)
  have a2 := h6 i (hi ▸ h2)
  omega

/-- **C45 (sizes).** `read` uses in each direction the smallest size `2^k + 1` that is not below the size in the file. In particular a
size of this form is kept. -/
theorem C45_resized (nx ny : ℕ) (hx : 2 ≤ nx) (hy : 2 ≤ ny) (psi : Arr K) :
    ∃ a b psi', resized nx ny psi = .ok (a, b, psi') ∧ LeastSize nx a ∧ LeastSize ny b := by
  unfold resized
  by_cases h : (isPow2 ((nx : ℤ) - 1) && isPow2 ((ny : ℤ) - 1)) = true
  · rw [if_pos h]
    rw [Bool.and_eq_true] at h
    exact ⟨nx, ny, psi, rfl, leastSize_of_pow2 hx h.1, leastSize_of_pow2 hy h.2⟩
  · rw [if_neg h, if_neg (by omega)]
    have e1 := ceilPow2Int_eq (n := nx - 1) (by omega)
    have e2 := ceilPow2Int_eq (n := ny - 1) (by omega)
    rw [e1, e2]
    exact ⟨_, _, _, rfl, leastSize_of_ceil hx e1, leastSize_of_ceil hy e2⟩

example : LeastSize 65 65 ∧ LeastSize 66 129 :=
  ⟨leastSize_of_pow2 (by norm_num) (by decide +kernel), by
    refine ⟨⟨7, rfl⟩, by norm_num, fun k hk => ?_⟩
    have : 7 ≤ k := by
      by_contra h
      have := Nat.pow_le_pow_right (n := 2) (by norm_num) (by omega : k ≤ 6)
      omega
    have := Nat.pow_le_pow_right (n := 2) (by norm_num) this
    omega⟩

/-! ## C46: geometry and flux -/

theorem write_ok {s : Source K} {op : List (Point K)} {iso : List (K × K)} {d : Data K} (h : write s op iso = .ok d) :
    s.R0 ≠ 0 ∧ 2 ≤ s.nx ∧ ∃ o rest psib rb zb, op = o :: rest ∧ s.psiBndry = some psib ∧ boundary iso = .ok (rb, zb) ∧ d =
      { nx := s.nx, ny := s.ny, rdim := s.dom.Rmax - s.dom.Rmin, zdim := s.dom.Zmax - s.dom.Zmin, rcentr := s.R0
        bcentr := s.fvac / s.R0, rleft := s.dom.Rmin, zmid := 1 / 2 * (s.dom.Zmin + s.dom.Zmax), rmagx := o.1, zmagx := o.2.1
        simagx := 0, sibdry := psib - o.2.2, cpasma := s.current
        fpol := fun k => s.fpol (openKnot s.nx k), pres := fun k => s.pressure (openKnot s.nx k)
        ffprime := fun k => s.ffprime (openKnot s.nx k), pprime := fun k => s.pprime (openKnot s.nx k)
        psi := fun c => s.psi c - o.2.2
        qpsi := fun k => if k = 0 then s.q (openKnot s.nx 1) else s.q (openKnot s.nx k)
        lim := s.wall, rbdry := rb, zbdry := zb } := by
  unfold write at h
  by_cases h0 : s.R0 = 0
  · rw [if_pos h0] at h; cases h
  rw [if_neg h0] at h
  cases op with
  | nil => cases h
  | cons o rest =>
    simp only at h
    cases hb : s.psiBndry with
    | none => rw [hb] at h; cases h
    | some psib =>
      rw [hb] at h
      simp only at h
      by_cases h1 : s.nx < 2
      · rw [if_pos h1] at h; cases h
      rw [if_neg h1] at h
      cases hc : boundary iso with
      | error err => rw [hc] at h; cases h
      | ok p =>
        rw [hc] at h
        cases h
        exact ⟨h0, by omega, o, rest, psib, p.1, p.2, rfl, rfl, rfl, rfl⟩

theorem read_ok {d : Data K} {wall : Option (List (K × K))} {t : Target K} (h : read d wall = .ok t) :
    d.sibdry - d.simagx ≠ 0 ∧ ∃ nx ny psi, resized d.nx d.ny d.psi = .ok (nx, ny, psi) ∧ t =
      { nx := nx, ny := ny, psi := psi
        psiNorm := fun c => clip ((psi c - d.simagx) / (d.sibdry - d.simagx)) 0 (11 / 10)
        knot := linspaceAt 0 1 d.nx, pres := d.pres, fpol := d.fpol, R0 := d.rcentr, fvac := d.rcentr * d.bcentr
        dom := ⟨d.rleft, d.rleft + d.rdim, d.zmid - 1 / 2 * d.zdim, d.zmid + 1 / 2 * d.zdim⟩
        wall := match d.lim with
          | some l => if 3 < l.length then some l else wall
          | none => wall } := by
  unfold read at h
  split at h
  · cases h
  · rename_i nx ny psi hr
    by_cases h0 : d.sibdry - d.simagx = 0
    · rw [if_pos h0] at h; cases h
    · rw [if_neg h0] at h
      cases h
      exact ⟨h0, nx, ny, psi, hr, rfl⟩

/-- **C46 (geometry).** What `read` takes from a dictionary made by `write` has the domain limits, the reference radius and the vacuum `f` of
the equilibrium that was written, and its wall if that has more than three points. -/
theorem C46_geometry (s : Source K) (op : List (Point K)) (iso : List (K × K)) (d : Data K) (wall : Option (List (K × K))) (t : Target K)
    (hw : write s op iso = .ok d) (hr : read d wall = .ok t) :
    t.dom = s.dom ∧ t.R0 = s.R0 ∧ t.fvac = s.fvac ∧ (∀ l, s.wall = some l → 3 < l.length → t.wall = some l) ∧
    (s.wall = none → t.wall = wall) := by
  obtain ⟨h0, -, o, rest, psib, rb, zb, -, -, -, rfl⟩ := write_ok hw
  obtain ⟨-, nx, ny, psi, -, rfl⟩ := read_ok hr
  refine ⟨?_, rfl, mul_div_cancel₀ _ h0, fun l hl h3 => ?_, fun hn => ?_⟩
  · obtain ⟨⟨a, b, c, e⟩⟩ := s
    simp only
    congr 1 <;> ring
  · simp only [hl, if_pos h3]
  · simp only [hn]

/-- **C46 (flux).** On grids of `2^i + 1` by `2^j + 1` points the flux read differs from the flux written by a constant, the flux on the
magnetic axis, and the normalised flux used as target is the normalised flux of the equilibrium that was written, cut off at 0 and
1.1. What is missing from the full claim: the equilibrium returned by `read` comes out of a fit and an iteration, neither of which
is forced to give this flux or the plasma current of the file, which `read` only prints. -/
theorem C46_flux_partial (s : Source K) (op : List (Point K)) (iso : List (K × K)) (d : Data K) (wall : Option (List (K × K))) (t : Target K)
    (hw : write s op iso = .ok d) (hr : read d wall = .ok t) (i j : ℕ) (hi : s.nx = 2 ^ i + 1) (hj : s.ny = 2 ^ j + 1) :
    ∃ o psib, op.head? = some o ∧ s.psiBndry = some psib ∧ psib ≠ o.2.2 ∧ t.nx = s.nx ∧ t.ny = s.ny ∧
      d.cpasma = s.current ∧ d.rmagx = o.1 ∧ d.zmagx = o.2.1 ∧
      ∀ c, t.psi c = s.psi c - o.2.2 ∧ (t.psi c - d.simagx) / (d.sibdry - d.simagx) = (s.psi c - o.2.2) / (psib - o.2.2) ∧
        t.psiNorm c = min (max ((s.psi c - o.2.2) / (psib - o.2.2)) 0) (11 / 10) := by
  obtain ⟨h0, -, o, rest, psib, rb, zb, rfl, hp, -, rfl⟩ := write_ok hw
  obtain ⟨hne, nx, ny, psi, hres, rfl⟩ := read_ok hr
  simp only [sub_zero] at hne
  have hpow : (isPow2 ((s.nx : ℤ) - 1) && isPow2 ((s.ny : ℤ) - 1)) = true := by
    rw [Bool.and_eq_true, hi, hj]
    push_cast
    rw [add_sub_cancel_right, add_sub_cancel_right]
    exact ⟨(C45_isPow2_partial _ (by positivity)).mpr ⟨i, rfl⟩, (C45_isPow2_partial _ (by positivity)).mpr ⟨j, rfl⟩⟩
  unfold resized at hres
  rw [if_pos hpow] at hres
  cases hres
  exact ⟨o, psib, rfl, hp, sub_ne_zero.mp hne, rfl, rfl, rfl, rfl, rfl,
    fun c => ⟨rfl, by simp only [sub_zero], by simp only [sub_zero, clip]⟩⟩

/-- **C46 (other sizes).** On other grids the flux is the same wherever a new grid point lies on an old one, the corners in particular, and
nowhere outside the range of the values written. -/
theorem C46_flux_resized (s : Source K) (op : List (Point K)) (iso : List (K × K)) (d : Data K) (wall : Option (List (K × K)))
    (t : Target K) (hw : write s op iso = .ok d) (hr : read d wall = .ok t) (hy : 2 ≤ s.ny) (hR : s.dom.Rmin ≠ s.dom.Rmax)
    (hZ : s.dom.Zmin ≠ s.dom.Zmax) :
    ∃ o, op.head? = some o ∧ LeastSize s.nx t.nx ∧ LeastSize s.ny t.ny ∧
      (∀ c e : ℕ × ℕ, c.1 < t.nx → c.2 < t.ny → e.1 < s.nx → e.2 < s.ny →
        linspaceAt t.dom.Rmin t.dom.Rmax t.nx c.1 = linspaceAt s.dom.Rmin s.dom.Rmax s.nx e.1 →
        linspaceAt t.dom.Zmin t.dom.Zmax t.ny c.2 = linspaceAt s.dom.Zmin s.dom.Zmax s.ny e.2 → t.psi c = s.psi e - o.2.2) ∧
      ∀ lo hi, (∀ e : ℕ × ℕ, e.1 < s.nx → e.2 < s.ny → lo ≤ s.psi e - o.2.2 ∧ s.psi e - o.2.2 ≤ hi) →
        ∀ c : ℕ × ℕ, c.1 < t.nx → c.2 < t.ny → lo ≤ t.psi c ∧ t.psi c ≤ hi := by
  obtain ⟨h0, hx, o, rest, psib, rb, zb, rfl, hp, -, rfl⟩ := write_ok hw
  obtain ⟨hne, nx, ny, psi, hres, rfl⟩ := read_ok hr
  simp only at hres
  obtain ⟨a, b, psi', hres', la, lb⟩ := C45_resized s.nx s.ny hx hy (fun c => s.psi c - o.2.2)
  rw [hres] at hres'
  cases hres'
  refine ⟨o, rfl, la, lb, ?_⟩
  have g1 : s.dom.Rmin + (s.dom.Rmax - s.dom.Rmin) = s.dom.Rmax := by ring
  have g2 : 1 / 2 * (s.dom.Zmin + s.dom.Zmax) - 1 / 2 * (s.dom.Zmax - s.dom.Zmin) = s.dom.Zmin := by ring
  have g3 : 1 / 2 * (s.dom.Zmin + s.dom.Zmax) + 1 / 2 * (s.dom.Zmax - s.dom.Zmin) = s.dom.Zmax := by ring
  simp only [g1, g2, g3]
  have ha : 2 ≤ nx := by have := la.2.1; omega
  have hb : 2 ≤ ny := by have := lb.2.1; omega
  have place : ∀ (p q : K) (n m i k : ℕ), p ≠ q → 2 ≤ n → 2 ≤ m → linspaceAt p q n i = linspaceAt p q m k →
      linspaceAt (0 : K) 1 n i = linspaceAt (0 : K) 1 m k := by
    intro p q n m i k hpq hn hm h
    rw [linspaceAt, linspaceAt, if_neg (by omega), if_neg (by omega)] at h
    rw [knot_eq hn, knot_eq hm]
    have h' := add_left_cancel h
    have hq : q - p ≠ 0 := sub_ne_zero.mpr hpq.symm
    apply mul_right_cancel₀ hq
    calc _ = (i : K) * ((q - p) / ((n : K) - 1)) := by ring
      _ = _ := h'
      _ = _ := by ring
  have inside : ∀ n k : ℕ, 2 ≤ n → k < n → (0 : K) ≤ linspaceAt (0 : K) 1 n k ∧ linspaceAt (0 : K) 1 n k ≤ 1 := by
    intro n k hn hk
    have hp := pos_sub (K := K) hn
    rw [knot_eq hn]
    refine ⟨by positivity, (div_le_one hp).mpr ?_⟩
    have : ((k + 1 : ℕ) : K) ≤ n := by exact_mod_cast hk
    push_cast at this; linarith
  unfold resized at hres
  by_cases hpow : (isPow2 ((s.nx : ℤ) - 1) && isPow2 ((s.ny : ℤ) - 1)) = true
  · rw [if_pos hpow] at hres
    cases hres
    refine ⟨fun c e c1 c2 e1 e2 p1 p2 => ?_, fun lo hi hlh c c1 c2 => hlh c c1 c2⟩
    have q1 := place _ _ _ _ _ _ hR hx hx p1
    have q2 := place _ _ _ _ _ _ hZ hy hy p2
    rw [knot_eq hx, knot_eq hx, div_left_inj' (pos_sub hx).ne', Nat.cast_inj] at q1
    rw [knot_eq hy, knot_eq hy, div_left_inj' (pos_sub hy).ne', Nat.cast_inj] at q2
    rw [Prod.ext q1 q2]
  · rw [if_neg hpow, if_neg (by omega), ceilPow2Int_eq (by omega), ceilPow2Int_eq (by omega)] at hres
    cases hres
    refine ⟨fun c e c1 c2 e1 e2 p1 p2 => ?_, fun lo hi hlh c c1 c2 => ?_⟩
    · simp only
      rw [place _ _ _ _ _ _ hR ha hx p1, place _ _ _ _ _ _ hZ hb hy p2]
      exact bilinear_knot hx hy _ e1 e2
    · exact bilinear_between hx hy _ (inside _ _ ha c1).1 (inside _ _ ha c1).2 (inside _ _ hb c2).1 (inside _ _ hb c2).2
        (fun e e1 e2 => (hlh e e1 e2).1) (fun e e1 e2 => (hlh e e1 e2).2)

/-- Writing and reading go through if there is a magnetic axis, a boundary flux that differs from the flux on it, and at least two points
in each direction. -/
theorem C46_goes_through (s : Source K) (o : Point K) (rest : List (Point K)) (iso : List (K × K)) (psib : K)
    (wall : Option (List (K × K))) (h0 : s.R0 ≠ 0) (hx : 2 ≤ s.nx) (hy : 2 ≤ s.ny) (hp : s.psiBndry = some psib) (hne : psib ≠ o.2.2)
    (hiso : iso ≠ []) : ∃ d t, write s (o :: rest) iso = .ok d ∧ read d wall = .ok t := by
  obtain ⟨rb, zb, hb⟩ : ∃ rb zb, boundary iso = .ok (rb, zb) := by
    cases iso with
    | nil => exact absurd rfl hiso
    | cons p l => exact ⟨_, _, rfl⟩
  obtain ⟨a, b, psi', hres, -⟩ := C45_resized s.nx s.ny hx hy (fun c => s.psi c - o.2.2)
  unfold write
  rw [if_neg h0]
  simp only [hp, hb]
  rw [if_neg (by omega)]
  refine ⟨
      { nx := s.nx, ny := s.ny, rdim := s.dom.Rmax - s.dom.Rmin, zdim := s.dom.Zmax - s.dom.Zmin, rcentr := s.R0
        bcentr := s.fvac / s.R0, rleft := s.dom.Rmin, zmid := 1 / 2 * (s.dom.Zmin + s.dom.Zmax), rmagx := o.1, zmagx := o.2.1
        simagx := 0, sibdry := psib - o.2.2, cpasma := s.current
        fpol := fun k => s.fpol (openKnot s.nx k), pres := fun k => s.pressure (openKnot s.nx k)
        ffprime := fun k => s.ffprime (openKnot s.nx k), pprime := fun k => s.pprime (openKnot s.nx k)
        psi := fun c => s.psi c - o.2.2
        qpsi := fun k => if k = 0 then s.q (openKnot s.nx 1) else s.q (openKnot s.nx k)
        lim := s.wall, rbdry := rb, zbdry := zb }, ?_⟩
  unfold read
  simp only [hres]
  rw [if_neg (by rw [sub_zero]; exact sub_ne_zero.mpr hne)]
  exact ⟨_, trivial, rfl⟩

/-- An equilibrium on a 5 x 3 grid. -/
def exampleSource : Source ℚ :=
  { dom := ⟨1, 3, -1, 2⟩, nx := 5, ny := 3, psi := fun c => c.1 - 2 * c.2, psiBndry := some (-3), fvac := 4, R0 := 2, current := 7
    fpol := fun x => 4 - x, pressure := fun x => 1 - x, ffprime := fun _ => 1, pprime := fun _ => 2, q := fun x => 1 + x
    wall := some [(1, -1), (3, -1), (3, 2), (1, 2)] }

example : ∃ (d : Data ℚ) (t : Target ℚ), write exampleSource [(2, 0, 1)] [(1, 0), (2, 1), (3, 0), (2, -1)] = .ok d ∧
    read d none = .ok t ∧ t.dom.Zmin = -1 ∧ t.fvac = 4 ∧ t.nx = 5 ∧ t.psiNorm (0, 1) = 3 / 4 ∧ t.psiNorm (0, 2) = 11 / 10 ∧
    t.wall = exampleSource.wall := by
  obtain ⟨d, t, hw, hr⟩ := C46_goes_through exampleSource (2, 0, 1) [] [(1, 0), (2, 1), (3, 0), (2, -1)] (-3) none
    (by norm_num [exampleSource]) (by decide) (by decide) rfl (by norm_num) (by simp)
  obtain ⟨g1, g2, g3, g4, g5⟩ := C46_geometry _ _ _ _ _ _ hw hr
  obtain ⟨o, psib, f1, f2, f3, f4, f5, f6, f7, f8, f9⟩ := C46_flux_partial _ _ _ _ _ _ hw hr 2 1 rfl rfl
  cases f1
  cases f2
  refine ⟨d, t, hw, hr, by rw [g1]; rfl, g3, f4, ?_, ?_, g4 _ rfl (by decide)⟩
  · rw [(f9 _).2.2]; norm_num [exampleSource]
  · rw [(f9 _).2.2]; norm_num [exampleSource]

/-! ## C47: profiles -/

/-- **C47 (part).** On axis the profiles are read at the normalised flux at which they were written. Everywhere else they are not: the value
written for normalised flux `x` is read as the value for `x n / (n - 1)`, `n` being the number of points in `R`. The full claim, that
the fluxes agree, is false for every index but the first. -/
theorem C47_axis_partial (s : Source K) (op : List (Point K)) (iso : List (K × K)) (d : Data K) (wall : Option (List (K × K)))
    (t : Target K) (hw : write s op iso = .ok d) (hr : read d wall = .ok t) :
    t.knot 0 = 0 ∧ t.pres 0 = s.pressure 0 ∧ t.fpol 0 = s.fpol 0 ∧
    ∀ k, ∃ x, t.pres k = s.pressure x ∧ t.fpol k = s.fpol x ∧ t.knot k = x * s.nx / ((s.nx : K) - 1) ∧ (t.knot k = x ↔ k = 0) := by
  obtain ⟨h0, hx, o, rest, psib, rb, zb, rfl, hp, -, rfl⟩ := write_ok hw
  obtain ⟨hne, nx, ny, psi, hres, rfl⟩ := read_ok hr
  have hn : (0 : K) < s.nx := by exact_mod_cast (by omega : 0 < s.nx)
  have hn1 := pos_sub (K := K) hx
  refine ⟨knot_zero _, by simp [openKnot], by simp [openKnot], fun k => ⟨openKnot s.nx k, rfl, rfl, ?_, ?_⟩⟩
  · show linspaceAt 0 1 s.nx k = _
    rw [knot_eq hx, openKnot]
    field_simp
  · show linspaceAt 0 1 s.nx k = _ ↔ _
    rw [knot_eq hx, openKnot, mul_one_div, div_eq_div_iff hn1.ne' hn.ne']
    constructor
    · intro h
      have : (k : K) = 0 := by linarith
      exact_mod_cast this
    · rintro rfl; simp

/-- **C47 (finding).** Whatever curve `read` puts through the values, at the plasma boundary it gives the value the profile had at
`1 - 1/n`. A linear profile becomes linear with a slope smaller by the factor `1 - 1/n`. -/
theorem C47_edge (s : Source K) (op : List (Point K)) (iso : List (K × K)) (d : Data K) (wall : Option (List (K × K)))
    (t : Target K) (hw : write s op iso = .ok d) (hr : read d wall = .ok t) (f : K → K) (hf : ∀ k < s.nx, f (t.knot k) = t.pres k) :
    f 1 = s.pressure (1 - 1 / s.nx) ∧
    ∀ a b p r : K, (∀ x, s.pressure x = a + b * x) → (∀ x, f x = p + r * x) → p = a ∧ r = b * (1 - 1 / s.nx) := by
  obtain ⟨h0, hx, o, rest, psib, rb, zb, rfl, hp, -, rfl⟩ := write_ok hw
  obtain ⟨hne, nx, ny, psi, hres, rfl⟩ := read_ok hr
  have hn : (0 : K) < s.nx := by exact_mod_cast (by omega : 0 < s.nx)
  have hn1 := pos_sub (K := K) hx
  have h1 : f 1 = s.pressure (1 - 1 / s.nx) := by
    have := hf (s.nx - 1) (by omega)
    simp only at this
    rw [knot_eq hx, Nat.cast_sub (by omega), Nat.cast_one, div_self hn1.ne'] at this
    rw [this, openKnot, Nat.cast_sub (by omega), Nat.cast_one]
    congr 1
    field_simp
  refine ⟨h1, fun a b p r ha hpq => ?_⟩
  have h2 := hf 0 (by omega)
  simp only [knot_zero, openKnot, Nat.cast_zero, zero_mul] at h2
  rw [hpq, ha] at h2
  rw [hpq, ha] at h1
  have e1 : p = a := by linarith
  exact ⟨e1, by subst e1; linarith⟩

/-- A pressure that vanishes on the boundary is read as one that does not. -/
example : ∃ (d : Data ℚ) (t : Target ℚ), write exampleSource [(2, 0, 1)] [(1, 0), (2, 1), (3, 0), (2, -1)] = .ok d ∧
    read d none = .ok t ∧ exampleSource.pressure 1 = 0 ∧ ∀ f : ℚ → ℚ, (∀ k < 5, f (t.knot k) = t.pres k) → f 1 = 1 / 5 := by
  obtain ⟨d, t, hw, hr⟩ := C46_goes_through exampleSource (2, 0, 1) [] [(1, 0), (2, 1), (3, 0), (2, -1)] (-3) none
    (by norm_num [exampleSource]) (by decide) (by decide) rfl (by norm_num) (by simp)
  refine ⟨d, t, hw, hr, by norm_num [exampleSource], fun f hf => ?_⟩
  rw [(C47_edge _ _ _ _ _ _ hw hr f hf).1]
  norm_num [exampleSource]

/-! ## C56: the boundary contour -/

theorem rollClose_map {α : Type*} (f : α → K) (l : List α) (ind : ℕ) :
    rollClose (l.map f) ind = (l.reverse.rotate ind ++ (l.reverse.rotate ind).take 1).map f := by
  simp only [rollClose, List.map_append, List.map_take, List.map_rotate, List.map_reverse]

/-- **C56 (part).** The boundary written is a closed contour that runs through every point of the separatrix once, in reversed order: point
`i` of the contour is point `k - i` of the separatrix, counted cyclically. The full claim asks for the start `k` to be the lowest
point; instead, if `m` is the first lowest point, `k = n - 1 - m`: see `C56_start`. -/
theorem C56_closed_partial (iso : List (K × K)) (hne : iso ≠ []) :
    ∃ (contour : List (K × K)) (k : ℕ), boundary iso = .ok (contour.map Prod.fst, contour.map Prod.snd) ∧
      contour.length = iso.length + 1 ∧ contour.head? = contour.getLast? ∧ (contour.take iso.length).Perm iso ∧ k < iso.length ∧
      (∀ i ≤ iso.length, contour[i]? = iso[(k + iso.length - i) % iso.length]?) ∧
      ∃ m v, k + m + 1 = iso.length ∧ iso[m]? = some v ∧ (∀ p ∈ iso, v.2 ≤ p.2) ∧
        ∀ i < m, ∀ p, iso[i]? = some p → v.2 < p.2 := by
  obtain ⟨ind, hind⟩ : ∃ ind, argmin (iso.map Prod.snd) = .ok ind := by
    cases iso with
    | nil => exact absurd rfl hne
    | cons p l => exact ⟨_, rfl⟩
  obtain ⟨z, a1, a2, a3, a4⟩ := argmin_spec hind
  rw [List.length_map] at a2
  have hn : 0 < iso.length := List.length_pos_iff.mpr hne
  set l := iso.reverse.rotate ind with hl
  have hlen : l.length = iso.length := by rw [hl, List.length_rotate, List.length_reverse]
  have hget : ∀ i < iso.length, l[i]? = iso[(iso.length - 1 - ind + iso.length - i) % iso.length]? := by
    intro i hi
    rw [hl, List.getElem?_rotate (by rw [List.length_reverse]; exact hi), List.length_reverse,
      List.getElem?_reverse (Nat.mod_lt _ hn)]
    congr 1
    rcases lt_or_ge (i + ind) iso.length with h | h
    · rw [Nat.mod_eq_of_lt h, show iso.length - 1 - ind + iso.length - i = (iso.length - 1 - (i + ind)) + iso.length by omega,
        Nat.add_mod_right, Nat.mod_eq_of_lt (by omega)]
    · rw [show i + ind = (i + ind - iso.length) + iso.length by omega, Nat.add_mod_right, Nat.mod_eq_of_lt (by omega),
        Nat.mod_eq_of_lt (by omega)]
      omega
  obtain ⟨x, xs, hxs⟩ : ∃ x xs, l = x :: xs := by
    cases h : l with
    | nil => rw [h] at hlen; simp at hlen; omega
    | cons x xs => exact ⟨x, xs, rfl⟩
  refine ⟨l ++ l.take 1, iso.length - 1 - ind, ?_, ?_, ?_, ?_, by omega, fun i hi => ?_, ind, ?_⟩
  · unfold boundary
    rw [hind]
    simp only [rollClose_map, ← hl]
  · rw [List.length_append, List.length_take, hlen]; omega
  · rw [hxs, show (x :: xs).take 1 = [x] by simp, List.getLast?_concat]; rfl
  · rw [List.take_append_of_le_length (by omega), List.take_of_length_le (by omega), hl]
    exact (List.rotate_perm _ _).trans (List.reverse_perm _)
  · rcases Nat.lt_or_eq_of_le hi with h | rfl
    · rw [List.getElem?_append_left (by omega), hget i h]
    · rw [List.getElem?_append_right (by omega), hlen, Nat.sub_self, show iso.length - 1 - ind + iso.length - iso.length
          = iso.length - 1 - ind + iso.length - 0 - iso.length by omega]
      have h0 := hget 0 hn
      rw [Nat.sub_zero, Nat.add_mod_right] at h0
      rw [List.getElem?_take_of_lt (by omega), h0]
      congr 2
      omega
  · rw [List.getElem?_map] at a1
    cases hv : iso[ind]? with
    | none => rw [hv] at a1; cases a1
    | some v =>
      rw [hv] at a1
      simp only [Option.map_some, Option.some.injEq] at a1
      subst a1
      refine ⟨v, by omega, rfl, fun p hp => ?_, fun i hi p hp => ?_⟩
      · obtain ⟨k, hk⟩ := List.mem_iff_getElem?.mp hp
        exact a3 k p.2 (by rw [List.getElem?_map, hk]; rfl)
      · exact a4 i hi p.2 (by rw [List.getElem?_map, hp]; rfl)

/-- **C56 (finding).** The contour of the separatrix with the points (0, 0), (1, 1), (2, 2) starts at the highest point. -/
theorem C56_start : boundary [((0 : ℚ), (0 : ℚ)), (1, 1), (2, 2)] = .ok ([2, 1, 0, 2], [2, 1, 0, 2]) := by decide +kernel

/-! ## C57: DivGeo -/

/-- **C57.** The coordinates in a DivGeo file are those of the grid of the equilibrium: they begin and end at the domain limits and go in
equal steps. The flux in it is the flux less the boundary flux, and the field times its radius is the vacuum `f`. -/
theorem C57_divgeo (s : Source K) (op : List (Point K)) (iso : List (K × K)) (g : DivGeo K) (hy : 2 ≤ s.ny)
    (h : writeDivgeo s op iso = .ok g) :
    g.jm = s.nx ∧ g.km = s.ny ∧ g.r 0 = s.dom.Rmin ∧ g.r (s.nx - 1) = s.dom.Rmax ∧ g.z 0 = s.dom.Zmin ∧ g.z (s.ny - 1) = s.dom.Zmax ∧
    (∀ k, g.r (k + 1) - g.r k = (s.dom.Rmax - s.dom.Rmin) / ((s.nx : K) - 1)) ∧
    (∀ k, g.z (k + 1) - g.z k = (s.dom.Zmax - s.dom.Zmin) / ((s.ny : K) - 1)) ∧
    (∃ psib, s.psiBndry = some psib ∧ ∀ c, g.psi c = s.psi c - psib) ∧ g.btf * g.rtf = s.fvac := by
  unfold writeDivgeo at h
  split at h
  · cases h
  · rename_i d hw
    obtain ⟨h0, hx, o, rest, psib, rb, zb, rfl, hp, -, rfl⟩ := write_ok hw
    unfold divgeo at h
    simp only at h
    rw [if_neg (by omega)] at h
    cases h
    have hx1 := (pos_sub (K := K) hx).ne'
    have hy1 := (pos_sub (K := K) hy).ne'
    have edge : ∀ (a b : K) (n : ℕ), 2 ≤ n → arangeAt a b n (n - 1) = b := by
      intro a b n hn
      rw [arangeAt, Nat.cast_sub (by omega), Nat.cast_one, mul_div_cancel₀ _ (pos_sub (K := K) hn).ne']; ring
    have step : ∀ (a b : K) (n k : ℕ), arangeAt a b n (k + 1) - arangeAt a b n k = (b - a) / ((n : K) - 1) := by
      intro a b n k
      rw [arangeAt, arangeAt]; push_cast; ring
    have start : ∀ (a b : K) (n : ℕ), arangeAt a b n 0 = a := by intro a b n; simp [arangeAt]
    refine ⟨rfl, rfl, start _ _ _, ?_, ?_, ?_, fun k => ?_, fun k => ?_, ⟨psib, hp, fun c => ?_⟩, ?_⟩
    · exact (edge _ _ _ hx).trans (by ring)
    · exact (start _ _ _).trans (by ring)
    · exact (edge _ _ _ hy).trans (by ring)
    · exact (step _ _ _ _).trans (by ring)
    · exact (step _ _ _ _).trans (by ring)
    · simp only; ring
    · simp only; exact div_mul_cancel₀ _ h0

example : ∃ g : DivGeo ℚ, writeDivgeo exampleSource [(2, 0, 1)] [(1, 0), (2, 1), (3, 0), (2, -1)] = .ok g ∧ g.r 4 = 3 ∧ g.z 1 = 1 / 2 ∧
    g.psi (1, 1) = 2 := by
  obtain ⟨d, t, hw, hr⟩ := C46_goes_through exampleSource (2, 0, 1) [] [(1, 0), (2, 1), (3, 0), (2, -1)] (-3) none
    (by norm_num [exampleSource]) (by decide) (by decide) rfl (by norm_num) (by simp)
  obtain ⟨-, -, o, rest, psib, rb, zb, h1, h2, -, rfl⟩ := write_ok hw
  cases h1
  cases h2
  refine ⟨_, by rw [writeDivgeo, hw]; rfl, ?_, ?_, ?_⟩ <;> norm_num [exampleSource, arangeAt]

/-! ## C75: the domain keyword -/

/-- **C75 (part).** If `read` with the `domain` keyword gets to solving, the domain is the one asked for. The full claim is that the resolution
is then as good as that of the file or better: see `C75_resolution_worse`. -/
theorem C75_domain_partial (nx ny : ℕ) (dR dZ : ℝ) (dom : Domain ℝ) (r : Domain ℝ × ℕ × ℕ) (h : newDomain nx ny dR dZ dom = .ok r) :
    r.1 = dom := by
  unfold newDomain at h
  split at h <;> cases h
  rfl

/-- **C75 (finding).** `read` with the `domain` keyword raises `UnboundLocalError` unless the new domain is larger in both directions than the
one in the file; if it is, the number of points stays the same and the resolution gets worse in both directions. -/
theorem C75_resolution_worse (nx ny : ℕ) (hx : 2 ≤ nx) (hy : 2 ≤ ny) (dR dZ : ℝ) (hdR : 0 < dR) (hdZ : 0 < dZ) (dom : Domain ℝ) :
    (dR * (nx - 1) < dom.Rmax - dom.Rmin ∧ dZ * (ny - 1) < dom.Zmax - dom.Zmin →
      newDomain nx ny dR dZ dom = .ok (dom, nx, ny) ∧
      dR < (dom.Rmax - dom.Rmin) / (nx - 1) ∧ dZ < (dom.Zmax - dom.Zmin) / (ny - 1)) ∧
    (¬ (dR * (nx - 1) < dom.Rmax - dom.Rmin ∧ dZ * (ny - 1) < dom.Zmax - dom.Zmin) → newDomain nx ny dR dZ dom = .error .unbound) := by
  have size : ∀ (lo hi step : ℝ) (n : ℕ), 2 ≤ n → 0 < step →
      (step * (n - 1) < hi - lo → ∃ m, newSize lo hi step n = .ok (some m)) ∧
      (¬ step * (n - 1) < hi - lo → newSize lo hi step n = .ok none) := by
    intro lo hi step n hn hs
    have e : (n : ℝ) < (hi - lo) / step + 1 ↔ step * (n - 1) < hi - lo := by
      rw [← sub_lt_iff_lt_add, lt_div_iff₀ hs, mul_comm]
    have hn' := pos_sub (K := ℝ) hn
    refine ⟨fun h => ?_, fun h => ?_⟩
    · unfold newSize
      simp only
      rw [if_pos (e.mpr h), add_sub_cancel_right, ceilPow2_eq (div_pos (lt_trans (mul_pos hs hn') h) hs)]
      exact ⟨_, rfl⟩
    · unfold newSize
      simp only
      rw [if_neg (fun h' => h (e.mp h'))]
  refine ⟨fun ⟨h1, h2⟩ => ⟨?_, ?_, ?_⟩, fun h => ?_⟩
  · obtain ⟨m, hm⟩ := (size dom.Rmin dom.Rmax dR nx hx hdR).1 h1
    obtain ⟨k, hk⟩ := (size dom.Zmin dom.Zmax dZ ny hy hdZ).1 h2
    rw [newDomain, hm, hk]
  · rw [lt_div_iff₀ (pos_sub hx)]; exact h1
  · rw [lt_div_iff₀ (pos_sub hy)]; exact h2
  · unfold newDomain
    by_cases h1 : dR * (nx - 1) < dom.Rmax - dom.Rmin
    · obtain ⟨m, hm⟩ := (size dom.Rmin dom.Rmax dR nx hx hdR).1 h1
      rw [hm, (size dom.Zmin dom.Zmax dZ ny hy hdZ).2 (fun h2 => h ⟨h1, h2⟩)]
    · rw [(size dom.Rmin dom.Rmax dR nx hx hdR).2 h1]
      by_cases h2 : dZ * (ny - 1) < dom.Zmax - dom.Zmin
      · obtain ⟨k, hk⟩ := (size dom.Zmin dom.Zmax dZ ny hy hdZ).1 h2
        rw [hk]
      · rw [(size dom.Zmin dom.Zmax dZ ny hy hdZ).2 h2]

/-- A file with 3 x 3 points on a domain of 2 by 2, read on a domain of 4 by 4: 3 x 3 points again. -/
example : newDomain 3 3 1 1 ⟨1, 5, -2, 2⟩ = .ok (⟨1, 5, -2, 2⟩, 3, 3) :=
  ((C75_resolution_worse 3 3 (by norm_num) (by norm_num) 1 1 (by norm_num) (by norm_num) ⟨1, 5, -2, 2⟩).1 (by norm_num)).1

end FreeGS.Geqdsk
