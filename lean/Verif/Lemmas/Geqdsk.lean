import Verif.Model.Geqdsk
import Mathlib.Data.Int.Log
import Mathlib.Tactic.Linarith

/-!
# Helper lemmas for reading and writing files
-/

set_option linter.unusedSectionVars false

namespace FreeGS.Geqdsk

open FreeGS.GS
open FreeGS.Critical (Domain linspaceAt Point)

variable {K : Type*} [Field K] [LinearOrder K] [IsStrictOrderedRing K]

theorem ceilPow2Int_eq {n : ℕ} (hn : n ≠ 0) : ceilPow2Int n = .ok (2 ^ Nat.clog 2 n) := by
  rw [ceilPow2Int, if_neg hn]
  congr 2
  have := Real.natCeil_logb_natCast 2 n
  rw [Nat.cast_ofNat] at this
  rw [← this]
  rfl

theorem ceilPow2_eq {x : ℝ} (hx : 0 < x) : ceilPow2 x = .ok ((2 : ℝ) ^ Int.clog 2 x) := by
  rw [ceilPow2, if_neg (not_le.mpr hx)]
  have := Real.ceil_logb_natCast (b := 2) hx.le
  rw [Nat.cast_ofNat] at this
  rw [this]

theorem knot_zero (n : ℕ) : linspaceAt (0 : K) 1 n 0 = 0 := by
  rw [linspaceAt]; split_ifs <;> simp

theorem pos_sub {n : ℕ} (hn : 2 ≤ n) : (0 : K) < (n : K) - 1 := by
  have : (2 : K) ≤ n := by exact_mod_cast hn
  linarith

theorem knot_eq {n : ℕ} (hn : 2 ≤ n) (k : ℕ) : linspaceAt (0 : K) 1 n k = k / ((n : K) - 1) := by
  rw [linspaceAt, if_neg (by omega)]; ring

theorem cellFrom_le (n : ℕ) (x : K) : ∀ i, cellFrom n x i ≤ i
  | 0 => le_refl _
  | i + 1 => by
    rw [cellFrom]
    split_ifs
    · exact le_refl _
    · exact (cellFrom_le n x i).trans (Nat.le_succ i)

theorem cellFrom_lower (n : ℕ) {x : K} (hx : 0 ≤ x) : ∀ i, linspaceAt (0 : K) 1 n (cellFrom n x i) ≤ x
  | 0 => by rw [cellFrom, knot_zero]; exact hx
  | i + 1 => by
    rw [cellFrom]
    split_ifs with h
    · exact h
    · exact cellFrom_lower n hx i

theorem cellFrom_upper (n : ℕ) {x : K} : ∀ i, x ≤ linspaceAt (0 : K) 1 n (i + 1) → x ≤ linspaceAt (0 : K) 1 n (cellFrom n x i + 1)
  | 0, h => h
  | i + 1, h => by
    rw [cellFrom]
    split_ifs with h'
    · exact h
    · exact cellFrom_upper n i (not_le.mp h').le

/-- The point lies in its cell. -/
theorem cell_spec {n : ℕ} (hn : 2 ≤ n) {x : K} (h0 : 0 ≤ x) (h1 : x ≤ 1) :
    cell n x + 1 < n ∧ 0 ≤ fraction n x ∧ fraction n x ≤ 1 ∧ x * ((n : K) - 1) = cell n x + fraction n x := by
  have hp := pos_sub (K := K) hn
  have a := cellFrom_le n x (n - 2)
  have b := cellFrom_lower n h0 (n - 2)
  have c := cellFrom_upper n (x := x) (n - 2) (by
    rw [knot_eq hn, show n - 2 + 1 = n - 1 by omega, Nat.cast_sub (by omega), Nat.cast_one, div_self hp.ne']; exact h1)
  have hf : fraction n x = x * ((n : K) - 1) - cell n x := by
    rw [fraction, knot_eq hn, sub_mul, div_mul_cancel₀ _ hp.ne']
  change linspaceAt (0 : K) 1 n (cell n x) ≤ x at b
  change x ≤ linspaceAt (0 : K) 1 n (cell n x + 1) at c
  rw [knot_eq hn, div_le_iff₀ hp] at b
  rw [knot_eq hn, le_div_iff₀ hp] at c
  push_cast at c
  have a' : cell n x ≤ n - 2 := a
  exact ⟨by omega, by rw [hf]; linarith, by rw [hf]; linarith, by rw [hf]; ring⟩

/-- At a knot, linear interpolation between the ends of the cell gives the value at the knot. -/
theorem lerp_knot {n : ℕ} (hn : 2 ≤ n) {k : ℕ} (hk : k < n) (f : ℕ → K) :
    (1 - fraction n (linspaceAt (0 : K) 1 n k)) * f (cell n (linspaceAt (0 : K) 1 n k))
      + fraction n (linspaceAt (0 : K) 1 n k) * f (cell n (linspaceAt (0 : K) 1 n k) + 1) = f k := by
  have hp := pos_sub (K := K) hn
  obtain ⟨a, b, c, d⟩ := cell_spec hn (x := linspaceAt (0 : K) 1 n k) (by rw [knot_eq hn]; positivity) (by
    rw [knot_eq hn, div_le_one hp]
    have : ((k + 1 : ℕ) : K) ≤ n := by exact_mod_cast hk
    push_cast at this; linarith)
  generalize cell n (linspaceAt (0 : K) 1 n k) = i at *
  generalize fraction n (linspaceAt (0 : K) 1 n k) = s at *
  rw [knot_eq hn, div_mul_cancel₀ _ hp.ne'] at d
  have h1 : (i : K) ≤ k := by linarith
  have h2 : (k : K) ≤ (i + 1 : ℕ) := by push_cast; linarith
  have h1 : i ≤ k := by exact_mod_cast h1
  have h2 : k ≤ i + 1 := by exact_mod_cast h2
  rcases (by omega : k = i ∨ k = i + 1) with rfl | rfl
  · have : s = 0 := by linarith
    rw [this]; ring
  · push_cast at d
    have : s = 1 := by linarith
    rw [this]; ring

/-- Bilinear interpolation passes through the values at the grid points. -/
theorem bilinear_knot {nx ny : ℕ} (hx : 2 ≤ nx) (hy : 2 ≤ ny) (a : Arr K) {i j : ℕ} (hi : i < nx) (hj : j < ny) :
    bilinear nx ny a (linspaceAt 0 1 nx i) (linspaceAt 0 1 ny j) = a (i, j) := by
  have h1 := lerp_knot hx hi (fun k => a (k, j))
  have h2 := fun k => lerp_knot hy hj (fun l => a (k, l))
  simp only [bilinear]
  rw [← h1, ← h2, ← h2]
  ring

/-- Bilinear interpolation is a mean of values at grid points. -/
theorem bilinear_between {nx ny : ℕ} (hx : 2 ≤ nx) (hy : 2 ≤ ny) (a : Arr K) {x y lo hi : K} (x0 : 0 ≤ x) (x1 : x ≤ 1) (y0 : 0 ≤ y)
    (y1 : y ≤ 1) (hlo : ∀ c : ℕ × ℕ, c.1 < nx → c.2 < ny → lo ≤ a c) (hhi : ∀ c : ℕ × ℕ, c.1 < nx → c.2 < ny → a c ≤ hi) :
    lo ≤ bilinear nx ny a x y ∧ bilinear nx ny a x y ≤ hi := by
  obtain ⟨c1, s0, s1, -⟩ := cell_spec hx x0 x1
  obtain ⟨d1, t0, t1, -⟩ := cell_spec hy y0 y1
  have s1' := sub_nonneg.mpr s1
  have t1' := sub_nonneg.mpr t1
  have w1 := mul_nonneg s1' t1'
  have w2 := mul_nonneg s0 t1'
  have w3 := mul_nonneg s1' t0
  have w4 := mul_nonneg s0 t0
  simp only [bilinear]
  generalize hi' : cell nx x = i at *
  generalize hj' : cell ny y = j at *
  generalize fraction nx x = s at *
  generalize fraction ny y = t at *
  have l1 := mul_le_mul_of_nonneg_left (hlo (i, j) (by simp; omega) (by simp; omega)) w1
  have l2 := mul_le_mul_of_nonneg_left (hlo (i + 1, j) (by simp; omega) (by simp; omega)) w2
  have l3 := mul_le_mul_of_nonneg_left (hlo (i, j + 1) (by simp; omega) (by simp; omega)) w3
  have l4 := mul_le_mul_of_nonneg_left (hlo (i + 1, j + 1) (by simp; omega) (by simp; omega)) w4
  have u1 := mul_le_mul_of_nonneg_left (hhi (i, j) (by simp; omega) (by simp; omega)) w1
  have u2 := mul_le_mul_of_nonneg_left (hhi (i + 1, j) (by simp; omega) (by simp; omega)) w2
  have u3 := mul_le_mul_of_nonneg_left (hhi (i, j + 1) (by simp; omega) (by simp; omega)) w3
  have u4 := mul_le_mul_of_nonneg_left (hhi (i + 1, j + 1) (by simp; omega) (by simp; omega)) w4
  constructor
  · calc lo = (1 - s) * (1 - t) * lo + s * (1 - t) * lo + (1 - s) * t * lo + s * t * lo := by ring
      _ ≤ _ := by linarith
  · calc _ ≤ (1 - s) * (1 - t) * hi + s * (1 - t) * hi + (1 - s) * t * hi + s * t * hi := by linarith
      _ = hi := by ring

theorem argminLoop_spec : ∀ (l : List K) (pre : List K) (best : ℕ) (m : K), best < pre.length → pre[best]? = some m →
    (∀ (k : ℕ) (v : K), pre[k]? = some v → m ≤ v) → (∀ k < best, ∀ v, pre[k]? = some v → m < v) →
    ∃ v, (pre ++ l)[argminLoop l pre.length best m]? = some v ∧ argminLoop l pre.length best m < (pre ++ l).length ∧
      (∀ (k : ℕ) (w : K), (pre ++ l)[k]? = some w → v ≤ w) ∧ ∀ k < argminLoop l pre.length best m, ∀ w, (pre ++ l)[k]? = some w → v < w
  | [], pre, best, m, h1, h2, h3, h4 => by
    simp only [argminLoop, List.append_nil]
    exact ⟨m, h2, h1, h3, h4⟩
  | z :: rest, pre, best, m, h1, h2, h3, h4 => by
    have hpre : pre ++ z :: rest = (pre ++ [z]) ++ rest := by simp
    have hlen : (pre ++ [z]).length = pre.length + 1 := by simp
    rw [argminLoop, hpre]
    have hget : ∀ (k : ℕ) (v : K), (pre ++ [z])[k]? = some v → (k < pre.length ∧ pre[k]? = some v) ∨ (k = pre.length ∧ v = z) := by
      intro k v hk
      rcases lt_or_ge k pre.length with h | h
      · rw [List.getElem?_append_left h] at hk; exact Or.inl ⟨h, hk⟩
      · rw [List.getElem?_append_right h] at hk
        have : k - pre.length = 0 := by
          by_contra hne
          rw [List.getElem?_eq_none (by simp; omega)] at hk; cases hk
        rw [this] at hk
        simp at hk
        exact Or.inr ⟨by omega, hk.symm⟩
    split_ifs with hz
    · have := argminLoop_spec rest (pre ++ [z]) pre.length z (by simp) (by simp)
        (by
          intro k v hk
          rcases hget k v hk with ⟨_, h⟩ | ⟨_, rfl⟩
          · exact hz.le.trans (h3 k v h)
          · exact le_refl _)
        (by
          intro k hk v hv
          rcases hget k v hv with ⟨_, h⟩ | ⟨rfl, _⟩
          · exact lt_of_lt_of_le hz (h3 k v h)
          · exact absurd hk (lt_irrefl _))
      rwa [hlen] at this
    · have := argminLoop_spec rest (pre ++ [z]) best m (by simp; omega) (by rw [List.getElem?_append_left h1]; exact h2)
        (by
          intro k v hk
          rcases hget k v hk with ⟨_, h⟩ | ⟨_, rfl⟩
          · exact h3 k v h
          · exact not_lt.mp hz)
        (by
          intro k hk v hv
          rcases hget k v hv with ⟨_, h⟩ | ⟨rfl, _⟩
          · exact h4 k hk v h
          · omega)
      rwa [hlen] at this

/-- `argmin` gives the first index of the least value. -/
theorem argmin_spec {l : List K} {ind : ℕ} (h : argmin l = .ok ind) :
    ∃ v, l[ind]? = some v ∧ ind < l.length ∧ (∀ (k : ℕ) (w : K), l[k]? = some w → v ≤ w) ∧ ∀ k < ind, ∀ w, l[k]? = some w → v < w := by
  cases l with
  | nil => cases h
  | cons z rest =>
    simp only [argmin, Except.ok.injEq] at h
    subst h
    have := argminLoop_spec rest [z] 0 z (by simp) (by simp) (by
      intro k v hk
      cases k with
      | zero => simp at hk; exact hk.le
      | succ k => simp at hk) (fun k hk => by omega)
    simpa using this

end FreeGS.Geqdsk
