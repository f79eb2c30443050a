import Verif.Model.Multigrid
import Verif.Spec.Multigrid
import Verif.Lemmas.GradShafranov
import Mathlib.Data.List.Nodup
import Mathlib.LinearAlgebra.FiniteDimensional.Lemmas
import Mathlib.LinearAlgebra.Matrix.ToLin
import Mathlib.Algebra.BigOperators.Group.List.Basic

/-!
# Lemmas on the multigrid model
-/

set_option linter.unusedSectionVars false

namespace FreeGS.MG

open FreeGS.GS

variable {K : Type*} [Field K] [LinearOrder K] [IsStrictOrderedRing K]

/-! ## Interior cells -/

theorem mem_interior {nx ny : ℕ} {c : ℕ × ℕ} : c ∈ interiorCells nx ny ↔ isInterior nx ny c = true := by
  obtain ⟨x, y⟩ := c
  simp only [interiorCells, List.mem_flatMap, List.mem_map, List.mem_range', isInterior, decide_eq_true_eq, Prod.mk.injEq]
  constructor
  · rintro ⟨a, ⟨i, hi, rfl⟩, b, ⟨j, hj, rfl⟩, rfl, rfl⟩
    omega
  · rintro ⟨h1, h2, h3, h4⟩
    exact ⟨x, ⟨x - 1, by omega, by omega⟩, y, ⟨y - 1, by omega, by omega⟩, rfl, rfl⟩

theorem nodup_interior (nx ny : ℕ) : (interiorCells nx ny).Nodup := by
  rw [interiorCells, List.nodup_flatMap]
  refine ⟨fun x _ => (List.nodup_range').map fun a b h => by simpa using h, ?_⟩
  refine List.Pairwise.imp ?_ (List.nodup_range' (s := 1) (n := nx - 2) (step := 1))
  intro a b hab c hc hc'
  simp only [List.mem_map] at hc hc'
  obtain ⟨_, _, rfl⟩ := hc
  obtain ⟨_, _, h⟩ := hc'
  exact hab (by simpa using congrArg Prod.fst h.symm)

theorem sum_single {α : Type*} [DecidableEq α] (f : α → K) (a : α) : ∀ {l : List α}, l.Nodup →
    (l.map fun p => if p = a then f p else 0).sum = if a ∈ l then f a else 0
  | [], _ => by simp
  | b :: l, h => by
    rw [List.map_cons, List.sum_cons, sum_single f a (List.nodup_cons.mp h).2]
    by_cases hb : b = a
    · subst hb
      rw [if_pos rfl, if_neg (List.nodup_cons.mp h).1, if_pos List.mem_cons_self, add_zero]
    · rw [if_neg hb, zero_add]
      simp only [List.mem_cons, Ne.symm hb, false_or]

/-! ## Interpolation -/

/-- Weight of the coarse index `i` in the fine index `k`. -/
def w1 (i k : ℕ) : K := if k = 2 * i then 1 else if k + 1 = 2 * i ∨ k = 2 * i + 1 then 1 / 2 else 0

theorem w1_even (i k : ℕ) : (w1 i (2 * k) : K) = if i = k then 1 else 0 := by
  unfold w1
  by_cases h : i = k
  · subst h; simp
  · rw [if_neg (by omega), if_neg (by omega), if_neg h]

theorem w1_odd (i k : ℕ) : (w1 i (2 * k + 1) : K) = (if i = k then 1 / 2 else 0) + if i = k + 1 then 1 / 2 else 0 := by
  unfold w1
  by_cases h : i = k
  · subst h
    rw [if_neg (by omega), if_pos (by omega), if_pos rfl, if_neg (by omega), add_zero]
  · by_cases h' : i = k + 1
    · subst h'
      rw [if_neg (by omega), if_pos (by omega), if_neg (by omega), if_pos rfl, zero_add]
    · rw [if_neg (by omega), if_neg (by omega), if_neg h, if_neg h', add_zero]

theorem addAt_apply (a : Arr K) (c : ℕ × ℕ) (v : K) (d : ℕ × ℕ) : addAt a c v d = a d + if d = c then v else 0 := by
  rw [addAt, Arr.set, Function.update_apply]
  by_cases h : d = c
  · subst h; simp
  · simp [h]

/-- One round of the loop, at a point that is not the centre. -/
theorem interpStep_apply {orig out : Arr K} {p d : ℕ × ℕ} (h1 : 1 ≤ p.1) (h2 : 1 ≤ p.2) (hd : d ≠ (2 * p.1, 2 * p.2)) :
    interpStep orig out p d = out d + w1 p.1 d.1 * w1 p.2 d.2 * orig p := by
  obtain ⟨x, y⟩ := p
  obtain ⟨a, b⟩ := d
  obtain ⟨x, rfl⟩ : ∃ z, x = z + 1 := ⟨x - 1, by omega⟩
  obtain ⟨y, rfl⟩ : ∃ z, y = z + 1 := ⟨y - 1, by omega⟩
  simp only [interpStep, addAt_apply, Arr.set, Function.update_apply, Prod.mk.injEq, ne_eq] at hd ⊢
  rw [if_neg hd]
  have e1 : 2 * (x + 1) - 1 = 2 * x + 1 := by omega
  have e2 : 2 * (y + 1) - 1 = 2 * y + 1 := by omega
  rw [e1, e2]
  have ha : a = 2 * x + 1 ∨ a = 2 * (x + 1) ∨ a = 2 * (x + 1) + 1 ∨ (a ≠ 2 * x + 1 ∧ a ≠ 2 * (x + 1) ∧ a ≠ 2 * (x + 1) + 1) := by omega
  have hb : b = 2 * y + 1 ∨ b = 2 * (y + 1) ∨ b = 2 * (y + 1) + 1 ∨ (b ≠ 2 * y + 1 ∧ b ≠ 2 * (y + 1) ∧ b ≠ 2 * (y + 1) + 1) := by omega
  have n1 : ¬2 * x + 1 = 2 * (x + 1) := by omega
  have n2 : ¬2 * x + 1 = 2 * (x + 1) + 1 := by omega
  have n3 : ¬2 * y + 1 = 2 * (y + 1) := by omega
  have n4 : ¬2 * y + 1 = 2 * (y + 1) + 1 := by omega
  have n5 : ¬2 * (x + 1) = 2 * x + 1 := by omega
  have n6 : ¬2 * (x + 1) + 1 = 2 * x + 1 := by omega
  have n7 : ¬2 * (y + 1) = 2 * y + 1 := by omega
  have n8 : ¬2 * (y + 1) + 1 = 2 * y + 1 := by omega
  have n9 : ¬2 * (x + 1) = 2 * (x + 1) + 1 := by omega
  have n10 : ¬2 * (y + 1) = 2 * (y + 1) + 1 := by omega
  have n11 : ¬2 * (x + 1) + 1 = 2 * (x + 1) := by omega
  have n12 : ¬2 * (y + 1) + 1 = 2 * (y + 1) := by omega
  have W : ∀ x a : ℕ, (w1 (x + 1) a : K) = if a = 2 * (x + 1) then 1 else if a = 2 * x + 1 ∨ a = 2 * (x + 1) + 1 then 1 / 2 else 0 := by
    intro x a
    unfold w1
    congr 1
    have : (a + 1 = 2 * (x + 1) ∨ a = 2 * (x + 1) + 1) ↔ (a = 2 * x + 1 ∨ a = 2 * (x + 1) + 1) := by omega
    simp only [this]
  rw [W, W]
  rcases ha with rfl | rfl | rfl | ⟨a1, a2, a3⟩ <;> rcases hb with rfl | rfl | rfl | ⟨b1, b2, b3⟩ <;>
    simp only [*, if_true, if_false, and_true, and_false, true_and, false_and, or_true, or_false, true_or, false_or, and_self, not_true_eq_false] at hd ⊢ <;>
    ring

theorem interpStep_centre {orig out : Arr K} {p : ℕ × ℕ} (h1 : 1 ≤ p.1) (h2 : 1 ≤ p.2) :
    interpStep orig out p (2 * p.1, 2 * p.2) = orig p := by
  obtain ⟨x, y⟩ := p
  obtain ⟨x, rfl⟩ : ∃ z, x = z + 1 := ⟨x - 1, by omega⟩
  obtain ⟨y, rfl⟩ : ∃ z, y = z + 1 := ⟨y - 1, by omega⟩
  simp only [interpStep, addAt_apply, Arr.set, Function.update_apply, Prod.mk.injEq, ne_eq, true_and, and_true, and_self, if_true]
  have n9 : ¬2 * (x + 1) = 2 * (x + 1) + 1 := by omega
  have n10 : ¬2 * (y + 1) = 2 * (y + 1) + 1 := by omega
  rw [if_neg n10, if_neg n9, if_neg (by omega), if_neg (by omega)]
  simp

theorem foldl_interp (orig : Arr K) : ∀ (l : List (ℕ × ℕ)) (out : Arr K), l.Nodup → (∀ p ∈ l, 1 ≤ p.1 ∧ 1 ≤ p.2) →
    ∀ d, (∀ p ∈ l, d = (2 * p.1, 2 * p.2) → out d = 0) →
    l.foldl (interpStep orig) out d = out d + (l.map fun p => w1 p.1 d.1 * w1 p.2 d.2 * orig p).sum
  | [], out, _, _, d, _ => by simp
  | p :: l, out, hn, hp, d, h0 => by
    have hn' := List.nodup_cons.mp hn
    have hp1 := hp p List.mem_cons_self
    rw [List.foldl_cons, List.map_cons, List.sum_cons]
    by_cases hd : d = (2 * p.1, 2 * p.2)
    · rw [foldl_interp orig l _ hn'.2 (fun q hq => hp q (List.mem_cons_of_mem _ hq)) d, h0 p List.mem_cons_self hd, zero_add]
      · congr 1
        subst hd
        rw [interpStep_centre hp1.1 hp1.2, w1_even, w1_even, if_pos rfl, if_pos rfl]
        ring
      · intro q hq hdq
        exfalso
        rw [hd] at hdq
        simp only [Prod.mk.injEq] at hdq
        have : p = q := by ext <;> omega
        exact hn'.1 (this ▸ hq)
    · rw [foldl_interp orig l _ hn'.2 (fun q hq => hp q (List.mem_cons_of_mem _ hq)) d, interpStep_apply hp1.1 hp1.2 hd]
      · ring
      · intro q hq hdq
        rw [interpStep_apply hp1.1 hp1.2 hd, h0 q (List.mem_cons_of_mem _ hq) hdq, zero_add]
        have hqp : q ≠ p := fun h => hn'.1 (h ▸ hq)
        subst hdq
        rw [w1_even, w1_even]
        by_cases e1 : p.1 = q.1
        · by_cases e2 : p.2 = q.2
          · exact absurd (Prod.ext e1.symm e2.symm) hqp
          · rw [if_neg e2]; ring
        · rw [if_neg e1]; ring

theorem interpolate_val (g : Grid K) (d : ℕ × ℕ) :
    (interpolate g).val d = ((interiorCells g.nx g.ny).map fun p => w1 p.1 d.1 * w1 p.2 d.2 * g.val p).sum := by
  rw [interpolate]
  simp only
  rw [foldl_interp _ _ _ (nodup_interior _ _), zero_add]
  · intro p hp
    have := mem_interior.mp hp
    simp only [isInterior, decide_eq_true_eq] at this
    omega
  · intros; rfl

theorem zeroEdge_eq (g : Grid K) (c : ℕ × ℕ) : zeroEdge g c = if isInterior g.nx g.ny c then g.val c else 0 := by
  simp only [zeroEdge, isInterior, decide_eq_true_eq]
  rfl

theorem sum_at (g : Grid K) (a : ℕ × ℕ) (k : K) :
    ((interiorCells g.nx g.ny).map fun p => (if p.1 = a.1 ∧ p.2 = a.2 then k else 0) * g.val p).sum = k * zeroEdge g a := by
  have := sum_single (fun p => k * g.val p) a (nodup_interior g.nx g.ny)
  simp only [mem_interior] at this
  rw [zeroEdge_eq]
  rw [mul_ite, mul_zero, ← this]
  congr 1
  apply List.map_congr_left
  intro p _
  by_cases h : p = a
  · rw [if_pos h, if_pos ⟨congrArg _ h, congrArg _ h⟩]
  · rw [if_neg h, if_neg (fun hh => h (Prod.ext hh.1 hh.2)), zero_mul]

theorem map_add_sum {α : Type*} (f g : α → K) (l : List α) : (l.map fun p => f p + g p).sum = (l.map f).sum + (l.map g).sum :=
  List.sum_map_add

theorem ite_mul_ite (a b : Prop) [Decidable a] [Decidable b] (x y : K) :
    (if a then x else 0) * (if b then y else 0) = if a ∧ b then x * y else 0 := by
  by_cases ha : a <;> by_cases hb : b <;> simp [ha, hb]

/-- Interpolation is bilinear between the interior points, with zero on the edge. -/
theorem interpolate_eq (g : Grid K) (x y : ℕ) :
    (interpolate g).val (2 * x, 2 * y) = zeroEdge g (x, y) ∧
    (interpolate g).val (2 * x + 1, 2 * y) = (zeroEdge g (x, y) + zeroEdge g (x + 1, y)) / 2 ∧
    (interpolate g).val (2 * x, 2 * y + 1) = (zeroEdge g (x, y) + zeroEdge g (x, y + 1)) / 2 ∧
    (interpolate g).val (2 * x + 1, 2 * y + 1) =
      (zeroEdge g (x, y) + zeroEdge g (x + 1, y) + zeroEdge g (x, y + 1) + zeroEdge g (x + 1, y + 1)) / 4 := by
  simp only [interpolate_val, w1_even, w1_odd, add_mul, mul_add, ite_mul_ite, map_add_sum]
  have h := fun a k => sum_at g a k
  refine ⟨?_, ?_, ?_, ?_⟩
  · rw [h (x, y)]; ring
  · rw [h (x, y), h (x + 1, y)]; ring
  · rw [h (x, y), h (x, y + 1)]; ring
  · rw [h (x, y), h (x + 1, y), h (x, y + 1), h (x + 1, y + 1)]; ring

/-! ## Sizes -/

theorem odd_false {nx ny : ℕ} : odd nx ny = false ↔ nx % 2 = 1 ∧ ny % 2 = 1 := by
  simp only [odd, decide_eq_false_iff_not]
  omega

theorem half_twice {n : ℕ} (h : n % 2 = 1) : 2 * (half n - 1) + 1 = n := by
  rw [half]; omega

/-! ## Vectors on `range N` -/

theorem matVec_congr {N : ℕ} {A : ℕ → ℕ → K} {u v : ℕ → K} (h : ∀ i < N, u i = v i) (r : ℕ) : matVec N A u r = matVec N A v r := by
  unfold matVec
  exact Finset.sum_congr rfl fun c hc => by rw [h c (Finset.mem_range.mp hc)]

theorem matVec_combine (N : ℕ) (A : ℕ → ℕ → K) (u v : ℕ → K) (a : K) (r : ℕ) :
    matVec N A (fun i => u i + a * v i) r = matVec N A u r + a * matVec N A v r := by
  unfold matVec
  rw [Finset.mul_sum, ← Finset.sum_add_distrib]
  exact Finset.sum_congr rfl fun c _ => by ring

/-- A matrix for which every equation has a solution has only one. -/
theorem unique_of_solvable {N : ℕ} {A : ℕ → ℕ → K} {solve : (ℕ → K) → ℕ → K}
    (h : ∀ b, ∀ i < N, matVec N A (solve b) i = b i) {u v : ℕ → K} (huv : ∀ i < N, matVec N A u i = matVec N A v i) :
    ∀ i < N, u i = v i := by
  let ext : (Fin N → K) → ℕ → K := fun w i => if hi : i < N then w ⟨i, hi⟩ else 0
  let L : (Fin N → K) →ₗ[K] (Fin N → K) := Matrix.mulVecLin (Matrix.of fun i j : Fin N => A i j)
  have hL : ∀ (w : Fin N → K) (v : ℕ → K), (∀ i : Fin N, w i = v i) → ∀ i : Fin N, L w i = matVec N A v i := by
    intro w v hw i
    simp only [L, Matrix.mulVecLin_apply, Matrix.mulVec, dotProduct, Matrix.of_apply, matVec]
    rw [Finset.sum_range fun c => A i c * v c]
    exact Finset.sum_congr rfl fun c _ => by rw [hw]
  have hsurj : Function.Surjective L := by
    intro b
    refine ⟨fun i => solve (ext b) i, ?_⟩
    funext i
    rw [hL _ (solve (ext b)) (fun _ => rfl), h (ext b) i i.2]
    simp [ext]
  have hinj := LinearMap.injective_iff_surjective.mpr hsurj
  have : (fun i : Fin N => u i) = fun i : Fin N => v i := by
    apply hinj
    funext i
    rw [hL _ u (fun _ => rfl), hL _ v (fun _ => rfl), huv i i.2]
  intro i hi
  exact congrFun this ⟨i, hi⟩

theorem flat_unflat {ny : ℕ} (v : ℕ → K) : ∀ i, 0 < ny → GS.flat ny (unflat ny v) i = v i := by
  intro i hn
  simp only [GS.flat, unflat]
  rw [Nat.div_add_mod' i ny]

end FreeGS.MG
