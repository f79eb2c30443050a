import Verif.Spec.Romberg
import Verif.Lemmas.RombergExact
import Verif.Model.Jtor
import Verif.Model.Global
import Verif.Model.Equilibrium
import Verif.Lemmas.Global

set_option linter.unusedSectionVars false

/-!
# C109: integrals over the grid
-/

namespace FreeGS.GS

open Finset

theorem linspace_node (a b : ℝ) (k m : ℕ) : Critical.linspaceAt a b (2 ^ k + 1) m = a + m * ((b - a) / 2 ^ k) := by
  have : 0 < 2 ^ k := by positivity
  rw [Critical.linspaceAt, if_neg (by omega)]
  push_cast
  rw [add_sub_cancel_right]

theorem linspace_step (a b : ℝ) (k : ℕ) :
    Critical.linspaceAt a b (2 ^ k + 1) 1 - Critical.linspaceAt a b (2 ^ k + 1) 0 = (b - a) / 2 ^ k := by
  rw [linspace_node, linspace_node]
  push_cast
  ring

/-- The calculation of the code is the functional of the lemmas. -/
theorem integrate_eq (D : Rectangle) (k l : ℕ) (f : ℝ × ℝ → ℝ) :
    Jtor.integrate (2 ^ k + 1) (2 ^ l + 1) (D.R k) (D.Z l) (D.sample k l f) = .ok (quad2 D.a D.b D.c D.d k l fun x y => f (x, y)) := by
  have h : romb2 (2 ^ k + 1) (2 ^ l + 1) (D.sample k l f) = .ok (∑ m ∈ range (2 ^ k + 1), (rule D.a D.b k).w m *
      ∑ n ∈ range (2 ^ l + 1), (rule D.c D.d l).w n * f (D.a + m * ((D.b - D.a) / 2 ^ k), D.c + n * ((D.d - D.c) / 2 ^ l))) := by
    simp only [romb2, (rule D.c D.d l).romb, (rule D.a D.b k).romb, Except.toOption, Option.getD_some, Rectangle.sample, Rectangle.R,
      Rectangle.Z, linspace_node]
  simp only [Jtor.integrate, h, bind, Except.bind, Rectangle.R, Rectangle.Z, linspace_step, quad2, quad1]
  congr 1
  simp only [← mul_assoc, ← sum_mul]
  ring

/-- **C109 (polynomials).** On a grid of `2 ^ k + 1` by `2 ^ l + 1` points the integral of the code is exact for polynomials of degree
up to `2 k + 1` in the radius and `2 l + 1` in the height. -/
theorem C109_polynomials (D : Rectangle) (k l : ℕ) (s : Finset ℕ) (P Q : ℕ → Polynomial ℝ) (hP : ∀ i ∈ s, (P i).natDegree ≤ 2 * k + 1)
    (hQ : ∀ i ∈ s, (Q i).natDegree ≤ 2 * l + 1) :
    Jtor.integrate (2 ^ k + 1) (2 ^ l + 1) (D.R k) (D.Z l) (D.sample k l fun q => ∑ i ∈ s, (P i).eval q.1 * (Q i).eval q.2) =
      .ok (D.integral fun q => ∑ i ∈ s, (P i).eval q.1 * (Q i).eval q.2) := by
  rw [integrate_eq]
  congr 1
  exact quad2_poly D.a D.b D.c D.d k l s P Q hP hQ

/-- **C109 (error).** The error is at most twice the area times the distance to the best polynomial of these degrees. -/
theorem C109_error (D : Rectangle) (k l : ℕ) (s : Finset ℕ) (P Q : ℕ → Polynomial ℝ) (hP : ∀ i ∈ s, (P i).natDegree ≤ 2 * k + 1)
    (hQ : ∀ i ∈ s, (Q i).natDegree ≤ 2 * l + 1) (f : ℝ × ℝ → ℝ) (hf : ContinuousOn f D.set) (ε : ℝ)
    (h : ∀ q ∈ D.set, |f q - ∑ i ∈ s, (P i).eval q.1 * (Q i).eval q.2| ≤ ε) :
    ∃ v, Jtor.integrate (2 ^ k + 1) (2 ^ l + 1) (D.R k) (D.Z l) (D.sample k l f) = .ok v ∧
      |v - D.integral f| ≤ 2 * ((D.b - D.a) * (D.d - D.c)) * ε := by
  refine ⟨_, integrate_eq D k l f, ?_⟩
  have h1 := quad2_close D.hab D.hcd k l (f := fun x y => f (x, y)) (g := fun x y => ∑ i ∈ s, (P i).eval x * (Q i).eval y)
    fun x hx y hy => h (x, y) ⟨hx, hy⟩
  have hc : ContinuousOn (Function.uncurry fun x y => ∑ i ∈ s, (P i).eval x * (Q i).eval y) (Set.Icc D.a D.b ×ˢ Set.Icc D.c D.d) := by
    refine Continuous.continuousOn ?_
    unfold Function.uncurry
    fun_prop
  have h2 := integral2_close D.hab D.hcd (f := fun x y => f (x, y)) (g := fun x y => ∑ i ∈ s, (P i).eval x * (Q i).eval y) hf hc
    fun x hx y hy => h (x, y) ⟨hx, hy⟩
  rw [quad2_poly D.a D.b D.c D.d k l s P Q hP hQ] at h1
  have h4 := abs_sub_le (quad2 D.a D.b D.c D.d k l fun x y => f (x, y)) (∫ x in D.a..D.b, ∫ y in D.c..D.d, ∑ i ∈ s, (P i).eval x * (Q i).eval y)
    (D.integral f)
  rw [abs_sub_comm (∫ x in D.a..D.b, ∫ y in D.c..D.d, ∑ i ∈ s, (P i).eval x * (Q i).eval y)] at h4
  simp only [Rectangle.integral] at *
  linarith

/-- **C109 (convergence).** The integral of the code converges to the integral under refinement of the grid, for every function that has
one in the sense of Riemann. -/
theorem C109_converges (D : Rectangle) (f : ℝ × ℝ → ℝ) (V : ℝ) (h : D.Riemann f V) (ε : ℝ) (hε : 0 < ε) :
    ∃ n : ℕ, ∀ k l, n ≤ k → n ≤ l → ∃ v,
      Jtor.integrate (2 ^ k + 1) (2 ^ l + 1) (D.R k) (D.Z l) (D.sample k l f) = .ok v ∧ |v - V| < ε := by
  obtain ⟨u, v, hu, hv, huv, h1, h2⟩ := h (ε / 2) (by positivity)
  obtain ⟨n, hn⟩ := quad2_converges D.hab D.hcd (f := fun x y => u (x, y)) hu (ε := ε / 2) (by positivity)
  obtain ⟨n', hn'⟩ := quad2_converges D.hab D.hcd (f := fun x y => v (x, y)) hv (ε := ε / 2) (by positivity)
  refine ⟨max n n', fun k l hk hl => ⟨_, integrate_eq D k l f, ?_⟩⟩
  have a1 := hn k l (le_trans (le_max_left _ _) hk) (le_trans (le_max_left _ _) hl)
  have a2 := hn' k l (le_trans (le_max_right _ _) hk) (le_trans (le_max_right _ _) hl)
  have m1 := quad2_mono D.hab D.hcd k l (f := fun x y => u (x, y)) (g := fun x y => f (x, y)) fun x hx y hy => (huv (x, y) ⟨hx, hy⟩).1
  have m2 := quad2_mono D.hab D.hcd k l (f := fun x y => f (x, y)) (g := fun x y => v (x, y)) fun x hx y hy => (huv (x, y) ⟨hx, hy⟩).2
  simp only [Rectangle.integral] at *
  rw [abs_le] at a1 a2
  rw [abs_lt]
  constructor <;> linarith [a1.1, a2.2]

/-- **C109 (continuous functions).** Continuous functions have an integral in that sense, the ordinary one. -/
theorem C109_continuous (D : Rectangle) (f : ℝ × ℝ → ℝ) (hf : ContinuousOn f D.set) : D.Riemann f (D.integral f) :=
  fun ε hε => ⟨f, f, hf, hf, fun _ _ => ⟨le_rfl, le_rfl⟩, by linarith, by linarith⟩

/-- **C109 (one integral).** A function has at most one integral. -/
theorem C109_unique (D : Rectangle) (f : ℝ × ℝ → ℝ) (V W : ℝ) (hV : D.Riemann f V) (hW : D.Riemann f W) : V = W := by
  by_contra hne
  have hpos : 0 < |V - W| / 2 := by have := abs_pos.mpr (sub_ne_zero.mpr hne); positivity
  obtain ⟨n, hn⟩ := C109_converges D f V hV _ hpos
  obtain ⟨m, hm⟩ := C109_converges D f W hW _ hpos
  obtain ⟨v, e1, h1⟩ := hn (max n m) (max n m) (le_max_left _ _) (le_max_left _ _)
  obtain ⟨w, e2, h2⟩ := hm (max n m) (max n m) (le_max_right _ _) (le_max_right _ _)
  rw [e1] at e2
  obtain rfl := Except.ok.inj e2
  have := abs_sub_le V v W
  rw [abs_sub_comm V v] at this
  linarith

/-- **C109 (plasma current).** The current stored by a solve converges to the integral of the current density. -/
theorem C109_plasma_current {C : Type} (D : Rectangle) (j : ℝ × ℝ → ℝ) (I : ℝ) (h : D.Riemann j I) (ε : ℝ) (hε : 0 < ε) :
    ∃ n : ℕ, ∀ k l, n ≤ k → n ≤ l → ∀ (e : Equil.Env C ℝ) (profiles : Equil.Profiles C ℝ) (s s' : Equil.State C ℝ)
      (psi0 : Option (Arr ℝ)) (b : Option ℝ), e.nx = 2 ^ k + 1 → e.ny = 2 ^ l + 1 → e.R = D.R k → e.Z = D.Z l →
      Equil.solve e profiles s (some (D.sample k l j)) psi0 b = .ok s' → |s'.current - I| < ε := by
  obtain ⟨n, hn⟩ := C109_converges D j I h ε hε
  refine ⟨n, fun k l hk hl e profiles s s' psi0 b e1 e2 e3 e4 hs => ?_⟩
  obtain ⟨v, hv, hV⟩ := hn k l hk hl
  simp only [Equil.solve, Equil.density, e1, e2, e3, e4, hv, bind, Except.bind] at hs
  split at hs
  · cases hs
  · split at hs
    · cases hs
    · split at hs
      · cases hs
      · cases hs
        exact hV

/-- **C109 (edge flux).** The flux that the free boundary condition gives to a point of the edge converges to the integral of Green's function
times the current density, if there is no current at that point. -/
theorem C109_edge_flux (D : Rectangle) (G : ℝ → ℝ → ℝ → ℝ → ℝ) (j : ℝ × ℝ → ℝ) (P : ℝ × ℝ) (hP : j P = 0) (V : ℝ)
    (h : D.Riemann (fun q => G q.1 q.2 P.1 P.2 * j q) V) (ε : ℝ) (hε : 0 < ε) :
    ∃ n : ℕ, ∀ k l, n ≤ k → n ≤ l → ∀ c : ℕ × ℕ, (D.R k c.1, D.Z l c.2) = P → ∃ v,
      edgeFlux G (2 ^ k + 1) (2 ^ l + 1) (D.R k) (D.Z l) (D.sample k l j) c = .ok v ∧ |v - V| < ε := by
  obtain ⟨n, hn⟩ := C109_converges D _ V h ε hε
  refine ⟨n, fun k l hk hl c hc => ?_⟩
  obtain ⟨v, hv, hV⟩ := hn k l hk hl
  refine ⟨v, ?_, hV⟩
  subst hc
  have hp : (fun p => (Arr.set (fun p => G (D.R k p.1) (D.Z l p.2) (D.R k c.1) (D.Z l c.2)) c 0) p * D.sample k l j p) =
      D.sample k l fun q => G q.1 q.2 (D.R k c.1) (D.Z l c.2) * j q := by
    funext p
    simp only [Rectangle.sample, Arr.set, Function.update_apply]
    split_ifs with hpc
    · rw [hpc, hP, mul_zero, mul_zero]
    · rfl
  simp only [edgeFlux, hp]
  simp only [Jtor.integrate, bind, Except.bind] at hv
  split at hv
  · cases hv
  · rename_i w hw
    rw [hw]
    exact hv

/-- **C109 (volume).** The plasma volume converges to the volume swept by the region of the mask, if that region has one. -/
theorem C109_volume (D : Rectangle) (m : ℝ × ℝ → ℝ) (V : ℝ) (h : D.Riemann (fun q => 2 * Real.pi * q.1 * m q) V) (ε : ℝ) (hε : 0 < ε) :
    ∃ n : ℕ, ∀ k l, n ≤ k → n ≤ l → ∀ p : Global.Plasma ℝ, p.pi = Real.pi → p.nx = 2 ^ k + 1 → p.ny = 2 ^ l + 1 → p.R = D.R k → p.Z = D.Z l →
      p.mask = some (D.sample k l m) → ∃ v, Global.plasmaVolume p = .ok v ∧ |v - V| < ε := by
  obtain ⟨n, hn⟩ := C109_converges D _ V h ε hε
  refine ⟨n, fun k l hk hl p h1 h2 h3 h4 h5 h6 => ?_⟩
  obtain ⟨v, hv, hV⟩ := hn k l hk hl
  refine ⟨v, ?_, hV⟩
  have hdV : Global.dV p = fun c => ((D.R k 1 - D.R k 0) * (D.Z l 1 - D.Z l 0)) * D.sample k l (fun q => 2 * Real.pi * q.1 * m q) c := by
    funext c
    simp only [Global.dV, h1, h4, h5, h6, Rectangle.sample]
    ring
  rw [Global.plasmaVolume, h2, h3, hdV, Global.romb2_smul]
  simp only [Jtor.integrate, bind, Except.bind] at hv
  split at hv
  · cases hv
  · rename_i w hw
    rw [hw]
    simp only [Except.map]
    rw [← hv]
    congr 1
    ring

/-! The theorems apply: to `R ^ 3 Z + 2 R`, with three by three points, and to a current that ends within the domain. -/

section Examples

/-- The rectangle `[1, 2] × [0, 1]`. -/
noncomputable def exD : Rectangle := ⟨1, 2, 0, 1, by norm_num, by norm_num⟩

example : Jtor.integrate 3 3 (exD.R 1) (exD.Z 1) (exD.sample 1 1 fun q => q.1 ^ 3 * q.2 + 2 * q.1) =
    .ok (exD.integral fun q => q.1 ^ 3 * q.2 + 2 * q.1) := by
  have := C109_polynomials exD 1 1 {0, 1} (fun i => if i = 0 then Polynomial.X ^ 3 else 2 * Polynomial.X)
    (fun i => if i = 0 then Polynomial.X else 1)
    (fun i hi => by
      split_ifs
      · simp
      · exact (Polynomial.natDegree_C_mul_le (2 : ℝ) Polynomial.X).trans (by simp))
    (fun i hi => by split_ifs <;> simp)
  simpa using this

/-- Unit current density up to `R = 3 / 2`. -/
noncomputable def exJ (q : ℝ × ℝ) : ℝ := if q.1 ≤ 3 / 2 then 1 else 0

theorem exJ_riemann : exD.Riemann exJ (1 / 2) := by
  intro ε hε
  set δ := min (ε / 2) (1 / 4) with hδ
  have h0 : 0 < δ := lt_min (by positivity) (by norm_num)
  have h1 : δ ≤ ε / 2 := min_le_left _ _
  have h2 : δ ≤ 1 / 4 := min_le_right _ _
  let g : ℝ → ℝ := fun x => max 0 (min 1 ((3 / 2 - x) / δ))
  have hg : Continuous g := by fun_prop
  have hg0 : ∀ x, 0 ≤ g x := fun x => le_max_left _ _
  have hg1 : ∀ x, g x ≤ 1 := fun x => max_le (by norm_num) (min_le_left _ _)
  have hgl : ∀ x, x ≤ 3 / 2 - δ → g x = 1 := fun x hx => by
    have : 1 ≤ (3 / 2 - x) / δ := by rw [le_div_iff₀ h0]; linarith
    simp [g, this]
  have hgr : ∀ x, 3 / 2 ≤ x → g x = 0 := fun x hx => by
    have : (3 / 2 - x) / δ ≤ 0 := div_nonpos_of_nonpos_of_nonneg (by linarith) h0.le
    simp [g, this, le_trans this]
  have hi : ∀ (f : ℝ → ℝ), Continuous f → ∀ a b, IntervalIntegrable f MeasureTheory.volume a b := fun f hf a b => hf.intervalIntegrable a b
  refine ⟨fun q => g q.1, fun q => g (q.1 - δ), by fun_prop, by fun_prop, fun q _ => ?_, ?_, ?_⟩
  · simp only [exJ]
    split_ifs with hq
    · exact ⟨hg1 _, by rw [hgl _ (by linarith)]⟩
    · exact ⟨by rw [hgr _ (by linarith)], hg0 _⟩
  · have e : exD.integral (fun q => g q.1) = ∫ x in (1 : ℝ)..2, g x := by simp [Rectangle.integral, exD]
    rw [e, ← intervalIntegral.integral_add_adjacent_intervals (hi g hg 1 (3 / 2 - δ)) (hi g hg (3 / 2 - δ) 2)]
    have p1 : ∫ x in (1 : ℝ)..(3 / 2 - δ), g x = ∫ x in (1 : ℝ)..(3 / 2 - δ), 1 := by
      refine intervalIntegral.integral_congr fun x hx => ?_
      rw [Set.uIcc_of_le (by linarith)] at hx
      exact hgl x hx.2
    have p2 : 0 ≤ ∫ x in (3 / 2 - δ)..2, g x := intervalIntegral.integral_nonneg (by linarith) fun x _ => hg0 x
    rw [p1]
    simp
    linarith
  · have hg' : Continuous fun x => g (x - δ) := by fun_prop
    have e : exD.integral (fun q => g (q.1 - δ)) = ∫ x in (1 : ℝ)..2, g (x - δ) := by simp [Rectangle.integral, exD]
    rw [e, ← intervalIntegral.integral_add_adjacent_intervals (hi _ hg' 1 (3 / 2 + δ)) (hi _ hg' (3 / 2 + δ) 2)]
    have p1 : ∫ x in (1 : ℝ)..(3 / 2 + δ), g (x - δ) ≤ ∫ x in (1 : ℝ)..(3 / 2 + δ), 1 :=
      intervalIntegral.integral_mono_on (by linarith) (hi _ hg' _ _) (hi _ continuous_const _ _) fun x _ => hg1 _
    have p2 : ∫ x in (3 / 2 + δ)..2, g (x - δ) = ∫ x in (3 / 2 + δ)..2, 0 := by
      refine intervalIntegral.integral_congr fun x hx => ?_
      rw [Set.uIcc_of_le (by linarith)] at hx
      exact hgr _ (by linarith [hx.1])
    rw [p2]
    simp at p1 ⊢
    linarith

example : ∃ n : ℕ, ∀ k l, n ≤ k → n ≤ l → ∃ v,
    Jtor.integrate (2 ^ k + 1) (2 ^ l + 1) (exD.R k) (exD.Z l) (exD.sample k l exJ) = .ok v ∧ |v - 1 / 2| < 1 / 1000 :=
  C109_converges exD exJ _ exJ_riemann _ (by norm_num)

/-- The middle of the outer edge, with a constant Green's function. -/
example : ∃ n : ℕ, ∀ k l, n ≤ k → n ≤ l → ∀ c : ℕ × ℕ, (exD.R k c.1, exD.Z l c.2) = (2, 1 / 2) → ∃ v,
    edgeFlux (fun _ _ _ _ => 1) (2 ^ k + 1) (2 ^ l + 1) (exD.R k) (exD.Z l) (exD.sample k l exJ) c = .ok v ∧ |v - 1 / 2| < 1 / 1000 :=
  C109_edge_flux exD (fun _ _ _ _ => 1) exJ (2, 1 / 2) (by norm_num [exJ]) _ (by simpa using exJ_riemann) _ (by norm_num)

/-- A solve succeeds on every such grid. -/
example (k l : ℕ) : ∃ s', Equil.solve (C := Unit)
    { mu0 := 1, nx := 2 ^ k + 1, ny := 2 ^ l + 1, R := exD.R k, Z := exD.Z l, coilPsi := fun _ _ => 0, limits := fun _ => none,
      find := fun _ => .ok ([(3 / 2, 1 / 2, 1)], []), core := fun _ _ _ _ => .ok fun _ => 1, interp := fun _ _ _ => 0, fixed := false,
      boundary := fun _ p => .ok p, solver := fun p _ => p }
    (fun _ _ _ => .error .runtime)
    { tokamak := (), plasmaPsi := fun _ => 0, spline := fun _ => 0, current := 0, jtor := none, checkLimited := false, psiAxis := none,
      psiBndry := none, psiXpt := none, psiLimit := none, contact := none, isLimited := false, mask := none }
    (some (exD.sample k l exJ)) none none = .ok s' := by
  simp only [Equil.solve, Equil.density, Equil.updateBoundary, Equil.updatePlasmaPsi, bind, Except.bind, integrate_eq]
  exact ⟨_, rfl⟩

end Examples

end FreeGS.GS
