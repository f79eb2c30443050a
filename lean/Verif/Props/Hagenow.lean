import Verif.Lemmas.Hagenow
import Verif.Props.FreeBoundary
import Verif.Props.Equilibrium

set_option linter.unusedSectionVars false

/-!
# C111: von Hagenow's boundary condition gives the flux of the current density one centimetre outside the edge
-/

namespace FreeGS.GS

open FreeGS.Critical (Domain linspaceAt)
open Set

/-- A function with four continuous derivatives in each direction on the whole rectangle: `UR n` and `UZ n` are the `n`-th derivatives. -/
structure Smooth4 (D : Rectangle) (U : ℝ → ℝ → ℝ) (UR UZ : ℕ → ℝ → ℝ → ℝ) : Prop where
  R : ∀ n < 4, ∀ q ∈ D.set, HasDerivAt (fun x => UR n x q.2) (UR (n + 1) q.1 q.2) q.1
  Z : ∀ n < 4, ∀ q ∈ D.set, HasDerivAt (UZ n q.1) (UZ (n + 1) q.1 q.2) q.2
  contR : ∀ n ≤ 4, ContinuousOn (fun q : ℝ × ℝ => UR n q.1 q.2) D.set
  contZ : ∀ n ≤ 4, ContinuousOn (fun q : ℝ × ℝ => UZ n q.1 q.2) D.set
  R0 : UR 0 = U
  Z0 : UZ 0 = U

/-- The places one centimetre outside the edge. -/
def Rectangle.around (D : Rectangle) : Set (ℝ × ℝ) :=
  ({D.a - 1 / 100, D.b + 1 / 100} ×ˢ Icc D.c D.d) ∪ (Icc D.a D.b ×ˢ {D.c - 1 / 100, D.d + 1 / 100})

theorem around_compact (D : Rectangle) : IsCompact D.around :=
  ((toFinite _).isCompact.prod isCompact_Icc).union (isCompact_Icc.prod (toFinite _).isCompact)

theorem around_apart (D : Rectangle) {P : ℝ × ℝ} (hP : P ∈ D.around) : P ∉ D.set ∧ ∀ q ∈ D.set, 1 / 10000 ≤ (P.1 - q.1) ^ 2 + (P.2 - q.2) ^ 2 := by
  have key : ∀ q ∈ D.set, 1 / 10000 ≤ (P.1 - q.1) ^ 2 + (P.2 - q.2) ^ 2 := by
    rintro q ⟨⟨q1, q2⟩, q3, q4⟩
    rcases hP with ⟨h | h, -⟩ | ⟨-, h | h⟩
    · rw [h]; nlinarith [sq_nonneg (P.2 - q.2)]
    · rw [h]; nlinarith [sq_nonneg (P.2 - q.2)]
    · rw [h]; nlinarith [sq_nonneg (P.1 - q.1)]
    · rw [h]; nlinarith [sq_nonneg (P.1 - q.1)]
  refine ⟨fun h => ?_, key⟩
  have := key P h
  norm_num at this

theorem displaced_around (D : Rectangle) (k l : ℕ) {c : ℕ × ℕ} (hc : OnEdge (2 ^ k + 1) (2 ^ l + 1) c) :
    displaced (2 ^ k + 1) (2 ^ l + 1) (D.R k) (D.Z l) c ∈ D.around := by
  have he := edge_point D k l hc
  obtain ⟨⟨h1, h2⟩, h⟩ := hc
  have last : ∀ (a b : ℝ) (k : ℕ), a + ((2 ^ k : ℕ) : ℝ) * ((b - a) / 2 ^ k) = b := fun a b k => by
    push_cast
    field_simp
    ring
  have m1 := he.1.1
  have m2 := he.1.2
  simp only [displaced]
  split_ifs with a1 a2 a3
  · left
    refine ⟨Or.inr ?_, m2⟩
    simp only [Rectangle.R, linspace_node]
    rw [show c.1 = 2 ^ k by omega, last]
    rfl
  · left
    refine ⟨Or.inl ?_, m2⟩
    simp only [Rectangle.R, linspace_node]
    rw [a2]
    simp
  · right
    refine ⟨m1, Or.inr ?_⟩
    simp only [Rectangle.Z, linspace_node]
    rw [show c.2 = 2 ^ l by omega, last]
    rfl
  · right
    refine ⟨m1, Or.inl ?_⟩
    simp only [Rectangle.Z, linspace_node]
    rw [show c.2 = 0 by omega]
    simp

/-- With the domain at least two centimetres from the axis and no larger than a hundred metres, `Greens` is not clipped one centimetre outside. -/
theorem unclipped_around (D : Rectangle) (ha : 1 / 50 ≤ D.a) (hb : D.b ≤ 100) (hh : D.d - D.c ≤ 100) {P : ℝ × ℝ} (hP : P ∈ D.around) {q : ℝ × ℝ}
    (hq : q ∈ D.set) : 0 < P.1 ∧ Unclipped q.1 q.2 P.1 P.2 := by
  have far := (around_apart D hP).2 q hq
  obtain ⟨⟨q1, q2⟩, q3, q4⟩ := hq
  have hp : (1 / 100 ≤ P.1 ∧ P.1 ≤ 100 + 1 / 100) ∧ |P.2 - q.2| ≤ 100 + 1 / 100 := by
    rw [abs_le]
    have := D.hab
    rcases hP with ⟨h | h, h2⟩ | ⟨h2, h | h⟩
    · rw [h]; exact ⟨⟨by linarith, by linarith⟩, by linarith [h2.1], by linarith [h2.2]⟩
    · rw [h]; exact ⟨⟨by linarith, by linarith⟩, by linarith [h2.1], by linarith [h2.2]⟩
    · rw [h]; exact ⟨⟨by linarith [h2.1], by linarith [h2.2]⟩, by linarith, by linarith⟩
    · rw [h]; exact ⟨⟨by linarith [h2.1], by linarith [h2.2]⟩, by linarith, by linarith⟩
  obtain ⟨⟨p1, p2⟩, p3⟩ := hp
  have p3' : (P.2 - q.2) ^ 2 ≤ 10003 := by
    have := sq_le_sq' (abs_le.mp p3).1 (abs_le.mp p3).2
    linarith
  have hs : (P.1 + q.1) ^ 2 ≤ 40005 := by nlinarith
  have hpos : 0 < (P.1 + q.1) ^ 2 + (P.2 - q.2) ^ 2 := by
    have : 0 < P.1 := by linarith
    have : 0 < q.1 := by linarith
    positivity
  refine ⟨by linarith, ?_, ?_⟩
  · rw [le_div_iff₀ hpos]
    norm_num
    nlinarith
  · rw [div_le_iff₀ hpos]
    norm_num
    nlinarith

/-- The four sums of `hagenowIntegral`. -/
theorem hagenowIntegral_eq (D : Rectangle) (G : ℝ → ℝ → ℝ → ℝ → ℝ) (k l : ℕ) (n : Normal ℝ) (P : ℝ × ℝ) :
    hagenowIntegral G (2 ^ k + 1) (2 ^ l + 1) (D.R k) (D.Z l) n P.1 P.2 = .ok
      ((∑ m ∈ Finset.range (2 ^ l + 1), (rule D.c D.d l).w m * (G (D.R k 0) (D.Z l m) P.1 P.2 * n.L m / D.R k 0)) * ((D.d - D.c) / 2 ^ l) +
       (∑ m ∈ Finset.range (2 ^ l + 1), (rule D.c D.d l).w m * (G (D.R k (2 ^ k)) (D.Z l m) P.1 P.2 * n.R m / D.R k (2 ^ k))) * ((D.d - D.c) / 2 ^ l) +
       (∑ m ∈ Finset.range (2 ^ k + 1), (rule D.a D.b k).w m * (G (D.R k m) (D.Z l 0) P.1 P.2 * n.D m / D.R k m)) * ((D.b - D.a) / 2 ^ k) +
       (∑ m ∈ Finset.range (2 ^ k + 1), (rule D.a D.b k).w m * (G (D.R k m) (D.Z l (2 ^ l)) P.1 P.2 * n.U m / D.R k m)) * ((D.b - D.a) / 2 ^ k)) := by
  have s1 : D.R k 1 - D.R k 0 = (D.b - D.a) / 2 ^ k := by simp only [Rectangle.R, linspace_node]; simp
  have s2 : D.Z l 1 - D.Z l 0 = (D.d - D.c) / 2 ^ l := by simp only [Rectangle.Z, linspace_node]; simp
  simp only [hagenowIntegral, (rule D.c D.d l).romb, (rule D.a D.b k).romb, s1, s2, Nat.add_sub_cancel]

/-- The flux at `P` of the current density `J`: the law of Biot and Savart for all the rings of current. -/
noncomputable def Rectangle.flux (D : Rectangle) (J : ℝ → ℝ → ℝ) (P : ℝ × ℝ) : ℝ := D.integral fun q => filamentFlux q.1 q.2 P.1 P.2 * J q.1 q.2

/-- The error of the value at one place, from the error of the normal derivatives and those of four integrals. -/
theorem hagenow_value (D : Rectangle) (ha : 0 < D.a) (G : ℝ → ℝ → ℝ → ℝ → ℝ) (UR UZ : ℝ → ℝ → ℝ) (k l : ℕ) (n : Normal ℝ) (P : ℝ × ℝ) (Gb B e : ℝ)
    (hB : 0 ≤ B) (hGb : ∀ q ∈ D.set, |G q.1 q.2 P.1 P.2| ≤ Gb)
    (hL : ∀ j ≤ 2 ^ l, |n.L j - -UR D.a (D.Z l j)| ≤ B) (hRt : ∀ j ≤ 2 ^ l, |n.R j - UR D.b (D.Z l j)| ≤ B)
    (hD : ∀ i ≤ 2 ^ k, |n.D i - -UZ (D.R k i) D.c| ≤ B) (hU : ∀ i ≤ 2 ^ k, |n.U i - UZ (D.R k i) D.d| ≤ B)
    (qL : |quad1 D.c D.d l (fun y => G D.a y P.1 P.2 * -UR D.a y / D.a) - ∫ y in D.c..D.d, G D.a y P.1 P.2 * -UR D.a y / D.a| ≤ e)
    (qR : |quad1 D.c D.d l (fun y => G D.b y P.1 P.2 * UR D.b y / D.b) - ∫ y in D.c..D.d, G D.b y P.1 P.2 * UR D.b y / D.b| ≤ e)
    (qD : |quad1 D.a D.b k (fun x => G x D.c P.1 P.2 * -UZ x D.c / x) - ∫ x in D.a..D.b, G x D.c P.1 P.2 * -UZ x D.c / x| ≤ e)
    (qU : |quad1 D.a D.b k (fun x => G x D.d P.1 P.2 * UZ x D.d / x) - ∫ x in D.a..D.b, G x D.d P.1 P.2 * UZ x D.d / x| ≤ e) :
    ∃ v, hagenowIntegral G (2 ^ k + 1) (2 ^ l + 1) (D.R k) (D.Z l) n P.1 P.2 = .ok v ∧
      |v - ((∫ y in D.c..D.d, G D.a y P.1 P.2 * -UR D.a y / D.a) + (∫ y in D.c..D.d, G D.b y P.1 P.2 * UR D.b y / D.b) +
        (∫ x in D.a..D.b, G x D.c P.1 P.2 * -UZ x D.c / x) + ∫ x in D.a..D.b, G x D.d P.1 P.2 * UZ x D.d / x)| ≤
      2 * (D.b - D.a + (D.d - D.c)) * (Gb * B / D.a) + 4 * e := by
  refine ⟨_, hagenowIntegral_eq D G k l n P, ?_⟩
  have r0 : D.R k 0 = D.a := by simp only [Rectangle.R, linspace_node]; simp
  have z0 : D.Z l 0 = D.c := by simp only [Rectangle.Z, linspace_node]; simp
  have r1 : D.R k (2 ^ k) = D.b := by simp only [Rectangle.R, linspace_node]; push_cast; field_simp; ring
  have z1 : D.Z l (2 ^ l) = D.d := by simp only [Rectangle.Z, linspace_node]; push_cast; field_simp; ring
  have hr : ∀ m ≤ 2 ^ k, D.R k m ∈ Icc D.a D.b := fun m hm => by simp only [Rectangle.R, linspace_node]; exact node_mem D.hab k hm
  have hz : ∀ m ≤ 2 ^ l, D.Z l m ∈ Icc D.c D.d := fun m hm => by simp only [Rectangle.Z, linspace_node]; exact node_mem D.hcd l hm
  have rn : ∀ m : ℕ, D.a + m * ((D.b - D.a) / 2 ^ k) = D.R k m := fun m => (linspace_node _ _ _ _).symm
  have zn : ∀ m : ℕ, D.c + m * ((D.d - D.c) / 2 ^ l) = D.Z l m := fun m => (linspace_node _ _ _ _).symm
  have la : D.a ∈ Icc D.a D.b := ⟨le_rfl, D.hab⟩
  have lb : D.b ∈ Icc D.a D.b := ⟨D.hab, le_rfl⟩
  have lc : D.c ∈ Icc D.c D.d := ⟨le_rfl, D.hcd⟩
  have ld : D.d ∈ Icc D.c D.d := ⟨D.hcd, le_rfl⟩
  have term : ∀ {x y p q : ℝ}, (x, y) ∈ D.set → |p - q| ≤ B → |G x y P.1 P.2 * p / x - G x y P.1 P.2 * q / x| ≤ Gb * B / D.a := by
    intro x y p q hq hpq
    have hx : D.a ≤ x := hq.1.1
    have hx0 : 0 < x := ha.trans_le hx
    have hg := hGb (x, y) hq
    rw [show G x y P.1 P.2 * p / x - G x y P.1 P.2 * q / x = G x y P.1 P.2 * (p - q) / x by ring, abs_div, abs_mul, abs_of_pos hx0]
    exact div_le_div₀ (mul_nonneg ((abs_nonneg _).trans hg) hB) (mul_le_mul hg hpq (abs_nonneg _) ((abs_nonneg _).trans hg)) ha hx
  have cL := rule_close D.hcd l (fun m => G (D.R k 0) (D.Z l m) P.1 P.2 * n.L m / D.R k 0) (fun y => G D.a y P.1 P.2 * -UR D.a y / D.a)
    (ε := Gb * B / D.a) fun m hm => by
      have := term (x := D.a) ⟨la, hz m hm⟩ (hL m hm)
      beta_reduce
      rw [zn m, r0]
      exact this
  have cR := rule_close D.hcd l (fun m => G (D.R k (2 ^ k)) (D.Z l m) P.1 P.2 * n.R m / D.R k (2 ^ k)) (fun y => G D.b y P.1 P.2 * UR D.b y / D.b)
    (ε := Gb * B / D.a) fun m hm => by
      have := term (x := D.b) ⟨lb, hz m hm⟩ (hRt m hm)
      beta_reduce
      rw [zn m, r1]
      exact this
  have cD := rule_close D.hab k (fun m => G (D.R k m) (D.Z l 0) P.1 P.2 * n.D m / D.R k m) (fun x => G x D.c P.1 P.2 * -UZ x D.c / x)
    (ε := Gb * B / D.a) fun m hm => by
      have := term (y := D.c) ⟨hr m hm, lc⟩ (hD m hm)
      beta_reduce
      rw [rn m, z0]
      exact this
  have cU := rule_close D.hab k (fun m => G (D.R k m) (D.Z l (2 ^ l)) P.1 P.2 * n.U m / D.R k m) (fun x => G x D.d P.1 P.2 * UZ x D.d / x)
    (ε := Gb * B / D.a) fun m hm => by
      have := term (y := D.d) ⟨hr m hm, ld⟩ (hU m hm)
      beta_reduce
      rw [rn m, z1]
      exact this
  rw [abs_le] at *
  constructor <;> linarith [cL.1, cL.2, cR.1, cR.2, cD.1, cD.2, cU.1, cU.2, qL.1, qL.2, qR.1, qR.2, qD.1, qD.2, qU.1, qU.2]

/-- What `freeBoundaryHagenow` does, in terms of the values at the displaced places. -/
theorem hagenow_run (D : Rectangle) (G : ℝ → ℝ → ℝ → ℝ → ℝ) (solver : Arr ℝ → Arr ℝ → Arr ℝ) (k l : ℕ) (hk : 2 ≤ k) (hl : 2 ≤ l) (Jt psi0 : Arr ℝ) :
    ∃ psi1 rhs : Arr ℝ, freeBoundaryHagenow Real.sqrt G solver (2 ^ k + 1) (2 ^ l + 1) (D.R k) (D.Z l) Jt psi0 = .ok psi1 ∧
      (∀ c, Inside (2 ^ k + 1) (2 ^ l + 1) c → rhs c = D.R k c.1 * Jt c ∧ psi1 c = psi0 c) ∧
      ∀ c, OnEdge (2 ^ k + 1) (2 ^ l + 1) c → rhs c = 0 ∧
        hagenowIntegral G (2 ^ k + 1) (2 ^ l + 1) (D.R k) (D.Z l)
          (hagenowNormal (2 ^ k + 1) (2 ^ l + 1) (D.R k 1 - D.R k 0) (D.Z l 1 - D.Z l 0)
            (Real.sqrt ((D.R k 1 - D.R k 0) ^ 2 + (D.Z l 1 - D.Z l 0) ^ 2)) (solver psi0 rhs))
          (displaced (2 ^ k + 1) (2 ^ l + 1) (D.R k) (D.Z l) c).1 (displaced (2 ^ k + 1) (2 ^ l + 1) (D.R k) (D.Z l) c).2 = .ok (psi1 c) := by
  obtain ⟨wR, wZ, -, -, h1, h2⟩ := hagenow_values Real.sqrt G solver k l hk hl (D.R k) (D.Z l)
  obtain ⟨psi1, rhs, h3, h4, h5⟩ := h2 Jt psi0
  refine ⟨psi1, rhs, h3, h4, fun c hc => ⟨(h5 c hc).1, ?_⟩⟩
  rw [h1, (h5 c hc).2]

theorem Smooth4.flux {d : Domain ℝ} {hR : d.Rmin < d.Rmax} {hZ : d.Zmin < d.Zmax} {U : ℝ → ℝ → ℝ} {UR UZ : ℕ → ℝ → ℝ → ℝ}
    (h : Smooth4 (rectangle d hR hZ) U UR UZ) : SmoothFlux d U UR UZ := by
  have oo : ∀ {a b x : ℝ}, x ∈ Ioo a b → x ∈ Icc a b := fun h => ⟨h.1.le, h.2.le⟩
  constructor
  · intro Z hz
    have d0 := fun x (hx : x ∈ Icc d.Rmin d.Rmax) => h.R 0 (by norm_num) (x, Z) ⟨hx, hz⟩
    rw [h.R0] at d0
    exact ⟨fun x hx => (d0 x hx).continuousAt.continuousWithinAt, fun x hx => d0 x (oo hx),
      fun x hx => h.R 1 (by norm_num) (x, Z) ⟨oo hx, hz⟩, fun x hx => h.R 2 (by norm_num) (x, Z) ⟨oo hx, hz⟩,
      fun x hx => h.R 3 (by norm_num) (x, Z) ⟨oo hx, hz⟩⟩
  · intro R hr
    have d0 := fun x (hx : x ∈ Icc d.Zmin d.Zmax) => h.Z 0 (by norm_num) (R, x) ⟨hr, hx⟩
    rw [h.Z0] at d0
    exact ⟨fun x hx => (d0 x hx).continuousAt.continuousWithinAt, fun x hx => d0 x (oo hx),
      fun x hx => h.Z 1 (by norm_num) (R, x) ⟨hr, oo hx⟩, fun x hx => h.Z 2 (by norm_num) (R, x) ⟨hr, oo hx⟩,
      fun x hx => h.Z 3 (by norm_num) (R, x) ⟨hr, oo hx⟩⟩

/-- The normal derivatives on one grid. -/
theorem normals_at (d : Domain ℝ) (h0 : 0 < d.Rmin) (hR : d.Rmin < d.Rmax) (hZ : d.Zmin < d.Zmax) (U : ℝ → ℝ → ℝ) (UR UZ : ℕ → ℝ → ℝ → ℝ)
    (J : ℝ → ℝ → ℝ) (hU : Smooth4 (rectangle d hR hZ) U UR UZ) (hzero : ∀ q ∈ (rectangle d hR hZ).edge, U q.1 q.2 = 0)
    (hJ : ∀ q ∈ (rectangle d hR hZ).set, UR 2 q.1 q.2 - UR 1 q.1 q.2 / q.1 + UZ 2 q.1 q.2 = q.1 * J q.1 q.2) (B M3 M4 N4 δ : ℝ)
    (b3 : ∀ q ∈ (rectangle d hR hZ).set, |UR 3 q.1 q.2| ≤ M3) (b4 : ∀ q ∈ (rectangle d hR hZ).set, |UR 4 q.1 q.2| ≤ M4)
    (c4 : ∀ q ∈ (rectangle d hR hZ).set, |UZ 4 q.1 q.2| ≤ N4)
    (hmod : ∀ q ∈ (rectangle d hR hZ).set, ∀ q' ∈ (rectangle d hR hZ).set, dist q q' < δ →
      |UR 1 q.1 q.2 - UR 1 q'.1 q'.2| ≤ B / 30 ∧ |UZ 1 q.1 q.2 - UZ 1 q'.1 q'.2| ≤ B / 30)
    (nx ny : ℕ) (hnx : 5 ≤ nx) (hny : 5 ≤ ny) (tR : 4 * stepR d nx < δ) (tZ : 4 * stepZ d ny < δ)
    (hT : (stepR d nx ^ 2 * (M4 / 12 + M3 / (6 * d.Rmin)) + stepZ d ny ^ 2 * (N4 / 12)) * (d.Rmax - d.Rmin + (d.Zmax - d.Zmin)) ≤ B / 30)
    (u : Arr ℝ) (hin : ∀ c, Inside nx ny c → centralDelta d nx ny u c = gridR d nx c.1 * J (gridR d nx c.1) (gridZ d ny c.2))
    (hed : ∀ c, OnEdge nx ny c → u c = 0) (dd : ℝ) (hd1 : stepR d nx ≤ dd) (hd2 : stepZ d ny ≤ dd) :
    let n := hagenowNormal nx ny (stepR d nx) (stepZ d ny) dd u
    (∀ j < ny, |n.L j - -UR 1 d.Rmin (gridZ d ny j)| ≤ B ∧ |n.R j - UR 1 d.Rmax (gridZ d ny j)| ≤ B) ∧
    ∀ i < nx, |n.D i - -UZ 1 (gridR d nx i) d.Zmin| ≤ B ∧ |n.U i - UZ 1 (gridR d nx i) d.Zmax| ≤ B := by
  have oo : ∀ {a b x : ℝ}, x ∈ Ioo a b → x ∈ Icc a b := fun h => ⟨h.1.le, h.2.le⟩
  have m0 : (d.Rmin, d.Zmin) ∈ (rectangle d hR hZ).set := ⟨⟨le_rfl, hR.le⟩, ⟨le_rfl, hZ.le⟩⟩
  have hM3 : 0 ≤ M3 := (abs_nonneg _).trans (b3 _ m0)
  have hM4 : 0 ≤ M4 := (abs_nonneg _).trans (b4 _ m0)
  have hN4 : 0 ≤ N4 := (abs_nonneg _).trans (c4 _ m0)
  set T := stepR d nx ^ 2 * (M4 / 12 + M3 / (6 * d.Rmin)) + stepZ d ny ^ 2 * (N4 / 12) with hTd
  have hT0 : 0 ≤ T := by positivity
  have hgs : GradShafranov (-1) d UR UZ J := by
    intro R hr Z hz
    have := hJ (R, Z) ⟨oo hr, oo hz⟩
    simp only at this
    rw [this]
    ring
  have err : ∀ c, OnGrid nx ny c → |u c - U (gridR d nx c.1) (gridZ d ny c.2)| ≤ T * ((gridR d nx c.1 - d.Rmin) * (d.Rmax - gridR d nx c.1)) ∧
      |u c - U (gridR d nx c.1) (gridZ d ny c.2)| ≤ T * ((gridZ d ny c.2 - d.Zmin) * (d.Zmax - gridZ d ny c.2)) := by
    refine error_near_edge d nx ny (by omega) (by omega) h0 hR hZ (fun c => u c - U (gridR d nx c.1) (gridZ d ny c.2)) T hT0 ?_ ?_
    · intro c hc
      have hr := gridR_range d (by omega) hR hc.1.1
      have hz := gridZ_range d (by omega) hZ hc.1.2
      have : U (gridR d nx c.1) (gridZ d ny c.2) = 0 := by
        refine hzero (_, _) ⟨⟨hr, hz⟩, ?_⟩
        have hg := hc.1
        rcases hc.2 with h | h | h | h
        · left; rw [h]; show d.Rmin + (0 : ℕ) * stepR d nx = d.Rmin; simp
        · right; left; rw [show c.1 = nx - 1 by omega]; exact gridR_last d (by omega)
        · right; right; left; rw [h]; show d.Zmin + (0 : ℕ) * stepZ d ny = d.Zmin; simp
        · right; right; right; rw [show c.2 = ny - 1 by omega]; exact gridZ_last d (by omega)
      rw [hed c hc, this, sub_zero]
    · intro c hc
      have ht := truncation (-1) d nx ny (by omega) (by omega) h0 hR hZ U UR UZ J hU.flux hgs M3 M4 N4
        (fun R hr Z hz => b3 (R, Z) ⟨oo hr, hz⟩) (fun R hr Z hz => b4 (R, Z) ⟨oo hr, hz⟩) (fun R hr Z hz => c4 (R, Z) ⟨hr, oo hz⟩) c hc
      have e : centralDelta d nx ny (fun c => u c - U (gridR d nx c.1) (gridZ d ny c.2)) c =
          centralDelta d nx ny u c - centralDelta d nx ny (samples d nx ny U) c := by
        simp only [centralDelta, samples]
        ring
      rw [e, hin c hc, abs_sub_comm]
      rwa [neg_neg, one_mul] at ht
  have dist : ∀ {R R' Z Z' : ℝ}, |R - R'| ≤ 4 * stepR d nx → |Z - Z'| ≤ 4 * stepZ d ny → dist (R, Z) (R', Z') < δ := by
    intro R R' Z Z' h1 h2
    rw [Prod.dist_eq, Real.dist_eq, Real.dist_eq]
    exact max_lt (h1.trans_lt tR) (h2.trans_lt tZ)
  have main := normals d nx ny hnx hny hR hZ U (UR 1) (UZ 1) (fun R hr Z hz => by have := hU.R 0 (by norm_num) (R, Z) ⟨hr, hz⟩; rwa [hU.R0] at this)
    (fun R hr Z hz => by have := hU.Z 0 (by norm_num) (R, Z) ⟨hr, hz⟩; rwa [hU.Z0] at this) (fun R hr Z hz h => hzero (R, Z) ⟨⟨hr, hz⟩, h⟩) (B / 30)
    (fun R hr R' hr' Z hz Z' hz' a1 a2 => hmod (R, Z) ⟨hr, hz⟩ (R', Z') ⟨hr', hz'⟩ (dist a1 a2)) u T hT0 err dd hd1 hd2
  have hle : 15 * (T * (d.Rmax - d.Rmin + (d.Zmax - d.Zmin)) + B / 30) ≤ B := by linarith
  exact ⟨fun j hj => ⟨(main.1 j hj).1.trans hle, (main.1 j hj).2.trans hle⟩, fun i hi => ⟨(main.2 i hi).1.trans hle, (main.2 i hi).2.trans hle⟩⟩

/-- The normal derivatives converge, uniformly over the edge. -/
theorem hagenow_normals (d : Domain ℝ) (h0 : 0 < d.Rmin) (hR : d.Rmin < d.Rmax) (hZ : d.Zmin < d.Zmax) (U : ℝ → ℝ → ℝ) (UR UZ : ℕ → ℝ → ℝ → ℝ)
    (J : ℝ → ℝ → ℝ) (hU : Smooth4 (rectangle d hR hZ) U UR UZ) (hzero : ∀ q ∈ (rectangle d hR hZ).edge, U q.1 q.2 = 0)
    (hJ : ∀ q ∈ (rectangle d hR hZ).set, UR 2 q.1 q.2 - UR 1 q.1 q.2 / q.1 + UZ 2 q.1 q.2 = q.1 * J q.1 q.2) (B : ℝ) (hB : 0 < B) :
    ∃ n : ℕ, 2 ≤ n ∧ ∀ k l, n ≤ k → n ≤ l → ∀ u : Arr ℝ,
      (∀ c, Inside (2 ^ k + 1) (2 ^ l + 1) c →
        centralDelta d (2 ^ k + 1) (2 ^ l + 1) u c = gridR d (2 ^ k + 1) c.1 * J (gridR d (2 ^ k + 1) c.1) (gridZ d (2 ^ l + 1) c.2)) →
      (∀ c, OnEdge (2 ^ k + 1) (2 ^ l + 1) c → u c = 0) → ∀ dd, stepR d (2 ^ k + 1) ≤ dd → stepZ d (2 ^ l + 1) ≤ dd →
      let n := hagenowNormal (2 ^ k + 1) (2 ^ l + 1) (stepR d (2 ^ k + 1)) (stepZ d (2 ^ l + 1)) dd u
      (∀ j < 2 ^ l + 1, |n.L j - -UR 1 d.Rmin (gridZ d (2 ^ l + 1) j)| ≤ B ∧ |n.R j - UR 1 d.Rmax (gridZ d (2 ^ l + 1) j)| ≤ B) ∧
      ∀ i < 2 ^ k + 1, |n.D i - -UZ 1 (gridR d (2 ^ k + 1) i) d.Zmin| ≤ B ∧ |n.U i - UZ 1 (gridR d (2 ^ k + 1) i) d.Zmax| ≤ B := by
  have hK : IsCompact (rectangle d hR hZ).set := isCompact_Icc.prod isCompact_Icc
  obtain ⟨M3, b3⟩ := hK.exists_bound_of_continuousOn (hU.contR 3 (by norm_num))
  obtain ⟨M4, b4⟩ := hK.exists_bound_of_continuousOn (hU.contR 4 (by norm_num))
  obtain ⟨N4, c4⟩ := hK.exists_bound_of_continuousOn (hU.contZ 4 (by norm_num))
  have m0 : (d.Rmin, d.Zmin) ∈ (rectangle d hR hZ).set := ⟨⟨le_rfl, hR.le⟩, ⟨le_rfl, hZ.le⟩⟩
  have hM3 : 0 ≤ M3 := (norm_nonneg _).trans (b3 _ m0)
  have hM4 : 0 ≤ M4 := (norm_nonneg _).trans (b4 _ m0)
  have hN4 : 0 ≤ N4 := (norm_nonneg _).trans (c4 _ m0)
  set W := d.Rmax - d.Rmin + (d.Zmax - d.Zmin) with hW
  have hW0 : 0 < W := by rw [hW]; linarith
  set A := ((d.Rmax - d.Rmin) ^ 2 * (M4 / 12 + M3 / (6 * d.Rmin)) + (d.Zmax - d.Zmin) ^ 2 * (N4 / 12)) * W with hA
  have hA0 : 0 ≤ A := by positivity
  obtain ⟨δ1, hδ1, u1⟩ := Metric.uniformContinuousOn_iff.mp (hK.uniformContinuousOn_of_continuous (hU.contR 1 (by norm_num))) (B / 30) (by positivity)
  obtain ⟨δ2, hδ2, u2⟩ := Metric.uniformContinuousOn_iff.mp (hK.uniformContinuousOn_of_continuous (hU.contZ 1 (by norm_num))) (B / 30) (by positivity)
  obtain ⟨m1, hm1⟩ := exists_pow_lt_of_lt_one (show 0 < B / (30 * (A + 1)) by positivity) (show (1 / 4 : ℝ) < 1 by norm_num)
  obtain ⟨m2, hm2⟩ := exists_pow_lt_of_lt_one (show 0 < min δ1 δ2 / (4 * W) by positivity) (show (1 / 2 : ℝ) < 1 by norm_num)
  refine ⟨max 2 (max m1 m2), le_max_left _ _, fun k l hk hl u hin hed dd hd1 hd2 => ?_⟩
  have hpow : ∀ k, 2 ≤ k → 5 ≤ 2 ^ k + 1 := fun k hk => by have := Nat.pow_le_pow_right (show 0 < 2 by norm_num) hk; omega
  have hnx := hpow k ((le_max_left _ _).trans hk)
  have hny := hpow l ((le_max_left _ _).trans hl)
  have stepEq : ∀ (w : ℝ) (k : ℕ), w / (((2 ^ k + 1 : ℕ) : ℝ) - 1) = w * (1 / 2) ^ k := by
    intro w k
    push_cast
    rw [add_sub_cancel_right, one_div, inv_pow, div_eq_mul_inv]
  have sq : ∀ (w : ℝ) (k : ℕ), m1 ≤ k → (w / (((2 ^ k + 1 : ℕ) : ℝ) - 1)) ^ 2 ≤ w ^ 2 * (1 / 4) ^ m1 := by
    intro w k hk
    rw [stepEq, mul_pow, ← pow_mul, mul_comm k 2, pow_mul]
    refine mul_le_mul_of_nonneg_left ?_ (sq_nonneg _)
    rw [show ((1 : ℝ) / 2) ^ 2 = 1 / 4 by norm_num]
    exact pow_le_pow_of_le_one (by norm_num) (by norm_num) hk
  have lin : ∀ (w : ℝ) (k : ℕ), 0 ≤ w → w ≤ W → m2 ≤ k → 4 * (w / (((2 ^ k + 1 : ℕ) : ℝ) - 1)) < min δ1 δ2 := by
    intro w k hw hwW hk
    rw [stepEq]
    have h1 : w * (1 / 2) ^ k ≤ W * (1 / 2) ^ m2 := mul_le_mul hwW (pow_le_pow_of_le_one (by norm_num) (by norm_num) hk) (by positivity) hW0.le
    rw [lt_div_iff₀ (by positivity)] at hm2
    linarith
  have k1 : m1 ≤ k := (le_max_left _ _).trans ((le_max_right _ _).trans hk)
  have l1 : m1 ≤ l := (le_max_left _ _).trans ((le_max_right _ _).trans hl)
  have k2 : m2 ≤ k := (le_max_right _ _).trans ((le_max_right _ _).trans hk)
  have l2 : m2 ≤ l := (le_max_right _ _).trans ((le_max_right _ _).trans hl)
  have sR := sq (d.Rmax - d.Rmin) k k1
  have sZ := sq (d.Zmax - d.Zmin) l l1
  have tR := lin (d.Rmax - d.Rmin) k (by linarith) (by rw [hW]; linarith) k2
  have tZ := lin (d.Zmax - d.Zmin) l (by linarith) (by rw [hW]; linarith) l2
  have hc1 : 0 ≤ M4 / 12 + M3 / (6 * d.Rmin) := by positivity
  have hc2 : 0 ≤ N4 / 12 := by positivity
  have hTA : (stepR d (2 ^ k + 1) ^ 2 * (M4 / 12 + M3 / (6 * d.Rmin)) + stepZ d (2 ^ l + 1) ^ 2 * (N4 / 12)) * W ≤ B / 30 := by
    have h1 : (stepR d (2 ^ k + 1) ^ 2 * (M4 / 12 + M3 / (6 * d.Rmin)) + stepZ d (2 ^ l + 1) ^ 2 * (N4 / 12)) * W ≤ A * (1 / 4) ^ m1 := by
      rw [hA]
      calc _ ≤ ((d.Rmax - d.Rmin) ^ 2 * (1 / 4) ^ m1 * (M4 / 12 + M3 / (6 * d.Rmin)) + (d.Zmax - d.Zmin) ^ 2 * (1 / 4) ^ m1 * (N4 / 12)) * W :=
            mul_le_mul_of_nonneg_right (add_le_add (mul_le_mul_of_nonneg_right sR hc1) (mul_le_mul_of_nonneg_right sZ hc2)) hW0.le
        _ = _ := by ring
    rw [lt_div_iff₀ (by positivity)] at hm1
    have hp : 0 < (1 / 4 : ℝ) ^ m1 := by positivity
    have h2 : (1 / 4 : ℝ) ^ m1 * (30 * (A + 1)) = 30 * (A * (1 / 4) ^ m1) + 30 * (1 / 4) ^ m1 := by ring
    linarith
  exact normals_at d h0 hR hZ U UR UZ J hU hzero hJ B M3 M4 N4 (min δ1 δ2) (fun q hq => b3 q hq) (fun q hq => b4 q hq) (fun q hq => c4 q hq)
    (fun q hq q' hq' hd => ⟨(show |UR 1 q.1 q.2 - UR 1 q'.1 q'.2| < B / 30 from u1 q hq q' hq' (hd.trans_le (min_le_left _ _))).le,
      (show |UZ 1 q.1 q.2 - UZ 1 q'.1 q'.2| < B / 30 from u2 q hq q' hq' (hd.trans_le (min_le_right _ _))).le⟩)
    (2 ^ k + 1) (2 ^ l + 1) hnx hny tR tZ hTA u hin hed dd hd1 hd2

/-- The right-hand side of Green's identity is the flux of the current density. -/
theorem edge_integrals (D : Rectangle) (ha : 1 / 50 ≤ D.a) (hb : D.b ≤ 100) (hh : D.d - D.c ≤ 100) (U : ℝ → ℝ → ℝ) (UR UZ : ℕ → ℝ → ℝ → ℝ)
    (J : ℝ → ℝ → ℝ) (hU : Smooth4 D U UR UZ) (hzero : ∀ q ∈ D.edge, U q.1 q.2 = 0)
    (hJ : ∀ q ∈ D.set, UR 2 q.1 q.2 - UR 1 q.1 q.2 / q.1 + UZ 2 q.1 q.2 = q.1 * J q.1 q.2) {P : ℝ × ℝ} (hP : P ∈ D.around) :
    (∫ y in D.c..D.d, greens ellipticK ellipticE D.a y P.1 P.2 * -UR 1 D.a y / D.a) +
      (∫ y in D.c..D.d, greens ellipticK ellipticE D.b y P.1 P.2 * UR 1 D.b y / D.b) +
      (∫ x in D.a..D.b, greens ellipticK ellipticE x D.c P.1 P.2 * -UZ 1 x D.c / x) +
      (∫ x in D.a..D.b, greens ellipticK ellipticE x D.d P.1 P.2 * UZ 1 x D.d / x) = D.flux J P := by
  have ha0 : 0 < D.a := by linarith
  have la : D.a ∈ Icc D.a D.b := ⟨le_rfl, D.hab⟩
  have lb : D.b ∈ Icc D.a D.b := ⟨D.hab, le_rfl⟩
  have lc : D.c ∈ Icc D.c D.d := ⟨le_rfl, D.hcd⟩
  have ld : D.d ∈ Icc D.c D.d := ⟨D.hcd, le_rfl⟩
  have hP0 : 0 < P.1 := (unclipped_around D ha hb hh hP (q := (D.a, D.c)) ⟨la, lc⟩).1
  have eq : ∀ {x y : ℝ}, (x, y) ∈ D.set → greens ellipticK ellipticE x y P.1 P.2 = filamentFlux x y P.1 P.2 := fun {x y} hq =>
    (C67_greens_is_filament_flux x y P.1 P.2 hP0 (ha0.trans_le hq.1.1) (unclipped_around D ha hb hh hP hq).2).1
  have d1 := fun q hq => hU.R 0 (by norm_num) q hq
  have d3 := fun q hq => hU.Z 0 (by norm_num) q hq
  have c0 := hU.contR 0 (by norm_num)
  rw [hU.R0] at d1 c0
  rw [hU.Z0] at d3
  have g := green_edge ha0 hP0 (around_apart D hP).1 U (UR 1) (UR 2) (UZ 1) (UZ 2) c0 (hU.contR 1 (by norm_num)) (hU.contR 2 (by norm_num))
    (hU.contZ 1 (by norm_num)) (hU.contZ 2 (by norm_num)) d1 (hU.R 1 (by norm_num)) d3 (hU.Z 1 (by norm_num)) hzero
  have e1 : ∫ y in D.c..D.d, greens ellipticK ellipticE D.a y P.1 P.2 * -UR 1 D.a y / D.a =
      -∫ y in D.c..D.d, filamentFlux D.a y P.1 P.2 * UR 1 D.a y / D.a := by
    rw [← intervalIntegral.integral_neg]
    refine intervalIntegral.integral_congr fun y hy => ?_
    rw [uIcc_of_le D.hcd] at hy
    rw [eq ⟨la, hy⟩]
    ring
  have e2 : ∫ y in D.c..D.d, greens ellipticK ellipticE D.b y P.1 P.2 * UR 1 D.b y / D.b =
      ∫ y in D.c..D.d, filamentFlux D.b y P.1 P.2 * UR 1 D.b y / D.b := by
    refine intervalIntegral.integral_congr fun y hy => ?_
    rw [uIcc_of_le D.hcd] at hy
    rw [eq ⟨lb, hy⟩]
  have e3 : ∫ x in D.a..D.b, greens ellipticK ellipticE x D.c P.1 P.2 * -UZ 1 x D.c / x =
      -∫ x in D.a..D.b, filamentFlux x D.c P.1 P.2 * UZ 1 x D.c / x := by
    rw [← intervalIntegral.integral_neg]
    refine intervalIntegral.integral_congr fun x hx => ?_
    rw [uIcc_of_le D.hab] at hx
    rw [eq ⟨hx, lc⟩]
    ring
  have e4 : ∫ x in D.a..D.b, greens ellipticK ellipticE x D.d P.1 P.2 * UZ 1 x D.d / x =
      ∫ x in D.a..D.b, filamentFlux x D.d P.1 P.2 * UZ 1 x D.d / x := by
    refine intervalIntegral.integral_congr fun x hx => ?_
    rw [uIcc_of_le D.hab] at hx
    rw [eq ⟨hx, ld⟩]
  have e5 : D.flux J P = D.integral fun q => filamentFlux q.1 q.2 P.1 P.2 * ((UR 2 q.1 q.2 - UR 1 q.1 q.2 / q.1 + UZ 2 q.1 q.2) / q.1) := by
    simp only [Rectangle.flux, Rectangle.integral]
    refine intervalIntegral.integral_congr fun x hx => intervalIntegral.integral_congr fun y hy => ?_
    rw [uIcc_of_le D.hab] at hx
    rw [uIcc_of_le D.hcd] at hy
    have := hJ (x, y) ⟨hx, hy⟩
    have hx0 : x ≠ 0 := (ha0.trans_le hx.1).ne'
    simp only at this ⊢
    rw [this]
    field_simp
  rw [e1, e2, e3, e4, e5, g]
  ring

/-- The integrands over the sides are continuous. -/
theorem edge_integrand (D : Rectangle) (ha : 1 / 50 ≤ D.a) (hb : D.b ≤ 100) (hh : D.d - D.c ≤ 100) (H : ℝ → ℝ → ℝ)
    (hH : ContinuousOn (fun q : ℝ × ℝ => H q.1 q.2) D.set) :
    ContinuousOn (fun p : (ℝ × ℝ) × (ℝ × ℝ) => greens ellipticK ellipticE p.2.1 p.2.2 p.1.1 p.1.2 * H p.2.1 p.2.2 / p.2.1) (D.around ×ˢ D.set) := by
  have ha0 : 0 < D.a := by linarith
  have cG : ContinuousOn (fun p : (ℝ × ℝ) × (ℝ × ℝ) => greens ellipticK ellipticE p.2.1 p.2.2 p.1.1 p.1.2) (D.around ×ˢ D.set) :=
    continuousOn_greens.mono fun p hp => ⟨(unclipped_around D ha hb hh hp.1 hp.2).1, ha0.trans_le hp.2.1.1⟩
  exact (cG.mul (hH.comp continuous_snd.continuousOn fun p hp => hp.2)).div (by fun_prop) fun p hp => (ha0.trans_le hp.2.1.1).ne'

theorem on_vertical (F : (ℝ × ℝ) × (ℝ × ℝ) → ℝ) {S : Set (ℝ × ℝ)} {a b c d : ℝ} (hF : ContinuousOn F (S ×ˢ (Icc a b ×ˢ Icc c d))) {x : ℝ}
    (hx : x ∈ Icc a b) : ContinuousOn (fun p : (ℝ × ℝ) × ℝ => F (p.1, (x, p.2))) (S ×ˢ Icc c d) := by
  have : ContinuousOn (fun p : (ℝ × ℝ) × ℝ => (p.1, (x, p.2))) (S ×ˢ Icc c d) := by fun_prop
  exact hF.comp this fun p hp => ⟨hp.1, hx, hp.2⟩

theorem on_horizontal (F : (ℝ × ℝ) × (ℝ × ℝ) → ℝ) {S : Set (ℝ × ℝ)} {a b c d : ℝ} (hF : ContinuousOn F (S ×ˢ (Icc a b ×ˢ Icc c d))) {y : ℝ}
    (hy : y ∈ Icc c d) : ContinuousOn (fun p : (ℝ × ℝ) × ℝ => F (p.1, (p.2, y))) (S ×ˢ Icc a b) := by
  have : ContinuousOn (fun p : (ℝ × ℝ) × ℝ => (p.1, (p.2, y))) (S ×ˢ Icc a b) := by fun_prop
  exact hF.comp this fun p hp => ⟨hp.1, hp.2, hy⟩

/-- The four integrals over the sides converge, uniformly over the places outside. -/
theorem edge_quadratures (D : Rectangle) (ha : 1 / 50 ≤ D.a) (hb : D.b ≤ 100) (hh : D.d - D.c ≤ 100) (UR UZ : ℝ → ℝ → ℝ)
    (cR : ContinuousOn (fun q : ℝ × ℝ => UR q.1 q.2) D.set) (cZ : ContinuousOn (fun q : ℝ × ℝ => UZ q.1 q.2) D.set) (e : ℝ) (he : 0 < e) :
    ∃ n : ℕ, ∀ k, n ≤ k → ∀ P ∈ D.around,
      let G := greens ellipticK ellipticE
      |quad1 D.c D.d k (fun y => G D.a y P.1 P.2 * -UR D.a y / D.a) - ∫ y in D.c..D.d, G D.a y P.1 P.2 * -UR D.a y / D.a| ≤ e ∧
      |quad1 D.c D.d k (fun y => G D.b y P.1 P.2 * UR D.b y / D.b) - ∫ y in D.c..D.d, G D.b y P.1 P.2 * UR D.b y / D.b| ≤ e ∧
      |quad1 D.a D.b k (fun x => G x D.c P.1 P.2 * -UZ x D.c / x) - ∫ x in D.a..D.b, G x D.c P.1 P.2 * -UZ x D.c / x| ≤ e ∧
      |quad1 D.a D.b k (fun x => G x D.d P.1 P.2 * UZ x D.d / x) - ∫ x in D.a..D.b, G x D.d P.1 P.2 * UZ x D.d / x| ≤ e := by
  have ha0 : 0 < D.a := by linarith
  have la : D.a ∈ Icc D.a D.b := ⟨le_rfl, D.hab⟩
  have lb : D.b ∈ Icc D.a D.b := ⟨D.hab, le_rfl⟩
  have lc : D.c ∈ Icc D.c D.d := ⟨le_rfl, D.hcd⟩
  have ld : D.d ∈ Icc D.c D.d := ⟨D.hcd, le_rfl⟩
  obtain ⟨n1, h1⟩ := quad1_uniform D.hcd D.around (around_compact D) (fun P y => greens ellipticK ellipticE D.a y P.1 P.2 * -UR D.a y / D.a)
    (on_vertical _ (edge_integrand D ha hb hh (fun x y => -UR x y) cR.neg) la) he
  obtain ⟨n2, h2⟩ := quad1_uniform D.hcd D.around (around_compact D) (fun P y => greens ellipticK ellipticE D.b y P.1 P.2 * UR D.b y / D.b)
    (on_vertical _ (edge_integrand D ha hb hh UR cR) lb) he
  obtain ⟨n3, h3⟩ := quad1_uniform D.hab D.around (around_compact D) (fun P x => greens ellipticK ellipticE x D.c P.1 P.2 * -UZ x D.c / x)
    (on_horizontal _ (edge_integrand D ha hb hh (fun x y => -UZ x y) cZ.neg) lc) he
  obtain ⟨n4, h4⟩ := quad1_uniform D.hab D.around (around_compact D) (fun P x => greens ellipticK ellipticE x D.d P.1 P.2 * UZ x D.d / x)
    (on_horizontal _ (edge_integrand D ha hb hh UZ cZ) ld) he
  refine ⟨max (max n1 n2) (max n3 n4), fun k hk P hP => ?_⟩
  have l1 : n1 ≤ k := (le_max_left _ _).trans ((le_max_left _ _).trans hk)
  have l2 : n2 ≤ k := (le_max_right _ _).trans ((le_max_left _ _).trans hk)
  have l3 : n3 ≤ k := (le_max_left _ _).trans ((le_max_right _ _).trans hk)
  have l4 : n4 ≤ k := (le_max_right _ _).trans ((le_max_right _ _).trans hk)
  exact ⟨h1 k l1 P hP, h2 k l2 P hP, h3 k l3 P hP, h4 k l4 P hP⟩

/-- **C111 (edge).** Let the fixed-boundary problem for the current density `J` (`Δ*U = R J`, zero on the edge) have a smooth solution, in a domain at
least two centimetres from the axis and at most a hundred metres wide and high. Then under refinement the values that von Hagenow's method
puts on the edge converge, uniformly over the edge, to the flux of `J` by the law of Biot and Savart, not on the edge but one centimetre
outside it (to the side at the corners). Nothing is changed inside. -/
theorem C111_edge (d : Domain ℝ) (h0 : 1 / 50 ≤ d.Rmin) (h1 : d.Rmax ≤ 100) (h2 : d.Zmax - d.Zmin ≤ 100) (hR : d.Rmin < d.Rmax) (hZ : d.Zmin < d.Zmax)
    (U : ℝ → ℝ → ℝ) (UR UZ : ℕ → ℝ → ℝ → ℝ) (J : ℝ → ℝ → ℝ) (hU : Smooth4 (rectangle d hR hZ) U UR UZ)
    (hzero : ∀ q ∈ (rectangle d hR hZ).edge, U q.1 q.2 = 0)
    (hJ : ∀ q ∈ (rectangle d hR hZ).set, UR 2 q.1 q.2 - UR 1 q.1 q.2 / q.1 + UZ 2 q.1 q.2 = q.1 * J q.1 q.2) (ε : ℝ) (hε : 0 < ε) :
    ∃ n : ℕ, ∀ k l, n ≤ k → n ≤ l → ∀ factorized : (ℕ → ℝ) → ℕ → ℝ,
      (∀ b, ∀ r < (2 ^ k + 1) * (2 ^ l + 1),
        matVec ((2 ^ k + 1) * (2 ^ l + 1)) (gsSparse d (2 ^ k + 1) (2 ^ l + 1)) (factorized b) r = b r) → ∀ psi0 : Arr ℝ, ∃ psi1 : Arr ℝ,
      freeBoundaryHagenow Real.sqrt (greens ellipticK ellipticE) (fun _ b => mgDirect factorized (2 ^ l + 1) b) (2 ^ k + 1) (2 ^ l + 1)
        (linspaceAt d.Rmin d.Rmax (2 ^ k + 1)) (linspaceAt d.Zmin d.Zmax (2 ^ l + 1))
        (fun c => J (gridR d (2 ^ k + 1) c.1) (gridZ d (2 ^ l + 1) c.2)) psi0 = .ok psi1 ∧
      (∀ c, Inside (2 ^ k + 1) (2 ^ l + 1) c → psi1 c = psi0 c) ∧
      ∀ c, OnEdge (2 ^ k + 1) (2 ^ l + 1) c →
        |psi1 c - (rectangle d hR hZ).flux J (displaced (2 ^ k + 1) (2 ^ l + 1) (linspaceAt d.Rmin d.Rmax (2 ^ k + 1))
          (linspaceAt d.Zmin d.Zmax (2 ^ l + 1)) c)| ≤ ε := by
  set D := rectangle d hR hZ with hD
  have ha0 : 0 < d.Rmin := by linarith
  -- a bound of Green's function
  have cG : ContinuousOn (fun p : (ℝ × ℝ) × (ℝ × ℝ) => greens ellipticK ellipticE p.2.1 p.2.2 p.1.1 p.1.2) (D.around ×ˢ D.set) :=
    continuousOn_greens.mono fun p hp => ⟨(unclipped_around D h0 h1 h2 hp.1 hp.2).1, ha0.trans_le hp.2.1.1⟩
  obtain ⟨Gb, hGb⟩ := ((around_compact D).prod (isCompact_Icc.prod isCompact_Icc : IsCompact D.set)).exists_bound_of_continuousOn cG
  set W := D.b - D.a + (D.d - D.c) with hW
  have hW0 : 0 < W := by
    have : D.a < D.b := hR
    have : D.c < D.d := hZ
    rw [hW]; linarith
  set B := ε / (4 * (W * (|Gb| / D.a) + 1)) with hB
  have ha' : 0 < D.a := ha0
  have hC : 0 ≤ W * (|Gb| / D.a) := by positivity
  have hB0 : 0 < B := by positivity
  have hBW : 2 * W * (|Gb| * B / D.a) ≤ ε / 2 := by
    have h3 : B * (4 * (W * (|Gb| / D.a) + 1)) = ε := by rw [hB]; field_simp
    have h4 : B * (4 * (W * (|Gb| / D.a) + 1)) = 2 * (2 * W * (|Gb| * B / D.a)) + 4 * B := by ring
    linarith
  obtain ⟨n1, hn2, hn1⟩ := hagenow_normals d ha0 hR hZ U UR UZ J hU hzero hJ B hB0
  obtain ⟨n2, hq⟩ := edge_quadratures D h0 h1 h2 (UR 1) (UZ 1) (hU.contR 1 (by norm_num)) (hU.contZ 1 (by norm_num)) (ε / 8) (by positivity)
  refine ⟨max n1 n2, fun k l hk hl factorized hfac psi0 => ?_⟩
  have k1 := (le_max_left _ _).trans hk
  have k2 := (le_max_right _ _).trans hk
  have l1 := (le_max_left _ _).trans hl
  have l2 := (le_max_right _ _).trans hl
  have eR : ∀ i, D.R k i = gridR d (2 ^ k + 1) i := rect_R d hR hZ k
  have eZ : ∀ j, D.Z l j = gridZ d (2 ^ l + 1) j := rect_Z d hR hZ l
  obtain ⟨psi1, rhs, hrun, hin, hedge⟩ := hagenow_run D (greens ellipticK ellipticE) (fun _ b => mgDirect factorized (2 ^ l + 1) b) k l (hn2.trans k1)
    (hn2.trans l1) (fun c => J (gridR d (2 ^ k + 1) c.1) (gridZ d (2 ^ l + 1) c.2)) psi0
  have inv := Equil.inverts_second_order d (2 ^ k + 1) (2 ^ l + 1) factorized hfac psi0 rhs
  have sR : D.R k 1 - D.R k 0 = stepR d (2 ^ k + 1) := by rw [eR, eR]; simp [gridR]
  have sZ : D.Z l 1 - D.Z l 0 = stepZ d (2 ^ l + 1) := by rw [eZ, eZ]; simp [gridZ]
  have n := hn1 k l k1 l1 (mgDirect factorized (2 ^ l + 1) rhs) (fun c hc => by rw [inv.1 c hc, (hin c hc).1, eR]) (fun c hc =>
    (inv.2 c hc).trans (hedge c hc).1) (Real.sqrt (stepR d (2 ^ k + 1) ^ 2 + stepZ d (2 ^ l + 1) ^ 2))
    (Real.le_sqrt_of_sq_le (by linarith [sq_nonneg (stepZ d (2 ^ l + 1))])) (Real.le_sqrt_of_sq_le (by linarith [sq_nonneg (stepR d (2 ^ k + 1))]))
  refine ⟨psi1, hrun, fun c hc => (hin c hc).2, fun c hc => ?_⟩
  have hP := displaced_around D k l hc
  have hval := (hedge c hc).2
  rw [sR, sZ] at hval
  set P := displaced (2 ^ k + 1) (2 ^ l + 1) (D.R k) (D.Z l) c with hPd
  obtain ⟨q1, q2, -, -⟩ := hq l l2 P hP
  obtain ⟨-, -, q3, q4⟩ := hq k k2 P hP
  obtain ⟨v, hv, hb⟩ := hagenow_value D ha0 (greens ellipticK ellipticE) (UR 1) (UZ 1) k l
    (hagenowNormal (2 ^ k + 1) (2 ^ l + 1) (stepR d (2 ^ k + 1)) (stepZ d (2 ^ l + 1)) (Real.sqrt (stepR d (2 ^ k + 1) ^ 2 + stepZ d (2 ^ l + 1) ^ 2))
      (mgDirect factorized (2 ^ l + 1) rhs)) P |Gb| B (ε / 8) hB0.le (fun q hq => (hGb (P, q) ⟨hP, hq⟩).trans (le_abs_self _))
    (fun j hj => by rw [eZ]; exact (n.1 j (by omega)).1) (fun j hj => by rw [eZ]; exact (n.1 j (by omega)).2)
    (fun i hi => by rw [eR]; exact (n.2 i (by omega)).1) (fun i hi => by rw [eR]; exact (n.2 i (by omega)).2) q1 q2 q3 q4
  rw [hval] at hv
  rw [Except.ok.inj hv]
  rw [edge_integrals D h0 h1 h2 U UR UZ J hU hzero hJ hP] at hb
  refine hb.trans ?_
  linarith

/-- The place where the flux is taken is one centimetre from the point of the edge. -/
theorem displaced_near (nx ny : ℕ) (R Z : ℕ → ℝ) (c : ℕ × ℕ) :
    |(displaced nx ny R Z c).1 - R c.1| ≤ 1 / 100 ∧ |(displaced nx ny R Z c).2 - Z c.2| ≤ 1 / 100 := by
  simp only [displaced]
  split_ifs
  all_goals
    constructor
    all_goals
      rw [abs_le]
      constructor <;> simp only <;> linarith

/-- The truncation error of the second-order solver becomes small under refinement. -/
theorem truncation_small (d : Domain ℝ) (M N tol : ℝ) (hM : 0 ≤ M) (hN : 0 ≤ N) (htol : 0 < tol) :
    ∃ m : ℕ, ∀ k l, m ≤ k → m ≤ l →
      (d.Zmax - d.Zmin) ^ 2 / 8 * (stepR d (2 ^ k + 1) ^ 2 * M + stepZ d (2 ^ l + 1) ^ 2 * N) < tol := by
  set B := (d.Zmax - d.Zmin) ^ 2 / 8 * ((d.Rmax - d.Rmin) ^ 2 * M + (d.Zmax - d.Zmin) ^ 2 * N) with hB
  have hB0 : 0 ≤ B := by positivity
  obtain ⟨m, hm⟩ := exists_pow_lt_of_lt_one (show 0 < tol / (B + 1) by positivity) (show (1 / 4 : ℝ) < 1 by norm_num)
  refine ⟨m, fun k l hk hl => ?_⟩
  have step : ∀ (w : ℝ) (k : ℕ), m ≤ k → (w / (((2 ^ k + 1 : ℕ) : ℝ) - 1)) ^ 2 ≤ w ^ 2 * (1 / 4) ^ m := by
    intro w k hk
    push_cast
    rw [add_sub_cancel_right, div_pow, ← pow_mul, mul_comm k 2, pow_mul, div_eq_mul_inv, ← inv_pow]
    refine mul_le_mul_of_nonneg_left ?_ (sq_nonneg _)
    rw [show ((2 : ℝ) ^ 2)⁻¹ = 1 / 4 by norm_num]
    exact pow_le_pow_of_le_one (by norm_num) (by norm_num) hk
  have s1 := step (d.Rmax - d.Rmin) k hk
  have s2 := step (d.Zmax - d.Zmin) l hl
  have hsum : (d.Zmax - d.Zmin) ^ 2 / 8 * (stepR d (2 ^ k + 1) ^ 2 * M + stepZ d (2 ^ l + 1) ^ 2 * N) ≤ B * (1 / 4) ^ m := by
    calc _ ≤ (d.Zmax - d.Zmin) ^ 2 / 8 * ((d.Rmax - d.Rmin) ^ 2 * (1 / 4) ^ m * M + (d.Zmax - d.Zmin) ^ 2 * (1 / 4) ^ m * N) :=
          mul_le_mul_of_nonneg_left (add_le_add (mul_le_mul_of_nonneg_right s1 hM) (mul_le_mul_of_nonneg_right s2 hN)) (by positivity)
      _ = _ := by rw [hB]; ring
  have : B * (1 / 4) ^ m < tol := by
    rw [lt_div_iff₀ (by positivity)] at hm
    have : 0 < (1 / 4 : ℝ) ^ m := by positivity
    nlinarith
  linarith

/-- **C111 (solve).** If moreover `F` solves the Grad-Shafranov equation for `J` and on the edge is within `δ` of the flux of `J` at the places one
centimetre away, then under refinement a free-boundary solve with von Hagenow's condition comes within any tolerance above `δ` of `F`. -/
theorem C111_solve (d : Domain ℝ) (h0 : 1 / 50 ≤ d.Rmin) (h1 : d.Rmax ≤ 100) (h2 : d.Zmax - d.Zmin ≤ 100) (hR : d.Rmin < d.Rmax) (hZ : d.Zmin < d.Zmax)
    (U : ℝ → ℝ → ℝ) (UR UZ : ℕ → ℝ → ℝ → ℝ) (J : ℝ → ℝ → ℝ) (hU : Smooth4 (rectangle d hR hZ) U UR UZ)
    (hzero : ∀ q ∈ (rectangle d hR hZ).edge, U q.1 q.2 = 0)
    (hJ : ∀ q ∈ (rectangle d hR hZ).set, UR 2 q.1 q.2 - UR 1 q.1 q.2 / q.1 + UZ 2 q.1 q.2 = q.1 * J q.1 q.2)
    (F : ℝ → ℝ → ℝ) (FR FZ : ℕ → ℝ → ℝ → ℝ) (hF : SmoothFlux d F FR FZ) (hgs : GradShafranov mu0 d FR FZ J) (M3 M4 N4 : ℝ)
    (hM3 : ∀ R ∈ Ioo d.Rmin d.Rmax, ∀ Z ∈ Icc d.Zmin d.Zmax, |FR 3 R Z| ≤ M3)
    (hM4 : ∀ R ∈ Ioo d.Rmin d.Rmax, ∀ Z ∈ Icc d.Zmin d.Zmax, |FR 4 R Z| ≤ M4)
    (hN4 : ∀ R ∈ Icc d.Rmin d.Rmax, ∀ Z ∈ Ioo d.Zmin d.Zmax, |FZ 4 R Z| ≤ N4)
    (δ : ℝ) (hδ : ∀ P ∈ (rectangle d hR hZ).edge, ∀ Q ∈ (rectangle d hR hZ).around, |Q.1 - P.1| ≤ 1 / 100 → |Q.2 - P.2| ≤ 1 / 100 →
      |(rectangle d hR hZ).flux J Q - F P.1 P.2| ≤ δ) (tol : ℝ) (htol : 0 < tol) :
    ∃ n : ℕ, ∀ k l, n ≤ k → n ≤ l → ∀ factorized : (ℕ → ℝ) → ℕ → ℝ,
      (∀ b, ∀ r < (2 ^ k + 1) * (2 ^ l + 1),
        matVec ((2 ^ k + 1) * (2 ^ l + 1)) (gsSparse d (2 ^ k + 1) (2 ^ l + 1)) (factorized b) r = b r) → ∀ psi0 : Arr ℝ, ∃ psi1 : Arr ℝ,
      freeBoundaryHagenow Real.sqrt (greens ellipticK ellipticE) (fun _ b => mgDirect factorized (2 ^ l + 1) b) (2 ^ k + 1) (2 ^ l + 1)
        (linspaceAt d.Rmin d.Rmax (2 ^ k + 1)) (linspaceAt d.Zmin d.Zmax (2 ^ l + 1))
        (fun c => J (gridR d (2 ^ k + 1) c.1) (gridZ d (2 ^ l + 1) c.2)) psi0 = .ok psi1 ∧
      let psi := solve mu0 (2 ^ k + 1) (2 ^ l + 1) (linspaceAt d.Rmin d.Rmax (2 ^ k + 1)) (fun _ _ => psi1)
        (fun _ b => mgDirect factorized (2 ^ l + 1) b) (fun c => J (gridR d (2 ^ k + 1) c.1) (gridZ d (2 ^ l + 1) c.2)) psi0
      ∀ c, OnGrid (2 ^ k + 1) (2 ^ l + 1) c → |psi c - F (gridR d (2 ^ k + 1) c.1) (gridZ d (2 ^ l + 1) c.2)| < δ + tol := by
  set D := rectangle d hR hZ with hD
  have ha0 : 0 < d.Rmin := by linarith
  have hM4' : 0 ≤ M4 := le_trans (abs_nonneg _) (hM4 ((d.Rmin + d.Rmax) / 2) ⟨by linarith, by linarith⟩ d.Zmin ⟨le_refl _, hZ.le⟩)
  have hM3' : 0 ≤ M3 := le_trans (abs_nonneg _) (hM3 ((d.Rmin + d.Rmax) / 2) ⟨by linarith, by linarith⟩ d.Zmin ⟨le_refl _, hZ.le⟩)
  have hN4' : 0 ≤ N4 := le_trans (abs_nonneg _) (hN4 d.Rmin ⟨le_refl _, hR.le⟩ ((d.Zmin + d.Zmax) / 2) ⟨by linarith, by linarith⟩)
  obtain ⟨n, hn⟩ := C111_edge d h0 h1 h2 hR hZ U UR UZ J hU hzero hJ (tol / 2) (by positivity)
  obtain ⟨m, hm⟩ := truncation_small d (M4 / 12 + M3 / (6 * d.Rmin)) (N4 / 12) (tol / 2) (by positivity) (by positivity) (by positivity)
  refine ⟨max n m, fun k l hk hl factorized hfac psi0 => ?_⟩
  obtain ⟨psi1, hp, -, he⟩ := hn k l ((le_max_left _ _).trans hk) ((le_max_left _ _).trans hl) factorized hfac psi0
  refine ⟨psi1, hp, ?_⟩
  intro psi c hc
  have eR : ∀ i, D.R k i = gridR d (2 ^ k + 1) i := rect_R d hR hZ k
  have eZ : ∀ j, D.Z l j = gridZ d (2 ^ l + 1) j := rect_Z d hR hZ l
  have hpow : ∀ k : ℕ, 1 ≤ 2 ^ k := fun k => Nat.one_le_two_pow
  have key := C92_second_order mu0 mu0_pos'.le d (2 ^ k + 1) (2 ^ l + 1) (by have := hpow k; omega) (by have := hpow l; omega) ha0 hR hZ F FR FZ J hF hgs
    M3 M4 N4 hM3 hM4 hN4 factorized hfac (fun _ _ => psi1) (fun c => J (gridR d (2 ^ k + 1) c.1) (gridZ d (2 ^ l + 1) c.2)) psi0 0 (δ + tol / 2)
    (fun c _ => by simp)
    (fun c hc => by
      have e1 := he c hc
      have hP := displaced_around D k l hc
      have near := displaced_near (2 ^ k + 1) (2 ^ l + 1) (D.R k) (D.Z l) c
      have e2 := hδ _ (edge_point D k l hc) _ hP near.1 near.2
      simp only [eR, eZ] at e2
      calc |psi1 c - F (gridR d (2 ^ k + 1) c.1) (gridZ d (2 ^ l + 1) c.2)| ≤ _ := abs_sub_le _ _ _
        _ ≤ tol / 2 + δ := add_le_add e1 e2
        _ = δ + tol / 2 := add_comm _ _) le_rfl c hc
  refine lt_of_le_of_lt key ?_
  have := hm k l ((le_max_right _ _).trans hk) ((le_max_right _ _).trans hl)
  rw [mul_zero, add_zero]
  linarith

/-! ## Cases that meet the hypotheses -/

section Examples

/-- `(R - 1) (2 - R) Z (1 - Z)` on the square `[1, 2] × [0, 1]`. -/
noncomputable def tentR : ℕ → ℝ → ℝ → ℝ
  | 0 => fun R Z => (R - 1) * (2 - R) * (Z * (1 - Z))
  | 1 => fun R Z => (3 - 2 * R) * (Z * (1 - Z))
  | 2 => fun _ Z => -2 * (Z * (1 - Z))
  | _ => fun _ _ => 0
noncomputable def tentZ : ℕ → ℝ → ℝ → ℝ
  | 0 => fun R Z => (R - 1) * (2 - R) * (Z * (1 - Z))
  | 1 => fun R Z => (R - 1) * (2 - R) * (1 - 2 * Z)
  | 2 => fun R _ => (R - 1) * (2 - R) * -2
  | _ => fun _ _ => 0
noncomputable def tentJ (R Z : ℝ) : ℝ := (tentR 2 R Z - tentR 1 R Z / R + tentZ 2 R Z) / R

theorem tent_smooth (D : Rectangle) : Smooth4 D (tentR 0) tentR tentZ := by
  refine ⟨fun n hn q _ => ?_, fun n hn q _ => ?_, fun n hn => ?_, fun n hn => ?_, rfl, rfl⟩
  · interval_cases n <;> simp only [tentR]
    · have := (((hasDerivAt_id q.1).sub_const 1).mul ((hasDerivAt_id q.1).const_sub 2)).mul_const (q.2 * (1 - q.2))
      refine this.congr_deriv ?_
      simp only [id]
      ring
    · have := ((((hasDerivAt_id q.1).const_mul 2).const_sub 3).mul_const (q.2 * (1 - q.2)))
      exact this.congr_deriv (by ring)
    · exact hasDerivAt_const _ _
    · exact hasDerivAt_const _ _
  · interval_cases n <;> simp only [tentZ]
    · have := ((hasDerivAt_id q.2).mul ((hasDerivAt_id q.2).const_sub 1)).const_mul ((q.1 - 1) * (2 - q.1))
      refine this.congr_deriv ?_
      simp only [id]
      ring
    · have := (((hasDerivAt_id q.2).const_mul 2).const_sub 1).const_mul ((q.1 - 1) * (2 - q.1))
      exact this.congr_deriv (by ring)
    · exact hasDerivAt_const _ _
    · exact hasDerivAt_const _ _
  · interval_cases n <;> simp only [tentR] <;> fun_prop
  · interval_cases n <;> simp only [tentZ] <;> fun_prop

/-- A case of `C111_edge`: a current density over the whole square `[1, 2] × [0, 1]`, up to its edge. -/
example (h1 : exD1.Rmin < exD1.Rmax) (h2 : exD1.Zmin < exD1.Zmax) : tentJ (3 / 2) (1 / 2) = -2 / 3 ∧
    ∃ n : ℕ, ∀ k l, n ≤ k → n ≤ l → ∀ factorized : (ℕ → ℝ) → ℕ → ℝ,
      (∀ b, ∀ r < (2 ^ k + 1) * (2 ^ l + 1),
        matVec ((2 ^ k + 1) * (2 ^ l + 1)) (gsSparse exD1 (2 ^ k + 1) (2 ^ l + 1)) (factorized b) r = b r) → ∃ psi1 : Arr ℝ,
      freeBoundaryHagenow Real.sqrt (greens ellipticK ellipticE) (fun _ b => mgDirect factorized (2 ^ l + 1) b) (2 ^ k + 1) (2 ^ l + 1)
        (linspaceAt 1 2 (2 ^ k + 1)) (linspaceAt 0 1 (2 ^ l + 1))
        (fun c => tentJ (gridR exD1 (2 ^ k + 1) c.1) (gridZ exD1 (2 ^ l + 1) c.2)) (fun _ => 0) = .ok psi1 ∧
      ∀ c, OnEdge (2 ^ k + 1) (2 ^ l + 1) c →
        |psi1 c - (rectangle exD1 h1 h2).flux tentJ (displaced (2 ^ k + 1) (2 ^ l + 1) (linspaceAt 1 2 (2 ^ k + 1))
          (linspaceAt 0 1 (2 ^ l + 1)) c)| ≤ 1 / 1000000 := by
  refine ⟨by norm_num [tentJ, tentR, tentZ], ?_⟩
  obtain ⟨n, hn⟩ := C111_edge exD1 (by norm_num [exD1]) (by norm_num [exD1]) (by norm_num [exD1]) h1 h2 (tentR 0) tentR tentZ tentJ (tent_smooth _)
    (by
      rintro ⟨x, y⟩ ⟨-, h | h | h | h⟩ <;> simp only [rectangle, exD1] at h <;> subst h <;> simp [tentR])
    (by
      intro q hq
      have : q.1 ≠ 0 := by have := hq.1.1; simp only [rectangle, exD1] at this; linarith
      simp only [tentJ]
      field_simp) (1 / 1000000) (by norm_num)
  refine ⟨n, fun k l hk hl factorized hfac => ?_⟩
  obtain ⟨psi1, hp, -, h⟩ := hn k l hk hl factorized hfac fun _ => 0
  exact ⟨psi1, hp, h⟩

/-- A case of `C111_solve`: the plasma of `C110_physical`, whose flux outside the domain is zero, so that `δ = 0`. -/
example : bumpF (3 / 2) (1 / 2) = 1 ∧ ∃ n : ℕ, ∀ k l, n ≤ k → n ≤ l → ∀ factorized : (ℕ → ℝ) → ℕ → ℝ,
    (∀ b, ∀ r < (2 ^ k + 1) * (2 ^ l + 1),
      matVec ((2 ^ k + 1) * (2 ^ l + 1)) (gsSparse exD1 (2 ^ k + 1) (2 ^ l + 1)) (factorized b) r = b r) → ∃ psi1 : Arr ℝ,
    freeBoundaryHagenow Real.sqrt (greens ellipticK ellipticE) (fun _ b => mgDirect factorized (2 ^ l + 1) b) (2 ^ k + 1) (2 ^ l + 1)
      (linspaceAt 1 2 (2 ^ k + 1)) (linspaceAt 0 1 (2 ^ l + 1))
      (fun c => bumpJ (gridR exD1 (2 ^ k + 1) c.1) (gridZ exD1 (2 ^ l + 1) c.2)) (fun _ => 0) = .ok psi1 ∧
    ∀ c, OnGrid (2 ^ k + 1) (2 ^ l + 1) c →
      |solve mu0 (2 ^ k + 1) (2 ^ l + 1) (linspaceAt 1 2 (2 ^ k + 1)) (fun _ _ => psi1) (fun _ b => mgDirect factorized (2 ^ l + 1) b)
        (fun c => bumpJ (gridR exD1 (2 ^ k + 1) c.1) (gridZ exD1 (2 ^ l + 1) c.2)) (fun _ => 0) c -
        bumpF (gridR exD1 (2 ^ k + 1) c.1) (gridZ exD1 (2 ^ l + 1) c.2)| < 1 / 100 := by
  have h1 : exD1.Rmin < exD1.Rmax := by norm_num [exD1]
  have h2 : exD1.Zmin < exD1.Zmax := by norm_num [exD1]
  have hone : bumpF (3 / 2) (1 / 2) = 1 := by
    rw [bumpF, bumpR.one_of_mem_closedBall (Metric.mem_closedBall_self bumpR.rIn_pos.le),
      bumpZ.one_of_mem_closedBall (Metric.mem_closedBall_self bumpZ.rIn_pos.le), one_mul]
  have hmu := mu0_pos'
  have oo : ∀ {a b x : ℝ}, x ∈ Ioo a b → x ∈ Icc a b := fun h => ⟨h.1.le, h.2.le⟩
  set D := rectangle exD1 h1 h2 with hD
  have hset : ∀ q, q ∈ D.set ↔ (1 ≤ q.1 ∧ q.1 ≤ 2) ∧ 0 ≤ q.2 ∧ q.2 ≤ 1 := fun q => by
    simp only [hD, rectangle, exD1, Rectangle.set, mem_prod, mem_Icc]
  have hK : IsCompact (Icc (1 : ℝ) 2 ×ˢ Icc (0 : ℝ) 1) := isCompact_Icc.prod isCompact_Icc
  obtain ⟨M3, b3⟩ := hK.exists_bound_of_continuousOn (bumpFR_cont 3).continuousOn
  obtain ⟨M4, b4⟩ := hK.exists_bound_of_continuousOn (bumpFR_cont 4).continuousOn
  obtain ⟨N4, c4⟩ := hK.exists_bound_of_continuousOn (bumpFZ_cont 4).continuousOn
  have hsm : SmoothFlux exD1 bumpF bumpFR bumpFZ := by
    refine ⟨fun Z _ => ?_, fun R _ => ?_⟩
    · rw [bumpF_zero.1]
      exact ⟨fun x _ => (bumpFR_deriv 0 x Z).continuousAt.continuousWithinAt, fun x _ => bumpFR_deriv 0 x Z, fun x _ => bumpFR_deriv 1 x Z,
        fun x _ => bumpFR_deriv 2 x Z, fun x _ => bumpFR_deriv 3 x Z⟩
    · rw [bumpF_zero.2]
      exact ⟨fun x _ => (bumpFZ_deriv 0 R x).continuousAt.continuousWithinAt, fun x _ => bumpFZ_deriv 0 R x, fun x _ => bumpFZ_deriv 1 R x,
        fun x _ => bumpFZ_deriv 2 R x, fun x _ => bumpFZ_deriv 3 R x⟩
  have hgs : GradShafranov mu0 exD1 bumpFR bumpFZ bumpJ := by
    intro R hR Z _
    have : R ≠ 0 := by have := hR.1; simp only [exD1] at this; linarith
    have := hmu.ne'
    rw [bumpJ]
    field_simp
  have out : ∀ q ∈ D.edge, 1 / 4 < |q.1 - 3 / 2| ∨ 1 / 4 < |q.2 - 1 / 2| := by
    intro q hq
    obtain ⟨-, h | h | h | h⟩ := hq <;> simp only [hD, rectangle, exD1] at h <;> rw [h]
    · left; rw [lt_abs]; right; norm_num
    · left; rw [lt_abs]; left; norm_num
    · right; rw [lt_abs]; right; norm_num
    · right; rw [lt_abs]; left; norm_num
  -- the fixed-boundary solution is the flux itself, up to a constant
  have hU : Smooth4 D (fun R Z => -(1 / mu0) * bumpF R Z) (fun n R Z => -(1 / mu0) * bumpFR n R Z) fun n R Z => -(1 / mu0) * bumpFZ n R Z := by
    refine ⟨fun n _ q _ => (bumpFR_deriv n q.1 q.2).const_mul _, fun n _ q _ => (bumpFZ_deriv n q.1 q.2).const_mul _,
      fun n _ => ((bumpFR_cont n).const_mul _).continuousOn, fun n _ => ((bumpFZ_cont n).const_mul _).continuousOn, ?_, ?_⟩
    · rw [bumpF_zero.1]
    · rw [bumpF_zero.2]
  have hzero : ∀ q ∈ D.edge, -(1 / mu0) * bumpF q.1 q.2 = 0 := fun q hq => by
    rw [bumpF_zero.1, (bump_outside 0 (out q hq)).1, mul_zero]
  have hJ : ∀ q ∈ D.set, -(1 / mu0) * bumpFR 2 q.1 q.2 - -(1 / mu0) * bumpFR 1 q.1 q.2 / q.1 + -(1 / mu0) * bumpFZ 2 q.1 q.2 =
      q.1 * bumpJ q.1 q.2 := fun q hq => by
    have : q.1 ≠ 0 := by have := ((hset q).mp hq).1.1; linarith
    rw [bumpJ]
    field_simp
    ring
  have hD0 : 1 / 50 ≤ D.a ∧ D.b ≤ 100 ∧ D.d - D.c ≤ 100 := by
    simp only [hD, rectangle, exD1]
    norm_num
  have hflux : ∀ Q ∈ D.around, D.flux bumpJ Q = 0 := by
    intro Q hQ
    rw [← edge_integrals D hD0.1 hD0.2.1 hD0.2.2 _ _ _ bumpJ hU hzero hJ hQ]
    have la : D.a ∈ Icc D.a D.b := ⟨le_rfl, D.hab⟩
    have lb : D.b ∈ Icc D.a D.b := ⟨D.hab, le_rfl⟩
    have lc : D.c ∈ Icc D.c D.d := ⟨le_rfl, D.hcd⟩
    have ld : D.d ∈ Icc D.c D.d := ⟨D.hcd, le_rfl⟩
    have zero : ∀ {a b : ℝ} (f : ℝ → ℝ), a ≤ b → (∀ x ∈ Icc a b, f x = 0) → ∫ x in a..b, f x = 0 := fun f hab hf => by
      rw [intervalIntegral.integral_congr (g := fun _ => 0) (fun x hx => by rw [uIcc_of_le hab] at hx; exact hf x hx)]
      simp
    rw [zero _ D.hcd fun y hy => by rw [(bump_outside 1 (out (D.a, y) ⟨⟨la, hy⟩, Or.inl rfl⟩)).1]; simp,
      zero _ D.hcd fun y hy => by rw [(bump_outside 1 (out (D.b, y) ⟨⟨lb, hy⟩, Or.inr (Or.inl rfl)⟩)).1]; simp,
      zero _ D.hab fun x hx => by rw [(bump_outside 1 (out (x, D.c) ⟨⟨hx, lc⟩, Or.inr (Or.inr (Or.inl rfl))⟩)).2]; simp,
      zero _ D.hab fun x hx => by rw [(bump_outside 1 (out (x, D.d) ⟨⟨hx, ld⟩, Or.inr (Or.inr (Or.inr rfl))⟩)).2]; simp]
    simp
  obtain ⟨n, hn⟩ := C111_solve exD1 hD0.1 hD0.2.1 hD0.2.2 h1 h2 _ _ _ bumpJ hU hzero hJ bumpF bumpFR bumpFZ hsm hgs M3 M4 N4
    (fun R hR Z hZ => b3 (R, Z) ⟨oo hR, hZ⟩) (fun R hR Z hZ => b4 (R, Z) ⟨oo hR, hZ⟩) (fun R hR Z hZ => c4 (R, Z) ⟨hR, oo hZ⟩) 0
    (fun P hP Q hQ _ _ => by
      rw [hflux Q hQ, bumpF_zero.1, (bump_outside 0 (out P hP)).1]
      simp) (1 / 100) (by norm_num)
  refine ⟨hone, n, fun k l hk hl factorized hfac => ?_⟩
  obtain ⟨psi1, hp, h⟩ := hn k l hk hl factorized hfac fun _ => 0
  rw [zero_add] at h
  exact ⟨psi1, hp, h⟩

end Examples

end FreeGS.GS
