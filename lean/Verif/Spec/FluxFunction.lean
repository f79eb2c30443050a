import Mathlib.Analysis.Calculus.Deriv.Basic

/-!
# The flux of an isolated plasma in unbounded space

The poloidal flux per radian is a function of the radius `R > 0` and the height `Z`. Nothing bounds the space but the axis `R = 0`.
-/

namespace FreeGS.GS

/-- A function with two continuous derivatives in the half plane `R > 0`. -/
structure Regular (F FR FRR FZ FZZ : ℝ → ℝ → ℝ) : Prop where
  c0 : ContinuousOn (fun q : ℝ × ℝ => F q.1 q.2) {q | 0 < q.1}
  c1 : ContinuousOn (fun q : ℝ × ℝ => FR q.1 q.2) {q | 0 < q.1}
  c2 : ContinuousOn (fun q : ℝ × ℝ => FRR q.1 q.2) {q | 0 < q.1}
  c3 : ContinuousOn (fun q : ℝ × ℝ => FZ q.1 q.2) {q | 0 < q.1}
  c4 : ContinuousOn (fun q : ℝ × ℝ => FZZ q.1 q.2) {q | 0 < q.1}
  d1 : ∀ R Z, 0 < R → HasDerivAt (fun x => F x Z) (FR R Z) R
  d2 : ∀ R Z, 0 < R → HasDerivAt (fun x => FR x Z) (FRR R Z) R
  d3 : ∀ R Z, 0 < R → HasDerivAt (F R) (FZ R Z) Z
  d4 : ∀ R Z, 0 < R → HasDerivAt (FZ R) (FZZ R Z) Z

/-- No flux on the axis and no field at infinity: `F` and its radial derivative `R B_Z` tend to zero at the axis, and far away the derivatives of `F`
tend to zero and `F` grows more slowly than the distance. -/
structure Isolated (F FR FZ : ℝ → ℝ → ℝ) : Prop where
  axis : ∀ L η : ℝ, 0 < η → ∃ δ : ℝ, 0 < δ ∧ ∀ R Z, 0 < R → R < δ → |Z| ≤ L → |F R Z| ≤ η ∧ |FR R Z| ≤ η
  far : ∀ η : ℝ, 0 < η → ∃ L : ℝ, ∀ R Z, 0 < R → L ≤ max R |Z| → |F R Z| ≤ η * max R |Z| ∧ |FR R Z| ≤ η ∧ |FZ R Z| ≤ η

end FreeGS.GS
