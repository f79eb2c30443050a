import Verif.Spec.Parity
import Verif.Spec.Polygons
import Mathlib.Algebra.Order.Field.Basic
import Mathlib.Data.ZMod.Basic
import Mathlib.Tactic.Linarith
import Mathlib.Tactic.LinearCombination
import Mathlib.Tactic.FieldSimp
import Mathlib.Algebra.BigOperators.Group.List.Basic

/-!
# Helper lemmas: crossings of a segment with a polygon and the even-odd rule
-/

set_option linter.unusedSectionVars false

namespace FreeGS.Spec

variable {K : Type*} [Field K] [LinearOrder K] [IsStrictOrderedRing K]

/-- Twice the signed area. -/
def sd (p q x : K × K) : K := (q.1 - p.1) * (x.2 - p.2) - (q.2 - p.2) * (x.1 - p.1)

/-- The identity between areas and heights. -/
theorem sd_height (x y u v : K × K) (t : K) :
    (x.2 - t) * sd u v y - (y.2 - t) * sd u v x + (u.2 - t) * sd x y v - (v.2 - t) * sd x y u = 0 := by
  unfold sd; ring

theorem sd_sub (x y u v : K × K) : sd u v x - sd u v y = sd x y v - sd x y u := by
  unfold sd; ring

theorem dirCross_sd (x y u v : K × K) : dirCross x y u v = sd u v x - sd u v y := by
  unfold sd dirCross; ring

/-- The two segments cross properly: the ends of each are strictly on different sides of the other. -/
def Proper (x y u v : K × K) : Prop := sd x y u * sd x y v < 0 ∧ sd u v x * sd u v y < 0

instance (x y u v : K × K) : Decidable (Proper x y u v) := by unfold Proper; infer_instance

theorem opposite {a b X Y : K} (ha : 0 < a) (hb : 0 < b) (h : a * X + b * Y = 0) (hne : X ≠ Y) : X * Y < 0 := by
  rcases lt_trichotomy X 0 with hX | hX | hX
  · have : 0 < Y := by
      by_contra hY
      have h1 := mul_neg_of_pos_of_neg ha hX
      have h2 := mul_nonpos_of_nonneg_of_nonpos hb.le (not_lt.1 hY)
      linarith
    exact mul_neg_of_neg_of_pos hX this
  · exfalso
    rw [hX, mul_zero, zero_add] at h
    rcases mul_eq_zero.1 h with h | h
    · exact hb.ne' h
    · exact hne (hX.trans h.symm)
  · have : Y < 0 := by
      by_contra hY
      have h1 := mul_pos ha hX
      have h2 := mul_nonneg hb.le (not_lt.1 hY)
      linarith
    exact mul_neg_of_pos_of_neg hX this

theorem proper_iff (x y u v : K × K) : Proper x y u v ↔ CrossInside x y u v ∧ dirCross x y u v ≠ 0 := by
  constructor
  · rintro ⟨h1, h2⟩
    set X := sd u v x with hX
    set Y := sd u v y with hY
    set U := sd x y u with hU
    set V := sd x y v with hV
    have hs : X - Y = V - U := sd_sub x y u v
    have hXY : X - Y ≠ 0 := by
      intro h
      have : X = Y := sub_eq_zero.1 h
      rw [this] at h2
      exact absurd h2 (not_lt.2 (mul_self_nonneg Y))
    refine ⟨⟨((-Y) / (X - Y)) • x + (X / (X - Y)) • y, ⟨_, _, ?_, ?_, ?_, rfl⟩, ⟨V / (V - U), (-U) / (V - U), ?_, ?_, ?_, ?_⟩⟩, ?_⟩
    · rcases mul_neg_iff.1 h2 with ⟨a, b⟩ | ⟨a, b⟩
      · exact div_pos (by linarith) (by linarith)
      · exact div_pos_of_neg_of_neg (by linarith) (by linarith)
    · rcases mul_neg_iff.1 h2 with ⟨a, b⟩ | ⟨a, b⟩
      · exact div_pos (by linarith) (by linarith)
      · exact div_pos_of_neg_of_neg (by linarith) (by linarith)
    · field_simp; ring
    · rcases mul_neg_iff.1 h1 with ⟨a, b⟩ | ⟨a, b⟩
      · exact div_pos_of_neg_of_neg (by linarith) (by linarith)
      · exact div_pos (by linarith) (by linarith)
    · rcases mul_neg_iff.1 h1 with ⟨a, b⟩ | ⟨a, b⟩
      · exact div_pos_of_neg_of_neg (by linarith) (by linarith)
      · exact div_pos (by linarith) (by linarith)
    · rw [← hs]
      rw [← add_div, div_eq_one_iff_eq hXY]
      linarith
    · rw [← hs]
      have e : ∀ a b c d : K, a - d = b - c →
          a / (X - Y) - d / (X - Y) = b / (X - Y) - c / (X - Y) := fun a b c d h => by
        rw [← sub_div, ← sub_div, h]
      ext
      · simp only [Prod.fst_add, Prod.smul_fst, smul_eq_mul]
        rw [div_mul_eq_mul_div, div_mul_eq_mul_div, div_mul_eq_mul_div, div_mul_eq_mul_div, ← add_div, ← add_div]
        congr 1
        simp only [hX, hY, hU, hV, sd]
        ring
      · simp only [Prod.snd_add, Prod.smul_snd, smul_eq_mul]
        rw [div_mul_eq_mul_div, div_mul_eq_mul_div, div_mul_eq_mul_div, div_mul_eq_mul_div, ← add_div, ← add_div]
        congr 1
        simp only [hX, hY, hU, hV, sd]
        ring
    · rw [dirCross_sd]
      exact hXY
  · rintro ⟨⟨p, ⟨a, b, ha, hb, hab, rfl⟩, ⟨c, d, hc, hd, hcd, hp⟩⟩, hne⟩
    have h1 := congrArg Prod.fst hp
    have h2 := congrArg Prod.snd hp
    simp only [Prod.fst_add, Prod.snd_add, Prod.smul_fst, Prod.smul_snd, smul_eq_mul] at h1 h2
    rw [dirCross_sd] at hne
    have hne2 : sd x y u ≠ sd x y v := by
      intro h
      apply hne
      rw [sd_sub, h, sub_self]
    have eb : b = 1 - a := by linarith
    have ed : d = 1 - c := by linarith
    subst eb ed
    refine ⟨opposite hc hd ?_ hne2, opposite ha hb ?_ (sub_ne_zero.1 hne)⟩
    · unfold sd
      linear_combination (x.2 - y.2) * h1 + (y.1 - x.1) * h2
    · unfold sd
      linear_combination (v.2 - u.2) * h1 - (v.1 - u.1) * h2

/-! ### One side of the polygon -/

/-- Signs for one side: heights, areas. -/
structure Signs (hx hy hu hv X Y U V : K) : Prop where
  le : hx ≤ hy
  id : ∀ t, (hx - t) * Y - (hy - t) * X + (hu - t) * V - (hv - t) * U = 0
  gx : (hx < hu ↔ ¬ hx < hv) → X ≠ 0
  gy : (hy < hu ↔ ¬ hy < hv) → Y ≠ 0
  gu : hx < hu → ¬ hy < hu → U ≠ 0
  gv : hx < hv → ¬ hy < hv → V ≠ 0
  hu0 : hx = hy → hu = hx → ¬ X * Y < 0
  hv0 : hx = hy → hv = hx → ¬ X * Y < 0
  hy0 : hu = hy → hv = hy → ¬ U * V < 0

theorem Signs.swap {hx hy hu hv X Y U V : K} (s : Signs hx hy hu hv X Y U V) : Signs hx hy hv hu (-X) (-Y) V U where
  le := s.le
  id := fun t => by linear_combination -(s.id t)
  gx := fun h => neg_ne_zero.2 (s.gx (by tauto))
  gy := fun h => neg_ne_zero.2 (s.gy (by tauto))
  gu := s.gv
  gv := s.gu
  hu0 := fun a b => by rw [neg_mul_neg]; exact s.hv0 a b
  hv0 := fun a b => by rw [neg_mul_neg]; exact s.hu0 a b
  hy0 := fun a b => by rw [mul_comm]; exact s.hy0 b a

variable {hx hy hu hv X Y U V : K}

/-- Both ends below. -/
theorem Signs.low (s : Signs hx hy hu hv X Y U V) (h1 : hu ≤ hx) (h2 : hv ≤ hx) (hc : U * V < 0 ∧ X * Y < 0) : False := by
  have i1 := s.id hx
  have i2 := s.id hy
  have le := s.le
  rcases le.lt_or_eq with hlt | heq
  · have hH : 0 < hy - hx := sub_pos.2 hlt
    rcases mul_neg_iff.1 hc.1 with ⟨hU, hV⟩ | ⟨hU, hV⟩
    · have hX : 0 ≤ X := by
        by_contra hX
        nlinarith [mul_nonneg_of_nonpos_of_nonpos (sub_nonpos.2 h1) hV.le, mul_nonpos_of_nonpos_of_nonneg (sub_nonpos.2 h2) hU.le,
          mul_neg_of_pos_of_neg hH (not_le.1 hX)]
      have hY : 0 ≤ Y := by
        by_contra hY
        nlinarith [mul_nonneg_of_nonpos_of_nonpos (sub_nonpos.2 (h1.trans le)) hV.le, mul_nonpos_of_nonpos_of_nonneg (sub_nonpos.2 (h2.trans le)) hU.le,
          mul_neg_of_pos_of_neg hH (not_le.1 hY)]
      exact absurd hc.2 (not_lt.2 (mul_nonneg hX hY))
    · have hX : X ≤ 0 := by
        by_contra hX
        nlinarith [mul_nonneg_of_nonpos_of_nonpos (sub_nonpos.2 h2) hU.le, mul_nonpos_of_nonpos_of_nonneg (sub_nonpos.2 h1) hV.le,
          mul_pos hH (not_le.1 hX)]
      have hY : Y ≤ 0 := by
        by_contra hY
        nlinarith [mul_nonneg_of_nonpos_of_nonpos (sub_nonpos.2 (h2.trans le)) hU.le, mul_nonpos_of_nonpos_of_nonneg (sub_nonpos.2 (h1.trans le)) hV.le,
          mul_pos hH (not_le.1 hY)]
      exact absurd hc.2 (not_lt.2 (mul_nonneg_of_nonpos_of_nonpos hX hY))
  · subst heq
    have h0 : hu = hx ∨ hv = hx := by
      by_contra hn
      rw [not_or] at hn
      have a : hu < hx := lt_of_le_of_ne h1 hn.1
      have b : hv < hx := lt_of_le_of_ne h2 hn.2
      rcases mul_neg_iff.1 hc.1 with ⟨hU, hV⟩ | ⟨hU, hV⟩
      · nlinarith [mul_pos_of_neg_of_neg (sub_neg.2 a) hV, mul_neg_of_neg_of_pos (sub_neg.2 b) hU]
      · nlinarith [mul_pos_of_neg_of_neg (sub_neg.2 b) hU, mul_neg_of_neg_of_pos (sub_neg.2 a) hV]
    rcases h0 with h0 | h0
    · exact s.hu0 rfl h0 hc.2
    · exact s.hv0 rfl h0 hc.2

/-- Both ends above. -/
theorem Signs.high (s : Signs hx hy hu hv X Y U V) (h1 : hy < hu) (h2 : hy < hv) (hc : U * V < 0 ∧ X * Y < 0) : False := by
  have i1 := s.id hx
  have i2 := s.id hy
  have le := s.le
  have a1 : 0 < hu - hx := by linarith
  have a2 : 0 < hv - hx := by linarith
  have b1 : 0 < hu - hy := by linarith
  have b2 : 0 < hv - hy := by linarith
  have hH : 0 ≤ hy - hx := by linarith
  rcases mul_neg_iff.1 hc.1 with ⟨hU, hV⟩ | ⟨hU, hV⟩
  · have hX : X ≤ 0 := by
      by_contra hX
      nlinarith [mul_neg_of_pos_of_neg a1 hV, mul_pos a2 hU, mul_nonneg hH (not_le.1 hX).le]
    have hY : Y ≤ 0 := by
      by_contra hY
      nlinarith [mul_neg_of_pos_of_neg b1 hV, mul_pos b2 hU, mul_nonneg hH (not_le.1 hY).le]
    exact absurd hc.2 (not_lt.2 (mul_nonneg_of_nonpos_of_nonpos hX hY))
  · have hX : 0 ≤ X := by
      by_contra hX
      nlinarith [mul_neg_of_pos_of_neg a2 hU, mul_pos a1 hV, mul_nonpos_of_nonneg_of_nonpos hH (not_le.1 hX).le]
    have hY : 0 ≤ Y := by
      by_contra hY
      nlinarith [mul_neg_of_pos_of_neg b2 hU, mul_pos b1 hV, mul_nonpos_of_nonneg_of_nonpos hH (not_le.1 hY).le]
    exact absurd hc.2 (not_lt.2 (mul_nonneg hX hY))

/-- Both ends between. -/
theorem Signs.mid (s : Signs hx hy hu hv X Y U V) (h1 : hx < hu) (h1' : ¬ hy < hu) (h2 : hx < hv) (h2' : ¬ hy < hv) :
    (U * V < 0 ∧ X * Y < 0) ↔ ¬ (U < 0 ↔ V < 0) := by
  have i1 := s.id hx
  have i2 := s.id hy
  have hU := s.gu h1 h1'
  have hV := s.gv h2 h2'
  have a1 : 0 < hu - hx := by linarith
  have a2 : 0 < hv - hx := by linarith
  have b1 : hu - hy ≤ 0 := by linarith [not_lt.1 h1']
  have b2 : hv - hy ≤ 0 := by linarith [not_lt.1 h2']
  have hH : 0 < hy - hx := by linarith [not_lt.1 h1']
  constructor
  · rintro ⟨h, -⟩
    rcases mul_neg_iff.1 h with ⟨a, b⟩ | ⟨a, b⟩
    · intro h; exact absurd (h.2 b) (not_lt.2 a.le)
    · intro h; exact absurd (h.1 a) (not_lt.2 b.le)
  · intro h
    have hUV : U * V < 0 := by
      rcases lt_or_gt_of_ne hU with a | a <;> rcases lt_or_gt_of_ne hV with b | b
      · exact absurd ⟨fun _ => b, fun _ => a⟩ h
      · exact mul_neg_of_neg_of_pos a b
      · exact mul_neg_of_pos_of_neg a b
      · exact absurd ⟨fun g => absurd g (not_lt.2 a.le), fun g => absurd g (not_lt.2 b.le)⟩ h
    refine ⟨hUV, ?_⟩
    have h0 : hu - hy < 0 ∨ hv - hy < 0 := by
      by_contra hn
      rw [not_or, not_lt, not_lt] at hn
      exact s.hy0 (by linarith) (by linarith) hUV
    rcases mul_neg_iff.1 hUV with ⟨a, b⟩ | ⟨a, b⟩
    · have hX : X < 0 := by
        by_contra hX
        nlinarith [mul_neg_of_pos_of_neg a1 b, mul_pos a2 a, mul_nonneg hH.le (not_lt.1 hX)]
      have hY : 0 < Y := by
        by_contra hY
        have := mul_nonpos_of_nonneg_of_nonpos hH.le (not_lt.1 hY)
        rcases h0 with h0 | h0
        · nlinarith [mul_pos_of_neg_of_neg h0 b, mul_nonpos_of_nonpos_of_nonneg b2 a.le]
        · nlinarith [mul_nonneg_of_nonpos_of_nonpos b1 b.le, mul_neg_of_neg_of_pos h0 a]
      exact mul_neg_of_neg_of_pos hX hY
    · have hX : 0 < X := by
        by_contra hX
        nlinarith [mul_neg_of_pos_of_neg a2 a, mul_pos a1 b, mul_nonpos_of_nonneg_of_nonpos hH.le (not_lt.1 hX)]
      have hY : Y < 0 := by
        by_contra hY
        have := mul_nonneg hH.le (not_lt.1 hY)
        rcases h0 with h0 | h0
        · nlinarith [mul_neg_of_neg_of_pos h0 b, mul_nonneg_of_nonpos_of_nonpos b2 a.le]
        · nlinarith [mul_nonpos_of_nonpos_of_nonneg b1 b.le, mul_pos_of_neg_of_neg h0 a]
      exact mul_neg_of_pos_of_neg hX hY

/-- From below to between. -/
theorem Signs.lowMid (s : Signs hx hy hu hv X Y U V) (h1 : hu ≤ hx) (h2 : hx < hv) (h2' : ¬ hy < hv) :
    (U * V < 0 ∧ X * Y < 0) ↔ ¬ (0 < X ↔ V < 0) := by
  have i1 := s.id hx
  have i2 := s.id hy
  have hX := s.gx ⟨fun h => absurd h (not_lt.2 h1), fun h => absurd h2 h⟩
  have hV := s.gv h2 h2'
  have a1 : hu - hx ≤ 0 := by linarith
  have a2 : 0 < hv - hx := by linarith
  have b2 : hv - hy ≤ 0 := by linarith [not_lt.1 h2']
  have hH : 0 < hy - hx := by linarith [not_lt.1 h2']
  have b1 : hu - hy < 0 := by linarith
  rcases lt_or_gt_of_ne hV with b | b <;> rcases lt_or_gt_of_ne hX with c | c
  · -- V < 0, X < 0
    have hU : 0 < U := by
      by_contra hU
      nlinarith [mul_nonneg_of_nonpos_of_nonpos a1 b.le, mul_nonpos_of_nonneg_of_nonpos a2.le (not_lt.1 hU), mul_neg_of_pos_of_neg hH c]
    have hY : 0 < Y := by
      by_contra hY
      nlinarith [mul_pos_of_neg_of_neg b1 b, mul_nonpos_of_nonpos_of_nonneg b2 hU.le, mul_nonpos_of_nonneg_of_nonpos hH.le (not_lt.1 hY)]
    exact ⟨fun _ h => absurd (h.2 b) (not_lt.2 c.le), fun _ => ⟨mul_neg_of_pos_of_neg hU b, mul_neg_of_neg_of_pos c hY⟩⟩
  · refine ⟨fun h => ?_, fun h => absurd ⟨fun _ => b, fun _ => c⟩ h⟩
    have hU : 0 < U := by
      rcases mul_neg_iff.1 h.1 with g | g
      · exact g.1
      · exact absurd b (not_lt.2 g.2.le)
    have hY : Y < 0 := by
      rcases mul_neg_iff.1 h.2 with g | g
      · exact g.2
      · exact absurd c (not_lt.2 g.1.le)
    exfalso
    nlinarith [mul_pos_of_neg_of_neg b1 b, mul_nonpos_of_nonpos_of_nonneg b2 hU.le, mul_neg_of_pos_of_neg hH hY]
  · refine ⟨fun h => ?_, fun h => absurd ⟨fun g => absurd g (not_lt.2 c.le), fun g => absurd g (not_lt.2 b.le)⟩ h⟩
    have hU : U < 0 := by
      rcases mul_neg_iff.1 h.1 with g | g
      · exact absurd b (not_lt.2 g.2.le)
      · exact g.1
    have hY : 0 < Y := by
      rcases mul_neg_iff.1 h.2 with g | g
      · exact absurd c (not_lt.2 g.1.le)
      · exact g.2
    exfalso
    nlinarith [mul_neg_of_neg_of_pos b1 b, mul_nonneg_of_nonpos_of_nonpos b2 hU.le, mul_pos hH hY]
  · have hU : U < 0 := by
      by_contra hU
      nlinarith [mul_nonpos_of_nonpos_of_nonneg a1 b.le, mul_nonneg a2.le (not_lt.1 hU), mul_pos hH c]
    have hY : Y < 0 := by
      by_contra hY
      nlinarith [mul_neg_of_neg_of_pos b1 b, mul_nonneg_of_nonpos_of_nonpos b2 hU.le, mul_nonneg hH.le (not_lt.1 hY)]
    exact ⟨fun _ h => absurd (h.1 c) (not_lt.2 b.le), fun _ => ⟨mul_neg_of_neg_of_pos hU b, mul_neg_of_pos_of_neg c hY⟩⟩

/-- From below to above. -/
theorem Signs.lowHigh (s : Signs hx hy hu hv X Y U V) (h1 : hu ≤ hx) (h2 : hy < hv) :
    (U * V < 0 ∧ X * Y < 0) ↔ ¬ (0 < X ↔ 0 < Y) := by
  have i1 := s.id hu
  have i2 := s.id hv
  have le := s.le
  have hX := s.gx ⟨fun h => absurd h (not_lt.2 h1), fun h => absurd (by linarith) h⟩
  have hY := s.gy ⟨fun h => absurd h (not_lt.2 (h1.trans le)), fun h => absurd h2 h⟩
  have a1 : 0 ≤ hx - hu := by linarith
  have a2 : 0 < hv - hx := by linarith
  have b1 : 0 ≤ hy - hu := by linarith
  have b2 : 0 < hv - hy := by linarith
  have hH : 0 < hv - hu := by linarith
  constructor
  · rintro ⟨-, h⟩
    rcases mul_neg_iff.1 h with ⟨a, b⟩ | ⟨a, b⟩
    · intro h; exact absurd (h.1 a) (not_lt.2 b.le)
    · intro h; exact absurd (h.2 b) (not_lt.2 a.le)
  · intro h
    have hXY : X * Y < 0 := by
      rcases lt_or_gt_of_ne hX with a | a <;> rcases lt_or_gt_of_ne hY with b | b
      · exact absurd ⟨fun g => absurd g (not_lt.2 a.le), fun g => absurd g (not_lt.2 b.le)⟩ h
      · exact mul_neg_of_neg_of_pos a b
      · exact mul_neg_of_pos_of_neg a b
      · exact absurd ⟨fun _ => b, fun _ => a⟩ h
    refine ⟨?_, hXY⟩
    have h0 : 0 < hx - hu ∨ 0 < hy - hu := by
      by_contra hn
      rw [not_or, not_lt, not_lt] at hn
      exact s.hu0 (by linarith) (by linarith) hXY
    rcases mul_neg_iff.1 hXY with ⟨a, b⟩ | ⟨a, b⟩
    · have hU : U < 0 := by
        by_contra hU
        have := mul_nonneg hH.le (not_lt.1 hU)
        rcases h0 with h0 | h0
        · nlinarith [mul_neg_of_pos_of_neg h0 b, mul_nonneg b1 a.le]
        · nlinarith [mul_nonpos_of_nonneg_of_nonpos a1 b.le, mul_pos h0 a]
      have hV : 0 < V := by
        by_contra hV
        nlinarith [mul_nonpos_of_nonneg_of_nonpos hH.le (not_lt.1 hV), mul_pos b2 a, mul_neg_of_pos_of_neg a2 b]
      exact mul_neg_of_neg_of_pos hU hV
    · have hU : 0 < U := by
        by_contra hU
        have := mul_nonpos_of_nonneg_of_nonpos hH.le (not_lt.1 hU)
        rcases h0 with h0 | h0
        · nlinarith [mul_pos h0 b, mul_nonpos_of_nonneg_of_nonpos b1 a.le]
        · nlinarith [mul_nonneg a1 b.le, mul_neg_of_pos_of_neg h0 a]
      have hV : V < 0 := by
        by_contra hV
        nlinarith [mul_nonneg hH.le (not_lt.1 hV), mul_neg_of_pos_of_neg b2 a, mul_pos a2 b]
      exact mul_neg_of_pos_of_neg hU hV

/-- From between to above. -/
theorem Signs.midHigh (s : Signs hx hy hu hv X Y U V) (h1 : hx < hu) (h1' : ¬ hy < hu) (h2 : hy < hv) :
    (U * V < 0 ∧ X * Y < 0) ↔ ¬ (0 < Y ↔ U < 0) := by
  have i1 := s.id hx
  have i2 := s.id hy
  have hY := s.gy ⟨fun h => absurd h h1', fun h => absurd h2 h⟩
  have hU := s.gu h1 h1'
  have a1 : 0 < hu - hx := by linarith
  have b1 : hu - hy ≤ 0 := by linarith [not_lt.1 h1']
  have hH : 0 < hy - hx := by linarith [not_lt.1 h1']
  have a2 : 0 < hv - hx := by linarith
  have b2 : 0 < hv - hy := by linarith
  rcases lt_or_gt_of_ne hU with b | b <;> rcases lt_or_gt_of_ne hY with c | c
  · -- U < 0, Y < 0 : crossing
    have hV : 0 < V := by
      by_contra hV
      nlinarith [mul_nonneg_of_nonpos_of_nonpos b1 (not_lt.1 hV), mul_neg_of_pos_of_neg b2 b, mul_neg_of_pos_of_neg hH c]
    have hX : 0 < X := by
      by_contra hX
      nlinarith [mul_pos a1 hV, mul_neg_of_pos_of_neg a2 b, mul_nonpos_of_nonneg_of_nonpos hH.le (not_lt.1 hX)]
    exact ⟨fun _ h => absurd (h.2 b) (not_lt.2 c.le), fun _ => ⟨mul_neg_of_neg_of_pos b hV, mul_neg_of_pos_of_neg hX c⟩⟩
  · refine ⟨fun h => ?_, fun h => absurd ⟨fun _ => b, fun _ => c⟩ h⟩
    have hV : 0 < V := by
      rcases mul_neg_iff.1 h.1 with g | g
      · exact absurd b (not_lt.2 g.1.le)
      · exact g.2
    have hX : X < 0 := by
      rcases mul_neg_iff.1 h.2 with g | g
      · exact absurd c (not_lt.2 g.2.le)
      · exact g.1
    exfalso
    nlinarith [mul_pos a1 hV, mul_neg_of_pos_of_neg a2 b, mul_neg_of_pos_of_neg hH hX]
  · refine ⟨fun h => ?_, fun h => absurd ⟨fun g => absurd g (not_lt.2 c.le), fun g => absurd g (not_lt.2 b.le)⟩ h⟩
    have hV : V < 0 := by
      rcases mul_neg_iff.1 h.1 with g | g
      · exact g.2
      · exact absurd b (not_lt.2 g.1.le)
    have hX : 0 < X := by
      rcases mul_neg_iff.1 h.2 with g | g
      · exact g.1
      · exact absurd c (not_lt.2 g.2.le)
    exfalso
    nlinarith [mul_neg_of_pos_of_neg a1 hV, mul_pos a2 b, mul_pos hH hX]
  · have hV : V < 0 := by
      by_contra hV
      nlinarith [mul_nonpos_of_nonpos_of_nonneg b1 (not_lt.1 hV), mul_pos b2 b, mul_pos hH c]
    have hX : X < 0 := by
      by_contra hX
      nlinarith [mul_neg_of_pos_of_neg a1 hV, mul_pos a2 b, mul_nonneg hH.le (not_lt.1 hX)]
    exact ⟨fun _ h => absurd (h.1 c) (not_lt.2 b.le), fun _ => ⟨mul_neg_of_pos_of_neg b hV, mul_neg_of_neg_of_pos hX c⟩⟩

/-- The ray at height `h` meets the side. -/
def RayS (h hu hv X : K) : Prop := (h < hu ↔ ¬ h < hv) ∧ 0 < X * (hv - hu)

theorem rayS_swap (h hu hv X : K) : RayS h hv hu (-X) ↔ RayS h hu hv X := by
  unfold RayS
  rw [show -X * (hu - hv) = X * (hv - hu) by ring]
  tauto

/-- In the strip right of the segment. -/
def InStrip (hx hy h U : K) : Prop := (hx < h ∧ ¬ hy < h) ∧ U < 0

theorem Signs.side_aux (s : Signs hx hy hu hv X Y U V) (hz : (hx < hu → hx < hv) ∧ (hy < hu → hy < hv)) :
    (U * V < 0 ∧ X * Y < 0) ↔ ¬ ((RayS hx hu hv X ↔ RayS hy hu hv Y) ↔ (InStrip hx hy hu U ↔ InStrip hx hy hv V)) := by
  have le := s.le
  have pos : ∀ {Q : K}, hu < hv → (0 < Q * (hv - hu) ↔ 0 < Q) := fun h => mul_pos_iff_of_pos_right (sub_pos.2 h)
  by_cases a1 : hx < hu
  · have a2 := hz.1 a1
    by_cases b1 : hy < hu
    · have b2 := hz.2 b1
      have h := s.high b1 b2
      simp [RayS, InStrip, a1, a2, b1, b2]
      exact fun g => not_lt.1 fun g' => h ⟨g, g'⟩
    · by_cases b2 : hy < hv
      · rw [s.midHigh a1 b1 b2]
        have hl : hu < hv := lt_of_le_of_lt (not_lt.1 b1) b2
        have e1 : RayS hx hu hv X ↔ False := by simp [RayS, a1, a2]
        have e2 : RayS hy hu hv Y ↔ 0 < Y := by simp [RayS, b1, b2, pos hl]
        have e3 : InStrip hx hy hu U ↔ U < 0 := by simp [InStrip, a1, not_lt.1 b1]
        have e4 : InStrip hx hy hv V ↔ False := by simp [InStrip, b2]
        rw [e1, e2, e3, e4]
        by_cases p : 0 < Y <;> by_cases q : U < 0 <;> simp only [p, q] <;> decide
      · rw [s.mid a1 b1 a2 b2]
        have e1 : RayS hx hu hv X ↔ False := by simp [RayS, a1, a2]
        have e2 : RayS hy hu hv Y ↔ False := by simp [RayS, b1, b2]
        have e3 : InStrip hx hy hu U ↔ U < 0 := by simp [InStrip, a1, not_lt.1 b1]
        have e4 : InStrip hx hy hv V ↔ V < 0 := by simp [InStrip, a2, not_lt.1 b2]
        rw [e1, e2, e3, e4]
        by_cases p : V < 0 <;> by_cases q : U < 0 <;> simp only [p, q] <;> decide
  · have b1 : ¬ hy < hu := fun h => a1 (lt_of_le_of_lt le h)
    have e3 : InStrip hx hy hu U ↔ False := by simp [InStrip, a1]
    by_cases a2 : hx < hv
    · have hl : hu < hv := lt_of_le_of_lt (not_lt.1 a1) a2
      have e1 : RayS hx hu hv X ↔ 0 < X := by simp [RayS, a1, a2, pos hl]
      by_cases b2 : hy < hv
      · rw [s.lowHigh (not_lt.1 a1) b2]
        have e2 : RayS hy hu hv Y ↔ 0 < Y := by simp [RayS, b1, b2, pos hl]
        have e4 : InStrip hx hy hv V ↔ False := by simp [InStrip, b2]
        rw [e1, e2, e3, e4]
        by_cases p : 0 < Y <;> by_cases q : 0 < X <;> simp only [p, q] <;> decide
      · rw [s.lowMid (not_lt.1 a1) a2 b2]
        have e2 : RayS hy hu hv Y ↔ False := by simp [RayS, b1, b2]
        have e4 : InStrip hx hy hv V ↔ V < 0 := by simp [InStrip, a2, not_lt.1 b2]
        rw [e1, e2, e3, e4]
        by_cases p : V < 0 <;> by_cases q : 0 < X <;> simp only [p, q] <;> decide
    · have b2 : ¬ hy < hv := fun h => a2 (lt_of_le_of_lt le h)
      have h := s.low (not_lt.1 a1) (not_lt.1 a2)
      simp [RayS, InStrip, a1, a2, b1, b2]
      exact fun g => not_lt.1 fun g' => h ⟨g, g'⟩

theorem Signs.side (s : Signs hx hy hu hv X Y U V) :
    (U * V < 0 ∧ X * Y < 0) ↔ ¬ ((RayS hx hu hv X ↔ RayS hy hu hv Y) ↔ (InStrip hx hy hu U ↔ InStrip hx hy hv V)) := by
  by_cases hz : (hx < hu → hx < hv) ∧ (hy < hu → hy < hv)
  · exact s.side_aux hz
  · have hz' : (hx < hv → hx < hu) ∧ (hy < hv → hy < hu) := by
      have le := s.le
      rcases le_total hu hv with h | h
      · exact absurd ⟨fun g => lt_of_lt_of_le g h, fun g => lt_of_lt_of_le g h⟩ hz
      · exact ⟨fun g => lt_of_lt_of_le g h, fun g => lt_of_lt_of_le g h⟩
    have := s.swap.side_aux hz'
    rw [rayS_swap, rayS_swap, neg_mul_neg, mul_comm V U] at this
    rw [this, iff_comm (a := InStrip hx hy hv V)]

/-! ### From geometry to signs -/

theorem mem_segment_of {u v x : K × K} {t : K} (h0 : 0 ≤ t) (h1 : t ≤ 1) (e1 : x.1 = u.1 + t * (v.1 - u.1)) (e2 : x.2 = u.2 + t * (v.2 - u.2)) :
    x ∈ segment K u v := by
  refine ⟨1 - t, t, by linarith, h0, by ring, ?_⟩
  ext
  · simp only [Prod.fst_add, Prod.smul_fst, smul_eq_mul, e1]; ring
  · simp only [Prod.snd_add, Prod.smul_snd, smul_eq_mul, e2]; ring

/-- A point on the line of a side, at a height between the ends, is on the side. -/
theorem mem_of_height {u v x : K × K} (h0 : sd u v x = 0) (h : (u.2 ≤ x.2 ∧ x.2 ≤ v.2 ∨ v.2 ≤ x.2 ∧ x.2 ≤ u.2)) (hne : u.2 ≠ v.2) :
    x ∈ segment K u v := by
  have hd : v.2 - u.2 ≠ 0 := sub_ne_zero.2 (Ne.symm hne)
  refine mem_segment_of (t := (x.2 - u.2) / (v.2 - u.2)) ?_ ?_ ?_ ?_
  · rcases h with ⟨a, b⟩ | ⟨a, b⟩
    · exact div_nonneg (by linarith) (by linarith)
    · exact div_nonneg_of_nonpos (by linarith) (by linarith)
  · rcases h with ⟨a, b⟩ | ⟨a, b⟩
    · exact div_le_one_of_le₀ (by linarith) (by linarith)
    · rw [div_le_one_of_neg (lt_of_le_of_ne (by linarith) hd)]
      linarith
  · unfold sd at h0
    field_simp
    linear_combination -h0
  · field_simp
    ring

theorem mem_of_abscissa {u v x : K × K} (h1 : u.2 = x.2) (h2 : v.2 = x.2) (h : (u.1 - x.1) * (v.1 - x.1) < 0) : x ∈ segment K u v := by
  have hd : v.1 - u.1 ≠ 0 := by
    intro h0
    have : v.1 = u.1 := sub_eq_zero.1 h0
    rw [this] at h
    exact absurd h (not_lt.2 (mul_self_nonneg _))
  refine mem_segment_of (t := (x.1 - u.1) / (v.1 - u.1)) ?_ ?_ ?_ ?_
  · rcases mul_neg_iff.1 h with ⟨a, b⟩ | ⟨a, b⟩
    · exact div_nonneg_of_nonpos (by linarith) (by linarith)
    · exact div_nonneg (by linarith) (by linarith)
  · rcases mul_neg_iff.1 h with ⟨a, b⟩ | ⟨a, b⟩
    · rw [div_le_one_of_neg (by linarith)]
      linarith
    · exact div_le_one_of_le₀ (by linarith) (by linarith)
  · field_simp
    ring
  · rw [h1, h2]; ring

theorem signs_of {x y u v : K × K} (hle : x.2 ≤ y.2) (hx : x ∉ segment K u v) (hy : y ∉ segment K u v) (hu : u ∉ segment K x y)
    (hv : v ∉ segment K x y) : Signs x.2 y.2 u.2 v.2 (sd u v x) (sd u v y) (sd x y u) (sd x y v) where
  le := hle
  id := sd_height x y u v
  gx := fun h h0 => by
    apply hx
    by_cases a : x.2 < u.2
    · have b := not_lt.1 (h.1 a)
      exact mem_of_height h0 (Or.inr ⟨b, a.le⟩) (lt_of_le_of_lt b a).ne'
    · have b : x.2 < v.2 := by by_contra b; exact a (h.2 b)
      exact mem_of_height h0 (Or.inl ⟨not_lt.1 a, b.le⟩) (lt_of_le_of_lt (not_lt.1 a) b).ne
  gy := fun h h0 => by
    apply hy
    by_cases a : y.2 < u.2
    · have b := not_lt.1 (h.1 a)
      exact mem_of_height h0 (Or.inr ⟨b, a.le⟩) (lt_of_le_of_lt b a).ne'
    · have b : y.2 < v.2 := by by_contra b; exact a (h.2 b)
      exact mem_of_height h0 (Or.inl ⟨not_lt.1 a, b.le⟩) (lt_of_le_of_lt (not_lt.1 a) b).ne
  gu := fun a b h0 => hu (mem_of_height h0 (Or.inl ⟨a.le, not_lt.1 b⟩) (lt_of_lt_of_le a (not_lt.1 b)).ne)
  gv := fun a b h0 => hv (mem_of_height h0 (Or.inl ⟨a.le, not_lt.1 b⟩) (lt_of_lt_of_le a (not_lt.1 b)).ne)
  hu0 := fun a b h => by
    apply hu
    refine mem_of_abscissa b.symm (by rw [← a, b]) ?_
    have e : sd u v x * sd u v y = (v.2 - u.2) ^ 2 * ((x.1 - u.1) * (y.1 - u.1)) := by
      unfold sd; rw [← a, b]; ring
    rw [e] at h
    by_contra hn
    exact absurd h (not_lt.2 (mul_nonneg (sq_nonneg _) (not_lt.1 hn)))
  hv0 := fun a b h => by
    apply hv
    refine mem_of_abscissa b.symm (by rw [← a, b]) ?_
    have e : sd u v x * sd u v y = (v.2 - u.2) ^ 2 * ((x.1 - v.1) * (y.1 - v.1)) := by
      unfold sd; rw [← a, b]; ring
    rw [e] at h
    by_contra hn
    exact absurd h (not_lt.2 (mul_nonneg (sq_nonneg _) (not_lt.1 hn)))
  hy0 := fun a b h => by
    apply hy
    refine mem_of_abscissa a b ?_
    have e : sd x y u * sd x y v = (y.2 - x.2) ^ 2 * ((u.1 - y.1) * (v.1 - y.1)) := by
      unfold sd; rw [a, b]; ring
    rw [e] at h
    by_contra hn
    exact absurd h (not_lt.2 (mul_nonneg (sq_nonneg _) (not_lt.1 hn)))

theorem rayMeets_iff (x u v : K × K) : RayMeets x (u, v) ↔ RayS x.2 u.2 v.2 (sd u v x) := by
  unfold RayMeets RayS
  refine and_congr_right fun h => ?_
  have hne : v.2 - u.2 ≠ 0 := by
    intro h0
    have : v.2 = u.2 := sub_eq_zero.1 h0
    simp only [this] at h
    tauto
  have h2 : 0 < (v.2 - u.2) ^ 2 := by positivity
  have e : sd u v x * (v.2 - u.2) = (v.2 - u.2) ^ 2 * (u.1 + (x.2 - u.2) * ((v.1 - u.1) / (v.2 - u.2)) - x.1) := by
    unfold sd
    field_simp
    ring
  rw [e, mul_pos_iff_of_pos_left h2, sub_pos]

/-! ### All sides -/

/-- Indicator modulo 2. -/
def ind (p : Prop) [Decidable p] : ZMod 2 := if p then 1 else 0

theorem ind_parity {a b c d e : Prop} [Decidable a] [Decidable b] [Decidable c] [Decidable d] [Decidable e]
    (h : c ↔ ¬ ((a ↔ b) ↔ (d ↔ e))) : ind d + ind e = ind c + ind a + ind b := by
  by_cases ha : a <;> by_cases hb : b <;> by_cases hd : d <;> by_cases he : e <;> simp only [ha, hb, hd, he] at h <;>
    by_cases hc : c <;> simp only [ind, ha, hb, hc, hd, he, if_true, if_false] <;> first | decide | (exfalso; simp only [hc] at h; revert h; decide)

theorem countP_cast {α : Type*} (l : List α) (p : α → Prop) [DecidablePred p] :
    ((l.countP fun a => p a : ℕ) : ZMod 2) = (l.map fun a => ind (p a)).sum := by
  induction l with
  | nil => simp
  | cons a l ih =>
    rw [List.countP_cons, Nat.cast_add, ih, List.map_cons, List.sum_cons, add_comm]
    congr 1
    by_cases h : p a <;> simp [ind, h]

theorem sum_zip {α : Type*} (f : α → ZMod 2) : ∀ l l' : List α, l.length = l'.length →
    ((l.zip l').map fun s => f s.1 + f s.2).sum = (l.map f).sum + (l'.map f).sum
  | [], [], _ => by simp
  | [], _ :: _, h => by simp at h
  | _ :: _, [], h => by simp at h
  | a :: l, b :: l', h => by
    simp only [List.zip_cons_cons, List.map_cons, List.sum_cons, sum_zip f l l' (by simpa using h)]
    ring

theorem sum_sides (w : List (K × K)) (f : K × K → ZMod 2) : ((sides w).map fun s => f s.1 + f s.2).sum = 0 := by
  rw [sides, sum_zip f _ _ (by simp)]
  have : ((w.rotate 1).map f).sum = (w.map f).sum := ((List.rotate_perm w 1).map f).sum_eq
  rw [this]
  generalize (w.map f).sum = c
  revert c
  decide

theorem mem_sides_snd {w : List (K × K)} {s : (K × K) × (K × K)} (h : s ∈ sides w) : ∃ s' ∈ sides w, s'.1 = s.2 := by
  have h2 : s.2 ∈ w.rotate 1 := (List.of_mem_zip h).2
  rw [List.mem_rotate] at h2
  have : (sides w).map Prod.fst = w := by
    rw [sides, List.map_fst_zip]
    simp
  rw [← this, List.mem_map] at h2
  exact h2

theorem parity_le {w : List (K × K)} {x y : K × K} (hg : General w x y) (hle : x.2 ≤ y.2) :
    Even ((sides w).countP (fun s => Proper x y s.1 s.2) + (sides w).countP (fun s => RayMeets x s) +
      (sides w).countP (fun s => RayMeets y s)) := by
  classical
  rw [← ZMod.natCast_eq_zero_iff_even]
  rw [Nat.cast_add, Nat.cast_add, countP_cast, countP_cast, countP_cast, ← sum_sides w fun u => ind (InStrip x.2 y.2 u.2 (sd x y u)),
    ← List.sum_map_add, ← List.sum_map_add]
  congr 1
  refine List.map_congr_left fun s hs => ?_
  obtain ⟨u, v⟩ := s
  obtain ⟨h1, h2, h3⟩ := hg _ hs
  obtain ⟨s', hs', h4⟩ := mem_sides_snd hs
  have h5 := (hg _ hs').2.2
  rw [h4] at h5
  have key := (signs_of hle h1 h2 h3 h5).side
  simp only [Proper, rayMeets_iff]
  exact (ind_parity key).symm

theorem proper_symm (x y u v : K × K) : Proper x y u v ↔ Proper y x u v := by
  unfold Proper
  have e : ∀ p, sd y x p = -sd x y p := fun p => by unfold sd; ring
  rw [e, e, neg_mul_neg, mul_comm (sd u v x)]

/-- The number of sides that a segment in general position crosses is odd exactly if one end is inside and the other is outside. -/
theorem parity {w : List (K × K)} {x y : K × K} (hg : General w x y) :
    Odd ((sides w).countP fun s => Proper x y s.1 s.2) ↔ ¬ (Within w x ↔ Within w y) := by
  have key : Even ((sides w).countP (fun s => Proper x y s.1 s.2) + (sides w).countP (fun s => RayMeets x s) +
      (sides w).countP (fun s => RayMeets y s)) := by
    rcases le_total x.2 y.2 with h | h
    · exact parity_le hg h
    · have := parity_le (w := w) (x := y) (y := x) (fun s hs => ⟨(hg s hs).2.1, (hg s hs).1, by
        rw [segment_symm]; exact (hg s hs).2.2⟩) h
      simp only [proper_symm y x] at this
      rw [add_right_comm]
      exact this
  unfold Within
  rw [Nat.even_add, Nat.even_add] at key
  simp only [← Nat.not_even_iff_odd]
  tauto

end FreeGS.Spec
