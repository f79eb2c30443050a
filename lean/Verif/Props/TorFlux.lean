import Verif.Lemmas.Global
import Mathlib.MeasureTheory.Integral.IntervalIntegral.Basic
import Mathlib.MeasureTheory.Function.LocallyIntegrable
import Mathlib.MeasureTheory.Integral.IntervalIntegral.FundThmCalculus
import Mathlib.Analysis.Real.Pi.Bounds

/-!
# C79, C80: toroidal flux and the toroidal flux coordinate

`q` stands for the safety factor as a function of the normalised flux, `eq.q`.
-/

set_option linter.unusedSectionVars false

namespace FreeGS.Global

variable {K : Type*} [Field K] [LinearOrder K]

/-! ## Specification -/

/-- The safety factor as a function of the poloidal flux. -/
def qOfPsi (psiAxis psiBndry : K) (q : K → K) (psi : K) : K := q ((psi - psiAxis) / (psiBndry - psiAxis))

/-! ## Helpers -/

theorem torFlux_ok {pi a b : K} {q : K → K} {psi l : List K} (h : torFlux pi a b q psi = .ok l) :
    ∃ x0 rest, psi = x0 :: rest ∧ b - a ≠ 0 ∧
      l = (0 :: cumTrapLoop 0 x0 (qOfPsi a b q x0) (rest.map fun v => (v, qOfPsi a b q v))).map fun v => v * (-1 / (2 * pi)) := by
  unfold torFlux at h
  by_cases hz : b - a = 0
  · rw [if_pos hz] at h; cases h
  rw [if_neg hz] at h
  cases psi with
  | nil => cases h
  | cons x0 rest => cases h; exact ⟨x0, rest, rfl, hz, rfl⟩

theorem torFlux_cons {pi a b : K} {q : K → K} (hz : b - a ≠ 0) (x0 : K) (rest : List K) : torFlux pi a b q (x0 :: rest) =
    .ok ((0 :: cumTrapLoop 0 x0 (qOfPsi a b q x0) (rest.map fun v => (v, qOfPsi a b q v))).map fun v => v * (-1 / (2 * pi))) := by
  unfold torFlux
  rw [if_neg hz]
  rfl

theorem cumTrap_length : ∀ (l : List (K × K)) (acc x y : K), (cumTrapLoop acc x y l).length = l.length := by
  intro l
  induction l with
  | nil => intro acc x y; rfl
  | cons p l ih => intro acc x y; obtain ⟨u, v⟩ := p; rw [cumTrapLoop]; simp [ih]

theorem cumTrap_shift : ∀ (l : List (K × K)) (acc c x y : K),
    cumTrapLoop (acc + c) x y l = (cumTrapLoop acc x y l).map (· + c) := by
  intro l
  induction l with
  | nil => intro acc c x y; rfl
  | cons p l ih =>
    intro acc c x y
    obtain ⟨u, v⟩ := p
    rw [cumTrapLoop, cumTrapLoop, List.map_cons]
    have : acc + c + (u - x) * (y + v) / 2 = acc + (u - x) * (y + v) / 2 + c := by ring
    rw [this, ih]

/-! ## C79 -/

/-- There is one value for each flux given; the first is zero, whatever flux it belongs to. -/
theorem C79_first_zero {pi a b : K} {q : K → K} {psi l : List K} (h : torFlux pi a b q psi = .ok l) :
    l.length = psi.length ∧ l[0]? = some 0 := by
  obtain ⟨x0, rest, rfl, -, rfl⟩ := torFlux_ok h
  constructor
  · simp [cumTrap_length]
  · simp

example : torFlux (3 : ℚ) 1 0 (fun _ => 2) [1, 1 / 2, 0] = .ok [0, 1 / 6, 1 / 3] := by decide +kernel

/-- Hence the toroidal flux found for one and the same value of the poloidal flux depends on the list in which it is given. The
documented meaning "rho = 0 at psiN = 0" holds only for lists that start at the axis. -/
theorem C79_depends_on_list : ∃ (pi a b : ℚ) (q : ℚ → ℚ), torFlux pi a b q [1 / 2, 0] = .ok [0, 1 / 6] ∧
    torFlux pi a b q [1, 1 / 2, 0] = .ok [0, 1 / 6, 1 / 3] :=
  ⟨3, 1, 0, fun _ => 2, by decide +kernel, by decide +kernel⟩

/-- Going on from the last value of a list adds to what was found: differences of the toroidal flux do not depend on what was given
before. -/
theorem C79_append {pi a b : K} {q : K → K} {x : K} {psi psi' l l' : List K} {v : K} (h : torFlux pi a b q (psi ++ [x]) = .ok (l ++ [v]))
    (hl : l.length = psi.length) (h' : torFlux pi a b q (x :: psi') = .ok l') :
    torFlux pi a b q (psi ++ x :: psi') = .ok (l ++ l'.map (· + v)) := by
  have key : ∀ (r : List (K × K)) (acc x0 y0 u w : K) (s : List (K × K)) (m : List K),
      cumTrapLoop acc x0 y0 (r ++ [(u, w)]) = m → cumTrapLoop acc x0 y0 (r ++ (u, w) :: s) = m ++ cumTrapLoop (m.getLast?.getD 0) u w s := by
    intro r
    induction r with
    | nil =>
      intro acc x0 y0 u w s m hm
      rw [List.nil_append, cumTrapLoop, cumTrapLoop] at hm
      subst hm
      rw [List.nil_append, cumTrapLoop]
      simp
    | cons p r ih =>
      intro acc x0 y0 u w s m hm
      obtain ⟨c, d⟩ := p
      rw [List.cons_append, cumTrapLoop] at hm
      subst hm
      rw [List.cons_append, cumTrapLoop, ih _ _ _ _ _ s _ rfl, List.cons_append]
      congr 2
      have hne : cumTrapLoop (acc + (c - x0) * (y0 + d) / 2) c d (r ++ [(u, w)]) ≠ [] := by
        intro h0
        have := cumTrap_length (r ++ [(u, w)]) (acc + (c - x0) * (y0 + d) / 2) c d
        rw [h0] at this
        simp at this
      rw [List.getLast?_cons]
      cases hg : (cumTrapLoop (acc + (c - x0) * (y0 + d) / 2) c d (r ++ [(u, w)])).getLast? with
      | none => exact absurd (List.getLast?_eq_none_iff.mp hg) hne
      | some z => rfl
  obtain ⟨x0, rest, e, hz, hlv⟩ := torFlux_ok h
  rw [torFlux_cons hz] at h'
  cases h'
  cases psi with
  | nil =>
    cases l with
    | cons _ _ => cases hl
    | nil =>
      rw [List.nil_append] at e hlv
      cases e
      simp only [List.map_nil, cumTrapLoop, List.map_cons, zero_mul] at hlv
      cases hlv
      rw [List.nil_append, List.nil_append, torFlux_cons hz]
      congr 1
      simp
  | cons x1 psi =>
    rw [List.cons_append] at e
    cases e
    rw [List.cons_append, torFlux_cons hz, List.map_append, List.map_cons (l := psi')]
    have hk := key (psi.map fun v => (v, qOfPsi a b q v)) 0 x0 (qOfPsi a b q x0) x (qOfPsi a b q x) (psi'.map fun v => (v, qOfPsi a b q v)) _ rfl
    rw [hk]
    rw [List.map_cons, List.map_append, List.map_singleton] at hlv
    generalize hm : cumTrapLoop 0 x0 (qOfPsi a b q x0) (psi.map (fun v => (v, qOfPsi a b q v)) ++ [(x, qOfPsi a b q x)]) = m at *
    have hmne : m ≠ [] := by
      intro h0
      rw [h0] at hm
      have := congrArg List.length hm
      rw [cumTrap_length] at this
      simp at this
    obtain ⟨m', z, rfl⟩ : ∃ m' z, m = m' ++ [z] := ⟨m.dropLast, m.getLast hmne, (List.dropLast_append_getLast hmne).symm⟩
    rw [List.map_append, List.map_singleton, ← List.cons_append] at hlv
    obtain ⟨h1, h2⟩ := List.append_inj' hlv rfl
    have h2 : v = z * (-1 / (2 * pi)) := by injection h2
    congr 1
    rw [List.getLast?_concat, Option.getD_some, h1, h2, List.map_cons, List.map_append, List.map_append, List.map_cons, List.map_nil]
    have := cumTrap_shift (psi'.map fun v => (v, qOfPsi a b q v)) 0 z x (qOfPsi a b q x)
    rw [zero_add] at this
    rw [this]
    simp only [List.map_cons, List.cons_append, List.append_assoc, List.nil_append, List.map_map, zero_mul, zero_add]
    congr 3
    refine List.map_congr_left fun t _ => ?_
    simp only [Function.comp]
    ring

example : torFlux (3 : ℚ) 1 0 (fun x => 2 + x) [1, 1 / 2] = .ok ([0] ++ [3 / 16]) ∧
    torFlux (3 : ℚ) 1 0 (fun x => 2 + x) [1 / 2, 0] = .ok [0, 11 / 48] := by decide +kernel

section ordered
variable [IsStrictOrderedRing K]

theorem cumTrap_sorted : ∀ (l : List (K × K)) (acc x y : K), 0 < y → (∀ p ∈ l, 0 < p.2) → ((x :: l.map Prod.fst).Pairwise (· > ·)) →
    ((acc :: cumTrapLoop acc x y l).Pairwise (· > ·)) := by
  intro l
  induction l with
  | nil => intro acc x y _ _ _; simp [cumTrapLoop]
  | cons p l ih =>
    intro acc x y hy hl hs
    obtain ⟨u, v⟩ := p
    rw [List.map_cons] at hs
    have hux : u < x := (List.pairwise_cons.mp hs).1 u (List.mem_cons_self ..)
    have hv : 0 < v := hl (u, v) (List.mem_cons_self ..)
    rw [cumTrapLoop]
    have h2 := ih (acc + (u - x) * (y + v) / 2) u v hv (fun p hp => hl p (List.mem_cons_of_mem _ hp)) (List.pairwise_cons.mp hs).2
    have hlt : acc + (u - x) * (y + v) / 2 < acc := by
      have : (u - x) * (y + v) < 0 := mul_neg_of_neg_of_pos (by linarith) (by linarith)
      linarith
    refine List.pairwise_cons.mpr ⟨fun w hw => ?_, h2⟩
    rcases List.mem_cons.mp hw with rfl | hw
    · exact hlt
    · exact lt_trans ((List.pairwise_cons.mp h2).1 w hw) hlt

/-- Where the safety factor is positive and the poloidal flux falls along the list (from a magnetic axis at a maximum outwards), the
toroidal flux grows from zero. -/
theorem C79_increasing {pi a b : K} (hpi : 0 < pi) {q : K → K} {psi l : List K} (h : torFlux pi a b q psi = .ok l)
    (hq : ∀ v ∈ psi, 0 < q ((v - a) / (b - a))) (hs : psi.Pairwise (· > ·)) : l.Pairwise (· < ·) ∧ ∀ v ∈ l, 0 ≤ v := by
  obtain ⟨x0, rest, rfl, -, rfl⟩ := torFlux_ok h
  have hp := cumTrap_sorted (rest.map fun v => (v, qOfPsi a b q v)) 0 x0 (qOfPsi a b q x0) (hq x0 (List.mem_cons_self ..))
    (fun p hp => by
      obtain ⟨v, hv, rfl⟩ := List.mem_map.mp hp
      exact hq v (List.mem_cons_of_mem _ hv))
    (by
      have e : rest.map (Prod.fst ∘ fun v => (v, qOfPsi a b q v)) = rest := by simp [Function.comp_def]
      rw [List.map_map, e]; exact hs)
  have hneg : -1 / (2 * pi) < 0 := div_neg_of_neg_of_pos (by norm_num) (by positivity)
  have hl : ((0 :: cumTrapLoop 0 x0 (qOfPsi a b q x0) (rest.map fun v => (v, qOfPsi a b q v))).map fun v => v * (-1 / (2 * pi))).Pairwise
      (· < ·) := List.pairwise_map.mpr (hp.imp fun h => mul_lt_mul_of_neg_right h hneg)
  refine ⟨hl, fun v hv => ?_⟩
  rw [List.map_cons, zero_mul] at hl hv
  rcases List.mem_cons.mp hv with rfl | hv
  · exact le_refl _
  · exact ((List.pairwise_cons.mp hl).1 v hv).le

example : torFlux (3 : ℚ) 1 0 (fun x => 1 + x) [1, 1 / 2, 0] = .ok [0, 5 / 48, 1 / 4] ∧ (0 < (1 + 0 : ℚ)) := by decide +kernel

/-- The trapezium rule is exact for a safety factor that is an affine function of the flux: the values are the integral of `q` from the
first flux given, times `-1/(2 pi)`. For a list that starts at the axis this is the toroidal flux. -/
theorem C79_affine_partial {pi a b c d : K} {x0 : K} {rest l : List K} (h : torFlux pi a b (fun x => c + d * x) (x0 :: rest) = .ok l)
    (k : ℕ) (x v : K) (hx : (x0 :: rest)[k]? = some x) (hv : l[k]? = some v) :
    v = -1 / (2 * pi) * ((c * x + d * (x - a) ^ 2 / (2 * (b - a))) - (c * x0 + d * (x0 - a) ^ 2 / (2 * (b - a)))) := by
  obtain ⟨x1, r1, e, hz, rfl⟩ := torFlux_ok h
  cases e
  have key : ∀ (r : List K) (acc y : K) (k : ℕ) (x v : K), r[k]? = some x →
      (cumTrapLoop acc y (qOfPsi a b (fun x => c + d * x) y) (r.map fun v => (v, qOfPsi a b (fun x => c + d * x) v)))[k]? = some v →
      v = acc + ((c * x + d * (x - a) ^ 2 / (2 * (b - a))) - (c * y + d * (y - a) ^ 2 / (2 * (b - a)))) := by
    intro r
    induction r with
    | nil => intro acc y k x v hx; simp at hx
    | cons u r ih =>
      intro acc y k x v hx hv
      rw [List.map_cons, cumTrapLoop] at hv
      have step : (u - y) * (qOfPsi a b (fun x => c + d * x) y + qOfPsi a b (fun x => c + d * x) u) / 2 =
          (c * u + d * (u - a) ^ 2 / (2 * (b - a))) - (c * y + d * (y - a) ^ 2 / (2 * (b - a))) := by
        simp only [qOfPsi]; field_simp; ring
      cases k with
      | zero =>
        simp only [List.getElem?_cons_zero, Option.some.injEq] at hx hv
        subst hx
        rw [← hv, step]
      | succ k =>
        simp only [List.getElem?_cons_succ] at hx hv
        rw [ih _ _ _ _ _ hx hv, step]; ring
  cases k with
  | zero => simp at hx hv; subst hx; rw [← hv]; ring
  | succ k =>
    simp only [List.getElem?_cons_succ, List.map_cons, List.getElem?_map, Option.map_eq_some_iff] at hx hv
    obtain ⟨w, hw, rfl⟩ := hv
    rw [key _ _ _ _ _ _ hx hw]; ring

example : (torFlux (3 : ℚ) 1 0 (fun x => 1 + 2 * x) [1, 1 / 3, 0]) = .ok [0, 5 / 27, 1 / 3] := by decide +kernel

/-- Where the poloidal flux rises instead (an axis at a minimum), every later value is negative: `rhotor` then divides by the
largest value, zero. -/
theorem C80_rising_negative {sqrt : K → K} {pi a b : K} (hpi : 0 < pi) (hab : a < b) {q : K → K} (hq : ∀ x, 0 < q x) (psi : List K) :
    ∃ e, rhotor sqrt pi a b q psi = .error e := by
  have hz : b - a ≠ 0 := by linarith
  -- reflect the flux to use the falling case
  have neg : ∀ (l : List (K × K)) (acc x y : K), cumTrapLoop (-acc) (-x) y (l.map fun p => (-p.1, p.2)) = (cumTrapLoop acc x y l).map (- ·) := by
    intro l
    induction l with
    | nil => intro acc x y; rfl
    | cons p l ih =>
      intro acc x y
      obtain ⟨u, v⟩ := p
      rw [List.map_cons, cumTrapLoop, cumTrapLoop, List.map_cons]
      have : -acc + (-u - -x) * (y + v) / 2 = -(acc + (u - x) * (y + v) / 2) := by ring
      simp only [this, ih]
  set lc : List K := (List.range 101).map fun k : ℕ => a + (k : K) * ((b - a) / 100) with hlc
  obtain ⟨x0, rest, hx⟩ : ∃ x0 rest, lc = x0 :: rest := by
    have : lc ≠ [] := by rw [hlc]; simp
    exact List.exists_cons_of_ne_nil this
  have hsort : lc.Pairwise (· < ·) := by
    rw [hlc]
    refine List.pairwise_map.mpr (List.pairwise_lt_range.imp fun {i j} hij => ?_)
    have : (i : K) < j := by exact_mod_cast hij
    have : 0 < (b - a) / 100 := by have : 0 < b - a := by linarith
                                   positivity
    nlinarith
  have hp := cumTrap_sorted ((rest.map fun v => (v, qOfPsi a b q v)).map fun p => (-p.1, p.2)) (-0) (-x0) (qOfPsi a b q x0) (hq _)
    (fun p hp => by
      obtain ⟨r, hr, rfl⟩ := List.mem_map.mp hp
      obtain ⟨v, hv, rfl⟩ := List.mem_map.mp hr
      exact hq _)
    (by
      rw [List.map_map, List.map_map]
      have : (-x0 :: List.map ((Prod.fst ∘ fun p : K × K => (-p.1, p.2)) ∘ fun v => (v, qOfPsi a b q v)) rest) = (x0 :: rest).map (- ·) := by
        simp [Function.comp_def]
      rw [this, ← hx]
      exact List.pairwise_map.mpr (hsort.imp fun h => neg_lt_neg h))
  rw [neg, neg_zero] at hp
  have hlcf : torFlux pi a b q lc = .ok ((0 :: cumTrapLoop 0 x0 (qOfPsi a b q x0) (rest.map fun v => (v, qOfPsi a b q v))).map
      fun v => v * (-1 / (2 * pi))) := by rw [hx, torFlux_cons hz]
  have hmax : maxOf ((0 :: cumTrapLoop 0 x0 (qOfPsi a b q x0) (rest.map fun v => (v, qOfPsi a b q v))).map
      fun v => v * (-1 / (2 * pi))) = .ok 0 := by
    rw [List.map_cons, maxOf, zero_mul]
    congr 1
    have hle : ∀ v ∈ (cumTrapLoop 0 x0 (qOfPsi a b q x0) (rest.map fun v => (v, qOfPsi a b q v))).map fun v => v * (-1 / (2 * pi)), v ≤ 0 := by
      intro v hv
      obtain ⟨w, hw, rfl⟩ := List.mem_map.mp hv
      have h1 := (List.pairwise_cons.mp hp).1 (-w) (List.mem_map.mpr ⟨w, hw, rfl⟩)
      have : -1 / (2 * pi) < 0 := div_neg_of_neg_of_pos (by norm_num) (by positivity)
      nlinarith
    generalize (cumTrapLoop 0 x0 (qOfPsi a b q x0) (rest.map fun v => (v, qOfPsi a b q v))).map (fun v => v * (-1 / (2 * pi))) = r at hle
    induction r with
    | nil => rfl
    | cons c r ih =>
      rw [List.foldl_cons, max_eq_left (hle c (List.mem_cons_self ..))]
      exact ih fun v hv => hle v (List.mem_cons_of_mem _ hv)
  rw [rhotor]
  cases ht : torFlux pi a b q psi with
  | error e => exact ⟨e, rfl⟩
  | ok l =>
    rw [← hlc, hlcf]
    simp only [bind, Except.bind, hmax]
    have hne : l ≠ [] := by
      have := (C79_first_zero ht).2
      intro h0; rw [h0] at this; cases this
    obtain ⟨c, r, rfl⟩ := List.exists_cons_of_ne_nil hne
    refine ⟨.nonfinite, ?_⟩
    rw [rootRatios, quotient, if_pos rfl]
    rfl

/-- A single flux value always raises: `len` is asked of a number. -/
theorem C80_single {sqrt : K → K} {pi a b : K} {q : K → K} (x : K) : ∃ e, rhotor sqrt pi a b q [x] = .error e := by
  rw [rhotor]
  cases torFlux pi a b q [x] with
  | error e => exact ⟨e, rfl⟩
  | ok l =>
    cases torFlux pi a b q ((List.range 101).map fun k : ℕ => a + (k : K) * ((b - a) / 100)) with
    | error e => exact ⟨e, rfl⟩
    | ok m =>
      cases hm : maxOf m with
      | error e => exact ⟨e, by simp only [bind, Except.bind, hm]⟩
      | ok z =>
        cases hr : rootRatios sqrt z l with
        | error e => exact ⟨e, by simp only [bind, Except.bind, hm, hr]⟩
        | ok w => exact ⟨.type, by simp only [bind, Except.bind, hm, hr, List.length_singleton, if_true]⟩

theorem maxOf_sorted : ∀ (l : List K) (a : K), (a :: l).Pairwise (· < ·) → ∃ m, maxOf (a :: l) = .ok m ∧ (a :: l).getLast? = some m := by
  intro l
  induction l with
  | nil => intro a _; exact ⟨a, rfl, rfl⟩
  | cons b l ih =>
    intro a h
    obtain ⟨m, h1, h2⟩ := ih b (List.pairwise_cons.mp h).2
    have hab := (List.pairwise_cons.mp h).1 b (List.mem_cons_self ..)
    refine ⟨m, ?_, by rw [List.getLast?_cons_cons, h2]⟩
    rw [maxOf, List.foldl_cons, max_eq_right hab.le]
    exact h1

theorem rootRatios_map {sqrt : K → K} {m : K} (hm : 0 < m) : ∀ l : List K, (∀ v ∈ l, 0 ≤ v) →
    rootRatios sqrt m l = .ok (l.map fun v => sqrt (v / m)) := by
  intro l
  induction l with
  | nil => intro _; rfl
  | cons a l ih =>
    intro h
    have h0 : 0 ≤ a / m := div_nonneg (h a (List.mem_cons_self ..)) hm.le
    rw [rootRatios, quotient_eq hm.ne', ih fun v hv => h v (List.mem_cons_of_mem _ hv)]
    show (if a / m < 0 then _ else _) = _
    rw [if_neg (not_lt.mpr h0)]
    rfl

/-- On the profile of 101 values from the axis to the boundary, with a positive safety factor and a falling flux, the coordinate rises
from 0 to 1. -/
theorem C80_profile_partial {sqrt : K → K} (hs0 : sqrt 0 = 0) (hs1 : sqrt 1 = 1) (hsm : ∀ x y, 0 ≤ x → x < y → sqrt x < sqrt y)
    {pi a b : K} (hpi : 0 < pi) (hab : b < a) {q : K → K} (hq : ∀ x, 0 < q x) :
    ∃ l, rhotor sqrt pi a b q ((List.range 101).map fun k : ℕ => a + (k : K) * ((b - a) / 100)) = .ok l ∧ l.length = 101 ∧
      l[0]? = some 0 ∧ l[100]? = some 1 ∧ l.Pairwise (· < ·) := by
  have hz : b - a ≠ 0 := by linarith
  set lc : List K := (List.range 101).map fun k : ℕ => a + (k : K) * ((b - a) / 100) with hlc
  have hlen : lc.length = 101 := by rw [hlc]; simp
  obtain ⟨x0, rest, hx⟩ : ∃ x0 rest, lc = x0 :: rest := by
    have : lc ≠ [] := by intro h; rw [h] at hlen; cases hlen
    exact List.exists_cons_of_ne_nil this
  have hsort : lc.Pairwise (· > ·) := by
    rw [hlc]
    refine List.pairwise_map.mpr (List.pairwise_lt_range.imp fun {i j} hij => ?_)
    have h1 : (i : K) < j := by exact_mod_cast hij
    have h2 : (b - a) / 100 < 0 := div_neg_of_neg_of_pos (by linarith) (by norm_num)
    nlinarith
  obtain ⟨l, hl⟩ : ∃ l, torFlux pi a b q lc = .ok l := by rw [hx, torFlux_cons hz]; exact ⟨_, rfl⟩
  obtain ⟨hinc, hnn⟩ := C79_increasing hpi hl (fun v _ => hq _) hsort
  obtain ⟨hll, hl0⟩ := C79_first_zero hl
  rw [hlen] at hll
  obtain ⟨c, r, rfl⟩ : ∃ c r, l = c :: r := List.exists_cons_of_ne_nil (by intro h; rw [h] at hll; cases hll)
  obtain ⟨m, hm, hlast⟩ := maxOf_sorted r c hinc
  have hl100 : (c :: r)[100]? = some m := by
    rw [List.getLast?_eq_getElem?, hll] at hlast; exact hlast
  have hm0 : 0 < m := by
    have h0 : c = 0 := by simpa using hl0
    have hmem : m ∈ r := by
      have : r[99]? = some m := by simpa using hl100
      exact List.mem_of_getElem? this
    exact h0 ▸ (List.pairwise_cons.mp hinc).1 m hmem
  refine ⟨(c :: r).map fun v => sqrt (v / m), ?_, by rw [List.length_map, hll], ?_, ?_, ?_⟩
  · rw [rhotor, ← hlc, hl]
    simp only [bind, Except.bind, hm, rootRatios_map hm0 _ hnn, hlen]
    rw [if_neg (by norm_num)]
  · rw [List.getElem?_map, hl0]; simp [hs0]
  · rw [List.getElem?_map, hl100]; simp [div_self hm0.ne', hs1]
  · refine List.pairwise_map.mpr ?_
    refine List.Pairwise.imp_of_mem ?_ hinc
    intro u v hu hv huv
    exact hsm _ _ (div_nonneg (hnn u hu) hm0.le) (div_lt_div_of_pos_right huv hm0)

/-- Non-vacuity: the hypotheses hold for the real square root. -/
example : Real.sqrt 0 = 0 ∧ Real.sqrt 1 = 1 ∧ ∀ x y : ℝ, 0 ≤ x → x < y → Real.sqrt x < Real.sqrt y :=
  ⟨Real.sqrt_zero, Real.sqrt_one, fun _ _ h h' => Real.sqrt_lt_sqrt h h'⟩

/-- What it returns for another list depends on the list: the same flux is given `0` or not, according to where the list starts. -/
theorem C80_depends_on_list : ∃ (q : ℚ → ℚ) (sqrt : ℚ → ℚ), rhotor sqrt 3 1 0 q [1 / 2, 0] = .ok [0, 1 / 2] ∧
    rhotor sqrt 3 1 0 q [1, 1 / 2, 0] = .ok [0, 1 / 2, 1] :=
  ⟨fun _ => 2, fun x => x, by decide +kernel, by decide +kernel⟩

end ordered

/-! ## Error of the trapezium rule -/

theorem segment_error {f : ℝ → ℝ} {s : Set ℝ} (hs : s.OrdConnected) (hf : MonotoneOn f s ∨ AntitoneOn f s) {x y : ℝ} (hx : x ∈ s) (hy : y ∈ s) :
    |(y - x) * (f x + f y) / 2 - ∫ t in x..y, f t| ≤ |y - x| * |f y - f x| / 2 := by
  have hsub : Set.uIcc x y ⊆ s := hs.uIcc_subset hx hy
  have hint : IntervalIntegrable f MeasureTheory.volume x y := by
    rcases hf with hf | hf
    · exact (hf.mono hsub).intervalIntegrable
    · exact (hf.mono hsub).intervalIntegrable
  -- every value lies within half the variation of the mean of the end values
  have hb : ∀ t ∈ Set.uIcc x y, |(f x + f y) / 2 - f t| ≤ |f y - f x| / 2 := by
    intro t ht
    have hts := hsub ht
    rcases Set.mem_uIcc.mp ht with ⟨h1, h2⟩ | ⟨h1, h2⟩ <;> rcases hf with hf | hf
    · have a1 := hf hx hts h1
      have a2 := hf hts hy h2
      rw [abs_of_nonneg (show 0 ≤ f y - f x by linarith), abs_le]; constructor <;> linarith
    · have a1 := hf hx hts h1
      have a2 := hf hts hy h2
      rw [abs_of_nonpos (show f y - f x ≤ 0 by linarith), abs_le]; constructor <;> linarith
    · have a1 := hf hy hts h1
      have a2 := hf hts hx h2
      rw [abs_of_nonpos (show f y - f x ≤ 0 by linarith), abs_le]; constructor <;> linarith
    · have a1 := hf hy hts h1
      have a2 := hf hts hx h2
      rw [abs_of_nonneg (show 0 ≤ f y - f x by linarith), abs_le]; constructor <;> linarith
  have e : (y - x) * (f x + f y) / 2 - ∫ t in x..y, f t = ∫ t in x..y, ((f x + f y) / 2 - f t) := by
    rw [intervalIntegral.integral_sub intervalIntegrable_const hint, intervalIntegral.integral_const, smul_eq_mul]; ring
  rw [e]
  have := intervalIntegral.norm_integral_le_of_norm_le_const (a := x) (b := y) (f := fun t => (f x + f y) / 2 - f t) (C := |f y - f x| / 2)
    fun t ht => by rw [Real.norm_eq_abs]; exact hb t (Set.uIoc_subset_uIcc ht)
  rw [Real.norm_eq_abs] at this
  linarith [this, mul_comm (|f y - f x|) |y - x|]

/-- For a safety factor that only rises or only falls with the flux, and a list of fluxes in order with steps of at most `h`, the
toroidal flux found is the exact integral from the first flux given, up to `h/(4 pi)` times the change of the safety factor. -/
theorem C79_error {a b h : ℝ} {q : ℝ → ℝ} {s : Set ℝ} (hs : s.OrdConnected)
    (hf : MonotoneOn (fun psi => q ((psi - a) / (b - a))) s ∨ AntitoneOn (fun psi => q ((psi - a) / (b - a))) s)
    {x0 : ℝ} {rest l : List ℝ} (hl : torFlux Real.pi a b q (x0 :: rest) = .ok l) (hmem : ∀ v ∈ x0 :: rest, v ∈ s)
    (hord : (x0 :: rest).Pairwise (· ≤ ·) ∨ (x0 :: rest).Pairwise (· ≥ ·))
    (hstep : (x0 :: rest).IsChain fun u v => |v - u| ≤ h) (k : ℕ) (x v : ℝ) (hx : (x0 :: rest)[k]? = some x) (hv : l[k]? = some v) :
    |v - -1 / (2 * Real.pi) * ∫ t in x0..x, q ((t - a) / (b - a))| ≤
      h / (4 * Real.pi) * |q ((x - a) / (b - a)) - q ((x0 - a) / (b - a))| := by
  set f : ℝ → ℝ := fun psi => q ((psi - a) / (b - a)) with hfdef
  have hint : ∀ u w, u ∈ s → w ∈ s → IntervalIntegrable f MeasureTheory.volume u w := by
    intro u w hu hw
    have hsub : Set.uIcc u w ⊆ s := hs.uIcc_subset hu hw
    rcases hf with hf | hf
    · exact (hf.mono hsub).intervalIntegrable
    · exact (hf.mono hsub).intervalIntegrable
  -- variation adds up along an ordered list
  have hvar : ∀ u w z, u ∈ s → w ∈ s → z ∈ s → ((u ≤ w ∧ w ≤ z) ∨ (u ≥ w ∧ w ≥ z)) → |f w - f u| + |f z - f w| = |f z - f u| := by
    intro u w z hu hw hz ho
    rcases ho with ⟨h1, h2⟩ | ⟨h1, h2⟩ <;> rcases hf with hf | hf
    · have a1 := hf hu hw h1
      have a2 := hf hw hz h2
      rw [abs_of_nonneg (sub_nonneg.mpr a1), abs_of_nonneg (sub_nonneg.mpr a2), abs_of_nonneg (sub_nonneg.mpr (a1.trans a2))]; ring
    · have a1 := hf hu hw h1
      have a2 := hf hw hz h2
      rw [abs_of_nonpos (sub_nonpos.mpr a1), abs_of_nonpos (sub_nonpos.mpr a2), abs_of_nonpos (sub_nonpos.mpr (a2.trans a1))]; ring
    · have a1 := hf hw hu h1
      have a2 := hf hz hw h2
      rw [abs_of_nonpos (sub_nonpos.mpr a1), abs_of_nonpos (sub_nonpos.mpr a2), abs_of_nonpos (sub_nonpos.mpr (a2.trans a1))]; ring
    · have a1 := hf hw hu h1
      have a2 := hf hz hw h2
      rw [abs_of_nonneg (sub_nonneg.mpr a1), abs_of_nonneg (sub_nonneg.mpr a2), abs_of_nonneg (sub_nonneg.mpr (a1.trans a2))]; ring
  have key : ∀ (r : List ℝ) (acc y : ℝ) (k : ℕ) (x v : ℝ), (∀ w ∈ y :: r, w ∈ s) →
      ((y :: r).Pairwise (· ≤ ·) ∨ (y :: r).Pairwise (· ≥ ·)) → ((y :: r).IsChain fun u v => |v - u| ≤ h) → r[k]? = some x →
      (cumTrapLoop acc y (f y) (r.map fun v => (v, f v)))[k]? = some v →
      |v - (acc + ∫ t in y..x, f t)| ≤ h / 2 * |f x - f y| := by
    intro r
    induction r with
    | nil => intro acc y k x v _ _ _ hx; simp at hx
    | cons u r ih =>
      intro acc y k x v hm ho hc hx hv
      have hy : y ∈ s := hm y (List.mem_cons_self ..)
      have hu : u ∈ s := hm u (List.mem_cons_of_mem _ (List.mem_cons_self ..))
      have hstep : |u - y| ≤ h := by
        rw [List.isChain_cons_cons] at hc; exact hc.1
      have hseg := segment_error hs hf hy hu
      have hseg' : |(u - y) * (f y + f u) / 2 - ∫ t in y..u, f t| ≤ h / 2 * |f u - f y| := by
        refine hseg.trans ?_
        have := mul_le_mul_of_nonneg_right hstep (abs_nonneg (f u - f y))
        linarith
      rw [List.map_cons, cumTrapLoop] at hv
      cases k with
      | zero =>
        simp only [List.getElem?_cons_zero, Option.some.injEq] at hx hv
        subst hx
        rw [← hv, show acc + (u - y) * (f y + f u) / 2 - (acc + ∫ t in y..u, f t) = (u - y) * (f y + f u) / 2 - ∫ t in y..u, f t by ring]
        exact hseg'
      | succ k =>
        simp only [List.getElem?_cons_succ] at hx hv
        have hxr : x ∈ r := List.mem_of_getElem? hx
        have hxs : x ∈ s := hm x (List.mem_cons_of_mem _ (List.mem_cons_of_mem _ hxr))
        have ho' : (u :: r).Pairwise (· ≤ ·) ∨ (u :: r).Pairwise (· ≥ ·) :=
          ho.imp (fun h => (List.pairwise_cons.mp h).2) (fun h => (List.pairwise_cons.mp h).2)
        have hc' : (u :: r).IsChain fun u v => |v - u| ≤ h := by
          rw [List.isChain_cons_cons] at hc; exact hc.2
        have hi := ih (acc + (u - y) * (f y + f u) / 2) u k x v (fun w hw => hm w (List.mem_cons_of_mem _ hw)) ho' hc' hx hv
        have hadd : (∫ t in y..u, f t) + ∫ t in u..x, f t = ∫ t in y..x, f t :=
          intervalIntegral.integral_add_adjacent_intervals (hint y u hy hu) (hint u x hu hxs)
        have hbetween : (y ≤ u ∧ u ≤ x) ∨ (y ≥ u ∧ u ≥ x) := by
          rcases ho with h | h
          · exact Or.inl ⟨(List.pairwise_cons.mp h).1 u (List.mem_cons_self ..), (List.pairwise_cons.mp (List.pairwise_cons.mp h).2).1 x hxr⟩
          · exact Or.inr ⟨(List.pairwise_cons.mp h).1 u (List.mem_cons_self ..), (List.pairwise_cons.mp (List.pairwise_cons.mp h).2).1 x hxr⟩
        have hv3 := hvar y u x hy hu hxs hbetween
        rw [show v - (acc + ∫ t in y..x, f t) = (v - (acc + (u - y) * (f y + f u) / 2 + ∫ t in u..x, f t)) +
            ((u - y) * (f y + f u) / 2 - ∫ t in y..u, f t) by rw [← hadd]; ring]
        refine (abs_add_le _ _).trans ?_
        rw [← hv3]
        linarith
  obtain ⟨x1, r1, e, hz, rfl⟩ := torFlux_ok hl
  cases e
  have hpi := Real.pi_pos
  cases k with
  | zero =>
    simp at hx hv
    subst hx
    rw [← hv]
    simp
  | succ k =>
    simp only [List.getElem?_cons_succ, List.map_cons, List.getElem?_map, Option.map_eq_some_iff] at hx hv
    obtain ⟨w, hw, rfl⟩ := hv
    have := key rest 0 x0 k x w hmem hord hstep hx hw
    rw [zero_add] at this
    rw [show w * (-1 / (2 * Real.pi)) - -1 / (2 * Real.pi) * ∫ t in x0..x, f t = (w - ∫ t in x0..x, f t) * (-1 / (2 * Real.pi)) by ring,
      abs_mul, show |-1 / (2 * Real.pi)| = 1 / (2 * Real.pi) by
        rw [neg_div, abs_neg, abs_of_pos (by positivity)]]
    calc |w - ∫ t in x0..x, f t| * (1 / (2 * Real.pi)) ≤ h / 2 * |f x - f x0| * (1 / (2 * Real.pi)) :=
          mul_le_mul_of_nonneg_right this (by positivity)
      _ = h / (4 * Real.pi) * |f x - f x0| := by field_simp; ring

/-- Non-vacuity: three fluxes in falling order with steps of one half, and a safety factor rising outwards. -/
example : ([1, 1 / 2, 0] : List ℝ).Pairwise (· ≥ ·) ∧ ([1, 1 / 2, 0] : List ℝ).IsChain (fun u v => |v - u| ≤ 1 / 2) ∧
    AntitoneOn (fun psi : ℝ => 1 + 2 * ((psi - 1) / (0 - 1))) Set.univ := by
  refine ⟨by norm_num, ?_, fun x _ y _ h => by norm_num; linarith⟩
  simp only [List.isChain_cons_cons, List.isChain_singleton, and_true]
  constructor <;> norm_num [abs_le]

end FreeGS.Global
