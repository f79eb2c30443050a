import Verif.Spec.Resize
import Verif.Lemmas.Scaling
import Verif.Lemmas.Control
import Verif.Props.CriticalMore

/-!
# Lemmas about equilibria in another size
-/

set_option linter.unusedSectionVars false

namespace FreeGS

variable {K : Type*} [Field K] [LinearOrder K]

/-! ## The machine -/

theorem AnyCoil.response_resize {e : Env K} {l c : K} {q : Quantity} (hG : ScalesBy l c (e.G q)) (R Z : K) (x : AnyCoil K)
    (hx : x.Resizable) : (x.resize l).response e q (l * R) (l * Z) = c * x.response e q R Z := by
  cases x with
  | point x => simp only [resize, response, PointCoil.response, hG _ _ _ _, mul_assoc]
  | shaped x =>
    simp only [resize, response, ShapedCoil.response, List.map_map, Function.comp_def, hG _ _ _ _]
    rw [← mul_assoc, ← List.sum_map_mul_left]
    simp only [mul_assoc]
  | filament x =>
    simp only [resize, response, FilamentCoil.response, List.map_map, Function.comp_def, hG _ _ _ _, List.sum_map_mul_left]
    ring
  | multi x =>
    have hz : (x.Rfil.map (l * ·)).zip (x.Zfil.map (l * ·)) = (x.Rfil.zip x.Zfil).map fun p => (l * p.1, l * p.2) := by
      rw [List.zip_map]; rfl
    have hn : ∀ z : K, -(l * z) = l * -z := fun z => by ring
    simp only [resize, response, MultiCoil.response, hz, List.map_map, Function.comp_def, hn, hG _ _ _ _, mul_assoc, List.sum_map_mul_left]
    split
    · rw [mul_add]
    · rfl
  | precalc x => exact hx.elim

theorem Entry.current_resize (l : K) (x : Entry K) : (x.resize l).current = x.current := by
  cases x with
  | coil c => cases c <;> rfl
  | _ => rfl

theorem Entry.control_resize (l : K) (x : Entry K) : (x.resize l).control = x.control := by
  cases x with
  | coil c => cases c <;> rfl
  | _ => rfl

theorem linspace_resize (l a b : K) (n : ℕ) : linspace (l * a) (l * b) n = (linspace a b n).map (l * ·) := by
  unfold linspace
  split
  · rfl
  · rw [List.map_map]
    refine List.map_congr_left fun i _ => ?_
    simp only [Function.comp_def]
    ring

theorem Entry.response_resize {e : Env K} {l c : K} {q : Quantity} (hG : ScalesBy l c (e.G q)) (R Z : K) (x : Entry K)
    (hx : match x with
      | .coil c => c.Resizable
      | .circuit k => ∀ y ∈ k.coils, y.2.1.Resizable
      | .solenoid _ => True) :
    (x.resize l).response e q (l * R) (l * Z) = c * x.response e q R Z := by
  cases x with
  | coil y => exact AnyCoil.response_resize hG R Z y hx
  | circuit k =>
    simp only [resize, response, Circuit.response_eq, List.map_map, Function.comp_def, ← List.sum_map_mul_left]
    refine congrArg List.sum (List.map_congr_left fun y hy => ?_)
    rw [AnyCoil.response_resize hG R Z _ (hx y hy)]
    ring
  | solenoid s =>
    simp only [resize, response, Solenoid.response_eq, linspace_resize, List.map_map, Function.comp_def, hG _ _ _ _, List.sum_map_mul_left]

theorem Machine.field_resize {e : Env K} {l c : K} {q : Quantity} (hG : ScalesBy l c (e.G q)) (R Z : K) (m : Machine K) (hm : m.Resizable) :
    ((m.resize l).field e q (l * R) (l * Z)).1 = c * (m.field e q R Z).1 := by
  simp only [Machine.field_fst, resize, List.map_map, Function.comp_def, Entry.current_resize, ← List.sum_map_mul_left]
  refine congrArg List.sum (List.map_congr_left fun x hx => ?_)
  rw [Entry.response_resize hG R Z x.2 (hm x hx)]
  ring

theorem Machine.controlResponse_resize {e : Env K} {l c : K} {q : Quantity} (hG : ScalesBy l c (e.G q)) (R Z : K) (m : Machine K)
    (hm : m.Resizable) : (m.resize l).controlResponse e q (l * R) (l * Z) = (m.controlResponse e q R Z).map (c * ·) := by
  simp only [controlResponse, resize, List.filter_map, Function.comp_def, Entry.control_resize, List.map_map]
  exact List.map_congr_left fun x hx => Entry.response_resize hG R Z x.2 (hm x (List.mem_of_mem_filter hx))

theorem Machine.controlCurrents_resize (l : K) (m : Machine K) : (m.resize l).controlCurrents = m.controlCurrents := by
  simp only [controlCurrents, resize, List.filter_map, Function.comp_def, Entry.control_resize, List.map_map, Entry.current_resize]

theorem AnyCoil.setCurrent_resize (l v : K) (c : AnyCoil K) : (c.resize l).setCurrent v = (c.setCurrent v).resize l := by
  cases c <;> rfl

theorem Entry.setCurrent_resize (l v : K) (x : Entry K) : (x.resize l).setCurrent v = (x.setCurrent v).resize l := by
  cases x with
  | coil c => cases c <;> rfl
  | circuit k => simp only [resize, setCurrent, Circuit.setCurrent, List.map_map, Function.comp_def, AnyCoil.setCurrent_resize]
  | solenoid s => rfl

theorem Entry.sync_resize (l : K) (x : Entry K) : (x.resize l).sync = x.sync.resize l := by
  cases x with
  | coil c => cases c <;> rfl
  | circuit k => simp only [resize, sync, Circuit.sync, List.map_map, Function.comp_def, AnyCoil.setCurrent_resize]
  | solenoid s => rfl

theorem Machine.sync_resize (l : K) (m : Machine K) : (m.resize l).sync = m.sync.resize l := by
  simp only [resize, sync, List.map_map, Function.comp_def, Entry.sync_resize]

theorem Machine.zipControl_resize (l : K) (f : K → K → K) : ∀ (cs : List (String × Entry K)) (v : List K),
    zipControl f (cs.map fun x => (x.1, x.2.resize l)) v = (zipControl f cs v).map fun x => (x.1, x.2.resize l)
  | [], _ => rfl
  | (s, x) :: cs, v => by
    cases hc : x.control with
    | false =>
      rw [zipControl_false _ _ _ _ hc, List.map_cons, zipControl_false _ _ _ _ (by rw [Entry.control_resize]; exact hc),
        zipControl_resize l f cs v, List.map_cons]
    | true =>
      cases v with
      | nil => rw [zipControl_true_nil _ _ _ hc, List.map_cons, zipControl_true_nil _ _ _ (by rw [Entry.control_resize]; exact hc)]
      | cons v vs =>
        rw [zipControl_true_cons _ _ _ _ _ hc, List.map_cons, zipControl_true_cons _ _ _ _ _ (by rw [Entry.control_resize]; exact hc),
          zipControl_resize l f cs vs, List.map_cons, Entry.current_resize, Entry.setCurrent_resize]

end FreeGS

/-! ## Critical points -/

namespace FreeGS.Critical

variable {K : Type*} [Field K] [LinearOrder K]

open FreeGS.Equil (resizePoint)

theorem newtonWith_code (f : Spline K) (r R0 Z0 : K) : ∀ k R1 Z1, newtonWith (1 / 1000000) f r R0 Z0 k R1 Z1 = newton f r R0 Z0 k R1 Z1
  | 0, R1, Z1 => by rw [newtonWith, newton]
  | k + 1, R1, Z1 => by
    rw [newtonWith, newton]
    simp only [newtonWith_code f r R0 Z0 k]
    rfl

theorem candidatesWith_code (g : Mesh K) (f : Spline K) (psi : ℕ × ℕ → K) : ∀ cs, candidatesWith (1 / 1000000) g f psi cs = candidates g f psi cs
  | [] => rfl
  | (i, j) :: cs => by
    simp only [candidatesWith, candidates, candidatesWith_code g f psi cs, candidateWith, candidate, newtonWith_code]
    rfl

theorem removeDupLoopWith_code : ∀ (ps result : List (Point K)), removeDupLoopWith (1 / 100000) result ps = removeDupLoop result ps
  | [], _ => rfl
  | p :: ps, result => by
    simp only [removeDupLoopWith, removeDupLoop, removeDupLoopWith_code ps]

/-- With the numbers of the code, the search is that of the code. -/
theorem findCriticalWith_code (g : Mesh K) (f : Spline K) (psi : ℕ × ℕ → K) (discard : Bool) :
    findCriticalWith codeTolerances g f psi discard = findCritical g f psi discard := by
  simp only [findCriticalWith, findCritical, codeTolerances, candidatesWith_code, removeDupLoopWith_code, removeDup]
  rfl

variable [IsStrictOrderedRing K] {l : K} {f f' : Spline K}

theorem Spline.Resized.Br (h : Spline.Resized l f f') (hl : l ≠ 0) (R Z : K) : f'.Br (l * R) (l * Z) = f.Br R Z / l := by
  rw [Spline.Br, Spline.Br, h.dZ, mul_comm l R, div_mul_eq_div_div]

theorem Spline.Resized.Bz (h : Spline.Resized l f f') (hl : l ≠ 0) (R Z : K) : f'.Bz (l * R) (l * Z) = f.Bz R Z / l := by
  rw [Spline.Bz, Spline.Bz, h.dR, mul_comm l R, div_mul_eq_div_div]

theorem newtonStep_resize (h : Spline.Resized l f f') (hl : l ≠ 0) (R Z : K) :
    newtonStep f' (l * R) (l * Z) = (newtonStep f R Z).map fun p => (l * p.1, l * p.2) := by
  simp only [newtonStep, h.Br hl, h.Bz hl, h.dRR, h.dRZ, h.dZZ]
  generalize f.Br R Z = b
  generalize f.Bz R Z = d
  generalize f.dRR R Z = u
  generalize f.dRZ R Z = v
  generalize f.dZZ R Z = w
  have e1 : -(b / l) / (l * R) - v / l / (l * R) = (-b / R - v / R) / l ^ 2 := by
    by_cases hR : R = 0
    · simp [hR]
    · field_simp
  have e2 : v / l / (l * R) = v / R / l ^ 2 := by
    by_cases hR : R = 0
    · simp [hR]
    · field_simp
  have e3 : -(w / l) / (l * R) = -w / R / l ^ 2 := by
    by_cases hR : R = 0
    · simp [hR]
    · field_simp
  have e4 : -(d / l) / (l * R) + u / l / (l * R) = (-d / R + u / R) / l ^ 2 := by
    by_cases hR : R = 0
    · simp [hR]
    · field_simp
  rw [e1, e2, e3, e4]
  generalize -b / R - v / R = a00
  generalize v / R = a11
  generalize -w / R = a01
  generalize -d / R + u / R = a10
  have ed : a00 / l ^ 2 * (a11 / l ^ 2) - a01 / l ^ 2 * (a10 / l ^ 2) = (a00 * a11 - a01 * a10) / l ^ 4 := by field_simp
  rw [ed]
  by_cases h0 : a00 * a11 - a01 * a10 = 0
  · rw [if_pos h0, h0, zero_div, if_pos rfl]
    rfl
  · rw [if_neg h0, if_neg (div_ne_zero h0 (pow_ne_zero 4 hl))]
    simp only [Except.map, Except.ok.injEq, Prod.mk.injEq]
    constructor <;> field_simp

theorem newton_resize (h : Spline.Resized l f f') (hl : 0 < l) (tol r R0 Z0 : K) : ∀ k R1 Z1,
    newtonWith (tol / l ^ 2) f' (l ^ 2 * r) (l * R0) (l * Z0) k (l * R1) (l * Z1) =
      (newtonWith tol f r R0 Z0 k R1 Z1).map fun o => o.map fun p => (l * p.1, l * p.2) := by
  have hl0 := hl.ne'
  have hl2 : 0 < l ^ 2 := by positivity
  have hB : ∀ R Z, (f'.Br (l * R) (l * Z) ^ 2 + f'.Bz (l * R) (l * Z) ^ 2 < tol / l ^ 2) = (f.Br R Z ^ 2 + f.Bz R Z ^ 2 < tol) := by
    intro R Z
    rw [h.Br hl0, h.Bz hl0, div_pow, div_pow, ← add_div, div_lt_div_iff_of_pos_right hl2]
  have hd : ∀ R2 Z2, ((l * R2 - l * R0) ^ 2 + (l * Z2 - l * Z0) ^ 2 > l ^ 2 * r) = ((R2 - R0) ^ 2 + (Z2 - Z0) ^ 2 > r) := by
    intro R2 Z2
    have : (l * R2 - l * R0) ^ 2 + (l * Z2 - l * Z0) ^ 2 = l ^ 2 * ((R2 - R0) ^ 2 + (Z2 - Z0) ^ 2) := by ring
    rw [this, gt_iff_lt, mul_lt_mul_iff_right₀ hl2]
  have h0 : ∀ R1 : K, (l * R1 = 0) = (R1 = 0) := fun R1 => by simp [hl0]
  intro k
  induction k with
  | zero =>
    intro R1 Z1
    rw [newtonWith, newtonWith]
    simp only [hB, h0]
    split_ifs <;> rfl
  | succ k ih =>
    intro R1 Z1
    rw [newtonWith, newtonWith]
    simp only [hB, h0, newtonStep_resize h hl0]
    split_ifs
    · rfl
    · rfl
    · cases newtonStep f R1 Z1 with
      | error err => rfl
      | ok p =>
        simp only [Except.map, hd]
        split_ifs
        · rfl
        · rw [ih]; rfl

theorem discriminant_resize (hl : 0 < l) {g g' : Mesh K} (hR : ∀ i, g'.R i = l * g.R i) (hZ : ∀ j, g'.Z j = l * g.Z j) (P : ℕ × ℕ → K) (i j : ℕ) :
    (discriminant g' (FreeGS.Equil.times l P) i j < 0) = (discriminant g P i j < 0) := by
  have : discriminant g' (FreeGS.Equil.times l P) i j = discriminant g P i j / l ^ 2 := by
    simp only [discriminant, hR, hZ, FreeGS.Equil.times, ← mul_sub]
    have key : ∀ a b A B C D E : K, (l * A - 2 * (l * B) + l * C) / (2 * (l * a)) ^ 2 * ((l * D - 2 * (l * B) + l * E) / (2 * (l * b)) ^ 2) =
        (A - 2 * B + C) / (2 * a) ^ 2 * ((D - 2 * B + E) / (2 * b) ^ 2) / l ^ 2 := by
      intro a b A B C D E
      have e1 : (l * A - 2 * (l * B) + l * C) / (2 * (l * a)) ^ 2 = (A - 2 * B + C) / (2 * a) ^ 2 / l := by
        rw [show l * A - 2 * (l * B) + l * C = l * (A - 2 * B + C) by ring, show (2 * (l * a)) ^ 2 = l * ((2 * a) ^ 2 * l) by ring,
          mul_div_mul_left _ _ hl.ne', div_mul_eq_div_div]
      have e2 : (l * D - 2 * (l * B) + l * E) / (2 * (l * b)) ^ 2 = (D - 2 * B + E) / (2 * b) ^ 2 / l := by
        rw [show l * D - 2 * (l * B) + l * E = l * (D - 2 * B + E) by ring, show (2 * (l * b)) ^ 2 = l * ((2 * b) ^ 2 * l) by ring,
          mul_div_mul_left _ _ hl.ne', div_mul_eq_div_div]
      rw [e1, e2]
      ring
    have key2 : ∀ a b A B : K, ((l * A / (4 * (l * b)) - l * B / (4 * (l * b))) / (4 * (l * a))) ^ 2 =
        ((A / (4 * b) - B / (4 * b)) / (4 * a)) ^ 2 / l ^ 2 := by
      intro a b A B
      rw [show 4 * (l * b) = l * (4 * b) by ring, mul_div_mul_left _ _ hl.ne', mul_div_mul_left _ _ hl.ne', show 4 * (l * a) = 4 * a * l by ring,
        div_mul_eq_div_div, div_pow _ l]
    rw [key, key2, ← sub_div]
  rw [this]
  have hl2 : 0 < l ^ 2 := by positivity
  rw [div_lt_iff₀ hl2, zero_mul]

theorem candidate_resize (h : Spline.Resized l f f') (hl : 0 < l) {g g' : Mesh K} (hR : ∀ i, g'.R i = l * g.R i)
    (hZ : ∀ j, g'.Z j = l * g.Z j) (tol : K) (P : ℕ × ℕ → K) (i j : ℕ) :
    candidateWith (tol / l ^ 2) g' f' (FreeGS.Equil.times l P) i j =
      (candidateWith tol g f P i j).map fun o => o.map fun q => (q.1, resizePoint l q.2) := by
  have hl2 : 0 < l ^ 2 := by positivity
  have hb : ∀ i j, f'.Bp2 (g'.R i) (g'.Z j) = f.Bp2 (g.R i) (g.Z j) / l ^ 2 := by
    intro i j
    rw [hR, hZ, Spline.Bp2, Spline.Bp2, h.dR, h.dZ, mul_pow, mul_comm (l ^ 2), div_mul_eq_div_div]
  have hm : isLocalMin (fun i j => f'.Bp2 (g'.R i) (g'.Z j)) i j = isLocalMin (fun i j => f.Bp2 (g.R i) (g.Z j)) i j := by
    simp only [isLocalMin, hb, div_lt_div_iff_of_pos_right hl2]
  have hr : 9 * ((g'.R 1 - g'.R 0) ^ 2 + (g'.Z 1 - g'.Z 0) ^ 2) = l ^ 2 * (9 * ((g.R 1 - g.R 0) ^ 2 + (g.Z 1 - g.Z 0) ^ 2)) := by
    rw [hR, hR, hZ, hZ]; ring
  rw [candidateWith, candidateWith, hm]
  simp only [hr, discriminant_resize hl hR hZ]
  rw [hR, hZ, newton_resize h hl]
  split
  · cases newtonWith tol f (9 * ((g.R 1 - g.R 0) ^ 2 + (g.Z 1 - g.Z 0) ^ 2)) (g.R i) (g.Z j) 101 (g.R i) (g.Z j) with
    | error e => rfl
    | ok o =>
      cases o with
      | none => rfl
      | some p => simp [Except.map, resizePoint, h.flux]
  · rfl

theorem candidates_resize (h : Spline.Resized l f f') (hl : 0 < l) {g g' : Mesh K} (hR : ∀ i, g'.R i = l * g.R i)
    (hZ : ∀ j, g'.Z j = l * g.Z j) (tol : K) (P : ℕ × ℕ → K) : ∀ cells : List (ℕ × ℕ),
    candidatesWith (tol / l ^ 2) g' f' (FreeGS.Equil.times l P) cells =
      (candidatesWith tol g f P cells).map fun cs => cs.map fun q => (q.1, resizePoint l q.2) := by
  intro cells
  induction cells with
  | nil => rfl
  | cons a cells ih =>
    obtain ⟨i, j⟩ := a
    rw [candidatesWith, candidatesWith, candidate_resize h hl hR hZ, ih]
    cases candidateWith tol g f P i j with
    | error e => rfl
    | ok o =>
      simp only [Except.map]
      cases candidatesWith tol g f P cells with
      | error e => rfl
      | ok l => cases o <;> rfl

theorem removeDup_resize (hl : 0 < l) (tol : K) : ∀ ps result : List (Point K),
    removeDupLoopWith (l ^ 2 * tol) (result.map (resizePoint l)) (ps.map (resizePoint l)) =
      (removeDupLoopWith tol result ps).map (resizePoint l) := by
  have hl2 : 0 < l ^ 2 := by positivity
  intro ps
  induction ps with
  | nil => intro result; rfl
  | cons p ps ih =>
    intro result
    have hd : ∀ q : Point K, (dist2 (resizePoint l p) (resizePoint l q) < l ^ 2 * tol) = (dist2 p q < tol) := by
      intro q
      have : dist2 (resizePoint l p) (resizePoint l q) = l ^ 2 * dist2 p q := by simp only [dist2, resizePoint]; ring
      rw [this, mul_lt_mul_iff_right₀ hl2]
    have ha : ((result.map (resizePoint l)).any fun p2 => decide (dist2 (resizePoint l p) p2 < l ^ 2 * tol)) =
        result.any fun p2 => decide (dist2 p p2 < tol) := by
      rw [List.any_map]; congr 1; funext q; simp only [Function.comp, hd]
    rw [List.map_cons, removeDupLoopWith, removeDupLoopWith, ha]
    split
    · exact ih result
    · rw [← ih]; simp

theorem sortBy_pos {c : K} (hc : 0 < c) (T : Point K → Point K) (key key' : Point K → K) (hk : ∀ p, key' (T p) = c * key p) (ps : List (Point K)) :
    sortBy key' (ps.map T) = (sortBy key ps).map T := by
  rw [sortBy, sortBy]
  refine (List.map_insertionSort (fun a b => key a ≤ key b) (fun a b => key' a ≤ key' b) T ps fun a _ b _ => ?_).symm
  simp only [hk, mul_le_mul_iff_right₀ hc]

theorem maxLoop_pos {c : K} (hc : 0 < c) (p : ℕ → K) : ∀ n, maxLoop (fun k => c * p k) n = c * maxLoop p n
  | 0 => rfl
  | n + 1 => by rw [maxLoop, maxLoop, maxLoop_pos hc p n, mul_max_of_nonneg _ _ hc.le]

theorem argminLoop_pos {c : K} (hc : 0 < c) (p : ℕ → K) : ∀ k i b, argminLoop (fun k => c * p k) k i b = argminLoop p k i b
  | 0, _, _ => rfl
  | k + 1, i, b => by rw [argminLoop, argminLoop, argminLoop_pos hc p k]; simp only [mul_lt_mul_iff_right₀ hc]

theorem nearest_pos (hl : 0 < l) (x x' : ℕ → K) (hx : ∀ i, x' i = l * x i) (n : ℕ) (v : K) : nearest x' n (l * v) = nearest x n v := by
  simp only [nearest, argmin, hx, ← mul_sub, abs_mul, abs_of_pos hl]
  exact argminLoop_pos hl _ _ _ _

theorem keepX_resize (h : Spline.Resized l f f') (hl : 0 < l) (tol : K) (o x : Point K) :
    keepXWith (l ^ 2 * tol) f' (resizePoint l o) (resizePoint l x) = keepXWith tol f o x := by
  have hl2 : 0 < l ^ 2 := by positivity
  have hlin : ∀ a b : K, linspaceAt (l * a) (l * b) 50 = fun k => l * linspaceAt a b 50 k := by
    intro a b; funext k; simp only [linspaceAt_50]; ring
  have hp : (if (resizePoint l x).2.2 < (resizePoint l o).2.2 then
        (fun k => f'.f (linspaceAt (resizePoint l o).1 (resizePoint l x).1 50 k)
          (linspaceAt (resizePoint l o).2.1 (resizePoint l x).2.1 50 k) * -1)
      else fun k => f'.f (linspaceAt (resizePoint l o).1 (resizePoint l x).1 50 k)
          (linspaceAt (resizePoint l o).2.1 (resizePoint l x).2.1 50 k)) =
      fun k => l * (if x.2.2 < o.2.2 then
        (fun k => f.f (linspaceAt o.1 x.1 50 k) (linspaceAt o.2.1 x.2.1 50 k) * -1)
      else fun k => f.f (linspaceAt o.1 x.1 50 k) (linspaceAt o.2.1 x.2.1 50 k)) k := by
    simp only [resizePoint, hlin, h.flux, mul_lt_mul_iff_right₀ hl]
    split
    · funext k; ring
    · rfl
  simp only [keepXWith]
  rw [hp]
  generalize (if x.2.2 < o.2.2 then
        (fun k => f.f (linspaceAt o.1 x.1 50 k) (linspaceAt o.2.1 x.2.1 50 k) * -1)
      else fun k => f.f (linspaceAt o.1 x.1 50 k) (linspaceAt o.2.1 x.2.1 50 k)) = p
  rw [maxLoop_pos hl, argmin, argmin, argminLoop_pos hl]
  have e1 : ∀ a b : K, (l * a - l * b = 0) = (a - b = 0) := fun a b => by rw [← mul_sub]; simp [hl.ne']
  have e2 : ∀ a b : K, (l * a - l * b > 0) = (a - b > 0) := fun a b => by rw [← mul_sub]; simp [hl]
  have e3 : ∀ a b c d : K, (l * a - l * b) / (l * c - l * d) = (a - b) / (c - d) := fun a b c d => by
    rw [← mul_sub, ← mul_sub, mul_div_mul_left _ _ hl.ne']
  have e4 : ∀ a b c d : K, ((l * a - l * b) ^ 2 + (l * c - l * d) ^ 2 > l ^ 2 * tol) = ((a - b) ^ 2 + (c - d) ^ 2 > tol) := fun a b c d => by
    rw [show (l * a - l * b) ^ 2 + (l * c - l * d) ^ 2 = l ^ 2 * ((a - b) ^ 2 + (c - d) ^ 2) by ring, gt_iff_lt, mul_lt_mul_iff_right₀ hl2]
  simp only [resizePoint, hlin, e1, e2, e3, e4]

/-- All of the search at once. -/
theorem findCritical_resize (h : Spline.Resized l f f') (hl : 0 < l) {g g' : Mesh K} (hnx : g'.nx = g.nx) (hny : g'.ny = g.ny)
    (hR : ∀ i, g'.R i = l * g.R i) (hZ : ∀ j, g'.Z j = l * g.Z j) (t : Tolerances K) (P : ℕ × ℕ → K) (discard : Bool) :
    findCriticalWith (t.resize l) g' f' (FreeGS.Equil.times l P) discard =
      (findCriticalWith t g f P discard).map fun r => (r.1.map (resizePoint l), r.2.map (resizePoint l)) := by
  have hl2 : 0 < l ^ 2 := by positivity
  have hfil : ∀ (b : Bool) (cs : List (Bool × Point K)),
      ((cs.map fun q => (q.1, resizePoint l q.2)).filter fun q => q.1 == b).map Prod.snd =
        ((cs.filter fun q => q.1 == b).map Prod.snd).map (resizePoint l) := by
    intro b cs
    rw [List.filter_map, List.map_map, List.map_map]
    rfl
  have eT : (fun q : Bool × Point K => q.1) = fun q => q.1 == true := by funext q; simp
  have eF : (fun q : Bool × Point K => !q.1) = fun q => q.1 == false := by funext q; simp
  have hdup : ∀ ps : List (Point K), removeDupLoopWith (l ^ 2 * t.duplicate) [] (ps.map (resizePoint l)) =
      (removeDupLoopWith t.duplicate [] ps).map (resizePoint l) := fun ps => removeDup_resize hl t.duplicate ps []
  simp only [findCriticalWith, Tolerances.resize]
  rw [hnx, hny, candidates_resize h hl hR hZ]
  cases candidatesWith t.field g f P (interior g.nx g.ny) with
  | error e => rfl
  | ok cs =>
    simp only [Except.map, eT, eF, hfil, hdup]
    generalize removeDupLoopWith t.duplicate [] ((cs.filter fun q => q.1 == false).map Prod.snd) = ol
    generalize removeDupLoopWith t.duplicate [] ((cs.filter fun q => q.1 == true).map Prod.snd) = xl
    cases ol with
    | nil => rfl
    | cons o os =>
      simp only [List.map_cons]
      rw [← List.map_cons]
      have hkey : ∀ p : Point K, ((resizePoint l p).1 - 1 / 2 * (g'.R (g.nx - 1) + g'.R 0)) ^ 2 +
          ((resizePoint l p).2.1 - 1 / 2 * (g'.Z (g.ny - 1) + g'.Z 0)) ^ 2 =
          l ^ 2 * ((p.1 - 1 / 2 * (g.R (g.nx - 1) + g.R 0)) ^ 2 + (p.2.1 - 1 / 2 * (g.Z (g.ny - 1) + g.Z 0)) ^ 2) := by
        intro p; simp only [resizePoint, hR, hZ]; ring
      rw [sortBy_pos hl2 (resizePoint l) _ _ hkey]
      cases sortBy (fun p : Point K => (p.1 - 1 / 2 * (g.R (g.nx - 1) + g.R 0)) ^ 2 +
          (p.2.1 - 1 / 2 * (g.Z (g.ny - 1) + g.Z 0)) ^ 2) (o :: os) with
      | nil => rfl
      | cons o1 os1 =>
        simp only [List.map_cons, Except.ok.injEq, Prod.mk.injEq, true_and]
        have hf : (if discard = true then (xl.map (resizePoint l)).filter (keepXWith (l ^ 2 * t.line) f' (resizePoint l o1))
            else xl.map (resizePoint l)) = (if discard = true then xl.filter (keepXWith t.line f o1) else xl).map (resizePoint l) := by
          split
          · rw [List.filter_map]
            congr 2
            funext x
            exact keepX_resize h hl t.line o1 x
          · rfl
        rw [hf]
        refine sortBy_pos hl2 (resizePoint l) _ _ (fun p => ?_) _
        simp only [resizePoint]
        ring

end FreeGS.Critical
