import Verif.Model.Trace
import Verif.Props.FieldLines
import Verif.Props.FieldTracer
import Verif.Props.Surface

set_option linter.unusedSectionVars false

/-!
# Following many field lines (C118)
-/

namespace FreeGS.Tracer

open FreeGS.Critical (Domain linspaceAt findPsiSurface)
open Set

variable {K : Type*} [Field K] [LinearOrder K] [IsStrictOrderedRing K]

/-! ### Layout of the flat vector -/

theorem flatten3_cons (p : K × K × K) (l : List (K × K × K)) : flatten3 (p :: l) = p.1 :: p.2.1 :: p.2.2 :: flatten3 l := by
  simp [flatten3]

theorem chunk3_flatten3 (l : List (K × K × K)) : chunk3 (flatten3 l) = l := by
  induction l with
  | nil => rfl
  | cons p l ih => rw [flatten3_cons, chunk3, ih]

theorem flatten3_length (l : List (K × K × K)) : (flatten3 l).length = 3 * l.length := by
  induction l with
  | nil => rfl
  | cons p l ih => rw [flatten3_cons]; simp only [List.length_cons, ih]; omega

theorem chunk3_get : ∀ (n : ℕ) (y : List K), y.length = 3 * n → (chunk3 y).length = n ∧ ∀ k < n,
    (chunk3 y)[k]? = some (y.getD (3 * k) 0, y.getD (3 * k + 1) 0, y.getD (3 * k + 2) 0)
  | 0, y, h => by
    have : y = [] := List.eq_nil_of_length_eq_zero (by omega)
    subst this
    exact ⟨rfl, fun k hk => absurd hk (by omega)⟩
  | n + 1, y, h => by
    match y, h with
    | a :: b :: c :: rest, h =>
      simp only [List.length_cons] at h
      obtain ⟨h1, h2⟩ := chunk3_get n rest (by omega)
      refine ⟨by simp [chunk3, h1], fun k hk => ?_⟩
      cases k with
      | zero => simp [chunk3]
      | succ k =>
        have := h2 k (by omega)
        rw [chunk3, List.getElem?_cons_succ, this]
        simp [show 3 * (k + 1) = 3 * k + 3 by ring, List.getElem?_cons_succ]
    | [], h => simp at h
    | [a], h => simp only [List.length_cons, List.length_nil] at h; omega
    | [a, b], h => simp only [List.length_cons, List.length_nil] at h; omega

theorem gather_ok {l : List (Except Err (K × K × K))} : ∀ {vs : List (K × K × K)}, gather l = .ok vs → l = vs.map Except.ok := by
  induction l with
  | nil => intro vs h; simp only [gather, Except.ok.injEq] at h; rw [← h]; rfl
  | cons x xs ih =>
    intro vs h
    cases x with
    | error e => cases hg : gather xs <;> simp [gather, hg] at h
    | ok v =>
      cases hg : gather xs with
      | error e => simp [gather, hg] at h
      | ok ws =>
        simp only [gather, hg, Except.ok.injEq] at h
        rw [← h, ih hg]
        rfl

/-- What a successful evaluation returns for each line. -/
theorem callback_ok {eq : Eq K} {b : Bool} {n : ℕ} {y ev d ev' : List K} (hy : y.length = 3 * n) (hev : ev.length = n)
    (h : callback eq b [n] y ev = .ok (d, ev')) : d.length = 3 * n ∧ ev'.length = n ∧ ∀ k < n,
      ev'[k]? = some (updateEvolving eq (y.getD (3 * k) 0) (y.getD (3 * k + 1) 0) (ev.getD k 0)) ∧
      rates eq b (y.getD (3 * k) 0) (y.getD (3 * k + 1) 0) (ev'.getD k 0) =
        .ok (d.getD (3 * k) 0, d.getD (3 * k + 1) 0, d.getD (3 * k + 2) 0) := by
  obtain ⟨hl, hg⟩ := chunk3_get n y hy
  unfold callback at h
  simp only [List.head?_cons, hl, ne_eq, not_true_eq_false, if_false, List.length_cons, List.length_nil, zero_add, false_and] at h
  cases hga : gather (fieldDirection eq b ((chunk3 y).map fun p => (p.1, p.2.1)) ev).1 with
  | error e => simp [hga] at h
  | ok v =>
    simp only [hga, Except.ok.injEq, Prod.mk.injEq] at h
    obtain ⟨rfl, rfl⟩ := h
    have hr := gather_ok hga
    have hpl : ((chunk3 y).map fun p : K × K × K => (p.1, p.2.1)).length = n := by simp [hl]
    have hl2 : (fieldDirection eq b ((chunk3 y).map fun p => (p.1, p.2.1)) ev).2.length = n := by simp [fieldDirection, hl, hev]
    have hvl : v.length = n := by
      have := congrArg List.length hr
      simp only [fieldDirection, List.length_zipWith, List.length_map, hl, hev] at this
      omega
    refine ⟨by rw [flatten3_length, hvl], hl2, fun k hk => ?_⟩
    have hpk : ((chunk3 y).map fun p : K × K × K => (p.1, p.2.1))[k]? = some (y.getD (3 * k) 0, y.getD (3 * k + 1) 0) := by
      rw [List.getElem?_map, hg k hk]; rfl
    have hek : ev[k]? = some (ev.getD k 0) := by
      rw [List.getD_eq_getElem?_getD, List.getElem?_eq_getElem (by omega)]; rfl
    have h2 : (fieldDirection eq b ((chunk3 y).map fun p => (p.1, p.2.1)) ev).2[k]? =
        some (updateEvolving eq (y.getD (3 * k) 0) (y.getD (3 * k + 1) 0) (ev.getD k 0)) := by
      simp only [fieldDirection, List.getElem?_zipWith, hpk, hek]
    refine ⟨h2, ?_⟩
    have h3 : (fieldDirection eq b ((chunk3 y).map fun p => (p.1, p.2.1)) ev).1[k]? =
        some (rates eq b (y.getD (3 * k) 0) (y.getD (3 * k + 1) 0)
          ((fieldDirection eq b ((chunk3 y).map fun p => (p.1, p.2.1)) ev).2.getD k 0)) := by
      have hgd : (fieldDirection eq b ((chunk3 y).map fun p => (p.1, p.2.1)) ev).2.getD k 0 =
          updateEvolving eq (y.getD (3 * k) 0) (y.getD (3 * k + 1) 0) (ev.getD k 0) := by
        rw [List.getD_eq_getElem?_getD, h2]; rfl
      rw [hgd]
      have h2' := h2
      simp only [fieldDirection] at h2' ⊢
      rw [List.getElem?_zipWith, hpk, h2']
    rw [hr, List.getElem?_map] at h3
    obtain ⟨-, hv⟩ := chunk3_get n (flatten3 v) (by rw [flatten3_length, hvl])
    have hvk := hv k hk
    rw [chunk3_flatten3] at hvk
    rw [hvk] at h3
    exact (Option.some.inj h3).symm

theorem startVector_get {R Z : List K} {n : ℕ} (hR : R.length = n) (hZ : Z.length = n) : (startVector R Z).length = 3 * n ∧ ∀ k < n,
    (startVector R Z).getD (3 * k) 0 = R.getD k 0 ∧ (startVector R Z).getD (3 * k + 1) 0 = Z.getD k 0 ∧
      (startVector R Z).getD (3 * k + 2) 0 = 0 := by
  have hlen : (startVector R Z).length = 3 * n := by rw [startVector, flatten3_length]; simp [hR, hZ]
  refine ⟨hlen, fun k hk => ?_⟩
  have h := (chunk3_get n (startVector R Z) hlen).2 k hk
  rw [startVector, chunk3_flatten3, ← startVector, List.getElem?_zipWith, List.getElem?_eq_getElem (by omega : k < R.length),
    List.getElem?_eq_getElem (by omega : k < Z.length)] at h
  simp only [Option.some.injEq, Prod.mk.injEq] at h
  obtain ⟨h1, h2, h3⟩ := h
  refine ⟨?_, ?_, h3.symm⟩
  · rw [← h1, List.getD_eq_getElem?_getD, List.getElem?_eq_getElem (by omega : k < R.length)]; rfl
  · rw [← h2, List.getD_eq_getElem?_getD, List.getElem?_eq_getElem (by omega : k < Z.length)]; rfl

/-! ### Specification of the integrator -/

/-- What `odeint` returns has a row for each angle, each as long as the start, and the first row is the start. -/
def Rows (y0 angles : List K) (rows : List (List K)) : Prop :=
  rows.length = angles.length ∧ (∀ y ∈ rows, y.length = y0.length) ∧ (angles ≠ [] → rows[0]? = some y0)

/-- `Y` solves the system of equations `f` on `I`, and the flags stay as they are. -/
def Solves (f : List ℝ → List ℝ → Except Err (List ℝ × List ℝ)) (flags : List ℝ) (I : Set ℝ) (Y : ℝ → List ℝ) : Prop :=
  ∀ φ ∈ I, ∃ d, f (Y φ) flags = .ok (d, flags) ∧ ∀ i, HasDerivWithinAt (fun φ => (Y φ).getD i 0) (d.getD i 0) I φ

/-! ### Worked examples -/

/-- An integrator that goes nowhere. -/
def exStill : Ode K := fun _ y0 _ angles => .ok (angles.map fun _ => y0)

theorem exStill_rows : ∀ (f : List K → List K → Except Err (List K × List K)) (y0 ev angles : List K) (rows : List (List K)),
    exStill f y0 ev angles = .ok rows → Rows y0 angles rows := by
  intro f y0 ev angles rows h
  simp only [exStill, Except.ok.injEq] at h
  rw [← h]
  refine ⟨by simp, ?_, ?_⟩
  · intro y hy
    obtain ⟨a, -, rfl⟩ := List.mem_map.mp hy
    rfl
  · intro ha
    cases angles with
    | nil => exact absurd rfl ha
    | cons a t => simp

/-- A vertical and a toroidal field of unit strength in a large domain without wall. -/
noncomputable def exUp : Eq ℝ := ⟨fun _ _ => 0, fun _ _ => 1, fun _ _ => 1, ⟨0, 10, -10, 10⟩, none, fun _ => 2⟩

/-- The lines from `(1, 0)` and `(2, 1)`: radius constant, height and length growing. -/
def exY (φ : ℝ) : List ℝ := [1, φ, 2 * φ, 2, 1 + 2 * φ, 4 * φ]

/-- The integrator that knows them. -/
noncomputable def exOde : Ode ℝ := fun _ _ _ angles => .ok (angles.map exY)

theorem exUp_callback (φ : ℝ) (h0 : 0 ≤ φ) (h1 : φ ≤ 1) :
    callback exUp false [2] (exY φ) (List.replicate 2 1) = .ok ([0, 1, 2, 0, 2, 4], List.replicate 2 1) := by
  have e1 : updateEvolving exUp 1 φ 1 = 1 := by simp only [updateEvolving, exUp, eqDomain]; refine if_neg ?_; rintro (h | h | h | h) <;> linarith
  have e2 : updateEvolving exUp 2 (1 + 2 * φ) 1 = 1 := by simp only [updateEvolving, exUp, eqDomain]; refine if_neg ?_; rintro (h | h | h | h) <;> linarith
  have r1 : rates exUp false 1 φ 1 = .ok (0, 1, 2) := by simp [rates, exUp]
  have r2 : rates exUp false 2 (1 + 2 * φ) 1 = .ok (0, 2, 4) := by simp [rates, exUp]; norm_num
  have hfd : fieldDirection exUp false [(1, φ), (2, 1 + 2 * φ)] [1, 1] = ([.ok (0, 1, 2), .ok (0, 2, 4)], [1, 1]) := by
    simp only [fieldDirection, List.zipWith_cons_cons, List.zipWith_nil_right, e1, e2, r1, r2]
  simp [callback, exY, chunk3, List.replicate, hfd, gather, flatten3]

/-! ### C118 -/

/-- **C118 (shape and first row).** Whatever the integrator does in between, if it returns the start first: `follow` gives for each angle
a list with one entry for each line, and at the first angle line `k` is at its own start, with length zero. -/
theorem C118_starts {ode : Ode K} {eq : Eq K} {b : Bool} {n : ℕ} {R Z angles : List K} (hR : R.length = n) (hZ : Z.length = n)
    (hode : ∀ f y0 ev rows, ode f y0 ev angles = .ok rows → Rows y0 angles rows) {res : List (List (K × K × K))}
    (h : follow ode eq (vector R) (vector Z) angles b = .ok res) :
    res.length = angles.length ∧ (∀ row ∈ res, row.length = n) ∧
      (angles ≠ [] → ∃ row, res[0]? = some row ∧ ∀ k < n, row[k]? = some (R.getD k 0, Z.getD k 0, 0)) := by
  unfold follow at h
  simp only [vector, hR, hZ, ne_eq, not_true_eq_false, if_false] at h
  split at h
  · cases h
  · split at h
    · cases h
    · rename_i rows hrows
      rw [Except.ok.injEq] at h
      obtain ⟨h1, h2, h3⟩ := hode _ _ _ _ hrows
      obtain ⟨hl, hs⟩ := startVector_get hR hZ
      rw [← h]
      refine ⟨by simp [h1], ?_, fun ha => ?_⟩
      · intro row hrow
        obtain ⟨y, hy, rfl⟩ := List.mem_map.mp hrow
        exact (chunk3_get n y (by rw [h2 y hy, hl])).1
      · refine ⟨chunk3 (startVector R Z), by rw [List.getElem?_map, h3 ha]; rfl, fun k hk => ?_⟩
        rw [(chunk3_get n _ hl).2 k hk]
        obtain ⟨e1, e2, e3⟩ := hs k hk
        rw [e1, e2, e3]

example : follow exStill (⟨fun _ _ => 0, fun _ _ => 1, fun _ _ => 1, ⟨0, 10, -10, 10⟩, none, fun _ => 2⟩ : Eq ℚ) (vector [1, 2]) (vector [0, 1])
    [0, 1, 2] false = .ok (List.replicate 3 [(1, 0, 0), (2, 1, 0)]) := by decide +kernel

/-- **C118 (field lines).** If the integrator returns the exact solution of the system it is given, and no line stops, then line `k` of the
result is at every angle on the field line through start `k`: the lines do not get mixed up, and none depends on the others. -/
theorem C118_lines {ode : Ode ℝ} {eq : Eq ℝ} {b : Bool} {n : ℕ} {R Z angles : List ℝ} (hR : R.length = n) (hZ : Z.length = n) {I : Set ℝ}
    {φ0 : ℝ} (hφ0 : φ0 ∈ I) {Y : ℝ → List ℝ} (hY0 : Y φ0 = startVector R Z) (hlen : ∀ φ ∈ I, (Y φ).length = 3 * n)
    (hY : Solves (callback eq b [n]) (List.replicate n 1) I Y)
    (hode : ode (callback eq b [n]) (startVector R Z) (List.replicate n 1) angles = .ok (angles.map Y)) (hang : ∀ φ ∈ angles, φ ∈ I) :
    ∃ res, follow ode eq (vector R) (vector Z) angles b = .ok res ∧ res.length = angles.length ∧ ∀ k < n, ∃ r z l : ℝ → ℝ,
      IsLine eq b I r z l ∧ r φ0 = R.getD k 0 ∧ z φ0 = Z.getD k 0 ∧ l φ0 = 0 ∧
      ∀ (a : ℕ) (φ : ℝ), angles[a]? = some φ → ∃ row, res[a]? = some row ∧ row[k]? = some (r φ, z φ, l φ) := by
  obtain ⟨hl, hs⟩ := startVector_get hR hZ
  obtain ⟨d0, hd0, -⟩ := hY φ0 hφ0
  rw [hY0] at hd0
  refine ⟨(angles.map Y).map chunk3, ?_, by simp, ?_⟩
  · unfold follow
    simp only [vector, hR, hZ, ne_eq, not_true_eq_false, if_false, hd0, hode]
  · intro k hk
    obtain ⟨e1, e2, e3⟩ := hs k hk
    refine ⟨fun φ => (Y φ).getD (3 * k) 0, fun φ => (Y φ).getD (3 * k + 1) 0, fun φ => (Y φ).getD (3 * k + 2) 0, ?_,
      by simp only [hY0, e1], by simp only [hY0, e2], by simp only [hY0, e3], ?_⟩
    · intro φ hφ
      obtain ⟨d, hd, hder⟩ := hY φ hφ
      obtain ⟨-, -, hc⟩ := callback_ok (hlen φ hφ) (by simp) hd
      obtain ⟨-, hr⟩ := hc k hk
      have h1 : (List.replicate n (1 : ℝ)).getD k 0 = 1 := by
        rw [List.getD_eq_getElem?_getD, List.getElem?_replicate, if_pos hk]; rfl
      rw [h1] at hr
      exact ⟨_, _, _, hr, hder _, hder _, hder _⟩
    · intro a φ ha
      refine ⟨chunk3 (Y φ), by rw [List.getElem?_map, List.getElem?_map, ha]; rfl, ?_⟩
      exact (chunk3_get n _ (hlen φ (hang φ (List.mem_of_getElem? ha)))).2 k hk

/-- The hypotheses are met by two lines in the vertical field. -/
example : ∃ res, follow exOde exUp (vector [1, 2]) (vector [0, 1]) [0, 1 / 2, 1] false = .ok res ∧ res.length = 3 ∧ ∀ k < 2, ∃ r z l : ℝ → ℝ,
      IsLine exUp false (Icc 0 1) r z l ∧ r 0 = [1, 2].getD k 0 ∧ z 0 = [0, 1].getD k 0 ∧ l 0 = 0 ∧
      ∀ (a : ℕ) (φ : ℝ), [0, 1 / 2, 1][a]? = some φ → ∃ row, res[a]? = some row ∧ row[k]? = some (r φ, z φ, l φ) := by
  refine C118_lines (Y := exY) (by simp) (by simp) (left_mem_Icc.mpr zero_le_one) (by simp [exY, startVector, flatten3])
    (by intro φ _; simp [exY]) ?_ rfl ?_
  · intro φ hφ
    refine ⟨_, exUp_callback φ hφ.1 hφ.2, fun i => ?_⟩
    have hid := (hasDerivAt_id' φ).hasDerivWithinAt (s := Icc (0 : ℝ) 1)
    match i with
    | 0 => simpa [exY] using hasDerivWithinAt_const φ (Icc 0 1) (1 : ℝ)
    | 1 => simpa [exY] using hid
    | 2 => simpa [exY] using hid.const_mul (2 : ℝ)
    | 3 => simpa [exY] using hasDerivWithinAt_const φ (Icc 0 1) (2 : ℝ)
    | 4 => simpa [exY] using (hid.const_mul (2 : ℝ)).const_add (1 : ℝ)
    | 5 => simpa [exY] using hid.const_mul (4 : ℝ)
    | i + 6 => simpa [exY] using hasDerivWithinAt_const φ (Icc 0 1) (0 : ℝ)
  · intro φ hφ
    simp only [List.mem_cons, List.not_mem_nil, or_false] at hφ
    rcases hφ with rfl | rfl | rfl <;> constructor <;> norm_num

/-- **C118 fails (a single start).** With numbers for the start, and not arrays, `follow` raises `IndexError`, whatever the equilibrium. -/
theorem C118_scalar_fails (ode : Ode K) (eq : Eq K) (R Z : K) (angles : List K) (b : Bool) :
    follow ode eq ⟨[], [R]⟩ ⟨[], [Z]⟩ angles b = .error .index := by
  simp [follow, callback]

/-- **C118 fails (starts in a table).** With starts in an array of two or more dimensions `follow` raises an exception, unless there is one
line only: `IndexError` if the rows have two or more entries, `RuntimeError` otherwise. -/
theorem C118_table_fails (ode : Ode K) (eq : Eq K) {n m : ℕ} {shape : List ℕ} {R Z : List K} (hp : shape.prod = m) (hR : R.length = n * m)
    (hZ : Z.length = n * m) (hs : shape ≠ []) (hn : n ≠ 0) (angles : List K) (b : Bool) :
    (2 ≤ m → follow ode eq ⟨n :: shape, R⟩ ⟨n :: shape, Z⟩ angles b = .error .index) ∧
    (m = 1 → 2 ≤ n → follow ode eq ⟨n :: shape, R⟩ ⟨n :: shape, Z⟩ angles b = .error .runtime) := by
  have hc : (chunk3 (startVector R Z)).length = n * m := by
    rw [startVector, chunk3_flatten3]; simp [hR, hZ]
  constructor
  · intro hm
    have : n ≠ n * m := by nlinarith [Nat.pos_of_ne_zero hn]
    simp [follow, callback, hc, this]
  · rintro rfl h2
    rw [mul_one] at hc
    have h3 : n ^ 2 ≠ n := by nlinarith
    have h4 : (shape.length + 1 ≠ 1) := by
      have := List.length_pos_of_ne_nil hs; omega
    simp [follow, callback, hc, hs, h3]

example : follow exStill (⟨fun _ _ => 0, fun _ _ => 1, fun _ _ => 1, ⟨0, 10, -10, 10⟩, none, fun _ => 2⟩ : Eq ℚ) ⟨[2, 2], [1, 2, 3, 4]⟩
      ⟨[2, 2], [0, 0, 0, 0]⟩ [0, 1] false = .error .index ∧
    follow exStill (⟨fun _ _ => 0, fun _ _ => 1, fun _ _ => 1, ⟨0, 10, -10, 10⟩, none, fun _ => 2⟩ : Eq ℚ) ⟨[2, 1], [1, 2]⟩
      ⟨[2, 1], [0, 0]⟩ [0, 1] false = .error .runtime := by decide +kernel

/-! ### traceFieldLines -/

/-- The search for the plasma edge on the outboard side of the axis, along the line from the axis to ten metres further out or to the edge of
the domain, in 99 equal steps. -/
theorem outboard (d : Domain K) (f : K → K → K) {r0 : K} (hr : d.Rmin ≤ r0) (hr' : r0 ≤ d.Rmax) (z0 : K) {p : K × K}
    (h : findPsiSurface d f r0 z0 (r0 + 10) z0 1 100 = .ok p) :
    let s : K → K := fun x => r0 + x / 99 * (min (r0 + 10) d.Rmax - r0)
    p.2 = z0 ∧ r0 ≤ p.1 ∧ p.1 ≤ min (r0 + 10) d.Rmax ∧
      (∀ i : ℕ, i < 99 → (∀ k : ℕ, k ≤ i → f (s k) z0 ≤ 1) → 1 < f (s (i + 1 : ℕ)) z0 →
        ∃ t, 0 ≤ t ∧ t < 1 ∧ p.1 = s (i + t) ∧ f (s i) z0 + t * (f (s (i + 1 : ℕ)) z0 - f (s i) z0) = 1) ∧
      ((∀ k : ℕ, k < 100 → f (s k) z0 ≤ 1) → p.1 = r0) := by
  intro s
  have hclip : FreeGS.Critical.clipEnd d r0 z0 (r0 + 10) z0 = (min (r0 + 10) d.Rmax, z0) := by
    have h1 : |r0 + 10 - r0| > 1 / 1000000 := by
      rw [add_sub_cancel_left, abs_of_pos (by norm_num)]; norm_num
    have h2 : FreeGS.Critical.clip (r0 + 10) d.Rmin d.Rmax = min (r0 + 10) d.Rmax := by
      rw [FreeGS.Critical.clip, max_eq_left (by linarith)]
    have h3 : ¬ ((0 : K) > 1 / 1000000) := by norm_num
    simp only [FreeGS.Critical.clipEnd, if_pos h1, h2, sub_self, zero_mul, add_zero, abs_zero, if_neg h3]
  have hle : r0 ≤ min (r0 + 10) d.Rmax := le_min (by linarith) hr'
  have hs0 : s ((0 : ℕ) : K) = r0 := by simp [s]
  have hrk : ∀ k : ℕ, linspaceAt r0 (min (r0 + 10) d.Rmax) 100 k = s k := by
    intro k
    rw [linspaceAt, if_neg (by omega)]
    simp only [s]
    push_cast
    ring
  have hzk : ∀ k : ℕ, linspaceAt z0 z0 100 k = z0 := by
    intro k
    rw [linspaceAt, if_neg (by omega)]
    ring
  have hcall : findPsiSurface d f r0 z0 (r0 + 10) z0 1 100 =
      match (FreeGS.Critical.firstTrue (fun k => decide (f (s k) z0 > 1)) 100 0).getD 0 with
      | 0 => .ok (s (0 : ℕ), z0)
      | ind + 1 =>
        let q := (f (s (ind + 1 : ℕ)) z0 - 1) / (f (s (ind + 1 : ℕ)) z0 - f (s ind) z0)
        .ok ((1 - q) * s (ind + 1 : ℕ) + q * s ind, (1 - q) * z0 + q * z0) := by
    rw [findPsiSurface, if_neg (by omega)]
    simp only [hclip, hrk, hzk]
    generalize (FreeGS.Critical.firstTrue (fun k => decide (f (s k) z0 > 1)) 100 0).getD 0 = k
    cases k <;> rfl
  rw [hcall] at h
  obtain ⟨f1, f2⟩ := FreeGS.Critical.firstTrue_spec (fun k => decide (f (s k) z0 > 1)) 100 0
  simp only [zero_add, Nat.zero_le, forall_const, true_and, decide_eq_true_eq, gt_iff_lt, decide_eq_false_iff_not, not_lt] at f1 f2
  cases hft : FreeGS.Critical.firstTrue (fun k => decide (f (s k) z0 > 1)) 100 0 with
  | none =>
    have hall := f2.mp hft
    rw [hft] at h
    simp only [Option.getD_none, Except.ok.injEq] at h
    rw [← h]
    refine ⟨rfl, hs0.ge, hs0.trans_le hle, ?_, fun _ => hs0⟩
    intro i hi _ hgt
    exact absurd hgt (not_lt.mpr (hall (i + 1) (by omega)))
  | some m =>
    obtain ⟨m1, m2, m3⟩ := (f1 m).mp hft
    rw [hft] at h
    simp only [Option.getD_some] at h
    cases m with
    | zero =>
      simp only [Except.ok.injEq] at h
      rw [← h]
      refine ⟨rfl, hs0.ge, hs0.trans_le hle, ?_, fun _ => hs0⟩
      intro i _ hl _
      exact absurd m2 (not_lt.mpr (hl 0 (by omega)))
    | succ ind =>
      simp only [Except.ok.injEq] at h
      obtain ⟨t1, t2, t3⟩ := FreeGS.Critical.interp (f (s ind) z0) (f (s (ind + 1 : ℕ)) z0) 1 (m3 ind (by omega)) m2
      set q := (f (s (ind + 1 : ℕ)) z0 - 1) / (f (s (ind + 1 : ℕ)) z0 - f (s ind) z0) with hq
      have hpt : p.1 = s (ind + (1 - q)) := by
        rw [← h]
        simp only [s]
        push_cast
        ring
      have hpz : p.2 = z0 := by rw [← h]; ring
      have hm : ((ind : K) + (1 - q)) / 99 ≤ 1 := by
        rw [div_le_one (by norm_num)]
        have : ((ind + 1 : ℕ) : K) ≤ 99 := by exact_mod_cast (by omega : ind + 1 ≤ 99)
        push_cast at this
        linarith
      have hm0 : 0 ≤ ((ind : K) + (1 - q)) / 99 := div_nonneg (add_nonneg (Nat.cast_nonneg _) t1) (by norm_num)
      have hw : 0 ≤ min (r0 + 10) d.Rmax - r0 := by linarith
      refine ⟨hpz, ?_, ?_, ?_, ?_⟩
      · rw [hpt]
        have := mul_nonneg hm0 hw
        simp only [s]; linarith
      · rw [hpt]
        have := mul_le_mul_of_nonneg_right hm hw
        simp only [s]; linarith
      · intro i hi hl hgt
        have hii : i = ind := by
          by_contra hne
          rcases Nat.lt_or_ge i ind with hlt | hge
          · exact absurd hgt (not_lt.mpr (m3 (i + 1) (by omega)))
          · exact absurd m2 (not_lt.mpr (hl (ind + 1) (by omega)))
        subst hii
        exact ⟨1 - q, t1, t2, hpt, t3⟩
      · intro hall
        exact absurd m2 (not_lt.mpr (hall (ind + 1) m1))

/-- A line of coordinates as `traceFieldLines` should return it: `npoints` rows of `nlines` numbers, the first row at the starts, at one
height, with length zero. -/
def StartsAt (L : Lines K) (npoints : ℕ) (radii : List K) (z : K) : Prop :=
  L.R.length = npoints ∧ L.Z.length = npoints ∧ L.length.length = npoints ∧
  (∀ row ∈ L.R, row.length = radii.length) ∧ (∀ row ∈ L.Z, row.length = radii.length) ∧ (∀ row ∈ L.length, row.length = radii.length) ∧
  L.R[0]? = some radii ∧ L.Z[0]? = some (List.replicate radii.length z) ∧ L.length[0]? = some (List.replicate radii.length 0)

theorem startsAt_of_follow {ode : Ode K} {eq : Eq K} {b : Bool} {R angles : List K} {z : K} (ha : angles ≠ [])
    (hode : ∀ f y0 ev rows, ode f y0 ev angles = .ok rows → Rows y0 angles rows) {res : List (List (K × K × K))}
    (h : follow ode eq (vector R) (vector (List.replicate R.length z)) angles b = .ok res) :
    StartsAt (toLines res) angles.length R z := by
  obtain ⟨h1, h2, h3⟩ := C118_starts (n := R.length) rfl (by simp) hode h
  obtain ⟨row, hrow, hk⟩ := h3 ha
  have hl : row.length = R.length := h2 row (List.mem_of_getElem? hrow)
  have hrow' : row = R.map fun x => (x, z, (0 : K)) := by
    refine List.ext_getElem? fun k => ?_
    by_cases hkR : k < R.length
    · rw [hk k hkR, List.getElem?_map, List.getElem?_eq_getElem hkR, List.getD_eq_getElem?_getD, List.getElem?_eq_getElem hkR,
        List.getD_eq_getElem?_getD, List.getElem?_replicate, if_pos hkR]
      rfl
    · rw [List.getElem?_eq_none (by omega), List.getElem?_eq_none (by simp; omega)]
  refine ⟨by simp [toLines, h1], by simp [toLines, h1], by simp [toLines, h1], ?_, ?_, ?_, ?_, ?_, ?_⟩
  · intro r hr; obtain ⟨x, hx, rfl⟩ := List.mem_map.mp hr; simp [h2 x hx]
  · intro r hr; obtain ⟨x, hx, rfl⟩ := List.mem_map.mp hr; simp [h2 x hx]
  · intro r hr; obtain ⟨x, hx, rfl⟩ := List.mem_map.mp hr; simp [h2 x hx]
  · simp [toLines, hrow, hrow', Function.comp_def]
  · simp [toLines, hrow, hrow', Function.comp_def]
  · simp [toLines, hrow, hrow', Function.comp_def]

/-- **C118 (the traced lines).** `traceFieldLines` returns lines forward and backward from the same starts: at the height of the magnetic axis,
in `nlines` equal steps of `solwidth / nlines` outward from a radius `rmid`. If on the search line, outward from the axis to the edge of the
domain (at most ten metres), some sample is the first with normalised flux above one, `rmid` is between it and the sample before, where
the linearly interpolated flux is one. Each line has `npoints` rows, the first at the start with length zero. -/
theorem C118_trace_partial {ode : Ode K} {eq : Eq K} {r0 z0 psiAxis pb : K} {rest : List (K × K × K)} {norm : K → K → K → K → K} {pi w nturns : K}
    {nlines npoints : ℕ} (hr : eq.dom.Rmin ≤ r0) (hr' : r0 ≤ eq.dom.Rmax) (hnp : npoints ≠ 0)
    (hode : ∀ f y0 ev angles rows, ode f y0 ev angles = .ok rows → Rows y0 angles rows) {F B : Lines K}
    (h : traceFieldLines ode eq ((r0, z0, psiAxis) :: rest) (some pb) norm pi w nlines nturns npoints = .ok (F, B)) :
    ∃ (rmid : K) (radii : List K), StartsAt F npoints radii z0 ∧ StartsAt B npoints radii z0 ∧ radii.length = nlines ∧
      (∀ k < nlines, radii[k]? = some (rmid + w * (((k + 1 : ℕ) : K) / nlines))) ∧ r0 ≤ rmid ∧ rmid ≤ eq.dom.Rmax ∧
      (let s : K → K := fun x => r0 + x / 99 * (min (r0 + 10) eq.dom.Rmax - r0)
       ∀ i : ℕ, i < 99 → (∀ k : ℕ, k ≤ i → norm psiAxis pb (s k) z0 ≤ 1) → 1 < norm psiAxis pb (s (i + 1 : ℕ)) z0 →
        ∃ t, 0 ≤ t ∧ t < 1 ∧ rmid = s (i + t) ∧
          norm psiAxis pb (s i) z0 + t * (norm psiAxis pb (s (i + 1 : ℕ)) z0 - norm psiAxis pb (s i) z0) = 1) := by
  unfold traceFieldLines at h
  simp only at h
  split at h
  · cases h
  · split at h
    · cases h
    · rename_i mid hmid
      split at h
      · cases h
      · rename_i radii hrad
        have hn : nlines ≠ 0 := by rintro rfl; simp [startRadii] at hrad
        obtain ⟨r', e1, e2, e3⟩ := C83_starts mid.1 w hn
        rw [e1, Except.ok.injEq] at hrad
        subst hrad
        obtain ⟨hz, ha, hb, hc, -⟩ := outboard eq.dom (norm psiAxis pb) hr hr' z0 hmid
        set angles := (List.range npoints).map (linspaceAt 0 (nturns * 2 * pi) npoints) with hang
        have hal : angles.length = npoints := by simp [hang]
        have hane : angles ≠ [] := by
          intro h0; rw [h0] at hal; exact hnp hal.symm
        split at h
        · cases h
        · rename_i f hf
          split at h
          · cases h
          · rename_i g hg
            simp only [Except.ok.injEq, Prod.mk.injEq] at h
            obtain ⟨rfl, rfl⟩ := h
            rw [hz, ← e2] at hf hg
            have hF := startsAt_of_follow hane (fun f y0 ev rows => hode f y0 ev angles rows) hf
            have hB := startsAt_of_follow hane (fun f y0 ev rows => hode f y0 ev angles rows) hg
            rw [hal] at hF hB
            exact ⟨mid.1, r', hF, hB, e2, e3, ha, le_trans hb (min_le_right _ _), hc⟩

/-- An equilibrium with its edge half-way out, and the starts of three lines. -/
def exTrace (norm : ℚ → ℚ → ℚ → ℚ → ℚ) : Except Err (Lines ℚ × Lines ℚ) :=
  traceFieldLines exStill ⟨fun _ _ => 0, fun _ _ => 1, fun _ _ => 1, ⟨0, 10, -10, 10⟩, none, fun _ => 2⟩ [(1, 1 / 2, 3)] (some 5) norm 3 (3 / 100) 3 1 2

example : exTrace (fun a b r _ => (r - 1) * (b - a) / 3) =
    .ok (⟨List.replicate 2 [5 / 2 + 1 / 100, 5 / 2 + 2 / 100, 5 / 2 + 3 / 100], List.replicate 2 [1 / 2, 1 / 2, 1 / 2], List.replicate 2 [0, 0, 0]⟩,
      ⟨List.replicate 2 [5 / 2 + 1 / 100, 5 / 2 + 2 / 100, 5 / 2 + 3 / 100], List.replicate 2 [1 / 2, 1 / 2, 1 / 2], List.replicate 2 [0, 0, 0]⟩) := by
  decide +kernel

/-- **C118 fails (no edge found).** If no sample on the search line has normalised flux above one, the plasma edge is not found, nothing is
reported, and the lines start next to the magnetic axis. -/
theorem C118_no_edge_fails {ode : Ode K} {eq : Eq K} {r0 z0 psiAxis pb : K} {rest : List (K × K × K)} {norm : K → K → K → K → K} {pi w nturns : K}
    {nlines npoints : ℕ} (hr : eq.dom.Rmin ≤ r0) (hr' : r0 ≤ eq.dom.Rmax) (hnp : npoints ≠ 0)
    (hode : ∀ f y0 ev angles rows, ode f y0 ev angles = .ok rows → Rows y0 angles rows) {F B : Lines K}
    (h : traceFieldLines ode eq ((r0, z0, psiAxis) :: rest) (some pb) norm pi w nlines nturns npoints = .ok (F, B))
    (hno : ∀ x, r0 ≤ x → x ≤ eq.dom.Rmax → norm psiAxis pb x z0 ≤ 1) :
    ∃ radii : List K, StartsAt F npoints radii z0 ∧ radii[0]? = some (r0 + w / nlines) := by
  unfold traceFieldLines at h
  simp only at h
  split at h
  · cases h
  · split at h
    · cases h
    · rename_i mid hmid
      split at h
      · cases h
      · rename_i radii hrad
        have hn : nlines ≠ 0 := by rintro rfl; simp [startRadii] at hrad
        obtain ⟨r', e1, e2, e3⟩ := C83_starts mid.1 w hn
        rw [e1, Except.ok.injEq] at hrad
        subst hrad
        obtain ⟨hz, -, -, -, hd⟩ := outboard eq.dom (norm psiAxis pb) hr hr' z0 hmid
        have hle : r0 ≤ min (r0 + 10) eq.dom.Rmax := le_min (by linarith) hr'
        have hmid1 : mid.1 = r0 := by
          refine hd fun k hk => hno _ ?_ ?_
          · have := mul_nonneg (div_nonneg (Nat.cast_nonneg (α := K) k) (by norm_num : (0 : K) ≤ 99)) (sub_nonneg.mpr hle)
            linarith
          · have hk1 : (k : K) / 99 ≤ 1 := by
              rw [div_le_one (by norm_num)]; exact_mod_cast (by omega : k ≤ 99)
            have := mul_le_mul_of_nonneg_right hk1 (sub_nonneg.mpr hle)
            have h2 := min_le_right (r0 + 10) eq.dom.Rmax
            linarith
        set angles := (List.range npoints).map (linspaceAt 0 (nturns * 2 * pi) npoints) with hang
        have hal : angles.length = npoints := by simp [hang]
        have hane : angles ≠ [] := by
          intro h0; rw [h0] at hal; exact hnp hal.symm
        split at h
        · cases h
        · rename_i f hf
          split at h
          · cases h
          · simp only [Except.ok.injEq, Prod.mk.injEq] at h
            obtain ⟨rfl, -⟩ := h
            rw [hz, ← e2] at hf
            have hF := startsAt_of_follow hane (fun f y0 ev rows => hode f y0 ev angles rows) hf
            rw [hal] at hF
            refine ⟨r', hF, ?_⟩
            rw [e3 0 (Nat.pos_of_ne_zero hn), hmid1]
            congr 1
            push_cast
            ring

example : (exTrace fun _ _ _ _ => 1 / 2).toOption.map (fun x => x.1.R) = some (List.replicate 2 [101 / 100, 102 / 100, 103 / 100]) := by
  decide +kernel

/-- **C118 (errors).** Without O-point the call raises `IndexError`, without plasma boundary `TypeError`. -/
theorem C118_errors (ode : Ode K) (eq : Eq K) (o : K × K × K) (rest : List (K × K × K)) (pb : Option K) (norm : K → K → K → K → K)
    (pi w nturns : K) (nlines npoints : ℕ) :
    traceFieldLines ode eq [] pb norm pi w nlines nturns npoints = .error .index ∧
    traceFieldLines ode eq (o :: rest) none norm pi w nlines nturns npoints = .error .type := ⟨rfl, rfl⟩

end FreeGS.Tracer
