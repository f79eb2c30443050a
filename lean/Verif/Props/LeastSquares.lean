import Verif.Props.FluxFit
import Mathlib.Tactic.Positivity

/-!
# C113: fits to a flux map leave the coil currents of the closest flux in the machine
-/

set_option linter.unusedSectionVars false

namespace FreeGS.Control

variable {K : Type*} [Field K] [LinearOrder K] [IsStrictOrderedRing K]

/-! ## Specification -/

/-- The weighted mean of a flux map. -/
def wmean (ws a : List K) : K := (∑ i ∈ Finset.range ws.length, ws.getD i 0 * a.getD i 0) / ∑ i ∈ Finset.range ws.length, ws.getD i 0

/-- The distance of two flux maps without their weighted means: the sum of the squares of the weighted differences. -/
def mismatch (ws target psi : List K) : K :=
  ∑ i ∈ Finset.range ws.length, (ws.getD i 0 * (psi.getD i 0 - wmean ws psi - (target.getD i 0 - wmean ws target))) ^ 2

/-- `x` has the least sum of squares of the differences `f` among all lists that are allowed. -/
def LeastSquares (f : List K → Except Err (List K)) (allowed : List K → Prop) (x : List K) : Prop :=
  allowed x ∧ ∃ dx, f x = .ok dx ∧ ∀ y dy, allowed y → f y = .ok dy → (dx.map fun v => v ^ 2).sum ≤ (dy.map fun v => v ^ 2).sum

/-! ## Lists and sums -/

theorem sum_getD (l : List K) : l.sum = ∑ i ∈ Finset.range l.length, l.getD i 0 := by
  induction l with
  | nil => rfl
  | cons a l ih =>
    rw [List.sum_cons, ih, List.length_cons, Finset.sum_range_succ']
    simp only [List.getD_cons_succ, List.getD_cons_zero]
    ring

theorem getD_zipWith (f : K → K → K) (a b : List K) {i : ℕ} (ha : i < a.length) (hb : i < b.length) :
    (List.zipWith f a b).getD i 0 = f (a.getD i 0) (b.getD i 0) := by
  simp [List.getD_eq_getElem?_getD, ha, hb]

theorem getD_map' (f : K → K) (a : List K) {i : ℕ} (ha : i < a.length) : (a.map f).getD i 0 = f (a.getD i 0) := by
  simp [List.getD_eq_getElem?_getD, ha]

theorem average_ok {a ws : List K} {av : K} (h : average a (.array ws) = .ok av) :
    ws.length = a.length ∧ ws.sum ≠ 0 ∧ av = wmean ws a := by
  simp only [average] at h
  split at h
  · rename_i hl
    split at h
    · cases h
    · rename_i h0
      refine ⟨hl, h0, ?_⟩
      rw [← Except.ok.inj h, wmean, sum_getD, sum_getD ws]
      congr 1
      rw [List.length_zipWith, hl, min_self]
      refine Finset.sum_congr rfl fun i hi => ?_
      rw [Finset.mem_range] at hi
      rw [getD_zipWith _ _ _ hi (by omega), mul_comm]
  · cases h

/-- What the residual of the code adds to, for a target without its mean. -/
theorem difference_squares {target ws : List K} {g : Grid K} {m : Machine K} {x d : List K} (ht : target.length = ws.length)
    (h : difference target (.array ws) g m x = .ok d) : ∃ psi, g.psi (m.setControlCurrents x) = .ok psi ∧ psi.length = ws.length ∧
      (d.map fun v => v ^ 2).sum = ∑ i ∈ Finset.range ws.length, (ws.getD i 0 * (psi.getD i 0 - wmean ws psi - target.getD i 0)) ^ 2 := by
  simp only [difference] at h
  cases hp : g.psi (m.setControlCurrents x) with
  | error err => rw [hp] at h; cases h
  | ok psi =>
    rw [hp] at h
    simp only at h
    cases ha : average psi (.array ws) with
    | error err => rw [ha] at h; cases h
    | ok av =>
      rw [ha] at h
      obtain ⟨hl, -, rfl⟩ := average_ok ha
      obtain rfl := Except.ok.inj h
      refine ⟨psi, rfl, hl.symm, ?_⟩
      have e1 : (List.zipWith (fun p t => p - wmean ws psi - t) psi target).length = ws.length := by
        rw [List.length_zipWith, ht, ← hl, min_self]
      have e2 : ((Weights.array ws).apply (List.zipWith (fun p t => p - wmean ws psi - t) psi target)).length = ws.length := by
        rw [Weights.apply, List.length_zipWith, e1, min_self]
      rw [sum_getD, List.length_map, e2]
      refine Finset.sum_congr rfl fun i hi => ?_
      rw [Finset.mem_range] at hi
      rw [getD_map' _ _ (by rw [e2]; exact hi), Weights.apply, getD_zipWith _ _ _ (by rw [e1]; exact hi) hi,
        getD_zipWith _ _ _ (by rw [← hl]; exact hi) (by rw [ht]; exact hi)]
      ring

theorem make_ok {target : List K} {weights : Option (Weights K)} {ws : List K} {c : Psi2D K}
    (hw : weights.getD (.array (List.replicate target.length 1)) = .array ws) (h : Psi2D.make target weights = .ok c) :
    ws.length = target.length ∧ ws.sum ≠ 0 ∧ c.weights = .array ws ∧ c.target = target.map (· - wmean ws target) := by
  simp only [Psi2D.make, hw] at h
  cases ha : average target (.array ws) with
  | error err => rw [ha] at h; cases h
  | ok av =>
    rw [ha] at h
    obtain ⟨hl, h0, rfl⟩ := average_ok ha
    obtain rfl := Except.ok.inj h
    exact ⟨hl, h0, rfl, rfl⟩

theorem psi2D_squares {target : List K} {weights : Option (Weights K)} {ws : List K} {c : Psi2D K}
    (hw : weights.getD (.array (List.replicate target.length 1)) = .array ws) (h : Psi2D.make target weights = .ok c) {g : Grid K} {m : Machine K}
    {x d : List K} (hd : c.difference g m x = .ok d) :
    ∃ psi, g.psi (m.setControlCurrents x) = .ok psi ∧ psi.length = ws.length ∧ (d.map fun v => v ^ 2).sum = mismatch ws target psi := by
  obtain ⟨hl, h0, hcw, hct⟩ := make_ok hw h
  rw [Psi2D.difference, hcw] at hd
  obtain ⟨psi, h1, h2, h3⟩ := difference_squares (by rw [hct, List.length_map, hl]) hd
  refine ⟨psi, h1, h2, ?_⟩
  rw [h3, mismatch]
  refine Finset.sum_congr rfl fun i hi => ?_
  rw [Finset.mem_range] at hi
  rw [hct, getD_map' _ _ (by omega)]

/-- When the flux can be calculated and has the right size, so can the residual. -/
theorem difference_total {target : List K} {weights : Option (Weights K)} {ws : List K} {c : Psi2D K}
    (hw : weights.getD (.array (List.replicate target.length 1)) = .array ws) (h : Psi2D.make target weights = .ok c) {g : Grid K} {m : Machine K}
    {x psi : List K} (hp : g.psi (m.setControlCurrents x) = .ok psi) (hl : psi.length = ws.length) : ∃ d, c.difference g m x = .ok d := by
  obtain ⟨-, h0, hcw, -⟩ := make_ok hw h
  simp only [Psi2D.difference, difference, hcw, hp, average, hl, if_neg h0, if_true]
  exact ⟨_, rfl⟩

theorem wmean_shift {ws a b : List K} (hs : ws.sum ≠ 0) (k : K) (h : ∀ i < ws.length, b.getD i 0 = a.getD i 0 + k) : wmean ws b = wmean ws a + k := by
  rw [sum_getD] at hs
  rw [wmean, wmean, Finset.sum_congr rfl fun i hi => by rw [h i (Finset.mem_range.mp hi), mul_add], Finset.sum_add_distrib, ← Finset.sum_mul]
  field_simp

/-- A flux that is the target plus a constant has no mismatch. -/
theorem mismatch_shift {ws target psi : List K} (hs : ws.sum ≠ 0) (k : K) (h : ∀ i < ws.length, psi.getD i 0 = target.getD i 0 + k) :
    mismatch ws target psi = 0 := by
  rw [mismatch]
  refine Finset.sum_eq_zero fun i hi => ?_
  rw [wmean_shift hs k h, h i (Finset.mem_range.mp hi)]
  ring

theorem mismatch_zero {ws target psi : List K} (h : mismatch ws target psi ≤ 0) {i : ℕ} (hi : i < ws.length) (hw : ws.getD i 0 ≠ 0) :
    psi.getD i 0 = target.getD i 0 + (wmean ws psi - wmean ws target) := by
  have h0 : mismatch ws target psi = 0 := le_antisymm h (Finset.sum_nonneg fun i _ => sq_nonneg _)
  rw [mismatch, Finset.sum_eq_zero_iff_of_nonneg fun i _ => sq_nonneg _] at h0
  have := h0 i (Finset.mem_range.mpr hi)
  rw [pow_eq_zero_iff two_ne_zero, mul_eq_zero, or_iff_right hw] at this
  linarith

/-! ## The theorems -/

/-- **C113 (closest).** Let `leastsq` return currents with the least sum of squares. After `ConstrainPsi2D` the flux of the machine and the plasma, less its
weighted mean, is at least as close to the target, less its mean, as with any other currents in the controlled coils. Labels, control flags and
all entries that are not controlled are unchanged. -/
theorem C113_closest (lsq : (List K → Except Err (List K)) → List K → Except Err (List K)) (target : List K) (weights : Option (Weights K))
    (ws : List K) (hw : weights.getD (.array (List.replicate target.length 1)) = .array ws) (c : Psi2D K) (hc : Psi2D.make target weights = .ok c)
    (g : Grid K) (m m' : Machine K)
    (hopt : ∀ x, lsq (c.difference g m) m.controlCurrents = .ok x →
      LeastSquares (c.difference g m) (fun y => y.length = m.controlCurrents.length) x)
    (h : c.call lsq g m = .ok m') :
    m'.coils.map (fun x => (x.1, x.2.control)) = m.coils.map (fun x => (x.1, x.2.control)) ∧
    m'.coils.filter (fun x => !x.2.control) = m.coils.filter (fun x => !x.2.control) ∧
    m' = m.setControlCurrents m'.controlCurrents ∧ m'.controlCurrents.length = m.controlCurrents.length ∧
    ∃ psi', g.psi m' = .ok psi' ∧ psi'.length = ws.length ∧ ∀ y psi, y.length = m.controlCurrents.length →
      g.psi (m.setControlCurrents y) = .ok psi → psi.length = ws.length → mismatch ws target psi' ≤ mismatch ws target psi := by
  rw [Psi2D.call] at h
  cases hx : lsq (c.difference g m) m.controlCurrents with
  | error err => rw [hx] at h; cases h
  | ok x =>
    rw [hx] at h
    obtain rfl := Except.ok.inj h
    obtain ⟨hl, dx, hdx, hmin⟩ := hopt x hx
    have hcc : (m.setControlCurrents x).controlCurrents = x := by
      rw [C19_other_lengths, hl]
      simp [← hl]
    obtain ⟨psi', h1, h2, h3⟩ := psi2D_squares hw hc hdx
    refine ⟨Machine.zipControl_keys _ _ _, Machine.zipControl_uncontrolled _ _ _, by rw [hcc], by rw [hcc]; exact hl, psi', h1, h2, fun y psi hy hp hpl => ?_⟩
    obtain ⟨dy, hdy⟩ := difference_total hw hc hp hpl
    have := hmin y dy hy hdy
    obtain ⟨psi2, h4, -, h6⟩ := psi2D_squares hw hc hdy
    rw [hp] at h4
    obtain rfl := Except.ok.inj h4
    rwa [h3, h6] at this

/-- **C113 (reached).** If some currents give the target up to a constant, then after the fit the flux is the target plus a constant wherever the weight is not
zero. If no other currents do so, the fit has found these currents. -/
theorem C113_reached (lsq : (List K → Except Err (List K)) → List K → Except Err (List K)) (target : List K) (weights : Option (Weights K))
    (ws : List K) (hw : weights.getD (.array (List.replicate target.length 1)) = .array ws) (c : Psi2D K) (hc : Psi2D.make target weights = .ok c)
    (g : Grid K) (m m' : Machine K)
    (hopt : ∀ x, lsq (c.difference g m) m.controlCurrents = .ok x →
      LeastSquares (c.difference g m) (fun y => y.length = m.controlCurrents.length) x)
    (h : c.call lsq g m = .ok m') (y psi : List K) (k : K) (hy : y.length = m.controlCurrents.length)
    (hp : g.psi (m.setControlCurrents y) = .ok psi) (hpl : psi.length = ws.length) (hk : ∀ i < ws.length, psi.getD i 0 = target.getD i 0 + k) :
    (∃ psi' k', g.psi m' = .ok psi' ∧ psi'.length = ws.length ∧ ∀ i < ws.length, ws.getD i 0 ≠ 0 → psi'.getD i 0 = target.getD i 0 + k') ∧
    ((∀ x psi' k', x.length = m.controlCurrents.length → g.psi (m.setControlCurrents x) = .ok psi' →
        (∀ i < ws.length, ws.getD i 0 ≠ 0 → psi'.getD i 0 = target.getD i 0 + k') → x = y) → m' = m.setControlCurrents y) := by
  obtain ⟨-, -, h1, h2, psi', h3, h4, h5⟩ := C113_closest lsq target weights ws hw c hc g m m' hopt h
  have h6 := h5 y psi hy hp hpl
  obtain ⟨-, h0, -, -⟩ := make_ok hw hc
  rw [mismatch_shift h0 k hk] at h6
  have h7 : ∀ i < ws.length, ws.getD i 0 ≠ 0 → psi'.getD i 0 = target.getD i 0 + (wmean ws psi' - wmean ws target) := fun i hi hwi => mismatch_zero h6 hi hwi
  refine ⟨⟨psi', _, h3, h4, h7⟩, fun huniq => ?_⟩
  rw [h1] at h3 ⊢
  rw [huniq _ psi' _ h2 h3 h7]

/-- **C113 (bounded).** Let `minimize` return currents within the bounds with the least value. After `ConstrainPsi2DAdvanced` the flux, less its weighted mean,
is at least as close to the target (whose mean is not removed) as with any other currents within the limits. -/
theorem C113_bounded (lbfgs : (List K → Except Err K) → List K → List (K × K) → Except Err (List K)) (target ws : List K) (ls : List (K × K))
    (hl : target.length = ws.length) (hs : ws.sum ≠ 0) (g : Grid K) (m m' : Machine K)
    (f : List K → Except Err K) (hf : f = (Psi2DAdvanced.make target (.array ws) (some ls)).difference g m)
    (hopt : ∀ x0 bs x, List.Forall₂ Between x0 bs → lbfgs f x0 bs = .ok x → List.Forall₂ Between x bs ∧ ∃ v, f x = .ok v ∧
      ∀ y w, List.Forall₂ Between y bs → f y = .ok w → v ≤ w)
    (h : advancedCall lbfgs ((Psi2DAdvanced.make target (.array ws) (some ls)).difference g m) (some ls) m = .ok m') :
    ∃ psi', g.psi m' = .ok psi' ∧ psi'.length = ws.length ∧ ∀ y psi, y.length = m.controlCurrents.length →
      (∀ (j : ℕ) I, y[j]? = some I → ∃ lim, ls[j]? = some lim ∧ Between I lim) → g.psi (m.setControlCurrents y) = .ok psi → psi.length = ws.length →
      ∑ i ∈ Finset.range ws.length, (ws.getD i 0 * (psi'.getD i 0 - wmean ws psi' - target.getD i 0)) ^ 2 ≤
        ∑ i ∈ Finset.range ws.length, (ws.getD i 0 * (psi.getD i 0 - wmean ws psi - target.getD i 0)) ^ 2 := by
  subst hf
  rw [advancedCall] at h
  split at h
  · cases h
  rename_i st hst
  obtain ⟨h1, h2, h3⟩ := advancedStart_ok ls _ _ _ hst
  split at h
  · cases h
  rename_i x hx
  simp only [Except.ok.injEq] at h
  subst h
  obtain ⟨-, v, hv, hmin⟩ := hopt _ _ _ h1 hx
  have sq : ∀ x v, (Psi2DAdvanced.make target (.array ws) (some ls)).difference g m x = .ok v →
      ∃ psi, g.psi (m.setControlCurrents x) = .ok psi ∧ psi.length = ws.length ∧
        v = ∑ i ∈ Finset.range ws.length, (ws.getD i 0 * (psi.getD i 0 - wmean ws psi - target.getD i 0)) ^ 2 := by
    intro x v hv
    simp only [Psi2DAdvanced.difference, Psi2DAdvanced.make] at hv
    cases hd : difference target (.array ws) g m x with
    | error err => rw [hd] at hv; cases hv
    | ok d =>
      rw [hd] at hv
      obtain ⟨psi, h4, h5, h6⟩ := difference_squares hl hd
      refine ⟨psi, h4, h5, ?_⟩
      rw [← h6, ← Except.ok.inj hv]
      simp only [pow_two]
  obtain ⟨psi', h4, h5, h6⟩ := sq x v hv
  refine ⟨psi', h4, h5, fun y psi hy hb hp hpl => ?_⟩
  obtain ⟨w, hw⟩ : ∃ w, (Psi2DAdvanced.make target (.array ws) (some ls)).difference g m y = .ok w := by
    simp only [Psi2DAdvanced.difference, Psi2DAdvanced.make, difference, hp, average, hpl, if_neg hs, if_true]
    exact ⟨_, rfl⟩
  obtain ⟨psi2, h7, -, h9⟩ := sq y w hw
  rw [hp] at h7
  obtain rfl := Except.ok.inj h7
  rw [← h6, ← h9]
  refine hmin y w ?_ hw
  have hlen : y.length = (st.map Prod.snd).length := by
    rw [hy, List.length_map]
    simpa using h2.symm
  rw [List.forall₂_iff_get]
  refine ⟨hlen, fun i hi hi' => ?_⟩
  obtain ⟨lim, h10, h11⟩ := hb i (y.get ⟨i, hi⟩) (by simp)
  obtain ⟨lim', h12, h13⟩ := h3 i (by rw [← hy]; exact hi)
  simp only [Nat.zero_add, zero_add] at h12
  rw [h10] at h12
  obtain rfl := Option.some.inj h12
  have : (st.map Prod.snd).get ⟨i, hi'⟩ = (min lim.1 lim.2, max lim.1 lim.2) := by
    have := List.getElem?_eq_some_iff.mp h13
    exact this.2
  rw [this]
  have hle : min lim.1 lim.2 ≤ max lim.1 lim.2 := min_le_max
  simp only [Between] at h11 ⊢
  rwa [min_eq_left hle, max_eq_right hle]

/-- The weighted squares of the difference to the target plus a constant. -/
def distance (ws target psi : List K) (k : K) : K :=
  ∑ i ∈ Finset.range ws.length, (ws.getD i 0 * (psi.getD i 0 - target.getD i 0 - k)) ^ 2

theorem mismatch_le_distance {ws : List K} (hs : ws.sum ≠ 0) (target psi : List K) (w0 : K) (h : ∀ i < ws.length, ws.getD i 0 = 0 ∨ ws.getD i 0 = w0)
    (k : K) : mismatch ws target psi ≤ distance ws target psi k := by
  rw [sum_getD] at hs
  set S := ∑ i ∈ Finset.range ws.length, ws.getD i 0 with hS
  set a := wmean ws psi with ha
  set b := wmean ws target with hb
  have h1 : ∑ i ∈ Finset.range ws.length, ws.getD i 0 * psi.getD i 0 = a * S := by
    rw [ha, wmean, ← hS]
    field_simp
  have h2 : ∑ i ∈ Finset.range ws.length, ws.getD i 0 * target.getD i 0 = b * S := by
    rw [hb, wmean, ← hS]
    field_simp
  have h3 : ∀ i ∈ Finset.range ws.length, (ws.getD i 0 * (psi.getD i 0 - target.getD i 0 - k)) ^ 2 -
      (ws.getD i 0 * (psi.getD i 0 - a - (target.getD i 0 - b))) ^ 2 =
      w0 * (2 * (a - b - k)) * (ws.getD i 0 * psi.getD i 0) - w0 * (2 * (a - b - k)) * (ws.getD i 0 * target.getD i 0) +
        w0 * (k ^ 2 - (a - b) ^ 2) * ws.getD i 0 := by
    intro i hi
    have : ws.getD i 0 ^ 2 = w0 * ws.getD i 0 := by
      rcases h i (Finset.mem_range.mp hi) with h0 | h0 <;> rw [h0] <;> ring
    have e1 : (ws.getD i 0 * (psi.getD i 0 - target.getD i 0 - k)) ^ 2 - (ws.getD i 0 * (psi.getD i 0 - a - (target.getD i 0 - b))) ^ 2 =
      ws.getD i 0 ^ 2 * ((psi.getD i 0 - target.getD i 0 - k) ^ 2 - (psi.getD i 0 - a - (target.getD i 0 - b)) ^ 2) := by ring
    rw [e1, this]
    ring
  have h4 : distance ws target psi k - mismatch ws target psi = w0 * S * (a - b - k) ^ 2 := by
    rw [distance, mismatch, ← Finset.sum_sub_distrib, ← ha, ← hb, Finset.sum_congr rfl h3, Finset.sum_add_distrib, Finset.sum_sub_distrib,
      ← Finset.mul_sum, ← Finset.mul_sum, ← Finset.mul_sum, h1, h2, ← hS]
    ring
  have h5 : 0 ≤ w0 * S := by
    rw [hS, Finset.mul_sum]
    refine Finset.sum_nonneg fun i hi => ?_
    rcases h i (Finset.mem_range.mp hi) with h0 | h0 <;> rw [h0]
    · simp
    · exact mul_self_nonneg w0
  have := mul_nonneg h5 (sq_nonneg (a - b - k))
  linarith

theorem mismatch_eq_distance (ws target psi : List K) : mismatch ws target psi = distance ws target psi (wmean ws psi - wmean ws target) := by
  rw [mismatch, distance]
  exact Finset.sum_congr rfl fun i _ => by ring

/-- **C113 (offset).** When all weights that are not zero are the same (as they are by default), constant offsets are ignored in the
best way: some constant added to the target gives a distance that no other currents and no other constant go below. -/
theorem C113_offset_partial (lsq : (List K → Except Err (List K)) → List K → Except Err (List K)) (target : List K) (weights : Option (Weights K))
    (ws : List K) (hw : weights.getD (.array (List.replicate target.length 1)) = .array ws) (w0 : K)
    (h0 : ∀ i < ws.length, ws.getD i 0 = 0 ∨ ws.getD i 0 = w0) (c : Psi2D K) (hc : Psi2D.make target weights = .ok c)
    (g : Grid K) (m m' : Machine K)
    (hopt : ∀ x, lsq (c.difference g m) m.controlCurrents = .ok x →
      LeastSquares (c.difference g m) (fun y => y.length = m.controlCurrents.length) x)
    (h : c.call lsq g m = .ok m') :
    ∃ psi' k', g.psi m' = .ok psi' ∧ ∀ y psi k, y.length = m.controlCurrents.length →
      g.psi (m.setControlCurrents y) = .ok psi → psi.length = ws.length → distance ws target psi' k' ≤ distance ws target psi k := by
  obtain ⟨-, -, -, -, psi', h3, -, h5⟩ := C113_closest lsq target weights ws hw c hc g m m' hopt h
  obtain ⟨-, hs, -, -⟩ := make_ok hw hc
  refine ⟨psi', wmean ws psi' - wmean ws target, h3, fun y psi k hy hp hpl => ?_⟩
  rw [← mismatch_eq_distance]
  exact (h5 y psi hy hp hpl).trans (mismatch_le_distance hs target psi w0 h0 k)

/-! ## Unequal weights -/

theorem fit_calc (t v : ℚ) : (fitMachine.setControlCurrents [v]).calcFromGreens (fun _ => some (.val t)) =
    .ok (t * v, fitMachine.setControlCurrents [v]) := by
  have : (fitMachine.setControlCurrents [v]).calcFromGreens (fun _ => some (.val t)) = .ok (0 + v * t, fitMachine.setControlCurrents [v]) := rfl
  rw [this]
  congr 2
  ring

/-- Three grid points: the coil gives flux at the first only, the plasma at the second only. -/
def threeGrid : Grid ℚ where
  tables := [fun _ => some (.val 1), fun _ => some (.val 0), fun _ => some (.val 0)]
  plasma := [0, 1, 0]

theorem three_psi (v : ℚ) : threeGrid.psi (fitMachine.setControlCurrents [v]) = .ok [v, 1, 0] := by
  simp [threeGrid, Grid.psi, psiLoop, fit_calc]

/-- **C113 refuted for weights that differ.** The weights enter the average once but the squares twice. With weights 1, 2, 1 the currents with the
least squares of the code's residual are 6/7; with 4/5 and a suitable constant the weighted squares are less than with 6/7 and any
constant. -/
theorem C113_offset_fails : ∃ (c : Psi2D ℚ) (target ws psi' psi : List ℚ) (k : ℚ), Psi2D.make target (some (.array ws)) = .ok c ∧
    LeastSquares (c.difference threeGrid fitMachine) (fun y => y.length = fitMachine.controlCurrents.length) [6 / 7] ∧
    threeGrid.psi (fitMachine.setControlCurrents [6 / 7]) = .ok psi' ∧ threeGrid.psi (fitMachine.setControlCurrents [4 / 5]) = .ok psi ∧
    ∀ k', distance ws target psi k < distance ws target psi' k' := by
  have hm : Psi2D.make [0, 0, 0] (some (.array [1, 2, 1])) = .ok (⟨[0, 0, 0], .array [1, 2, 1]⟩ : Psi2D ℚ) := by
    simp [Psi2D.make, average]
    norm_num
  have mm : ∀ v : ℚ, mismatch [1, 2, 1] [0, 0, 0] [v, 1, 0] = 7 / 8 * (v - 6 / 7) ^ 2 + 6 / 7 := by
    intro v
    simp [mismatch, wmean, Finset.sum_range_succ]
    ring
  refine ⟨_, [0, 0, 0], [1, 2, 1], [6 / 7, 1, 0], [4 / 5, 1, 0], 4 / 5, hm, ⟨by decide +kernel, ?_⟩, three_psi _, three_psi _, fun k' => ?_⟩
  · obtain ⟨dx, hdx⟩ := difference_total (ws := [1, 2, 1]) rfl hm (three_psi (6 / 7)) rfl
    refine ⟨dx, hdx, fun y dy hy hdy => ?_⟩
    obtain ⟨psi', h1, -, h2⟩ := psi2D_squares (ws := [1, 2, 1]) rfl hm hdx
    obtain ⟨psi, h3, -, h4⟩ := psi2D_squares (ws := [1, 2, 1]) rfl hm hdy
    match y, hy with
    | [v], _ =>
      rw [three_psi] at h1 h3
      rw [h2, h4, ← Except.ok.inj h1, ← Except.ok.inj h3, mm, mm]
      nlinarith [sq_nonneg (v - 6 / 7)]
  · simp [distance, Finset.sum_range_succ]
    nlinarith [sq_nonneg (k' - 17 / 21)]

/-- A fit that reaches its target: the flux of the coil with current 7, up to a constant. -/
example : ∃ (c : Psi2D ℚ) (lsq : (List ℚ → Except Err (List ℚ)) → List ℚ → Except Err (List ℚ)) (m' : Machine ℚ),
    Psi2D.make [0, 31] = .ok c ∧
    (∀ x, lsq (c.difference fitGrid fitMachine) fitMachine.controlCurrents = .ok x →
      LeastSquares (c.difference fitGrid fitMachine) (fun y => y.length = fitMachine.controlCurrents.length) x) ∧
    c.call lsq fitGrid fitMachine = .ok m' ∧ m'.controlCurrents = [7] ∧ fitMachine.controlCurrents = [3] ∧
    fitGrid.psi (fitMachine.setControlCurrents [7]) = .ok [0 + 24, 31 + 24] := by
  have hm : Psi2D.make [0, 31] = .ok (⟨[-31 / 2, 31 / 2], .array [1, 1]⟩ : Psi2D ℚ) := by
    simp [Psi2D.make, average]
    norm_num
  refine ⟨_, fun _ _ => .ok [7], fitMachine.setControlCurrents [7], hm, ?_, rfl, by decide +kernel, by decide +kernel,
    by decide +kernel⟩
  intro x hx
  obtain rfl := Except.ok.inj hx
  refine ⟨rfl, [0, 0], by decide +kernel, fun y dy _ _ => ?_⟩
  simp only [List.map_cons, List.map_nil, List.sum_cons, List.sum_nil]
  have : 0 ≤ (dy.map fun v : ℚ => v ^ 2).sum := List.sum_nonneg (by simp only [List.mem_map]; rintro _ ⟨v, -, rfl⟩; positivity)
  simpa using this

/-- A bounded fit whose limits keep it from reaching the target: with one controlled coil and the target of 7 it stops at the limit 5. -/
example : ∃ (lbfgs : (List ℚ → Except Err ℚ) → List ℚ → List (ℚ × ℚ) → Except Err (List ℚ)) (m' : Machine ℚ),
    (∀ x0 bs x, List.Forall₂ Between x0 bs →
      lbfgs ((Psi2DAdvanced.make [-31 / 2, 31 / 2] (.array [1, 1]) (some [(5, 0)])).difference fitGrid fitMachine) x0 bs = .ok x →
      List.Forall₂ Between x bs ∧ ∃ v, (Psi2DAdvanced.make [-31 / 2, 31 / 2] (.array [1, 1]) (some [(5, 0)])).difference fitGrid fitMachine x = .ok v ∧
        ∀ y w, List.Forall₂ Between y bs →
          (Psi2DAdvanced.make [-31 / 2, 31 / 2] (.array [1, 1]) (some [(5, 0)])).difference fitGrid fitMachine y = .ok w → v ≤ w) ∧
    advancedCall lbfgs ((Psi2DAdvanced.make [-31 / 2, 31 / 2] (.array [1, 1]) (some [(5, 0)])).difference fitGrid fitMachine) (some [(5, 0)]) fitMachine = .ok m' ∧
    m'.controlCurrents = [5] := by
  have hp : ∀ v : ℚ, fitGrid.psi (fitMachine.setControlCurrents [v]) = .ok [10 + 2 * v, 20 + 5 * v] := by
    intro v
    simp [fitGrid, Grid.psi, psiLoop, fit_calc]
  have hd : ∀ v : ℚ, (Psi2DAdvanced.make [-31 / 2, 31 / 2] (.array [1, 1]) (some [(5, 0)])).difference fitGrid fitMachine [v] = .ok (9 / 2 * (v - 7) ^ 2) := by
    intro v
    simp [Psi2DAdvanced.make, Psi2DAdvanced.difference, difference, hp, average, Weights.apply]
    ring
  refine ⟨fun _ _ bs => if bs = [(0, 5)] then .ok [5] else .error .runtime, fitMachine.setControlCurrents [5], ?_, ?_, by decide +kernel⟩
  swap
  · have : advancedStart (some [((5 : ℚ), (0 : ℚ))]) fitMachine.controlCurrents 0 = .ok [(3, (0, 5))] := by decide +kernel
    simp [advancedCall, this]
  intro x0 bs x _ hx
  simp only at hx
  split at hx
  · rename_i hbs
    subst hbs
    obtain rfl := Except.ok.inj hx
    refine ⟨by simp [Between], _, hd 5, fun y w hy hw => ?_⟩
    match y, hy with
    | [v], .cons hv .nil =>
      rw [hd] at hw
      rw [← Except.ok.inj hw]
      simp only [Between] at hv
      norm_num at hv
      nlinarith [hv.1, hv.2]
  · cases hx

end FreeGS.Control
