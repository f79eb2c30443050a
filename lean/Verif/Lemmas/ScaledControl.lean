import Verif.Spec.ScaledControl
import Verif.Lemmas.Control
import Mathlib.Algebra.BigOperators.Field

/-!
# Helper lemmas for the scaling of the control problem
-/

set_option linter.unusedSectionVars false

namespace FreeGS.Control

variable {K : Type*} [Field K] [LinearOrder K] [IsStrictOrderedRing K]

theorem timesMachine_sync (k : K) (m : Machine K) : (timesMachine k m).sync = timesMachine k m := by
  refine Machine.sync_of_synced ((Machine.synced_iff _).2 fun x hx => ?_)
  simp only [timesMachine, List.mem_map] at hx
  obtain ⟨y, _, rfl⟩ := hx
  exact Entry.synced_setCurrent _ _

theorem setCurrent_sync (v : K) (x : Entry K) : x.sync.setCurrent v = x.setCurrent v := by
  cases x <;> simp [Entry.sync, Entry.setCurrent, Circuit.sync, Circuit.setCurrent]

theorem setCurrent_setCurrent (v w : K) (x : Entry K) : (x.setCurrent w).setCurrent v = x.setCurrent v := by
  cases x <;> simp [Entry.setCurrent, Circuit.setCurrent]

theorem timesMachine_of_sync (k : K) (m : Machine K) : timesMachine k m.sync = timesMachine k m := by
  simp [timesMachine, Machine.sync, Function.comp_def, setCurrent_sync]

theorem timesEq_sync (k : K) (eq : Eq K) : (timesEq k eq).sync = timesEq k eq := by
  simp [timesEq, Eq.sync, timesMachine_sync]

theorem timesEq_of_sync (k : K) (eq : Eq K) : timesEq k eq.sync = timesEq k eq := by
  simp [timesEq, Eq.sync, timesMachine_of_sync]

theorem read_times (e : Env K) (k : K) (q : Quantity) (R Z : K) (eq : Eq K) :
    (timesEq k eq).read e q R Z = k * eq.read e q R Z := by
  simp only [Eq.read, Eq.field, Machine.field_fst, timesEq, timesMachine, List.map_map, Function.comp_def,
    Entry.current_setCurrent, Entry.response_setCurrent, mul_add, ← List.sum_map_mul_left, mul_assoc]

theorem response_times (e : Env K) (k : K) (q : Quantity) (R Z : K) (m : Machine K) :
    (timesMachine k m).controlResponse e q R Z = m.controlResponse e q R Z := by
  simp [Machine.controlResponse, timesMachine, List.filter_map, Function.comp_def]

theorem currents_times (k : K) (m : Machine K) :
    (timesMachine k m).controlCurrents = m.controlCurrents.map (k * ·) := by
  simp [Machine.controlCurrents, timesMachine, List.filter_map, Function.comp_def]

/-- Right-hand side multiplied. -/
def timesRow (k : K) (r : Row K) : Row K := (r.1, k * r.2)

theorem specRows_times (e : Env K) (k : K) (c : Constrain K) (eq : Eq K) :
    specRows e (timesConstrain k c) (timesEq k eq) = (specRows e c eq).map (timesRow k) := by
  have hr : ∀ q R Z, (timesEq k eq).machine.controlResponse e q R Z = eq.machine.controlResponse e q R Z :=
    fun q R Z => response_times e k q R Z eq.machine
  simp only [specRows, timesConstrain, List.map_append, List.map_flatten, List.map_map, Function.comp_def, read_times,
    hr, timesRow, List.map_cons, List.map_nil]
  refine congrArg₂ _ (congrArg₂ _ ?_ ?_) ?_
  · congr 1
    refine List.map_congr_left fun p _ => ?_
    simp only [mul_neg]
  · exact List.map_congr_left fun p _ => by rw [mul_sub]
  · exact List.map_congr_left fun p _ => by rw [mul_sub]

theorem tikhonov_times (k : K) (rs : List (Row K)) (n : ℕ) (gamma : K) (x : List K)
    (h : tikhonov rs n gamma = .ok x) : tikhonov (rs.map (timesRow k)) n gamma = .ok (x.map (k * ·)) := by
  have hm : normalMatrix (rs.map (timesRow k)) n gamma = normalMatrix rs n gamma := by
    funext i j
    simp [normalMatrix, timesRow, Function.comp_def]
  have hb : normalRhs (rs.map (timesRow k)) n = k • normalRhs rs n := by
    funext i
    simp only [normalRhs, timesRow, List.map_map, Function.comp_def, Pi.smul_apply, smul_eq_mul,
      ← List.sum_map_mul_left]
    congr 1
    exact List.map_congr_left fun r _ => by ring
  rw [tikhonov, hm]
  rw [tikhonov] at h
  split at h
  · cases h
  · rename_i M hM
    simp only [Except.ok.injEq] at h
    subst h
    simp only [hb, Matrix.mulVec_smul, List.map_ofFn]
    rfl

theorem dot_times (k : K) (a x : List K) : dot a (x.map (k * ·)) = k * dot a x := by
  simp only [dot]
  induction a generalizing x with
  | nil => simp
  | cons a as ih =>
    cases x with
    | nil => simp
    | cons x xs =>
      simp only [List.map_cons, List.zipWith_cons_cons, List.sum_cons, ih]
      ring

theorem objective_times (k : K) (rs : List (Row K)) (gamma : K) (x : List K) :
    objective (rs.map (timesRow k)) gamma (x.map (k * ·)) = k ^ 2 * objective rs gamma x := by
  simp only [objective, List.map_map, Function.comp_def, timesRow, dot_times, mul_add, ← List.sum_map_mul_left]
  refine congrArg₂ _ ?_ ?_
  · congr 1
    exact List.map_congr_left fun r _ => by ring
  · congr 1
    exact List.map_congr_left fun r _ => by ring

theorem slack_times (k t : K) (current x : List K) :
    totalSlack (current.map (k * ·)) (|k| * t) (x.map (k * ·)) = |k| * totalSlack current t x := by
  have h : (List.zipWith (fun d i => |d + i|) (x.map (k * ·)) (current.map (k * ·))).sum =
      |k| * (List.zipWith (fun d i => |d + i|) x current).sum := by
    induction x generalizing current with
    | nil => simp
    | cons x xs ih =>
      cases current with
      | nil => simp
      | cons i is =>
        simp only [List.map_cons, List.zipWith_cons_cons, List.sum_cons, ih, ← mul_add, abs_mul]
  rw [totalSlack, totalSlack, h]
  ring

/-- Optional limits multiplied. -/
def timesBound (k : K) (b : Option (K × K)) : Option (K × K) := b.map (timesLimits k)

theorem timesLimits_sub (k I : K) (l : K × K) :
    ((timesLimits k l).1 - k * I, (timesLimits k l).2 - k * I) = timesLimits k (l.1 - I, l.2 - I) := by
  unfold timesLimits
  split_ifs <;> simp [mul_sub]

theorem bounds_times (k : K) (lims : Option (List (K × K))) (n : ℕ) (m : Machine K) (bs : List (Option (K × K)))
    (h : bounds lims n m = .ok bs) :
    bounds (lims.map fun ls => ls.map (timesLimits k)) n (timesMachine k m) = .ok (bs.map (timesBound k)) := by
  cases lims with
  | none =>
    simp only [bounds, Except.ok.injEq] at h
    subst h
    simp [bounds, timesBound]
  | some ls =>
    simp only [bounds] at h
    split at h
    · rename_i hl
      simp only [Except.ok.injEq] at h
      subst h
      simp only [bounds, Option.map_some, List.length_map, timesMachine, hl, if_true]
      congr 1
      clear hl
      generalize m.coils = cs
      induction cs generalizing ls with
      | nil => simp
      | cons c cs ih =>
        cases ls with
        | nil => simp
        | cons l ls =>
          simp only [List.map_cons, List.zip_cons_cons, List.filterMap_cons, Entry.control_setCurrent, Entry.current_setCurrent, ih]
          cases c.2.control with
          | false => simp
          | true => simp [timesBound, timesLimits_sub]
    · cases h

theorem timesLimits_iff {k : K} (hk : k ≠ 0) (l : K × K) (v : K) :
    ((timesLimits k l).1 ≤ k * v ∧ k * v ≤ (timesLimits k l).2) ↔ l.1 ≤ v ∧ v ≤ l.2 := by
  unfold timesLimits
  split_ifs with h
  · have : 0 < k := lt_of_le_of_ne h (Ne.symm hk)
    simp [mul_le_mul_iff_right₀ this]
  · have : k < 0 := not_le.1 h
    simp only [mul_le_mul_left_of_neg this]
    exact And.comm

theorem forall2_times {k : K} (hk : k ≠ 0) (bs : List (Option (K × K))) (x : List K) :
    List.Forall₂ (fun b v => ∀ l u, b = some (l, u) → l ≤ v ∧ v ≤ u) (bs.map (timesBound k)) (x.map (k * ·)) ↔
      List.Forall₂ (fun b v => ∀ l u, b = some (l, u) → l ≤ v ∧ v ≤ u) bs x := by
  rw [List.forall₂_map_left_iff, List.forall₂_map_right_iff]
  have : ∀ (b : Option (K × K)) (v : K), (∀ l u, timesBound k b = some (l, u) → l ≤ k * v ∧ k * v ≤ u) ↔
      ∀ l u, b = some (l, u) → l ≤ v ∧ v ≤ u := by
    intro b v
    cases b with
    | none => simp [timesBound]
    | some b =>
      constructor
      · intro h l u hb
        cases hb
        exact (timesLimits_iff hk (l, u) v).1 (h _ _ rfl)
      · intro h l u hb
        simp only [timesBound, Option.map_some, Option.some.injEq] at hb
        have := (timesLimits_iff hk b v).2 (h b.1 b.2 rfl)
        rw [hb] at this
        exact this
  simp only [this]

theorem zipControl_times (k : K) (cs : List (String × Entry K)) : ∀ x : List K,
    Machine.zipControl (fun a b => a + b) (cs.map fun y => (y.1, y.2.setCurrent (k * y.2.current))) (x.map (k * ·)) =
      (Machine.zipControl (fun a b => a + b) cs x).map fun y => (y.1, y.2.setCurrent (k * y.2.current)) := by
  induction cs with
  | nil => intro x; simp [Machine.zipControl]
  | cons c cs ih =>
    intro x
    obtain ⟨l, c⟩ := c
    cases hc : c.control with
    | false =>
      rw [Machine.zipControl_false _ _ _ _ hc, List.map_cons, Machine.zipControl_false _ _ _ _ (by simpa using hc), ih,
        List.map_cons]
    | true =>
      cases x with
      | nil =>
        rw [Machine.zipControl_true_nil _ _ _ hc, List.map_cons, List.map_nil,
          Machine.zipControl_true_nil _ _ _ (by simpa using hc)]
      | cons v x =>
        rw [Machine.zipControl_true_cons _ _ _ _ _ hc, List.map_cons, List.map_cons,
          Machine.zipControl_true_cons _ _ _ _ _ (by simpa using hc), ih, List.map_cons]
        simp [setCurrent_setCurrent, mul_add]

theorem adjusted_times (k : K) (eq : Eq K) (x : List K) :
    (timesEq k eq).adjusted (x.map (k * ·)) = timesEq k (eq.adjusted x) := by
  simp only [Eq.adjusted, timesEq, timesMachine, Machine.controlAdjust]
  rw [zipControl_times]

/-! ### The minimiser is unique -/

theorem honours_mid {p : Problem K} {cur : List K} (hi : ∀ f ∈ p.ineq, ∃ t, f = totalSlack cur t) {x y : List K}
    (hx : p.Honours x) (hy : p.Honours y) : p.Honours (List.zipWith (fun a b => (a + b) / 2) x y) := by
  refine ⟨?_, fun f hf => ?_⟩
  · have h1 := hx.1
    have h2 := hy.1
    generalize p.bounds = bs at h1 h2
    clear hx hy
    induction h1 generalizing y with
    | nil => simp
    | cons h h1 ih =>
      cases h2 with
      | cons g h2 =>
        refine List.Forall₂.cons (fun l u hb => ?_) (ih h2)
        have a := h l u hb
        have b := g l u hb
        constructor <;> linarith [a.1, a.2, b.1, b.2]
  · obtain ⟨t, rfl⟩ := hi f hf
    have h1 := hx.2 _ hf
    have h2 := hy.2 _ hf
    have h0 : x.length = y.length := hx.1.length_eq.symm.trans hy.1.length_eq
    have : 2 * (List.zipWith (fun d i => |d + i|) (List.zipWith (fun a b => (a + b) / 2) x y) cur).sum ≤
        (List.zipWith (fun d i => |d + i|) x cur).sum + (List.zipWith (fun d i => |d + i|) y cur).sum := by
      clear hx hy h1 h2 hf hi
      induction x generalizing y cur with
      | nil => cases y with
        | nil => simp
        | cons _ _ => simp at h0
      | cons a x ih => cases y with
        | nil => simp at h0
        | cons b y => cases cur with
          | nil => simp
          | cons i cur =>
            have := ih (cur := cur) (y := y) (by simpa using h0)
            simp only [List.zipWith_cons_cons, List.sum_cons]
            have h3 : 2 * |(a + b) / 2 + i| ≤ |a + i| + |b + i| := by
              have := abs_add_le (a + i) (b + i)
              have e : a + i + (b + i) = 2 * ((a + b) / 2 + i) := by ring
              rw [e, abs_mul, abs_two] at this
              exact this
            linarith
    simp only [totalSlack] at h1 h2 ⊢
    linarith

theorem unique_min {rs : List (Row K)} {n : ℕ} {gamma : K} (hg : gamma ≠ 0) (hl : ∀ r ∈ rs, r.1.length = n) {x y : List K}
    (hx : x.length = n) (hy : y.length = n) (hxy : objective rs gamma x = objective rs gamma y)
    (hm : objective rs gamma x ≤ objective rs gamma (List.zipWith (fun a b => (a + b) / 2) x y)) : x = y := by
  have hz : (List.zipWith (fun a b => (a + b) / 2) x y).length = n := by simp [hx, hy]
  rw [objective_eq_J rs n gamma hl x hx, objective_eq_J rs n gamma hl _ hz] at hm
  rw [objective_eq_J rs n gamma hl x hx, objective_eq_J rs n gamma hl y hy] at hxy
  set v : Fin n → K := fun i => x.getD i 0 with hv
  set d : Fin n → K := fun i => y.getD i 0 - x.getD i 0 with hd
  have e1 : (fun i : Fin n => y.getD i 0) = v + d := by funext i; simp [hv, hd]
  have e2 : (fun i : Fin n => (List.zipWith (fun a b => (a + b) / 2) x y).getD i 0) = v + fun i => d i / 2 := by
    funext i
    have h1 : (i : ℕ) < x.length := hx ▸ i.2
    have h2 : (i : ℕ) < y.length := hy ▸ i.2
    simp [hv, hd, List.getD_eq_getElem?_getD, List.getElem?_zipWith, h1, h2]
    ring
  rw [e1, J_expand] at hxy
  rw [e2, J_expand] at hm
  have h1 : ∑ i, d i / 2 * ((normalMatrix rs n gamma).mulVec v i - normalRhs rs n i) =
      (∑ i, d i * ((normalMatrix rs n gamma).mulVec v i - normalRhs rs n i)) / 2 := by
    rw [Finset.sum_div]
    exact Finset.sum_congr rfl fun i _ => by ring
  have h2 : ∀ r : List K, rdot n r (fun i => d i / 2) = rdot n r d / 2 := by
    intro r
    simp only [rdot, Finset.sum_div]
    exact Finset.sum_congr rfl fun i _ => by ring
  have h3 : (rs.map fun r => (rdot n r.1 fun i => d i / 2) ^ 2).sum = (rs.map fun r => (rdot n r.1 d) ^ 2).sum / 4 := by
    rw [div_eq_mul_inv, ← List.sum_map_mul_right]
    congr 1
    exact List.map_congr_left fun r _ => by rw [h2]; ring
  have h4 : ∑ i, (d i / 2) ^ 2 = (∑ i, d i ^ 2) / 4 := by
    rw [Finset.sum_div]
    exact Finset.sum_congr rfl fun i _ => by ring
  rw [h1, h3, h4] at hm
  have h5 : 0 ≤ (rs.map fun r => (rdot n r.1 d) ^ 2).sum :=
    List.sum_nonneg (by simp only [List.mem_map, forall_exists_index, and_imp]; rintro _ x _ rfl; positivity)
  have h6 : gamma ^ 2 * ∑ i, d i ^ 2 ≤ 0 := by linarith
  have h7 : 0 < gamma ^ 2 := by positivity
  have h8 : ∑ i, d i ^ 2 = 0 := le_antisymm (by nlinarith) (Finset.sum_nonneg fun i _ => sq_nonneg _)
  have h9 := (Finset.sum_eq_zero_iff_of_nonneg fun i _ => sq_nonneg (d i)).1 h8
  refine List.ext_getElem (hx.trans hy.symm) fun i h1 h2 => ?_
  have := h9 ⟨i, hx ▸ h1⟩ (Finset.mem_univ _)
  simp [hd, h1, h2] at this
  exact (sub_eq_zero.1 this).symm

end FreeGS.Control
