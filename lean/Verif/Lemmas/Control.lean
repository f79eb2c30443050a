import Verif.Spec.Control
import Verif.Lemmas.Forces
import Mathlib.LinearAlgebra.Matrix.ToLinearEquiv
import Mathlib.Algebra.BigOperators.Fin
import Mathlib.Algebra.Order.BigOperators.Group.List
import Mathlib.Algebra.Order.BigOperators.Ring.Finset

/-!
# Helper lemmas for the control system
-/

set_option linter.unusedSectionVars false

namespace FreeGS

variable {K : Type*} [Field K] [LinearOrder K]

namespace Machine

theorem sync_sync (m : Machine K) : m.sync.sync = m.sync := sync_of_synced (synced_sync m)

theorem field_sync_fst (e : Env K) (q : Quantity) (R Z : K) (m : Machine K) :
    (m.sync.field e q R Z).1 = (m.field e q R Z).1 := by
  simp [field_fst, sync, Function.comp_def]

theorem controlResponse_sync (e : Env K) (q : Quantity) (R Z : K) (m : Machine K) :
    m.sync.controlResponse e q R Z = m.controlResponse e q R Z := by
  simp [controlResponse, sync, List.filter_map, Function.comp_def]

theorem controlCurrents_sync (m : Machine K) : m.sync.controlCurrents = m.controlCurrents := by
  simp [controlCurrents, sync, List.filter_map, Function.comp_def]

theorem controlResponse_length (e : Env K) (q : Quantity) (R Z : K) (m : Machine K) :
    (m.controlResponse e q R Z).length = m.controlCurrents.length := by
  simp [controlResponse, controlCurrents]

theorem controlAdjust_field_fst (e : Env K) (q : Quantity) (R Z : K) (m : Machine K) (v : List K) :
    ((m.controlAdjust v).field e q R Z).1 = (m.field e q R Z).1 +
      (List.zipWith (· * ·) v (m.controlResponse e q R Z)).sum := by
  rw [field_fst, field_fst, controlAdjust, adjust_field e q R Z m.coils v]

end Machine

namespace Control

/-- The equilibrium after a field has been read. -/
def Eq.sync (eq : Eq K) : Eq K := { eq with machine := eq.machine.sync }

theorem Eq.sync_sync (eq : Eq K) : eq.sync.sync = eq.sync := by
  simp [Eq.sync, Machine.sync_sync]

theorem Eq.field_snd (e : Env K) (q : Quantity) (R Z : K) (eq : Eq K) :
    (eq.field e q R Z).2 = eq.sync := by simp [Eq.field, Eq.sync, Machine.field_snd]

theorem Eq.field_fst (e : Env K) (q : Quantity) (R Z : K) (eq : Eq K) :
    (eq.field e q R Z).1 = eq.read e q R Z := rfl

@[simp] theorem Eq.read_sync (e : Env K) (q : Quantity) (R Z : K) (eq : Eq K) :
    eq.sync.read e q R Z = eq.read e q R Z := by
  simp [Eq.read, Eq.field, Eq.sync, Machine.field_sync_fst]

@[simp] theorem Eq.response_sync (e : Env K) (q : Quantity) (R Z : K) (eq : Eq K) :
    eq.sync.machine.controlResponse e q R Z = eq.machine.controlResponse e q R Z := by
  simp [Eq.sync, Machine.controlResponse_sync]

theorem Eq.read_adjusted (e : Env K) (q : Quantity) (R Z : K) (eq : Eq K) (y : List K) :
    (eq.adjusted y).read e q R Z = eq.read e q R Z + dot (eq.machine.controlResponse e q R Z) y := by
  simp only [Eq.read, Eq.field, Eq.adjusted, Machine.controlAdjust_field_fst, dot]
  rw [List.zipWith_comm_of_comm (fun a b => mul_comm a b)]
  ring

/-- The rows in closed form. -/
def specRows (e : Env K) (c : Constrain K) (eq : Eq K) : List (Row K) :=
  (c.xpoints.map fun p => [(eq.machine.controlResponse e .br p.1 p.2, -eq.read e .br p.1 p.2),
    (eq.machine.controlResponse e .bz p.1 p.2, -eq.read e .bz p.1 p.2)]).flatten ++
  (c.isoflux.map fun p => (List.zipWith (fun a b => a - b) (eq.machine.controlResponse e .psi p.1 p.2.1)
    (eq.machine.controlResponse e .psi p.2.2.1 p.2.2.2),
      eq.read e .psi p.2.2.1 p.2.2.2 - eq.read e .psi p.1 p.2.1)) ++
  (c.psivals.map fun p => (eq.machine.controlResponse e .psi p.1 p.2.1, p.2.2 - eq.read e .psi p.1 p.2.1))

theorem xpointRows_eq (e : Env K) (l : List (K × K)) : ∀ eq : Eq K,
    (xpointRows e l eq).1 = (l.map fun p =>
      [(eq.machine.controlResponse e .br p.1 p.2, -eq.read e .br p.1 p.2),
        (eq.machine.controlResponse e .bz p.1 p.2, -eq.read e .bz p.1 p.2)]).flatten ∧
    ((xpointRows e l eq).2 = eq ∨ (xpointRows e l eq).2 = eq.sync) := by
  induction l with
  | nil => intro eq; simp [xpointRows]
  | cons p l ih =>
    intro eq
    have h := ih eq.sync
    simp only [xpointRows, Eq.field_snd, Eq.sync_sync, Eq.field_fst, Eq.read_sync, Eq.response_sync] at h ⊢
    exact ⟨by rw [h.1]; simp, Or.inr (by rcases h.2 with h | h <;> exact h)⟩

theorem isofluxRows_eq (e : Env K) (l : List (K × K × K × K)) : ∀ eq : Eq K,
    (isofluxRows e l eq).1 = (l.map fun p =>
      (List.zipWith (fun a b => a - b) (eq.machine.controlResponse e .psi p.1 p.2.1)
        (eq.machine.controlResponse e .psi p.2.2.1 p.2.2.2),
          eq.read e .psi p.2.2.1 p.2.2.2 - eq.read e .psi p.1 p.2.1)) ∧
    ((isofluxRows e l eq).2 = eq ∨ (isofluxRows e l eq).2 = eq.sync) := by
  induction l with
  | nil => intro eq; simp [isofluxRows]
  | cons p l ih =>
    intro eq
    obtain ⟨r1, z1, r2, z2⟩ := p
    have h := ih eq.sync
    simp only [isofluxRows, Eq.field_snd, Eq.sync_sync, Eq.field_fst, Eq.read_sync, Eq.response_sync] at h ⊢
    exact ⟨by rw [h.1]; simp, Or.inr (by rcases h.2 with h | h <;> exact h)⟩

theorem psivalRows_eq (e : Env K) (l : List (K × K × K)) : ∀ eq : Eq K,
    (psivalRows e l eq).1 = (l.map fun p =>
      (eq.machine.controlResponse e .psi p.1 p.2.1, p.2.2 - eq.read e .psi p.1 p.2.1)) ∧
    ((psivalRows e l eq).2 = eq ∨ (psivalRows e l eq).2 = eq.sync) := by
  induction l with
  | nil => intro eq; simp [psivalRows]
  | cons p l ih =>
    intro eq
    obtain ⟨r, z, v⟩ := p
    have h := ih eq.sync
    simp only [psivalRows, Eq.field_snd, Eq.sync_sync, Eq.field_fst, Eq.read_sync, Eq.response_sync] at h ⊢
    exact ⟨by rw [h.1]; simp, Or.inr (by rcases h.2 with h | h <;> exact h)⟩

theorem rows_eq (e : Env K) (c : Constrain K) (eq : Eq K) :
    (rows e c eq).1 = specRows e c eq ∧ ((rows e c eq).2 = eq ∨ (rows e c eq).2 = eq.sync) := by
  obtain ⟨h1, h2⟩ := xpointRows_eq e c.xpoints eq
  obtain ⟨h3, h4⟩ := isofluxRows_eq e c.isoflux (xpointRows e c.xpoints eq).2
  obtain ⟨h5, h6⟩ := psivalRows_eq e c.psivals (isofluxRows e c.isoflux (xpointRows e c.xpoints eq).2).2
  have e2 : ∀ x : Eq K, (x = eq ∨ x = eq.sync) → ∀ y : Eq K, (y = x ∨ y = x.sync) →
      (y = eq ∨ y = eq.sync) := by
    rintro x (rfl | rfl) y (rfl | rfl)
    · exact Or.inl rfl
    · exact Or.inr rfl
    · exact Or.inr rfl
    · exact Or.inr (by rw [Eq.sync_sync])
  have g2 := e2 _ h2 _ h4
  have g3 := e2 _ g2 _ h6
  refine ⟨?_, g3⟩
  simp only [rows, specRows, h1, h3, h5]
  have hr : ∀ x : Eq K, (x = eq ∨ x = eq.sync) → (∀ q R Z, x.read e q R Z = eq.read e q R Z) ∧
      ∀ q R Z, x.machine.controlResponse e q R Z = eq.machine.controlResponse e q R Z := by
    rintro x (rfl | rfl) <;> simp
  simp only [(hr _ h2).1, (hr _ h2).2, (hr _ g2).1, (hr _ g2).2]

theorem specRows_length (e : Env K) (c : Constrain K) (eq : Eq K) :
    ∀ r ∈ specRows e c eq, r.1.length = eq.machine.controlCurrents.length := by
  intro r hr
  simp only [specRows, List.mem_append, List.mem_flatten, List.mem_map] at hr
  rcases hr with (⟨l, ⟨p, _, rfl⟩, hr⟩ | ⟨p, _, rfl⟩) | ⟨p, _, rfl⟩
  · simp only [List.mem_cons, List.not_mem_nil, or_false] at hr
    rcases hr with rfl | rfl <;> exact Machine.controlResponse_length _ _ _ _ _
  · simp [Machine.controlResponse_length]
  · exact Machine.controlResponse_length _ _ _ _ _

theorem dot_sub (a b : List K) (h : a.length = b.length) (y : List K) :
    dot (List.zipWith (fun a b => a - b) a b) y = dot a y - dot b y := by
  induction a generalizing b y with
  | nil => cases b with
    | nil => simp [dot]
    | cons _ _ => simp at h
  | cons x a ih =>
    cases b with
    | nil => simp at h
    | cons z b =>
      cases y with
      | nil => simp [dot]
      | cons w y =>
        have := ih b (by simpa using h) y
        simp only [dot, List.zipWith_cons_cons, List.sum_cons] at this ⊢
        rw [this]; ring

/-- The residual of each row is the constraint error after the adjustment. -/
theorem residuals (e : Env K) (c : Constrain K) (eq : Eq K) (y : List K) :
    (specRows e c eq).map (fun r => dot r.1 y - r.2) = constraintErrors e c (eq.adjusted y) := by
  simp only [specRows, constraintErrors, List.map_append, List.map_map, List.map_flatten]
  congr 1
  · congr 1
    · congr 1
      refine List.map_congr_left fun p _ => ?_
      simp only [Function.comp_apply, List.map_cons, List.map_nil, Eq.read_adjusted]
      refine congrArg₂ _ (by ring) (congrArg₂ _ (by ring) rfl)
    · refine List.map_congr_left fun p _ => ?_
      simp only [Function.comp_apply, Eq.read_adjusted]
      rw [dot_sub _ _ (by simp [Machine.controlResponse_length])]
      ring
  · refine List.map_congr_left fun p _ => ?_
    simp only [Function.comp_apply, Eq.read_adjusted]
    ring

theorem objective_eq (e : Env K) (c : Constrain K) (eq : Eq K) (gamma : K) (y : List K) :
    objective (specRows e c eq) gamma y =
      sumSq (constraintErrors e c (eq.adjusted y)) + gamma ^ 2 * sumSq y := by
  rw [← residuals, objective, sumSq, sumSq, List.map_map, ← List.sum_map_mul_left]
  refine congrArg₂ _ rfl ?_
  congr 1
  exact List.map_congr_left fun v _ => by ring

variable [IsStrictOrderedRing K]

theorem sumSq_nonneg (l : List K) : 0 ≤ sumSq l :=
  List.sum_nonneg (by simp only [List.mem_map, forall_exists_index, and_imp]; rintro _ x _ rfl; positivity)

theorem sumSq_eq_zero (l : List K) : sumSq l = 0 ↔ ∀ x ∈ l, x = 0 := by
  induction l with
  | nil => simp [sumSq]
  | cons a l ih =>
    have h1 : sumSq (a :: l) = a ^ 2 + sumSq l := by simp [sumSq]
    have h2 := sumSq_nonneg l
    rw [h1, List.forall_mem_cons, ← ih]
    constructor
    · intro h
      have ha : 0 ≤ a ^ 2 := sq_nonneg a
      have : a ^ 2 = 0 := by linarith
      exact ⟨by simpa using this, by linarith⟩
    · rintro ⟨rfl, h⟩
      rw [h]; ring

theorem met_iff (e : Env K) (c : Constrain K) (eq : Eq K) :
    Met e c eq ↔ ∀ x ∈ constraintErrors e c eq, x = 0 := by
  simp only [Met, constraintErrors, List.mem_append, List.mem_flatten, List.mem_map]
  constructor
  · rintro ⟨h1, h2, h3⟩ x ((⟨l, ⟨p, hp, rfl⟩, hx⟩ | ⟨p, hp, rfl⟩) | ⟨p, hp, rfl⟩)
    · simp only [List.mem_cons, List.not_mem_nil, or_false] at hx
      rcases hx with rfl | rfl
      · exact (h1 p hp).1
      · exact (h1 p hp).2
    · exact sub_eq_zero.mpr (h2 _ _ _ _ hp)
    · exact sub_eq_zero.mpr (h3 _ _ _ hp)
  · intro h
    refine ⟨fun p hp => ⟨h _ (Or.inl (Or.inl ⟨_, ⟨p, hp, rfl⟩, by simp⟩)),
      h _ (Or.inl (Or.inl ⟨_, ⟨p, hp, rfl⟩, by simp⟩))⟩, fun r1 z1 r2 z2 hp => ?_, fun r z v hp => ?_⟩
    · exact sub_eq_zero.mp (h _ (Or.inl (Or.inr ⟨_, hp, rfl⟩)))
    · exact sub_eq_zero.mp (h _ (Or.inr ⟨_, hp, rfl⟩))

/-! ### Tikhonov -/

/-- Row times vector over `Fin n`. -/
def rdot (n : ℕ) (r : List K) (v : Fin n → K) : K := ∑ i : Fin n, r.getD i 0 * v i

theorem dot_eq_rdot {n : ℕ} (r x : List K) (hr : r.length = n) (hx : x.length = n) :
    dot r x = rdot n r (fun i => x.getD i 0) := by
  subst hr
  induction r generalizing x with
  | nil => simp [dot, rdot]
  | cons a r ih =>
    cases x with
    | nil => simp at hx
    | cons b x =>
      have := ih x (by simpa using hx)
      simp only [dot, rdot, List.zipWith_cons_cons, List.sum_cons, List.length_cons] at this ⊢
      rw [Fin.sum_univ_succ, this]
      simp

theorem sumSq_eq {n : ℕ} (x : List K) (hx : x.length = n) :
    sumSq x = ∑ i : Fin n, (x.getD i 0) ^ 2 := by
  subst hx
  induction x with
  | nil => simp [sumSq]
  | cons a x ih =>
    have h1 : sumSq (a :: x) = a ^ 2 + sumSq x := by simp [sumSq]
    rw [h1, ih]
    simp only [List.length_cons]
    rw [Fin.sum_univ_succ]
    simp

/-- The objective over `Fin n`. -/
def J (rs : List (Row K)) (n : ℕ) (gamma : K) (v : Fin n → K) : K :=
  (rs.map fun r => (rdot n r.1 v - r.2) ^ 2).sum + gamma ^ 2 * ∑ i, v i ^ 2

theorem objective_eq_J (rs : List (Row K)) (n : ℕ) (gamma : K) (h : ∀ r ∈ rs, r.1.length = n) (x : List K)
    (hx : x.length = n) : objective rs gamma x = J rs n gamma fun i => x.getD i 0 := by
  rw [objective, J, ← sumSq_eq x hx, sumSq, ← List.sum_map_mul_left]
  refine congrArg₂ _ ?_ ?_
  · congr 1
    exact List.map_congr_left fun r hr => by rw [dot_eq_rdot r.1 x (h r hr) hx]
  · congr 1
    exact List.map_congr_left fun v _ => by ring

theorem mulVec_normal (rs : List (Row K)) (n : ℕ) (gamma : K) (v : Fin n → K) (i : Fin n) :
    (normalMatrix rs n gamma).mulVec v i =
      (rs.map fun r => r.1.getD i 0 * rdot n r.1 v).sum + gamma ^ 2 * v i := by
  have h1 : ∀ rs : List (Row K), ∑ j : Fin n, (rs.map fun r => r.1.getD i 0 * r.1.getD j 0).sum * v j =
      (rs.map fun r => r.1.getD i 0 * rdot n r.1 v).sum := by
    intro rs
    induction rs with
    | nil => simp
    | cons r rs ih =>
      simp only [List.map_cons, List.sum_cons, add_mul, Finset.sum_add_distrib, ih, rdot,
        Finset.mul_sum, mul_assoc]
  simp only [Matrix.mulVec, dotProduct, normalMatrix, add_mul, Finset.sum_add_distrib, h1]
  congr 1
  simp

/-- The cross term of the expansion around `v`. -/
theorem cross_term (rs : List (Row K)) (n : ℕ) (gamma : K) (v d : Fin n → K) :
    (rs.map fun r => (rdot n r.1 v - r.2) * rdot n r.1 d).sum + gamma ^ 2 * ∑ i, v i * d i =
      ∑ i, d i * ((normalMatrix rs n gamma).mulVec v i - normalRhs rs n i) := by
  have h1 : ∀ rs : List (Row K), (rs.map fun r => (rdot n r.1 v - r.2) * rdot n r.1 d).sum =
      ∑ i : Fin n, d i * ((rs.map fun r => r.1.getD i 0 * rdot n r.1 v).sum -
        (rs.map fun r => r.1.getD i 0 * r.2).sum) := by
    intro rs
    induction rs with
    | nil => simp
    | cons r rs ih =>
      simp only [List.map_cons, List.sum_cons, ih]
      have : rdot n r.1 d = ∑ i : Fin n, r.1.getD i 0 * d i := rfl
      rw [this, Finset.mul_sum, ← Finset.sum_add_distrib]
      refine Finset.sum_congr rfl fun i _ => ?_
      ring
  rw [h1, Finset.mul_sum, ← Finset.sum_add_distrib]
  refine Finset.sum_congr rfl fun i _ => ?_
  rw [mulVec_normal, normalRhs]
  ring

theorem rdot_add (n : ℕ) (r : List K) (v d : Fin n → K) : rdot n r (v + d) = rdot n r v + rdot n r d := by
  simp [rdot, mul_add, Finset.sum_add_distrib]

theorem J_expand (rs : List (Row K)) (n : ℕ) (gamma : K) (v d : Fin n → K) :
    J rs n gamma (v + d) = J rs n gamma v +
      2 * ∑ i, d i * ((normalMatrix rs n gamma).mulVec v i - normalRhs rs n i) +
      ((rs.map fun r => (rdot n r.1 d) ^ 2).sum + gamma ^ 2 * ∑ i, d i ^ 2) := by
  rw [← cross_term]
  have h1 : ∀ rs : List (Row K), (rs.map fun r => (rdot n r.1 (v + d) - r.2) ^ 2).sum =
      (rs.map fun r => (rdot n r.1 v - r.2) ^ 2).sum +
        2 * (rs.map fun r => (rdot n r.1 v - r.2) * rdot n r.1 d).sum +
        (rs.map fun r => (rdot n r.1 d) ^ 2).sum := by
    intro rs
    induction rs with
    | nil => simp
    | cons r rs ih =>
      rw [List.map_cons, List.sum_cons, ih]
      simp only [List.map_cons, List.sum_cons, rdot_add]
      ring
  have h2 : ∑ i, (v + d) i ^ 2 = ∑ i, v i ^ 2 + 2 * ∑ i, v i * d i + ∑ i, d i ^ 2 := by
    rw [Finset.mul_sum, ← Finset.sum_add_distrib, ← Finset.sum_add_distrib]
    refine Finset.sum_congr rfl fun i _ => ?_
    simp only [Pi.add_apply]; ring
  simp only [J, h1, h2]
  ring

theorem sq_form_pos (rs : List (Row K)) (n : ℕ) (gamma : K) (hg : gamma ≠ 0) (d : Fin n → K) (hd : d ≠ 0) :
    0 < (rs.map fun r => (rdot n r.1 d) ^ 2).sum + gamma ^ 2 * ∑ i, d i ^ 2 := by
  have h1 : 0 ≤ (rs.map fun r => (rdot n r.1 d) ^ 2).sum := by
    apply List.sum_nonneg
    simp only [List.mem_map, forall_exists_index, and_imp]
    rintro _ r _ rfl
    exact sq_nonneg _
  have h2 : 0 < ∑ i, d i ^ 2 := by
    obtain ⟨i, hi⟩ := Function.ne_iff.mp hd
    exact Finset.sum_pos' (fun j _ => sq_nonneg _) ⟨i, Finset.mem_univ _, by
      have : d i ≠ 0 := hi
      positivity⟩
  have h3 : 0 < gamma ^ 2 := by positivity
  have := mul_pos h3 h2
  linarith

theorem det_ne_zero (rs : List (Row K)) (n : ℕ) (gamma : K) (hg : gamma ≠ 0) :
    (normalMatrix rs n gamma).det ≠ 0 := by
  intro h
  obtain ⟨v, hv, hz⟩ := Matrix.exists_mulVec_eq_zero_iff.mpr h
  have h1 := cross_term (rs.map fun r => (r.1, 0)) n gamma v v
  have h2 := sq_form_pos rs n gamma hg v hv
  have e1 : normalMatrix (rs.map fun r => (r.1, (0 : K))) n gamma = normalMatrix rs n gamma := by
    funext i j; simp [normalMatrix, Function.comp_def]
  have e2 : normalRhs (rs.map fun r => (r.1, (0 : K))) n = 0 := by
    funext i; simp [normalRhs, Function.comp_def]
  rw [e1, e2, hz] at h1
  simp only [List.map_map, Function.comp_def, sub_zero, Pi.zero_apply, mul_zero, Finset.sum_const_zero] at h1
  have e3 : (rs.map fun r => rdot n r.1 v * rdot n r.1 v) = rs.map fun r => (rdot n r.1 v) ^ 2 :=
    List.map_congr_left fun r _ => by ring
  have e4 : ∑ i, v i * v i = ∑ i, v i ^ 2 := Finset.sum_congr rfl fun i _ => by ring
  rw [e3, e4] at h1
  linarith

theorem tikhonov_spec (rs : List (Row K)) (n : ℕ) (gamma : K) (hg : gamma ≠ 0) :
    ∃ x, tikhonov rs n gamma = .ok x ∧ x.length = n ∧
      ∀ i, (normalMatrix rs n gamma).mulVec (fun i => x.getD i 0) i = normalRhs rs n i := by
  have hd := det_ne_zero rs n gamma hg
  refine ⟨_, by simp only [tikhonov, inv, if_neg hd]; rfl, by simp, fun i => ?_⟩
  have e : (fun i : Fin n => (List.ofFn (((normalMatrix rs n gamma).det⁻¹ •
      (normalMatrix rs n gamma).adjugate).mulVec (normalRhs rs n))).getD i 0) =
      ((normalMatrix rs n gamma).det⁻¹ • (normalMatrix rs n gamma).adjugate).mulVec (normalRhs rs n) := by
    funext i
    simp [List.getD_eq_getElem?_getD]
  rw [e, Matrix.mulVec_mulVec, Matrix.mul_smul, Matrix.mul_adjugate, smul_smul, inv_mul_cancel₀ hd,
    one_smul, Matrix.one_mulVec]

end Control
end FreeGS
