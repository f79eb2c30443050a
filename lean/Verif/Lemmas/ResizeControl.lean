import Verif.Lemmas.Resize
import Verif.Lemmas.ScaledControl

/-!
# Lemmas about the control system in another size
-/

set_option linter.unusedSectionVars false

namespace FreeGS.Control

variable {K : Type*} [Field K] [LinearOrder K] [IsStrictOrderedRing K] {e : Env K} {l : K}

theorem read_resize (hG : ScalesBy l l (e.G .psi)) (hl : l ≠ 0) (R Z : K) (eq : Eq K) (hm : eq.machine.Resizable) :
    (eq.resize l).read e .psi (l * R) (l * Z) = l * eq.read e .psi R Z := by
  simp only [Eq.read, Eq.field, Eq.resize, Machine.field_resize hG R Z eq.machine hm, mul_div_cancel_left₀ _ hl, mul_add]

theorem sync_resize (l : K) (eq : Eq K) : (eq.resize l).sync = eq.sync.resize l := by
  simp only [Eq.sync, Eq.resize, Machine.sync_resize]

/-- Both sides of a row multiplied. -/
def bothTimes (k : K) (r : Row K) : Row K := (r.1.map (k * ·), k * r.2)

theorem specRows_resize (hG : ScalesBy l l (e.G .psi)) (hl : l ≠ 0) (c : Constrain K) (hx : c.xpoints = []) (g : K) (eq : Eq K)
    (hm : eq.machine.Resizable) : specRows e (c.resize l g) (eq.resize l) = (specRows e c eq).map (bothTimes l) := by
  have hr : ∀ R Z, (eq.resize l).machine.controlResponse e .psi (l * R) (l * Z) = (eq.machine.controlResponse e .psi R Z).map (l * ·) :=
    fun R Z => Machine.controlResponse_resize hG R Z eq.machine hm
  have hz : ∀ a b : List K, List.zipWith (fun a b => a - b) (a.map (l * ·)) (b.map (l * ·)) = (List.zipWith (fun a b => a - b) a b).map (l * ·) := by
    intro a b
    rw [List.zipWith_map, List.map_zipWith]
    simp only [mul_sub]
  simp only [specRows, Constrain.resize, hx, List.map_nil, List.flatten_nil, List.nil_append, List.map_append, List.map_map, Function.comp_def,
    read_resize hG hl _ _ _ hm, hr, hz, bothTimes, mul_sub]

theorem isofluxRows_state (ps : List (K × K × K × K)) (eq : Eq K) : (isofluxRows e ps eq).2 = if ps.isEmpty then eq else eq.sync := by
  cases ps with
  | nil => rfl
  | cons p ps =>
    rcases (isofluxRows_eq e ps eq.sync).2 with h | h <;>
      simp [isofluxRows, Eq.field_snd, Eq.sync_sync, h]

theorem psivalRows_state (ps : List (K × K × K)) (eq : Eq K) : (psivalRows e ps eq).2 = if ps.isEmpty then eq else eq.sync := by
  cases ps with
  | nil => rfl
  | cons p ps =>
    rcases (psivalRows_eq e ps eq.sync).2 with h | h <;>
      simp [psivalRows, Eq.field_snd, Eq.sync_sync, h]

theorem rows_resize (hG : ScalesBy l l (e.G .psi)) (hl : l ≠ 0) (c : Constrain K) (hx : c.xpoints = []) (g : K) (eq : Eq K)
    (hm : eq.machine.Resizable) : rows e (c.resize l g) (eq.resize l) = ((rows e c eq).1.map (bothTimes l), (rows e c eq).2.resize l) := by
  refine Prod.ext ?_ ?_
  · rw [(rows_eq e _ _).1, (rows_eq e _ _).1, specRows_resize hG hl c hx g eq hm]
  · simp only [rows, Constrain.resize, hx, List.map_nil, xpointRows, isofluxRows_state, psivalRows_state, List.isEmpty_map]
    split <;> split <;> simp [sync_resize]

theorem tikhonov_both {k : K} (hk : k ≠ 0) (rs : List (Row K)) (n : ℕ) (gamma : K) (x : List K)
    (h : tikhonov rs n gamma = .ok x) : tikhonov (rs.map (bothTimes k)) n (k * gamma) = .ok x := by
  have hg : ∀ (a : List K) (i : ℕ), (a.map (k * ·)).getD i 0 = k * a.getD i 0 := by
    intro a i
    rw [List.getD_eq_getElem?_getD, List.getD_eq_getElem?_getD, List.getElem?_map]
    cases a[i]? <;> simp
  have hm : normalMatrix (rs.map (bothTimes k)) n (k * gamma) = k ^ 2 • normalMatrix rs n gamma := by
    funext i j
    simp only [normalMatrix, bothTimes, List.map_map, Function.comp_def, hg, Matrix.smul_apply, smul_eq_mul, mul_add, ← List.sum_map_mul_left]
    congr 1
    · congr 1
      exact List.map_congr_left fun r _ => by ring
    · ring
  have hb : normalRhs (rs.map (bothTimes k)) n = k ^ 2 • normalRhs rs n := by
    funext i
    simp only [normalRhs, bothTimes, List.map_map, Function.comp_def, hg, Pi.smul_apply, smul_eq_mul, ← List.sum_map_mul_left]
    congr 1
    exact List.map_congr_left fun r _ => by ring
  have hk2 : k ^ 2 ≠ 0 := pow_ne_zero 2 hk
  rw [tikhonov, hm, hb]
  rw [tikhonov] at h
  split at h
  · cases h
  · rename_i M hM
    rw [inv] at hM
    split at hM
    · cases hM
    · rename_i hd
      cases hM
      simp only [Except.ok.injEq] at h
      subst h
      have hd' : (k ^ 2 • normalMatrix rs n gamma).det ≠ 0 := by
        rw [Matrix.det_smul]
        exact mul_ne_zero (pow_ne_zero _ hk2) hd
      rw [inv, if_neg hd']
      simp only [Except.ok.injEq]
      congr 1
      have inv1 : ∀ A : Matrix (Fin n) (Fin n) K, A.det ≠ 0 → A.det⁻¹ • A.adjugate = A⁻¹ := by
        intro A hA
        rw [Matrix.inv_def, Ring.inverse_eq_inv']
      rw [inv1 _ hd, inv1 _ hd']
      have hu : IsUnit (normalMatrix rs n gamma).det := isUnit_iff_ne_zero.2 hd
      have : (k ^ 2 • normalMatrix rs n gamma)⁻¹ = (k ^ 2)⁻¹ • (normalMatrix rs n gamma)⁻¹ := by
        refine Matrix.inv_eq_right_inv ?_
        rw [Matrix.smul_mul, Matrix.mul_smul, smul_smul, mul_inv_cancel₀ hk2, one_smul, Matrix.mul_nonsing_inv _ hu]
      rw [this, Matrix.smul_mulVec, Matrix.mulVec_smul, smul_smul, inv_mul_cancel₀ hk2, one_smul]

theorem dot_both (k : K) (a x : List K) : dot (a.map (k * ·)) x = k * dot a x := by
  simp only [dot]
  induction a generalizing x with
  | nil => simp
  | cons a as ih =>
    cases x with
    | nil => simp
    | cons x xs =>
      simp only [List.map_cons, List.zipWith_cons_cons, List.sum_cons, ih]
      ring

theorem objective_both (k : K) (rs : List (Row K)) (gamma : K) (x : List K) :
    objective (rs.map (bothTimes k)) (k * gamma) x = k ^ 2 * objective rs gamma x := by
  simp only [objective, List.map_map, Function.comp_def, bothTimes, dot_both, mul_add, ← List.sum_map_mul_left]
  refine congrArg₂ _ ?_ ?_
  · congr 1
    exact List.map_congr_left fun r _ => by ring
  · congr 1
    exact List.map_congr_left fun r _ => by ring

theorem bounds_resize (l : K) (lims : Option (List (K × K))) (n : ℕ) (m : Machine K) : bounds lims n (m.resize l) = bounds lims n m := by
  cases lims with
  | none => rfl
  | some ls =>
    simp only [bounds, Machine.resize, List.length_map, List.zip_map_left, List.filterMap_map, Function.comp_def, Prod.map_fst, Prod.map_snd,
      id_eq, Entry.control_resize, Entry.current_resize]

end FreeGS.Control

namespace FreeGS

variable {K : Type*} [Field K] [LinearOrder K]

theorem AnyCoil.resizable_setCurrent (v : K) (c : AnyCoil K) (h : c.Resizable) : (c.setCurrent v).Resizable := by
  cases c <;> exact h

theorem AnyCoil.resizable_resize (l : K) (c : AnyCoil K) (h : c.Resizable) : (c.resize l).Resizable := by
  cases c <;> exact h

/-- The entry can be resized. -/
def Entry.Resizable : Entry K → Prop
  | .coil c => c.Resizable
  | .circuit k => ∀ y ∈ k.coils, y.2.1.Resizable
  | .solenoid _ => True

theorem Machine.resizable_iff (m : Machine K) : m.Resizable ↔ ∀ x ∈ m.coils, x.2.Resizable := by
  refine forall₂_congr fun x _ => ?_
  cases x.2 <;> rfl

theorem Entry.resizable_setCurrent (v : K) (x : Entry K) (h : x.Resizable) : (x.setCurrent v).Resizable := by
  cases x with
  | coil c => exact AnyCoil.resizable_setCurrent v c h
  | solenoid s => trivial
  | circuit k =>
    intro z hz
    simp only [Circuit.setCurrent, List.mem_map] at hz
    obtain ⟨w, hw, rfl⟩ := hz
    exact AnyCoil.resizable_setCurrent _ _ (h w hw)

theorem Entry.resizable_sync (x : Entry K) (h : x.Resizable) : x.sync.Resizable := by
  cases x with
  | coil c => exact h
  | solenoid s => trivial
  | circuit k =>
    intro z hz
    simp only [Circuit.sync, List.mem_map] at hz
    obtain ⟨w, hw, rfl⟩ := hz
    exact AnyCoil.resizable_setCurrent _ _ (h w hw)

theorem Entry.resizable_resize (l : K) (x : Entry K) (h : x.Resizable) : (x.resize l).Resizable := by
  cases x with
  | coil c => exact AnyCoil.resizable_resize l c h
  | solenoid s => trivial
  | circuit k =>
    intro z hz
    simp only [List.mem_map] at hz
    obtain ⟨w, hw, rfl⟩ := hz
    exact AnyCoil.resizable_resize _ _ (h w hw)

theorem Machine.resizable_resize (l : K) (m : Machine K) (h : m.Resizable) : (m.resize l).Resizable := by
  rw [resizable_iff] at h ⊢
  intro x hx
  simp only [resize, List.mem_map] at hx
  obtain ⟨y, hy, rfl⟩ := hx
  exact Entry.resizable_resize l _ (h y hy)

theorem Machine.resizable_sync (m : Machine K) (h : m.Resizable) : m.sync.Resizable := by
  rw [resizable_iff] at h ⊢
  intro x hx
  simp only [sync, List.mem_map] at hx
  obtain ⟨y, hy, rfl⟩ := hx
  exact Entry.resizable_sync _ (h y hy)

theorem Machine.resizable_zipControl (f : K → K → K) : ∀ (l : List (String × Entry K)) (v : List K), (∀ x ∈ l, x.2.Resizable) →
    ∀ x ∈ zipControl f l v, x.2.Resizable
  | [], _, h => h
  | (s, x) :: l, v, h => by
    have hl : ∀ y ∈ l, y.2.Resizable := fun y hy => h y (by simp_all)
    have hx := h (s, x) (by simp)
    intro y hy
    simp only [zipControl] at hy
    split at hy
    · exact h y hy
    · rcases List.mem_cons.1 hy with rfl | hy
      · exact Entry.resizable_setCurrent _ _ hx
      · exact resizable_zipControl f l _ hl y hy
    · rcases List.mem_cons.1 hy with rfl | hy
      · exact hx
      · exact resizable_zipControl f l _ hl y hy

theorem Control.resizable_call {e : Env K} {opt : Problem K → List K} {c : Constrain K} {eq eq' : Control.Eq K} {x : List K}
    (hm : eq.machine.Resizable) (h : call e opt c eq = .ok (x, eq')) : eq'.machine.Resizable := by
  have hr : (rows e c eq).2.machine.Resizable := by
    rcases (rows_eq e c eq).2 with h | h <;> rw [h]
    · exact hm
    · exact Machine.resizable_sync _ hm
  simp only [call] at h
  split at h
  · cases h
  · rename_i p eq1 hp
    have h1 : eq1 = (rows e c eq).2 := by
      simp only [problem] at hp
      split at hp
      · cases hp
      · split at hp
        · cases hp
        · split at hp
          · cases hp
          · cases hp; rfl
    subst h1
    split at h
    · cases h
      rw [Machine.resizable_iff]
      exact Machine.resizable_zipControl _ _ _ ((Machine.resizable_iff _).1 hr)
    · cases h
      exact hr

end FreeGS
