import Verif.Lemmas.GeqdskRead

/-!
# Helper lemmas for reading back an equilibrium
-/

set_option linter.unusedSectionVars false

namespace FreeGS.Geqdsk

open FreeGS.GS (Arr setEdge)
open FreeGS.Equil
open FreeGS.Critical (Domain linspaceAt Point)

universe u
variable {K : Type u} [Field K] [LinearOrder K] {C : Type u}

/-- What `_updateBoundaryPsi` finds out about a flux with a magnetic axis. -/
def found (s : State C K) : Option K × Option K × Bool × Option (Arr K) := (s.psiAxis, s.psiBndry, s.isLimited, s.mask)

theorem updateBoundary_found (e : Equil.Env C K) (s s' : State C K) (P : Arr K) (hc : s'.checkLimited = s.checkLimited)
    (ht : s'.tokamak = s.tokamak) (h : ∀ opt xpt, e.find P = .ok (opt, xpt) → opt ≠ []) :
    (updateBoundary e s' P).map found = (updateBoundary e s P).map found := by
  rw [updateBoundary, updateBoundary]
  cases hf : e.find P with
  | error err => rfl
  | ok r =>
    obtain ⟨opt, xpt⟩ := r
    simp only [bind, Except.bind]
    cases opt with
    | nil => exact absurd rfl (h _ _ hf)
    | cons o os =>
      simp only [hc, ht]
      cases hl : (if s.checkLimited then e.limits s.tokamak else none) with
      | none =>
        cases xpt with
        | nil => rfl
        | cons x xs =>
          simp only
          cases e.core P (o :: os) (x :: xs) none <;> rfl
      | some pts =>
        simp only
        cases limiterContact e P (keptPoints xpt pts) with
        | error err => rfl
        | ok r =>
          cases xpt with
          | nil => rfl
          | cons x xs =>
            simp only
            cases e.core P (o :: os) (x :: xs) (some (max x.2.2 r.2)) <;> rfl

/-- The flux shifted by a constant has the same mask. -/
theorem updateBoundary_shift_mask [IsStrictOrderedRing K] {e : Equil.Env C K} {c : K} (hf : Follows e 1 c) (s s' : State C K) (P : Arr K)
    (hc : s'.checkLimited = s.checkLimited) (ht : e.limits s'.tokamak = e.limits s.tokamak)
    (h : ∀ opt xpt, e.find P = .ok (opt, xpt) → opt ≠ []) :
    (updateBoundary e s' (affine 1 c P)).map (fun s => s.mask) = (updateBoundary e s P).map fun s => s.mask := by
  have he : SameTools e e := ⟨rfl, rfl, rfl, rfl, rfl, rfl⟩
  rw [updateBoundary, updateBoundary, hf.find]
  cases hfind : e.find P with
  | error err => rfl
  | ok r =>
    obtain ⟨opt, xpt⟩ := r
    simp only [bind, Except.bind, Except.map]
    cases opt with
    | nil => exact absurd rfl (h _ _ hfind)
    | cons o os =>
      simp only [hc, ht, List.map_cons]
      cases hl : (if s.checkLimited then e.limits s.tokamak else none) with
      | none =>
        cases xpt with
        | nil => rfl
        | cons x xs =>
          simp only [List.map_cons]
          have := hf.core P (o :: os) (x :: xs) none
          simp only [List.map_cons, Option.map_none] at this
          rw [this]
          cases e.core P (o :: os) (x :: xs) none <;> rfl
      | some pts =>
        simp only [keptPoints_affine, limiterContact_affine he one_pos hf]
        cases limiterContact e P (keptPoints xpt pts) with
        | error err => rfl
        | ok r =>
          cases xpt with
          | nil => rfl
          | cons x xs =>
            simp only [Except.map, List.map_cons]
            have hmax : max (affinePoint 1 c x).2.2 (1 * r.2 + c) = 1 * max x.2.2 r.2 + c := by
              simp only [affinePoint]
              rw [max_add_add_right, ← mul_max_of_nonneg _ _ one_pos.le]
            have := hf.core P (o :: os) (x :: xs) (some (max x.2.2 r.2))
            simp only [List.map_cons, Option.map_some] at this
            rw [hmax, this]
            cases e.core P (o :: os) (x :: xs) (some (max x.2.2 r.2)) <;> rfl

/-- Which points and which mask belong to an axis, boundary and mask that were found. -/
theorem updateBoundary_core {e : Equil.Env C K} {s s' : State C K} {P : Arr K} {opt xpt : List (Point K)} {b : K} {m : Arr K}
    (hcore : ∀ P opt x xs, e.core P opt (x :: xs) none = e.core P opt (x :: xs) (some x.2.2)) (hf : e.find P = .ok (opt, xpt)) (ho : opt ≠ [])
    (h : updateBoundary e s P = .ok s') (hb : s'.psiBndry = some b) (hm : s'.mask = some m) : e.core P opt xpt (some b) = .ok m ∧
      ∃ o os, opt = o :: os ∧ s'.psiAxis = some o.2.2 := by
  rw [updateBoundary, hf] at h
  simp only [bind, Except.bind] at h
  cases opt with
  | nil => exact absurd rfl ho
  | cons o os =>
    refine ⟨?_, o, os, rfl, ?_⟩
    all_goals
      simp only at h
      cases hl : (if s.checkLimited then e.limits s.tokamak else none) with
      | none =>
        rw [hl] at h
        cases xpt with
        | nil => cases h; cases hm
        | cons x xs =>
          simp only at h
          cases hco : e.core P (o :: os) (x :: xs) none with
          | error err => rw [hco] at h; cases h
          | ok m' =>
            rw [hco] at h
            cases h
            cases hb
            cases hm
            first
            | exact (hcore _ _ _ _).symm.trans hco
            | rfl
      | some pts =>
        rw [hl] at h
        simp only at h
        cases hli : limiterContact e P (keptPoints xpt pts) with
        | error err => rw [hli] at h; cases h
        | ok r =>
          rw [hli] at h
          cases xpt with
          | nil => cases h; cases hm
          | cons x xs =>
            simp only at h
            cases hco : e.core P (o :: os) (x :: xs) (some (max x.2.2 r.2)) with
            | error err => rw [hco] at h; cases h
            | ok m' =>
              rw [hco] at h
              cases h
              cases hb
              cases hm
              first
              | exact hco
              | rfl

/-- An optimiser at work with currents of the right number. -/
theorem run_sized {A : Type u} {n : ℕ} {Q : State C K → Prop} {f : State C K → List K → Except Err (State C K × A)}
    (hf : ∀ s x r, Q s → x.length = n → f s x = .ok r → Q r.1) {opt : Search K A} (hn : opt.Sized n) :
    ∀ s r, Q s → opt.run f s = .ok r → Q r.1 ∧ r.2.length = n := by
  induction hn with
  | stop x hx => intro s r hs h; cases h; exact ⟨hs, hx⟩
  | ask x next hx hnext ih =>
    intro s r hs h
    rw [Search.run] at h
    cases hd : f s x with
    | error err => rw [hd] at h; cases h
    | ok q => rw [hd] at h; exact ih q.2 q.1 r (hf _ _ _ hs hx hd) h

theorem sum_sq_zero [IsStrictOrderedRing K] (l : List K) (h : (l.map fun v => v * v).sum ≤ 0) : ∀ v ∈ l, v = 0 := by
  induction l with
  | nil => intro v hv; cases hv
  | cons a l ih =>
    have hnn : 0 ≤ (l.map fun v => v * v).sum := List.sum_nonneg fun x hx => by
      obtain ⟨v, -, rfl⟩ := List.mem_map.mp hx
      exact mul_self_nonneg v
    rw [List.map_cons, List.sum_cons] at h
    have ha : a * a = 0 := le_antisymm (by linarith) (mul_self_nonneg a)
    intro v hv
    rcases List.mem_cons.mp hv with rfl | hv
    · exact mul_self_eq_zero.mp ha
    · exact ih (by linarith [mul_self_nonneg a]) v hv

theorem values_zero {nx ny : ℕ} {a : Arr K} (h : ∀ v ∈ values nx ny a, v = 0) (c : ℕ × ℕ) (h1 : c.1 < nx) (h2 : c.2 < ny) : a c = 0 := by
  have hlt : c.1 * ny + c.2 < nx * ny := by
    calc c.1 * ny + c.2 < c.1 * ny + ny := by omega
    _ = (c.1 + 1) * ny := by ring
    _ ≤ nx * ny := Nat.mul_le_mul_right _ h1
  have := h (GS.flat ny a (c.1 * ny + c.2)) (List.mem_map.mpr ⟨_, List.mem_range.mpr hlt, rfl⟩)
  rw [GS.flat] at this
  have hd : (c.1 * ny + c.2) / ny = c.1 := by
    rw [mul_comm, Nat.mul_add_div (by omega), Nat.div_eq_of_lt h2, add_zero]
  have hm : (c.1 * ny + c.2) % ny = c.2 := by
    rw [mul_comm, Nat.mul_add_mod, Nat.mod_eq_of_lt h2]
  rw [hd, hm] at this
  exact this

end FreeGS.Geqdsk
