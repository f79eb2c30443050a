import Verif.Spec.Picard

/-!
# Picard iteration (C39)
-/

set_option linter.unusedSectionVars false

namespace FreeGS.Picard

variable {K : Type*} [Field K] [LinearOrder K] {S : Type*}

/-! ## Maxima -/

theorem foldl_max_spec (xs : List K) (x : K) : xs.foldl max x ∈ x :: xs ∧ ∀ y ∈ x :: xs, y ≤ xs.foldl max x := by
  induction xs generalizing x with
  | nil => exact ⟨List.mem_cons_self, fun y hy => by rw [List.mem_singleton.mp hy]; exact le_refl _⟩
  | cons a xs ih =>
    obtain ⟨h1, h2⟩ := ih (max x a)
    rw [List.foldl_cons]
    refine ⟨?_, fun y hy => ?_⟩
    · rcases List.mem_cons.mp h1 with h | h
      · rw [h]
        rcases max_choice x a with e | e <;> rw [e] <;> simp
      · exact List.mem_cons_of_mem _ (List.mem_cons_of_mem _ h)
    · have hm := h2 (max x a) List.mem_cons_self
      rcases List.mem_cons.mp hy with rfl | hy
      · exact le_trans (le_max_left _ _) hm
      · rcases List.mem_cons.mp hy with rfl | hy
        · exact le_trans (le_max_right _ _) hm
        · exact h2 y (List.mem_cons_of_mem _ hy)

theorem foldl_min_spec (xs : List K) (x : K) : xs.foldl min x ∈ x :: xs ∧ ∀ y ∈ x :: xs, xs.foldl min x ≤ y := by
  induction xs generalizing x with
  | nil => exact ⟨List.mem_cons_self, fun y hy => by rw [List.mem_singleton.mp hy]; exact le_refl _⟩
  | cons a xs ih =>
    obtain ⟨h1, h2⟩ := ih (min x a)
    rw [List.foldl_cons]
    refine ⟨?_, fun y hy => ?_⟩
    · rcases List.mem_cons.mp h1 with h | h
      · rw [h]
        rcases min_choice x a with e | e <;> rw [e] <;> simp
      · exact List.mem_cons_of_mem _ (List.mem_cons_of_mem _ h)
    · have hm := h2 (min x a) List.mem_cons_self
      rcases List.mem_cons.mp hy with rfl | hy
      · exact le_trans hm (min_le_left _ _)
      · rcases List.mem_cons.mp hy with rfl | hy
        · exact le_trans hm (min_le_right _ _)
        · exact h2 y (List.mem_cons_of_mem _ hy)

theorem amax_isMax {l : List K} (h : l ≠ []) : IsMax l (amax l) := by
  cases l with
  | nil => exact absurd rfl h
  | cons x xs => exact foldl_max_spec xs x

theorem amin_isMin {l : List K} (h : l ≠ []) : IsMin l (amin l) := by
  cases l with
  | nil => exact absurd rfl h
  | cons x xs => exact foldl_min_spec xs x

/-! ## One pass -/

/-- The loop variables describe the state after `n` steps. -/
def Inv (e : Env S K) (o : Opts K) (eq0 : S) (n : ℕ) (v : Vars S K) : Prop :=
  ∃ b, Run e o eq0 n v.eq v.psi v.hasBeenLimited b ∧ v.iteration = n ∧ v.bndry = b.getD 0 ∧ v.hist.length = n

theorem step_eq (e : Env S K) (o : Opts K) {n : ℕ} {v : Vars S K} (hi : v.iteration = n) :
    (if (decide (o.limitIt ≤ v.iteration) || v.hasBeenLimited) && o.checkLimited then e.solve v.eq true v.psi (e.bndry v.eq)
      else e.solve v.eq false v.psi o.psiBndry) = step e o n v.hasBeenLimited v.eq v.psi := by
  rw [step, Checks, hi, Bool.and_comm]

/-- A pass that goes on. -/
theorem body_more {e : Env S K} {o : Opts K} {eq0 : S} {n : ℕ} {v v' : Vars S K} (hI : Inv e o eq0 n v)
    (h : body e o v = .ok (.more v')) :
    Inv e o eq0 (n + 1) v' ∧ ∀ m, o.maxits = some m → m ≠ 0 → (n : ℤ) + 1 ≤ m := by
  obtain ⟨b, hr, hi, hb, hh⟩ := hI
  simp only [body] at h
  rw [step_eq e o hi] at h
  cases hs : step e o n v.hasBeenLimited v.eq v.psi with
  | error err => rw [hs] at h; cases h
  | ok s' =>
    rw [hs] at h
    simp only at h
    split_ifs at h with hc
    · cases h
    cases ha : e.adjust s' with
    | error err => rw [ha] at h; cases h
    | ok s'' =>
      rw [ha] at h
      simp only at h
      have hrun := Run.next hr hs ha
      have key : ∀ w : Vars S K, w.eq = s'' →
          w.psi = List.zipWith (fun x y => (1 - o.blend) * x + o.blend * y) (e.psi s'') v.psi →
          w.iteration = v.iteration + 1 → w.bndry = (match e.bndry s' with | some b => b | none => v.bndry) →
          w.hasBeenLimited = (v.hasBeenLimited || e.limited s') → w.hist.length = v.hist.length + 1 →
          Inv e o eq0 (n + 1) w := by
        intro w h1 h2 h3 h4 h5 h6
        refine ⟨(e.bndry s').or b, ?_, ?_, ?_, by rw [h6, hh]⟩
        · rw [h1, h2, h5]; exact hrun
        · rw [h3, hi]; push_cast; rfl
        · rw [h4]
          cases e.bndry s' with
          | none => exact hb
          | some x => rfl
      cases hm : o.maxits with
      | none =>
        rw [hm] at h
        cases h
        exact ⟨key _ rfl rfl rfl rfl rfl (by simp), fun m hm' => by cases hm'⟩
      | some m =>
        rw [hm] at h
        simp only at h
        split_ifs at h with hc2
        cases h
        refine ⟨key _ rfl rfl rfl rfl rfl (by simp), fun m' hm' h0 => ?_⟩
        cases hm'
        rw [hi] at hc2
        by_contra hlt
        exact hc2 ⟨h0, by omega⟩

/-- A pass that raises. -/
theorem body_error {e : Env S K} {o : Opts K} {eq0 : S} {n : ℕ} {v : Vars S K} {err : Err} (hI : Inv e o eq0 n v)
    (h : body e o v = .error err) :
    (∃ s p l, step e o n l s p = .error err) ∨ (∃ s, e.adjust s = .error err) ∨
      (err = .runtime ∧ ∃ m, o.maxits = some m ∧ m ≠ 0 ∧ m < (n : ℤ) + 1 ∧ ∃ s p l b, Run e o eq0 (n + 1) s p l b) := by
  obtain ⟨b, hr, hi, hb, hh⟩ := hI
  simp only [body] at h
  rw [step_eq e o hi] at h
  cases hs : step e o n v.hasBeenLimited v.eq v.psi with
  | error err' => rw [hs] at h; cases h; exact Or.inl ⟨_, _, _, hs⟩
  | ok s' =>
    rw [hs] at h
    simp only at h
    split_ifs at h with hc
    cases ha : e.adjust s' with
    | error err' => rw [ha] at h; cases h; exact Or.inr (Or.inl ⟨_, ha⟩)
    | ok s'' =>
      rw [ha] at h
      simp only at h
      cases hm : o.maxits with
      | none => rw [hm] at h; cases h
      | some m =>
        rw [hm] at h
        simp only at h
        split_ifs at h with hc2
        cases h
        rw [hi] at hc2
        exact Or.inr (Or.inr ⟨rfl, m, rfl, hc2.1, hc2.2, _, _, _, _, Run.next hr hs ha⟩)

theorem start_inv {e : Env S K} {o : Opts K} {eq0 s : S} (h : e.adjust eq0 = .ok s) :
    Inv e o eq0 0 ⟨s, e.psi s, 0, 0, none, false, []⟩ := ⟨none, Run.start h, rfl, rfl, rfl⟩

theorem loop_done {e : Env S K} {o : Opts K} {eq0 eq' : S} {hist : List (K × Option K)} : ∀ (fuel n : ℕ) (v : Vars S K), Inv e o eq0 n v →
    loop e o fuel v = .ok (some (eq', hist)) →
    ∃ m, ∃ v' : Vars S K, Inv e o eq0 m v' ∧ body e o v' = .ok (.done eq' hist) ∧
      (∀ mx, o.maxits = some mx → mx ≠ 0 → n = m ∨ (m : ℤ) ≤ mx) := by
  intro fuel
  induction fuel with
  | zero => intro n v _ h; rw [loop] at h; cases h
  | succ f ih =>
    intro n v hI h
    rw [loop] at h
    cases hb : body e o v with
    | error err => rw [hb] at h; cases h
    | ok r =>
      cases r with
      | done q hi =>
        rw [hb] at h
        cases h
        exact ⟨n, v, hI, hb, fun _ _ _ => Or.inl rfl⟩
      | more w =>
        rw [hb] at h
        obtain ⟨hw, hm⟩ := body_more hI hb
        obtain ⟨m, v', h1, h2, h3⟩ := ih (n + 1) w hw h
        refine ⟨m, v', h1, h2, fun mx e1 e2 => Or.inr ?_⟩
        rcases h3 mx e1 e2 with h4 | h4
        · have := hm mx e1 e2
          omega
        · exact h4

theorem inv_length {e : Env S K} {o : Opts K} {eq0 s : S} {n N : ℕ} {p : List K} {l : Bool} {b : Option K}
    (hpsi : ∀ s, (e.psi s).length = N) (h : Run e o eq0 n s p l b) : p.length = N := by
  induction h with
  | start _ => exact hpsi _
  | next _ _ _ ih => rw [List.length_zipWith, hpsi, ih, min_self]

/-- What the entry `k` of the convergence lists says. -/
def Entry (e : Env S K) (o : Opts K) (eq0 : S) (k : ℕ) (c : K) (r : Option K) : Prop :=
  ∃ s p l b s' lo hi, Run e o eq0 k s p l b ∧ step e o k l s p = .ok s' ∧ IsMax (List.zipWith (fun x y => |x - y|) p (e.psi s')) c ∧
    IsMin (e.psi s') lo ∧ IsMax (e.psi s') hi ∧ ∀ q, r = some q → c = q * (hi - lo)

theorem entry_new {e : Env S K} {o : Opts K} {eq0 s' : S} {n N : ℕ} {v : Vars S K} (hN : 0 < N) (hpsi : ∀ s, (e.psi s).length = N)
    (hI : Inv e o eq0 n v) (hs : step e o n v.hasBeenLimited v.eq v.psi = .ok s') :
    Entry e o eq0 n (maxChange v.psi (e.psi s')) (relChange (maxChange v.psi (e.psi s')) (e.psi s')) := by
  obtain ⟨b, hr, _⟩ := hI
  have hne : e.psi s' ≠ [] := by
    intro h0
    have := hpsi s'
    rw [h0] at this
    simp at this; omega
  have hz : List.zipWith (fun x y => |x - y|) v.psi (e.psi s') ≠ [] := by
    intro h0
    have : (List.zipWith (fun x y => |x - y|) v.psi (e.psi s')).length = 0 := by rw [h0]; rfl
    rw [List.length_zipWith, inv_length hpsi hr, hpsi, min_self] at this
    omega
  refine ⟨_, _, _, b, s', _, _, hr, hs, amax_isMax hz, amin_isMin hne, amax_isMax hne, fun q hq => ?_⟩
  rw [relChange] at hq
  split_ifs at hq with h0
  cases hq
  rw [div_mul_cancel₀ _ h0]

theorem body_hist {e : Env S K} {o : Opts K} {n : ℕ} {v : Vars S K} {r : Outcome S K} (hi : v.iteration = n)
    (h : body e o v = .ok r) : ∃ s', step e o n v.hasBeenLimited v.eq v.psi = .ok s' ∧
      (match r with | .done _ hist => hist | .more w => w.hist) =
        v.hist ++ [(maxChange v.psi (e.psi s'), relChange (maxChange v.psi (e.psi s')) (e.psi s'))] := by
  simp only [body] at h
  rw [step_eq e o hi] at h
  cases hs : step e o n v.hasBeenLimited v.eq v.psi with
  | error err => rw [hs] at h; cases h
  | ok s' =>
    rw [hs] at h
    simp only at h
    refine ⟨s', rfl, ?_⟩
    split_ifs at h with hc
    · cases h; rfl
    · cases ha : e.adjust s' with
      | error err => rw [ha] at h; cases h
      | ok s'' =>
        rw [ha] at h
        simp only at h
        cases hm : o.maxits with
        | none => rw [hm] at h; cases h; rfl
        | some m => rw [hm] at h; simp only at h; split_ifs at h; cases h; rfl

theorem loop_hist {e : Env S K} {o : Opts K} {eq0 eq' : S} {hist : List (K × Option K)} {N : ℕ} (hN : 0 < N)
    (hpsi : ∀ s, (e.psi s).length = N) : ∀ (fuel n : ℕ) (v : Vars S K), Inv e o eq0 n v →
    (∀ k c r, v.hist[k]? = some (c, r) → Entry e o eq0 k c r) → loop e o fuel v = .ok (some (eq', hist)) →
    ∀ k c r, hist[k]? = some (c, r) → Entry e o eq0 k c r := by
  intro fuel
  induction fuel with
  | zero => intro n v _ _ h; rw [loop] at h; cases h
  | succ f ih =>
    intro n v hI hE h
    have hI' := hI
    obtain ⟨_, _, hi, _, hl⟩ := hI'
    have ext : ∀ s', step e o n v.hasBeenLimited v.eq v.psi = .ok s' → ∀ k c r,
        (v.hist ++ [(maxChange v.psi (e.psi s'), relChange (maxChange v.psi (e.psi s')) (e.psi s'))])[k]? = some (c, r) →
        Entry e o eq0 k c r := by
      intro s' hs k c r hk
      rcases lt_trichotomy k n with h1 | h1 | h1
      · rw [List.getElem?_append_left (by omega)] at hk
        exact hE k c r hk
      · subst h1
        rw [List.getElem?_append_right (by omega), hl, Nat.sub_self] at hk
        cases hk
        exact entry_new hN hpsi hI hs
      · rw [List.getElem?_eq_none (by rw [List.length_append, hl]; simp; omega)] at hk
        cases hk
    rw [loop] at h
    cases hb : body e o v with
    | error err => rw [hb] at h; cases h
    | ok r =>
      obtain ⟨s', hs, hh⟩ := body_hist hi hb
      cases r with
      | done q hi =>
        rw [hb] at h
        cases h
        simp only at hh
        rw [hh]
        exact ext s' hs
      | more w =>
        rw [hb] at h
        simp only at hh
        refine ih (n + 1) w (body_more hI hb).1 ?_ h
        rw [hh]
        exact ext s' hs

/-- **C39 (history).** Entry `k` of the first convergence list is the largest change of the flux in the linear solve of step `k`, and
entry `k` of the second list, times the range of the flux, is the same. -/
theorem C39_history (e : Env S K) (o : Opts K) (N : ℕ) (hN : 0 < N) (hpsi : ∀ s, (e.psi s).length = N) (fuel : ℕ)
    (eq0 eq' : S) (hist : List (K × Option K)) (h : picard e o fuel eq0 = .ok (some (eq', hist))) (k : ℕ) (c : K) (r : Option K)
    (hk : hist[k]? = some (c, r)) :
    ∃ s p l b s' lo hi, Run e o eq0 k s p l b ∧ step e o k l s p = .ok s' ∧
      IsMax (List.zipWith (fun x y => |x - y|) p (e.psi s')) c ∧ IsMin (e.psi s') lo ∧ IsMax (e.psi s') hi ∧
      ∀ q, r = some q → c = q * (hi - lo) := by
  rw [picard] at h
  cases ha : e.adjust eq0 with
  | error err => rw [ha] at h; cases h
  | ok s =>
    rw [ha] at h
    exact loop_hist hN hpsi fuel 0 _ (start_inv ha) (fun k c r hk => by simp at hk) h k c r hk

section ordered
variable [IsStrictOrderedRing K]

/-- A pass that leaves the loop. -/
theorem body_done {e : Env S K} {o : Opts K} {eq0 eq' : S} {n N : ℕ} {v : Vars S K} {hist : List (K × Option K)}
    (hN : 0 < N) (hpsi : ∀ s, (e.psi s).length = N) (hlen : v.psi.length = N) (hI : Inv e o eq0 n v)
    (h : body e o v = .ok (.done eq' hist)) :
    ∃ b, Run e o eq0 n v.eq v.psi v.hasBeenLimited b ∧ step e o n v.hasBeenLimited v.eq v.psi = .ok eq' ∧
      hist.length = n + 1 ∧ FluxConverged o v.psi (e.psi eq') ∧
      (∀ bd, e.bndry eq' = some bd → BoundaryConverged o b bd) ∧ (o.waitForLimited = true → e.limited eq' = true) := by
  obtain ⟨b, hr, hi, hb, hh⟩ := hI
  refine ⟨b, hr, ?_⟩
  simp only [body] at h
  rw [step_eq e o hi] at h
  cases hs : step e o n v.hasBeenLimited v.eq v.psi with
  | error err => rw [hs] at h; cases h
  | ok s' =>
    rw [hs] at h
    simp only at h
    split_ifs at h with hc
    swap
    · cases ha : e.adjust s' with
      | error err => rw [ha] at h; cases h
      | ok s'' =>
        rw [ha] at h
        simp only at h
        cases hm : o.maxits with
        | none => rw [hm] at h; cases h
        | some m => rw [hm] at h; simp only at h; split_ifs at h; cases h
    cases h
    simp only [Bool.and_eq_true, Bool.or_eq_true, decide_eq_true_eq, relOk, Bool.not_eq_true'] at hc
    obtain ⟨⟨hf, hbd⟩, hl⟩ := hc
    have hne : e.psi eq' ≠ [] := by
      intro h0
      have := hpsi eq'
      rw [h0] at this
      simp at this; omega
    have hz : List.zipWith (fun x y => |x - y|) v.psi (e.psi eq') ≠ [] := by
      intro h0
      have : (List.zipWith (fun x y => |x - y|) v.psi (e.psi eq')).length = 0 := by rw [h0]; rfl
      rw [List.length_zipWith, hlen, hpsi, min_self] at this
      omega
    have hmx := amax_isMax hne
    have hmn := amin_isMin hne
    have hle : amin (e.psi eq') ≤ amax (e.psi eq') := hmn.2 _ hmx.1
    refine ⟨rfl, by rw [List.length_append, hh]; rfl, ⟨_, _, _, amax_isMax hz, hmn, hmx, ?_⟩, ?_, ?_⟩
    · rcases hf with hf | ⟨h0, hf⟩
      · exact Or.inl hf
      · right
        have hpos : 0 < amax (e.psi eq') - amin (e.psi eq') := lt_of_le_of_ne (sub_nonneg.mpr hle) (Ne.symm h0)
        exact ⟨sub_pos.mp hpos, (div_lt_iff₀ hpos).mp hf⟩
    · intro bd hbd'
      rw [hbd'] at hbd
      simp only [decide_eq_true_eq] at hbd
      rw [BoundaryConverged, ← hb]
      rcases hbd with ⟨h0, hlt⟩ | hlt
      · right
        refine ⟨h0, ?_⟩
        rw [abs_div] at hlt
        exact (div_lt_iff₀ (abs_pos.mpr h0)).mp hlt
      · exact Or.inl hlt
    · intro hw
      rcases hl with h0 | h0
      · rw [hw] at h0; cases h0
      · exact h0

/-- **C39 (convergence).** If `picard.solve` returns, the equilibrium is the result of a linear solve at the end of a sequence of Picard
steps; the number of entries in the convergence lists is the number of linear solves; the flux differs from the flux it was calculated
from by less than the tolerance; if there is a boundary flux it differs by less than the tolerance from the previous one; with
`wait_for_limited` the plasma is limited. What is missing of the full statement: if the last solve found no boundary flux nothing is
known of it, see `C39_returns_without_boundary`. -/
theorem C39_converged_partial (e : Env S K) (o : Opts K) (N : ℕ) (hN : 0 < N) (hpsi : ∀ s, (e.psi s).length = N) (fuel : ℕ)
    (eq0 eq' : S) (hist : List (K × Option K)) (h : picard e o fuel eq0 = .ok (some (eq', hist))) :
    ∃ n s p l b, Run e o eq0 n s p l b ∧ step e o n l s p = .ok eq' ∧ hist.length = n + 1 ∧
      FluxConverged o p (e.psi eq') ∧ (∀ bd, e.bndry eq' = some bd → BoundaryConverged o b bd) ∧
      (o.waitForLimited = true → e.limited eq' = true) := by
  rw [picard] at h
  cases ha : e.adjust eq0 with
  | error err => rw [ha] at h; cases h
  | ok s =>
    rw [ha] at h
    obtain ⟨m, v', h1, h2, _⟩ := loop_done fuel 0 _ (start_inv ha) h
    obtain ⟨_, hr0, _⟩ := id h1
    obtain ⟨b, hr⟩ := body_done hN hpsi (inv_length hpsi hr0) h1 h2
    exact ⟨m, v'.eq, v'.psi, v'.hasBeenLimited, b, hr⟩

/-- **C39 (number of solves).** With a positive `maxits` a normal return takes at most `maxits + 1` linear solves. -/
theorem C39_number_of_solves (e : Env S K) (o : Opts K) (N : ℕ) (hN : 0 < N) (hpsi : ∀ s, (e.psi s).length = N) (fuel : ℕ)
    (mx : ℕ) (hmx : o.maxits = some (mx : ℤ)) (h0 : 0 < mx) (eq0 eq' : S) (hist : List (K × Option K))
    (h : picard e o fuel eq0 = .ok (some (eq', hist))) : hist.length ≤ mx + 1 := by
  rw [picard] at h
  cases ha : e.adjust eq0 with
  | error err => rw [ha] at h; cases h
  | ok s =>
    rw [ha] at h
    obtain ⟨m, v', h1, h2, h3⟩ := loop_done fuel 0 _ (start_inv ha) h
    obtain ⟨_, hr0, _⟩ := id h1
    obtain ⟨b, _, _, hl, _⟩ := body_done hN hpsi (inv_length hpsi hr0) h1 h2
    have := h3 mx hmx (by omega)
    omega

end ordered

theorem loop_ends {e : Env S K} {o : Opts K} {eq0 : S} (mx : ℕ) (hmx : o.maxits = some (mx : ℤ)) (h0 : 0 < mx) :
    ∀ (fuel n : ℕ) (v : Vars S K), Inv e o eq0 n v → n ≤ mx → mx < n + fuel → loop e o fuel v ≠ .ok none := by
  intro fuel
  induction fuel with
  | zero => intro n v _ h1 h2; omega
  | succ f ih =>
    intro n v hI h1 h2 h
    rw [loop] at h
    cases hb : body e o v with
    | error err => rw [hb] at h; cases h
    | ok r =>
      cases r with
      | done q hi => rw [hb] at h; cases h
      | more w =>
        rw [hb] at h
        obtain ⟨hw, hm⟩ := body_more hI hb
        have := hm mx hmx (by omega)
        exact ih (n + 1) w hw (by omega) (by omega) h

/-- **C39 (termination).** With a positive `maxits` the call ends, by a return or an exception, within `maxits + 1` passes, whatever the
equilibrium does. -/
theorem C39_terminates (e : Env S K) (o : Opts K) (mx : ℕ) (hmx : o.maxits = some (mx : ℤ)) (h0 : 0 < mx) (eq0 : S) :
    picard e o (mx + 1) eq0 ≠ .ok none := by
  rw [picard]
  cases ha : e.adjust eq0 with
  | error err => intro h; cases h
  | ok s => exact loop_ends mx hmx h0 (mx + 1) 0 _ (start_inv ha) (by omega) (by omega)

theorem loop_error {e : Env S K} {o : Opts K} {eq0 : S} {err : Err} :
    ∀ (fuel n : ℕ) (v : Vars S K), Inv e o eq0 n v → (∀ m, o.maxits = some m → 0 < m → (n : ℤ) ≤ m) →
    loop e o fuel v = .error err →
    (∃ n s p l, step e o n l s p = .error err) ∨ (∃ s, e.adjust s = .error err) ∨
      (err = .runtime ∧ ∃ m, o.maxits = some m ∧ m ≠ 0 ∧ ∃ k : ℕ, ∃ s p l b, Run e o eq0 k s p l b ∧ (0 < m → (k : ℤ) = m + 1)) := by
  intro fuel
  induction fuel with
  | zero => intro n v _ _ h; cases h
  | succ f ih =>
    intro n v hI hm h
    rw [loop] at h
    cases hb : body e o v with
    | error err' =>
      rw [hb] at h
      cases h
      rcases body_error hI hb with ⟨s, p, l, h1⟩ | h1 | ⟨h1, m, h2, h3, h4, s, p, l, b, h5⟩
      · exact Or.inl ⟨n, s, p, l, h1⟩
      · exact Or.inr (Or.inl h1)
      · refine Or.inr (Or.inr ⟨h1, m, h2, h3, n + 1, s, p, l, b, h5, fun hp => ?_⟩)
        have := hm m h2 hp
        push_cast; omega
    | ok r =>
      cases r with
      | done q hi => rw [hb] at h; cases h
      | more w =>
        rw [hb] at h
        obtain ⟨hw, hm'⟩ := body_more hI hb
        exact ih (n + 1) w hw (fun m h1 h2 => by push_cast; exact hm' m h1 (by omega)) h

/-- **C39 (failure).** If no call of the equilibrium or of the coil control raises, then `picard.solve` can only raise `RuntimeError`, only if
`maxits` is set and not zero, and, with a positive `maxits`, only after exactly `maxits + 1` completed steps. -/
theorem C39_failure (e : Env S K) (o : Opts K) (hs : ∀ s cl p b err, e.solve s cl p b ≠ .error err)
    (ha : ∀ s err, e.adjust s ≠ .error err) (fuel : ℕ) (eq0 : S) (err : Err) (h : picard e o fuel eq0 = .error err) :
    err = .runtime ∧ ∃ m, o.maxits = some m ∧ m ≠ 0 ∧
      ∃ k : ℕ, ∃ s p l b, Run e o eq0 k s p l b ∧ (0 < m → (k : ℤ) = m + 1) := by
  rw [picard] at h
  cases ha' : e.adjust eq0 with
  | error err' => exact absurd ha' (ha _ _)
  | ok s =>
    rw [ha'] at h
    rcases loop_error fuel 0 _ (start_inv ha') (fun m _ hp => by simpa using le_of_lt hp) h with ⟨n, s, p, l, h1⟩ | ⟨s, h1⟩ | h1
    · rw [step] at h1
      split_ifs at h1
      · exact absurd h1 (hs _ _ _ _ _)
      · exact absurd h1 (hs _ _ _ _ _)
    · exact absurd h1 (ha _ _)
    · exact h1

/-! ## Runs -/

/-- An equilibrium with two flux values that reaches `(0, 1)` in its second step: the state is the number of solves. -/
def sample : Env ℕ ℚ :=
  { constrain := none
    psi := fun n => if n = 0 then [0, 3] else [0, 1]
    solve := fun n _ _ _ => .ok (n + 1)
    bndry := fun _ => some (1 / 2)
    limited := fun _ => false }

/-- Usual arguments. -/
def sampleOpts : Opts ℚ := ⟨1 / 1000, 1 / 10000000000, 0, none, some 50, false, false, 0⟩

/-- A case meeting the hypotheses of C39: it returns after two solves. -/
example : picard sample sampleOpts 51 0 = .ok (some (2, [(2, some 2), (0, some 0)])) ∧ ∀ s, (sample.psi s).length = 2 := by
  refine ⟨by decide +kernel, fun s => ?_⟩
  show (if s = 0 then _ else _ : List ℚ).length = 2
  split_ifs <;> rfl

/-- An equilibrium that never settles, for the case of failure. -/
example : picard { sample with psi := fun n => [0, (n : ℚ) ^ 2 + 1] } { sampleOpts with maxits := some 3 } 9 0 = .error .runtime := by
  decide +kernel

/-- **C39 (finding).** The call can return although the last solve found no plasma boundary at all: the change of the boundary flux from an
earlier step is then compared with the tolerance. Here the boundary flux is found in the first two solves, and the flux settles in the
third, which finds none. -/
theorem C39_returns_without_boundary :
    ∃ (e : Env ℕ ℚ) (o : Opts ℚ) (eq' : ℕ) (hist : List (ℚ × Option ℚ)),
      picard e o 51 0 = .ok (some (eq', hist)) ∧ o.rtol > 0 ∧ o.atol > 0 ∧ e.bndry eq' = none :=
  ⟨{ sample with
      psi := fun n => if n = 0 then [0, 3] else if n = 1 then [0, 2] else [0, 1]
      bndry := fun n => if n ≤ 2 then some (1 / 2) else none }, sampleOpts, 3, [(1, some (1 / 2)), (1, some 1), (0, some 0)],
    by decide +kernel, by decide +kernel, by decide +kernel, rfl⟩

end FreeGS.Picard
