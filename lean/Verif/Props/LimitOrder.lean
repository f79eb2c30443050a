import Verif.Props.FluxFit
import Verif.Props.Control

/-!
# C138: a list of current limits means the same to all fits
-/

set_option linter.unusedSectionVars false

namespace FreeGS.Control

variable {K : Type*} [Field K] [LinearOrder K] [IsStrictOrderedRing K]

/-- Specification: each controlled entry of the machine is within the pair at its own place in the list. -/
def OwnLimits (ls : List (K × K)) (m : Machine K) : Prop :=
  ∀ (i : ℕ) l y lim, m.coils[i]? = some (l, y) → ls[i]? = some lim → y.control = true → Between y.current lim

theorem filter_rank {A : Type*} (p : A → Bool) : ∀ (L : List A) (i : ℕ) (x : A), L[i]? = some x → p x = true →
    (L.filter p)[((L.take i).filter p).length]? = some x
  | [], i, x, h, _ => by simp at h
  | a :: L, 0, x, h, hp => by
    simp only [List.getElem?_cons_zero, Option.some.injEq] at h
    subst h
    simp [hp]
  | a :: L, i + 1, x, h, hp => by
    have ih := filter_rank p L i x (by simpa using h) hp
    cases ha : p a <;> simp [ha, ih]

/-- **C138 (requests).** `constrain` with a list of one pair per entry, lower bound first, keeps every controlled entry within its own pair. -/
theorem C138_request (e : Env K) (opt : Problem K → List K) (c : Constrain K) (eq eq' : Eq K) (x : List K) (ls : List (K × K)) (hc : c.currentLims = some ls)
    (h : call e opt c eq = .ok (x, eq')) (hopt : ∀ p eq1, problem e c eq = .ok (p, eq1) → p.Honours (opt p)) : OwnLimits ls eq'.machine := by
  intro i l y lim h1 h2 h3
  obtain ⟨a, b⟩ := ((C24_limits_respected e opt c eq eq' x h hopt).1 ls hc).2 i l y lim h1 h2 h3
  exact ⟨(min_le_left _ _).trans a, b.trans (le_max_right _ _)⟩

/-- **C138 (which pair).** In the bounded flux fits a controlled entry is kept within the pair whose place is the number of controlled entries before it. -/
theorem C138_which (lbfgs : (List K → Except Err K) → List K → List (K × K) → Except Err (List K))
    (hopt : ∀ f x0 bs x, List.Forall₂ Between x0 bs → lbfgs f x0 bs = .ok x → List.Forall₂ Between x bs)
    (diff : List K → Except Err K) (ls : List (K × K)) (m m' : Machine K) (h : advancedCall lbfgs diff (some ls) m = .ok m')
    (i : ℕ) (l : String) (y : Entry K) (hi : m'.coils[i]? = some (l, y)) (hy : y.control = true) :
    ∃ lim, ls[((m.coils.take i).filter fun x => x.2.control).length]? = some lim ∧ Between y.current lim := by
  obtain ⟨h1, h2, -⟩ := C65_limits_partial lbfgs hopt diff ls m m' h
  have hr := filter_rank (fun x : String × Entry K => x.2.control) m'.coils i (l, y) hi hy
  have hn : ∀ c : List (String × Entry K), ((c.take i).filter fun x => x.2.control).length =
      (((c.map fun x => (x.1, x.2.control)).take i).filter fun x => x.2).length := by
    intro c
    rw [← List.map_take, List.filter_map, List.length_map]
    rfl
  rw [hn, ← h2, ← hn]
  refine h1 _ _ ?_
  rw [Machine.controlCurrents, List.getElem?_map, hr]
  rfl

/-- **C138 (partial).** With one list for all entries the bounded flux fits keep every controlled entry within its own pair if no entry without control comes
before a controlled one. Missing: other orders, see `C138_order_fails`. -/
theorem C138_front_partial (lbfgs : (List K → Except Err K) → List K → List (K × K) → Except Err (List K))
    (hopt : ∀ f x0 bs x, List.Forall₂ Between x0 bs → lbfgs f x0 bs = .ok x → List.Forall₂ Between x bs)
    (diff : List K → Except Err K) (ls : List (K × K)) (as bs : List (String × Entry K)) (ha : ∀ x ∈ as, x.2.control = true) (hb : ∀ x ∈ bs, x.2.control = false)
    (m' : Machine K) (h : advancedCall lbfgs diff (some ls) ⟨as ++ bs⟩ = .ok m') : OwnLimits ls m' := by
  intro i l y lim h1 h2 h3
  obtain ⟨lim', h4, h5⟩ := C138_which lbfgs hopt diff ls _ m' h i l y h1 h3
  have hflag : (m'.coils.map fun x => (x.1, x.2.control))[i]? = some (l, true) := by rw [List.getElem?_map, h1, ← h3]; rfl
  rw [(C65_limits_partial lbfgs hopt diff ls _ m' h).2.1, List.getElem?_map] at hflag
  have hi : i < as.length := by
    by_contra hge
    rw [List.getElem?_append_right (not_lt.mp hge)] at hflag
    cases hx : bs[i - as.length]? with
    | none => simp [hx] at hflag
    | some x =>
      have := hb x (List.mem_of_getElem? hx)
      simp [hx, this] at hflag
  have hk : (((as ++ bs).take i).filter fun x => x.2.control).length = i := by
    rw [List.take_append_of_le_length hi.le, List.filter_eq_self.mpr fun x hx => ha x (List.mem_of_mem_take hx), List.length_take, min_eq_left hi.le]
  rw [hk, h2, Option.some.injEq] at h4
  exact h4 ▸ h5

/-- **C138 (fails).** An entry without control in front of a controlled coil: the fit uses the pair of the first for the second. If the two pairs do not overlap, the
coil is outside its own pair after every fit that succeeds, whatever the optimiser finds within the bounds it was given. -/
theorem C138_order_fails (lbfgs : (List K → Except Err K) → List K → List (K × K) → Except Err (List K))
    (hopt : ∀ f x0 bs x, List.Forall₂ Between x0 bs → lbfgs f x0 bs = .ok x → List.Forall₂ Between x bs)
    (diff : List K → Except Err K) (u v : K × K) (huv : max u.1 u.2 < min v.1 v.2) (a b : String × Entry K) (ha : a.2.control = false) (hb : b.2.control = true)
    (m' : Machine K) (h : advancedCall lbfgs diff (some [u, v]) ⟨[a, b]⟩ = .ok m') : ¬ OwnLimits [u, v] m' := by
  intro ho
  have hf := (C65_limits_partial lbfgs hopt diff _ _ m' h).2.1
  cases hm : m'.coils[1]? with
  | none =>
    have := congrArg List.length hf
    simp only [List.length_map, List.length_cons, List.length_nil] at this
    simp [List.getElem?_eq_none_iff, this] at hm
  | some y =>
    have hy : y.2.control = true := by
      have := congrArg (fun L => L[1]?) hf
      simp only [List.getElem?_map, hm] at this
      simp [hb] at this
      exact this.2
    obtain ⟨lim, h4, h5⟩ := C138_which lbfgs hopt diff _ _ m' h 1 y.1 y.2 hm hy
    have h6 := ho 1 y.1 y.2 v hm rfl hy
    simp [ha] at h4
    subst h4
    exact absurd (h6.1.trans h5.2) (not_le.mpr huv)

/-- A coil without control and a controlled one; the optimiser returns its start value. -/
def orderMachine (a b : Bool) : Machine ℚ := ⟨[("A", .coil (.point (PointCoil.make 1 0 0 1 a))), ("B", .coil (.point (PointCoil.make 2 0 5 1 b)))]⟩

/-- The fits succeed: in the order of `C138_order_fails` coil B, at 5 and with limits 4 and 6, is left with a current of 1; in that of `C138_front_partial` A is moved
into its limits. -/
example : ∃ lbfgs : (List ℚ → Except Err ℚ) → List ℚ → List (ℚ × ℚ) → Except Err (List ℚ),
    (∀ f x0 bs x, List.Forall₂ Between x0 bs → lbfgs f x0 bs = .ok x → List.Forall₂ Between x bs) ∧
    max (1 : ℚ) (-1) < min 4 6 ∧
    ((advancedCall lbfgs (fun _ => .ok 0) (some [(1, -1), (4, 6)]) (orderMachine false true)).toOption.map fun m => m.coils.map fun x => x.2.current) = some [0, 1] ∧
    ((advancedCall lbfgs (fun _ => .ok 0) (some [(1, 2), (4, 6)]) (orderMachine true false)).toOption.map fun m => m.coils.map fun x => x.2.current) = some [1, 5] := by
  refine ⟨fun _ x0 _ => .ok x0, fun f x0 bs x h hx => ?_, by norm_num, by decide +kernel, by decide +kernel⟩
  obtain rfl := Except.ok.inj hx
  exact h

end FreeGS.Control
