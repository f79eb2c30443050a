import Verif.Props.LeastSquares

/-!
# C135: fits to a flux map with more coils or wider limits
-/

set_option linter.unusedSectionVars false

namespace FreeGS.Control

variable {K : Type*} [Field K] [LinearOrder K] [IsStrictOrderedRing K]

/-- The second machine is the first with the `control` attribute of some of its coils set to `True`. -/
def ControlsMore (m m' : Machine K) : Prop :=
  List.Forall₂ (fun a b => b = a ∨ b = (a.1, a.2.setControl true)) m.coils m'.coils

/-! ## The flux depends on the currents only -/

/-- The flux of an entry from a table. -/
def calcValue (x : Entry K) (g : Entry.Greens K) : Except Err K := (x.calcFromGreens g).map Prod.fst

theorem circuit_calc_same (d : String → Option K) (I : K) (f : AnyCoil K → AnyCoil K) (hf : ∀ v g c, ((f c).setCurrent v).calcFromGreens g = (c.setCurrent v).calcFromGreens g) :
    ∀ (cs : List (String × AnyCoil K × K)) (acc : K),
      (Circuit.calcLoop d I acc (cs.map fun x => (x.1, f x.2.1, x.2.2))).map Prod.fst = (Circuit.calcLoop d I acc cs).map Prod.fst
  | [], acc => rfl
  | (l, c, m) :: rest, acc => by
    simp only [List.map_cons, Circuit.calcLoop]
    cases d l with
    | none => rfl
    | some g =>
      have ih := circuit_calc_same d I f hf rest (acc + (c.setCurrent (I * m)).calcFromGreens g)
      simp only [hf]
      revert ih
      cases Circuit.calcLoop d I (acc + (c.setCurrent (I * m)).calcFromGreens g) (rest.map fun x => (x.1, f x.2.1, x.2.2)) <;>
        cases Circuit.calcLoop d I (acc + (c.setCurrent (I * m)).calcFromGreens g) rest <;> simp [Except.map]

theorem calcValue_setControl (b : Bool) (x : Entry K) (g : Entry.Greens K) : calcValue (x.setControl b) g = calcValue x g := by
  cases x with
  | coil c => cases g <;> cases c <;> rfl
  | solenoid s => cases g <;> rfl
  | circuit c =>
    cases g with
    | val g => rfl
    | dict d =>
      have := circuit_calc_same d c.current (fun y => y.setControl b) (fun v g y => by cases y <;> rfl) c.coils 0
      simp only [calcValue, Entry.setControl, Entry.calcFromGreens, Circuit.calcFromGreens, Circuit.setControl]
      revert this
      cases Circuit.calcLoop d c.current 0 (c.coils.map fun x => (x.1, x.2.1.setControl b, x.2.2)) <;>
        cases Circuit.calcLoop d c.current 0 c.coils <;> simp [Except.map]

theorem circuit_calc_set (d : String → Option K) (I v : K) : ∀ (cs : List (String × AnyCoil K × K)) (acc : K),
    (Circuit.calcLoop d I acc (cs.map fun x => (x.1, x.2.1.setCurrent (x.2.2 * v), x.2.2))).map Prod.fst = (Circuit.calcLoop d I acc cs).map Prod.fst
  | [], acc => rfl
  | (l, c, m) :: rest, acc => by
    simp only [List.map_cons, Circuit.calcLoop]
    cases d l with
    | none => rfl
    | some g =>
      have hs : ((c.setCurrent (m * v)).setCurrent (I * m)).calcFromGreens g = (c.setCurrent (I * m)).calcFromGreens g := by cases c <;> rfl
      have ih := circuit_calc_set d I v rest (acc + (c.setCurrent (I * m)).calcFromGreens g)
      simp only [hs]
      revert ih
      cases Circuit.calcLoop d I (acc + (c.setCurrent (I * m)).calcFromGreens g) (rest.map fun x => (x.1, x.2.1.setCurrent (x.2.2 * v), x.2.2)) <;>
        cases Circuit.calcLoop d I (acc + (c.setCurrent (I * m)).calcFromGreens g) rest <;> simp [Except.map]

theorem calcValue_own (x : Entry K) (g : Entry.Greens K) : calcValue (x.setCurrent x.current) g = calcValue x g := by
  cases x with
  | coil c => cases g <;> cases c <;> rfl
  | solenoid s => cases g <;> rfl
  | circuit c =>
    cases g with
    | val g => rfl
    | dict d =>
      have := circuit_calc_set d c.current c.current c.coils 0
      simp only [calcValue, Entry.setCurrent, Entry.current, Entry.calcFromGreens, Circuit.calcFromGreens, Circuit.setCurrent]
      revert this
      cases Circuit.calcLoop d c.current 0 (c.coils.map fun x => (x.1, x.2.1.setCurrent (x.2.2 * c.current), x.2.2)) <;>
        cases Circuit.calcLoop d c.current 0 c.coils <;> simp [Except.map]

theorem entry_setControl_setCurrent (b : Bool) (v : K) (x : Entry K) : (x.setControl b).setCurrent v = (x.setCurrent v).setControl b := by
  cases x with
  | coil c => cases c <;> rfl
  | solenoid s => rfl
  | circuit c =>
    simp only [Entry.setControl, Entry.setCurrent, Circuit.setControl, Circuit.setCurrent, List.map_map, Function.comp_def]
    congr 2
    refine List.map_congr_left fun x _ => ?_
    rcases x with ⟨l, y, k⟩
    cases y <;> rfl

theorem entry_setControl_control (x : Entry K) : (x.setControl true).control = true := by
  cases x with
  | coil c => cases c <;> rfl
  | solenoid s => rfl
  | circuit c => rfl

/-- Equal labels and equal contributions to the flux. -/
def SameFlux (a b : String × Entry K) : Prop := b.1 = a.1 ∧ ∀ g, calcValue b.2 g = calcValue a.2 g

theorem machine_calc_same (d : String → Option (Entry.Greens K)) {as bs : List (String × Entry K)} (h : List.Forall₂ SameFlux as bs) :
    ∀ acc, (Machine.calcLoop d acc bs).map Prod.fst = (Machine.calcLoop d acc as).map Prod.fst := by
  induction h with
  | nil => intro acc; rfl
  | @cons a b as bs hab _ ih =>
    intro acc
    obtain ⟨l, x⟩ := a
    obtain ⟨l', y⟩ := b
    obtain ⟨rfl, hv⟩ := hab
    simp only [Machine.calcLoop]
    cases d l' with
    | none => rfl
    | some g =>
      have h1 : (y.calcFromGreens g).map Prod.fst = (x.calcFromGreens g).map Prod.fst := hv g
      rcases hy : y.calcFromGreens g with e1 | r <;> rcases hx : x.calcFromGreens g with e2 | r' <;> rw [hy, hx] at h1 <;>
        simp only [Except.map, Except.ok.injEq, Except.error.injEq, reduceCtorEq] at h1
      · simp only [hy, hx, h1]
      · have h2 := ih (acc + r'.1)
        simp only [hy, hx, h1]
        revert h2
        cases Machine.calcLoop d (acc + r'.1) bs <;> cases Machine.calcLoop d (acc + r'.1) as <;> simp [Except.map]

theorem psi_same (g : Grid K) {m m' : Machine K} (h : List.Forall₂ SameFlux m.coils m'.coils) : g.psi m' = g.psi m := by
  have key : ∀ ts ps, psiLoop m' ts ps = psiLoop m ts ps := by
    intro ts
    induction ts with
    | nil => intro ps; cases ps <;> rfl
    | cons t ts ih =>
      intro ps
      cases ps with
      | nil => rfl
      | cons p ps =>
        have h1 := machine_calc_same t h 0
        simp only [psiLoop, Machine.calcFromGreens, ih]
        revert h1
        cases Machine.calcLoop t 0 m'.coils <;> cases Machine.calcLoop t 0 m.coils <;> simp [Except.map]
        intro he
        rw [he]
  exact key _ _

/-- Currents for the machine with more coils controlled that give the same flux. -/
theorem same_currents {as bs : List (String × Entry K)} (h : List.Forall₂ (fun a b => b = a ∨ b = (a.1, a.2.setControl true)) as bs) :
    ∀ xs : List K, xs.length = (as.filter fun x => x.2.control).length → ∃ ys : List K, ys.length = (bs.filter fun x => x.2.control).length ∧
      List.Forall₂ SameFlux (Machine.zipControl (fun _ x => x) as xs) (Machine.zipControl (fun _ x => x) bs ys) := by
  induction h with
  | nil => intro xs hx; exact ⟨[], rfl, .nil⟩
  | @cons a b as bs hab _ ih =>
    intro xs hx
    obtain ⟨l, x⟩ := a
    by_cases ha : x.control = true
    · have hb : b.2.control = true := by
        rcases hab with rfl | rfl
        · exact ha
        · exact entry_setControl_control x
      rcases xs with _ | ⟨v, xs⟩
      · simp [ha] at hx
      · simp only [ha, List.filter_cons_of_pos, List.length_cons, add_left_inj] at hx
        obtain ⟨ys, h1, h2⟩ := ih xs hx
        refine ⟨v :: ys, by simp [hb, h1], ?_⟩
        rcases hab with rfl | rfl
        · simp only [Machine.zipControl, ha]
          exact .cons ⟨rfl, fun g => rfl⟩ h2
        · simp only at hb
          simp only [Machine.zipControl, ha, hb]
          exact .cons ⟨rfl, fun g => by rw [entry_setControl_setCurrent, calcValue_setControl]⟩ h2
    · have ha' : x.control = false := by simpa using ha
      have hx' : xs.length = (as.filter fun x => x.2.control).length := by simpa [ha] using hx
      obtain ⟨ys, h1, h2⟩ := ih xs hx'
      rcases hab with rfl | rfl
      · refine ⟨ys, by simp [ha, h1], ?_⟩
        simp only [Machine.zipControl, ha']
        exact .cons ⟨rfl, fun g => rfl⟩ h2
      · have hb := entry_setControl_control x
        refine ⟨x.current :: ys, by simp [hb, h1], ?_⟩
        simp only [Machine.zipControl, ha', hb]
        exact .cons ⟨rfl, fun g => by rw [entry_setControl_setCurrent, calcValue_setControl, calcValue_own]⟩ h2

/-! ## The theorems -/

/-- **C135 (coils).** A fit of the flux with `ConstrainPsi2D`, and the same fit with more coils controlled, `leastsq` returning the least sum of squares both times: the
fit with more coils is at least as close to the target. -/
theorem C135_coils (lsq lsq' : (List K → Except Err (List K)) → List K → Except Err (List K)) (target : List K) (weights : Option (Weights K))
    (ws : List K) (hw : weights.getD (.array (List.replicate target.length 1)) = .array ws) (c : Psi2D K) (hc : Psi2D.make target weights = .ok c)
    (g : Grid K) (m m' n n' : Machine K) (hmore : ControlsMore m n)
    (hopt : ∀ x, lsq (c.difference g m) m.controlCurrents = .ok x → LeastSquares (c.difference g m) (fun y => y.length = m.controlCurrents.length) x)
    (hopt' : ∀ x, lsq' (c.difference g n) n.controlCurrents = .ok x → LeastSquares (c.difference g n) (fun y => y.length = n.controlCurrents.length) x)
    (h : c.call lsq g m = .ok m') (h' : c.call lsq' g n = .ok n') :
    ∃ psi psi', g.psi m' = .ok psi ∧ g.psi n' = .ok psi' ∧ mismatch ws target psi' ≤ mismatch ws target psi := by
  obtain ⟨-, -, h1, h2, psi, h3, h4, -⟩ := C113_closest lsq target weights ws hw c hc g m m' hopt h
  obtain ⟨-, -, -, -, psi', h5, -, h7⟩ := C113_closest lsq' target weights ws hw c hc g n n' hopt' h'
  obtain ⟨ys, hy, hs⟩ := same_currents hmore m'.controlCurrents (by rw [h2]; simp [Machine.controlCurrents])
  have hp : g.psi (n.setControlCurrents ys) = .ok psi := by
    rw [← h3, h1]
    exact psi_same g hs
  exact ⟨psi, psi', h3, h5, h7 ys psi (by rw [hy]; simp [Machine.controlCurrents]) hp h4⟩

/-- **C135 (limits).** A fit with `ConstrainPsi2DAdvanced`, and the same fit with wider limits, `minimize` returning the least value within the bounds both times: the
fit with wider limits is at least as close to the target. -/
theorem C135_limits (lbfgs lbfgs' : (List K → Except Err K) → List K → List (K × K) → Except Err (List K)) (target ws : List K) (ls ls' : List (K × K))
    (hw : ∀ (j : ℕ) lim, ls[j]? = some lim → ∃ lim', ls'[j]? = some lim' ∧ min lim'.1 lim'.2 ≤ min lim.1 lim.2 ∧ max lim.1 lim.2 ≤ max lim'.1 lim'.2)
    (hl : target.length = ws.length) (hs : ws.sum ≠ 0) (g : Grid K) (m m' n' : Machine K)
    (hopt : ∀ f x0 bs x, List.Forall₂ Between x0 bs → lbfgs f x0 bs = .ok x → List.Forall₂ Between x bs ∧ ∃ v, f x = .ok v ∧
      ∀ y w, List.Forall₂ Between y bs → f y = .ok w → v ≤ w)
    (hopt' : ∀ f x0 bs x, List.Forall₂ Between x0 bs → lbfgs' f x0 bs = .ok x → List.Forall₂ Between x bs ∧ ∃ v, f x = .ok v ∧
      ∀ y w, List.Forall₂ Between y bs → f y = .ok w → v ≤ w)
    (h : advancedCall lbfgs ((Psi2DAdvanced.make target (.array ws) (some ls)).difference g m) (some ls) m = .ok m')
    (h' : advancedCall lbfgs' ((Psi2DAdvanced.make target (.array ws) (some ls')).difference g m) (some ls') m = .ok n') :
    ∃ psi psi', g.psi m' = .ok psi ∧ g.psi n' = .ok psi' ∧
      ∑ i ∈ Finset.range ws.length, (ws.getD i 0 * (psi'.getD i 0 - wmean ws psi' - target.getD i 0)) ^ 2 ≤
        ∑ i ∈ Finset.range ws.length, (ws.getD i 0 * (psi.getD i 0 - wmean ws psi - target.getD i 0)) ^ 2 := by
  obtain ⟨psi, h3, h4, -⟩ := C113_bounded lbfgs target ws ls hl hs g m m' _ rfl (fun x0 bs x => hopt _ x0 bs x) h
  obtain ⟨psi', h5, -, h7⟩ := C113_bounded lbfgs' target ws ls' hl hs g m n' _ rfl (fun x0 bs x => hopt' _ x0 bs x) h'
  have hb := (C65_limits_partial lbfgs (fun f x0 bs x a b => (hopt f x0 bs x a b).1) _ ls m m' h).1
  have hm : m' = m.setControlCurrents m'.controlCurrents ∧ m'.controlCurrents.length = m.controlCurrents.length := by
    rw [advancedCall] at h
    split at h
    · cases h
    rename_i st hst
    obtain ⟨i1, i2, -⟩ := advancedStart_ok ls _ _ _ hst
    split at h
    · cases h
    rename_i x hx
    simp only [Except.ok.injEq] at h
    subst h
    have hf := (hopt _ _ _ _ i1 hx).1
    have hlen : x.length = m.controlCurrents.length := by rw [hf.length_eq]; simpa using i2
    have hc : (m.setControlCurrents x).controlCurrents = x := by
      rw [C19_other_lengths, hlen]
      simp [← hlen]
    rw [hc]
    exact ⟨rfl, hlen⟩
  refine ⟨psi, psi', h3, h5, h7 m'.controlCurrents psi hm.2 (fun j I hj => ?_) (by rw [← hm.1]; exact h3) h4⟩
  obtain ⟨lim, a1, a2⟩ := hb j I hj
  obtain ⟨lim', b1, b2, b3⟩ := hw j lim a1
  exact ⟨lim', b1, b2.trans a2.1, a2.2.trans b3⟩

/-- Two coils, none or both controlled, and limits inside others. -/
example : ∃ m n : Machine ℚ, ControlsMore m n ∧ m.controlCurrents.length = 1 ∧ n.controlCurrents.length = 2 ∧
    ∃ ls ls' : List (ℚ × ℚ), ∀ (j : ℕ) lim, ls[j]? = some lim → ∃ lim', ls'[j]? = some lim' ∧ min lim'.1 lim'.2 ≤ min lim.1 lim.2 ∧
      max lim.1 lim.2 ≤ max lim'.1 lim'.2 := by
  refine ⟨⟨[("A", .coil (.point (PointCoil.make 1 0 3))), ("B", .coil (.point (PointCoil.make 2 0 3 1 false)))]⟩,
    ⟨[("A", .coil (.point (PointCoil.make 1 0 3))), ("B", .coil (.point (PointCoil.make 2 0 3)))]⟩,
    .cons (.inl rfl) (.cons (.inr rfl) .nil), rfl, rfl, [(-1, 1)], [(2, -2)], ?_⟩
  intro j lim hj
  match j with
  | 0 =>
    obtain rfl := Option.some.inj hj
    exact ⟨(2, -2), rfl, by norm_num, by norm_num⟩
  | j + 1 => simp at hj

/-- Two coils, of which the first is controlled. -/
def twoFit (b : Bool) : Machine ℚ := ⟨[("A", .coil (.point (PointCoil.make 1 0 3))), ("B", .coil (.point (PointCoil.make 2 0 3 1 b)))]⟩

/-- Both fits of C135_coils, by an optimiser that returns the least sum of squares whenever there is one, succeed. -/
example : ∃ (c : Psi2D ℚ) (lsq : (List ℚ → Except Err (List ℚ)) → List ℚ → Except Err (List ℚ)) (m' n' : Machine ℚ),
    Psi2D.make [0, 31] = .ok c ∧ ControlsMore (twoFit false) (twoFit true) ∧
    (∀ f x0 x, lsq f x0 = .ok x → LeastSquares f (fun y => y.length = x0.length) x) ∧
    c.call lsq fitGrid (twoFit false) = .ok m' ∧ c.call lsq fitGrid (twoFit true) = .ok n' := by
  classical
  have hm : Psi2D.make [0, 31] = .ok (⟨[-31 / 2, 31 / 2], .array [1, 1]⟩ : Psi2D ℚ) := by
    simp [Psi2D.make, average]
    norm_num
  have hz : ∀ (f : List ℚ → Except Err (List ℚ)) (x0 x : List ℚ), x.length = x0.length → f x = .ok [0, 0] →
      LeastSquares f (fun y => y.length = x0.length) x := by
    intro f x0 x hx hf
    refine ⟨hx, [0, 0], hf, fun y dy _ _ => ?_⟩
    simp only [List.map_cons, List.map_nil, List.sum_cons, List.sum_nil]
    have : 0 ≤ (dy.map fun v : ℚ => v ^ 2).sum := List.sum_nonneg (by simp only [List.mem_map]; rintro _ ⟨v, -, rfl⟩; positivity)
    simpa using this
  have e1 : ∃ x, LeastSquares ((⟨[-31 / 2, 31 / 2], .array [1, 1]⟩ : Psi2D ℚ).difference fitGrid (twoFit false))
      (fun y => y.length = (twoFit false).controlCurrents.length) x := ⟨[4], hz _ _ _ rfl (by decide +kernel)⟩
  have e2 : ∃ x, LeastSquares ((⟨[-31 / 2, 31 / 2], .array [1, 1]⟩ : Psi2D ℚ).difference fitGrid (twoFit true))
      (fun y => y.length = (twoFit true).controlCurrents.length) x := ⟨[9, -2], hz _ _ _ rfl (by decide +kernel)⟩
  refine ⟨_, fun f x0 => if h : ∃ x, LeastSquares f (fun y => y.length = x0.length) x then .ok h.choose else .error .runtime,
    (twoFit false).setControlCurrents e1.choose, (twoFit true).setControlCurrents e2.choose, hm, .cons (.inl rfl) (.cons (.inr rfl) .nil), ?_, ?_, ?_⟩
  · intro f x0 x hx
    dsimp only at hx
    split at hx
    · rename_i h
      obtain rfl := Except.ok.inj hx
      exact h.choose_spec
    · cases hx
  · simp only [Psi2D.call, dif_pos e1]
  · simp only [Psi2D.call, dif_pos e2]

/-- Both fits of C135_limits, by an optimiser that returns the least value whenever there is one, succeed: the limit 5 is widened to 6, the target needs 7. -/
example : ∃ (lbfgs : (List ℚ → Except Err ℚ) → List ℚ → List (ℚ × ℚ) → Except Err (List ℚ)) (m' n' : Machine ℚ),
    (∀ f x0 bs x, List.Forall₂ Between x0 bs → lbfgs f x0 bs = .ok x → List.Forall₂ Between x bs ∧ ∃ v, f x = .ok v ∧
      ∀ y w, List.Forall₂ Between y bs → f y = .ok w → v ≤ w) ∧
    advancedCall lbfgs ((Psi2DAdvanced.make [-31 / 2, 31 / 2] (.array [1, 1]) (some [(5, 0)])).difference fitGrid fitMachine) (some [(5, 0)]) fitMachine = .ok m' ∧
    advancedCall lbfgs ((Psi2DAdvanced.make [-31 / 2, 31 / 2] (.array [1, 1]) (some [(6, -1)])).difference fitGrid fitMachine) (some [(6, -1)]) fitMachine = .ok n' := by
  classical
  have hp : ∀ v : ℚ, fitGrid.psi (fitMachine.setControlCurrents [v]) = .ok [10 + 2 * v, 20 + 5 * v] := by
    intro v
    simp [fitGrid, Grid.psi, psiLoop, fit_calc]
  have hd : ∀ (ls : List (ℚ × ℚ)) (v : ℚ), (Psi2DAdvanced.make [-31 / 2, 31 / 2] (.array [1, 1]) (some ls)).difference fitGrid fitMachine [v] = .ok (9 / 2 * (v - 7) ^ 2) := by
    intro ls v
    simp [Psi2DAdvanced.make, Psi2DAdvanced.difference, difference, hp, average, Weights.apply]
    ring
  have ex : ∀ (ls : List (ℚ × ℚ)) (a b : ℚ), a ≤ b → b ≤ 7 → ∃ x, List.Forall₂ Between x [(a, b)] ∧
      ∃ v, (Psi2DAdvanced.make [-31 / 2, 31 / 2] (.array [1, 1]) (some ls)).difference fitGrid fitMachine x = .ok v ∧ ∀ y w, List.Forall₂ Between y [(a, b)] →
        (Psi2DAdvanced.make [-31 / 2, 31 / 2] (.array [1, 1]) (some ls)).difference fitGrid fitMachine y = .ok w → v ≤ w := by
    intro ls a b hab hb
    refine ⟨[b], .cons ⟨by simp, by simp⟩ .nil, _, hd ls b, fun y w hy hw => ?_⟩
    cases hy with
    | cons h1 h2 =>
      cases h2
      rw [hd] at hw
      obtain rfl := Except.ok.inj hw
      have := h1.2
      simp only [max_eq_right hab] at this
      nlinarith
  have e1 := ex [(5, 0)] 0 5 (by norm_num) (by norm_num)
  have e2 := ex [(6, -1)] (-1) 6 (by norm_num) (by norm_num)
  have s1 : advancedStart (some [((5 : ℚ), (0 : ℚ))]) fitMachine.controlCurrents 0 = .ok [(3, (0, 5))] := by decide +kernel
  have s2 : advancedStart (some [((6 : ℚ), (-1 : ℚ))]) fitMachine.controlCurrents 0 = .ok [(3, (-1, 6))] := by decide +kernel
  refine ⟨fun f _ bs => if h : ∃ x, List.Forall₂ Between x bs ∧ ∃ v, f x = .ok v ∧ ∀ y w, List.Forall₂ Between y bs → f y = .ok w → v ≤ w
    then .ok h.choose else .error .runtime, fitMachine.setControlCurrents e1.choose, fitMachine.setControlCurrents e2.choose, ?_, ?_, ?_⟩
  · intro f x0 bs x _ hx
    dsimp only at hx
    split at hx
    · rename_i h
      obtain rfl := Except.ok.inj hx
      exact h.choose_spec
    · cases hx
  · simp only [advancedCall, s1, List.map_cons, List.map_nil, dif_pos e1]
  · simp only [advancedCall, s2, List.map_cons, List.map_nil, dif_pos e2]

end FreeGS.Control
