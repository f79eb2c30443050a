import Mathlib.Data.String.Basic
import Verif.Lemmas.Machine
import Verif.Spec.Dump

set_option linter.unusedSectionVars false

/-!
# Lemmas on saved equilibria
-/

namespace FreeGS.Dump

open FreeGS.Resolution
open FreeGS.Critical (Domain)
open FreeGS.Limits (Walled)

universe u
variable {S P Q K : Type u} [Field K] [LinearOrder K]

/-! ### What writing does to the machine -/

theorem circuit_calcLoop (d : String → Option K) (I : K) (cs : List (String × AnyCoil K × K)) :
    ∀ (acc : K) (r : K × List (String × AnyCoil K × K)), Circuit.calcLoop d I acc cs = .ok r →
      r.2 = cs.map fun x => (x.1, x.2.1.setCurrent (I * x.2.2), x.2.2) := by
  induction cs with
  | nil => intro acc r h; simp only [Circuit.calcLoop, Except.ok.injEq] at h; rw [← h]; rfl
  | cons x cs ih =>
    obtain ⟨l, c, m⟩ := x
    intro acc r h
    simp only [Circuit.calcLoop] at h
    cases hd : d l with
    | none => simp [hd] at h
    | some g =>
      simp only [hd] at h
      cases ht : Circuit.calcLoop d I (acc + (c.setCurrent (I * m)).calcFromGreens g) cs with
      | error e => simp [ht] at h
      | ok t => simp only [ht, Except.ok.injEq] at h; rw [← h]; simp [ih _ _ ht]

theorem sync_eq_evaluated (x : Entry K) : x.sync = evaluated x := by
  cases x with
  | circuit c => simp [Entry.sync, evaluated, Circuit.sync, Circuit.setCurrent, mul_comm]
  | _ => rfl

theorem entry_calc {g : Entry.Greens K} {x : Entry K} {r : K × Entry K} (h : x.calcFromGreens g = .ok r) : r.2 = evaluated x := by
  rw [← sync_eq_evaluated]
  cases x with
  | coil c => cases g <;> simp [Entry.calcFromGreens] at h; rw [← h]; rfl
  | solenoid s => cases g <;> simp [Entry.calcFromGreens] at h; rw [← h]; rfl
  | circuit c =>
    cases g with
    | val v => simp [Entry.calcFromGreens] at h
    | dict d =>
      simp only [Entry.calcFromGreens, Circuit.calcFromGreens] at h
      cases ht : Circuit.calcLoop d c.current 0 c.coils with
      | error e => simp [ht] at h
      | ok t =>
        simp only [ht, Except.ok.injEq] at h
        rw [← h]
        simp [Entry.sync, Circuit.sync, circuit_calcLoop d c.current c.coils _ _ ht]

theorem machine_calcLoop (d : String → Option (Entry.Greens K)) (cs : List (String × Entry K)) :
    ∀ (acc : K) (r : K × List (String × Entry K)), Machine.calcLoop d acc cs = .ok r →
      r.2 = cs.map fun x => (x.1, evaluated x.2) := by
  induction cs with
  | nil => intro acc r h; simp only [Machine.calcLoop, Except.ok.injEq] at h; rw [← h]; rfl
  | cons x cs ih =>
    obtain ⟨l, x⟩ := x
    intro acc r h
    simp only [Machine.calcLoop] at h
    cases hd : d l with
    | none => simp [hd] at h
    | some g =>
      simp only [hd] at h
      cases hx : x.calcFromGreens g with
      | error e => simp [hx] at h
      | ok y =>
        simp only [hx] at h
        cases ht : Machine.calcLoop d (acc + y.1) cs with
        | error e => simp [ht] at h
        | ok t => simp only [ht, Except.ok.injEq] at h; rw [← h]; simp [ih _ _ ht, entry_calc hx]

theorem machine_calc {d : String → Option (Entry.Greens K)} {m : Machine K} {r : K × Machine K} (h : m.calcFromGreens d = .ok r) :
    r.2.coils = m.coils.map fun x => (x.1, evaluated x.2) := by
  simp only [Machine.calcFromGreens] at h
  cases ht : Machine.calcLoop d 0 m.coils with
  | error e => simp [ht] at h
  | ok t => simp only [ht, Except.ok.injEq] at h; rw [← h]; exact machine_calcLoop d m.coils _ _ ht

/-! ### Records -/

theorem pad_ok {l l' : List K} (h : pad l = .ok l') : l.length ≤ 10 ∧ l'.take l.length = l := by
  unfold pad at h
  split_ifs at h with hl
  simp only [Except.ok.injEq] at h
  refine ⟨hl, ?_⟩
  rw [← h, List.take_left]

theorem pad_le {l : List K} (h : l.length ≤ 10) : ∃ l', pad l = .ok l' := ⟨_, by rw [pad, if_pos h]⟩

theorem pad_gt {l : List K} (h : ¬ l.length ≤ 10) : pad l = .error .value := by rw [pad, if_neg h]

theorem rowsOf_ok {toInt : K → ℤ} {cs : List (String × AnyCoil K × K)} :
    (∃ rows, rowsOf toInt cs = .ok rows) ↔ ∀ x ∈ cs, ∃ p, x.2.1 = .point p := by
  induction cs with
  | nil => simp [rowsOf]
  | cons x cs ih =>
    obtain ⟨l, c, m⟩ := x
    cases c with
    | point c =>
      simp only [rowsOf, List.mem_cons, forall_eq_or_imp, AnyCoil.point.injEq, exists_eq', true_and]
      rw [← ih]
      cases rowsOf toInt cs with
      | error e => simp
      | ok r => simp
    | _ => simp [rowsOf]

theorem toRecord_ok {toInt : K → ℤ} {x : Entry K} : (∃ r, toRecord toInt x = .ok r) ↔ Supported x := by
  cases x with
  | coil c =>
    cases c with
    | shaped c =>
      simp only [toRecord, Supported]
      by_cases h : c.shape.length ≤ 10
      · obtain ⟨R, hR⟩ := pad_le (l := c.shape.map Prod.fst) (by simpa using h)
        obtain ⟨Z, hZ⟩ := pad_le (l := c.shape.map Prod.snd) (by simpa using h)
        simp [hR, hZ, h]
      · have hR := pad_gt (l := c.shape.map Prod.fst) (by simpa using h)
        simp [hR, h]
    | _ => simp [toRecord, Supported]
  | circuit c =>
    simp only [toRecord, Supported]
    rw [← rowsOf_ok (toInt := toInt)]
    cases rowsOf toInt c.coils with
    | error e => simp
    | ok r => simp
  | solenoid s => simp [toRecord, Supported]

theorem rowsOf_back {toInt : K → ℤ} (hx : Exact toInt) {cs : List (String × AnyCoil K × K)} :
    ∀ {rows : List (String × Row K × K)}, rowsOf toInt cs = .ok rows → (∀ x ∈ cs, Whole x.2.1.turns) →
      rows.map (fun x => (x.1, AnyCoil.point (coilOf x.2.1), x.2.2)) =
        cs.map (fun x => (x.1, match x.2.1 with | .point p => .point { p with area := defaultArea } | y => y, x.2.2)) := by
  induction cs with
  | nil => intro rows h _; simp only [rowsOf, Except.ok.injEq] at h; rw [← h]; rfl
  | cons x cs ih =>
    obtain ⟨l, c, m⟩ := x
    intro rows h hw
    cases c with
    | point c =>
      simp only [rowsOf] at h
      cases ht : rowsOf toInt cs with
      | error e => simp [ht] at h
      | ok t =>
        simp only [ht, Except.ok.injEq] at h
        obtain ⟨n, hn⟩ : Whole c.turns := hw _ List.mem_cons_self
        rw [← h, List.map_cons, List.map_cons, ih ht fun x hx => hw x (List.mem_cons_of_mem _ hx)]
        simp [coilOf, rowOf, PointCoil.make, hn, hx n]
    | _ => simp [rowsOf] at h

theorem rowsOf_head {toInt : K → ℤ} {l : String} {c : AnyCoil K} {m : K} {cs : List (String × AnyCoil K × K)}
    {rows : List (String × Row K × K)} (h : rowsOf toInt ((l, c, m) :: cs) = .ok rows) :
    ∃ p t, c = .point p ∧ rows = (l, rowOf toInt p, m) :: t := by
  cases c with
  | point c =>
    simp only [rowsOf] at h
    cases ht : rowsOf toInt cs with
    | error e => simp [ht] at h
    | ok t => simp only [ht, Except.ok.injEq] at h; exact ⟨c, t, rfl, h.symm⟩
  | _ => simp [rowsOf] at h

theorem make_same {c : Circuit K} (hs : c.Synced) (hc : ∀ x ∈ c.coils, x.2.1.control = c.control) :
    Circuit.make c.coils c.current c.control = c := by
  have : c.coils.map (fun x => (x.1, (x.2.1.setCurrent (x.2.2 * c.current)).setControl c.control, x.2.2)) = c.coils := by
    conv_rhs => rw [← List.map_id c.coils]
    refine List.map_congr_left fun x hx => ?_
    rw [← hs x hx, ← hc x hx]
    obtain ⟨l, y, m⟩ := x
    cases y <;> rfl
  cases c
  simp only [Circuit.make, Circuit.setCurrent, Circuit.setControl, List.map_map] at this ⊢
  simpa [Function.comp_def] using this

theorem fromRecord_toRecord {toInt : K → ℤ} (hx : Exact toInt) {x : Entry K} (hr : Restorable x) {r : Record K}
    (h : toRecord toInt (evaluated x) = .ok r) : fromRecord toInt r = .ok (some (defaultAreas (evaluated x))) := by
  cases x with
  | coil c =>
    cases c with
    | point c =>
      obtain ⟨n, hn⟩ := hr
      simp only [evaluated, toRecord, Except.ok.injEq] at h
      rw [← h]
      simp [fromRecord, coilOf, rowOf, PointCoil.make, defaultAreas, evaluated, hn, hx n]
    | shaped c =>
      obtain ⟨⟨n, hn⟩, hu⟩ := hr
      simp only [evaluated, toRecord] at h
      cases hR : pad (c.shape.map Prod.fst) with
      | error e => simp [hR] at h
      | ok R =>
        cases hZ : pad (c.shape.map Prod.snd) with
        | error e => simp [hR, hZ] at h
        | ok Z =>
          simp only [hR, hZ, Except.ok.injEq] at h
          have h1 := (pad_ok hR).2
          have h2 := (pad_ok hZ).2
          simp only [List.length_map] at h1 h2
          have h3 : ((toInt c.turns : ℤ) : K) = c.turns := by rw [hn, hx n]
          rw [← h]
          simp only [fromRecord, h1, h2, ← List.zip_of_prod rfl rfl, h3]
          rw [hu]
          rfl
    | _ => exact hr.elim
  | circuit c =>
    obtain ⟨hw, y, hy, hm⟩ := hr
    simp only [evaluated, toRecord] at h
    cases hrows : rowsOf toInt (c.setCurrent c.current).coils with
    | error e => simp [hrows] at h
    | ok rows =>
      simp only [hrows, Except.ok.injEq] at h
      rw [← h]
      have hb := rowsOf_back hx hrows (by
        intro x hx
        simp only [Circuit.setCurrent, List.mem_map] at hx
        obtain ⟨z, hz, rfl⟩ := hx
        simpa using (hw z hz).1)
      obtain ⟨l, k, m⟩ := y
      cases hcs : c.coils with
      | nil => simp [hcs] at hy
      | cons a cs =>
        rw [hcs, List.head?_cons, Option.some.injEq] at hy
        subst hy
        have hcoils : (c.setCurrent c.current).coils = (l, k.setCurrent (m * c.current), m) ::
            cs.map fun x => (x.1, x.2.1.setCurrent (x.2.2 * c.current), x.2.2) := by
          simp [Circuit.setCurrent, hcs]
        rw [hcoils] at hrows
        obtain ⟨p, t, hp, ht⟩ := rowsOf_head hrows
        have hp' : p.current = m * c.current := by
          have := congrArg AnyCoil.current hp
          rw [AnyCoil.current_setCurrent] at this
          exact this.symm
        have hpc : p.control = c.control := by
          have := congrArg AnyCoil.control hp
          simp only [AnyCoil.control_setCurrent] at this
          rw [(hw (l, k, m) (by rw [hcs]; exact List.mem_cons_self)).2] at this
          exact this.symm
        have hm' : m ≠ 0 := hm
        have hsync := Circuit.synced_setCurrent c.current c
        rw [ht] at hb ⊢
        simp only [fromRecord, if_neg hm', rowOf, hp', hpc, mul_div_cancel_left₀ _ hm']
        have hcur : (c.setCurrent c.current).current = c.current := rfl
        have hctl : (c.setCurrent c.current).control = c.control := rfl
        simp only [rowOf, hp', hpc] at hb
        rw [hb]
        set C : Circuit K := { c.setCurrent c.current with coils := (c.setCurrent c.current).coils.map fun x =>
          (x.1, match x.2.1 with | .point p => .point { p with area := defaultArea } | y => y, x.2.2) } with hC
        have hfin : Circuit.make C.coils C.current C.control = C := by
          apply make_same
          · intro x hx
            simp only [hC, List.mem_map] at hx
            obtain ⟨z, hz, rfl⟩ := hx
            have := hsync z hz
            obtain ⟨z1, z2, z3⟩ := z
            cases z2 <;> exact this
          · intro x hx
            simp only [hC, List.mem_map] at hx
            obtain ⟨z, hz, rfl⟩ := hx
            have : z.2.1.control = c.control := by
              simp only [Circuit.setCurrent, List.mem_map] at hz
              obtain ⟨w, hw', rfl⟩ := hz
              simpa using (hw w hw').2
            obtain ⟨z1, z2, z3⟩ := z
            cases z2 <;> exact this
        exact congrArg (fun C => Except.ok (some (Entry.circuit C))) hfin
  | solenoid s =>
    simp only [evaluated, toRecord, Except.ok.injEq] at h
    rw [← h]
    have : toInt (s.Ns : K) = s.Ns := by simpa using hx s.Ns
    simp [fromRecord, defaultAreas, evaluated, this]

/-! ### Lists of coils -/

theorem writeCoils_ok {toInt : K → ℤ} {cs : List (String × Entry K)} :
    ∀ {acc out : List (String × Record K)}, writeCoils toInt cs acc = .ok out ↔
      (∀ x ∈ cs, plainLabel x.1 = true) ∧ (∀ x ∈ cs, x.1 ∉ acc.map Prod.fst) ∧ (cs.map Prod.fst).Nodup ∧
      ∃ rs, out = acc ++ rs ∧ List.Forall₂ (fun x r => x.1 = r.1 ∧ toRecord toInt x.2 = .ok r.2) cs rs := by
  induction cs with
  | nil =>
    intro acc out
    simp only [writeCoils, Except.ok.injEq, List.forall₂_nil_left_iff]
    constructor
    · intro h; exact ⟨by simp, by simp, by simp, [], by simp [h], rfl⟩
    · rintro ⟨-, -, -, rs, h, rfl⟩; simp [h]
  | cons x cs ih =>
    obtain ⟨l, x⟩ := x
    intro acc out
    unfold writeCoils
    cases hr : toRecord toInt x with
    | error e =>
      simp only [reduceCtorEq, false_iff]
      rintro ⟨-, -, -, rs, -, h⟩
      cases h with
      | cons h1 h2 => simp [hr] at h1
    | ok r =>
      simp only
      by_cases hp : plainLabel l = true
      · by_cases hm : l ∈ acc.map Prod.fst
        · rw [if_neg (by simp [hp]), if_pos hm]
          simp only [reduceCtorEq, false_iff]
          rintro ⟨-, h, -⟩
          exact h (l, x) List.mem_cons_self hm
        · rw [if_neg (by simp [hp]), if_neg hm, ih]
          constructor
          · rintro ⟨h1, h2, h3, rs, h4, h5⟩
            have h2' : ∀ y ∈ cs, y.1 ∉ acc.map Prod.fst ∧ y.1 ≠ l := by
              intro y hy
              have := h2 y hy
              simp only [List.map_append, List.map_cons, List.map_nil, List.mem_append, List.mem_singleton, not_or] at this
              exact this
            refine ⟨?_, ?_, ?_, (l, r) :: rs, by simp [h4], .cons ⟨rfl, hr⟩ h5⟩
            · intro y hy
              rcases List.mem_cons.mp hy with rfl | hy
              · exact hp
              · exact h1 y hy
            · intro y hy
              rcases List.mem_cons.mp hy with rfl | hy
              · exact hm
              · exact (h2' y hy).1
            · rw [List.map_cons, List.nodup_cons]
              refine ⟨?_, h3⟩
              intro hl
              obtain ⟨y, hy, hyl⟩ := List.mem_map.mp hl
              exact (h2' y hy).2 hyl
          · rintro ⟨h1, h2, h3, rs, h4, h5⟩
            rw [List.map_cons, List.nodup_cons] at h3
            cases h5 with
            | @cons _ s _ rs' h6 h7 =>
              obtain ⟨h6, h8⟩ := h6
              rw [hr, Except.ok.injEq] at h8
              obtain ⟨s1, s2⟩ := s
              simp only at h6 h8
              subst h6
              subst h8
              refine ⟨fun y hy => h1 y (List.mem_cons_of_mem _ hy), ?_, h3.2, rs', by simp [h4], h7⟩
              intro y hy
              simp only [List.map_append, List.map_cons, List.map_nil, List.mem_append, List.mem_singleton, not_or]
              refine ⟨h2 y (List.mem_cons_of_mem _ hy), ?_⟩
              rintro rfl
              exact h3.1 (List.mem_map.mpr ⟨y, hy, rfl⟩)
      · rw [if_pos (by simp [hp])]
        simp only [reduceCtorEq, false_iff]
        rintro ⟨h, -⟩
        exact hp (h (l, x) List.mem_cons_self)

theorem readCoils_map {toInt : K → ℤ} (g : Record K → Entry K) (rs : List (String × Record K)) :
    (∀ r ∈ rs, fromRecord toInt r.2 = .ok (some (g r.2))) → readCoils toInt rs = .ok (some (rs.map fun r => (r.1, g r.2))) := by
  induction rs with
  | nil => intro _; rfl
  | cons r rs ih =>
    intro h
    obtain ⟨l, r⟩ := r
    rw [readCoils, h (l, r) List.mem_cons_self, ih fun r hr => h r (List.mem_cons_of_mem _ hr)]
    rfl

/-- Reading back what was written: the entries with default areas, in the order of their labels. -/
theorem readCoils_written {toInt : K → ℤ} (hx : Exact toInt) {cs : List (String × Entry K)} {rs : List (String × Record K)}
    (h : List.Forall₂ (fun x r => x.1 = r.1 ∧ toRecord toInt x.2 = .ok r.2) (cs.map fun x => (x.1, evaluated x.2)) rs)
    (hr : ∀ x ∈ cs, Restorable x.2) :
    ∃ ys, readCoils toInt (byLabel rs) = .ok (some ys) ∧ List.Perm ys (cs.map fun x => (x.1, defaultAreas (evaluated x.2))) ∧
      (ys.map Prod.fst).Pairwise (· ≤ ·) := by
  classical
  let g : Record K → Entry K := fun r =>
    match fromRecord toInt r with
    | .ok (some x) => x
    | _ => .solenoid ⟨0, 0, 0, 0, 0, true⟩
  have key : ∀ (cs : List (String × Entry K)) (rs : List (String × Record K)),
      List.Forall₂ (fun x r => x.1 = r.1 ∧ toRecord toInt x.2 = .ok r.2) (cs.map fun x => (x.1, evaluated x.2)) rs →
      (∀ x ∈ cs, Restorable x.2) →
      (∀ r ∈ rs, fromRecord toInt r.2 = .ok (some (g r.2))) ∧
        rs.map (fun r => (r.1, g r.2)) = cs.map fun x => (x.1, defaultAreas (evaluated x.2)) := by
    intro cs
    induction cs with
    | nil => intro rs h _; cases h; simp
    | cons x cs ih =>
      intro rs h hr
      cases h with
      | @cons _ r _ rs h1 h2 =>
        obtain ⟨h3, h4⟩ := ih rs h2 fun x hx => hr x (List.mem_cons_of_mem _ hx)
        have h5 := fromRecord_toRecord hx (hr x List.mem_cons_self) h1.2
        have h6 : g r.2 = defaultAreas (evaluated x.2) := by simp only [g, h5]
        constructor
        · intro s hs
          rcases List.mem_cons.mp hs with rfl | hs
          · rw [h5, h6]
          · exact h3 s hs
        · rw [List.map_cons, List.map_cons, h4, h6, ← h1.1]
  obtain ⟨k1, k2⟩ := key cs rs h hr
  have hp : List.Perm (byLabel rs) rs := List.perm_insertionSort _ _
  refine ⟨(byLabel rs).map fun r => (r.1, g r.2), readCoils_map g _ fun r hr => k1 r (hp.mem_iff.mp hr), ?_, ?_⟩
  · rw [← k2]; exact hp.map _
  · rw [List.map_map]
    have : Std.Total (fun a b : String × Record K => a.1 ≤ b.1) := ⟨fun a b => le_total a.1 b.1⟩
    have : IsTrans (String × Record K) (fun a b => a.1 ≤ b.1) := ⟨fun a b c h1 h2 => le_trans h1 h2⟩
    have := List.pairwise_insertionSort (fun a b : String × Record K => a.1 ≤ b.1) rs
    rw [List.pairwise_map]
    exact this

/-! ### The whole file -/

theorem write_ok {toInt : K → ℤ} {greens : String → Option (Entry.Greens K)} {eq eq' : Eqm (Mach S K) P Q K} {f : File K}
    (h : write toInt greens eq = .ok (f, eq')) :
    eq' = { eq with tokamak := { eq.tokamak with coils := eq.tokamak.coils.map fun x => (x.1, evaluated x.2) } } ∧
    f.dom = eq.dom ∧ f.nx = eq.nx ∧ f.ny = eq.ny ∧ f.current = eq.current ∧ f.plasmaPsi = eq.plasmaPsi ∧
    f.boundary = boundaryName eq.boundary ∧ f.wall = eq.tokamak.walled.wall ∧
    writeCoils toInt (eq.tokamak.coils.map fun x => (x.1, evaluated x.2)) [] = .ok f.coils := by
  unfold write at h
  cases hc : Machine.calcFromGreens greens ⟨eq.tokamak.coils⟩ with
  | error e => simp [hc] at h
  | ok r =>
    have hr := machine_calc hc
    simp only [hc, hr] at h
    cases hw : writeCoils toInt (eq.tokamak.coils.map fun x => (x.1, evaluated x.2)) [] with
    | error e => simp [hw] at h
    | ok cs =>
      simp only [hw, Except.ok.injEq, Prod.mk.injEq] at h
      obtain ⟨rfl, rfl⟩ := h
      simp

theorem boundaryOf_name {b : Boundary} : (∃ b', boundaryOf (boundaryName b) = .ok b') ↔ ∀ name, b = .user name →
    name = "freeBoundary" ∨ name = "fixedBoundary" ∨ name = "freeBoundaryHagenow" := by
  cases b with
  | user n =>
    simp only [boundaryName, Boundary.user.injEq, forall_eq', boundaryOf]
    by_cases h1 : n = "freeBoundary"
    · simp [h1]
    by_cases h2 : n = "fixedBoundary"
    · simp [h2]
    by_cases h3 : n = "freeBoundaryHagenow"
    · simp [h3]
    simp [h1, h2, h3]
  | _ => simp [boundaryName, boundaryOf]

theorem boundaryOf_library {b : Boundary} (h : ∀ name, b ≠ .user name) : boundaryOf (boundaryName b) = .ok b := by
  cases b with
  | user n => exact absurd rfl (h n)
  | _ => simp [boundaryName, boundaryOf]

theorem make_ok {e : Ext (Mach S K) P Q K} {tok : Mach S K} {dom : Domain K} {nx ny : ℕ} {b : Boundary} {psi : GS.Arr K} {I : K}
    {s : Eqm (Mach S K) P Q K} (h : make e tok dom nx ny (boundary := b) (psi := some psi) (current := I) = .ok s) :
    s = ⟨tok, dom, nx, ny, b, 4, false, I, psi, none, none⟩ := by
  unfold make at h
  simp only [Option.getD_some] at h
  by_cases hn : nx < 2 ∨ ny < 2
  · rw [if_pos hn] at h; cases h
  rw [if_neg hn] at h
  rw [if_pos (by decide)] at h
  cases hu : e.update ⟨tok, dom, nx, ny, b, 4, false, I, psi, none, none⟩ with
  | error err => simp [hu] at h
  | ok u =>
    simp only [hu] at h
    cases hs : e.solver 4 dom nx ny with
    | error err => simp [hs] at h
    | ok v => simp [hs] at h; exact h.symm

/-- With pairwise different labels, `machine[l]` is the entry with that label. -/
theorem getItem_iff {cs : List (String × Entry K)} (hn : (cs.map Prod.fst).Nodup) {l : String} {x : Entry K} :
    (⟨cs⟩ : Machine K).getItem l = .ok x ↔ (l, x) ∈ cs := by
  simp only [Machine.getItem]
  induction cs with
  | nil => simp
  | cons y cs ih =>
    obtain ⟨k, y⟩ := y
    rw [List.map_cons, List.nodup_cons] at hn
    by_cases hk : k = l
    · subst hk
      simp only [List.find?_cons, beq_self_eq_true, Except.ok.injEq, List.mem_cons, Prod.mk.injEq, true_and]
      constructor
      · rintro rfl; exact .inl rfl
      · rintro (rfl | h)
        · rfl
        · exact absurd (List.mem_map.mpr ⟨_, h, rfl⟩) hn.1
    · have : (k == l) = false := by simpa using hk
      simp only [List.find?_cons, this]
      rw [ih hn.2]
      simp [Ne.symm hk]

@[simp] theorem current_defaultAreas (x : Entry K) : (defaultAreas x).current = x.current := by
  cases x with
  | coil c => cases c <;> rfl
  | _ => rfl

@[simp] theorem control_defaultAreas (x : Entry K) : (defaultAreas x).control = x.control := by
  cases x with
  | coil c => cases c <;> rfl
  | _ => rfl

@[simp] theorem current_evaluated (x : Entry K) : (evaluated x).current = x.current := by cases x <;> rfl

@[simp] theorem control_evaluated (x : Entry K) : (evaluated x).control = x.control := by cases x <;> rfl

@[simp] theorem response_evaluated (e : Env K) (q : Quantity) (R Z : K) (x : Entry K) :
    (evaluated x).response e q R Z = x.response e q R Z := by rw [← sync_eq_evaluated]; simp

@[simp] theorem response_defaultAreas (e : Env K) (q : Quantity) (R Z : K) (x : Entry K) :
    (defaultAreas x).response e q R Z = x.response e q R Z := by
  cases x with
  | coil c => cases c <;> rfl
  | circuit c =>
    simp only [defaultAreas, Entry.response, Circuit.response_eq, List.map_map]
    congr 1
    refine List.map_congr_left fun x _ => ?_
    obtain ⟨l, y, m⟩ := x
    cases y <;> rfl
  | solenoid s => rfl

end FreeGS.Dump
