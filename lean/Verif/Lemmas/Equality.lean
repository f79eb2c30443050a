import Mathlib.Tactic.Ring
import Mathlib.Algebra.Order.Ring.Abs
import Mathlib.Tactic.Positivity
import Mathlib.Data.String.Basic
import Verif.Lemmas.Machine
import Verif.Model.Equality
import Verif.Spec.Equality

set_option linter.unusedSectionVars false

/-!
# Lemmas on comparison
-/

namespace FreeGS.Equality

open FreeGS.Dump (Mach defaultAreas)

universe u
variable {S K : Type u} [Field K] [LinearOrder K]

theorem both_true {a b : Except Err Bool} : both a b = .ok true ↔ a = .ok true ∧ b = .ok true := by
  rcases a with _ | ⟨_ | _⟩ <;> simp [both]

/-! ## Sorting -/

theorem itemLt_ne {a b : String × Entry K} (h : a.1 ≠ b.1) : itemLt a b = .ok (decide (a.1 < b.1)) := by rw [itemLt, if_neg h]

theorem insertItem_ok {x : String × Entry K} {ys : List (String × Entry K)} (h : ∀ y ∈ ys, y.1 ≠ x.1)
    (hs : (ys.map Prod.fst).Pairwise (· < ·)) :
    ∃ zs, insertItem x ys = .ok zs ∧ List.Perm zs (x :: ys) ∧ (zs.map Prod.fst).Pairwise (· < ·) := by
  induction ys with
  | nil => exact ⟨_, rfl, List.Perm.refl _, by simp⟩
  | cons y ys ih =>
    obtain ⟨h1, h2⟩ := List.forall_mem_cons.mp h
    rw [List.map_cons, List.pairwise_cons] at hs
    rw [insertItem, itemLt_ne h1]
    by_cases hlt : y.1 < x.1
    · obtain ⟨zs, hz, hp, hs'⟩ := ih h2 hs.2
      refine ⟨y :: zs, by simp [hlt, hz], (hp.cons y).trans (List.Perm.swap _ _ _), ?_⟩
      rw [List.map_cons, List.pairwise_cons]
      refine ⟨fun l hl => ?_, hs'⟩
      obtain ⟨w, hw, rfl⟩ := List.mem_map.mp hl
      rcases List.mem_cons.mp (hp.mem_iff.mp hw) with rfl | hw
      · exact hlt
      · exact hs.1 _ (List.mem_map_of_mem hw)
    · refine ⟨x :: y :: ys, by simp [hlt], List.Perm.refl _, ?_⟩
      have hxy : x.1 < y.1 := lt_of_le_of_ne (not_lt.mp hlt) (Ne.symm h1)
      rw [List.map_cons, List.map_cons, List.pairwise_cons, List.pairwise_cons]
      refine ⟨fun l hl => ?_, hs⟩
      rcases List.mem_cons.mp hl with rfl | hl
      · exact hxy
      · exact hxy.trans (hs.1 _ hl)

theorem sortItems_ok {xs : List (String × Entry K)} (h : (xs.map Prod.fst).Nodup) :
    ∃ ys, sortItems xs = .ok ys ∧ List.Perm ys xs ∧ (ys.map Prod.fst).Pairwise (· < ·) := by
  induction xs with
  | nil => exact ⟨_, rfl, List.Perm.refl _, by simp⟩
  | cons x xs ih =>
    rw [List.map_cons, List.nodup_cons] at h
    obtain ⟨ys, hy, hp, hs⟩ := ih h.2
    obtain ⟨zs, hz, hp', hs'⟩ := insertItem_ok (x := x) (ys := ys)
      (fun y hy heq => h.1 (heq ▸ List.mem_map_of_mem (hp.mem_iff.mp hy))) hs
    exact ⟨zs, by rw [sortItems, hy]; exact hz, hp'.trans (hp.cons x), hs'⟩

/-- Inserting an item with a label that is there already. -/
theorem insertItem_error {x : String × Entry K} {ys : List (String × Entry K)} (h : ∃ y ∈ ys, y.1 = x.1)
    (hne : ∀ y ∈ ys, y.1 = x.1 → entryEq y.2 x.2 = .ok false) (hs : (ys.map Prod.fst).Pairwise (· < ·)) :
    insertItem x ys = .error .type := by
  induction ys with
  | nil => obtain ⟨y, hy, -⟩ := h; cases hy
  | cons y ys ih =>
    rw [List.map_cons, List.pairwise_cons] at hs
    rw [insertItem]
    by_cases he : y.1 = x.1
    · rw [itemLt, if_pos he, hne y List.mem_cons_self he]
    · obtain ⟨w, hw, hwx⟩ := h
      rcases List.mem_cons.mp hw with rfl | hw
      · exact absurd hwx he
      · have hlt : y.1 < x.1 := hwx ▸ hs.1 _ (List.mem_map_of_mem hw)
        rw [itemLt_ne he]
        simp only [hlt, decide_true]
        rw [ih ⟨w, hw, hwx⟩ (fun z hz => hne z (List.mem_cons_of_mem _ hz)) hs.2]

theorem sortItems_error {xs : List (String × Entry K)} (h : ¬ (xs.map Prod.fst).Nodup)
    (hne : xs.Pairwise fun x y => x.1 = y.1 → entryEq y.2 x.2 = .ok false) : sortItems xs = .error .type := by
  induction xs with
  | nil => exact absurd List.nodup_nil h
  | cons x xs ih =>
    rw [List.pairwise_cons] at hne
    rw [List.map_cons, List.nodup_cons, not_and_or, not_not] at h
    rw [sortItems]
    by_cases hd : (xs.map Prod.fst).Nodup
    · obtain ⟨ys, hy, hp, hs⟩ := sortItems_ok hd
      rw [hy]
      obtain ⟨w, hw, hwx⟩ := List.mem_map.mp (h.resolve_right (not_not.mpr hd))
      exact insertItem_error ⟨w, hp.mem_iff.mpr hw, hwx⟩ (fun y hy e => hne.1 y (hp.mem_iff.mp hy) e.symm) hs
    · rw [ih hd hne.2]

theorem itemsEq_true {as bs : List (String × Entry K)} :
    itemsEq as bs = .ok true ↔ List.Forall₂ (fun a b => a.1 = b.1 ∧ entryEq a.2 b.2 = .ok true) as bs := by
  induction as generalizing bs with
  | nil => cases bs <;> simp [itemsEq]
  | cons a as ih =>
    cases bs with
    | nil => simp [itemsEq]
    | cons b bs => simp [itemsEq, both_true, ih, and_assoc]

/-- Machines with distinct labels. -/
theorem machineEq_true {a b : Mach S K} (ha : Distinct a) (hb : Distinct b) :
    machineEq a b = .ok true ↔ (∃ as bs, List.Perm as a.coils ∧ List.Perm bs b.coils ∧
      List.Forall₂ (fun a b => a.1 = b.1 ∧ entryEq a.2 b.2 = .ok true) as bs) ∧ wallEq a.walled.wall b.walled.wall = .ok true := by
  obtain ⟨as, has, hpa, hsa⟩ := sortItems_ok ha
  obtain ⟨bs, hbs, hpb, hsb⟩ := sortItems_ok hb
  rw [machineEq, has, hbs]
  simp only [both_true]
  refine and_congr_left fun _ => ⟨fun h => ?_, ?_⟩
  · split at h
    · exact ⟨as, bs, hpa, hpb, itemsEq_true.mp h⟩
    · cases h
  · rintro ⟨as', bs', hpa', hpb', hf⟩
    rw [if_pos (by rw [hpa.length_eq, hpb.length_eq, ← hpa'.length_eq, ← hpb'.length_eq, hf.length_eq]), itemsEq_true]
    -- both sorted lists carry the same labels in the same order
    have hl : as'.map Prod.fst = bs'.map Prod.fst := by
      clear hpa' hpb'
      induction hf with
      | nil => rfl
      | cons h _ ih => simp [h.1, ih]
    have hlab : as.map Prod.fst = bs.map Prod.fst := by
      refine List.Perm.eq_of_pairwise (fun x y _ _ h1 h2 => absurd h1 (not_lt.mpr h2.le)) hsa hsb ?_
      exact ((hpa.trans hpa'.symm).map _).trans (hl ▸ ((hpb'.trans hpb.symm).map _))
    refine List.forall₂_iff_get.mpr ⟨by simpa using congrArg List.length hlab, fun i h1 h2 => ?_⟩
    have hli : (as.get ⟨i, h1⟩).1 = (bs.get ⟨i, h2⟩).1 := by
      have h3 : (as.map Prod.fst)[i]'(by simpa using h1) = (bs.map Prod.fst)[i]'(by simpa using h2) := by simp only [hlab]
      simpa using h3
    refine ⟨hli, ?_⟩
    have hm : as.get ⟨i, h1⟩ ∈ as' := hpa'.mem_iff.mpr (hpa.mem_iff.mp (List.get_mem _ _))
    obtain ⟨k, hk, hki⟩ := List.getElem_of_mem hm
    obtain ⟨hlen, hget⟩ := List.forall₂_iff_get.mp hf
    have hk' : k < bs'.length := hlen ▸ hk
    obtain ⟨e1, e2⟩ := hget k hk hk'
    simp only [List.get_eq_getElem, hki] at e1 e2
    have hmb : bs'[k] ∈ b.coils := hpb'.mem_iff.mp (List.getElem_mem _)
    have hmb' : bs.get ⟨i, h2⟩ ∈ b.coils := hpb.mem_iff.mp (List.get_mem _ _)
    have : bs'[k] = bs.get ⟨i, h2⟩ := by
      refine List.inj_on_of_nodup_map hb hmb hmb' ?_
      rw [← e1, ← hli]
      rfl
    rw [← this]
    exact e2

/-! ## Coils -/

theorem isclose_near {x y : K} : isclose x y = true ↔ Near x y := by
  simp only [isclose, Near, decide_eq_true_eq]
  norm_num

theorem near_refl [IsStrictOrderedRing K] (x : K) : Near x x := by
  rw [Near, sub_self, abs_zero]
  positivity

theorem allcloseShape_refl [IsStrictOrderedRing K] (a : List (K × K)) : allcloseShape a a = .ok true := by
  rw [allcloseShape, if_pos rfl]
  congr 1
  rw [List.all_eq_true]
  intro p hp
  rw [← List.map_id a, List.zip_map_left, ← List.zip_map_left, List.map_id] at hp
  have : p.1 = p.2 := by
    rw [List.zip_eq_zipWith] at hp
    obtain ⟨i, h1, h2⟩ := List.getElem_of_mem hp
    rw [← h2]
    simp
  rw [this, isclose_near.mpr (near_refl _), isclose_near.mpr (near_refl _)]
  rfl

theorem plainEq_iff {a b : AnyCoil K} : plainEq a b = true ↔
    a.R = b.R ∧ a.Z = b.Z ∧ a.current = b.current ∧ a.turns = b.turns ∧ a.control = b.control := by
  simp [plainEq, and_assoc]

theorem coilEq_refl [IsStrictOrderedRing K] (a : AnyCoil K) : coilEq a a = .ok true := by
  cases a <;> simp [coilEq, shapedEq, plainEq, both, allcloseShape_refl]

/-- The same coil with the default area, if it is a point coil. -/
def plainArea (x : AnyCoil K) : AnyCoil K := match x with | .point p => .point { p with area := defaultArea } | y => y

theorem coilEq_area [IsStrictOrderedRing K] (a : AnyCoil K) : coilEq (plainArea a) a = .ok true := by
  cases a with
  | point p => simp [plainArea, coilEq, plainEq, AnyCoil.R, AnyCoil.Z, AnyCoil.current, AnyCoil.turns, AnyCoil.control]
  | _ => exact coilEq_refl _

theorem coilEq_area' [IsStrictOrderedRing K] (a : AnyCoil K) : coilEq a (plainArea a) = .ok true := by
  cases a with
  | point p => simp [plainArea, coilEq, plainEq, AnyCoil.R, AnyCoil.Z, AnyCoil.current, AnyCoil.turns, AnyCoil.control]
  | _ => exact coilEq_refl _

theorem rowsEq_area [IsStrictOrderedRing K] (a : List (String × AnyCoil K × K)) :
    rowsEq (a.map fun x => (x.1, plainArea x.2.1, x.2.2)) a = .ok true := by
  induction a with
  | nil => rfl
  | cons x a ih => simp [rowsEq, both_true, coilEq_area, ih]

theorem rowsEq_refl [IsStrictOrderedRing K] (a : List (String × AnyCoil K × K)) : rowsEq a a = .ok true := by
  induction a with
  | nil => rfl
  | cons x a ih => simp [rowsEq, both_true, coilEq_refl, ih]

theorem entryEq_refl [IsStrictOrderedRing K] (a : Entry K) : entryEq a a = .ok true := by
  cases a with
  | coil c => exact coilEq_refl c
  | circuit c => simp [entryEq, circuitEq, both_true, rowsEq_refl]
  | solenoid s => simp [entryEq, solenoidEq]

theorem entryEq_area [IsStrictOrderedRing K] (a : Entry K) : entryEq (defaultAreas a) a = .ok true := by
  cases a with
  | coil c =>
    cases c with
    | point p => exact coilEq_area (.point p)
    | _ => exact entryEq_refl _
  | circuit c =>
    have h : rowsEq (c.coils.map fun x => (x.1, plainArea x.2.1, x.2.2)) c.coils = .ok true := rowsEq_area c.coils
    show circuitEq { c with coils := c.coils.map fun x => (x.1, plainArea x.2.1, x.2.2) } c = .ok true
    simp [circuitEq, both_true, h]
  | solenoid s => exact entryEq_refl _

theorem rowsEq_simple {a b : List (String × AnyCoil K × K)} (ha : ∀ x ∈ a, ∃ p, x.2.1 = .point p) (hb : ∀ x ∈ b, ∃ p, x.2.1 = .point p) :
    rowsEq a b = .ok true ↔ a.map (fun x => (x.1, plainArea x.2.1, x.2.2)) = b.map (fun x => (x.1, plainArea x.2.1, x.2.2)) := by
  induction a generalizing b with
  | nil => cases b <;> simp [rowsEq]
  | cons x a ih =>
    cases b with
    | nil => simp [rowsEq]
    | cons y b =>
      obtain ⟨p, hp⟩ := ha x List.mem_cons_self
      obtain ⟨q, hq⟩ := hb y List.mem_cons_self
      obtain ⟨l, c, m⟩ := x
      obtain ⟨l', c', m'⟩ := y
      simp only at hp hq
      subst hp hq
      have h1 : plainArea (.point p) = plainArea (.point q) ↔
          p.R = q.R ∧ p.Z = q.Z ∧ p.current = q.current ∧ p.turns = q.turns ∧ p.control = q.control := by
        simp [plainArea]
      simp only [rowsEq, both_true, ih (fun z hz => ha z (List.mem_cons_of_mem _ hz)) (fun z hz => hb z (List.mem_cons_of_mem _ hz)),
        List.map_cons, List.cons.injEq, Prod.mk.injEq, coilEq, Except.ok.injEq, plainEq_iff, decide_eq_true_eq, h1]
      simp only [AnyCoil.R, AnyCoil.Z, AnyCoil.current, AnyCoil.turns, AnyCoil.control, and_assoc]

theorem entryEq_simple {a b : Entry K} (ha : Simple a) (hb : Simple b) :
    entryEq a b = .ok true ↔ defaultAreas a = defaultAreas b := by
  cases a with
  | coil c =>
    cases c with
    | point p =>
      cases b with
      | coil d =>
        cases d with
        | point q =>
          simp only [entryEq, coilEq, Except.ok.injEq, plainEq_iff]
          simp [defaultAreas, AnyCoil.R, AnyCoil.Z, AnyCoil.current, AnyCoil.turns, AnyCoil.control]
        | _ => exact hb.elim
      | circuit d => simp [entryEq, defaultAreas]
      | solenoid s => simp [entryEq, defaultAreas]
    | _ => exact ha.elim
  | circuit c =>
    cases b with
    | coil d =>
      cases d with
      | point q => simp [entryEq, defaultAreas]
      | _ => exact hb.elim
    | circuit d =>
      have h := rowsEq_simple ha hb
      have hl : rowsEq c.coils d.coils = .ok true → c.coils.length = d.coils.length := fun h' => by
        simpa using congrArg List.length (h.mp h')
      have hd : defaultAreas (.circuit c) = defaultAreas (.circuit d) ↔
          c.coils.map (fun x => (x.1, plainArea x.2.1, x.2.2)) = d.coils.map (fun x => (x.1, plainArea x.2.1, x.2.2)) ∧
            c.current = d.current ∧ c.control = d.control := by
        rw [defaultAreas, defaultAreas, Entry.circuit.injEq, Circuit.mk.injEq]
        rfl
      rw [hd, ← h]
      simp only [entryEq, circuitEq, both_true]
      constructor
      · rintro ⟨h1, h2⟩
        split at h1
        · exact ⟨h1, by simpa using h2⟩
        · cases h1
      · rintro ⟨h1, h2⟩
        rw [if_pos (hl h1)]
        exact ⟨h1, by simpa using h2⟩
    | solenoid s => simp [entryEq, defaultAreas]
  | solenoid s =>
    cases b with
    | coil d =>
      cases d with
      | point q => simp [entryEq, defaultAreas]
      | _ => exact hb.elim
    | circuit d => simp [entryEq, defaultAreas]
    | solenoid t =>
      obtain ⟨a1, a2, a3, a4, a5, a6⟩ := s
      obtain ⟨b1, b2, b3, b4, b5, b6⟩ := t
      simp [entryEq, solenoidEq, defaultAreas, and_assoc]

theorem allclose_iff {a b : List K} (h : 2 ≤ a.length) (h' : 2 ≤ b.length) :
    allclose a b = .ok true ↔ a.length = b.length ∧ ∀ p ∈ a.zip b, Near p.1 p.2 := by
  match a, b, h, h' with
  | x :: x' :: a, y :: y' :: b, _, _ =>
    rw [allclose]
    · split
      · rename_i hl
        simp only [Except.ok.injEq, List.all_eq_true, isclose_near, hl, true_and]
      · rename_i hl
        simp only [reduceCtorEq, false_iff, not_and]
        exact fun h => absurd h hl
    · intro z hz; cases hz
    · intro z hz; cases hz

theorem wallEq_iff {a b : Option (List (K × K))} (h : ∀ w, a = some w → 2 ≤ w.length) (h' : ∀ w, b = some w → 2 ≤ w.length) :
    wallEq a b = .ok true ↔ NearWalls a b := by
  cases a with
  | none => cases b <;> simp [wallEq, NearWalls]
  | some a =>
    cases b with
    | none => simp [wallEq, NearWalls]
    | some b =>
      rw [wallEq, both_true, allclose_iff (by simpa using h a rfl) (by simpa using h' b rfl),
        allclose_iff (by simpa using h a rfl) (by simpa using h' b rfl), NearWalls]
      simp only [List.length_map, List.zip_map, List.mem_map, forall_exists_index, and_imp, forall_apply_eq_imp_iff₂, Prod.map]
      constructor
      · rintro ⟨⟨h1, h2⟩, -, h3⟩
        exact ⟨h1, fun p hp => ⟨h2 p hp, h3 p hp⟩⟩
      · rintro ⟨h1, h2⟩
        exact ⟨⟨h1, fun p hp => (h2 p hp).1⟩, h1, fun p hp => (h2 p hp).2⟩

theorem allclose_refl [IsStrictOrderedRing K] (a : List K) : allclose a a = .ok true := by
  have hz : ∀ p ∈ a.zip a, p.1 = p.2 := by
    intro p hp
    obtain ⟨i, h1, h2⟩ := List.getElem_of_mem hp
    rw [← h2]
    simp
  match a, hz with
  | [], _ => rfl
  | [x], _ => simp [allclose, isclose_near, near_refl]
  | x :: y :: a, hz =>
    refine (allclose_iff (by simp) (by simp)).mpr ⟨rfl, fun p hp => ?_⟩
    rw [hz p hp]
    exact near_refl _

theorem wallEq_refl [IsStrictOrderedRing K] (w : Option (List (K × K))) : wallEq w w = .ok true := by
  cases w with
  | none => rfl
  | some w => simp [wallEq, both_true, allclose_refl]

end FreeGS.Equality
