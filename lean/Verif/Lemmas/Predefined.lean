import Mathlib.Tactic.FieldSimp
import Verif.Lemmas.Machine
import Verif.Model.Predefined
import Verif.Spec.Predefined

set_option linter.unusedSectionVars false

/-!
# Lemmas on mirrored coils
-/

namespace FreeGS

variable {K : Type*} [Field K] [LinearOrder K]

theorem Machine.field_withCurrents (e : Env K) (m : Machine K) (I : String → K) (q : Quantity) (R Z : K) :
    ((m.withCurrents I).field e q R Z).1 = (m.coils.map fun x => I x.1 * x.2.response e q R Z).sum := by
  rw [Machine.field_fst, Machine.withCurrents, List.map_map]
  congr 1
  refine List.map_congr_left fun x _ => ?_
  simp

namespace Predefined

theorem mirror_flip {e : Env K} (he : e.Mirror) (Rc Zc R Z : K) : e.G .psi Rc Zc R (-Z) = e.G .psi Rc (-Zc) R Z := by
  rw [← he Rc (-Zc) R Z, neg_neg]

theorem coil_flip {e : Env K} (he : e.Mirror) (r z t : ℚ) (R Z : K) :
    (coil r z t : AnyCoil K).response e .psi R (-Z) = (coil r (-z) t : AnyCoil K).response e .psi R Z := by
  simp only [coil, AnyCoil.response, PointCoil.response, PointCoil.make, mirror_flip he, Rat.cast_neg]

theorem pair_response (e : Env K) (U L : String) (a b : AnyCoil K) (s : K) (q : Quantity) (R Z : K) :
    (pair U a L b s).response e q R Z = a.response e q R Z + s * b.response e q R Z := by
  simp only [pair, Entry.response, Circuit.make, Circuit.response_setControl, Circuit.response_setCurrent]
  simp [Circuit.response_eq]

theorem coilPair_even {e : Env K} (he : e.Mirror) (U L : String) (r z t : ℚ) (R Z : K) :
    (pair U (coil r z t) L (coil r (-z) t) : Entry K).response e .psi R (-Z) =
      (pair U (coil r z t) L (coil r (-z) t) : Entry K).response e .psi R Z := by
  rw [pair_response, pair_response, coil_flip he, coil_flip he, neg_neg]
  ring

theorem coilPair_odd {e : Env K} (he : e.Mirror) (U L : String) (r z t : ℚ) (R Z : K) :
    (pair U (coil r z t) L (coil r (-z) t) (-1) : Entry K).response e .psi R (-Z) =
      -(pair U (coil r z t) L (coil r (-z) t) (-1) : Entry K).response e .psi R Z := by
  rw [pair_response, pair_response, coil_flip he, coil_flip he, neg_neg]
  ring

theorem linspace_flip [CharZero K] (b : K) (n : ℕ) (hn : 2 ≤ n) :
    (linspace (-b) b n).map (fun z => -z) = (linspace (-b) b n).reverse := by
  refine List.ext_getElem (by simp) fun i h1 h2 => ?_
  have hlen : ∀ a b : K, (linspace a b n).length = n := by
    intro a b
    rw [linspace, if_neg (by omega)]
    simp
  have hi : i < n := by simpa [hlen] using h1
  rw [List.getElem_map, List.getElem_reverse]
  simp only [hlen]
  simp only [linspace, if_neg (show n ≠ 1 by omega), List.getElem_map, List.getElem_range]
  have hn0 : (n : K) - 1 ≠ 0 := by
    rw [sub_ne_zero]
    exact_mod_cast (by omega : n ≠ 1)
  rw [show ((n - 1 - i : ℕ) : K) = (n : K) - 1 - i by rw [Nat.cast_sub (by omega), Nat.cast_sub (by omega)]; norm_num]
  field_simp
  ring

theorem solenoid_even [CharZero K] {e : Env K} (he : e.Mirror) (r b : ℚ) (n : ℕ) (hn : 2 ≤ n) (control : Bool) (R Z : K) :
    (solenoid r (-b) b n control : Entry K).response e .psi R (-Z) = (solenoid r (-b) b n control : Entry K).response e .psi R Z := by
  have : ∀ Z : K, (solenoid r (-b) b n control : Entry K).response e .psi R Z =
      ((linspace (-(b : K)) b n).map fun z => e.G .psi r z R Z).sum := by
    intro Z
    rw [solenoid, Entry.response, Solenoid.response_eq]
    simp only [Rat.cast_neg]
  rw [this, this, ← List.sum_reverse, ← List.map_reverse, ← linspace_flip _ _ hn, List.map_map]
  congr 1
  refine List.map_congr_left fun z _ => ?_
  simp only [Function.comp_apply, mirror_flip he, neg_neg]

theorem filament_flip {e : Env K} (he : e.Mirror) {r z : List ℚ} {a b : FilamentCoil K} (ha : strands r z = .ok a)
    (hb : strands r (z.map fun x => x * -1) = .ok b) (R Z : K) :
    a.response e .psi R (-Z) = b.response e .psi R Z ∧ b.response e .psi R (-Z) = a.response e .psi R Z := by
  have key : ∀ {r z : List ℚ} {a : FilamentCoil K}, strands r z = .ok a →
      a.points = (r.map fun x : ℚ => (x : K)).zip (z.map fun x : ℚ => (x : K)) ∧ a.npoints = r.length ∧ a.turns = 1 := by
    intro r z a h
    rw [strands, FilamentCoil.make] at h
    split at h
    · cases h
    · split at h
      · cases h
        exact ⟨rfl, by simp, rfl⟩
      · cases h
  obtain ⟨a1, a2, a3⟩ := key ha
  obtain ⟨b1, b2, b3⟩ := key hb
  have hsum : ∀ (s : ℚ → ℚ) (W W' : K), (∀ x y : ℚ, e.G .psi x (y : K) R W = e.G .psi x (s y : K) R W') →
      (((r.map fun x : ℚ => (x : K)).zip (z.map fun x : ℚ => (x : K))).map fun p => e.G .psi p.1 p.2 R W).sum =
      (((r.map fun x : ℚ => (x : K)).zip ((z.map s).map fun x : ℚ => (x : K))).map fun p => e.G .psi p.1 p.2 R W').sum := by
    intro s W W' h
    congr 1
    rw [List.map_map]
    clear a1 b1 ha hb a2 b2
    induction r generalizing z with
    | nil => simp
    | cons x r ih =>
      cases z with
      | nil => simp
      | cons y z => simp [h x y, ih]
  have h1 := hsum (fun x => x * -1) (-Z) Z (fun x y => by rw [mirror_flip he, mul_neg_one, Rat.cast_neg])
  have h2 := hsum (fun x => x * -1) Z (-Z) (fun x y => by rw [mirror_flip he, mul_neg_one, Rat.cast_neg, neg_neg])
  simp only [FilamentCoil.response, a1, a2, a3, b1, b2, b3]
  exact ⟨by rw [h1], by rw [h2]⟩

theorem strandPair_even {e : Env K} (he : e.Mirror) {U L : String} {r z : List ℚ} {x : Entry K}
    (h : strandPair U L r z = .ok x) (R Z : K) : x.response e .psi R (-Z) = x.response e .psi R Z := by
  rw [strandPair] at h
  split at h
  · rename_i a b ha hb
    cases h
    obtain ⟨h1, h2⟩ := filament_flip he ha hb R Z
    rw [pair_response, pair_response]
    simp only [AnyCoil.response]
    rw [h1, h2]
    ring
  · cases h
  · cases h

theorem strandPair_odd {e : Env K} (he : e.Mirror) {U L : String} {r z : List ℚ} {x : Entry K}
    (h : strandPair U L r z (-1) = .ok x) (R Z : K) : x.response e .psi R (-Z) = -x.response e .psi R Z := by
  rw [strandPair] at h
  split at h
  · rename_i a b ha hb
    cases h
    obtain ⟨h1, h2⟩ := filament_flip he ha hb R Z
    rw [pair_response, pair_response]
    simp only [AnyCoil.response]
    rw [h1, h2]
    ring
  · cases h
  · cases h

theorem even_of_entries (e : Env K) (m : Machine K) (I : String → K)
    (h : ∀ x ∈ m.coils, I x.1 = 0 ∨ ∀ R Z, x.2.response e .psi R (-Z) = x.2.response e .psi R Z) :
    (m.withCurrents I).EvenFlux e := by
  intro R Z
  rw [Machine.field_withCurrents, Machine.field_withCurrents]
  congr 1
  refine List.map_congr_left fun x hx => ?_
  rcases h x hx with h0 | h0
  · rw [h0, zero_mul, zero_mul]
  · rw [h0]

theorem odd_of_entries (e : Env K) (m : Machine K) (I : String → K)
    (h : ∀ x ∈ m.coils, I x.1 = 0 ∨ ∀ R Z, x.2.response e .psi R (-Z) = -x.2.response e .psi R Z) :
    (m.withCurrents I).OddFlux e := by
  intro R Z
  rw [Machine.field_withCurrents, Machine.field_withCurrents]
  obtain ⟨cs⟩ := m
  simp only at h
  induction cs with
  | nil => simp
  | cons x cs ih =>
    simp only [List.map_cons, List.sum_cons]
    rw [ih fun y hy => h y (List.mem_cons_of_mem _ hy)]
    rcases h x List.mem_cons_self with h0 | h0
    · rw [h0]; ring
    · rw [h0]; ring

theorem sequence_mem {xs : List (String × Except Err (Entry K))} {ys : List (String × Entry K)} (h : sequence xs = .ok ys)
    {y : String × Entry K} (hy : y ∈ ys) : (y.1, .ok y.2) ∈ xs := by
  induction xs generalizing ys with
  | nil => cases h; cases hy
  | cons x xs ih =>
    obtain ⟨l, x⟩ := x
    cases x with
    | error err => cases h
    | ok x =>
      rw [sequence] at h
      cases hs : sequence xs with
      | error err => rw [hs] at h; cases h
      | ok zs =>
        rw [hs] at h
        cases h
        rcases List.mem_cons.mp hy with rfl | hy
        · exact List.mem_cons_self
        · exact List.mem_cons_of_mem _ (ih hs hy)

theorem sequence_labels {xs : List (String × Except Err (Entry K))} {ys : List (String × Entry K)} (h : sequence xs = .ok ys) :
    ys.map Prod.fst = xs.map Prod.fst := by
  induction xs generalizing ys with
  | nil => cases h; rfl
  | cons x xs ih =>
    obtain ⟨l, x⟩ := x
    cases x with
    | error err => cases h
    | ok x =>
      rw [sequence] at h
      cases hs : sequence xs with
      | error err => rw [hs] at h; cases h
      | ok zs =>
        rw [hs] at h
        cases h
        simp [ih hs]


theorem strands_ok {r z : List ℚ} (hr : r ≠ []) (hz : z ≠ []) : ∃ a : FilamentCoil K, strands r z = .ok a := by
  have : ∃ s, FilamentCoil.boxShape (r.map fun x : ℚ => (x : K)) (z.map fun x : ℚ => (x : K)) = .ok s ∧ s.length = 5 := by
    cases r with
    | nil => exact absurd rfl hr
    | cons a r =>
      cases z with
      | nil => exact absurd rfl hz
      | cons b z =>
        simp only [FilamentCoil.boxShape, List.map_cons, List.min?_cons', List.max?_cons']
        exact ⟨_, rfl, rfl⟩
  obtain ⟨s, hs, hl⟩ := this
  simp only [strands, FilamentCoil.make, hs, hl]
  exact ⟨_, rfl⟩

theorem strandPair_ok (U L : String) {r z : List ℚ} (hr : r ≠ []) (hz : z ≠ []) (s : K) :
    ∃ x : Entry K, strandPair U L r z s = .ok x := by
  obtain ⟨a, ha⟩ := strands_ok (K := K) hr hz
  obtain ⟨b, hb⟩ := strands_ok (K := K) (r := r) (z := z.map fun x => x * -1) hr (by simpa using hz)
  rw [strandPair, ha, hb]
  exact ⟨_, rfl⟩

/-- The coil is a circuit of two coils with these labels. -/
def IsPair (U L : String) (x : Entry K) : Prop := ∃ a b s, x = pair U a L b s

theorem strandPair_isPair {U L : String} {r z : List ℚ} {s : K} {x : Entry K} (h : strandPair U L r z s = .ok x) : IsPair U L x := by
  rw [strandPair] at h
  split at h <;> cases h
  exact ⟨_, _, _, rfl⟩

theorem pair_labels {U L : String} {a b : AnyCoil K} {s : K} {c : Circuit K} (h : pair U a L b s = .circuit c) :
    c.coils.map Prod.fst = [U, L] := by
  simp only [pair] at h
  cases h
  rfl

theorem shapedCoils_labels {xs : List (String × List (ℚ × ℚ))} {ys : List (String × Entry ℚ)} (h : shapedCoils xs = .ok (some ys)) :
    ys.map Prod.fst = xs.map Prod.fst ∧ ∀ l c, (l, Entry.circuit c) ∉ ys := by
  induction xs generalizing ys with
  | nil => cases h; simp
  | cons x xs ih =>
    obtain ⟨l, x⟩ := x
    rw [shapedCoils] at h
    split at h
    · cases h
    · cases h
    · split at h
      · cases h
      · cases h
      · rename_i zs hz
        cases h
        obtain ⟨h1, h2⟩ := ih hz
        refine ⟨by simp [h1], fun l' c hm => ?_⟩
        rcases List.mem_cons.mp hm with h | h
        · cases h
        · exact h2 _ _ h

theorem sequence_ok {xs : List (String × Except Err (Entry K))} (h : ∀ x ∈ xs, ∃ y, x.2 = .ok y) : ∃ ys, sequence xs = .ok ys := by
  induction xs with
  | nil => exact ⟨_, rfl⟩
  | cons x xs ih =>
    obtain ⟨l, x⟩ := x
    obtain ⟨y, hy⟩ := h (l, x) List.mem_cons_self
    obtain ⟨ys, hys⟩ := ih fun x hx => h x (List.mem_cons_of_mem _ hx)
    simp only at hy
    subst hy
    rw [sequence, hys]
    exact ⟨_, rfl⟩

end Predefined
end FreeGS