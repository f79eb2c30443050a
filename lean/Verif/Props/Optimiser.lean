import Verif.Lemmas.PickUnique

set_option linter.unusedSectionVars false

/-!
# Properties of `freegs/optimiser.py`
-/

namespace FreeGS.Optimiser

variable {O S K : Type*}

/-- A concrete random stream used in the examples: every raw integer is `i`, every uniform value `u`,
every normal value `g`. -/
def constRng (i : ℕ) (u g : ℚ) : Rng ℚ := ⟨fun _ => i, fun _ => u, fun _ => g⟩

/-- **C01.** `pickUnique(N, m, e)` returns exactly `m` different indices below `N`, none of them in `e`,
whatever the random generator does; it raises `AssertionError` exactly when there are not enough
indices. -/
theorem C01_pickUnique_distinct_allowed (N m : ℕ) (e : List ℕ) (he : e.Nodup) (r : Rng K) :
    (m + e.length ≤ N → ∃ v r', pickUnique N m e r = .ok (v, r') ∧ v.length = m ∧ v.Nodup ∧
      ∀ x ∈ v, x < N ∧ x ∉ e) ∧
    (N < m + e.length → pickUnique N m e r = .error .assertion) := by
  refine ⟨fun hm => ?_, fun hm => ?_⟩
  · obtain ⟨v, r', h1, h2, h3, h4, h5, -⟩ := pickUnique_spec N m e r he hm
    exact ⟨v, r', h1, h2, h3, fun x hx => ⟨h4 x hx, h5 x hx⟩⟩
  · rw [pickUnique, if_neg (by omega)]

/-- Non-vacuous: three of the indices `0..5` without `{4, 1}`. -/
example : (pickUnique 6 3 [4, 1] (constRng 7 0 0)).map Prod.fst = .ok [2, 3, 0] := by decide +kernel
example : (pickUnique 4 3 [4, 1] (constRng 7 0 0)).map Prod.fst = .error .assertion := by decide +kernel

/-- **C61 (refuted).** Full claim: every allowed index can be returned. In fact, because numpy's `randint`
excludes its upper bound, the index `N-1` is never returned unless all free indices are requested. -/
theorem C61_last_index_never_picked (N m : ℕ) (e : List ℕ) (he : e.Nodup) (hm : m + e.length < N)
    (r : Rng K) : ∃ v r', pickUnique N m e r = .ok (v, r') ∧ v.length = m ∧ N - 1 ∉ v := by
  obtain ⟨v, r', h1, h2, -, -, -, h6⟩ := pickUnique_spec N m e r he hm.le
  refine ⟨v, r', h1, h2, fun hx => ?_⟩
  have := h6 hm _ hx
  omega

/-- Non-vacuous, and the case used by `optimise` with the default `N = 10`: agent 9 is never a partner. -/
example (r : Rng ℚ) : ∃ v r', pickUnique 10 3 [0] r = .ok (v, r') ∧ v.length = 3 ∧ 9 ∉ v :=
  C61_last_index_never_picked 10 3 [0] (by simp) (by simp) r

/-- **C61 (partial).** The indices that are certainly reachable: every allowed `t` with `t + len(e) + 1 < N`.
Missing from the full claim: the other indices (in particular `N-1`, for which it is false). -/
theorem C61_small_index_reachable_partial (N m : ℕ) (e : List ℕ) (he : e.Nodup) (hm : m + e.length ≤ N)
    (hm1 : 1 ≤ m) (t : ℕ) (ht : t ∉ e) (htN : t + e.length + 1 < N) (r : Rng K) :
    ∃ ints v r', pickUnique N m e { r with ints := ints } = .ok (v, r') ∧ t ∈ v := by
  obtain ⟨k, rfl⟩ : ∃ k, m = k + 1 := ⟨m - 1, by omega⟩
  set inds := e.insertionSort (· ≤ ·) with hinds
  have hs : inds.Pairwise (· < ·) := sort_nodup_pairwise e he
  have htm : t ∉ inds := fun h => ht ((List.perm_insertionSort _ e).mem_iff.1 h)
  have hskip : skip t inds = t := skip_of_not_mem inds t htm
  obtain ⟨new, r', h1, -⟩ := pickLoop_spec N e.length
    { r with ints := fun _ => t } k 1 (insort t inds) [t]
    (insort_sorted _ _ hs htm) (by rw [insort_length]; simp [hinds]) (by omega)
  refine ⟨fun _ => t, [t] ++ new, r', ?_, by simp⟩
  rw [pickUnique, if_pos (by omega), pickLoop]
  have hpos : (N : ℤ) - 1 - (0 : ℕ) - e.length > 0 := by omega
  simp only [if_pos hpos, randint, if_neg (not_le.2 hpos)]
  have hmod : t % ((N : ℤ) - 1 - (0 : ℕ) - e.length).toNat = t := Nat.mod_eq_of_lt (by omega)
  rw [hmod, ← hinds, hskip, List.nil_append, Nat.zero_add, h1]

/-- Non-vacuous: index 7 of ten, with 9 excluded. -/
example (r : Rng ℚ) : ∃ ints v r', pickUnique 10 3 [9] { r with ints := ints } = .ok (v, r') ∧ 7 ∈ v :=
  C61_small_index_reachable_partial 10 3 [9] (by simp) (by simp) (by simp) 7 (by simp) (by simp) r

/-- **C61 (exactly).** When fewer than all free indices are requested, an allowed index `t` is returned for some state of the generator
exactly if, for one of the `m` draws, no more free indices lie from `N - 2 - len(e) - i` up to `t` than draws were made before it. -/
theorem C61_reachable (N m : ℕ) (e : List ℕ) (he : e.Nodup) (hm : m + e.length < N) (t : ℕ) (ht : t ∉ e) (r : Rng K) :
    (∃ ints v r', pickUnique N m e { r with ints := ints } = .ok (v, r') ∧ t ∈ v) ↔
      ∃ i < m, ((Finset.Ico (N - 2 - e.length - i) t).filter (· ∉ e)).card ≤ i := by
  have hs : (e.insertionSort (· ≤ ·)).Pairwise (· < ·) := sort_nodup_pairwise e he
  have hmem : ∀ y, y ∈ e.insertionSort (· ≤ ·) ↔ y ∈ e := fun y => (List.perm_insertionSort _ e).mem_iff
  have hfree : ∀ a, freeIn a t (e.insertionSort (· ≤ ·)) = (Finset.Ico a t).filter (· ∉ e) := by
    intro a; ext y; simp only [freeIn, Finset.mem_filter, hmem]
  constructor
  · rintro ⟨ints, v, r', h, htv⟩
    rw [pickUnique, if_pos (by omega)] at h
    rcases pickLoop_only N e.length m 0 _ [] _ v r' (by omega) h t htv with h0 | ⟨i, hi, hc⟩
    · simp at h0
    · rw [hfree, Nat.zero_add] at hc
      exact ⟨i, hi, hc⟩
  · rintro ⟨i, hi, hc⟩
    rw [← hfree, show N - 2 - e.length - i = N - 2 - e.length - (0 + i) by omega] at hc
    obtain ⟨ints, v, r', h, htv⟩ := pickLoop_reach N e.length i m 0 _ [] r t hs (by simp) (by omega) hi
      (by rw [hmem]; exact ht) hc
    exact ⟨ints, v, r', by rw [pickUnique, if_pos (by omega), h], htv⟩

/-- **C61 (all requested).** When all free indices are requested, all of them are returned, whatever the generator does. -/
theorem C61_all_requested (N m : ℕ) (e : List ℕ) (he : e.Nodup) (heN : ∀ x ∈ e, x < N) (hm : m + e.length = N) (r : Rng K) :
    ∃ v r', pickUnique N m e r = .ok (v, r') ∧ ∀ t < N, t ∉ e → t ∈ v := by
  obtain ⟨v, r', h1, h2, h3, h4, h5, -⟩ := pickUnique_spec N m e r he hm.le
  refine ⟨v, r', h1, fun t htN hte => ?_⟩
  have hdis : Disjoint v.toFinset e.toFinset := by
    rw [Finset.disjoint_left]
    intro x hx hxe
    exact h5 x (List.mem_toFinset.1 hx) (List.mem_toFinset.1 hxe)
  have hcard : (v.toFinset ∪ e.toFinset).card = N := by
    rw [Finset.card_union_of_disjoint hdis, List.toFinset_card_of_nodup h3, List.toFinset_card_of_nodup he]; omega
  have hsub : v.toFinset ∪ e.toFinset ⊆ Finset.range N := by
    intro x hx
    rw [Finset.mem_union, List.mem_toFinset, List.mem_toFinset] at hx
    exact Finset.mem_range.2 (hx.elim (h4 x) (heN x))
  have heq := Finset.eq_of_subset_of_card_le hsub (by rw [hcard, Finset.card_range])
  have := heq.symm ▸ Finset.mem_range.2 htN
  rw [Finset.mem_union, List.mem_toFinset, List.mem_toFinset] at this
  exact this.resolve_right hte

/-- Non-vacuous: the fourth agent of four gets all the others. -/
example (r : Rng ℚ) : ∃ v r', pickUnique 4 3 [3] r = .ok (v, r') ∧ ∀ t < 4, t ∉ [3] → t ∈ v :=
  C61_all_requested 4 3 [3] (by simp) (by simp) (by simp) r

/-- **C61 (finding).** In a population of more than four, the last agent but one is a partner only of the agents `N-5`, `N-4` and `N-3`:
for every other agent it is never drawn, besides the last one, which is never drawn at all. -/
theorem C61_partners_of_an_agent (N a : ℕ) (hN : 5 ≤ N) (ha : a < N) (t : ℕ) (htN : t < N) (hta : t ≠ a) (r : Rng K) :
    (∃ ints v r', pickUnique N 3 [a] { r with ints := ints } = .ok (v, r') ∧ t ∈ v) ↔
      t + 3 ≤ N ∨ (t + 2 = N ∧ a + 5 ≥ N ∧ a + 3 ≤ N) := by
  rw [C61_reachable N 3 [a] (by simp) (by simp; omega) t (by simpa using hta)]
  simp only [List.length_singleton, List.mem_singleton]
  have hcard : ∀ b, (((Finset.Ico b t).filter fun y => ¬y = a).card = t - b - if b ≤ a ∧ a < t then 1 else 0) := by
    intro b
    rw [Finset.filter_ne' (Finset.Ico b t) a, Finset.card_erase_eq_ite, Nat.card_Ico]
    simp only [Finset.mem_Ico]
    split <;> simp
  simp only [hcard]
  constructor
  · rintro ⟨i, hi, h⟩
    interval_cases i <;> split at h <;> omega
  · rintro (h | ⟨h1, h2, h3⟩)
    · exact ⟨0, by omega, by omega⟩
    · refine ⟨N - 3 - a, by omega, ?_⟩
      rw [if_pos ⟨by omega, by omega⟩]
      omega

/-- With the default ten agents, agent 8 is a partner of agent 6 and not of agent 0. -/
example (r : Rng ℚ) : (∃ ints v r', pickUnique 10 3 [6] { r with ints := ints } = .ok (v, r') ∧ 8 ∈ v) ∧
    ¬∃ ints v r', pickUnique 10 3 [0] { r with ints := ints } = .ok (v, r') ∧ 8 ∈ v := by
  rw [C61_partners_of_an_agent 10 6 (by omega) (by omega) 8 (by omega) (by omega),
    C61_partners_of_an_agent 10 0 (by omega) (by omega) 8 (by omega) (by omega)]
  omega

section
variable [Field K] [LinearOrder K] [LinearOrder S]

/-- A run of `optimise` seen as the list of `(best, population)` pairs, from the initial one to the
last one given to the monitor. -/
def Run.history (run : Run S O) : List ((S × O) × List (S × O)) :=
  (run.initBest, run.initPop) :: run.monitored

theorem optimise_cases {obj : O} {controls : List (Control O K)} {measure : O → S × O} {maxgen N : ℕ}
    {CR F : K} {r : Rng K} {run : Run S O}
    (h : optimise obj controls measure maxgen N CR F r = .ok run) :
    4 ≤ N ∧ (∃ new, run.initPop = (measure obj) :: new ∧ new.length = N - 1 ∧
      (∀ p ∈ new, ∃ x, p = measure x) ∧
      (run.initBest = (measure obj) ∨ run.initBest ∈ new) ∧
      (measure obj).1 ≤ run.initBest.1 ∧ ∀ p ∈ new, p.1 ≤ run.initBest.1) ∧
    run.monitored.length = maxgen ∧ List.IsChain (GenStep measure) run.history ∧
    (run.history.getLast (by simp [Run.history])).1.2 = run.result := by
  rw [optimise] at h
  by_cases hN : N ≥ 4
  · rw [if_pos hN] at h
    obtain ⟨new, r', best', h1, h2, h3, h4, h5, h6⟩ := initLoop_spec (measure obj).2 controls measure (N - 1)
      [measure obj] (measure obj) r
    simp only [h1] at h
    cases hg : genLoop N controls measure CR F maxgen ([measure obj] ++ new) best' [] r' with
    | error e => simp only [hg, reduceCtorEq] at h
    | ok x =>
      obtain ⟨b, seen⟩ := x
      simp only [hg, Except.ok.injEq] at h
      subst h
      obtain ⟨nw, e1, e2, e3, e4⟩ := genLoop_spec _ _ _ _ _ _ _ _ _ _ _ _ hg
      simp only [List.nil_append] at e1
      subst e1
      refine ⟨hN, ⟨new, rfl, h2, h3, h4, h5, h6⟩, e2, e3, ?_⟩
      simp only [Run.history]
      exact congrArg Prod.snd e4
  · rw [if_neg hN] at h; simp at h

theorem chain_invariant (measure : O → S × O) (s : (S × O) × List (S × O))
    (l : List ((S × O) × List (S × O))) (N : ℕ) (h : List.IsChain (GenStep measure) (s :: l))
    (hs : s.2.length = N ∧ (∃ x, s.1 = measure x) ∧ ∀ p ∈ s.2, ∃ x, p = measure x) :
    ∀ t ∈ s :: l, t.2.length = N ∧ (∃ x, t.1 = measure x) ∧ ∀ p ∈ t.2, ∃ x, p = measure x := by
  induction l generalizing s with
  | nil => simpa using hs
  | cons t l ih =>
    rw [List.isChain_cons_cons] at h
    obtain ⟨⟨h1, h2, h3⟩, h4⟩ := h
    have hm : ∀ p ∈ t.2, ∃ x, p = measure x := by
      intro p hp
      obtain ⟨i, hi, rfl⟩ := List.getElem_of_mem hp
      have hi' : i < s.2.length := by rw [h3.length_eq]; exact hi
      rcases List.forall₂_iff_get.1 h3 |>.2 i hi' hi with h | h
      · simp only [List.get_eq_getElem] at h
        rw [h]; exact hs.2.2 _ (List.getElem_mem hi')
      · exact h.2.1
    have ht : t.2.length = N ∧ (∃ x, t.1 = measure x) ∧ ∀ p ∈ t.2, ∃ x, p = measure x := by
      refine ⟨by rw [← h3.length_eq]; exact hs.1, ?_, hm⟩
      rcases h2 with h2 | h2
      · rw [h2]; exact hs.2.1
      · exact hm _ h2.1
    intro u hu
    rcases List.mem_cons.1 hu with rfl | hu
    · exact hs
    · exact ih t h4 ht u hu

/-- **C03.** In every run the monitor is called `maxgen` times; every population has `N` members, every
stored pair of score and object is what a call of `measure` gave, and from one generation to the next the best score
does not increase and each slot either keeps its member or gets one with a strictly lower score. -/
theorem C03_population_never_worse (obj : O) (controls : List (Control O K)) (measure : O → S × O)
    (maxgen N : ℕ) (CR F : K) (r : Rng K) (run : Run S O)
    (h : optimise obj controls measure maxgen N CR F r = .ok run) :
    run.monitored.length = maxgen ∧
    (∀ s ∈ run.history, s.2.length = N ∧ (∃ x, s.1 = measure x) ∧ ∀ p ∈ s.2, ∃ x, p = measure x) ∧
    List.IsChain (fun a b : (S × O) × List (S × O) => b.1.1 ≤ a.1.1 ∧
      List.Forall₂ (fun old new => new = old ∨ new.1 < old.1) a.2 b.2) run.history ∧
    (run.history.getLast (by simp [Run.history])).1.2 = run.result := by
  obtain ⟨hN, ⟨new, h1, h2, h3, h4, h5, h6⟩, e1, e2, e3⟩ := optimise_cases h
  refine ⟨e1, ?_, ?_, e3⟩
  · refine chain_invariant measure _ _ N e2 ⟨?_, ?_, ?_⟩
    · simp [h1, h2]; omega
    · rcases h4 with h4 | h4
      · exact ⟨obj, h4⟩
      · exact h3 _ h4
    · simp only [h1]
      intro p hp
      rcases List.mem_cons.1 hp with rfl | hp
      · exact ⟨obj, rfl⟩
      · exact h3 p hp
  · refine e2.imp fun a b hab => ⟨hab.1, hab.2.2.imp fun x y hxy => ?_⟩
    rcases hxy with h | h
    · exact Or.inl h
    · exact Or.inr h.1

/-- The initial population of every run starts with the original object and the best candidate is chosen
as a member of it with the **highest** score. -/
theorem C02_initial_choice_is_highest (obj : O) (controls : List (Control O K)) (measure : O → S × O)
    (N : ℕ) (CR F : K) (r : Rng K) (run : Run S O)
    (h : optimise obj controls measure 0 N CR F r = .ok run) :
    ∃ p ∈ run.initPop, run.result = p.2 ∧ ∀ q ∈ run.initPop, (∃ x, q = measure x) ∧ q.1 ≤ p.1 := by
  obtain ⟨hN, ⟨new, h1, h2, h3, h4, h5, h6⟩, e1, e2, e3⟩ := optimise_cases h
  have hm : run.monitored = [] := List.length_eq_zero_iff.1 e1
  have hr : run.result = run.initBest.2 := by rw [← e3]; simp [Run.history, hm]
  refine ⟨run.initBest, ?_, hr, ?_⟩
  · rw [h1]; rcases h4 with h4 | h4 <;> simp [h4]
  · intro q hq
    rw [h1] at hq
    rcases List.mem_cons.1 hq with rfl | hq
    · exact ⟨⟨obj, rfl⟩, h5⟩
    · exact ⟨h3 q hq, h6 q hq⟩

theorem chain_lower (measure : O → S × O) (s : (S × O) × List (S × O))
    (l : List ((S × O) × List (S × O))) (h : List.IsChain (GenStep measure) (s :: l)) :
    ((s :: l).getLast (by simp)).1.1 ≤ s.1.1 ∧
    List.Forall₂ (fun first fin : S × O => fin = first ∨
      (fin.1 < first.1 ∧ ((s :: l).getLast (by simp)).1.1 ≤ fin.1)) s.2
      ((s :: l).getLast (by simp)).2 := by
  induction l generalizing s with
  | nil => simp [List.forall₂_same]
  | cons t l ih =>
    rw [List.isChain_cons_cons] at h
    obtain ⟨⟨h1, h2, h3⟩, h4⟩ := h
    obtain ⟨i1, i2⟩ := ih t h4
    rw [List.getLast_cons (by simp)]
    refine ⟨le_trans i1 h1, ?_⟩
    rw [List.forall₂_iff_get] at h3 i2 ⊢
    refine ⟨h3.1.trans i2.1, fun i hi hi' => ?_⟩
    have a := h3.2 i hi (by omega)
    have b := i2.2 i (by omega) hi'
    rcases a with a | a <;> rcases b with b | b
    · left; rw [b, a]
    · right; rw [← a]; exact b
    · right; rw [b]; exact ⟨a.1, le_trans i1 a.2.2⟩
    · right; exact ⟨lt_trans b.1 a.1, b.2⟩

/-- **C02 (partial).** Full claim: the returned object has the lowest measure among the original object and
every member of the final population. Proved: it is at least as good as every member of the final population
that replaced its initial occupant, and as the initially chosen (highest scoring) member. Missing:
the comparison with members of the initial population that were never replaced - there the claim is
false, see `C02_not_lowest`. -/
theorem C02_result_le_every_replacement_partial (obj : O) (controls : List (Control O K))
    (measure : O → S × O) (maxgen N : ℕ) (CR F : K) (r : Rng K) (run : Run S O)
    (h : optimise obj controls measure maxgen N CR F r = .ok run) :
    ∃ score, (∃ x, (score, run.result) = measure x) ∧ score ≤ run.initBest.1 ∧
    List.Forall₂ (fun first fin : S × O => fin = first ∨ score ≤ fin.1)
      run.initPop (run.history.getLast (by simp [Run.history])).2 := by
  have hc := C03_population_never_worse obj controls measure maxgen N CR F r run h
  obtain ⟨hN, -, e1, e2, e3⟩ := optimise_cases h
  obtain ⟨i1, i2⟩ := chain_lower measure _ _ e2
  have hmem : run.history.getLast (by simp [Run.history]) ∈ run.history := List.getLast_mem _
  have hl := hc.2.1 _ hmem
  refine ⟨(run.history.getLast (by simp [Run.history])).1.1, ?_, i1, ?_⟩
  · rw [← e3]; exact hl.2.1
  · rw [List.forall₂_iff_get] at i2 ⊢
    refine ⟨i2.1, fun i hi hi' => ?_⟩
    rcases i2.2 i hi hi' with a | a
    · exact Or.inl a
    · exact Or.inr a.2

/-- `C02_result_le_every_replacement_partial` for a measure that does not change the object. -/
theorem C02_unchanged_objects_partial (obj : O) (controls : List (Control O K)) (f : O → S) (maxgen N : ℕ) (CR F : K) (r : Rng K)
    (run : Run S O) (h : optimise obj controls (fun x => (f x, x)) maxgen N CR F r = .ok run) :
    f run.result ≤ f run.initBest.2 ∧
    List.Forall₂ (fun first fin : S × O => fin = first ∨ f run.result ≤ f fin.2)
      run.initPop (run.history.getLast (by simp [Run.history])).2 := by
  have hc := C03_population_never_worse obj controls _ maxgen N CR F r run h
  have hf := hc.2.1 (run.initBest, run.initPop) (by simp [Run.history])
  have hl := hc.2.1 _ (List.getLast_mem (l := run.history) (by simp [Run.history]))
  have hpure : ∀ p : S × O, (∃ x, p = (f x, x)) → p.1 = f p.2 := by rintro p ⟨x, rfl⟩; rfl
  obtain ⟨score, h1, h2, h3⟩ := C02_result_le_every_replacement_partial obj controls _ maxgen N CR F r run h
  have hs : score = f run.result := hpure _ h1
  subst hs
  refine ⟨h2.trans (le_of_eq (hpure _ hf.2.1)), ?_⟩
  rw [List.forall₂_iff_get] at h3 ⊢
  refine ⟨h3.1, fun i hi hi' => (h3.2 i hi hi').imp id fun a => ?_⟩
  exact a.trans (le_of_eq (hpure _ (hl.2.2 _ (List.getElem_mem hi'))))

end

/-- The example problem: the object is one number, read and written by both controls. -/
def idControl : Control ℚ ℚ := ⟨fun o => o, fun _ v => v⟩

/-- The example measure: zero is the unique optimum. -/
def zeroMeasure (x : ℚ) : ℚ := if x = 0 then 0 else 1

/-- The trials of the example generation: agent 0 gets the trial object 1, the others 1/2. -/
theorem witness_trial (ai : ℕ) (hai : ai < 4) (agent : ℚ × ℚ) :
    trial 4 [idControl, idControl] 0 (1 / 2) [((0 : ℚ), (0 : ℚ)), (1, 1), (1, 1), (1, 1)] ai agent
      (constRng 1 0 1) = .ok (if ai = 0 then 1 else 1 / 2, constRng 1 0 1) := by
  have hr : pickUnique 4 3 [ai] (constRng 1 0 1) = .ok (
      (match ai with | 0 => [1, 2, 3] | 1 => [2, 0, 3] | 2 => [1, 0, 3] | _ => [1, 0, 2]),
      constRng 1 0 1) := by
    interval_cases ai <;> rfl
  have hR : randint (([idControl, idControl].length : ℤ) - 1) (constRng 1 0 1)
      = .ok (0, constRng 1 0 1) := rfl
  interval_cases ai <;> simp only at hr <;> simp only [trial, hr] <;>
    simp only [List.getElem?_cons_zero, List.getElem?_cons_succ, hR, crossover] <;>
    norm_num [rand, constRng, idControl]

theorem witness_generation :
    agentLoop 4 [idControl, idControl] (fun x => (zeroMeasure x, x)) 0 (1 / 2) [(0, 0), (1, 1), (1, 1), (1, 1)] 0
      [(0, 0), (1, 1), (1, 1), (1, 1)] [] (1, 1) (constRng 1 0 1)
      = .ok ([(0, 0), (1, 1), (1, 1), (1, 1)], (1, 1), constRng 1 0 1) := by
  simp only [agentLoop, witness_trial 0 (by norm_num), witness_trial 1 (by norm_num),
    witness_trial 2 (by norm_num), witness_trial 3 (by norm_num), zero_add]
  norm_num [zeroMeasure]

/-- **C02 (refuted).** For every number of generations there is a run in which the original object is the best
member of the final population and yet a strictly worse object is returned. -/
theorem C02_not_lowest (maxgen : ℕ) :
    ∃ (obj : ℚ) (controls : List (Control ℚ ℚ)) (measure : ℚ → ℚ) (CR F : ℚ) (r : Rng ℚ)
      (run : Run ℚ ℚ), optimise obj controls (fun x => (measure x, x)) maxgen 4 CR F r = .ok run ∧
      measure obj < measure run.result := by
  have hg : ∀ g seen, ∃ seen', genLoop 4 [idControl, idControl] (fun x => (zeroMeasure x, x)) 0 (1 / 2) g
      [(0, 0), (1, 1), (1, 1), (1, 1)] (1, 1) seen (constRng 1 0 1) = .ok ((1, 1), seen') := by
    intro g
    induction g with
    | zero => exact fun seen => ⟨seen, rfl⟩
    | succ g ih =>
      intro seen
      rw [genLoop, witness_generation]
      exact ih _
  have hi : initLoop 0 [idControl, idControl] (fun x => (zeroMeasure x, x)) 3 [(0, 0)] (0, 0) (constRng 1 0 1)
      = ([(0, 0), (1, 1), (1, 1), (1, 1)], (1, 1), constRng 1 0 1) := by
    norm_num [initLoop, mutate, mutateLoop, idControl, zeroMeasure, rand, normal, constRng]
  obtain ⟨seen', hg⟩ := hg maxgen []
  refine ⟨0, [idControl, idControl], zeroMeasure, 0, 1 / 2, constRng 1 0 1,
    ⟨1, (1, 1), [(0, 0), (1, 1), (1, 1), (1, 1)], seen'⟩, ?_, ?_⟩
  · have h0 : zeroMeasure 0 = 0 := by simp [zeroMeasure]
    simp only [optimise, h0]
    rw [if_pos (by norm_num), hi]
    simp only [hg]
  · norm_num [zeroMeasure]

/-- Non-vacuous for C02/C03: the run above exists for every number of generations. -/
example : ∃ run : Run ℚ ℚ,
    optimise 0 [idControl, idControl] (fun x => (zeroMeasure x, x)) 0 4 0 (1 / 2) (constRng 1 0 1) = .ok run := by
  norm_num [optimise, initLoop, genLoop, mutate, mutateLoop, idControl, zeroMeasure, rand, normal,
    constRng]

section
variable [Field K] [LinearOrder K] [LinearOrder S]

/-- **C04 (refuted).** A run with a single control raises `ValueError` as soon as there is one generation,
whatever the random stream. -/
theorem C04_single_control_raises (obj : O) (c : Control O K) (measure : O → S × O) (maxgen N : ℕ)
    (hN : 4 ≤ N) (hg : 1 ≤ maxgen) (CR F : K) (r : Rng K) :
    optimise obj [c] measure maxgen N CR F r = .error .value := by
  obtain ⟨new, r', best', h1, h2, h3, h4, h5, h6⟩ := initLoop_spec (measure obj).2 [c] measure (N - 1)
    [measure obj] (measure obj) r
  obtain ⟨g, rfl⟩ : ∃ g, maxgen = g + 1 := ⟨maxgen - 1, by omega⟩
  have ht := trial_error N [c] CR F ([measure obj] ++ new) 0 (measure obj) r' hN
    (by simp [h2]; omega) (by simp)
  simp only [List.singleton_append] at h1 ht
  simp only [optimise, if_pos (show N ≥ 4 from hN), h1, genLoop, agentLoop, ht]

/-- **C04 (partial).** Full claim: every non-empty control list works and any control can be the forced one. Proved:
with two or more controls no run raises. Missing: one control (false, `C04_single_control_raises`) and the last control
(never forced, `C04_last_control_never_forced`). -/
theorem C04_two_controls_run_partial (obj : O) (controls : List (Control O K)) (measure : O → S × O)
    (maxgen N : ℕ) (hN : 4 ≤ N) (hc : 2 ≤ controls.length) (CR F : K) (r : Rng K) :
    ∃ run, optimise obj controls measure maxgen N CR F r = .ok run := by
  obtain ⟨new, r', best', h1, h2, h3, h4, h5, h6⟩ := initLoop_spec (measure obj).2 controls measure (N - 1)
    [measure obj] (measure obj) r
  obtain ⟨⟨b, seen⟩, hg⟩ := genLoop_ok N controls measure CR F hN hc maxgen
    ([measure obj] ++ new) (by simp [h2]; omega) best' [] r'
  refine ⟨⟨b.2, best', [measure obj] ++ new, seen⟩, ?_⟩
  simp only [optimise, if_pos (show N ≥ 4 from hN), h1, hg]

end

section
variable [Field K] [LinearOrder K]

/-- If no uniform draw is below `CR`, the crossover sets the forced control only. -/
theorem crossover_forced_only (R : ℕ) (CR F : K) (o0 o1 o2 : O) (i : ℕ) (cs : List (Control O K))
    (x : O) (r : Rng K) (hr : ∀ n, ¬ r.unif n < CR) :
    (crossover R CR F o0 o1 o2 i cs x r).1 =
      if h : i ≤ R ∧ R - i < cs.length then
        (cs[R - i]'h.2).set x ((cs[R - i]'h.2).get o0 +
          F * ((cs[R - i]'h.2).get o1 - (cs[R - i]'h.2).get o2))
      else x := by
  induction cs generalizing i x r with
  | nil => simp [crossover]
  | cons c cs ih =>
    rw [crossover]
    by_cases hi : i = R
    · subst hi
      rw [if_pos rfl, ih _ _ _ hr]
      rw [dif_neg (by omega), dif_pos (by simp)]
      simp
    · rw [if_neg hi]
      have hu : ¬ (rand r).1 < CR := hr 0
      have hr' : ∀ n, ¬ (rand r).2.unif n < CR := fun n => hr (n + 1)
      rw [show (rand r) = ((rand r).1, (rand r).2) from rfl]
      simp only [if_neg hu]
      rw [ih _ _ _ hr']
      by_cases hR : i ≤ R
      · have e : R - i = (R - (i + 1)) + 1 := by omega
        by_cases hl : R - (i + 1) < cs.length
        · rw [dif_pos ⟨by omega, hl⟩, dif_pos ⟨hR, by simp; omega⟩]
          simp [e]
        · rw [dif_neg (by tauto), dif_neg (by simp; omega)]
      · rw [dif_neg (by omega), dif_neg (by omega)]

/-- **C04 (refuted, second part).** The last control is never the forced one: with crossover
probability zero (no uniform draw below `CR`) every trial object differs from its agent by setting one
control that is not the last. -/
theorem C04_last_control_never_forced (N : ℕ) (controls : List (Control O K)) (CR F : K)
    (pop : List (S × O)) (ai : ℕ) (agent : S × O) (r : Rng K) (hr : ∀ n, ¬ r.unif n < CR)
    (new : O) (r' : Rng K)
    (h : trial N controls CR F pop ai agent r = .ok (new, r')) :
    ∃ k, ∃ hk : k + 1 < controls.length, ∃ v, new = (controls[k]).set agent.2 v := by
  have hpick : ∀ m e (r r2 : Rng K) v, pickUnique N m e r = .ok (v, r2) → r2.unif = r.unif := by
    intro m e r r2 v hp
    rw [pickUnique] at hp
    split at hp
    · have key : ∀ k i inds others (r r2 : Rng K) v,
          pickLoop N e.length k i inds others r = .ok (v, r2) → r2.unif = r.unif := by
        intro k
        induction k with
        | zero =>
          intro i inds others r r2 v h
          simp only [pickLoop, Except.ok.injEq, Prod.mk.injEq] at h
          rw [h.2]
        | succ k ih =>
          intro i inds others r r2 v h
          simp only [pickLoop] at h
          by_cases hp : (N : ℤ) - 1 - i - e.length > 0
          · rw [if_pos hp, randint, if_neg (by omega)] at h
            exact (ih _ _ _ _ _ _ h).trans rfl
          · rw [if_neg hp] at h
            exact ih _ _ _ _ _ _ h
      exact key _ _ _ _ _ _ _ hp
    · simp at hp
  rw [trial] at h
  cases h1 : pickUnique N 3 [ai] r with
  | error e => simp [h1] at h
  | ok x =>
    obtain ⟨idx, r1⟩ := x
    have hu := hpick _ _ _ _ _ h1
    simp only [h1] at h
    split at h
    · split at h
      · rename_i p0 p1 p2 _ _ _
        rw [randint] at h
        by_cases hc : (controls.length : ℤ) - 1 ≤ 0
        · rw [if_pos hc] at h; simp at h
        · rw [if_neg hc] at h
          simp only [Except.ok.injEq] at h
          have hm := Nat.mod_lt (r1.ints 0) (y := ((controls.length : ℤ) - 1).toNat) (by omega)
          have := crossover_forced_only (r1.ints 0 % ((controls.length : ℤ) - 1).toNat) CR F
            p0.2 p1.2 p2.2 0 controls agent.2
            { r1 with ints := fun n => r1.ints (n + 1) } (by intro n; rw [hu]; exact hr n)
          have h' := congrArg Prod.fst h
          rw [this, dif_pos ⟨Nat.zero_le _, by omega⟩] at h'
          exact ⟨_, by omega, _, h'.symm⟩
      · simp at h
    · simp at h

end

/-- Non-vacuous for `C04_last_control_never_forced`: such a trial exists. -/
example : (trial 4 [idControl, idControl] 0 (1 / 2) [((0 : ℚ), 0), (1, 1), (1, 2), (1, 6)] 0 (0, 0)
    (constRng 1 0 1)).map Prod.fst = .ok (-1) := by
  have h : pickUnique 4 3 [0] (constRng 1 0 1) =   .ok ([1, 2, 3], constRng 1 0 1) := rfl
  have hR : randint (([idControl, idControl].length : ℤ) - 1) (constRng 1 0 1)
      = .ok (0, constRng 1 0 1) := rfl
  simp only [trial, h]
  simp only [List.getElem?_cons_zero, List.getElem?_cons_succ, hR, crossover]
  norm_num [rand, constRng, Except.map, idControl]

end FreeGS.Optimiser
