import Verif.Model.Optimiser

set_option linter.unusedSectionVars false

namespace FreeGS.Optimiser

variable {O S K : Type*}

theorem insort_length (x : ℕ) (l : List ℕ) : (insort x l).length = l.length + 1 := by
  induction l with
  | nil => rfl
  | cons y ys ih => simp only [insort]; split <;> simp [ih]

theorem mem_insort (x a : ℕ) (l : List ℕ) : a ∈ insort x l ↔ a = x ∨ a ∈ l := by
  induction l with
  | nil => simp [insort]
  | cons y ys ih =>
    simp only [insort]; split
    · simp
    · simp [ih]; tauto

theorem insort_sorted (x : ℕ) (l : List ℕ) (h : l.Pairwise (· < ·)) (hx : x ∉ l) :
    (insort x l).Pairwise (· < ·) := by
  induction l with
  | nil => simp [insort]
  | cons y ys ih =>
    simp only [insort]
    have hy := List.pairwise_cons.1 h
    split
    · rename_i hlt
      refine List.pairwise_cons.2 ⟨?_, h⟩
      intro a ha
      rcases List.mem_cons.1 ha with rfl | ha
      · exact hlt
      · exact lt_trans hlt (hy.1 a ha)
    · rename_i hlt
      refine List.pairwise_cons.2 ⟨?_, ih hy.2 (fun hm => hx (List.mem_cons_of_mem _ hm))⟩
      intro a ha
      rcases (mem_insort x a ys).1 ha with rfl | ha
      · have : a ≠ y := fun e => hx (by simp [e])
        omega
      · exact hy.1 a ha

theorem le_skip (l : List ℕ) (n : ℕ) : n ≤ skip n l := by
  induction l generalizing n with
  | nil => simp [skip]
  | cons y ys ih =>
    simp only [skip, List.foldl_cons] at ih ⊢
    refine le_trans ?_ (ih _)
    split <;> omega

theorem skip_le (l : List ℕ) (n : ℕ) : skip n l ≤ n + l.length := by
  induction l generalizing n with
  | nil => simp [skip]
  | cons y ys ih =>
    simp only [skip, List.foldl_cons, List.length_cons] at ih ⊢
    refine le_trans (ih _) ?_
    split <;> omega

theorem skip_eq_of_lt (l : List ℕ) (n : ℕ) (h : ∀ a ∈ l, n < a) : skip n l = n := by
  induction l with
  | nil => simp [skip]
  | cons y ys ih =>
    have hy := h y (by simp)
    simp only [skip, List.foldl_cons] at ih ⊢
    rw [if_neg (by omega)]
    exact ih (fun a ha => h a (by simp [ha]))

theorem skip_of_not_mem (l : List ℕ) (n : ℕ) (h : n ∉ l) : skip n l = n := by
  induction l with
  | nil => simp [skip]
  | cons y ys ih =>
    have hy : n ≠ y := fun e => h (by simp [e])
    simp only [skip, List.foldl_cons] at ih ⊢
    rw [if_neg hy]
    exact ih (fun hm => h (by simp [hm]))

theorem skip_not_mem (l : List ℕ) (n : ℕ) (h : l.Pairwise (· < ·)) : skip n l ∉ l := by
  induction l generalizing n with
  | nil => simp
  | cons y ys ih =>
    have hy := List.pairwise_cons.1 h
    have hs : skip n (y :: ys) = skip (if n = y then n + 1 else n) ys := rfl
    rw [hs]
    intro hm
    rcases List.mem_cons.1 hm with he | hm
    · by_cases hn : n = y
      · have := le_skip ys (n + 1)
        simp only [hn, if_true] at he this
        omega
      · simp only [hn, if_false] at he
        rcases lt_or_gt_of_ne hn with hlt | hgt
        · rw [skip_eq_of_lt] at he
          · omega
          · intro a ha; exact lt_trans hlt (hy.1 a ha)
        · have := le_skip ys n
          omega
    · exact ih _ hy.2 hm

theorem pickLoop_spec (N ne : ℕ) (r : Rng K) (k i : ℕ) (inds others : List ℕ)
    (hs : inds.Pairwise (· < ·)) (hlen : inds.length = ne + i) (hk : ne + i + k ≤ N) :
    ∃ new r', pickLoop N ne k i inds others r = .ok (others ++ new, r') ∧ new.length = k ∧
      new.Nodup ∧ (∀ x ∈ new, x < N) ∧ (∀ x ∈ new, x ∉ inds) ∧
      (ne + i + k < N → ∀ x ∈ new, x + 1 < N) := by
  induction k generalizing i inds others r with
  | zero => exact ⟨[], r, by simp [pickLoop]⟩
  | succ k ih =>
    have hdraw : ∃ d r', (if (N : ℤ) - 1 - i - ne > 0 then randint ((N : ℤ) - 1 - i - ne) r
        else Except.ok (0, r)) = Except.ok (d, r') ∧ d + ne + i < N ∧
        (ne + i + (k + 1) < N → d + ne + i + 1 < N) := by
      by_cases hpos : (N : ℤ) - 1 - i - ne > 0
      · refine ⟨r.ints 0 % ((N : ℤ) - 1 - i - ne).toNat, { r with ints := fun n => r.ints (n + 1) }, ?_, ?_, ?_⟩
        · rw [if_pos hpos, randint, if_neg (by omega)]
        · have := Nat.mod_lt (r.ints 0) (y := ((N : ℤ) - 1 - i - ne).toNat) (by omega)
          omega
        · have := Nat.mod_lt (r.ints 0) (y := ((N : ℤ) - 1 - i - ne).toNat) (by omega)
          omega
      · exact ⟨0, r, by rw [if_neg hpos], by omega, by omega⟩
    obtain ⟨d, r', hd, hdN, hdN'⟩ := hdraw
    have hnm := skip_not_mem inds d hs
    have hle := skip_le inds d
    obtain ⟨new, r'', h1, h2, h3, h4, h5, h6⟩ := ih r' (i + 1) (insort (skip d inds) inds)
      (others ++ [skip d inds]) (insort_sorted _ _ hs hnm) (by rw [insort_length]; omega) (by omega)
    refine ⟨skip d inds :: new, r'', ?_, by simp [h2], ?_, ?_, ?_, ?_⟩
    · simp only [pickLoop, hd, h1]; simp
    · refine List.nodup_cons.2 ⟨fun hm => h5 _ hm ((mem_insort _ _ _).2 (Or.inl rfl)), h3⟩
    · intro x hx
      rcases List.mem_cons.1 hx with rfl | hx
      · omega
      · exact h4 x hx
    · intro x hx
      rcases List.mem_cons.1 hx with rfl | hx
      · exact hnm
      · exact fun hm => h5 x hx ((mem_insort _ _ _).2 (Or.inr hm))
    · intro hlt x hx
      rcases List.mem_cons.1 hx with rfl | hx
      · have := hdN' hlt; omega
      · exact h6 (by omega) x hx

theorem sort_nodup_pairwise (e : List ℕ) (h : e.Nodup) :
    (e.insertionSort (· ≤ ·)).Pairwise (· < ·) := by
  have h1 : (e.insertionSort (· ≤ ·)).Pairwise (· ≤ ·) := List.pairwise_insertionSort _ _
  have h2 : (e.insertionSort (· ≤ ·)).Nodup := (List.perm_insertionSort _ e).nodup_iff.2 h
  exact (h1.and h2).imp (fun h => lt_of_le_of_ne h.1 h.2)

/-- Full description of `pickUnique` for admissible arguments. -/
theorem pickUnique_spec (N m : ℕ) (e : List ℕ) (r : Rng K) (he : e.Nodup)
    (hm : m + e.length ≤ N) :
    ∃ new r', pickUnique N m e r = .ok (new, r') ∧ new.length = m ∧ new.Nodup ∧
      (∀ x ∈ new, x < N) ∧ (∀ x ∈ new, x ∉ e) ∧ (m + e.length < N → ∀ x ∈ new, x + 1 < N) := by
  obtain ⟨new, r', h1, h2, h3, h4, h5, h6⟩ := pickLoop_spec N e.length r m 0
    (e.insertionSort (· ≤ ·)) [] (sort_nodup_pairwise e he) (by simp) (by omega)
  refine ⟨new, r', ?_, h2, h3, h4, ?_, fun h => h6 (by omega)⟩
  · rw [pickUnique, if_pos (by omega), h1]; simp
  · intro x hx hxe
    exact h5 x hx ((List.perm_insertionSort _ e).mem_iff.2 hxe)


section
variable [Field K] [LinearOrder K] [LinearOrder S]

/-- With at least two controls and a full population, building a trial cannot raise. -/
theorem trial_ok (N : ℕ) (controls : List (Control O K)) (CR F : K) (pop : List (S × O)) (ai : ℕ)
    (agent : S × O) (r : Rng K) (hN : 4 ≤ N) (hpop : pop.length = N) (hc : 2 ≤ controls.length) :
    ∃ x, trial N controls CR F pop ai agent r = .ok x := by
  obtain ⟨new, r', h1, h2, h3, h4, -, -⟩ := pickUnique_spec N 3 [ai] r (by simp) (by simp; omega)
  match new, h2 with
  | [a, b, c], _ =>
    have ha := h4 a (by simp)
    have hb := h4 b (by simp)
    have hc' := h4 c (by simp)
    have e1 : pop[a]? = some pop[a] := List.getElem?_eq_getElem (by omega)
    have e2 : pop[b]? = some pop[b] := List.getElem?_eq_getElem (by omega)
    have e3 : pop[c]? = some pop[c] := List.getElem?_eq_getElem (by omega)
    have e4 : ∃ R r'', randint ((controls.length : ℤ) - 1) r' = .ok (R, r'') :=
      ⟨_, _, by rw [randint, if_neg (by omega)]⟩
    obtain ⟨R, r'', e4⟩ := e4
    exact ⟨crossover R CR F pop[a].2 pop[b].2 pop[c].2 0 controls agent.2 r'',
      by simp only [trial, h1, e1, e2, e3, e4]⟩

/-- With at most one control, building a trial raises `ValueError`. -/
theorem trial_error (N : ℕ) (controls : List (Control O K)) (CR F : K) (pop : List (S × O)) (ai : ℕ)
    (agent : S × O) (r : Rng K) (hN : 4 ≤ N) (hpop : pop.length = N) (hc : controls.length ≤ 1) :
    trial N controls CR F pop ai agent r = .error .value := by
  obtain ⟨new, r', h1, h2, h3, h4, -, -⟩ := pickUnique_spec N 3 [ai] r (by simp) (by simp; omega)
  match new, h2 with
  | [a, b, c], _ =>
    have ha := h4 a (by simp)
    have hb := h4 b (by simp)
    have hc' := h4 c (by simp)
    have e1 : pop[a]? = some pop[a] := List.getElem?_eq_getElem (by omega)
    have e2 : pop[b]? = some pop[b] := List.getElem?_eq_getElem (by omega)
    have e3 : pop[c]? = some pop[c] := List.getElem?_eq_getElem (by omega)
    have e4 : randint ((controls.length : ℤ) - 1) r' = .error .value := by
      rw [randint, if_pos (by omega)]
    simp only [trial, h1, e1, e2, e3, e4]

theorem initLoop_spec (obj : O) (controls : List (Control O K)) (measure : O → S × O) (k : ℕ)
    (pop : List (S × O)) (best : S × O) (r : Rng K) :
    ∃ new r' best', initLoop obj controls measure k pop best r = (pop ++ new, best', r') ∧
      new.length = k ∧ (∀ p ∈ new, ∃ x, p = measure x) ∧ (best' = best ∨ best' ∈ new) ∧
      best.1 ≤ best'.1 ∧ ∀ p ∈ new, p.1 ≤ best'.1 := by
  induction k generalizing pop best r with
  | zero => exact ⟨[], r, best, by simp [initLoop]⟩
  | succ k ih =>
    obtain ⟨a, r1, hm⟩ : ∃ a r1, mutate obj controls r = (a, r1) := ⟨_, _, rfl⟩
    obtain ⟨new, r', best', h1, h2, h3, h4, h5, h6⟩ := ih (pop ++ [measure a])
      (if (measure a).1 > best.1 then measure a else best) r1
    refine ⟨measure a :: new, r', best', ?_, by simp [h2], ?_, ?_, ?_, ?_⟩
    · simp only [initLoop, hm, h1]; simp
    · intro p hp
      rcases List.mem_cons.1 hp with rfl | hp
      · exact ⟨a, rfl⟩
      · exact h3 p hp
    · rcases h4 with h4 | h4
      · by_cases hc : (measure a).1 > best.1
        · right; rw [h4, if_pos hc]; simp
        · left; rw [h4, if_neg hc]
      · right; simp [h4]
    · refine le_trans ?_ h5
      split
      · rename_i hc; exact hc.le
      · exact le_rfl
    · intro p hp
      rcases List.mem_cons.1 hp with rfl | hp
      · refine le_trans ?_ h5
        split
        · exact le_rfl
        · rename_i hc; exact not_lt.1 hc
      · exact h6 p hp

/-- One pass over the agents: what happens to each slot and to the best candidate. -/
theorem agentLoop_spec (N : ℕ) (controls : List (Control O K)) (measure : O → S × O) (CR F : K)
    (pop : List (S × O)) (rest : List (S × O)) (ai : ℕ) (next : List (S × O)) (best : S × O)
    (r : Rng K) (next' : List (S × O)) (best' : S × O) (r' : Rng K)
    (h : agentLoop N controls measure CR F pop ai rest next best r = .ok (next', best', r')) :
    ∃ new, next' = next ++ new ∧ best'.1 ≤ best.1 ∧ (best' = best ∨ (best' ∈ new ∧ new ≠ rest)) ∧
      List.Forall₂ (fun old nw : S × O => nw = old ∨
        (nw.1 < old.1 ∧ (∃ x, nw = measure x) ∧ best'.1 ≤ nw.1)) rest new := by
  induction rest generalizing ai next best r with
  | nil =>
    simp only [agentLoop, Except.ok.injEq, Prod.mk.injEq] at h
    obtain ⟨rfl, rfl, rfl⟩ := h
    exact ⟨[], by simp⟩
  | cons agent rest ih =>
    rw [agentLoop] at h
    cases ht : trial N controls CR F pop ai agent r with
    | error e => simp [ht] at h
    | ok x =>
      obtain ⟨newObj, r1⟩ := x
      simp only [ht] at h
      by_cases hs : (measure newObj).1 < agent.1
      · rw [if_pos hs] at h
        obtain ⟨new, h1, h2, h3, h4⟩ := ih _ _ _ _ h
        have hb : best'.1 ≤ (measure newObj).1 ∧ best'.1 ≤ best.1 := by
          by_cases hb : (measure newObj).1 < best.1
          · rw [if_pos hb] at h2; exact ⟨h2, le_trans h2 hb.le⟩
          · rw [if_neg hb] at h2; exact ⟨le_trans h2 (not_lt.1 hb), h2⟩
        have hne : measure newObj :: new ≠ agent :: rest := by
          intro he
          rw [(List.cons.inj he).1] at hs
          exact lt_irrefl _ hs
        refine ⟨measure newObj :: new, by simp [h1], hb.2, ?_, ?_⟩
        · rcases h3 with h3 | h3
          · by_cases hb : (measure newObj).1 < best.1
            · rw [if_pos hb] at h3; right; exact ⟨by simp [h3], hne⟩
            · rw [if_neg hb] at h3; exact Or.inl h3
          · right; exact ⟨by simp [h3], hne⟩
        · exact List.Forall₂.cons (Or.inr ⟨hs, ⟨_, rfl⟩, hb.1⟩) h4
      · rw [if_neg hs] at h
        obtain ⟨new, h1, h2, h3, h4⟩ := ih _ _ _ _ h
        refine ⟨agent :: new, by simp [h1], h2, ?_, List.Forall₂.cons (Or.inl rfl) h4⟩
        rcases h3 with h3 | h3
        · exact Or.inl h3
        · right; exact ⟨by simp [h3], fun he => h3.2 (List.cons.inj he).2⟩

/-- With at least two controls the loop over agents cannot raise. -/
theorem agentLoop_ok (N : ℕ) (controls : List (Control O K)) (measure : O → S × O) (CR F : K)
    (pop : List (S × O)) (hN : 4 ≤ N) (hpop : pop.length = N) (hc : 2 ≤ controls.length)
    (rest : List (S × O)) (ai : ℕ) (next : List (S × O)) (best : S × O) (r : Rng K) :
    ∃ x, agentLoop N controls measure CR F pop ai rest next best r = .ok x := by
  induction rest generalizing ai next best r with
  | nil => exact ⟨_, rfl⟩
  | cons agent rest ih =>
    obtain ⟨⟨newObj, r1⟩, ht⟩ := trial_ok N controls CR F pop ai agent r hN hpop hc
    rw [agentLoop]
    simp only [ht]
    split
    · exact ih _ _ _ _
    · exact ih _ _ _ _

/-- The relation between the state before and after one generation. -/
def GenStep (measure : O → S × O) (a b : (S × O) × List (S × O)) : Prop :=
  b.1.1 ≤ a.1.1 ∧ (b.1 = a.1 ∨ (b.1 ∈ b.2 ∧ b.2 ≠ a.2)) ∧
    List.Forall₂ (fun old nw : S × O => nw = old ∨
      (nw.1 < old.1 ∧ (∃ x, nw = measure x) ∧ b.1.1 ≤ nw.1)) a.2 b.2

theorem genLoop_spec (N : ℕ) (controls : List (Control O K)) (measure : O → S × O) (CR F : K) (g : ℕ)
    (pop : List (S × O)) (best : S × O) (seen : List ((S × O) × List (S × O))) (r : Rng K)
    (b : S × O) (seen' : List ((S × O) × List (S × O)))
    (h : genLoop N controls measure CR F g pop best seen r = .ok (b, seen')) :
    ∃ new, seen' = seen ++ new ∧ new.length = g ∧
      List.IsChain (GenStep measure) ((best, pop) :: new) ∧
      (((best, pop) :: new).getLast (by simp)).1 = b := by
  induction g generalizing pop best seen r with
  | zero =>
    simp only [genLoop, Except.ok.injEq, Prod.mk.injEq] at h
    obtain ⟨rfl, rfl⟩ := h
    exact ⟨[], by simp⟩
  | succ g ih =>
    rw [genLoop] at h
    cases ha : agentLoop N controls measure CR F pop 0 pop [] best r with
    | error e => simp [ha] at h
    | ok x =>
      obtain ⟨next, best1, r1⟩ := x
      simp only [ha] at h
      obtain ⟨new, h1, h2, h3, h4⟩ := ih _ _ _ _ h
      obtain ⟨nw, e1, e2, e3, e4⟩ := agentLoop_spec _ _ _ _ _ _ _ _ _ _ _ _ _ _ ha
      simp only [List.nil_append] at e1
      subst e1
      refine ⟨(best1, next) :: new, by simp [h1], by simp [h2], ?_, ?_⟩
      · exact List.IsChain.cons_cons ⟨e2, e3, e4⟩ h3
      · rw [List.getLast_cons (by simp)]; exact h4

theorem genLoop_ok (N : ℕ) (controls : List (Control O K)) (measure : O → S × O) (CR F : K)
    (hN : 4 ≤ N) (hc : 2 ≤ controls.length) (g : ℕ) (pop : List (S × O)) (hpop : pop.length = N)
    (best : S × O) (seen : List ((S × O) × List (S × O))) (r : Rng K) :
    ∃ x, genLoop N controls measure CR F g pop best seen r = .ok x := by
  induction g generalizing pop best seen r with
  | zero => exact ⟨_, rfl⟩
  | succ g ih =>
    obtain ⟨⟨next, best1, r1⟩, ha⟩ := agentLoop_ok N controls measure CR F pop hN hpop hc pop 0 [] best r
    obtain ⟨nw, e1, e2, e3, e4⟩ := agentLoop_spec _ _ _ _ _ _ _ _ _ _ _ _ _ _ ha
    rw [genLoop]
    simp only [ha]
    refine ih _ ?_ _ _ _
    rw [e1, List.nil_append, ← e4.length_eq, hpop]

end

end FreeGS.Optimiser
