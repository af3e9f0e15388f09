import Verif.Lemmas.Queue
import Verif.Spec.Queue

/-! # Properties C01-C06: the walker queue and the event loop -/

namespace Mythical
open Queue QueueSpec
variable {K : Type _} [LinearOrder K]

/-- A concrete `std::sort`: insertion sort. Used only to show the hypotheses are satisfiable. -/
def SortCall.insertion (K : Type _) [LinearOrder K] : SortCall K where
  run l := l.foldr insertBefore []
  perm l := by
    induction l with
    | nil => simp
    | cons e es ih => exact (insertBefore_perm e _).trans (ih.cons e)
  ordered l := by
    induction l with
    | nil => simp
    | cons e es ih => exact insertBefore_ordered e ih

/-- A history used in the examples below. -/
def exampleOps : List (Queue.Op Int) :=
  [.add (1, 5), .add (2, 3), .sort (SortCall.insertion Int), .sortedAdd (3, 4), .sortedAdd (4, 4), .pop]

theorem exampleOps_run : (Queue.init : Queue Int).run exampleOps =
    .ok (⟨[(3, 4), (4, 4), (1, 5)], true⟩, [(2, 3)]) := rfl

/-! ## C01 -/

omit [LinearOrder K] in
private theorem obs_get (q : Queue K) {i : Int} (hi : FitsInt i) {a} (h : q.at_ i = .ok a) :
    0 ≤ i ∧ q.entries[i.toNat]? = some a := (at_ok_iff q hi).1 h

theorem ordered_iff_observed (q : Queue K) (hlen : (q.size : Int) ≤ INT_MAX) :
    Ordered q.entries ↔ ObservedSorted q := by
  constructor
  · intro h i j hi hj hij a b ha hb
    obtain ⟨hi0, ha⟩ := obs_get q hi ha
    obtain ⟨hj0, hb⟩ := obs_get q hj hb
    rcases eq_or_lt_of_le hij with rfl | hlt
    · rw [ha] at hb; rw [Option.some.inj hb]
    · obtain ⟨hi', rfl⟩ := List.getElem?_eq_some_iff.1 ha
      obtain ⟨hj', rfl⟩ := List.getElem?_eq_some_iff.1 hb
      exact List.pairwise_iff_getElem.1 h _ _ hi' hj' (by omega)
  · intro h
    refine List.pairwise_iff_getElem.2 fun i j hi hj hij => ?_
    simp only [size, INT_MAX] at hlen
    have hfi : FitsInt (i : Int) := by simp only [FitsInt, INT_MIN, INT_MAX]; omega
    have hfj : FitsInt (j : Int) := by simp only [FitsInt, INT_MIN, INT_MAX]; omega
    refine h i j hfi hfj (by omega) _ _ ?_ ?_
    · exact (at_ok_iff q hfi).2 ⟨by omega, by simp [hi]⟩
    · exact (at_ok_iff q hfj).2 ⟨by omega, by simp [hj]⟩

/-- **C01.** After any history from a fresh queue, `isSorted() == true` implies that the caller, reading
the entries with `at`, finds them in non-decreasing order of time. -/
theorem C01_isSorted_sound (ops : List (Queue.Op K)) (q : Queue K) (popped : List (Int × K))
    (hrun : (Queue.init : Queue K).run ops = .ok (q, popped)) (hs : q.isSorted = true) :
    ObservedSorted q := by
  have h : Ordered q.entries := run_inv inv_init hrun hs
  intro i j hi hj hij a b ha hb
  obtain ⟨hi0, ha⟩ := obs_get q hi ha
  obtain ⟨hj0, hb⟩ := obs_get q hj hb
  rcases eq_or_lt_of_le hij with rfl | hlt
  · rw [ha] at hb; rw [Option.some.inj hb]
  · obtain ⟨hi', rfl⟩ := List.getElem?_eq_some_iff.1 ha
    obtain ⟨hj', rfl⟩ := List.getElem?_eq_some_iff.1 hb
    exact List.pairwise_iff_getElem.1 h _ _ hi' hj' (by omega)

example : ∃ q popped, (Queue.init : Queue Int).run exampleOps = .ok (q, popped) ∧
    q.isSorted = true ∧ q.size = 3 := ⟨_, _, exampleOps_run, rfl, rfl⟩

/-- **C01**, second half: the flag is useful: `sort()` always makes it true, and only `add` can make it
false. -/
theorem C01_isSorted_after_sort (q : Queue K) (s : SortCall K) : (q.sort s).isSorted = true := by
  unfold Queue.sort isSorted; split <;> simp_all

theorem C01_only_add_clears (q q' : Queue K) (o : Queue.Op K) (out)
    (h : q.step o = .ok (q', out)) (hq : q.isSorted = true) (hq' : q'.isSorted = false) :
    ∃ w, o = .add w := by
  cases o with
  | add w => exact ⟨w, rfl⟩
  | sortedAdd w => simp_all [step, Queue.sortedAdd, isSorted]; simp [← h.1] at hq'
  | sort s => simp_all [step, Queue.sort, isSorted]
  | pop =>
    simp only [step, popCurrent] at h
    split at h
    · next e q1 heq =>
      split at heq
      · simp at heq
      · simp only [Except.ok.injEq, Prod.mk.injEq] at heq h
        rw [← h.1, ← heq.2] at hq'; simp_all [isSorted]
    · simp at h

example : ∃ (q q' : Queue Int) (o : Queue.Op Int) (out : Option (Int × Int)),
    q.step o = .ok (q', out) ∧ q.isSorted = true ∧ q'.isSorted = false :=
  ⟨.init, _, .add (1, 1), _, rfl, rfl, rfl⟩

/-! ## C02 -/

theorem step_content {q q' : Queue K} {o : Queue.Op K} {out} (h : q.step o = .ok (q', out)) :
    (out.toList ++ q'.entries).Perm (q.entries ++ added [o]) ∧ out.toList.length = pops [o] := by
  cases o with
  | add w => simp only [step, Queue.add, Except.ok.injEq, Prod.mk.injEq] at h
             rw [← h.1, ← h.2]; simp [added, pops]
  | sortedAdd w =>
    simp only [step, Queue.sortedAdd, Except.ok.injEq, Prod.mk.injEq] at h
    rw [← h.1, ← h.2]
    simp only [Option.toList, List.nil_append, added, pops, List.length_nil, and_true]
    exact (insertBefore_perm w _).trans (List.perm_append_comm (l₁ := [w]))
  | sort s =>
    simp only [step, Queue.sort, Except.ok.injEq, Prod.mk.injEq] at h
    rw [← h.1, ← h.2]
    simp only [Option.toList, List.nil_append, added, pops, List.length_nil, and_true,
      List.append_nil]
    split
    · exact List.Perm.refl _
    · exact s.perm _
  | pop =>
    simp only [step, popCurrent] at h
    split at h
    · next e q1 heq =>
      split at heq
      · simp at heq
      · next e es hq =>
        simp only [Except.ok.injEq, Prod.mk.injEq] at heq h
        rw [← h.1, ← heq.2, ← h.2, ← heq.1, hq]; simp [added, pops]
    · simp at h

theorem added_cons (o : Queue.Op K) (os : List (Queue.Op K)) : added (o :: os) = added [o] ++ added os := by
  cases o <;> simp [added]

theorem pops_cons (o : Queue.Op K) (os : List (Queue.Op K)) : pops (o :: os) = pops [o] + pops os := by
  cases o <;> simp [pops, Nat.add_comm]

theorem run_content {ops : List (Queue.Op K)} : ∀ {q q' : Queue K} {outs},
    q.run ops = .ok (q', outs) →
    (outs ++ q'.entries).Perm (q.entries ++ added ops) ∧ outs.length = pops ops := by
  induction ops with
  | nil => intro q q' outs h; simp [run] at h; obtain ⟨rfl, rfl⟩ := h; simp [added, pops]
  | cons o os ih =>
    intro q q' outs h
    simp only [run] at h
    split at h
    · simp at h
    · next q1 out h1 =>
      split at h
      · simp at h
      · next q2 outs2 h2 =>
        simp only [Except.ok.injEq, Prod.mk.injEq] at h
        obtain ⟨p1, l1⟩ := step_content h1
        obtain ⟨p2, l2⟩ := ih h2
        rw [← h.1, ← h.2, added_cons, pops_cons]
        refine ⟨?_, by simp [l1, l2]⟩
        rw [List.append_assoc, ← List.append_assoc q.entries]
        refine (p2.append_left _).trans ?_
        rw [← List.append_assoc]
        exact p1.append_right _

/-- **C02.** Nothing is lost, duplicated or altered: popped entries plus remaining entries are, as a
multiset, the added entries; one entry is returned per pop; and `size()` is #added − #popped. -/
theorem C02_conservation (ops : List (Queue.Op K)) (q : Queue K) (popped : List (Int × K))
    (hrun : (Queue.init : Queue K).run ops = .ok (q, popped)) :
    (popped ++ q.entries).Perm (added ops) ∧ popped.length = pops ops ∧
      q.size + pops ops = (added ops).length := by
  obtain ⟨p, l⟩ := run_content hrun
  simp only [Queue.init, List.nil_append] at p
  refine ⟨p, l, ?_⟩
  have := p.length_eq
  simp only [List.length_append, size] at this ⊢
  omega

example : ∃ q popped, (Queue.init : Queue Int).run exampleOps = .ok (q, popped) ∧
    popped.length = 1 ∧ q.size = 3 := ⟨_, _, exampleOps_run, rfl, rfl⟩

/-! ## C03 -/

/-- **C03.** In a reachable sorted non-empty queue `pop_current` succeeds, returns the front entry
`at(0)`, whose time is at most that of every entry left, and leaves a sorted queue. -/
theorem C03_pop_min (ops : List (Queue.Op K)) (q : Queue K) (popped : List (Int × K))
    (hrun : (Queue.init : Queue K).run ops = .ok (q, popped)) (hs : q.isSorted = true)
    (hne : q.size ≠ 0) :
    ∃ e q', q.popCurrent = .ok (e, q') ∧ q.at_ 0 = .ok e ∧ q'.isSorted = true ∧
      q'.size + 1 = q.size ∧ ∀ x ∈ q'.entries, e.2 ≤ x.2 := by
  have h : Ordered q.entries := run_inv inv_init hrun hs
  obtain ⟨es, srt⟩ := q
  cases es with
  | nil => simp [size] at hne
  | cons e es =>
    refine ⟨e, ⟨es, srt⟩, rfl, ?_, hs, rfl, ?_⟩
    · exact (at_ok_iff _ (by decide)).2 ⟨le_refl _, rfl⟩
    · exact (List.pairwise_cons.1 h).1

theorem drain_run (l : List (Int × K)) (b : Bool) :
    (Queue.mk l b).run (popN l.length) = .ok (⟨[], b⟩, l) := by
  induction l with
  | nil => rfl
  | cons e es ih =>
    simp only [popN, List.length_cons, List.replicate_succ] at ih ⊢
    simp [run, step, popCurrent, ih]

/-- **C03**, draining: popping a reachable sorted queue `size()` times never fails, empties it, and
returns every entry, in non-decreasing order of time. -/
theorem C03_drain_sorted (ops : List (Queue.Op K)) (q : Queue K) (popped : List (Int × K))
    (hrun : (Queue.init : Queue K).run ops = .ok (q, popped)) (hs : q.isSorted = true) :
    ∃ q' out, q.run (popN q.size) = .ok (q', out) ∧ q'.size = 0 ∧ out.Perm q.entries ∧
      out.Pairwise fun a b => a.2 ≤ b.2 :=
  ⟨⟨[], q.sorted⟩, q.entries, drain_run q.entries q.sorted, rfl, List.Perm.refl _,
    run_inv inv_init hrun hs⟩

example : ∃ q popped, (Queue.init : Queue Int).run exampleOps = .ok (q, popped) ∧
    q.isSorted = true ∧ q.size ≠ 0 := ⟨_, _, exampleOps_run, rfl, by decide⟩

/-! ## C04 -/

theorem insertBefore_split (w : Int × K) {l : List (Int × K)} (h : Ordered l) :
    ∃ pre post, l = pre ++ post ∧ (∀ e ∈ pre, e.2 ≤ w.2) ∧ (∀ e ∈ post, w.2 < e.2) ∧
      insertBefore w l = pre ++ w :: post := by
  induction l with
  | nil => exact ⟨[], [], rfl, by simp, by simp, rfl⟩
  | cons e es ih =>
    rw [Ordered, List.pairwise_cons] at h
    by_cases hlt : w.2 < e.2
    · refine ⟨[], e :: es, rfl, by simp, ?_, by simp [insertBefore, hlt]⟩
      intro a ha
      rcases List.mem_cons.1 ha with rfl | ha
      · exact hlt
      · exact hlt.trans_le (h.1 a ha)
    · obtain ⟨pre, post, h1, h2, h3, h4⟩ := ih h.2
      refine ⟨e :: pre, post, by simp [h1], ?_, h3, by simp [insertBefore, hlt, h4]⟩
      intro a ha
      rcases List.mem_cons.1 ha with rfl | ha
      · exact not_lt.1 hlt
      · exact h2 a ha

/-- **C04.** On a reachable queue with `isSorted()`, `sortedAdd w` puts `w` after exactly the entries with
time ≤ its own and before exactly those with a larger time, keeping the others in order; and the queue
is still sorted. -/
theorem C04_sortedAdd_stable (ops : List (Queue.Op K)) (q : Queue K) (popped : List (Int × K))
    (hrun : (Queue.init : Queue K).run ops = .ok (q, popped)) (hs : q.isSorted = true)
    (w : Int × K) :
    (∃ pre post, q.entries = pre ++ post ∧ (∀ e ∈ pre, e.2 ≤ w.2) ∧ (∀ e ∈ post, w.2 < e.2) ∧
      (q.sortedAdd w).entries = pre ++ w :: post) ∧ (q.sortedAdd w).isSorted = true :=
  ⟨insertBefore_split w (run_inv inv_init hrun hs), hs⟩

/-- **C04**, first-in-first-out among equal times: two walkers added one after the other with the same
time end up next to each other, in the order they were added. -/
theorem C04_fifo (ops : List (Queue.Op K)) (q : Queue K) (popped : List (Int × K))
    (hrun : (Queue.init : Queue K).run ops = .ok (q, popped)) (hs : q.isSorted = true)
    (a b : Int × K) (hab : a.2 = b.2) :
    ∃ pre post, q.entries = pre ++ post ∧ (∀ e ∈ pre, e.2 ≤ a.2) ∧ (∀ e ∈ post, a.2 < e.2) ∧
      ((q.sortedAdd a).sortedAdd b).entries = pre ++ a :: b :: post := by
  obtain ⟨pre, post, h1, h2, h3, h4⟩ := insertBefore_split a (run_inv inv_init hrun hs)
  refine ⟨pre, post, h1, h2, h3, ?_⟩
  show insertBefore b (insertBefore a q.entries) = _
  rw [h4]
  clear h1 h4
  induction pre with
  | nil =>
    simp only [List.nil_append, insertBefore, hab, lt_irrefl, if_false]
    cases post with
    | nil => rfl
    | cons e es => simp [insertBefore, ← hab, h3 e (by simp)]
  | cons e es ih =>
    have : ¬ b.2 < e.2 := not_lt.2 (hab ▸ h2 e (by simp))
    simp only [List.cons_append, insertBefore, this, if_false]
    rw [ih fun x hx => h2 x (by simp [hx])]

example : ∃ q popped, (Queue.init : Queue Int).run exampleOps = .ok (q, popped) ∧
    q.isSorted = true ∧ ((q.sortedAdd (7, 4)).sortedAdd (8, 4)).entries =
      [(3, 4), (4, 4), (7, 4), (8, 4), (1, 5)] := ⟨_, _, exampleOps_run, rfl, rfl⟩

/-! ## C05 -/

section Loop
variable [AddCommMonoid K] [IsOrderedAddMonoid K]

theorem runLoop_main (is : List (LoopInput K)) (hd : ∀ i ∈ is, 0 ≤ i.dwell) :
    ∀ q : Queue K, Ordered q.entries → ∃ q' evs, runLoop q is = .ok (q', evs) ∧
      Ordered q'.entries ∧ q'.sorted = q.sorted ∧
      (evs.Pairwise fun a b => a.time ≤ b.time) ∧
      (∀ ev ∈ evs, ∀ x ∈ q'.entries, ev.time ≤ x.2) ∧
      (∀ t, (∀ x ∈ q.entries, t ≤ x.2) → ∀ ev ∈ evs, t ≤ ev.time) ∧
      (∀ t, (∀ x ∈ q.entries, t ≤ x.2) → ∀ x ∈ q'.entries, t ≤ x.2) ∧
      (q'.entries.map Prod.fst ++ (evs.filter (·.left)).map (·.walker)).Perm
        (q.entries.map Prod.fst) := by
  induction is with
  | nil => exact fun q hq => ⟨q, [], rfl, hq, rfl, by simp, by simp, by simp, fun t h => h, by simp⟩
  | cons i is ih =>
    intro q hq
    obtain ⟨es, b⟩ := q
    cases es with
    | nil => exact ⟨⟨[], b⟩, [], by simp [runLoop, size], hq, rfl, by simp, by simp, by simp,
        fun t h => h, by simp⟩
    | cons e es =>
      rw [Ordered, List.pairwise_cons] at hq
      have hi : 0 ≤ i.dwell := hd i (by simp)
      have ih := ih fun j hj => hd j (by simp [hj])
      by_cases hl : i.leaves
      · obtain ⟨q', evs, h1, h2, h3, h4, h5, h6, h7, h8⟩ := ih ⟨es, b⟩ hq.2
        refine ⟨q', ⟨e.1, e.2, true⟩ :: evs, ?_, h2, h3, ?_, ?_, ?_, ?_, ?_⟩
        · simp [runLoop, size, loopStep, popCurrent, hl, h1]
        · exact List.pairwise_cons.2 ⟨fun ev hev => h6 e.2 hq.1 ev hev, h4⟩
        · intro ev hev x hx
          rcases List.mem_cons.1 hev with rfl | hev
          · exact h7 e.2 hq.1 x hx
          · exact h5 ev hev x hx
        · intro t ht ev hev
          rcases List.mem_cons.1 hev with rfl | hev
          · exact ht e (by simp)
          · exact h6 t (fun x hx => ht x (by simp [hx])) ev hev
        · exact fun t ht => h7 t fun x hx => ht x (by simp [hx])
        · simp only [List.filter_cons, if_true, List.map_cons]
          exact List.perm_middle.trans (h8.cons e.1)
      · let w : Int × K := (e.1, e.2 + i.dwell)
        have hw : ∀ x ∈ insertBefore w es, e.2 ≤ x.2 := by
          intro x hx
          rcases List.mem_cons.1 ((insertBefore_perm w es).mem_iff.1 hx) with rfl | hx
          · exact le_add_of_nonneg_right hi
          · exact hq.1 x hx
        obtain ⟨q', evs, h1, h2, h3, h4, h5, h6, h7, h8⟩ :=
          ih ⟨insertBefore w es, b⟩ (insertBefore_ordered w hq.2)
        refine ⟨q', ⟨e.1, e.2, false⟩ :: evs, ?_, h2, h3, ?_, ?_, ?_, ?_, ?_⟩
        · simp only [w] at h1
          simp [runLoop, size, loopStep, popCurrent, hl, sortedAdd, h1]
        · exact List.pairwise_cons.2 ⟨fun ev hev => h6 e.2 hw ev hev, h4⟩
        · intro ev hev x hx
          rcases List.mem_cons.1 hev with rfl | hev
          · exact h7 e.2 hw x hx
          · exact h5 ev hev x hx
        · intro t ht ev hev
          rcases List.mem_cons.1 hev with rfl | hev
          · exact ht e (by simp)
          · exact h6 t (fun x hx => (ht e (by simp)).trans (hw x hx)) ev hev
        · exact fun t ht => h7 t fun x hx => (ht e (by simp)).trans (hw x hx)
        · simp only [List.filter_cons, Bool.false_eq_true, if_false, List.map_cons]
          exact h8.trans ((insertBefore_perm w es).map Prod.fst)

/-- **C05.** The event loop started on a reachable sorted queue never fails; the popped times are
non-decreasing and never exceed a time still queued; the queue stays sorted; and every walker is either
still queued or was recorded as leaving, exactly once. -/
theorem C05_time_monotone (ops : List (Queue.Op K)) (q : Queue K) (popped : List (Int × K))
    (hrun : (Queue.init : Queue K).run ops = .ok (q, popped)) (hs : q.isSorted = true)
    (is : List (LoopInput K)) (hd : ∀ i ∈ is, 0 ≤ i.dwell) :
    ∃ q' evs, runLoop q is = .ok (q', evs) ∧
      (evs.Pairwise fun a b => a.time ≤ b.time) ∧
      (∀ ev ∈ evs, ∀ x ∈ q'.entries, ev.time ≤ x.2) ∧
      q'.isSorted = true ∧ ObservedSorted q' ∧
      (q'.entries.map Prod.fst ++ (evs.filter (·.left)).map (·.walker)).Perm
        (q.entries.map Prod.fst) := by
  obtain ⟨q', evs, h1, h2, h3, h4, h5, -, -, h8⟩ := runLoop_main is hd q (run_inv inv_init hrun hs)
  refine ⟨q', evs, h1, h4, h5, h3.trans hs, ?_, h8⟩
  intro i j hi hj hij a b ha hb
  obtain ⟨hi0, ha⟩ := obs_get q' hi ha
  obtain ⟨hj0, hb⟩ := obs_get q' hj hb
  rcases eq_or_lt_of_le hij with rfl | hlt
  · rw [ha] at hb; rw [Option.some.inj hb]
  · obtain ⟨hi', rfl⟩ := List.getElem?_eq_some_iff.1 ha
    obtain ⟨hj', rfl⟩ := List.getElem?_eq_some_iff.1 hb
    exact List.pairwise_iff_getElem.1 h2 _ _ hi' hj' (by omega)

end Loop

example : ∃ q popped, (Queue.init : Queue Int).run exampleOps = .ok (q, popped) ∧
    q.isSorted = true ∧ ∃ q' evs, runLoop q [⟨3, false⟩, ⟨1, true⟩, ⟨0, false⟩] = .ok (q', evs) ∧
      evs.length = 3 ∧ q'.entries = [(1, 5), (3, 7)] :=
  ⟨_, _, exampleOps_run, rfl, _, _, rfl, rfl, rfl⟩

/-- Without the hypothesis on the dwell times the clock can run backwards, so it is needed: this is why
the dwell-time properties C33 and C36 matter. -/
theorem C05_needs_nonneg : ∃ (q : Queue Int) (is : List (LoopInput Int)) (q' : Queue Int)
    (evs : List (LoopEvent Int)), q.isSorted = true ∧ ObservedSorted q ∧
      runLoop q is = .ok (q', evs) ∧ ¬ evs.Pairwise (fun a b => a.time ≤ b.time) := by
  refine ⟨⟨[(1, 5)], true⟩, [⟨-3, false⟩, ⟨0, false⟩], _, _, rfl, ?_, rfl, by decide⟩
  exact (ordered_iff_observed ⟨[(1, 5)], true⟩ (by decide)).1 (by simp [Ordered])

/-! ## C06 -/

/-- **C06.** The only call that can go wrong is `pop_current` on an empty queue, and then it is undefined
behaviour. -/
theorem C06_only_empty_pop_fails (q : Queue K) (o : Queue.Op K) (f : Fault) :
    q.step o = .error f ↔ o = .pop ∧ q.size = 0 ∧ f = .ub .emptyPop := by
  obtain ⟨es, b⟩ := q
  cases o with
  | add w => simp [step]
  | sortedAdd w => simp [step]
  | sort s => simp [step]
  | pop => cases es <;> simp [step, popCurrent, size, eq_comm]

/-- **C06**, `at`: for every `int` index, `at(i)` returns the i-th entry when `0 ≤ i < size()` and throws
`std::out_of_range` otherwise (negative indices included). -/
theorem C06_at_range (q : Queue K) (i : Int) (hi : FitsInt i) :
    (∀ (_ : 0 ≤ i) (h : i < q.size), q.at_ i = .ok (q.entries[i.toNat]'(by simp only [size] at h; omega))) ∧
    (i < 0 ∨ (q.size : Int) ≤ i → q.at_ i = .error .outOfRange) := by
  constructor
  · intro h0 h1
    exact (at_ok_iff q hi).2 ⟨h0, by simp⟩
  · intro h
    cases hat : q.at_ i with
    | error f => rw [at_error q hat]
    | ok e =>
      obtain ⟨h0, h1⟩ := (at_ok_iff q hi).1 hat
      obtain ⟨h2, -⟩ := List.getElem?_eq_some_iff.1 h1
      simp only [size] at h
      omega

example : (Queue.init : Queue Int).step .pop = .error (.ub .emptyPop) := rfl
example : (⟨[(1, 5), (2, 6)], true⟩ : Queue Int).at_ 1 = .ok (2, 6) := rfl
example : (⟨[(1, 5), (2, 6)], true⟩ : Queue Int).at_ (-1) = .error .outOfRange := rfl

end Mythical
