import Verif.Lemmas.ClusterOrderStep
import Verif.Props.ClusterPick

/-! # Cluster property C89: the order of hash maps does not matter -/

set_option linter.unusedSectionVars false
set_option linter.unusedVariables false

namespace Mythical
open Cluster OrderSpec ClusterSpec SiteSpec
variable {K : Type} [Field K] [LinearOrder K] [IsStrictOrderedRing K] [FloorRing K]
variable {P I N : List (Int × K) → List (Int × K) → Prop}
variable {env env' : Env K} {mem : Addr → K} {c c' c1 c1' c2 c2' d d' : Cluster K} {id : Int}
variable {evs evs' : List ((Addr → K) × Op K × Out K)}

namespace OrderSpec.Same

theorem mixRight (h : Same P I N c c') (g : Reordered c' c2) : Same P I N c c2 where
  id := g.id.trans h.id
  visits := g.visits.trans h.visits
  prevVisits := g.prevVisits.trans h.prevVisits
  occupied := g.occupied.trans h.occupied
  tau := g.tau.trans h.tau
  internalTau := g.internalTau.trans h.internalTau
  timeInc := g.timeInc.trans h.timeInc
  resolution := g.resolution.trans h.resolution
  iterations := g.iterations.trans h.iterations
  tol := g.tol.trans h.tol
  method := g.method.trans h.method
  seed := g.seed.trans h.seed
  remaining := h.remaining.trans g.remaining
  sites := h.sites.trans g.sites
  probOn := h.probOn.trans g.probOn
  hopOff := h.hopOff.trans g.hopOff
  hopBetween := h.hopBetween.trans g.hopBetween
  sumEscape := h.sumEscape.trans g.sumEscape
  sumInternal := h.sumInternal.trans g.sumInternal
  internalDwell := h.internalDwell.trans g.internalDwell
  siteVisits := h.siteVisits.trans g.siteVisits
  probInternal := g.probInternal ▸ h.probInternal
  probNeigh := g.probNeigh ▸ h.probNeigh
  cumInternal := g.cumInternal ▸ h.cumInternal
  cumNeigh := g.cumNeigh ▸ h.cumNeigh

/-- Weaker relations of the tables. -/
theorem weaken {P' I' N' : List (Int × K) → List (Int × K) → Prop} (h : Same P I N c c')
    (p1 : P' c.probInternal c'.probInternal) (p2 : P' c.probNeigh c'.probNeigh) (i : I' c.cumInternal c'.cumInternal)
    (n : N' c.cumNeigh c'.cumNeigh) : Same P' I' N' c c' :=
  { h with probInternal := p1, probNeigh := p2, cumInternal := i, cumNeigh := n }

theorem toShuffled (h : Reordered c c') : Shuffled c c' :=
  h.weaken (h.probInternal ▸ .refl _) (h.probNeigh ▸ .refl _) trivial trivial

end OrderSpec.Same

theorem shuffled_rel {s s' : SortFn K} (fuel : Nat) :
    TableRel (K := K) ⟨s, fuel⟩ ⟨s', fuel⟩ List.Perm (fun _ _ => True) (fun _ _ => True) :=
  ⟨rfl, fun l l' h => (s.perm l).trans (h.trans (s'.perm l').symm), fun _ _ _ _ _ _ => trivial, fun _ _ _ _ _ _ => trivial⟩

theorem reordered_rel {s : SortFn K} (hs : Canonical s) (fuel : Nat) : TableRel (K := K) ⟨s, fuel⟩ ⟨s, fuel⟩ Eq Eq Eq :=
  ⟨rfl, hs, fun a a' l l' h hp => by rw [h]; dsimp only; rw [hs _ _ hp], fun a a' l l' h hp => by
    rw [h]; dsimp only; rw [hs _ _ hp]⟩

theorem prefix_rel {s s' : SortFn K} (fuel : Nat) (A A' B B' : List (Int × K)) :
    TableRel (K := K) ⟨s, fuel⟩ ⟨s', fuel⟩ List.Perm (fun a a' => ∃ x x', a = A ++ x ∧ a' = A' ++ x')
      (fun a a' => ∃ x x', a = B ++ x ∧ a' = B' ++ x') :=
  ⟨rfl, fun l l' h => (s.perm l).trans (h.trans (s'.perm l').symm),
    by
      rintro a a' l l' ⟨x, x', rfl, rfl⟩ _
      exact ⟨x ++ _, x' ++ _, List.append_assoc _ _ _, List.append_assoc _ _ _⟩, by
      rintro a a' l l' ⟨x, x', rfl, rfl⟩ _
      exact ⟨x ++ _, x' ++ _, List.append_assoc _ _ _, List.append_assoc _ _ _⟩⟩

/-- Two histories with the same calls. -/
theorem runs_same {S : SortFn K → Prop} {fuel : Nat} {R : Cluster K → Cluster K → Prop}
    (hR : ∀ s s', R s s' → ∃ P' I' N', Same P' I' N' s s')
    (hT : ∀ s s', S s → S s' → TableRel (K := K) ⟨s, fuel⟩ ⟨s', fuel⟩ P I N)
    (hr : Runs S fuel c evs d) (hr' : Runs S fuel c' evs' d') (h : Same P I N c c') (ha : SameArgs R evs evs') :
    Same P I N d d' ∧
    List.Forall₂ (fun a b => (¬ IsPick a.2.1 → b.2.2 = a.2.2) ∧ ((∀ l l', I l l' → l' = l) → (∀ l l', N l l' → l' = l) →
      b.2.2 = a.2.2)) evs evs' := by
  induction hr generalizing c' evs' with
  | nil h1 =>
    cases ha
    cases hr' with
    | nil h2 => exact ⟨h1.symm.mix (h.mixRight h2), .nil⟩
  | @cons c c0 c1 c' mem op r evs sort hs h1 hc _ ih =>
    cases ha with
    | cons hx hrest =>
      cases hr' with
      | cons sort' hs' h2 hc' ht' =>
        obtain ⟨hm, hop⟩ := hx
        dsimp only at hm hop
        subst hm
        have h0 := h1.symm.mix (h.mixRight h2)
        obtain ⟨r', c1', g1, g2, g3⟩ := h0.step hR (hT _ _ hs hs') hop hc
        rw [hc'] at g1
        cases g1
        obtain ⟨i1, i2⟩ := ih ht' g2 hrest
        refine ⟨i1, .cons ⟨g3.1, fun eI eN => ?_⟩ i2⟩
        by_cases hp : IsPick op
        · cases op with
          | pickNewSiteId w u =>
            have e1 := eI _ _ h0.cumInternal
            have e2 := eN _ _ h0.cumNeigh
            rcases g3.2 w u rfl with ⟨a1, a2⟩ | ⟨a1, a2⟩
            · dsimp only; rw [a1, a2, e1]
            · dsimp only; rw [a1, a2, e2]
          | _ => exact absurd hp id
        · exact g3.1 hp

/-- **C89, one call.** If a public call succeeds on a cluster, it succeeds on every cluster that differs only in the order
of its hash maps and of the entries of its tables, with whatever way of sorting, and leaves clusters behind that differ in
the same way. The results are the same, unless the call picks a site. -/
theorem C89_call {s s' : SortFn K} {fuel : Nat} (h : Shuffled c c') {op op' : Op K} (ho : SameCall Shuffled op op')
    {r : Out K} (hr : c.step ⟨s, fuel⟩ mem op = (.ok r, c1)) :
    ∃ r' c1', c'.step ⟨s', fuel⟩ mem op' = (.ok r', c1') ∧ Shuffled c1 c1' ∧ (¬ IsPick op → r' = r) := by
  obtain ⟨r', c1', h1, h2, h3⟩ := h.step (fun _ _ h => ⟨_, _, _, h⟩) (shuffled_rel fuel) ho hr
  exact ⟨r', c1', h1, h2, h3.1⟩

/-- **C89, histories.** Two histories with the same calls, in which the hash maps are put into any other order before every
call, and with any ways of sorting that may change from call to call: the results of all calls that do not pick a site are
the same, and the clusters at the end differ only in the order of their maps and tables. -/
theorem C89_history {fuel : Nat} (hr : Runs (fun _ => True) fuel c evs d) (hr' : Runs (fun _ => True) fuel c' evs' d')
    (h : Shuffled c c') (ha : SameArgs Shuffled evs evs') :
    SameCalls Shuffled false evs evs' ∧ Shuffled d d' := by
  obtain ⟨h1, h2⟩ := runs_same (fun _ _ h => ⟨_, _, _, h⟩) (fun _ _ _ _ => shuffled_rel fuel) hr hr' h ha
  refine ⟨?_, h1⟩
  clear hr hr' h h1
  induction ha with
  | nil => exact .nil
  | cons hx _ ih =>
    cases h2 with
    | cons hy hrest =>
      refine .cons ⟨hx.1, hx.2, fun hp => ?_⟩ (ih hrest)
      rcases hp with hp | hp
      · cases hp
      · exact (hy.1 hp).symm

/-- **C89, with ties broken by the ids.** If the sort does not let the order of its input show, the picked sites are the
same too. -/
theorem C89_canonical {fuel : Nat} {s : SortFn K} (hs : Canonical s) (hr : Runs (· = s) fuel c evs d)
    (hr' : Runs (· = s) fuel c' evs' d') (h : Reordered c c') (ha : SameArgs Reordered evs evs') :
    SameCalls Reordered true evs evs' ∧ Reordered d d' := by
  obtain ⟨h1, h2⟩ := runs_same (fun _ _ h => ⟨_, _, _, h⟩)
    (fun s1 s2 e1 e2 => by subst e1 e2; exact reordered_rel hs fuel) hr hr' h ha
  refine ⟨?_, h1⟩
  clear hr hr' h h1
  induction ha with
  | nil => exact .nil
  | cons hx _ ih =>
    cases h2 with
    | cons hy hrest =>
      exact .cons ⟨hx.1, hx.2, fun _ => (hy.2 (fun _ _ e => e.symm) fun _ _ e => e.symm).symm⟩ (ih hrest)

theorem Cluster.Table.perm {l l' : List (Int × K)} {S : Finset Int} {w : Int → K} (T : Table l S w) (h : l.Perm l') : Table l' S w :=
  ⟨(SameMap.mk T.wf h).wf', fun k => by rw [← (SameMap.mk T.wf h).keys.mem_iff]; exact T.keys k,
    fun k hk => by rw [(SameMap.mk T.wf h).get?]; exact T.get k hk, fun np hn => T.pos np (h.mem_iff.2 hn),
    by rw [← T.one]; exact ((h.map _).sum_eq).symm⟩

/-- Of two cumulative tables made from the same probabilities every element is picked with the same probability. -/
theorem same_law {l l' x x' : List (Int × K)} {S : Finset Int} {w : Int → K} (T : Table l S w) (h : l.Perm l') (k : Int) :
    ∃ lo lo' len : K, 0 ≤ lo ∧ lo + len ≤ 1 ∧ 0 ≤ lo' ∧ lo' + len ≤ 1 ∧ ∀ u, Draw u →
      (pickCum u (cumulate 0 l ++ x) = k ↔ lo ≤ u ∧ u < lo + len) ∧
      (pickCum u (cumulate 0 l' ++ x') = k ↔ lo' ≤ u ∧ u < lo' + len) := by
  have T' := T.perm h
  have red : ∀ {l : List (Int × K)} (T : Table l S w) (x : List (Int × K)) (u : K), Draw u →
      pickCum u (cumulate 0 l ++ x) = Site.pickLoop u 0 l := fun T x u hu =>
    pickCum_append (fun np h => (T.pos np h).le) hu.1 (by rw [T.one, zero_add]; exact hu.2) x
  by_cases hk : k ∈ S
  · obtain ⟨lo, hi, a1, a2, a3, a4⟩ := table_interval T hk
    obtain ⟨lo', hi', b1, b2, b3, b4⟩ := table_interval T' hk
    have e1 : lo + w k = hi := by rw [← a3]; ring
    have e2 : lo' + w k = hi' := by rw [← b3]; ring
    refine ⟨lo, lo', w k, a1, by rw [e1]; exact a2, b1, by rw [e2]; exact b2, fun u hu => ?_⟩
    rw [red T x u hu, red T' x' u hu, e1, e2]
    exact ⟨a4 u hu, b4 u hu⟩
  · refine ⟨0, 0, 0, le_refl _, by rw [add_zero]; exact zero_le_one, le_refl _, by rw [add_zero]; exact zero_le_one,
      fun u hu => ?_⟩
    have no : ¬ ((0 : K) ≤ u ∧ u < 0 + 0) := fun h => absurd h.1 (not_le.2 (by simpa using h.2))
    have out : ∀ {l : List (Int × K)} (T : Table l S w), Site.pickLoop u 0 l ≠ k := by
      intro l T e
      exact hk ((T.keys k).1 (e ▸ Site.pickLoop_mem T.pos hu.1 (by rw [T.one, zero_add]; exact hu.2)))
    rw [red T x u hu, red T' x' u hu]
    exact ⟨⟨fun e => absurd e (out T), fun e => absurd e no⟩, ⟨fun e => absurd e (out T'), fun e => absurd e no⟩⟩

/-- **C89, the picks.** Whatever the order of the maps and the ways of sorting, before and after the first update, the
picks have the same law: for every site `n` the draws that pick it form an interval, and the two intervals, in the one
history and in the other, are equally long. -/
theorem C89_law {fuel : Nat} {s s' : SortFn K} {ops : List (Event K)} (ht : Trace ⟨s, fuel⟩ (Cluster.new id) ops c)
    (hn : NotUpdated ops) (hs : Sound mem c) (hm : Mutual mem c) (hx : HasExit mem c) (h : Reordered c c')
    (hu : c.update ⟨s, fuel⟩ mem = (.ok (), c1)) (hu' : c'.update ⟨s', fuel⟩ mem = (.ok (), c1'))
    (hr : Runs (fun _ => True) fuel c1 evs c2) (hr' : Runs (fun _ => True) fuel c1' evs' c2')
    (ha : SameArgs Shuffled evs evs') (w n : Int) :
    ∃ lo lo' len : K, 0 ≤ lo ∧ lo + len ≤ 1 ∧ 0 ≤ lo' ∧ lo' + len ≤ 1 ∧ ∀ u, Draw u → (w ∈ c2.remaining.keys →
      ((∃ d, c2.pickNewSiteId w u = .ok (n, d)) ↔ lo ≤ u ∧ u < lo + len) ∧
      ((∃ d, c2'.pickNewSiteId w u = .ok (n, d)) ↔ lo' ≤ u ∧ u < lo' + len)) := by
  obtain ⟨e, hs', -, hd, freqs, c0, hv, hreb⟩ := after_update ht hs hm hu
  have T := hreb.internal hs' hd
  have X := hreb.exit hs' hd (hx.congr e)
  obtain ⟨-, z1, z2⟩ := trace_first ht rfl hn
  have e0 : c0.cumInternal = c.cumInternal ∧ c0.cumNeigh = c.cumNeigh := by
    obtain ⟨⟨v, p, rfl⟩, -⟩ := hv; exact ⟨rfl, rfl⟩
  have i1 : c1.cumInternal = cumulate 0 c1.probInternal := by
    rw [hreb.cumInternal, e0.1, z1]; exact List.nil_append _
  have n1 : c1.cumNeigh = cumulate 0 c1.probNeigh := by
    rw [hreb.cumNeigh, e0.2, z2]; exact List.nil_append _
  obtain ⟨freqs', c0', -, hv', hreb'⟩ := update_ok hu'
  have e0' : c0'.cumInternal = c'.cumInternal ∧ c0'.cumNeigh = c'.cumNeigh := by
    obtain ⟨⟨v, p, rfl⟩, -⟩ := hv'; exact ⟨rfl, rfl⟩
  have i1' : c1'.cumInternal = cumulate 0 c1'.probInternal := by
    rw [hreb'.cumInternal, e0'.1, ← h.cumInternal, z1]; exact List.nil_append _
  have n1' : c1'.cumNeigh = cumulate 0 c1'.probNeigh := by
    rw [hreb'.cumNeigh, e0'.2, ← h.cumNeigh, z2]; exact List.nil_append _
  have h1 : Shuffled c1 c1' := by
    obtain ⟨⟨u, d⟩, g1, g2⟩ := h.toShuffled.update (env' := ⟨s', fuel⟩) (mem := mem) (shuffled_rel fuel) ((), c1) (both_eq.2 hu)
    have := both_eq.1 g1
    rw [hu'] at this
    cases this
    exact g2
  have h1' : Same List.Perm
      (fun a a' => ∃ x x', a = cumulate 0 c1.probInternal ++ x ∧ a' = cumulate 0 c1'.probInternal ++ x')
      (fun a a' => ∃ x x', a = cumulate 0 c1.probNeigh ++ x ∧ a' = cumulate 0 c1'.probNeigh ++ x') c1 c1' :=
    h1.weaken h1.probInternal h1.probNeigh ⟨[], [], by rw [i1, List.append_nil], by rw [i1', List.append_nil]⟩
      ⟨[], [], by rw [n1, List.append_nil], by rw [n1', List.append_nil]⟩
  obtain ⟨h2, -⟩ := runs_same (fun _ _ h => ⟨_, _, _, h⟩) (fun _ _ _ _ => prefix_rel fuel _ _ _ _) hr hr' h1' ha
  obtain ⟨x, x', ex, ex'⟩ := h2.cumInternal
  obtain ⟨y, y', ey, ey'⟩ := h2.cumNeigh
  have hpick : ∀ {c : Cluster K} {r : K} (hr : c.remaining.get? w = some r) (u : K), (∃ d, c.pickNewSiteId w u = .ok (n, d)) ↔
      (if 0 < r then pickCum u c.cumInternal else pickCum u c.cumNeigh) = n := by
    intro c r hr u
    unfold Cluster.pickNewSiteId
    rw [hr]
    simp only [gt_iff_lt]
    split
    · exact ⟨fun ⟨_, h⟩ => by cases h; rfl, fun h => ⟨c, by rw [h]⟩⟩
    · exact ⟨fun ⟨_, h⟩ => by cases h; rfl, fun h => ⟨_, by rw [h]⟩⟩
  by_cases hw : w ∈ c2.remaining.keys
  · obtain ⟨r, hr⟩ := IMap.mem_keys_iff_get?.1 hw
    have hr' : c2'.remaining.get? w = some r := by rw [h2.remaining.get?]; exact hr
    by_cases h0 : 0 < r
    · obtain ⟨lo, lo', len, a1, a2, a3, a4, a5⟩ := same_law (x := x) (x' := x') T h1.probInternal n
      refine ⟨lo, lo', len, a1, a2, a3, a4, fun u hu _ => ?_⟩
      rw [hpick hr, hpick hr', if_pos h0, if_pos h0, ex, ex']
      exact a5 u hu
    · obtain ⟨lo, lo', len, a1, a2, a3, a4, a5⟩ := same_law (x := y) (x' := y') X h1.probNeigh n
      refine ⟨lo, lo', len, a1, a2, a3, a4, fun u hu _ => ?_⟩
      rw [hpick hr, hpick hr', if_neg h0, if_neg h0, ey, ey']
      exact a5 u hu
  · exact ⟨0, 0, 0, le_refl _, by rw [add_zero]; exact zero_le_one, le_refl _, by rw [add_zero]; exact zero_le_one,
      fun u _ h => absurd h hw⟩

/-! ## Concrete cases -/

/-- All hash maps iterated backwards. -/
def backwards (c : Cluster K) : Cluster K :=
  { c with
    remaining := c.remaining.reverse, sites := c.sites.reverse, probOn := c.probOn.reverse, hopOff := c.hopOff.reverse,
    hopBetween := c.hopBetween.reverse, sumEscape := c.sumEscape.reverse, sumInternal := c.sumInternal.reverse,
    internalDwell := c.internalDwell.reverse, siteVisits := c.siteVisits.reverse }

/-- Every map of the cluster is one. -/
def AllMaps (c : Cluster K) : Prop :=
  c.remaining.keys.Nodup ∧ c.sites.keys.Nodup ∧ c.probOn.keys.Nodup ∧ c.hopOff.keys.Nodup ∧ c.hopBetween.keys.Nodup ∧
  c.sumEscape.keys.Nodup ∧ c.sumInternal.keys.Nodup ∧ c.internalDwell.keys.Nodup ∧ c.siteVisits.keys.Nodup

theorem reordered_backwards (h : AllMaps c) : Reordered c (backwards c) := by
  obtain ⟨h1, h2, h3, h4, h5, h6, h7, h8, h9⟩ := h
  have r : ∀ {V : Type} {m : IMap V}, m.keys.Nodup → SameMap m m.reverse := fun h => ⟨h, (List.reverse_perm _).symm⟩
  exact ⟨rfl, rfl, rfl, rfl, rfl, rfl, rfl, rfl, rfl, rfl, rfl, rfl, r h1, r h2, r h3, r h4, r h5, r h6, r h7, r h8, r h9,
    rfl, rfl, rfl, rfl⟩

/-- A sort that breaks ties by the site ids. -/
def tieSort : SortFn ℚ where
  f := List.insertionSort fun x y => y.2 < x.2 ∨ (y.2 = x.2 ∧ x.1 ≤ y.1)
  perm := List.perm_insertionSort _
  desc l := by
    have h1 : Std.Total fun x y : Int × ℚ => y.2 < x.2 ∨ (y.2 = x.2 ∧ x.1 ≤ y.1) := ⟨fun a b => by
      rcases lt_trichotomy a.2 b.2 with h | h | h
      · exact .inr (.inl h)
      · rcases le_total a.1 b.1 with h' | h'
        · exact .inl (.inr ⟨h.symm, h'⟩)
        · exact .inr (.inr ⟨h, h'⟩)
      · exact .inl (.inl h)⟩
    have h2 : IsTrans (Int × ℚ) fun x y : Int × ℚ => y.2 < x.2 ∨ (y.2 = x.2 ∧ x.1 ≤ y.1) := ⟨fun a b d hab hbd => by
      rcases hab with h | ⟨h, h'⟩ <;> rcases hbd with g | ⟨g, g'⟩
      · exact .inl (g.trans h)
      · exact .inl (g ▸ h)
      · exact .inl (h ▸ g)
      · exact .inr ⟨g.trans h, h'.trans g'⟩⟩
    refine (List.pairwise_insertionSort _ l).imp fun {x y} h => ?_
    rcases h with h | ⟨h, -⟩
    · exact h.le
    · exact h.le

theorem tieSort_canonical : Canonical tieSort := by
  intro l l' h
  have h1 : Std.Total fun x y : Int × ℚ => y.2 < x.2 ∨ (y.2 = x.2 ∧ x.1 ≤ y.1) := ⟨fun a b => by
    rcases lt_trichotomy a.2 b.2 with h | h | h
    · exact .inr (.inl h)
    · rcases le_total a.1 b.1 with h' | h'
      · exact .inl (.inr ⟨h.symm, h'⟩)
      · exact .inr (.inr ⟨h, h'⟩)
    · exact .inl (.inl h)⟩
  have h2 : IsTrans (Int × ℚ) fun x y : Int × ℚ => y.2 < x.2 ∨ (y.2 = x.2 ∧ x.1 ≤ y.1) := ⟨fun a b d hab hbd => by
    rcases hab with h | ⟨h, h'⟩ <;> rcases hbd with g | ⟨g, g'⟩
    · exact .inl (g.trans h)
    · exact .inl (g ▸ h)
    · exact .inl (h ▸ g)
    · exact .inr ⟨g.trans h, h'.trans g'⟩⟩
  refine List.Perm.eq_of_pairwise (le := fun x y : Int × ℚ => y.2 < x.2 ∨ (y.2 = x.2 ∧ x.1 ≤ y.1)) ?_
    (List.pairwise_insertionSort _ l) (List.pairwise_insertionSort _ l')
    ((List.perm_insertionSort _ l).trans (h.trans (List.perm_insertionSort _ l').symm))
  rintro a b - - hab hba
  rcases hab with g | ⟨g, g'⟩ <;> rcases hba with k | ⟨k, k'⟩
  · exact absurd (g.trans k) (lt_irrefl _)
  · exact absurd g (by rw [k]; exact lt_irrefl _)
  · exact absurd k (by rw [g]; exact lt_irrefl _)
  · exact Prod.ext (le_antisymm g' k') k

instance (c : Cluster ℚ) : Decidable (AllMaps c) := by unfold AllMaps; infer_instance

/-- The concrete cluster, before its first update, with its maps in the one order and in the other. -/
theorem wit_backwards : Reordered witC0 (backwards witC0) := reordered_backwards (by decide +kernel)

/-- Run calls with fixed rates, putting the maps of the cluster into another order before every call. `none` if a call
fails. -/
def runTurned (sort : SortFn ℚ) (turn : Cluster ℚ → Cluster ℚ) (mem : Addr → ℚ) :
    Cluster ℚ → List (Op ℚ) → Option (List ((Addr → ℚ) × Op ℚ × Out ℚ) × Cluster ℚ)
  | c, [] => if AllMaps c then some ([], c) else none
  | c, op :: ops =>
    if AllMaps c then
      match (turn c).step ⟨sort, 100⟩ mem op with
      | (.ok r, c1) => (runTurned sort turn mem c1 ops).map fun x => ((mem, op, r) :: x.1, x.2)
      | (.error _, _) => none
    else none

theorem reordered_refl (h : AllMaps c) : Reordered c c := by
  obtain ⟨h1, h2, h3, h4, h5, h6, h7, h8, h9⟩ := h
  exact ⟨rfl, rfl, rfl, rfl, rfl, rfl, rfl, rfl, rfl, rfl, rfl, rfl, ⟨h1, .refl _⟩, ⟨h2, .refl _⟩, ⟨h3, .refl _⟩,
    ⟨h4, .refl _⟩, ⟨h5, .refl _⟩, ⟨h6, .refl _⟩, ⟨h7, .refl _⟩, ⟨h8, .refl _⟩, ⟨h9, .refl _⟩, rfl, rfl, rfl, rfl⟩

theorem runTurned_runs {S : SortFn ℚ → Prop} {sort : SortFn ℚ} {turn : Cluster ℚ → Cluster ℚ} {mem : Addr → ℚ}
    (hS : S sort) (ht : ∀ c, AllMaps c → Reordered c (turn c)) {ops : List (Op ℚ)} {c : Cluster ℚ} {x}
    (h : runTurned sort turn mem c ops = some x) : Runs S 100 c x.1 x.2 := by
  induction ops generalizing c x with
  | nil =>
    unfold runTurned at h
    split at h
    · rename_i hm; cases h; exact .nil (reordered_refl hm)
    · cases h
  | cons op ops ih =>
    unfold runTurned at h
    split at h
    · rename_i hm
      split at h
      · rename_i r c1 hc
        cases hx : runTurned sort turn mem c1 ops with
        | none => rw [hx] at h; cases h
        | some y =>
          rw [hx] at h
          cases h
          exact .cons sort hS (ht _ hm) hc (ih hx)
      · cases h
    · cases h

theorem runTurned_args {R : Cluster ℚ → Cluster ℚ → Prop} {sort sort' : SortFn ℚ} {turn turn' : Cluster ℚ → Cluster ℚ}
    {mem : Addr → ℚ} {ops : List (Op ℚ)} (ho : ∀ op ∈ ops, ∀ src, op ≠ .migrateSitesFrom src) {c c' : Cluster ℚ} {x x'}
    (h : runTurned sort turn mem c ops = some x) (h' : runTurned sort' turn' mem c' ops = some x') :
    SameArgs R x.1 x'.1 := by
  induction ops generalizing c c' x x' with
  | nil =>
    unfold runTurned at h h'
    split at h
    · split at h'
      · cases h; cases h'; exact .nil
      · cases h'
    · cases h
  | cons op ops ih =>
    unfold runTurned at h h'
    split at h
    · split at h'
      · split at h
        · split at h'
          · rename_i _ _ r c1 hc _ r' c1' hc'
            cases hx : runTurned sort turn mem c1 ops with
            | none => rw [hx] at h; cases h
            | some y =>
              cases hx' : runTurned sort' turn' mem c1' ops with
              | none => rw [hx'] at h'; cases h'
              | some y' =>
                rw [hx] at h
                rw [hx'] at h'
                cases h
                cases h'
                exact .cons ⟨rfl, .same _ (ho _ (List.mem_cons_self ..))⟩ (ih (fun o h => ho o (List.mem_cons_of_mem _ h)) hx hx')
          · cases h'
        · cases h
      · cases h'
    · cases h

/-- Two sites that are alike: each has a rate of 1 to the other and a rate of 1 to site 3. -/
def twins : Cluster ℚ := (runOps witEnv witRates (Cluster.new 0) [.addSites [witSite 1 [(2, 0), (3, 1)], witSite 2 [(1, 2), (3, 3)]]]).2

/-- Calls on it: the update, the arrival of walker 7 and a pick for it, a visit, and a second update. -/
def twinCalls : List (Op ℚ) :=
  [.update, .getDwellTime 7 1, .pickNewSiteId 7 (1/4), .occupySite 1, .vacateSite 1, .getVisitFrequency 2, .update,
   .getDwellTime 7 1, .pickNewSiteId 7 (3/4)]

theorem twinCalls_plain : ∀ op ∈ twinCalls, ∀ src, op ≠ .migrateSitesFrom src := by
  intro op ho src
  simp only [twinCalls, List.mem_cons, List.not_mem_nil, or_false] at ho
  rcases ho with rfl | rfl | rfl | rfl | rfl | rfl | rfl | rfl | rfl <;> exact nofun

/-- The sites picked in a history. -/
def pickedSites : List ((Addr → ℚ) × Op ℚ × Out ℚ) → List Int
  | [] => []
  | (_, .pickNewSiteId _ _, .num n) :: l => n :: pickedSites l
  | _ :: l => pickedSites l

/-- The history of the twins with the maps as they are and a stable sort. -/
def twinsForth := runTurned witSort (fun c => c) witRates twins twinCalls
/-- The same, the maps turned around before every call. -/
def twinsBack := runTurned witSort backwards witRates twins twinCalls
/-- Both histories with the sort that breaks ties by the ids. -/
def twinsForth' := runTurned tieSort (fun c => c) witRates twins twinCalls
/-- See above. -/
def twinsBack' := runTurned tieSort backwards witRates twins twinCalls

/-- **C89, ties.** With a stable sort, as any other that leaves equal elements in an order that depends on the input, the
order of the hash maps does decide which of two equally likely sites a given draw picks. So neither exception of
`C89_history` for the picks nor the hypothesis on the sort in `C89_canonical` can be dropped. -/
theorem C89_tie_counterexample : ∃ evs evs' : List ((Addr → ℚ) × Op ℚ × Out ℚ), ∃ d d' : Cluster ℚ,
    Runs (· = witSort) 100 twins evs d ∧ Runs (· = witSort) 100 twins evs' d' ∧ SameArgs Reordered evs evs' ∧
    pickedSites evs = [1, 2] ∧ pickedSites evs' = [2, 1] := by
  have hs : twinsForth.isSome = true := by decide +kernel
  have hs' : twinsBack.isSome = true := by decide +kernel
  obtain ⟨x, hx⟩ := Option.isSome_iff_exists.1 hs
  obtain ⟨x', hx'⟩ := Option.isSome_iff_exists.1 hs'
  have p : (twinsForth.map fun x => pickedSites x.1) = some [1, 2] := by decide +kernel
  have p' : (twinsBack.map fun x => pickedSites x.1) = some [2, 1] := by decide +kernel
  rw [hx] at p
  rw [hx'] at p'
  exact ⟨x.1, x'.1, x.2, x'.2, runTurned_runs (S := (· = witSort)) rfl (fun _ h => reordered_refl h) hx,
    runTurned_runs (S := (· = witSort)) rfl (fun _ h => reordered_backwards h) hx', runTurned_args twinCalls_plain hx hx', Option.some.inj p,
    Option.some.inj p'⟩

theorem step_update_ok (h : (c.update env mem).1 = .ok ()) : ∃ d, c.step env mem .update = (.ok .unit, d) := by
  refine ⟨(c.update env mem).2, ?_⟩
  unfold Cluster.step
  dsimp only
  split
  · rename_i e; rw [e]
  · rename_i e; rw [e] at h; cases h

/-- The hypotheses of `C89_call`: the same cluster before its first update, all maps turned around, another sort. The order
of the maps is really another. -/
example : Shuffled twins (backwards twins) ∧ (backwards twins).sites ≠ twins.sites ∧
    SameCall Shuffled (.update : Op ℚ) .update ∧ ∃ d, twins.step ⟨witSort, 100⟩ witRates .update = (.ok .unit, d) := by
  have h : (twins.update ⟨witSort, 100⟩ witRates).1 = .ok () := by decide +kernel
  have h2 := step_update_ok h
  have h3 : SameCall Shuffled (.update : Op ℚ) .update := .same .update (fun _ h => by cases h)
  have h4 : Reordered twins (backwards twins) := reordered_backwards (by decide +kernel)
  exact ⟨h4.toShuffled, by decide +kernel, h3, h2⟩

/-- The hypotheses of `C89_history`, with two ways of sorting. -/
example : ∃ evs evs' : List ((Addr → ℚ) × Op ℚ × Out ℚ), ∃ d d' : Cluster ℚ, evs.length = 9 ∧
    Runs (fun _ => True) 100 twins evs d ∧ Runs (fun _ => True) 100 twins evs' d' ∧ Shuffled twins twins ∧
    SameArgs Shuffled evs evs' ∧ d.sites ≠ d'.sites := by
  have hs : twinsForth'.isSome = true := by decide +kernel
  have hs' : twinsBack.isSome = true := by decide +kernel
  obtain ⟨x, hx⟩ := Option.isSome_iff_exists.1 hs
  obtain ⟨x', hx'⟩ := Option.isSome_iff_exists.1 hs'
  have p : (twinsForth'.map fun x => x.1.length) = some 9 := by decide +kernel
  have q : (twinsForth'.map fun x => x.2.sites) ≠ twinsBack.map fun x => x.2.sites := by decide +kernel
  rw [hx] at p
  rw [hx, hx'] at q
  exact ⟨x.1, x'.1, x.2, x'.2, Option.some.inj p, runTurned_runs trivial (fun _ h => reordered_refl h) hx,
    runTurned_runs trivial (fun _ h => reordered_backwards h) hx', (reordered_refl (by decide +kernel)).toShuffled,
    runTurned_args twinCalls_plain hx hx', fun e => q (congrArg some e)⟩

/-- The hypotheses of `C89_canonical`, and what it says: the same sites are picked. -/
example : ∃ evs evs' : List ((Addr → ℚ) × Op ℚ × Out ℚ), ∃ d d' : Cluster ℚ, Canonical tieSort ∧
    Runs (· = tieSort) 100 twins evs d ∧ Runs (· = tieSort) 100 twins evs' d' ∧ Reordered twins twins ∧
    SameArgs Reordered evs evs' ∧ pickedSites evs = [1, 2] ∧ pickedSites evs' = [1, 2] := by
  have hs : twinsForth'.isSome = true := by decide +kernel
  have hs' : twinsBack'.isSome = true := by decide +kernel
  obtain ⟨x, hx⟩ := Option.isSome_iff_exists.1 hs
  obtain ⟨x', hx'⟩ := Option.isSome_iff_exists.1 hs'
  have p : (twinsForth'.map fun x => pickedSites x.1) = some [1, 2] := by decide +kernel
  have p' : (twinsBack'.map fun x => pickedSites x.1) = some [1, 2] := by decide +kernel
  rw [hx] at p
  rw [hx'] at p'
  exact ⟨x.1, x'.1, x.2, x'.2, tieSort_canonical, runTurned_runs (S := (· = tieSort)) rfl (fun _ h => reordered_refl h) hx,
    runTurned_runs (S := (· = tieSort)) rfl (fun _ h => reordered_backwards h) hx', reordered_refl (by decide +kernel),
    runTurned_args twinCalls_plain hx hx', Option.some.inj p, Option.some.inj p'⟩

/-- The hypotheses of `C89_law`: the history up to the first update, and the calls after it. -/
example : ∃ c1 c1' : Cluster ℚ, ∃ evs evs' : List ((Addr → ℚ) × Op ℚ × Out ℚ), ∃ c2 c2' : Cluster ℚ,
    Trace ⟨witSort, 100⟩ (Cluster.new 0) witEvs witC0 ∧ NotUpdated witEvs ∧ Sound witRates witC0 ∧ Mutual witRates witC0 ∧
    HasExit witRates witC0 ∧ Reordered witC0 (backwards witC0) ∧ witC0.update ⟨witSort, 100⟩ witRates = (.ok (), c1) ∧
    (backwards witC0).update ⟨tieSort, 100⟩ witRates = (.ok (), c1') ∧
    Runs (fun _ => True) 100 c1 evs c2 ∧ Runs (fun _ => True) 100 c1' evs' c2' ∧ SameArgs Shuffled evs evs' ∧
    (7 : Int) ∈ c2.remaining.keys := by
  have ho : ∀ op ∈ [(.getDwellTime 7 1 : Op ℚ), .update], ∀ src, op ≠ .migrateSitesFrom src := by
    intro op ho src
    simp only [List.mem_cons, List.not_mem_nil, or_false] at ho
    rcases ho with rfl | rfl <;> exact nofun
  have hn : NotUpdated witEvs := by
    intro ev hev
    simp only [witEvs, witOps, runOps, List.mem_singleton] at hev
    rw [hev]
    trivial
  have hs : (runTurned witSort (fun c => c) witRates witC1 [.getDwellTime 7 1, .update]).isSome = true := by decide +kernel
  have hs' : (runTurned witSort backwards witRates ((backwards witC0).update ⟨tieSort, 100⟩ witRates).2
    [.getDwellTime 7 1, .update]).isSome = true := by decide +kernel
  obtain ⟨x, hx⟩ := Option.isSome_iff_exists.1 hs
  obtain ⟨x', hx'⟩ := Option.isSome_iff_exists.1 hs'
  have p : ((runTurned witSort (fun c => c) witRates witC1 [.getDwellTime 7 1, .update]).map fun x => x.2.remaining.keys) =
    some [7] := by decide +kernel
  rw [hx] at p
  have p := Option.some.inj p
  dsimp only at p
  exact ⟨witC1, ((backwards witC0).update ⟨tieSort, 100⟩ witRates).2, x.1, x'.1, x.2, x'.2, witC0_trace, hn,
    witC0_sound, witC0_mutual, witC0_exit, wit_backwards, witC1_update, by decide +kernel,
    runTurned_runs trivial (fun _ h => reordered_refl h) hx, runTurned_runs trivial (fun _ h => reordered_backwards h) hx',
    runTurned_args ho hx hx', by rw [p]; decide⟩

end Mythical
