import Verif.Lemmas.SystemSeeds
import Verif.Lemmas.SystemWitness

/-! # Initialisation of a system (C51, C52) -/

set_option linter.unusedSectionVars false
set_option linter.unusedVariables false

namespace Mythical
open World SystemSpec
variable {K : Type} [Field K] [LinearOrder K] [IsStrictOrderedRing K] [FloorRing K]

theorem World.known_iff {w : World K} {i : Int} : Known w i ↔ w.sites.get? i ≠ none := by
  unfold Known getClusterIdOfSite
  cases h : w.sites.get? i with
  | none => simp only [getClusterIdOfSite_none h]; simp
  | some s => simp only [getClusterIdOfSite_of h]; simp

theorem World.mentions_iff {m : IMap (IMap Addr)} {i : Int} :
    Mentions m i ↔ i ∈ m.keys ∨ ∃ ir ∈ m, i ∈ IMap.keys ir.2 := by
  unfold Mentions IMap.keys
  simp only [List.mem_map]
  constructor
  · rintro ⟨ir, hm, h | ⟨na, hn, h⟩⟩
    · exact .inl ⟨ir, hm, h⟩
    · exact .inr ⟨ir, hm, na, hn, h⟩
  · rintro (⟨ir, hm, h⟩ | ⟨ir, hm, na, hn, h⟩)
    · exact ⟨ir, hm, .inl h⟩
    · exact ⟨ir, hm, .inr ⟨na, hn, h⟩⟩

/-- **C51.** `initializeSystem`, called anywhere in a history whose hops return, with a rate map `m`:
* without a time resolution it throws, and changes nothing;
* if it returns, exactly the sites mentioned by `m` have become known. They have not been known before; each is in no
  cluster, reported as visited 0 times and as not occupied, and has the rates given by `m` and no others. All that could be
  asked about the sites known before is unchanged.
* it returns if the time resolution is set, no mentioned site is known, and for each site in `m` there is a rate and all
  rates are positive. -/
theorem C51 (env : Env K) (n : Nat) (evs : List (Event K)) (w : World K) (ht : Trace env (World.new n) evs w)
    (hu : HopsReturn evs) (before after : List (Event K)) (ev : Event K) (he : evs = before ++ ev :: after)
    (m : IMap (IMap Addr)) (hop : ev.op = .initializeSystem m) (hm : m.WF) (hm' : ∀ ir ∈ m, ir.2.WF) :
    (ev.pre.timeRes = none → ev.res = .error .runtimeError ∧ ev.post = ev.pre) ∧
    (∀ r, ev.res = .ok r → ∀ i, (Known ev.post i ↔ Known ev.pre i ∨ Mentions m i) ∧
      (Mentions m i → ¬ Known ev.pre i ∧ ev.post.getClusterIdOfSite i = .ok unassignedId ∧
        (ev.post.getVisitFrequencyOfSite i).1 = .ok 0 ∧ ev.post.isOccupiedAt (ev.post.feat i) i = .ok false ∧
        ∀ j a, (j, a) ∈ ratesOf ev.post i ↔ ∃ ir ∈ m, ir.1 = i ∧ (j, a) ∈ ir.2) ∧
      (Known ev.pre i → ev.post.getClusterIdOfSite i = ev.pre.getClusterIdOfSite i ∧
        (ev.post.getVisitFrequencyOfSite i).1 = (ev.pre.getVisitFrequencyOfSite i).1 ∧
        ev.post.isOccupiedAt (ev.post.feat i) i = ev.pre.isOccupiedAt (ev.pre.feat i) i ∧
        ratesOf ev.post i = ratesOf ev.pre i)) ∧
    (ev.pre.timeRes ≠ none → (∀ i, Mentions m i → ¬ Known ev.pre i) →
      (∀ ir ∈ m, ir.2 ≠ [] ∧ ∀ na ∈ ir.2, 0 < ev.mem na.2) → ∃ r, ev.res = .ok r) := by
  obtain ⟨h1, hstep, hgo, -⟩ := ht.prefix he
  have hub : HopsReturn before := fun e hm => hu e (by rw [he]; exact List.mem_append_left _ hm)
  have hst := h1.struct hub
  have hst' : Struct env ev.post := hst.call hstep hgo (by rw [hop]; rintro _ _ _ ⟨⟩)
  rw [hop] at hstep
  simp only [step, Prod.mk.injEq] at hstep
  obtain ⟨hres, hpost⟩ := hstep
  refine ⟨?_, ?_, ?_⟩
  · intro hn
    have : ev.pre.initializeSystem ev.mem m = (.error .runtimeError, ev.pre) := by unfold initializeSystem; rw [hn]
    rw [this] at hres hpost
    exact ⟨hres.symm, hpost.symm⟩
  · intro r hr i
    have hret : ev.pre.initializeSystem ev.mem m = (.ok (), ev.post) := by
      refine Prod.ext ?_ hpost
      rw [hr] at hres
      cases hh : (ev.pre.initializeSystem ev.mem m).1 with
      | ok u => rfl
      | error e => rw [hh] at hres; cases hres
    have ha : Adds ev.mem m ev.pre ev.post := by rw [← hpost]; exact initializeSystem_adds
    obtain ⟨k1, k2⟩ := initializeSystem_known hret i
    rw [known_iff, known_iff, mentions_iff]
    refine ⟨k1, ?_, ?_⟩
    · intro hi
      have hnew := k2 hi
      obtain ⟨s, hs⟩ := Option.ne_none_iff_exists'.1 (k1.2 (.inr hi))
      refine ⟨by simpa using hnew, ?_⟩
      rcases ha.sites hs with h | ⟨hid, -, sd, hn⟩
      · rw [hnew] at h; cases h
      obtain ⟨f1, f2, f3⟩ := hn.fresh
      have hf := hst'.lone i s hs f1
      refine ⟨?_, ?_, ?_, ?_⟩
      · show ev.post.sites.getClusterIdOfSite i = _
        rw [getClusterIdOfSite_of hs, f1]
      · unfold getVisitFrequencyOfSite
        rw [hs]
        simp only [Site.partOfCluster, f1, f3]
        rw [if_neg (by simp [unassignedId, INT_MIN])]
      · rw [feat_of hf]
        simp [isOccupiedAt, siteOf, hs, ok_bind, Site.isOccupied, f2]
      · intro j a
        unfold ratesOf
        rw [hs]
        simp only
        by_cases hk : ∃ rates, (s.id, rates) ∈ m
        · obtain ⟨rates, hk⟩ := hk
          have hr := hn.rates hm hk (hm' _ hk)
          rw [← IMap.get?_eq_some_iff hn.site.1, hr, IMap.get?_eq_some_iff (hm' _ hk)]
          rw [hid] at hk
          constructor
          · intro h; exact ⟨_, hk, rfl, h⟩
          · rintro ⟨⟨i', rates'⟩, h1, rfl, h2⟩
            have e1 := IMap.get?_of_mem hm hk
            rw [IMap.get?_of_mem hm h1] at e1
            cases e1
            exact h2
        · rcases hn with ⟨rates, s0, hmm, -⟩ | ⟨e, -⟩
          · exact absurd ⟨_, hmm⟩ hk
          · rw [e]
            constructor
            · intro h; cases h
            · rintro ⟨⟨i', rates'⟩, h1, rfl, h2⟩
              exact absurd ⟨rates', by rw [hid]; exact h1⟩ hk
    · intro hi
      obtain ⟨s, hs⟩ := Option.ne_none_iff_exists'.1 hi
      have hs' := ha.old hs
      have hc := ha.clusters
      refine ⟨?_, ?_, ?_, ?_⟩
      · show ev.post.sites.getClusterIdOfSite i = ev.pre.sites.getClusterIdOfSite i
        rw [getClusterIdOfSite_of hs', getClusterIdOfSite_of hs]
      · unfold getVisitFrequencyOfSite
        rw [hs, hs', hc]
        simp only
        split
        · split
          · rfl
          · split <;> rfl
        · rfl
      · have hf : ev.post.feat i = ev.pre.feat i := by
          by_cases hu : s.clusterId = unassignedId
          · rw [feat_of (hst'.lone i s hs' hu), feat_of (hst.lone i s hs hu)]
          · rw [feat_of (hst'.joined i s hs' hu).1, feat_of (hst.joined i s hs hu).1]
        rw [hf]
        rcases hst.feat_cases i with ⟨h, -⟩ | ⟨t, h, ht, -⟩ | ⟨t, h, -⟩ <;> rw [h]
        · rfl
        · simp only [isOccupiedAt, siteOf, ht, ha.old ht]
        · simp only [isOccupiedAt, clusterOf, hc]
      · unfold ratesOf; rw [hs, hs']
  · intro htr hnew hr
    obtain ⟨w', h⟩ := initializeSystem_total (w := ev.pre) (mem := ev.mem) hm (fun ir h => ⟨hm' ir h, hr ir h⟩) htr fun i hi => by
      have := hnew i (mentions_iff.2 hi)
      rw [known_iff] at this
      simpa using this
    rw [h] at hres
    exact ⟨0, hres.symm⟩

/-- The hypotheses of `C51` are met by the initialisation in a history with hops and clusters, which returns. -/
example : HopsReturn sysEvs ∧ sysEvs[3]'(by decide +kernel) ∈ sysEvs ∧ (sysEvs[3]'(by decide +kernel)).op = .initializeSystem sysMap ∧
    sysMap.WF ∧ (∀ ir ∈ sysMap, IMap.WF ir.2) ∧ (sysEvs[3]'(by decide +kernel)).res = .ok 0 ∧ Mentions sysMap 4 ∧
    Known (sysEvs[3]'(by decide +kernel)).post 4 :=
  ⟨sysUsage.hopsReturn, List.getElem_mem _, rfl, by decide +kernel, by decide +kernel, by decide +kernel,
    ⟨_, List.mem_cons_of_mem _ (List.mem_cons_of_mem _ (List.mem_cons_self ..)), .inr ⟨(4, 2), by decide, rfl⟩⟩,
    ⟨unassignedId, by decide +kernel⟩⟩

/-- A second call that mentions a known site throws, after it has made other sites known. -/
example : ((sysEvs[3]'(by decide +kernel)).post.initializeSystem sysRates [(7, [(8, 1)]), (1, [(7, 1)])]).1 = .error .invalidArgument ∧
    Known ((sysEvs[3]'(by decide +kernel)).post.initializeSystem sysRates [(7, [(8, 1)]), (1, [(7, 1)])]).2 7 :=
  ⟨by decide +kernel, unassignedId, by decide +kernel⟩

/-- **C52.** Once `setRandomSeed n` has returned (and until it is called again), every site with rates and every cluster has
its own number `k`, and its stream is seeded with `n + k` modulo `2^32`. So the seeds of two different streams are different
as long as no more than `2^32` seeds have been used. -/
theorem C52 (env : Env K) (n0 : Nat) (evs : List (Event K)) (w : World K) (ht : Trace env (World.new n0) evs w)
    (hu : HopsReturn evs) (before after : List (Event K)) (ev : Event K) (he : evs = before ++ ev :: after) (n : Nat) (r : Int)
    (hop : ev.op = .setRandomSeed n) (hres : ev.res = .ok r)
    (hlast : ∀ e ∈ after, ∀ n', e.op = .setRandomSeed n' → ∀ r', e.res ≠ .ok r') :
    (∃ k : Int ⊕ Int → Nat,
      (∀ o, Streams w o → k o < seedings after ∧ seedOf w o = some ((n + k o) % 2 ^ 32)) ∧
      ∀ o o', Streams w o → Streams w o' → k o = k o' → o = o') ∧
    (seedings after ≤ 2 ^ 32 → ∀ o o', Streams w o → Streams w o' → seedOf w o = seedOf w o' → o = o') := by
  obtain ⟨N, hN, -, f, h1, h2⟩ := ht.seeded hu he hop hres hlast
  refine ⟨⟨f, fun o ho => ⟨lt_of_lt_of_le (h1 o ho).1 hN, (h1 o ho).2⟩, h2⟩, ?_⟩
  intro hle o o' ho ho' e
  apply h2 o o' ho ho'
  obtain ⟨a1, a2⟩ := h1 o ho
  obtain ⟨b1, b2⟩ := h1 o' ho'
  rw [a2, b2, Option.some_inj] at e
  omega

/-- **C52**, the values: if no seeds are used between `setRandomSeed n` and `initializeSystem m`, the `t`-th site of `m` is seeded
with `n + t` modulo `2^32`. -/
theorem C52_values (env : Env K) (n0 : Nat) (evs : List (Event K)) (w : World K) (ht : Trace env (World.new n0) evs w)
    (hu : HopsReturn evs) (before mid after : List (Event K)) (e1 e2 : Event K) (he : evs = before ++ e1 :: mid ++ e2 :: after)
    (n : Nat) (r r' : Int) (m : IMap (IMap Addr))
    (hop : e1.op = .setRandomSeed n) (hres : e1.res = .ok r) (hop' : e2.op = .initializeSystem m) (hres' : e2.res = .ok r')
    (hmid : seedings mid = 0) (hlast : ∀ e ∈ mid, ∀ n', e.op = .setRandomSeed n' → ∀ r', e.res ≠ .ok r') (t : Nat)
    (hm : t < m.length) :
    seedOf e2.post (.inl (m[t]).1) = some ((n + t) % 2 ^ 32) := by
  obtain ⟨h1, hstep, -, -⟩ := ht.prefix he
  have hub : HopsReturn (before ++ e1 :: mid) := fun e hm => hu e (by rw [he]; exact List.mem_append_left _ hm)
  obtain ⟨k, hk, hs⟩ := h1.seeded hub rfl hop hres hlast
  have hk0 : k = 0 := by omega
  subst hk0
  rw [hop'] at hstep
  simp only [step, Prod.mk.injEq] at hstep
  obtain ⟨hres2, hpost⟩ := hstep
  rw [hres'] at hres2
  cases hh : (e2.pre.initializeSystem e2.mem m).1 with
  | error e => rw [hh] at hres2; cases hres2
  | ok u => exact initializeSystem_seeds (u := u) (Prod.ext hh hpost) hs.seed t hm

/-- In this history the seed 7 is set, four sites get the seeds 7 to 10 and a cluster the seed 11. -/
example : (sysEvs[2]'(by decide +kernel)).op = .setRandomSeed 7 ∧ (sysEvs[2]'(by decide +kernel)).res = .ok 0 ∧
    sysEvs = sysEvs.take 2 ++ sysEvs[2]'(by decide +kernel) :: sysEvs.drop 3 ∧
    seedings (sysEvs.drop 3) = 9 ∧ seedOf sysWorld (.inl 3) = some 9 ∧ seedOf sysWorld (.inr 0) = some 11 ∧
    Streams sysWorld (.inl 3) ∧ Streams sysWorld (.inr 0) := by
  refine ⟨rfl, by decide +kernel, ?_, by decide +kernel, by decide +kernel, by decide +kernel, ?_, ?_⟩
  · rw [List.getElem_cons_drop, List.take_append_drop]
  · show ratesOf sysWorld 3 ≠ []
    decide +kernel
  · show (0 : Int) ∈ sysWorld.getClusters.keys
    decide +kernel

end Mythical
