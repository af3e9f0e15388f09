import Verif.Props.ClusterProb
import Verif.Lemmas.ClusterSolved

/-! # Cluster property C83: a cluster that cannot be left -/

set_option linter.unusedSectionVars false

namespace Mythical
open Cluster ClusterSpec
variable {K : Type} [Field K] [LinearOrder K] [IsStrictOrderedRing K] [FloorRing K]
variable {env : Env K} {mem : Addr → K} {c c' c1 c2 : Cluster K} {id : Int} {evs evs' : List (Event K)}

/-- No walker has a dwell time, and none can get one: the time constant is unassigned, or still the initial 0. -/
structure Timeless (c : Cluster K) : Prop where
  remaining : c.remaining = []
  tau : c.tau = none ∨ c.tau = some 0 ∧ (c.timeInc = none ∨ c.timeInc = some 0) ∧ c.siteVisits = []

theorem Timeless.dwell (h : Timeless c) (w : Int) (e : K) : ∃ f, c.getDwellTime w e = .error f ∧ f.isException = false := by
  unfold Cluster.getDwellTime
  rcases h.tau with h1 | ⟨h1, h2 | h2, -⟩
  · rw [h1]; exact ⟨_, rfl, rfl⟩
  · rw [h1, h2]; exact ⟨_, rfl, rfl⟩
  · rw [h1, h2, h.remaining]
    exact ⟨.assertFail, by simp [IMap.get?], rfl⟩

theorem Timeless.visit (h : Timeless c) (i : Int) : c.getVisitFrequency i = (.error .assertFail, c) := by
  unfold Cluster.getVisitFrequency
  rcases h.tau with h1 | ⟨-, -, h1⟩
  · rw [h1]; simp
  · rw [h1]; rfl

theorem Timeless.setVisit (h : Timeless c) (n i : Int) : c.setVisitFrequency n i = .error .assertFail := by
  unfold Cluster.setVisitFrequency
  rcases h.tau with h1 | ⟨-, -, h1⟩
  · rw [h1]; simp
  · rw [h1]; rfl

theorem Timeless.pick (h : Timeless c) (w : Int) (u : K) : c.pickNewSiteId w u = .error .assertFail := by
  unfold Cluster.pickNewSiteId
  rw [h.remaining]; rfl

/-- No call but an update or a merge changes that. -/
theorem step_timeless {op : Op K} {res : Except Fault (Out K)}
    (hop : match op with | .update | .migrateSitesFrom _ => False | _ => True) (ht : Timeless c)
    (h : c.step env mem op = (res, c')) : Timeless c' ∧ c'.tau = c.tau ∧ c'.siteVisits = c.siteVisits := by
  have plain : ∀ {d : Cluster K}, d.tau = c.tau → d.timeInc = c.timeInc → d.siteVisits = c.siteVisits → d.remaining = c.remaining →
      Timeless d ∧ d.tau = c.tau ∧ d.siteVisits = c.siteVisits := by
    intro d h1 h2 h3 h4
    exact ⟨⟨h4.trans ht.remaining, by rw [h1, h2, h3]; exact ht.tau⟩, h1, h3⟩
  have key : ∀ {r : Except Fault (Cluster K)}, c.simple r = (res, c') →
      (∀ d, r = .ok d → Timeless d ∧ d.tau = c.tau ∧ d.siteVisits = c.siteVisits) →
      Timeless c' ∧ c'.tau = c.tau ∧ c'.siteVisits = c.siteVisits := by
    intro r hs hd
    rcases simple_cases c r with ⟨d, h1, h2⟩ | ⟨e, -, h2⟩
    · rw [h2] at hs; cases hs; exact hd _ h1
    · rw [h2] at hs; cases hs; exact ⟨ht, rfl, rfl⟩
  have hadd : ∀ (l : List (Site K)) (b : Cluster K), (b.tau = c.tau ∧ b.timeInc = c.timeInc ∧ b.siteVisits = c.siteVisits ∧ b.remaining = c.remaining) →
      ∀ d, b.addSites l = .ok d → Timeless d ∧ d.tau = c.tau ∧ d.siteVisits = c.siteVisits := by
    intro l
    induction l with
    | nil => intro b hb d hd; cases hd; exact plain hb.1 hb.2.1 hb.2.2.1 hb.2.2.2
    | cons s l ih =>
      intro b hb d hd
      unfold Cluster.addSites at hd
      obtain ⟨b', h1, h2⟩ := bind_eq_ok.1 hd
      obtain ⟨-, rfl⟩ := addSite_ok h1
      exact ih { b with sites := b.sites.set s.id { s with clusterId := b.id } } hb d h2
  have hvac : ∀ i d, c.vacateSite i = .ok d → Timeless d ∧ d.tau = c.tau ∧ d.siteVisits = c.siteVisits := by
    intro i d hd
    unfold vacateSite at hd
    obtain ⟨s, -, hd⟩ := bind_eq_ok.1 hd
    obtain ⟨o, -, hd⟩ := bind_eq_ok.1 hd
    cases hd; exact plain rfl rfl rfl rfl
  cases op with
  | addSite s =>
    refine key h fun d hd => ?_
    obtain ⟨-, rfl⟩ := addSite_ok hd
    exact plain rfl rfl rfl rfl
  | addSites l => exact key h (hadd l c ⟨rfl, rfl, rfl, rfl⟩)
  | update => exact hop.elim
  | migrateSitesFrom _ => exact hop.elim
  | occupySite i =>
    refine key h fun d hd => ?_
    unfold occupySite at hd
    split at hd
    · obtain ⟨v, -, hd⟩ := bind_eq_ok.1 hd
      cases hd; exact plain rfl rfl rfl rfl
    · cases hd
  | vacateSite i => exact key h (hvac i)
  | occupy =>
    refine key h fun d hd => ?_
    unfold occupy at hd
    obtain ⟨o, -, hd⟩ := bind_eq_ok.1 hd
    obtain ⟨v, -, hd⟩ := bind_eq_ok.1 hd
    cases hd; exact plain rfl rfl rfl rfl
  | vacate =>
    refine key h fun d hd => ?_
    unfold vacate at hd
    obtain ⟨o, -, hd⟩ := bind_eq_ok.1 hd
    cases hd; exact plain rfl rfl rfl rfl
  | removeWalker w i => exact key h (hvac i)
  | getDwellTime w e =>
    obtain ⟨f, hf, -⟩ := ht.dwell w e
    simp only [Cluster.step, hf, Prod.mk.injEq] at h
    obtain ⟨-, rfl⟩ := h
    exact ⟨ht, rfl, rfl⟩
  | pickNewSiteId w u =>
    simp only [Cluster.step, ht.pick, Prod.mk.injEq] at h
    obtain ⟨-, rfl⟩ := h
    exact ⟨ht, rfl, rfl⟩
  | getVisitFrequency i =>
    simp only [Cluster.step, ht.visit, Prod.mk.injEq] at h
    obtain ⟨-, rfl⟩ := h
    exact ⟨ht, rfl, rfl⟩
  | setVisitFrequency n i =>
    refine key h fun d hd => ?_
    rw [ht.setVisit] at hd
    cases hd
  | setResolution r =>
    refine key h fun d hd => ?_
    unfold setResolution at hd
    split at hd
    · cases hd
      refine ⟨⟨ht.remaining, ?_⟩, rfl, rfl⟩
      rcases ht.tau with h1 | ⟨h1, -, h3⟩
      · exact .inl h1
      · exact .inr ⟨h1, .inr (by simp [h1]), h3⟩
    · cases hd
  | setConvergenceMethod m =>
    simp only [Cluster.step, Prod.mk.injEq] at h; obtain ⟨-, rfl⟩ := h; exact plain rfl rfl rfl rfl
  | setConvergenceTolerance t =>
    refine key h fun d hd => ?_
    unfold setConvergenceTolerance at hd
    split at hd
    · cases hd; exact plain rfl rfl rfl rfl
    · cases hd
  | setConvergenceIterations n =>
    refine key h fun d hd => ?_
    unfold setConvergenceIterations at hd
    split at hd
    · cases hd; exact plain rfl rfl rfl rfl
    · cases hd
  | setRandomSeed n =>
    simp only [Cluster.step, Prod.mk.injEq] at h; obtain ⟨-, rfl⟩ := h; exact plain rfl rfl rfl rfl

theorem trace_timeless (ht : Trace env c evs c') (hn : NotUpdated evs) (h0 : Timeless c) : Timeless c' := by
  induction ht with
  | nil => exact h0
  | @cons c c1 _ op res evs mem h _ _ ih =>
    exact ih (fun ev he => hn ev (List.mem_cons_of_mem _ he)) (step_timeless (hn _ List.mem_cons_self) h0 h).1

theorem update_timeless (ht : c.tau = none) (hs : c.siteVisits ≠ []) : c.update env mem = (.error .assertFail, c) := by
  obtain ⟨⟨i, v⟩, l, e⟩ := List.exists_cons_of_ne_nil hs
  have hk : c.siteVisits.keys = i :: IMap.keys l := by rw [e]; rfl
  have hf : c.getVisitFrequency i = (.error .assertFail, c) := by
    unfold Cluster.getVisitFrequency
    split
    · rw [ht]
    · rfl
  unfold Cluster.update
  rw [hk]
  unfold visitFreqsLoop
  rw [hf]

theorem migrate_timeless (ht : c.tau = none) (hs : c.siteVisits ≠ []) (src : Cluster K) :
    (∃ e, (c.migrateSitesFrom env mem src).1 = .error e ∧ (c.migrateSitesFrom env mem src).2.1 = c) ∨
    (c.migrateSitesFrom env mem src).1 = .error .assertFail := by
  unfold migrateSitesFrom
  split
  · exact .inl ⟨_, rfl, rfl⟩
  · next v s _ =>
    simp only
    rw [update_timeless (c := { c with sites := s.sites.foldl insertIfNew c.sites }) ht hs]
    exact .inr rfl

/-- **C83, the update.** An update of a cluster of two or more sites with positive rates and mutual internal links
succeeds whether or not the cluster can be left (with convergence by number of iterations, and if no update has been made before). -/
theorem C83_update_succeeds (ht : Trace env (Cluster.new id) evs c) (hn : NotUpdated evs) (hs : Sound mem c)
    (hm : Mutual mem c) (hl : Linked mem c) (h1 : 1 < (ids c).card) (hmeth : c.method ≠ .tolerance) :
    ∃ c', c.update env mem = (.ok (), c') := by
  have hi := (CInv.new id).trace ht
  have h2 : 2 ≤ c.resolution := ht.extends.resolution (by show (2 : K) ≤ 20; norm_num)
  have hne : c.sites ≠ [] := by intro h; rw [card_ids hs.wf, h] at h1; simp at h1
  have hsv := (trace_first ht rfl hn).1
  rcases solveProb_total (env := env) hs hm hl hi.prob hne with ⟨d, hd⟩ | ⟨h, -⟩
  · obtain ⟨c', hc'⟩ := rebuild_any (env := env) (freqs := []) hs hm (hl.some hne) (Or.inr rfl) hi.prob
      (by rw [← card_ids hs.wf]; exact h1) (by intro h0; rw [h0] at h2; norm_num at h2) hd
    refine ⟨c', ?_⟩
    unfold Cluster.update
    rw [hsv]
    show (match rebuild env mem [] c with
      | .error e => ((.error e, c) : Except Fault Unit × Cluster K)
      | .ok c'' => (.ok (), c'')) = _
    rw [hc']
  · exact absurd h hmeth

/-- **C83.** Let a cluster that cannot be left (no site of it has a rate to a site outside) have been updated for the
first time. Then it has no neighbours; and whatever is done with it from then on, and however the rates change, no
walker gets a dwell time or a new site from it, no visit count can be read or set, and neither an update nor a merge of
another cluster into it returns: each of these calls fails an assertion (a merge may also fail on the other cluster).
With an exit the first update leads to a time constant (`C41_partial`). -/
theorem C83_closed (ht : Trace env (Cluster.new id) evs c) (hn : NotUpdated evs) (hs : Sound mem c) (hm : Mutual mem c)
    (hx : ¬ HasExit mem c) (hne : (ids c).Nonempty) (hu : c.update env mem = (.ok (), c1)) :
    c1.getSiteIdsNeighboringCluster = [] ∧
    ∀ evs' c2, Trace env c1 evs' c2 →
      (∀ w e, c2.getDwellTime w e = .error .assertFail) ∧
      (∀ w u, c2.pickNewSiteId w u = .error .assertFail) ∧
      (∀ i, (c2.getVisitFrequency i).1 = .error .assertFail) ∧
      (∀ n i, c2.setVisitFrequency n i = .error .assertFail) ∧
      (∀ mem', (c2.update env mem').1 = .error .assertFail) ∧
      ∀ mem' src, ∃ e, (c2.migrateSitesFrom env mem' src).1 = .error e := by
  obtain ⟨e, hs', -, hd, freqs, c0, hv, hr⟩ := after_update ht hs hm hu
  have hx' : ¬ HasExit mem c1 := fun h => hx (h.congr e.symm)
  have htau := (hr.tau_none_iff hs').2 hx'
  have hrem1 : c1.remaining = [] := by
    rw [hr.remaining]
    obtain ⟨⟨v, p, rfl⟩, -⟩ := hv
    exact (trace_timeless ht hn ⟨rfl, .inr ⟨rfl, .inl rfl, rfl⟩⟩).remaining
  obtain ⟨i, hi⟩ := hne
  have hsv : c1.siteVisits ≠ [] := by
    have : i ∈ c1.siteVisits.keys := (hr.siteVisits_keys i).2 (by
      rw [← hr.sites, e]; exact List.mem_toFinset.1 hi)
    intro h0; rw [h0] at this; cases this
  refine ⟨?_, fun evs' c2 ht' => ?_⟩
  · obtain ⟨temp, h1, -, h2⟩ := hr.probNeigh
    obtain ⟨-, hk, -⟩ := exitTable hs'
    rw [hopNeighTemp_eq hs'] at h1
    cases h1
    rw [List.eq_nil_iff_forall_not_mem]
    intro n hn
    unfold getSiteIdsNeighboringCluster at hn
    obtain ⟨np, hnp, rfl⟩ := List.mem_map.1 hn
    rw [h2] at hnp
    obtain ⟨np', hnp', rfl⟩ := List.mem_map.1 ((env.sort.perm _).mem_iff.1 hnp)
    obtain ⟨n0, i, hi, hri⟩ := hs'.mem_exits.1 ((hk np'.1).1 (List.mem_map_of_mem hnp'))
    exact hx' ⟨i, hi, _, n0, hri⟩
  · have key : ∀ (b : Cluster K), Trace env b evs' c2 → Timeless b → b.tau = none → b.siteVisits ≠ [] →
        Timeless c2 ∧ c2.tau = none ∧ c2.siteVisits ≠ [] := by
      intro b hb
      clear ht'
      induction hb with
      | nil => exact fun h1 h2 h3 => ⟨h1, h2, h3⟩
      | @cons c c1 _ op res evs mem h hg _ ih =>
        intro h1 h2 h3
        have quiet : Timeless c1 ∧ c1.tau = c.tau ∧ c1.siteVisits = c.siteVisits → _ := fun ⟨k1, k2, k3⟩ =>
          ih k1 (k2.trans h2) (by rw [k3]; exact h3)
        cases op with
        | update =>
          simp only [Cluster.step, update_timeless h2 h3, Prod.mk.injEq] at h
          obtain ⟨rfl, -⟩ := h
          cases hg
        | migrateSitesFrom src =>
          rcases migrate_timeless (env := env) (mem := mem) h2 h3 src with ⟨e, k1, k2⟩ | k1
          · refine quiet ?_
            simp only [Cluster.step] at h
            split at h
            · next he => rw [he] at k1; cases k1
            · next he =>
              rw [he] at k2
              cases h
              change c1 = c at k2
              subst k2
              exact ⟨h1, rfl, rfl⟩
          · simp only [Cluster.step] at h
            split at h
            · next he => rw [he] at k1; cases k1
            · next he =>
              rw [he] at k1
              cases k1
              cases h
              cases hg
        | _ => exact quiet (step_timeless trivial h1 h)
    obtain ⟨k1, k2, k3⟩ := key c1 ht' ⟨hrem1, .inl htau⟩ htau hsv
    refine ⟨fun w e => ?_, k1.pick, fun i => by rw [k1.visit], k1.setVisit, fun mem' => by rw [update_timeless k2 k3],
      fun mem' src => ?_⟩
    · unfold Cluster.getDwellTime
      rw [k2]
    · rcases migrate_timeless (env := env) (mem := mem') k2 k3 src with ⟨e, h, -⟩ | h <;> exact ⟨_, h⟩

/-- Sites 1 and 2 with rates 1 and 3 to each other and nowhere else. -/
def closedOps : List (Op ℚ) := [.addSites [witSite 1 [(2, 0)], witSite 2 [(1, 9)]], .setConvergenceIterations 8]

/-- The cluster made of them. -/
def closedC : Cluster ℚ := (runOps witEnv witRates (Cluster.new 0) closedOps).2

/-- The hypotheses of C83: a closed pair. The update succeeds and finds that the walker is on either site half of the
hops; then no walker can be served. -/
example : Trace witEnv (Cluster.new 0) (runOps witEnv witRates (Cluster.new 0) closedOps).1 closedC ∧
    NotUpdated (runOps witEnv witRates (Cluster.new 0) closedOps).1 ∧ Sound witRates closedC ∧ Mutual witRates closedC ∧
    Linked witRates closedC ∧ ¬ HasExit witRates closedC ∧ 1 < (ids closedC).card ∧ closedC.method ≠ .tolerance ∧
    closedC.update witEnv witRates = (.ok (), (closedC.update witEnv witRates).2) ∧
    occ (closedC.update witEnv witRates).2 1 = 1 / 2 ∧ occ (closedC.update witEnv witRates).2 2 = 1 / 2 ∧
    (closedC.update witEnv witRates).2.getDwellTime 7 1 = .error .assertFail := by
  have hs : Sound witRates closedC := sound_of (by decide +kernel) (by decide +kernel)
  refine ⟨runOps_trace (by decide +kernel), ?_, hs, by unfold Mutual; decide +kernel, by unfold Linked; decide +kernel, ?_,
    by decide +kernel, by decide +kernel, by decide +kernel, by decide +kernel, by decide +kernel, by decide +kernel⟩
  · intro ev hev
    simp [runOps, closedOps] at hev
    rcases hev with rfl | rfl <;> trivial
  · rintro ⟨i, hi, j, hj, hr⟩
    have : j ∈ exits closedC := hs.mem_exits.2 ⟨hj, i, hi, hr⟩
    rw [show exits closedC = ∅ by decide +kernel] at this
    exact absurd this (Finset.notMem_empty j)

end Mythical
