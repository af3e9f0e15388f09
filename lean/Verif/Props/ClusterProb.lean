import Verif.Lemmas.ClusterWitness
import Verif.Lemmas.ClusterFuel

/-! # Cluster properties C37, C38, C41, C46, C47 -/

set_option linter.unusedSectionVars false

namespace Mythical
open Cluster ClusterSpec
variable {K : Type} [Field K] [LinearOrder K] [IsStrictOrderedRing K] [FloorRing K]
variable {env : Env K} {mem : Addr → K} {c c' : Cluster K} {id : Int} {evs : List (Event K)}

theorem occ_eq {i : Int} (hi : i ∈ ids c) : occ c i = c.probOn.at0 i := by
  unfold occ getProbabilityOfOccupying
  have : c.sites.has i = true := siteIsIn_iff.2 hi
  rw [if_pos this]

theorem leaveProb_eq (mem : Addr → K) (c : Cluster K) : leaveProb mem c = leak mem c := by
  apply Finset.sum_congr rfl
  intro i hi
  rw [occ_eq hi]
  unfold siteTime
  ring

theorem meanTime_eq (mem : Addr → K) (c : Cluster K) :
    meanTime mem c = ∑ k ∈ ids c, c.probOn.at0 k * siteTime mem c k :=
  Finset.sum_congr rfl fun i hi => by rw [occ_eq hi]

/-- Facts shared by the theorems about a cluster after an update. -/
theorem after_update (ht : Trace env (Cluster.new id) evs c) (hs : Sound mem c) (hm : Mutual mem c)
    (hu : c.update env mem = (.ok (), c')) :
    c'.sites = c.sites ∧ Sound mem c' ∧ Mutual mem c' ∧ Dist c' ∧ ∃ freqs c1, VisitsOnly c c1 ∧ Rebuilt env mem freqs c1 c' := by
  have hi := (CInv.new id).trace ht
  obtain ⟨freqs, c1, -, hv, hr⟩ := update_ok hu
  have e1 : c1.sites = c.sites := by obtain ⟨⟨v, p, rfl⟩, -⟩ := hv; rfl
  have hs1 := hs.congr e1
  have hm1 := Mutual.congr e1 hm
  exact ⟨hr.sites.trans e1, hs1.congr hr.sites, Mutual.congr hr.sites hm1, hr.dist hs1 hm1 (hi.visitsOnly hv).prob,
    freqs, c1, hv, hr⟩

/-- **C37.** After an update, in any history of the cluster and for whatever convergence settings, every site has a
positive occupation probability, these sum to one, and asking for another site fails. -/
theorem C37_occupation (ht : Trace env (Cluster.new id) evs c) (hs : Sound mem c) (hm : Mutual mem c)
    (hu : c.update env mem = (.ok (), c')) :
    ids c' = ids c ∧
    (∀ i ∈ ids c', c'.getProbabilityOfOccupying i = .ok (occ c' i) ∧ 0 < occ c' i) ∧
    (∑ i ∈ ids c', occ c' i = 1) ∧
    ∀ i, i ∉ ids c' → c'.getProbabilityOfOccupying i = .error .assertFail := by
  obtain ⟨e, -, -, hd, -⟩ := after_update ht hs hm hu
  refine ⟨ids_congr e, fun i hi => ⟨?_, ?_⟩, ?_, fun i hi => ?_⟩
  · rw [occ_eq hi]
    unfold getProbabilityOfOccupying
    rw [if_pos (show c'.sites.has i = true from siteIsIn_iff.2 hi)]
  · rw [occ_eq hi]; exact hd.pos i hi
  · rw [Finset.sum_congr rfl fun i hi => occ_eq hi]; exact hd.one
  · unfold getProbabilityOfOccupying
    rw [if_neg (show ¬ c'.sites.has i = true from fun h => hi (siteIsIn_iff.1 h))]

theorem visitsReadable_loop (hv : VisitsReadable c) :
    ∃ freqs c1, c.visitFreqsLoop [] c.siteVisits.keys = (.ok freqs, c1) := by
  have key : ∀ (l : List Int) (acc : IMap Int) (d : Cluster K), d.visits = d.prevVisits →
      (∀ i ∈ l, ∃ n c', d.getVisitFrequency i = (.ok n, c')) →
      ∃ freqs, d.visitFreqsLoop acc l = (.ok freqs, d) := by
    intro l
    induction l with
    | nil => intro acc d _ _; exact ⟨acc, rfl⟩
    | cons i l ih =>
      intro acc d hd hl
      obtain ⟨n, c', h⟩ := hl i (List.mem_cons_self ..)
      obtain ⟨-, ⟨t, -, hf⟩, -, -⟩ := getVisitFrequency_ok h
      rw [flush_of_eq hd] at hf
      cases hf
      obtain ⟨freqs, h2⟩ := ih (acc.set i n) d hd fun j hj => hl j (List.mem_cons_of_mem _ hj)
      exact ⟨freqs, by unfold visitFreqsLoop; rw [h]; exact h2⟩
  cases hk : c.siteVisits.keys with
  | nil => exact ⟨[], c, rfl⟩
  | cons i l =>
    obtain ⟨n, c1, h⟩ := hv i (by rw [hk]; exact List.mem_cons_self ..)
    obtain ⟨-, ⟨t, ht, hf⟩, -, -⟩ := getVisitFrequency_ok h
    have he := flush_ok hf
    have hvo : VisitsOnly c c1 := by
      have := getVisitFrequency_visitsOnly (c := c) i
      rw [h] at this
      exact this
    obtain ⟨freqs, h2⟩ := key l (IMap.set [] i n) c1 he fun j hj => by
      obtain ⟨m, c2, hm⟩ := hv j (by rw [hk]; exact List.mem_cons_of_mem _ hj)
      obtain ⟨-, ⟨t', ht', hf'⟩, hm1, hm2⟩ := getVisitFrequency_ok hm
      rw [ht] at ht'
      cases ht'
      rw [hf] at hf'
      cases hf'
      have ht1 : c1.tau = some t := by
        obtain ⟨⟨v, p, rfl⟩, -⟩ := hvo
        exact ht
      refine ⟨_, _, getVisitFrequency_of (t := t) ?_ ht1 (flush_of_eq he t) (by rw [← hm1]; exact hm2)⟩
      rw [hvo.2, hk]; exact List.mem_cons_of_mem _ hj
    exact ⟨freqs, c1, by unfold visitFreqsLoop; rw [h]; exact h2⟩

/-- An update succeeds once the occupation probabilities have been computed. -/
theorem update_succeeds (ht : Trace env (Cluster.new id) evs c) (hs : Sound mem c) (hm : Mutual mem c)
    (hl : Linked mem c) (hx : HasExit mem c) (h1 : 1 < (ids c).card) (hv : VisitsReadable c) {env' : Env K}
    (hp : ∀ c1, VisitsOnly c c1 → ∃ d, c1.solveProb env' = .ok d) : ∃ c', c.update env' mem = (.ok (), c') := by
  have hi := (CInv.new id).trace ht
  obtain ⟨freqs, c1, hc1⟩ := visitsReadable_loop hv
  have hvo : VisitsOnly c c1 := by
    have := visitFreqsLoop_visitsOnly (c := c) [] c.siteVisits.keys
    rw [hc1] at this
    exact this
  have e1 : c1.sites = c.sites ∧ c1.resolution = c.resolution := by
    obtain ⟨⟨v, p, rfl⟩, -⟩ := hvo; exact ⟨rfl, rfl⟩
  have h2 : 2 ≤ c.resolution := ht.extends.resolution (by show (2 : K) ≤ 20; norm_num)
  obtain ⟨d, hd⟩ := hp c1 hvo
  obtain ⟨c', hc'⟩ := rebuild_total (env := env') (freqs := freqs) (hs.congr e1.1) (Mutual.congr e1.1 hm) (hl.congr e1.1)
    (hx.congr e1.1) (hi.visitsOnly hvo).prob (by rw [e1.1, ← card_ids hs.wf]; exact h1)
    (by rw [e1.2]; intro h0; rw [h0] at h2; norm_num at h2) hd
  refine ⟨c', ?_⟩
  unfold update
  rw [hc1]
  simp only
  rw [hc']

/-- **C37, availability.** With convergence by number of iterations, an update of a cluster of two or more sites with
positive rates, mutual internal links and an exit succeeds. -/
theorem C37_update_succeeds (ht : Trace env (Cluster.new id) evs c) (hs : Sound mem c) (hm : Mutual mem c)
    (hl : Linked mem c) (hx : HasExit mem c) (h1 : 1 < (ids c).card) (hv : VisitsReadable c)
    (hmeth : c.method ≠ .tolerance) : ∃ c', c.update env mem = (.ok (), c') := by
  have hi := (CInv.new id).trace ht
  refine update_succeeds ht hs hm hl hx h1 hv fun c1 hvo => ?_
  have e1 : c1.sites = c.sites ∧ c1.method = c.method := by
    obtain ⟨⟨v, p, rfl⟩, -⟩ := hvo; exact ⟨rfl, rfl⟩
  rcases solveProb_total (env := env) (hs.congr e1.1) (Mutual.congr e1.1 hm) (hl.congr e1.1) (hi.visitsOnly hvo).prob
    (by rw [e1.1]; intro h; rw [card_ids hs.wf, h] at h1; simp at h1) with h | ⟨h, -⟩
  · exact h
  · rw [e1.2] at h; exact absurd h hmeth

/-- The visit counts of a cluster that has never been updated are readable: there are none. -/
theorem visitsReadable_first (ht : Trace env (Cluster.new id) evs c) (hev : NotUpdated evs) : VisitsReadable c := by
  intro i hi
  rw [(trace_first ht rfl hev).1] at hi
  simp [IMap.keys] at hi

/-- The hypotheses of C37: a cluster of sites 1 and 2 with an exit to 3. -/
example : Trace witEnv (Cluster.new 0) witEvs witC0 ∧ Sound witRates witC0 ∧ Mutual witRates witC0 ∧
    Linked witRates witC0 ∧ HasExit witRates witC0 ∧ 1 < (ids witC0).card ∧ VisitsReadable witC0 ∧
    witC0.method ≠ .tolerance ∧ witC0.update witEnv witRates = (.ok (), witC1) ∧ ids witC1 = {1, 2} ∧
    29/50 < occ witC1 1 ∧ 41/100 < occ witC1 2 :=
  ⟨witC0_trace, witC0_sound, witC0_mutual, witC0_linked, witC0_exit, by decide +kernel,
    visitsReadable_first witC0_trace (by unfold NotUpdated; intro ev hev; simp [witEvs, runOps, witOps] at hev; rw [hev]; trivial),
    by decide +kernel, witC1_update, by decide +kernel, by decide +kernel, by decide +kernel⟩

/-- **C38.** After an update the reported neighbours are exactly the sites outside the cluster that some site of the
cluster has a rate to, each once; the probability reported for `n` is the probability that a hop out of the cluster
goes to `n`; it is positive, and the probabilities sum to one. -/
theorem C38_exits (ht : Trace env (Cluster.new id) evs c) (hs : Sound mem c) (hm : Mutual mem c) (hx : HasExit mem c)
    (hu : c.update env mem = (.ok (), c')) :
    c'.getSiteIdsNeighboringCluster.Nodup ∧
    (∀ n, n ∈ c'.getSiteIdsNeighboringCluster ↔ n ∉ ids c' ∧ ∃ i ∈ ids c', 0 < rate mem c' i n) ∧
    (∀ n ∈ c'.getSiteIdsNeighboringCluster, ∃ p, c'.getProbabilityOfHoppingToNeighbor n = .ok p ∧ 0 < p ∧
      p = (∑ i ∈ ids c', occ c' i * hopProb mem c' i n) / leaveProb mem c') ∧
    (c'.getSiteIdsNeighboringCluster.map fun n => match c'.getProbabilityOfHoppingToNeighbor n with
      | .ok p => p
      | .error _ => 0).sum = 1 := by
  obtain ⟨e, hs', -, hd, freqs, c1, -, hr⟩ := after_update ht hs hm hu
  have T := hr.exit hs' hd (hx.congr e)
  have hget : ∀ n p, (n, p) ∈ c'.probNeigh → c'.getProbabilityOfHoppingToNeighbor n = .ok p := by
    intro n p h
    unfold getProbabilityOfHoppingToNeighbor
    rw [IMap.get?_of_mem T.wf h]
  refine ⟨T.wf, fun n => (T.keys n).trans hs'.mem_exits, fun n hn => ?_, ?_⟩
  · have hk := (T.keys n).1 hn
    have hm := T.get n hk
    refine ⟨_, hget n _ (IMap.mem_of_get? hm), T.pos _ (IMap.mem_of_get? hm), ?_⟩
    unfold exitWeight
    rw [leaveProb_eq]
    congr 1
    exact Finset.sum_congr rfl fun i hi => by rw [occ_eq hi, mul_comm]
  · rw [← T.one]
    unfold getSiteIdsNeighboringCluster
    rw [List.map_map]
    congr 1
    apply List.map_congr_left
    rintro ⟨n, p⟩ hnp
    simp only [Function.comp_apply]
    rw [hget n p hnp]

/-- The hypotheses of C38 are those of C37; here the conclusion on the concrete cluster, and after a second update with
site 3 added. -/
example : witC1.getSiteIdsNeighboringCluster = [3] ∧ witC1.getProbabilityOfHoppingToNeighbor 3 = .ok 1 ∧
    Trace witEnv (Cluster.new 0) witEvs2 witC2 ∧ Sound witRates witC2 ∧ Mutual witRates witC2 ∧ HasExit witRates witC2 ∧
    witC2.update witEnv witRates = (.ok (), witC3) ∧ witC3.getSiteIdsNeighboringCluster = [4] :=
  ⟨by decide +kernel, by decide +kernel, witC2_trace, witC2_sound, witC2_mutual, ⟨3, by decide +kernel, 4, by decide +kernel,
    by decide +kernel⟩, witC3_update, by decide +kernel⟩

theorem leak_add_stay (hs : Sound mem c) (hd : Dist c) : stay mem c = 1 - leaveProb mem c := by
  rw [leaveProb_eq, stay_eq, ← stay_add_leak hs hd]; ring

/-- **C41 (partial).** The escape time constant that the code computes is the sum of `p_i tau_i` over the sites *with an
exit*, divided by the probability of leaving *and by the probability of staying*. It is positive, the time increment is
this constant over the resolution, and if every site has an exit it is the mean time to leave, too large by the factor
`1/(1 - leaveProb)`.
Missing: it is not the mean time to leave, `meanTime / leaveProb` (see `C41_counterexample`). -/
theorem C41_partial (ht : Trace env (Cluster.new id) evs c) (hs : Sound mem c) (hm : Mutual mem c) (hl : Linked mem c)
    (hx : HasExit mem c) (hu : c.update env mem = (.ok (), c')) :
    ∃ t, c'.tau = some t ∧
      t = (∑ i ∈ ids c', if 0 < exitRate mem c' i then occ c' i * siteTime mem c' i else 0) /
        (leaveProb mem c' * (1 - leaveProb mem c')) ∧
      0 < leaveProb mem c' ∧ leaveProb mem c' < 1 ∧ 0 < t ∧ c'.getTimeIncrement = .ok (t / c'.resolution) ∧
      ((∀ i ∈ ids c', 0 < exitRate mem c' i) →
        t = meanTime mem c' / leaveProb mem c' * (1 / (1 - leaveProb mem c'))) := by
  obtain ⟨e, hs', -, hd, freqs, c1, -, hr⟩ := after_update ht hs hm hu
  have hl' := hl.congr e
  replace hx := hx.congr e
  obtain ⟨h1, h2⟩ := hr.tau_eq hs' hd hl' hx
  have hlk := leak_pos hs' hd hx
  have hst := stay_pos hs' hd hl'
  have hsum : (∑ i ∈ ids c', if 0 < exitRate mem c' i then c'.probOn.at0 i * siteTime mem c' i else 0) =
      ∑ i ∈ ids c', if 0 < exitRate mem c' i then occ c' i * siteTime mem c' i else 0 :=
    Finset.sum_congr rfl fun i hi => by rw [occ_eq hi]
  rw [leak_add_stay hs' hd, ← leaveProb_eq, hsum] at h1
  rw [leak_add_stay hs' hd] at hst
  rw [← leaveProb_eq] at hlk
  refine ⟨_, h1, rfl, hlk, by linarith, div_pos ?_ (mul_pos hlk hst), ?_, fun hall => ?_⟩
  · obtain ⟨i, hi, j, hj, hrt⟩ := hx
    have hpos := (hs'.exitRate_pos_iff hi).2 ⟨j, hj, hrt⟩
    apply Finset.sum_pos'
    · intro k hk
      split
      · rw [occ_eq hk]; exact mul_nonneg (hd.pos k hk).le (hs'.siteTime_pos hk).le
      · exact le_refl _
    · refine ⟨i, hi, ?_⟩
      rw [if_pos hpos, occ_eq hi]
      exact mul_pos (hd.pos i hi) (hs'.siteTime_pos hi)
  · unfold getTimeIncrement
    rw [h2, h1]
    rfl
  · rw [Finset.sum_congr rfl fun i hi => if_pos (hall i hi)]
    unfold meanTime
    have h3 := hst.ne'
    have h4 := hlk.ne'
    field_simp

/-- Sites 1 and 2, with rates 1 to each other and 1 to a site outside. -/
def symOps : List (Op ℚ) := [.addSites [witSite 1 [(2, 0), (3, 1)], witSite 2 [(1, 2), (4, 3)]]]

/-- **C41, negation of the full statement.** Sites 1 and 2 with rates 1 to each other and 1 to the outside: a walker on
either leaves at rate 1, so the mean time to leave is 1, and `meanTime / leaveProb` says so; the code computes 2. In a
cluster where only site 1 has an exit, the code's value is less than the mean time. -/
theorem C41_counterexample :
    (∃ (evs : List (Event ℚ)) (c c' : Cluster ℚ), Trace witEnv (Cluster.new 0) evs c ∧ Sound witRates c ∧
      Mutual witRates c ∧ Linked witRates c ∧ c.update witEnv witRates = (.ok (), c') ∧
      meanTime witRates c' / leaveProb witRates c' = 1 ∧ c'.tau = some 2) ∧
    ∃ (evs : List (Event ℚ)) (c c' : Cluster ℚ) (t : ℚ), Trace witEnv (Cluster.new 0) evs c ∧ Sound witRates c ∧
      Mutual witRates c ∧ Linked witRates c ∧ c.update witEnv witRates = (.ok (), c') ∧
      c'.tau = some t ∧ t < meanTime witRates c' / leaveProb witRates c' := by
  refine ⟨⟨_, _, ((runOps witEnv witRates (Cluster.new 0) symOps).2.update witEnv witRates).2,
    runOps_trace (env := witEnv) (mem := witRates) (ops := symOps) (by decide +kernel),
    sound_of (by decide +kernel) (by decide +kernel), ?_, ?_, by decide +kernel, by decide +kernel, by decide +kernel⟩,
    _, _, witC1, witC1.tau.getD 0, witC0_trace, witC0_sound, witC0_mutual, witC0_linked, witC1_update, by decide +kernel,
    by decide +kernel⟩
  · unfold Mutual; decide +kernel
  · unfold Linked; decide +kernel

/-! ## The iteration -/

theorem visitsOnly_fields {c1 : Cluster K} (hv : VisitsOnly c c1) :
    c1.sites = c.sites ∧ c1.method = c.method ∧ c1.tol = c.tol ∧ c1.probOn = c.probOn := by
  obtain ⟨⟨v, p, rfl⟩, -⟩ := hv; exact ⟨rfl, rfl, rfl, rfl⟩

/-- The tolerance loop, started by an update, ends after a number of rounds that depends only on the sites, the rates
and the tolerance. -/
theorem solveProb_terminates (hs : Sound mem c) (hm : Mutual mem c) (hp : ProbSub c) (h1 : 1 < (ids c).card)
    (hc : Connected mem c) (htol : 0 < c.tol) :
    ∃ N, ∀ env' : Env K, N ≤ env'.fuel → ∀ c1, VisitsOnly c c1 → ∃ d, c1.solveProb env' = .ok d := by
  have hl : 1 < c.sites.length := by rw [← card_ids hs.wf]; exact h1
  have hne : c.sites ≠ [] := fun h => by rw [h] at hl; simp at hl
  have hlk := linked_of_connected hm hs.wf hl hc
  have hd := initProb_dist hs.wf hp hne
  have hs' : Sound mem c.initProb := Sound.congr (c := c) rfl hs
  have hm' : Mutual mem c.initProb := Mutual.congr (c := c) rfl hm
  have hc' : Connected mem c.initProb := by
    intro i hi j hj
    have := hc i hi j hj
    clear hi hj
    induction this with
    | refl => exact .refl _
    | step _ hk hr ih => exact .step ih hk hr
  obtain ⟨N, hN⟩ := toleranceLoop_terminates hs' hm' hd hl hc' htol
  refine ⟨N, fun env' hfuel c1 hvo => ?_⟩
  obtain ⟨e1, -, -, e4⟩ := visitsOnly_fields hvo
  have hp1 : ProbSub c1 := by unfold ProbSub; rw [e1, e4]; exact hp
  rcases solveProb_total (env := env') (hs.congr e1) (Mutual.congr e1 hm) (hlk.congr e1) hp1 (by rw [e1]; exact hne)
    with h | ⟨-, -, h, -⟩
  · exact h
  · exfalso
    obtain ⟨⟨v, p, rfl⟩, -⟩ := hvo
    obtain ⟨d, hd'⟩ := hN env'.fuel hfuel
    have : ∀ (n : Nat) (a : Cluster K) (v : IMap K) (p : Int) (d : Cluster K), toleranceLoop n a = .ok d →
        toleranceLoop n { a with siteVisits := v, prevVisits := p } ≠ .error .outOfFuel := by
      intro n
      induction n with
      | zero => intro a v p d h; cases h
      | succ n ih =>
        intro a v p d h
        unfold toleranceLoop at h ⊢
        rw [bind_eq_ok] at h
        obtain ⟨b, hb, h⟩ := h
        have hb' : iterate { a with siteVisits := v, prevVisits := p } =
            .ok { b with siteVisits := v, prevVisits := p } := by
          have hsh := iterate_shape hb
          unfold iterate at hb ⊢
          have et : iterTemp { a with siteVisits := v, prevVisits := p } = a.iterTemp := rfl
          rw [et]
          rw [bind_eq_ok] at hb ⊢
          obtain ⟨temp, h1, h2⟩ := hb
          refine ⟨temp, h1, ?_⟩
          simp only at h2 ⊢
          split at h2
          · cases h2
          · next hz =>
            rw [if_neg hz]
            split at h2
            · cases h2
            · next hz2 => rw [if_neg hz2]; cases h2; rfl
        rw [hb', ok_bind]
        have ee : errorSq { a with siteVisits := v, prevVisits := p } { b with siteVisits := v, prevVisits := p } =
          errorSq a b := rfl
        rw [ee]
        split at h
        · next hc => rw [if_pos hc]; exact ih b v p d h
        · next hc => rw [if_neg hc]; simp
    exact this _ _ v p d hd' h

/-- **C46.** On a connected cluster of two or more sites with positive rates and mutual internal links, for every
tolerance greater than 0 (and every other setting, in every history) there is a number of rounds after which the
iteration of an update has stopped: an update that is given that many rounds or more never runs out of them, and if the
cluster has an exit it succeeds. -/
theorem C46_terminates (ht : Trace env (Cluster.new id) evs c) (hs : Sound mem c) (hm : Mutual mem c)
    (h1 : 1 < (ids c).card) (hc : Connected mem c) (htol : 0 < c.tol) :
    ∃ N, ∀ env' : Env K, N ≤ env'.fuel →
      (c.update env' mem).1 ≠ .error .outOfFuel ∧
      (HasExit mem c → VisitsReadable c → ∃ c', c.update env' mem = (.ok (), c')) := by
  have hi := (CInv.new id).trace ht
  have hl := linked_of_connected hm hs.wf (by rw [← card_ids hs.wf]; exact h1) hc
  obtain ⟨N, hN⟩ := solveProb_terminates hs hm hi.prob h1 hc htol
  exact ⟨N, fun env' hf => ⟨NF.update (hN env' hf), fun hx hv => update_succeeds ht hs hm hl hx h1 hv (hN env' hf)⟩⟩

/-- The hypotheses of C46 on a cluster with convergence by tolerance. -/
example : ∃ evs c, Trace witEnv (Cluster.new 0) evs c ∧ Sound witRates c ∧ Mutual witRates c ∧ 1 < (ids c).card ∧
    Connected witRates c ∧ c.method = .tolerance ∧ 0 < c.tol ∧ VisitsReadable c ∧ HasExit witRates c := by
  refine ⟨_, _, runOps_trace (env := witEnv) (mem := witRates) (ops := witOps ++ [.setConvergenceMethod .tolerance])
    (by decide +kernel), sound_of (by decide +kernel) (by decide +kernel), ?_, by decide +kernel, ?_, by decide +kernel,
    by decide +kernel, ?_, ⟨1, by decide +kernel, 3, by decide +kernel, by decide +kernel⟩⟩
  · unfold Mutual; decide +kernel
  · intro i hi j hj
    have hids : ids (runOps witEnv witRates (Cluster.new 0) (witOps ++ [.setConvergenceMethod .tolerance])).2 = {1, 2} := by
      decide +kernel
    rw [hids] at hi hj
    simp only [Finset.mem_insert, Finset.mem_singleton] at hi hj
    rcases hi with rfl | rfl <;> rcases hj with rfl | rfl
    · exact .refl _
    · exact path_one (by decide +kernel) (by decide +kernel)
    · exact path_one (by decide +kernel) (by decide +kernel)
    · exact .refl _
  · intro i hi
    have : (runOps witEnv witRates (Cluster.new 0) (witOps ++ [.setConvergenceMethod .tolerance])).2.siteVisits = [] := by
      decide +kernel
    rw [this] at hi
    simp [IMap.keys] at hi

/-- **C47, fixed points.** One round of the iteration leaves a distribution unchanged exactly if it is quasi-stationary:
at every site the probability flowing in with one hop is the occupation probability times the probability of not
leaving the cluster. -/
theorem C47_fixed_point (hs : Sound mem c) (hm : Mutual mem c) (hd : Dist c) (h : c.iterate = .ok c') :
    (∀ i ∈ ids c, occ c' i = occ c i) ↔
      ∀ i ∈ ids c, ∑ n ∈ ids c, occ c n * hopProb mem c n i = (1 - leaveProb mem c) * occ c i := by
  obtain ⟨hpos, hv⟩ := iterate_prob hs hm hd h
  have hst : ∑ i ∈ ids c, inflow mem c c.prob i = 1 - leaveProb mem c := by
    rw [← leak_add_stay hs hd, stay_eq]; rfl
  rw [hst] at hpos hv
  have hne := hpos.ne'
  apply forall_congr'
  intro i
  apply forall_congr'
  intro hi
  have e1 : occ c' i = c'.prob i := occ_eq (by rw [ids_congr (iterate_sites h)]; exact hi)
  have e2 : occ c i = c.prob i := occ_eq hi
  have e3 : ∑ n ∈ ids c, occ c n * hopProb mem c n i = inflow mem c c.prob i :=
    Finset.sum_congr rfl fun n hn => by rw [occ_eq hn, mul_comm]; rfl
  rw [e1, e2, e3, hv i hi]
  constructor
  · intro h
    field_simp at h
    linarith
  · intro h
    rw [h]
    field_simp
    ring

/-- **C47, accuracy.** With convergence by tolerance, the update ends with one round of the iteration from a distribution
`d` to the reported one that changes it by at most the tolerance (Euclidean norm), and `d` solves the equation of
`C47_fixed_point`, divided by the probability of not leaving, up to twice the tolerance at every site. -/
theorem C47_accuracy (ht : Trace env (Cluster.new id) evs c) (hs : Sound mem c) (hm : Mutual mem c)
    (hmeth : c.method = .tolerance) (htol : 0 < c.tol) (hu : c.update env mem = (.ok (), c')) :
    ∃ d e : Cluster K, d.sites = c.sites ∧ Dist d ∧ d.iterate = .ok e ∧
      (∀ i ∈ ids c, occ c' i = occ e i) ∧
      ∑ i ∈ ids c, (occ d i - occ c' i) ^ 2 ≤ c.tol ^ 2 ∧
      ∀ i ∈ ids c, |(∑ n ∈ ids c, occ d n * hopProb mem c n i) / (1 - leaveProb mem d) - occ d i| ≤ 2 * c.tol := by
  obtain ⟨e0, -, -, -, freqs, c1, hvo, hr⟩ := after_update ht hs hm hu
  have hi := (CInv.new id).trace ht
  obtain ⟨e1, e2, e3, e4⟩ := visitsOnly_fields hvo
  have hs1 := hs.congr e1
  have hm1 := Mutual.congr e1 hm
  have hne : c1.sites ≠ [] := hr.ne_nil
  have hsol := hr.solved
  unfold solveProb at hsol
  simp only at hsol
  have hmeth' : c1.initProb.method = .tolerance := by rw [← hmeth, ← e2]; rfl
  rw [hmeth'] at hsol
  simp only at hsol
  have htol1 : c1.initProb.tol = c.tol := by rw [← e3]; rfl
  rw [if_pos (by rw [htol1]; linarith)] at hsol
  have key : ∀ (n : Nat) (a b : Cluster K), Sound mem a → Mutual mem a → Dist a → toleranceLoop n a = .ok b →
      ∃ d, d.sites = a.sites ∧ Dist d ∧ d.iterate = .ok b ∧ errorSq d b ≤ a.tol ^ 2 := by
    intro n
    induction n with
    | zero => intro a b _ _ _ h; cases h
    | succ n ih =>
      intro a b hsa hma hda h
      unfold toleranceLoop at h
      rw [bind_eq_ok] at h
      obtain ⟨a1, h1, h⟩ := h
      have es := iterate_sites h1
      split at h
      · obtain ⟨d, hd1, hd2, hd3, hd4⟩ := ih a1 b (hsa.congr es) (Mutual.congr es hma) (iterate_dist hsa hma hda h1) h
        refine ⟨d, hd1.trans es, hd2, hd3, ?_⟩
        rw [iterate_shape h1] at hd4
        exact hd4
      · next hn => cases h; exact ⟨a, rfl, hda, h1, not_lt.1 hn⟩
  obtain ⟨d, hd1, hd2, hd3, hd4⟩ := key env.fuel c1.initProb _ (Sound.congr (c := c1) rfl hs1) (Mutual.congr (c := c1) rfl hm1)
    (initProb_dist hs1.wf (hi.visitsOnly hvo).prob hne) hsol
  have hds : d.sites = c.sites := hd1.trans e1
  have hid : ids d = ids c := ids_congr hds
  have hocc : ∀ i ∈ ids c, occ c' i = c'.probOn.at0 i := fun i hi => occ_eq (by rw [ids_congr e0]; exact hi)
  rw [htol1, errorSq_eq hd2.keys] at hd4
  have hsum : ∑ i ∈ ids c, (occ d i - occ c' i) ^ 2 ≤ c.tol ^ 2 := by
    rw [hid] at hd4
    refine le_trans (le_of_eq ?_) hd4
    apply Finset.sum_congr rfl
    intro i hi
    rw [occ_eq (by rw [hid]; exact hi), hocc i hi]
    rfl
  refine ⟨d, _, hds, hd2, hd3, fun i hi => ?_, hsum, fun i hi => ?_⟩
  · rw [hocc i hi, occ_eq (c := { c1 with probOn := c'.probOn }) (by
      have : ids { c1 with probOn := c'.probOn } = ids c := ids_congr e1
      rw [this]; exact hi)]
  · have hsd := hs.congr hds
    have hmd := Mutual.congr hds hm
    obtain ⟨hpos, hv⟩ := iterate_prob hsd hmd hd2 hd3
    have hst : ∑ i ∈ ids d, inflow mem d d.prob i = 1 - leaveProb mem d := by
      rw [← leak_add_stay hsd hd2, stay_eq]; rfl
    rw [hst] at hpos hv
    have hi' : i ∈ ids d := by rw [hid]; exact hi
    have e3 : ∑ n ∈ ids c, occ d n * hopProb mem c n i = inflow mem d d.prob i := by
      unfold inflow
      rw [hid, hopProb_congr hds]
      exact Finset.sum_congr rfl fun n hn => by rw [occ_eq (by rw [hid]; exact hn), mul_comm]; rfl
    have hcp : occ c' i = (inflow mem d d.prob i / (1 - leaveProb mem d) + d.prob i) / 2 := by
      rw [hocc i hi, ← hv i hi']; rfl
    have hdp : occ d i = d.prob i := occ_eq hi'
    have hle : (occ d i - occ c' i) ^ 2 ≤ c.tol ^ 2 :=
      (Finset.single_le_sum (f := fun i => (occ d i - occ c' i) ^ 2) (fun _ _ => sq_nonneg _) hi).trans hsum
    have habs := abs_le_of_sq_le_sq hle htol.le
    rw [e3]
    rw [hcp, hdp, abs_le] at habs
    rw [hdp, abs_le]
    constructor <;> linarith [habs.1, habs.2]

/-- The hypotheses of C47: the uniform distribution on sites 1 and 2 of the concrete cluster is not a fixed point, and an
update with tolerance 1/100 succeeds. -/
example : Dist witC0.initProb ∧ (∃ c', witC0.initProb.iterate = .ok c' ∧ occ c' 1 ≠ occ witC0.initProb 1) ∧
    ∃ c', (runOps witEnv witRates (Cluster.new 0) (witOps ++ [.setConvergenceMethod .tolerance])).2.update witEnv witRates =
      (.ok (), c') :=
  ⟨initProb_dist witC0_sound.wf ⟨by decide +kernel, by decide +kernel⟩ (by decide +kernel),
    ⟨(iterateN 1 witC0.initProb).toOption.getD witC0, by decide +kernel, by decide +kernel⟩,
    ⟨((runOps witEnv witRates (Cluster.new 0) (witOps ++ [.setConvergenceMethod .tolerance])).2.update witEnv witRates).2,
      by decide +kernel⟩⟩

end Mythical
