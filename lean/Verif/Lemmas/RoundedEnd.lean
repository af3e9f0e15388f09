import Verif.Lemmas.RoundedAcc
import Verif.Lemmas.RoundedLaw
import Verif.Lemmas.ClusterTables

/-! # The tables of a cluster from stored probabilities and time constants -/

set_option linter.unusedSectionVars false
set_option linter.unusedVariables false

namespace Mythical.Rounded
open Mythical RoundSpec ClusterSpec
variable {K : Type} [Field K] [LinearOrder K] [IsStrictOrderedRing K] [FloorRing K]
variable {fl : K → K} {ε η : K} {c c1 : Cluster K} {d : Nat} {δ φ : K} {mem : Addr → K} {env : Env K}

/-- A rule for one set of shares is one for another set close to it. -/
theorem PicksLike.shift {s s' : IMap K} {e e' d d' g : K} {pick : K → Int} (h : PicksLike s e d pick)
    (hk : ∀ k, k ∈ s.keys ↔ k ∈ s'.keys) (hs : ∀ n p p', s.get? n = some p → s'.get? n = some p' → |p - p'| ≤ g)
    (he : e ≤ e') (hd : d + g ≤ d') : PicksLike s' e' d' pick := by
  obtain ⟨last, h1, h2, h3⟩ := h
  refine ⟨last, h1.trans he, fun u hu => ⟨by rw [← hk]; exact (h2 u hu).1, (h2 u hu).2⟩, fun n p' hp' => ?_⟩
  obtain ⟨p, hp⟩ := IMap.mem_keys_iff_get?.1 ((hk n).2 (IMap.mem_keys_iff_get?.2 ⟨p', hp'⟩))
  obtain ⟨lo, hi, a1, a2, a3, a4, a5⟩ := h3 n p hp
  refine ⟨lo, hi, a1, a2, a3, ?_, a5⟩
  calc |hi - lo - p'| = |(hi - lo - p) + (p - p')| := by ring_nf
    _ ≤ |hi - lo - p| + |p - p'| := abs_add_le _ _
    _ ≤ d' := by linarith [hs n p p' hp hp']

/-! ## When the tables can be computed -/

theorem sum_pos_of {l : List K} (hne : l ≠ []) (h : ∀ x ∈ l, 0 < x) : 0 < l.sum := List.sum_pos l h hne

theorem sumVals_pos {a : IMap K} (hne : a ≠ []) (h : ∀ ip ∈ a, 0 < ip.2) : 0 < sumVals noRound a := by
  rw [sumVals_noRound]
  refine sum_pos_of (by simpa using hne) ?_
  intro x hx
  obtain ⟨ip, hip, rfl⟩ := List.mem_map.1 hx
  exact h ip hip

/-- The numbers the tables are computed from are positive. -/
structure Ready (mem : Addr → K) (c : Cluster K) : Prop where
  wf : c.sites.WF
  neighWF : ∀ is ∈ c.sites, is.2.neigh.WF
  rate : ∀ is ∈ c.sites, ∀ na ∈ is.2.neigh, 0 < mem na.2
  tau : ∀ is ∈ c.sites, 0 < is.2.tau
  tab : ∀ is ∈ c.sites, ∀ n ∈ is.2.neigh.keys, n ∈ is.2.prob.map Prod.fst ∧ 0 < stored is.2 n
  nonneg : ∀ is ∈ c.sites, ∀ np ∈ is.2.prob, 0 ≤ np.2
  onWF : c.probOn.WF
  keys : ∀ k, k ∈ c.probOn.keys ↔ k ∈ c.sites.keys
  on : ∀ ip ∈ c.probOn, 0 < ip.2
  res : 0 < c.resolution
  two : 1 < c.sites.length

theorem Ready.nonneg' (h : Ready mem c) : Nonneg mem c :=
  ⟨fun is hi na hn => (h.rate is hi na hn).le, fun is hi => (h.tau is hi).le, h.nonneg, fun ip hi => (h.on ip hi).le, h.res, h.onWF⟩

theorem Ready.of_lock {c' : Cluster K} (h : Ready mem c) (l : Lock c c') : Ready mem c' := by
  refine ⟨?_, ?_, ?_, ?_, ?_, ?_, ?_, ?_, ?_, ?_, ?_⟩
  · rw [l.sites]; exact h.wf
  · rw [l.sites]; exact h.neighWF
  · rw [l.sites]; exact h.rate
  · rw [l.sites]; exact h.tau
  · rw [l.sites]; exact h.tab
  · rw [l.sites]; exact h.nonneg
  · rw [l.on]; exact h.onWF
  · rw [l.on, l.sites]; exact h.keys
  · rw [l.on]; exact h.on
  · rw [l.res]; exact h.res
  · rw [l.sites]; exact h.two

theorem Ready.siteAt (h : Ready mem c) {is : Int × Site K} (his : is ∈ c.sites) : c.siteAt is.1 = is.2 := by
  unfold Cluster.siteAt; rw [IMap.get?_of_mem h.wf (k := is.1) (v := is.2) his]; rfl

theorem Ready.tauAt (h : Ready mem c) {i : Int} (hi : i ∈ c.sites.keys) : 0 < (c.siteAt i).tau := by
  obtain ⟨is, his, rfl⟩ := List.mem_map.1 hi
  rw [h.siteAt his]; exact h.tau is his

theorem Ready.onNe (h : Ready mem c) : c.probOn ≠ [] := by
  intro e
  obtain ⟨is, his⟩ := List.exists_mem_of_length_pos (lt_trans Nat.zero_lt_one h.two)
  have := (h.keys is.1).2 (List.mem_map.2 ⟨is, his, rfl⟩)
  rw [e] at this
  simp [IMap.keys] at this

theorem Ready.mem_site (h : Ready mem c) {ip : Int × K} (hip : ip ∈ c.probOn) : ip.1 ∈ c.sites.keys :=
  (h.keys ip.1).1 (List.mem_map.2 ⟨ip, hip, rfl⟩)

/-- The weights of the table of the sites inside, and their total. -/
def weight (c : Cluster K) (i : Int) : K := c.probOn.at0 i * (c.siteAt i).tau

theorem Ready.sum_weight (h : Ready mem c) :
    sumVals noRound (c.probOn.map fun ip => (ip.1, noRound (ip.2 * (c.siteAt ip.1).tau))) = ∑ i ∈ ids c, weight c i := by
  rw [sumVals_noRound, List.map_map]
  have e : c.probOn.map (Prod.snd ∘ fun ip : Int × K => (ip.1, noRound (ip.2 * (c.siteAt ip.1).tau))) = c.probOn.keys.map (weight c) := by
    unfold IMap.keys
    rw [List.map_map]
    refine List.map_congr_left fun ip hip => ?_
    show ip.2 * _ = c.probOn.at0 ip.1 * _
    rw [IMap.at0_of_mem h.onWF (k := ip.1) (v := ip.2) hip]
  have hnd : c.sites.keys.Nodup := h.wf
  have hp : c.probOn.keys.Perm c.sites.keys := (List.perm_ext_iff_of_nodup h.onWF hnd).2 h.keys
  rw [e, (hp.map _).sum_eq]
  unfold ids
  rw [List.sum_toFinset _ hnd]

theorem Ready.weight_pos (h : Ready mem c) {i : Int} (hi : i ∈ ids c) : 0 < weight c i := by
  have hk : i ∈ c.sites.keys := List.mem_toFinset.1 hi
  obtain ⟨ip, hip, rfl⟩ := List.mem_map.1 ((h.keys i).2 hk)
  unfold weight
  rw [IMap.at0_of_mem h.onWF (k := ip.1) (v := ip.2) hip]
  exact mul_pos (h.on ip hip) (h.tauAt hk)

theorem Ready.ids_ne (h : Ready mem c) : (ids c).Nonempty := by
  obtain ⟨is, his⟩ := List.exists_mem_of_length_pos (lt_trans Nat.zero_lt_one h.two)
  exact ⟨is.1, List.mem_toFinset.2 (List.mem_map.2 ⟨is, his, rfl⟩)⟩

/-- The table of the sites inside. -/
theorem Ready.internal (h : Ready mem c) : ∃ c1, calcHopToInternal noRound env c = .ok c1 ∧ Lock c c1 ∧
    (∀ k, k ∈ IMap.keys c1.probInternal ↔ k ∈ ids c) ∧ IMap.WF c1.probInternal ∧
    (∀ ip ∈ c1.probInternal, ip.2 = weight c ip.1 / ∑ i ∈ ids c, weight c i) ∧ c1.cumNeigh = c.cumNeigh := by
  have hpos : 0 < ∑ i ∈ ids c, weight c i := Finset.sum_pos (fun i hi => h.weight_pos hi) h.ids_ne
  unfold calcHopToInternal
  simp only
  rw [h.sum_weight, if_neg (fun q => hpos.ne' q.2)]
  generalize hL : ((c.probOn.map fun ip => (ip.1, noRound (ip.2 * (c.siteAt ip.1).tau))).map
      fun ip => (ip.1, noRound (ip.2 / ∑ i ∈ ids c, weight c i))) = L
  have hLk : L.map Prod.fst = c.probOn.keys := by rw [← hL]; simp [IMap.keys]
  have hp := (env.sort.perm L).map Prod.fst
  rw [hLk] at hp
  refine ⟨_, rfl, ⟨rfl, rfl, rfl⟩, ?_, ?_, ?_, rfl⟩
  · intro k
    refine (hp.mem_iff).trans ?_
    rw [h.keys]
    exact List.mem_toFinset.symm
  · exact hp.nodup_iff.2 h.onWF
  · intro ip hip
    have := (env.sort.perm L).mem_iff.1 hip
    rw [← hL, List.map_map] at this
    obtain ⟨jp, hjp, rfl⟩ := List.mem_map.1 this
    show jp.2 * _ / _ = c.probOn.at0 jp.1 * _ / _
    rw [IMap.at0_of_mem h.onWF (k := jp.1) (v := jp.2) hjp]
    rfl

/-! ## The table of the exits -/

/-- The contributions of one site to the exit table. -/
def leaving (c : Cluster K) (i : Int) (s : Site K) : List (Int × K) :=
  (s.neigh.keys.filter fun n => !c.siteIsInCluster n).map fun n => (n, stored s n * c.probOn.at0 i)

theorem Ready.probabilityTo (h : Ready mem c) {is : Int × Site K} (his : is ∈ c.sites) {n : Int} (hn : n ∈ is.2.neigh.keys) :
    is.2.probabilityTo n = .ok (stored is.2 n) := by
  unfold Site.probabilityTo stored
  rw [if_pos (IMap.has_iff.2 hn)]
  have := (h.tab is his n hn).1
  obtain ⟨p, hp⟩ := IMap.mem_keys_iff_get?.1 this
  rw [hp]
  simp only
  have key : ∀ l : IMap K, l.get? n = some p → ((l.find? fun np => np.1 == n).map Prod.snd).getD 0 = p := by
    intro l
    induction l with
    | nil => intro q; cases q
    | cons x l ih =>
      intro q
      rw [List.find?_cons]
      unfold IMap.get? at q
      by_cases e : x.1 = n
      · rw [if_pos e] at q; cases q; simp [e]
      · rw [if_neg e] at q
        have : (x.1 == n) = false := by simpa using e
        rw [this]; exact ih q
  rw [key _ hp]

theorem Ready.temp (h : Ready mem c) :
    hopNeighTemp noRound c = .ok (Cluster.addAll [] (c.sites.flatMap fun is => leaving c is.1 is.2)) := by
  have hinner : ∀ acc : IMap K, ∀ is ∈ c.sites,
      is.2.getNeighborSiteIds.foldlM (hopNeighStep noRound c is.1 is.2) acc = .ok (Cluster.addAll acc (leaving c is.1 is.2)) := by
    rintro acc ⟨i, s⟩ his
    have hstep : ∀ acc : IMap K, ∀ n ∈ s.getNeighborSiteIds, hopNeighStep noRound c i s acc n =
        .ok (if c.siteIsInCluster n then acc else acc.set n (acc.at0 n + stored s n * c.probOn.at0 i)) := by
      intro acc n hn
      unfold hopNeighStep
      split
      · rfl
      · rw [h.probabilityTo his hn, ok_bind]
        split
        · rfl
        · next q =>
          have : acc.at0 n = 0 := IMap.at0_of_not_mem (by rwa [IMap.has_iff] at q)
          rw [this, zero_add]
    simp only
    rw [foldlM_ok hstep, ok_inj]
    unfold Cluster.addAll leaving Site.getNeighborSiteIds
    rw [List.foldl_map, List.foldl_filter]
    congr 1
    funext acc n
    by_cases hn : c.siteIsInCluster n = true
    · simp [hn]
    · simp [hn]
  unfold hopNeighTemp
  rw [foldlM_ok hinner, ok_inj]
  unfold Cluster.addAll
  rw [List.foldl_flatMap]

/-- The weight of an exit. -/
def exitWeight (c : Cluster K) (n : Int) : K :=
  ∑ i ∈ ids c, if n ∈ (c.siteAt i).neigh.keys then stored (c.siteAt i) n * c.probOn.at0 i else 0

theorem Ready.table (h : Ready mem c) :
    let T := Cluster.addAll [] (c.sites.flatMap fun is => leaving c is.1 is.2)
    T.WF ∧ (∀ k, k ∈ T.keys ↔ k ∈ exits c) ∧ ∀ n, n ∉ ids c → T.at0 n = exitWeight c n := by
  intro T
  refine ⟨Cluster.addAll_wf (m := []) List.nodup_nil _, fun k => ?_, fun n hn => ?_⟩
  · show k ∈ (Cluster.addAll [] _).keys ↔ _
    rw [Cluster.addAll_keys]
    have : k ∉ IMap.keys ([] : IMap K) := by simp [IMap.keys]
    rw [or_iff_right this, List.mem_map]
    unfold exits reach
    rw [Finset.mem_sdiff, List.mem_toFinset, List.mem_flatMap]
    constructor
    · rintro ⟨x, hx, rfl⟩
      rw [List.mem_flatMap] at hx
      obtain ⟨is, his, hx⟩ := hx
      unfold leaving at hx
      rw [List.mem_map] at hx
      obtain ⟨n, hn, rfl⟩ := hx
      rw [List.mem_filter] at hn
      refine ⟨⟨is, his, hn.1⟩, fun hc => ?_⟩
      have := hn.2
      rw [Cluster.siteIsIn_iff.2 hc] at this
      cases this
    · rintro ⟨⟨is, his, hk⟩, hn⟩
      refine ⟨(k, stored is.2 k * c.probOn.at0 is.1), ?_, rfl⟩
      rw [List.mem_flatMap]
      refine ⟨is, his, ?_⟩
      unfold leaving
      rw [List.mem_map]
      refine ⟨k, List.mem_filter.2 ⟨hk, ?_⟩, rfl⟩
      rw [Bool.not_eq_true', ← Bool.not_eq_true, Cluster.siteIsIn_iff]
      exact hn
  · show (Cluster.addAll [] _).at0 n = _
    rw [Cluster.addAll_at0, IMap.at0_nil, zero_add, List.map_flatMap, Cluster.sum_flatMap']
    have : ∀ i s, (i, s) ∈ c.sites → (List.map (fun x => if x.1 = n then x.2 else 0) (leaving c i s)).sum =
        if n ∈ (c.siteAt i).neigh.keys then stored (c.siteAt i) n * c.probOn.at0 i else 0 := by
      intro i s his
      have hni : c.siteIsInCluster n = false := by rw [← Bool.not_eq_true, Cluster.siteIsIn_iff]; exact hn
      rw [h.siteAt his]
      unfold leaving
      rw [List.map_map]
      have hnd : (s.neigh.keys.filter fun n => !c.siteIsInCluster n).Nodup := List.Nodup.filter _ (h.neighWF (i, s) his)
      have e : ((s.neigh.keys.filter fun n => !c.siteIsInCluster n).map
          ((fun x : Int × K => if x.1 = n then x.2 else 0) ∘ fun n => (n, stored s n * c.probOn.at0 i))).sum =
          ∑ k ∈ (s.neigh.keys.filter fun n => !c.siteIsInCluster n).toFinset,
            if k = n then stored s k * c.probOn.at0 i else 0 := (List.sum_toFinset _ hnd).symm
      rw [e, Finset.sum_ite_eq']
      simp [hni]
    rw [IMap.sum_map_keys h.wf (fun i s => (List.map (fun x => if x.1 = n then x.2 else 0) (leaving c i s)).sum)
      (fun i => if n ∈ (c.siteAt i).neigh.keys then stored (c.siteAt i) n * c.probOn.at0 i else 0) this]
    rfl

theorem Ready.on_pos (h : Ready mem c) {i : Int} (hi : i ∈ c.sites.keys) : 0 < c.probOn.at0 i := by
  obtain ⟨ip, hip, rfl⟩ := List.mem_map.1 ((h.keys i).2 hi)
  rw [IMap.at0_of_mem h.onWF (k := ip.1) (v := ip.2) hip]; exact h.on ip hip

theorem Ready.exitWeight_pos (h : Ready mem c) {n : Int} (hn : n ∈ exits c) : 0 < exitWeight c n := by
  unfold exits reach at hn
  rw [Finset.mem_sdiff, List.mem_toFinset, List.mem_flatMap] at hn
  obtain ⟨⟨is, his, hk⟩, -⟩ := hn
  refine Finset.sum_pos' (fun i hi => ?_) ⟨is.1, List.mem_toFinset.2 (List.mem_map.2 ⟨is, his, rfl⟩), ?_⟩
  · have hi' : i ∈ c.sites.keys := List.mem_toFinset.1 hi
    obtain ⟨js, hjs, rfl⟩ := List.mem_map.1 hi'
    rw [h.siteAt hjs]
    split
    · next q => exact mul_nonneg (h.tab js hjs n q).2.le (h.on_pos hi').le
    · exact le_refl _
  · rw [h.siteAt his, if_pos hk]
    exact mul_pos (h.tab is his n hk).2 (h.on_pos (List.mem_map.2 ⟨is, his, rfl⟩))

theorem Ready.neighbors (h : Ready mem c) : ∃ c1, calcHopToNeighbors noRound env c = .ok c1 ∧ Lock c c1 ∧
    (∀ k, k ∈ IMap.keys c1.probNeigh ↔ k ∈ exits c) ∧ IMap.WF c1.probNeigh ∧
    (∀ ip ∈ c1.probNeigh, ip.2 = exitWeight c ip.1 / ∑ n ∈ exits c, exitWeight c n) ∧ c1.probInternal = c.probInternal := by
  obtain ⟨tw, tk, tv⟩ := h.table
  unfold calcHopToNeighbors
  rw [h.temp, ok_bind]
  generalize hT : Cluster.addAll [] (c.sites.flatMap fun is => leaving c is.1 is.2) = T at *
  have hin : ∀ ip ∈ T, ip.1 ∈ exits c := fun ip hip => (tk ip.1).1 (List.mem_map.2 ⟨ip, hip, rfl⟩)
  have hval : ∀ ip ∈ T, ip.2 = exitWeight c ip.1 := by
    intro ip hip
    have hx := hin ip hip
    have := tv ip.1 (by unfold exits at hx; exact (Finset.mem_sdiff.1 hx).2)
    rwa [IMap.at0_of_mem tw (k := ip.1) (v := ip.2) hip] at this
  have hs : sumVals noRound T = ∑ n ∈ exits c, exitWeight c n := by
    rw [sumVals_noRound]
    have e : T.map Prod.snd = T.keys.map (exitWeight c) := by
      unfold IMap.keys
      rw [List.map_map]
      exact List.map_congr_left fun ip hip => hval ip hip
    have hf : exits c = T.keys.toFinset := by ext k; rw [List.mem_toFinset, tk]
    have tn : T.keys.Nodup := tw
    rw [e, hf, List.sum_toFinset _ tn]
  simp only
  rw [if_neg]
  · refine ⟨_, rfl, ⟨rfl, rfl, rfl⟩, ?_, ?_, ?_, rfl⟩
    · intro k
      have hp := (env.sort.perm (T.map fun np => (np.1, noRound (np.2 * noRound (1 / sumVals noRound T))))).map Prod.fst
      rw [List.map_map] at hp
      rw [← tk]
      exact hp.mem_iff
    · have hp := (env.sort.perm (T.map fun np => (np.1, noRound (np.2 * noRound (1 / sumVals noRound T))))).map Prod.fst
      rw [List.map_map] at hp
      exact hp.nodup_iff.2 tw
    · intro ip hip
      obtain ⟨jp, hjp, rfl⟩ := List.mem_map.1 ((env.sort.perm _).mem_iff.1 hip)
      show jp.2 * (1 / _) = _
      rw [hval jp hjp, hs, mul_one_div]
  · rintro ⟨q1, q2⟩
    have : 0 < sumVals noRound T := sumVals_pos q1 fun ip hip => by rw [hval ip hip]; exact h.exitWeight_pos (hin ip hip)
    exact this.ne' q2

/-! ## Everything that follows from the occupation probabilities -/

theorem rates_pos (P : Int → Bool) (h : Ready mem c) {ir : Int × IMap K}
    (hi : ir ∈ (c.sites.map fun is => (is.1, ((is.2.neigh.filter fun na => P na.1).map fun na => (na.1, mem na.2) : IMap K))).filter
      fun ir => !ir.2.isEmpty) : ir.1 ∈ c.sites.keys ∧ 0 < sumVals noRound ir.2 ∧ ir.2 ≠ [] ∧ ∀ nr ∈ ir.2, 0 < nr.2 := by
  obtain ⟨hi, hne⟩ := List.mem_filter.1 hi
  obtain ⟨is, his, rfl⟩ := List.mem_map.1 hi
  have hne' : ((is.2.neigh.filter fun na => P na.1).map fun na => (na.1, mem na.2)) ≠ [] := by
    intro e; simp only [e] at hne; cases hne
  have hp : ∀ nr ∈ ((is.2.neigh.filter fun na => P na.1).map fun na => (na.1, mem na.2)), 0 < nr.2 := by
    intro nr hnr
    obtain ⟨na, hna, rfl⟩ := List.mem_map.1 hnr
    exact h.rate is his na (List.mem_of_mem_filter hna)
  exact ⟨List.mem_map.2 ⟨is, his, rfl⟩, sumVals_pos hne' hp, hne', hp⟩

theorem Ready.dwell (h : Ready mem c) : ∃ c1, calcInternalDwell noRound mem c = .ok c1 ∧ Lock c c1 ∧
    c1.probInternal = c.probInternal ∧ c1.probNeigh = c.probNeigh := by
  unfold calcInternalDwell
  simp only
  rw [if_neg]
  · exact ⟨_, rfl, ⟨rfl, rfl, rfl⟩, rfl, rfl⟩
  · rintro ⟨ir, hir, e⟩
    exact (rates_pos _ h hir).2.1.ne' e

theorem sumFirst_eq (l : IMap K) : sumFirst noRound l = sumVals noRound l := by
  cases l with
  | nil => rfl
  | cons x l =>
    show l.foldl (fun t nr => t + nr.2) x.2 = l.foldl (fun t nr => t + nr.2) (0 + x.2)
    rw [zero_add]

theorem Ready.hopOff (h : Ready mem c) (he : c.sumEscape = (c.ratesToNeighbors mem).map fun ir => (ir.1, sumFirst noRound ir.2)) :
    ∃ c1, calcHopOff noRound mem c = .ok c1 ∧ Lock c c1 ∧ c1.probInternal = c.probInternal ∧ c1.probNeigh = c.probNeigh := by
  have flat : sumRatesOff noRound mem c = ((c.ratesToNeighbors mem).map fun ir => sumVals noRound ir.2).sum := by
    unfold sumRatesOff
    have : ∀ (l : IMap (IMap K)) (t : K), l.foldl (fun t ir => ir.2.foldl (fun t nr => noRound (t + nr.2)) t) t =
        t + (l.map fun ir => sumVals noRound ir.2).sum := by
      intro l
      induction l with
      | nil => intro t; simp
      | cons x l ih =>
        intro t
        rw [List.foldl_cons, ih, List.map_cons, List.sum_cons, ← add_assoc]
        congr 1
        have : ∀ (m : IMap K) (t : K), m.foldl (fun t nr => noRound (t + nr.2)) t = t + sumVals noRound m := by
          intro m t
          rw [sumVals_noRound]
          induction m generalizing t with
          | nil => simp
          | cons y m ih2 => rw [List.foldl_cons, ih2, List.map_cons, List.sum_cons, ← add_assoc]
        exact this _ _
    rw [this, zero_add]
  have hpos : ∀ ir ∈ c.ratesToNeighbors mem, 0 < sumVals noRound ir.2 := fun ir hir =>
    (rates_pos (fun n => !c.siteIsInCluster n) h hir).2.1
  have hen : ∀ i, 0 ≤ c.sumEscape.at0 i := by
    intro i
    unfold IMap.at0
    cases e : c.sumEscape.get? i with
    | none => exact le_refl _
    | some x =>
      have := IMap.mem_of_get? e
      rw [he] at this
      obtain ⟨ir, hir, q⟩ := List.mem_map.1 this
      cases q
      show 0 ≤ sumFirst noRound ir.2
      rw [sumFirst_eq]; exact (hpos ir hir).le
  unfold calcHopOff
  rw [if_neg (by have := h.two; omega)]
  simp only
  split
  · next q =>
    have hnil : c.ratesToNeighbors mem = [] := by
      by_contra hne
      have : 0 < sumRatesOff noRound mem c := by
        rw [flat]
        refine sum_pos_of (by simpa using hne) ?_
        intro x hx
        obtain ⟨ir, hir, rfl⟩ := List.mem_map.1 hx
        exact hpos ir hir
      exact this.ne' q
    rw [hnil] at he
    rw [if_neg]
    · exact ⟨_, rfl, ⟨rfl, rfl, rfl⟩, rfl, rfl⟩
    · rw [List.any_eq_true]
      rintro ⟨ip, -, e⟩
      rw [he] at e
      simp [IMap.at0] at e
  · next q =>
    have hoff : 0 < sumRatesOff noRound mem c := by
      refine lt_of_le_of_ne ?_ (Ne.symm q)
      rw [flat]
      refine List.sum_nonneg ?_
      intro x hx
      obtain ⟨ir, hir, rfl⟩ := List.mem_map.1 hx
      exact (hpos ir hir).le
    have htau : 0 < c.probOn.foldl (fun t ip => noRound (t + (c.siteAt ip.1).tau)) 0 := by
      have : ∀ (l : IMap K) (t : K), l.foldl (fun t ip => noRound (t + (c.siteAt ip.1).tau)) t =
          t + (l.map fun ip => (c.siteAt ip.1).tau).sum := by
        intro l
        induction l with
        | nil => intro t; simp
        | cons x l ih => intro t; rw [List.foldl_cons, ih, List.map_cons, List.sum_cons, ← add_assoc]
      rw [this, zero_add]
      refine sum_pos_of (by simpa using h.onNe) ?_
      intro x hx
      obtain ⟨ip, hip, rfl⟩ := List.mem_map.1 hx
      exact h.tauAt (h.mem_site hip)
    rw [if_neg htau.ne', if_neg]
    · exact ⟨_, rfl, ⟨rfl, rfl, rfl⟩, rfl, rfl⟩
    · rw [sumVals_noRound, List.map_map]
      -- some site has an exit
      obtain ⟨ir, hir⟩ : ∃ ir, ir ∈ c.ratesToNeighbors mem := by
        by_contra hne
        have : c.ratesToNeighbors mem = [] := List.eq_nil_iff_forall_not_mem.2 fun x hx => hne ⟨x, hx⟩
        apply q; rw [flat, this]; rfl
      have hk := (rates_pos (fun n => !c.siteIsInCluster n) h hir).1
      obtain ⟨ip, hip, e⟩ := List.mem_map.1 ((h.keys _).2 hk)
      have hwf : (c.sumEscape).WF := by
        rw [he]
        unfold IMap.WF
        rw [List.map_map]
        exact rates_wf (fun n => !c.siteIsInCluster n) h.wf
      have hesc : 0 < c.sumEscape.at0 ip.1 := by
        have : (ir.1, sumFirst noRound ir.2) ∈ c.sumEscape := by rw [he]; exact List.mem_map.2 ⟨ir, hir, rfl⟩
        rw [e, IMap.at0_of_mem hwf this, sumFirst_eq]
        exact hpos ir hir
      refine ne_of_gt (lt_of_lt_of_le ?_ (List.single_le_sum (l := c.probOn.map _) ?_ _ (List.mem_map.2 ⟨ip, hip, rfl⟩)))
      · show 0 < ip.2 * c.sumEscape.at0 ip.1 / _ * (c.siteAt ip.1).tau / _
        have := h.tauAt (h.mem_site hip)
        have := h.on ip hip
        exact div_pos (mul_pos (div_pos (mul_pos this hesc) hoff) ‹_›) htau
      · intro x hx
        obtain ⟨jp, hjp, rfl⟩ := List.mem_map.1 hx
        show 0 ≤ jp.2 * c.sumEscape.at0 jp.1 / _ * (c.siteAt jp.1).tau / _
        have h1 := h.tauAt (h.mem_site hjp)
        have h2 := h.on jp hjp
        exact div_nonneg (mul_nonneg (div_nonneg (mul_nonneg h2.le (hen _)) hoff.le) h1.le) htau.le

theorem Ready.between (h : Ready mem c) :
    ∃ c1, calcHopBetween noRound mem c = .ok c1 ∧ Lock c c1 ∧ c1.probInternal = c.probInternal ∧ c1.probNeigh = c.probNeigh := by
  unfold calcHopBetween
  rw [if_neg (by have := h.two; omega)]
  simp only
  rw [if_neg]
  · exact ⟨_, rfl, ⟨rfl, rfl, rfl⟩, rfl, rfl⟩
  · rintro ⟨q1, q2⟩
    refine (sumVals_pos q1 ?_).ne' q2
    intro ip hip
    obtain ⟨ir, hir, rfl⟩ := List.mem_map.1 hip
    obtain ⟨a1, a2, -, -⟩ := rates_pos (fun n => c.siteIsInCluster n) h hir
    exact mul_pos (mul_pos a2 (h.tauAt a1)) (h.on_pos a1)

theorem Ready.escape (h : Ready mem c) :
    ∃ c1, calcEscape noRound mem c = .ok c1 ∧ c1.probInternal = c.probInternal ∧ c1.probNeigh = c.probNeigh := by
  unfold calcEscape
  rw [if_neg h.res.ne']
  split
  · exact ⟨_, rfl, rfl, rfl⟩
  · exact ⟨_, rfl, rfl, rfl⟩

/-- Without rounding, the tables can be computed from such numbers. -/
theorem Ready.derive (h : Ready mem c) : ∃ c1, derive noRound env mem c = .ok c1 ∧
    ((∀ k, k ∈ IMap.keys c1.probInternal ↔ k ∈ ids c) ∧ IMap.WF c1.probInternal ∧
      ∀ ip ∈ c1.probInternal, ip.2 = weight c ip.1 / ∑ i ∈ ids c, weight c i) ∧
    (∀ k, k ∈ IMap.keys c1.probNeigh ↔ k ∈ exits c) ∧ IMap.WF c1.probNeigh ∧
      ∀ ip ∈ c1.probNeigh, ip.2 = exitWeight c ip.1 / ∑ n ∈ exits c, exitWeight c n := by
  obtain ⟨c1, e1, l1, k1, w1, v1, -⟩ := h.internal (env := env)
  have h1 := h.of_lock l1
  obtain ⟨c2, e2, l2, k2, w2, v2, p2⟩ := h1.neighbors (env := env)
  have h2 := h1.of_lock l2
  obtain ⟨c3, e3, l3, p3, q3⟩ := h2.dwell
  have h3 := h2.of_lock l3
  have l4 : Lock c3 (calcSumInternal noRound mem (calcSumEscape noRound mem c3)) := ⟨rfl, rfl, rfl⟩
  have h4 := h3.of_lock l4
  obtain ⟨c5, e5, l5, p5, q5⟩ := h4.hopOff (by rw [l4.toNeighbors]; rfl)
  have h5 := h4.of_lock l5
  obtain ⟨c6, e6, l6, p6, q6⟩ := h5.between
  have h6 := h5.of_lock l6
  obtain ⟨c7, e7, p7, q7⟩ := h6.escape
  refine ⟨calcInternalTau noRound mem c7, ?_, ?_⟩
  · unfold Rounded.derive
    rw [e1, ok_bind, e2, ok_bind, e3, ok_bind]
    simp only
    rw [e5, ok_bind, e6, ok_bind, e7, ok_bind]
    rfl
  · have keep : (calcInternalTau noRound mem c7).probInternal = c7.probInternal ∧
        (calcInternalTau noRound mem c7).probNeigh = c7.probNeigh := by
      unfold calcInternalTau; split <;> exact ⟨rfl, rfl⟩
    have hI : (calcInternalTau noRound mem c7).probInternal = c1.probInternal := by
      rw [keep.1, p7, p6, p5]; show c3.probInternal = _; rw [p3, p2]
    have hN : (calcInternalTau noRound mem c7).probNeigh = c2.probNeigh := by
      rw [keep.2, q7, q6, q5]; show c3.probNeigh = _; rw [q3]
    have hx : exits c1 = exits c := Cluster.exits_congr l1.sites
    have hwt : ∀ n, exitWeight c1 n = exitWeight c n := by
      intro n
      unfold exitWeight
      rw [Cluster.ids_congr l1.sites, l1.on]
      simp only [l1.siteAt]
    rw [hI, hN]
    refine ⟨⟨k1, w1, v1⟩, by rw [← hx]; exact k2, w2, ?_⟩
    intro ip hip
    rw [v2 ip hip, hx, hwt]
    simp only [hwt]

end Mythical.Rounded
