import Verif.Lemmas.ClusterVisits

/-! # Lemmas about the cluster: the occupation probabilities stay a distribution -/

set_option linter.unusedSectionVars false

namespace Mythical.Cluster
open Mythical ClusterSpec
variable {K : Type} [Field K] [LinearOrder K] [IsStrictOrderedRing K] [FloorRing K]
variable {env : Env K} {mem : Addr → K} {c c' : Cluster K}

/-- The occupation probabilities are positive, sum to one and are kept for exactly the sites of the cluster. -/
structure Dist (c : Cluster K) : Prop where
  keys : ProbKeys c
  pos : ∀ i ∈ ids c, 0 < c.probOn.at0 i
  one : ∑ i ∈ ids c, c.probOn.at0 i = 1

/-- The stored probabilities belong to sites of the cluster. -/
def ProbSub (c : Cluster K) : Prop := c.probOn.WF ∧ ∀ k ∈ c.probOn.keys, k ∈ c.sites.keys

theorem ProbKeys.sub (h : ProbKeys c) : ProbSub c := ⟨h.1, fun k hk => (h.2 k).1 hk⟩

theorem initProb_keys (h : ProbSub c) : ProbKeys c.initProb := by
  refine ⟨IMap.wf_foldl_set _ _ _ h.1, fun k => ?_⟩
  show k ∈ IMap.keys (List.foldl _ _ _) ↔ k ∈ c.sites.keys
  rw [IMap.keys_foldl_set]
  exact ⟨fun h' => h'.elim (fun x => x) (h.2 k), fun h' => Or.inl h'⟩

theorem initProb_at0 (hw : c.sites.WF) {i : Int} (hi : i ∈ ids c) :
    c.initProb.probOn.at0 i = 1 / (c.sites.length : K) := by
  obtain ⟨s, h⟩ := mem_ids.1 hi
  unfold initProb IMap.at0
  simp only
  rw [IMap.get?_foldl_set hw (fun _ => 1 / (c.sites.length : K)), h]
  rfl

theorem card_ids (hw : c.sites.WF) : (ids c).card = c.sites.length := by
  unfold ids IMap.keys
  rw [List.toFinset_card_of_nodup hw, List.length_map]

theorem initProb_dist (hw : c.sites.WF) (h : ProbSub c) (hne : c.sites ≠ []) : Dist c.initProb := by
  have hl : (0 : K) < c.sites.length := by
    exact_mod_cast List.length_pos_iff.2 hne
  refine ⟨initProb_keys h, fun i hi => ?_, ?_⟩
  · rw [initProb_at0 hw hi]; exact one_div_pos.2 hl
  · show ∑ i ∈ ids c, c.initProb.probOn.at0 i = 1
    rw [Finset.sum_congr rfl fun i hi => initProb_at0 hw hi, Finset.sum_const, card_ids hw, nsmul_eq_mul]
    exact mul_one_div_cancel hl.ne'

theorem inflow_nonneg (hs : Sound mem c) {p : Int → K} (hp : ∀ i ∈ ids c, 0 ≤ p i) (i : Int) : 0 ≤ inflow mem c p i :=
  Finset.sum_nonneg fun n hn => mul_nonneg (hs.hopProb_nonneg n i) (hp n hn)

/-- The total inflow is the probability of not leaving. -/
theorem sum_inflow (p : Int → K) :
    ∑ i ∈ ids c, inflow mem c p i = ∑ n ∈ ids c, p n * siteTime mem c n * inRate mem c n := by
  unfold inflow
  rw [Finset.sum_comm]
  apply Finset.sum_congr rfl
  intro n hn
  unfold hopProb siteTime inRate
  rw [Finset.mul_sum]
  apply Finset.sum_congr rfl
  intro i _
  ring

theorem sum_inflow_pos (hs : Sound mem c) {p : Int → K} (hp : ∀ i ∈ ids c, 0 < p i)
    {i j : Int} (hi : i ∈ ids c) (hj : j ∈ ids c) (hr : 0 < rate mem c i j) : 0 < ∑ i ∈ ids c, inflow mem c p i := by
  apply Finset.sum_pos' (fun k _ => inflow_nonneg hs (fun n hn => (hp n hn).le) k)
  refine ⟨j, hj, ?_⟩
  apply Finset.sum_pos' (fun n hn => mul_nonneg (hs.hopProb_nonneg n j) (hp n hn).le)
  exact ⟨i, hi, mul_pos ((hs.hopProb_pos_iff hi j).2 hr) (hp i hi)⟩

theorem iterate_dist (hs : Sound mem c) (hm : Mutual mem c) (hd : Dist c) (h : c.iterate = .ok c') : Dist c' := by
  have hne : ∑ i ∈ ids c, inflow mem c (fun n => c.probOn.at0 n) i ≠ 0 := by
    intro hz
    rw [iterate_zero hs hm hz] at h
    cases h
  have hnn : ∀ i, 0 ≤ inflow mem c (fun n => c.probOn.at0 n) i := inflow_nonneg hs fun n hn => (hd.pos n hn).le
  have hpos : 0 < ∑ i ∈ ids c, inflow mem c (fun n => c.probOn.at0 n) i :=
    lt_of_le_of_ne (Finset.sum_nonneg fun i _ => hnn i) hne.symm
  obtain ⟨P, hP, hk, hv⟩ := iterate_ok hs hm hd.keys hd.one hne
  rw [hP] at h
  cases h
  refine ⟨hk, fun i hi => ?_, ?_⟩
  · show 0 < P.at0 i
    rw [hv i hi]
    have := div_nonneg (hnn i) hpos.le
    have := hd.pos i hi
    linarith
  · show ∑ i ∈ ids c, P.at0 i = 1
    rw [Finset.sum_congr rfl hv, ← Finset.sum_div, Finset.sum_add_distrib, ← Finset.sum_div, hd.one, div_self hne]
    norm_num

theorem iterate_total (hs : Sound mem c) (hm : Mutual mem c) (hd : Dist c)
    {i j : Int} (hi : i ∈ ids c) (hj : j ∈ ids c) (hr : 0 < rate mem c i j) : ∃ c', c.iterate = .ok c' := by
  obtain ⟨P, hP, -, -⟩ := iterate_ok hs hm hd.keys hd.one (sum_inflow_pos hs hd.pos hi hj hr).ne'
  exact ⟨_, hP⟩

theorem _root_.Mythical.ClusterSpec.Sound.congr (h : c'.sites = c.sites) (hs : Sound mem c) : Sound mem c' :=
  ⟨h ▸ hs.wf, by rw [h]; exact hs.neighWF, by rw [h]; exact hs.pos, by rw [h]; exact hs.fresh⟩

theorem ids_congr (h : c'.sites = c.sites) : ids c' = ids c := by unfold ids; rw [h]
theorem rate_congr (h : c'.sites = c.sites) : rate mem c' = rate mem c := by funext i j; unfold rate; rw [h]
theorem reach_congr (h : c'.sites = c.sites) : reach c' = reach c := by unfold reach; rw [h]
theorem exits_congr (h : c'.sites = c.sites) : exits c' = exits c := by
  unfold exits; rw [ids_congr h, reach_congr h]
theorem outRate_congr (h : c'.sites = c.sites) : outRate mem c' = outRate mem c := by
  funext i; unfold outRate; rw [rate_congr h, reach_congr h]
theorem inRate_congr (h : c'.sites = c.sites) : inRate mem c' = inRate mem c := by
  funext i; unfold inRate; rw [rate_congr h, ids_congr h]
theorem exitRate_congr (h : c'.sites = c.sites) : exitRate mem c' = exitRate mem c := by
  funext i; unfold exitRate; rw [rate_congr h, exits_congr h]
theorem hopProb_congr (h : c'.sites = c.sites) : hopProb mem c' = hopProb mem c := by
  funext i j; unfold hopProb; rw [rate_congr h, outRate_congr h]
theorem siteTime_congr (h : c'.sites = c.sites) : siteTime mem c' = siteTime mem c := by
  funext i; unfold siteTime; rw [outRate_congr h]
theorem inflow_congr (h : c'.sites = c.sites) : inflow mem c' = inflow mem c := by
  funext p i; unfold inflow; rw [hopProb_congr h, ids_congr h]
theorem Mutual.congr (h : c'.sites = c.sites) (hm : Mutual mem c) : Mutual mem c' := by
  unfold Mutual; rw [rate_congr h, ids_congr h]; exact hm

theorem iterate_sites (h : c.iterate = .ok c') : c'.sites = c.sites := by rw [iterate_shape h]

theorem iterateN_dist {n : Nat} (hs : Sound mem c) (hm : Mutual mem c) (hd : Dist c)
    (h : iterateN n c = .ok c') : Dist c' := by
  induction n generalizing c with
  | zero => cases h; exact hd
  | succ n ih =>
    unfold iterateN at h
    rw [bind_eq_ok] at h
    obtain ⟨d, h1, h2⟩ := h
    have e := iterate_sites h1
    exact ih (hs.congr e) (Mutual.congr e hm) (iterate_dist hs hm hd h1) h2

theorem toleranceLoop_dist {n : Nat} (hs : Sound mem c) (hm : Mutual mem c) (hd : Dist c)
    (h : toleranceLoop n c = .ok c') : Dist c' := by
  induction n generalizing c with
  | zero => cases h
  | succ n ih =>
    unfold toleranceLoop at h
    rw [bind_eq_ok] at h
    obtain ⟨d, h1, h2⟩ := h
    have e := iterate_sites h1
    have hd' := iterate_dist hs hm hd h1
    split at h2
    · exact ih (hs.congr e) (Mutual.congr e hm) hd' h2
    · cases h2; exact hd'

theorem solveProb_dist (hs : Sound mem c) (hm : Mutual mem c) (hp : ProbSub c) (hne : c.sites ≠ [])
    (h : c.solveProb env = .ok c') : Dist c' := by
  have hd := initProb_dist hs.wf hp hne
  have hs' : Sound mem c.initProb := Sound.congr (c := c) rfl hs
  have hm' : Mutual mem c.initProb := Mutual.congr (c := c) rfl hm
  unfold solveProb at h
  simp only at h
  split at h
  · exact iterateN_dist hs' hm' hd h
  · exact iterateN_dist hs' hm' hd h
  · split at h
    · exact toleranceLoop_dist hs' hm' hd h
    · cases h; exact hd

theorem iterateN_total {n : Nat} (hs : Sound mem c) (hm : Mutual mem c) (hd : Dist c)
    {i j : Int} (hi : i ∈ ids c) (hj : j ∈ ids c) (hr : 0 < rate mem c i j) : ∃ c', iterateN n c = .ok c' := by
  induction n generalizing c with
  | zero => exact ⟨c, rfl⟩
  | succ n ih =>
    obtain ⟨d, h1⟩ := iterate_total hs hm hd hi hj hr
    have e := iterate_sites h1
    obtain ⟨c', h2⟩ := ih (hs.congr e) (Mutual.congr e hm) (iterate_dist hs hm hd h1)
      (by rw [ids_congr e]; exact hi) (by rw [ids_congr e]; exact hj) (by rw [rate_congr e]; exact hr)
    exact ⟨c', by unfold iterateN; rw [h1, ok_bind]; exact h2⟩

theorem toleranceLoop_total {n : Nat} (hs : Sound mem c) (hm : Mutual mem c) (hd : Dist c)
    {i j : Int} (hi : i ∈ ids c) (hj : j ∈ ids c) (hr : 0 < rate mem c i j) :
    (∃ c', toleranceLoop n c = .ok c') ∨ toleranceLoop n c = .error .outOfFuel := by
  induction n generalizing c with
  | zero => exact Or.inr rfl
  | succ n ih =>
    obtain ⟨d, h1⟩ := iterate_total hs hm hd hi hj hr
    have e := iterate_sites h1
    have h2 := ih (hs.congr e) (Mutual.congr e hm) (iterate_dist hs hm hd h1)
      (by rw [ids_congr e]; exact hi) (by rw [ids_congr e]; exact hj) (by rw [rate_congr e]; exact hr)
    unfold toleranceLoop
    rw [h1, ok_bind]
    split
    · exact h2
    · exact Or.inl ⟨d, rfl⟩

/-! ## The invariant of reachable clusters -/

/-- What holds for every cluster made by public calls. -/
structure CInv (c : Cluster K) : Prop where
  sites : c.sites.WF
  prob : ProbSub c
  visits : c.siteVisits.WF
  visitsSub : ∀ k ∈ c.siteVisits.keys, k ∈ c.sites.keys
  remaining : c.remaining.WF
  dwell : c.internalDwell.WF

theorem CInv.new (id : Int) : CInv (Cluster.new id : Cluster K) :=
  ⟨List.nodup_nil, ⟨List.nodup_nil, by simp [Cluster.new, IMap.keys]⟩, List.nodup_nil, by simp [Cluster.new, IMap.keys],
    List.nodup_nil, List.nodup_nil⟩

theorem CInv.visitsOnly (h : CInv c) (hv : VisitsOnly c c') : CInv c' := by
  obtain ⟨⟨v, p, rfl⟩, hk⟩ := hv
  have hk : IMap.keys v = c.siteVisits.keys := hk
  refine ⟨h.sites, h.prob, ?_, ?_, h.remaining, h.dwell⟩
  · have := h.visits
    unfold IMap.WF at this ⊢
    have e : v.map Prod.fst = c.siteVisits.map Prod.fst := hk
    show (v.map Prod.fst).Nodup
    rw [e]; exact this
  · show ∀ k ∈ IMap.keys v, _
    rw [hk]; exact h.visitsSub

theorem iterate_keys (hw : ProbKeys c) (h : c.iterate = .ok c') : ProbKeys c' := by
  unfold iterate at h
  rw [bind_eq_ok] at h
  obtain ⟨temp, h1, h⟩ := h
  have hk : IMap.keys temp = c.sites.keys := by
    unfold iterTemp at h1
    have hf := mapM_eq_ok h1
    clear h1 h
    generalize c.sites = l at hf
    induction hf with
    | nil => rfl
    | cons h _ ih =>
      rw [bind_eq_ok] at h
      obtain ⟨t, -, h⟩ := h
      cases h
      unfold IMap.keys at ih ⊢
      rw [List.map_cons, List.map_cons, ih]
  simp only at h
  split at h
  · cases h
  · split at h
    · cases h
    · cases h
      refine ⟨IMap.wf_foldl_set _ _ _ hw.1, fun k => ?_⟩
      show k ∈ IMap.keys (List.foldl _ _ _) ↔ k ∈ c.sites.keys
      rw [IMap.keys_foldl_set, IMap.keys_map, hk, hw.2, or_self]

theorem iterateN_keys {n : Nat} (hw : ProbKeys c) (h : iterateN n c = .ok c') : ProbKeys c' := by
  induction n generalizing c with
  | zero => cases h; exact hw
  | succ n ih =>
    unfold iterateN at h
    rw [bind_eq_ok] at h
    obtain ⟨d, h1, h2⟩ := h
    exact ih (iterate_keys hw h1) h2

theorem toleranceLoop_keys {n : Nat} (hw : ProbKeys c) (h : toleranceLoop n c = .ok c') : ProbKeys c' := by
  induction n generalizing c with
  | zero => cases h
  | succ n ih =>
    unfold toleranceLoop at h
    rw [bind_eq_ok] at h
    obtain ⟨d, h1, h2⟩ := h
    split at h2
    · exact ih (iterate_keys hw h1) h2
    · cases h2; exact iterate_keys hw h1

theorem solveProb_keys (hp : ProbSub c) (h : c.solveProb env = .ok c') : ProbKeys c' := by
  have hd := initProb_keys hp
  unfold solveProb at h
  simp only at h
  split at h
  · exact iterateN_keys hd h
  · exact iterateN_keys hd h
  · split at h
    · exact toleranceLoop_keys hd h
    · cases h; exact hd

theorem Rebuilt.probKeys {freqs : IMap Int} (hr : Rebuilt env mem freqs c c') (hp : ProbSub c) : ProbKeys c' := by
  have := solveProb_keys hp hr.solved
  unfold ProbKeys at this ⊢
  rw [hr.sites]
  exact this

theorem keys_foldl_set_list {V : Type} (f : Int → V) (l : List Int) (m : IMap V) (k : Int) :
    k ∈ (l.foldl (fun m id => IMap.set m id (f id)) m).keys ↔ k ∈ l ∨ k ∈ m.keys := by
  have := IMap.keys_foldl_set (l.map fun id => (id, ())) (fun ip => f ip.1) m k
  rw [List.foldl_map] at this
  rw [this]
  simp [IMap.keys, List.map_map, Function.comp_def]

theorem wf_foldl_set_list {V : Type} (f : Int → V) (l : List Int) (m : IMap V) (h : m.WF) :
    (l.foldl (fun m id => IMap.set m id (f id)) m).WF := by
  have := IMap.wf_foldl_set (l.map fun id => (id, ())) (fun ip => f ip.1) m h
  rw [List.foldl_map] at this
  exact this

theorem get?_foldl_set_list {V : Type} (f : Int → V) (l : List Int) (m : IMap V) (k : Int) :
    IMap.get? (l.foldl (fun m id => IMap.set m id (f id)) m) k = if k ∈ l then some (f k) else m.get? k := by
  induction l generalizing m with
  | nil => simp
  | cons a l ih =>
    rw [List.foldl_cons, ih, IMap.get?_set]
    by_cases h : k ∈ l
    · simp [h]
    · by_cases h2 : a = k
      · simp [h2]
      · simp [h, h2, Ne.symm h2]

theorem Rebuilt.siteVisits_keys {freqs : IMap Int} (hr : Rebuilt env mem freqs c c') (k : Int) :
    k ∈ c'.siteVisits.keys ↔ k ∈ c.sites.keys := by
  rw [hr.siteVisits, keys_foldl_set_list]
  simp [IMap.keys]

theorem CInv.rebuilt {freqs : IMap Int} (h : CInv c) (hr : Rebuilt env mem freqs c c') : CInv c' where
  sites := by rw [hr.sites]; exact h.sites
  prob := (hr.probKeys h.prob).sub
  visits := by rw [hr.siteVisits]; exact wf_foldl_set_list _ _ _ List.nodup_nil
  visitsSub := by
    intro k hk
    rw [hr.sites]
    exact (hr.siteVisits_keys k).1 hk
  remaining := by rw [hr.remaining]; exact h.remaining
  dwell := by rw [hr.dwell]; exact IMap.wf_foldl_set _ _ _ (IMap.wf_foldl_set _ _ _ h.dwell)

theorem CInv.update (h : CInv c) : CInv (c.update env mem).2 := by
  rcases update_cases (env := env) (mem := mem) c with ⟨freqs, c1, c2, h1, h2, h3⟩ | ⟨e, c1, hv, h3⟩
  · have hv := visitFreqsLoop_visitsOnly (c := c) [] c.siteVisits.keys
    rw [h1] at hv
    rw [h3]
    exact (h.visitsOnly hv).rebuilt (rebuild_ok h2)
  · rw [h3]; exact h.visitsOnly hv

/-- Growing the set of sites. -/
theorem CInv.grow (h : CInv c) {S : IMap (Site K)} {o : Int} {v : Int} (hw : S.WF) (hk : ∀ k ∈ c.sites.keys, k ∈ S.keys) :
    CInv { c with sites := S, occupied := o, visits := v } :=
  ⟨hw, ⟨h.prob.1, fun k hkk => hk k (h.prob.2 k hkk)⟩, h.visits, fun k hkk => hk k (h.visitsSub k hkk), h.remaining,
    h.dwell⟩

theorem addSite_ok {s : Site K} (h : c.addSite s = .ok c') :
    s.id ∉ c.sites.keys ∧ c' = { c with sites := c.sites.set s.id { s with clusterId := c.id } } := by
  unfold addSite at h
  split at h
  · cases h
  · next hn =>
    cases h
    exact ⟨fun hm => hn (IMap.has_iff.2 hm), rfl⟩

theorem CInv.addSite (h : CInv c) {s : Site K} (hr : c.addSite s = .ok c') : CInv c' := by
  obtain ⟨-, rfl⟩ := addSite_ok hr
  exact h.grow (h.sites.set _ _) fun k hk => by rw [IMap.mem_keys_set]; exact Or.inr hk

theorem CInv.addSites (h : CInv c) {l : List (Site K)} (hr : c.addSites l = .ok c') : CInv c' := by
  induction l generalizing c with
  | nil => cases hr; exact h
  | cons s l ih =>
    unfold Cluster.addSites at hr
    rw [bind_eq_ok] at hr
    obtain ⟨d, h1, h2⟩ := hr
    exact ih (h.addSite h1) h2

theorem insertIfNew_wf {m : IMap (Site K)} (h : m.WF) (is : Int × Site K) : (insertIfNew m is).WF := by
  unfold insertIfNew; split
  · exact h
  · exact h.set _ _

theorem insertIfNew_keys (m : IMap (Site K)) (is : Int × Site K) (k : Int) :
    k ∈ (insertIfNew m is).keys ↔ k ∈ m.keys ∨ k = is.1 := by
  unfold insertIfNew; split
  · next h =>
    have h := IMap.has_iff.1 h
    exact ⟨Or.inl, fun hh => hh.elim (fun x => x) fun e => by rw [e]; exact h⟩
  · rw [IMap.mem_keys_set, or_comm]

theorem insertAll_wf {l m : IMap (Site K)} (h : m.WF) : (l.foldl insertIfNew m).WF := by
  induction l generalizing m with
  | nil => exact h
  | cons x l ih => exact ih (insertIfNew_wf h x)

theorem insertAll_keys (l m : IMap (Site K)) (k : Int) :
    k ∈ (l.foldl insertIfNew m).keys ↔ k ∈ m.keys ∨ k ∈ l.keys := by
  induction l generalizing m with
  | nil => simp [IMap.keys]
  | cons x l ih =>
    rw [List.foldl_cons, ih, insertIfNew_keys]
    simp [IMap.keys, or_assoc]

theorem CInv.setVisit (h : CInv c) {n id : Int} (hr : c.setVisitFrequency n id = .ok c') : CInv c' := by
  obtain ⟨rfl, hk, -⟩ := setVisitFrequency_ok hr
  exact h.visitsOnly ⟨⟨_, _, rfl⟩, IMap.keys_set_of_mem hk⟩

theorem CInv.addBack (h : CInv c) {l : List (Int × Int)} (hr : c.addBackVisits l = .ok c') : CInv c' := by
  induction l generalizing c with
  | nil => cases hr; exact h
  | cons x l ih =>
    obtain ⟨id, n⟩ := x
    unfold addBackVisits at hr
    rw [bind_eq_ok] at hr
    obtain ⟨d, h1, h2⟩ := hr
    exact ih (h.setVisit h1) h2

theorem CInv.migrate (h : CInv c) (src : Cluster K) : CInv (c.migrateSitesFrom env mem src).2.1 := by
  unfold migrateSitesFrom
  split
  · exact h
  · next visits src1 _ =>
    simp only
    have hg : CInv { c with sites := src1.sites.foldl insertIfNew c.sites } :=
      h.grow (insertAll_wf h.sites) fun k hk => (insertAll_keys _ _ _).2 (Or.inl hk)
    have hu := hg.update (env := env) (mem := mem)
    split
    · next he => rw [he] at hu; exact hu
    · next he =>
      rw [he] at hu
      simp only at hu
      split
      · exact hu
      · next hb => exact hu.addBack hb

theorem CInv.simple (h : CInv c) {r : Except Fault (Cluster K)} (hr : ∀ c', r = .ok c' → CInv c') :
    CInv (c.simple r).2 := by
  unfold Cluster.simple; split
  · exact hr _ rfl
  · exact h

theorem occupySite_ok {id : Int} (h : c.occupySite id = .ok c') :
    id ∈ c.siteVisits.keys ∧ FitsInt (c.visits + 1) ∧
    c' = { c with visits := c.visits + 1, sites := c.sites.set id (c.siteAt id).setToOccupiedStatus } := by
  unfold occupySite at h
  split at h
  · next hk =>
    rw [bind_eq_ok] at h
    obtain ⟨v, hv, h⟩ := h
    obtain ⟨rfl, hf⟩ := chk_eq_ok.1 hv
    cases h
    exact ⟨IMap.has_iff.1 hk, hf, rfl⟩
  · cases h

theorem vacateSite_ok {id : Int} (h : c.vacateSite id = .ok c') :
    FitsInt ((c.siteAt id).occupied - 1) ∧ FitsInt (c.occupied - 1) ∧
    c' = { c with
      sites := c.sites.set id { c.siteAt id with occupied := (c.siteAt id).occupied - 1 }
      occupied := c.occupied - 1 } := by
  unfold vacateSite Site.vacate at h
  simp only [bind_eq_ok] at h
  obtain ⟨s, ⟨v, hv, hs⟩, o, ho, h⟩ := h
  obtain ⟨rfl, hf⟩ := chk_eq_ok.1 hv
  obtain ⟨rfl, hg⟩ := chk_eq_ok.1 ho
  cases hs
  cases h
  exact ⟨hf, hg, rfl⟩

theorem occupy_ok (h : c.occupy = .ok c') : c' = { c with occupied := c.occupied + 1, visits := c.visits + 1 } := by
  unfold occupy at h
  simp only [bind_eq_ok] at h
  obtain ⟨o, ho, v, hv, h⟩ := h
  obtain ⟨rfl, -⟩ := chk_eq_ok.1 ho
  obtain ⟨rfl, -⟩ := chk_eq_ok.1 hv
  cases h; rfl

theorem vacate_ok (h : c.vacate = .ok c') : c' = { c with occupied := c.occupied - 1 } := by
  unfold vacate at h
  simp only [bind_eq_ok] at h
  obtain ⟨o, ho, h⟩ := h
  obtain ⟨rfl, -⟩ := chk_eq_ok.1 ho
  cases h; rfl

/-- What a successful `getDwellTime` has done. -/
theorem getDwellTime_ok {wid : Int} {e t : K} (h : c.getDwellTime wid e = .ok (t, c')) :
    ∃ tau dt, c.tau = some tau ∧ c.timeInc = some dt ∧
      c' = { c with remaining := c.remaining.set wid ((c.remaining.get? wid).getD (e * tau) - dt) } ∧
      (dt < (c.remaining.get? wid).getD (e * tau) ∨ 0 < (c.remaining.get? wid).getD (e * tau)) ∧
      t = min ((c.remaining.get? wid).getD (e * tau)) dt := by
  unfold getDwellTime at h
  split at h
  · cases h
  · cases h
  · next tau dt ht hdt =>
    simp only at h
    split at h
    · next hgt =>
      simp only [Except.ok.injEq, Prod.mk.injEq] at h
      exact ⟨tau, dt, ht, hdt, h.2.symm, Or.inl hgt, by rw [← h.1, min_eq_right hgt.le]⟩
    · next hle =>
      split at h
      · next hpos =>
        simp only [Except.ok.injEq, Prod.mk.injEq] at h
        exact ⟨tau, dt, ht, hdt, h.2.symm, Or.inr hpos, by rw [← h.1, min_eq_left (not_lt.1 hle)]⟩
      · cases h

theorem pickNewSiteId_ok {wid n : Int} {u : K} (h : c.pickNewSiteId wid u = .ok (n, c')) :
    ∃ r, c.remaining.get? wid = some r ∧
      ((0 < r ∧ n = pickCum u c.cumInternal ∧ c' = c) ∨
       (r ≤ 0 ∧ n = pickCum u c.cumNeigh ∧ c' = { c with remaining := c.remaining.erase wid })) := by
  unfold pickNewSiteId at h
  split at h
  · cases h
  · next r hr =>
    refine ⟨r, hr, ?_⟩
    split at h
    · next hp => cases h; exact Or.inl ⟨hp, rfl, rfl⟩
    · next hp => cases h; exact Or.inr ⟨not_lt.1 hp, rfl, rfl⟩

theorem CInv.step (h : CInv c) (op : Op K) : CInv (c.step env mem op).2 := by
  cases op with
  | addSite s => exact h.simple fun _ hr => h.addSite hr
  | addSites l => exact h.simple fun _ hr => h.addSites hr
  | update =>
    have := h.update (env := env) (mem := mem)
    unfold Cluster.step; simp only
    split <;> (next he => rw [he] at this; exact this)
  | migrateSitesFrom src =>
    have := h.migrate (env := env) (mem := mem) src
    unfold Cluster.step; simp only
    split <;> (next he => rw [he] at this; exact this)
  | occupySite id =>
    refine h.simple fun _ hr => ?_
    obtain ⟨-, -, rfl⟩ := occupySite_ok hr
    exact h.grow (o := c.occupied) (h.sites.set _ _) fun k hk => by rw [IMap.mem_keys_set]; exact Or.inr hk
  | vacateSite id =>
    refine h.simple fun _ hr => ?_
    obtain ⟨-, -, rfl⟩ := vacateSite_ok hr
    exact h.grow (v := c.visits) (h.sites.set _ _) fun k hk => by rw [IMap.mem_keys_set]; exact Or.inr hk
  | removeWalker wid id =>
    refine h.simple fun _ hr => ?_
    obtain ⟨-, -, rfl⟩ := vacateSite_ok hr
    exact h.grow (v := c.visits) (h.sites.set _ _) fun k hk => by rw [IMap.mem_keys_set]; exact Or.inr hk
  | occupy => exact h.simple fun _ hr => by rw [occupy_ok hr]; exact ⟨h.1, h.2, h.3, h.4, h.5, h.6⟩
  | vacate => exact h.simple fun _ hr => by rw [vacate_ok hr]; exact ⟨h.1, h.2, h.3, h.4, h.5, h.6⟩
  | getDwellTime wid e =>
    unfold Cluster.step; simp only
    split
    · next hr =>
      obtain ⟨_, _, -, -, rfl, -, -⟩ := getDwellTime_ok hr
      exact ⟨h.1, h.2, h.3, h.4, h.5.set _ _, h.6⟩
    · exact h
  | pickNewSiteId wid u =>
    unfold Cluster.step; simp only
    split
    · next hr =>
      obtain ⟨_, -, ⟨-, -, rfl⟩ | ⟨-, -, rfl⟩⟩ := pickNewSiteId_ok hr
      · exact h
      · exact ⟨h.1, h.2, h.3, h.4, h.5.erase _, h.6⟩
    · exact h
  | getVisitFrequency id =>
    have := h.visitsOnly (getVisitFrequency_visitsOnly (c := c) id)
    unfold Cluster.step; simp only
    split <;> (next he => rw [he] at this; exact this)
  | setVisitFrequency n id => exact h.simple fun _ hr => h.setVisit hr
  | setResolution r =>
    refine h.simple fun _ hr => ?_
    unfold setResolution at hr
    split at hr
    · cases hr; exact ⟨h.1, h.2, h.3, h.4, h.5, h.6⟩
    · cases hr
  | setConvergenceMethod m => exact ⟨h.1, h.2, h.3, h.4, h.5, h.6⟩
  | setConvergenceTolerance t =>
    refine h.simple fun _ hr => ?_
    unfold setConvergenceTolerance at hr
    split at hr
    · cases hr; exact ⟨h.1, h.2, h.3, h.4, h.5, h.6⟩
    · cases hr
  | setConvergenceIterations n =>
    refine h.simple fun _ hr => ?_
    unfold setConvergenceIterations at hr
    split at hr
    · cases hr; exact ⟨h.1, h.2, h.3, h.4, h.5, h.6⟩
    · cases hr
  | setRandomSeed n => exact ⟨h.1, h.2, h.3, h.4, h.5, h.6⟩

theorem CInv.trace {evs : List (Event K)} (h : CInv c) (ht : Trace env c evs c') : CInv c' := by
  induction ht with
  | nil => exact h
  | cons mem hstep _ _ ih =>
    apply ih
    have e := congrArg Prod.snd hstep
    simp only at e
    rw [← e]
    exact h.step _

end Mythical.Cluster
