import Verif.Lemmas.SystemLive
import Verif.Lemmas.SystemTwoWay
import Verif.Lemmas.ClusterPace
import Verif.Spec.SystemStays

/-! # How long the walkers stay: lemmas -/

set_option linter.unusedSectionVars false
set_option linter.unusedVariables false

namespace Mythical.World
open Mythical SystemSpec
variable {K : Type} [Field K] [LinearOrder K] [IsStrictOrderedRing K] [FloorRing K]
variable {w w' w1 w2 w3 : World K} {env : Env K} {mem : Addr → K}

/-! ## Rates -/

/-- `RatesWithin` in terms of the sites. -/
def Within (mem : Addr → K) (r R : K) (w : World K) : Prop :=
  ∀ i s, w.sites.get? i = some s → s.neigh ≠ [] ∧ (∀ na ∈ s.neigh, r ≤ mem na.2) ∧ s.sumRates mem ≤ R

theorem within_iff {r R : K} : RatesWithin mem r R w ↔ Within mem r R w := by
  unfold RatesWithin Within
  constructor
  · intro h i s hs
    have := h i (known_iff.2 (by rw [hs]; simp))
    unfold rateOut ratesOf at this
    rw [hs] at this
    rw [Site.sumRates_eq]
    exact this
  · intro h i hi
    obtain ⟨s, hs⟩ := Option.ne_none_iff_exists'.1 (known_iff.1 hi)
    unfold rateOut ratesOf
    rw [hs]
    have := h i s hs
    rw [Site.sumRates_eq] at this
    exact this

theorem Within.same {r R : K} (h : Within mem r R w') (e : SameRates w w') : Within mem r R w := by
  intro i s hs
  obtain ⟨t, ht, hn⟩ := e.symm.some hs
  have := h i t ht
  rw [Site.sumRates_eq, ← hn] at this
  rw [Site.sumRates_eq]
  exact this

/-- The rates of a call's result bound those it has started with. -/
theorem Within.step {r R : K} (hst : Struct env w) {op : Op K} {res : Except Fault Int} (h : w.step env mem op = (res, w'))
    (hr : Cluster.GoesOn res) (hhop : ∀ wid h a, op = .hop wid h a → ∃ n, res = .ok n) {mem' : Addr → K} (hw : Within mem' r R w') :
    Within mem' r R w := by
  rcases step_cases hst h hr hhop with hk | ⟨m, -, ha⟩ | ⟨wid, k, a, j, w1, w2, w3, basin, -, -, hk, rfl, hgr, rfl⟩
  · exact hw.same fun i => hk.neigh i
  · intro i s hs
    exact hw i s (ha.old hs)
  · refine hw.same fun i => ?_
    have h1 := hk.neigh i
    have h2 := hgr.grew.neigh i
    exact h2.trans h1

/-! ## Constants of the clusters -/

/-- The escape time constant and the resolution of a cluster are within bounds. -/
def Sized (r R θ : K) (x : Cluster K) : Prop :=
  ∃ t, x.tau = some t ∧ 1 / R ≤ t ∧ t ≤ R / (r * r) ∧ x.resolution ≤ max 2 (R / (r * r * θ))

theorem bounded_of (hst : Struct env w) (htw : Twins w) (hg : Good mem w) {k : Int} {x : Cluster K}
    (hx : w.clusters.get? k = some x) (hset : Settled mem w x) (hu : Cluster.Upd env mem x) {r R : K} (hr0 : 0 < r)
    (hw : Within mem r R w) : ∃ t, x.tau = some t ∧ 1 / R ≤ t ∧ t ≤ R / (r * r) := by
  obtain ⟨c1, freqs, c2, hi, hm, ht, hreb, e1, e2, e9, e10, e3, e4, e5, e6, e7, e8⟩ := hu
  have hwf := (hst.cinv hx).sites
  have hlink : ∀ i ∈ x.sites.keys, ∃ j ∈ x.sites.keys, ∃ r, BasinSpec.rate mem w.sites i j = some r := by
    intro i hi'
    obtain ⟨y, hy, hne⟩ := other_of_length hwf hset.size i
    exact reach_first (hset.conn i hi' y hy) hne
  obtain ⟨hs, hl⟩ := sound_of_conn hst htw hg hx hlink
  have hmut : ClusterSpec.Mutual mem x := by
    intro i hi' j hj hr
    unfold ClusterSpec.ids at hi' hj
    rw [List.mem_toFinset] at hi' hj
    obtain ⟨s, hs'⟩ := IMap.mem_keys_iff_get?.1 hi'
    obtain ⟨t, ht'⟩ := IMap.mem_keys_iff_get?.1 hj
    rw [hs.rate_pos_iff hs'] at hr
    rw [hs.rate_pos_iff ht']
    exact (rate_member_iff (mem := mem) hst htw hx ht').1 (hset.back i hi' j hj ((rate_member_iff hst htw hx hs').2 hr))
  have hs2 : ClusterSpec.Sound mem c2 := hs.congr e1.symm
  have key : ∀ i ∈ ClusterSpec.ids c2, ∃ s t, c2.sites.get? i = some s ∧ w.sites.get? i = some t ∧ s.neigh = t.neigh := by
    intro i hi'
    unfold ClusterSpec.ids at hi'
    rw [List.mem_toFinset, ← e1] at hi'
    obtain ⟨s, hs'⟩ := IMap.mem_keys_iff_get?.1 hi'
    obtain ⟨-, t, ht, -⟩ := hst.member k x i s hx hs'
    exact ⟨s, t, e1 ▸ hs', ht, (htw k x i s t hx hs' ht).neigh⟩
  rw [e2]
  refine hreb.tau_bounds hi hs2 (Cluster.Mutual.congr e1.symm hmut) (hl.congr e1.symm) hr0 ?_ ?_
    (hreb.hasExit hs2 (by rw [← e2, hset.tau.choose_spec.1]; nofun))
  · intro i hi' j hpos
    obtain ⟨s, t, h1, h2, h3⟩ := key i hi'
    have hj := (hs2.rate_pos_iff h1 j).1 hpos
    obtain ⟨a, ha⟩ := IMap.mem_keys_iff_get?.1 hj
    have e : ClusterSpec.rate mem c2 i j = mem a := by
      unfold ClusterSpec.rate
      rw [h1]
      show (match s.neigh.get? j with | none => 0 | some a => mem a) = mem a
      rw [ha]
    rw [e]
    exact (hw i t h2).2.1 (j, a) (h3 ▸ IMap.mem_of_get? ha)
  · intro i hi'
    obtain ⟨s, t, h1, h2, h3⟩ := key i hi'
    rw [Cluster.outRate_eq h1 (hs2.neighWF i s h1)]
    have := (hw i t h2).2.2
    rw [Site.sumRates_eq] at this ⊢
    rw [h3]; exact this

/-- The resolution of a new cluster. -/
theorem created_resolution {basin : List Int} {M : K} {c0 : Cluster K} {id : Int} (hM : 0 ≤ M)
    (hb : buildCluster env mem w id basin M = .ok c0) {t res : K} (e1 : c0.tau = some t) (e2 : 0 < t) (s1 : w.timeRes = some res)
    (s2 : 2 * M < res) : c0.resolution = if t / res < 2 then 2 else t / res := by
  obtain ⟨-, -, -, tau, res', b1, b2, b3, b4⟩ := build_upd hb
  rw [e1] at b1; cases b1
  rw [s1] at b2; cases b2
  unfold chosenResolution at b3
  rw [if_neg (by push Not; exact fun _ => e2)] at b3
  simp only [Except.ok.injEq] at b3
  have hc : M = 0 ∨ t / res < t / (2 * M) := by
    rcases hM.eq_or_lt with h0 | h0
    · exact .inl h0.symm
    · exact .inr (div_lt_div_of_pos_left e2 (by linarith) s2)
  rw [if_pos hc] at b3
  exact b3.symm

/-- All clusters are within the bounds. -/
def AllSized (r R θ : K) (w : World K) : Prop := ∀ k x, w.clusters.get? k = some x → Sized r R θ x

theorem AllSized.keep {r R θ : K} (h : AllSized r R θ w) (hk : Keep env w w') : AllSized r R θ w' := by
  intro k y hy
  obtain ⟨x, hx, hr⟩ := rel_some (hy ▸ hk.cluster k)
  have := h k x hx
  unfold Sized at this ⊢
  rw [hr.eq]
  exact this

theorem AllSized.grained {r R θ : K} (hst : Struct env w) (htw : Twins w) (hg : Good mem w) (hall : AllSettled mem w)
    (hz : AllSized r R θ w) {a : Choices K} {v : Int} {basin : List Int} (h : Grained' env mem w w' a v basin) (hr0 : 0 < r)
    (hθ : 0 < θ) (hR : 0 < R) (hres : ∀ t, w.timeRes = some t → θ ≤ t) (hw : Within mem r R w') : AllSized r R θ w' := by
  have hst' := hst.grew h.grew
  have htw' := htw.grew hst h.grew
  have hg' := hg.grew h.grew
  have hall' := hall.grained hst htw hg h
  intro k x hx
  have hx0 := hx
  cases h.grew with
  | created c0 hb hc =>
    rw [hc.cluster] at hx
    split at hx
    · cases hx
      have hset := hall' k _ hx0
      have hse := seedCluster_eq w c0
      obtain ⟨t, t1, t2, t3⟩ := bounded_of hst' htw' hg' hx0 hset (by rw [hse]; exact (build_upd hb).1) hr0 hw
      refine ⟨t, t1, t2, t3, ?_⟩
      obtain ⟨res, s1, s2, -⟩ := satisfies_true (fun i s hs => (hg i s hs).1) h.sat
      have ht0 : 0 < t := (one_div_pos.2 hR).trans_le t2
      rw [hse] at t1 ⊢
      have t1 : c0.tau = some t := t1
      show c0.resolution ≤ _
      rw [created_resolution (maxTime_nonneg a.times) hb t1 ht0 s1 s2]
      split
      · exact le_max_left _ _
      · refine le_trans ?_ (le_max_right _ _)
        have hθ' := hres res s1
        calc t / res ≤ t / θ := div_le_div_of_nonneg_left ht0.le hθ hθ'
          _ ≤ R / (r * r) / θ := div_le_div_of_nonneg_right t3 hθ.le
          _ = R / (r * r * θ) := by rw [div_div]
    · exact hz k x hx
  | merged sc fav c d erased hsc hf hu hm hmg =>
    rw [hmg.cluster] at hx
    split at hx
    · next e =>
      subst e
      cases hx
      have hset := hall' k _ hx0
      have hcs := hall k c hmg.target
      obtain ⟨d', hd', hu, -⟩ := merge_upd hst a.order_perm hsc hmg.target hcs.method hcs.tol hcs.seen hm
      rw [hx0] at hd'; cases hd'
      obtain ⟨t, t1, t2, t3⟩ := bounded_of hst' htw' hg' hx0 hset hu hr0 hw
      obtain ⟨c', d', h1, h2, hfr⟩ := merge_frame' hst a.order_perm hsc hm
      rw [hmg.target] at h1; cases h1
      rw [hx0] at h2; cases h2
      obtain ⟨-, -, -, -, hrs⟩ := hz k c hmg.target
      exact ⟨t, t1, t2, t3, by rw [hfr.resolution]; exact hrs⟩
    · split at hx
      · cases hx
      · exact hz k x hx

/-- The time resolution that is in force. -/
theorem Trace.timeRes {n : Nat} {evs : List (Event K)} (ht : Trace env (World.new n) evs w) (hu : HopsReturn evs) {θ : K}
    (hθ : ResolutionsAtLeast θ evs) {t : K} (h : w.timeRes = some t) : θ ≤ t := by
  generalize hw0 : (World.new n : World K) = w0 at ht
  induction ht with
  | nil => subst hw0; cases h
  | @snoc w1 w' evs op res mem' ht hs hr ih =>
    obtain ⟨hu1, hu2⟩ := hopsReturn_snoc hu
    subst hw0
    have hst := ht.struct hu1
    rcases step_timeRes_eq hst hs hr hu2 with e | ⟨t', rfl, hpos, e⟩
    · exact ih hu1 (fun ev he => hθ ev (List.mem_append_left _ he)) (e ▸ h)
    · rw [e] at h; cases h
      have hres : ∃ n, res = .ok n := by
        simp only [step, Prod.mk.injEq] at hs
        rw [← hs.1]
        unfold World.setTimeResolution
        rw [if_neg (not_le.2 hpos)]
        exact ⟨_, rfl⟩
      obtain ⟨n', rfl⟩ := hres
      exact hθ _ (List.mem_append_right _ (List.mem_singleton_self _)) _ n' rfl rfl

theorem Trace.sized {n : Nat} {evs : List (Event K)} (ht : Trace env (World.new n) evs w) (hu : HopsReturn evs)
    (hf : RatesFixed mem evs) (hp : RatesPositive mem evs) {r R θ : K} (hr0 : 0 < r) (hR : 0 < R) (hθ0 : 0 < θ)
    (hθ : ResolutionsAtLeast θ evs) (hw : Within mem r R w) : AllSized r R θ w := by
  generalize hw0 : (World.new n : World K) = w0 at ht
  induction ht with
  | nil => subst hw0; intro k x hx; cases hx
  | @snoc w1 w' evs op res mem' ht h hr ih =>
    obtain ⟨hu1, hu2⟩ := hopsReturn_snoc hu
    have hf1 : RatesFixed mem evs := fun ev he => hf ev (List.mem_append_left _ he)
    have hp1 : RatesPositive mem evs := fun ev he => hp ev (List.mem_append_left _ he)
    have hθ1 : ResolutionsAtLeast θ evs := fun ev he => hθ ev (List.mem_append_left _ he)
    have hmem : mem' = mem := hf _ (List.mem_append_right _ (List.mem_singleton_self _))
    subst hmem
    subst hw0
    have hst := ht.struct hu1
    obtain ⟨h1, h2⟩ := ht.static hu1
    have hg := ht.good hu1 hf1 hp1
    have hall := ht.settled hu1 hf1 hp1
    have ha := ih hu1 hf1 hp1 hθ1 (hw.step hst h hr hu2)
    rcases step_cases hst h hr hu2 with hk | ⟨m, rfl, hadd⟩ | ⟨wid, k, a, j, w1', w2, w3, basin, -, hm, hk, rfl, hgr, rfl⟩
    · exact ha.keep hk
    · intro k x hx
      rw [hadd.clusters] at hx
      exact ha k x hx
    · have hk2 : Keep env w1 { w1' with iteration := w1'.iteration + 1 } := hk.trans (.of_eq rfl rfl rfl le_rfl)
      have := (ha.keep hk2).grained (hst.keep hk2) (h2.keep hst hk2) (hg.keep hk2) (hall.keep hk2) hgr hr0 hθ0 hR
        (fun t e => by
          obtain ⟨S, C, W, hw1⟩ := hopMove_outer hm
          rw [hw1] at e
          exact ht.timeRes hu1 hθ1 e) (fun i s hs => hw i s hs)
      exact fun k x hx => this k x hx

/-! ## Remaining dwell times -/

open Classical in
/-- The clusters that hold a remaining dwell time for the walker id `wid`. -/
noncomputable def holders (wid : Int) (w : World K) : Finset Int :=
  w.clusters.keys.toFinset.filter fun k => ∃ x r, w.clusters.get? k = some x ∧ x.remaining.get? wid = some r

theorem mem_holders {wid k : Int} :
    k ∈ holders wid w ↔ ∃ x r, w.clusters.get? k = some x ∧ x.remaining.get? wid = some r := by
  simp only [holders, Finset.mem_filter, List.mem_toFinset]
  constructor
  · exact fun h => h.2
  · rintro ⟨x, r, hx, hr⟩
    exact ⟨IMap.mem_keys_iff_get?.2 ⟨x, hx⟩, x, r, hx, hr⟩

theorem holders_tables {wid : Int} (hc : ∀ c, Option.Rel Tables (w.clusters.get? c) (w'.clusters.get? c)) :
    holders wid w' ⊆ holders wid w := by
  intro k hk
  obtain ⟨y, r, hy, hr⟩ := mem_holders.1 hk
  obtain ⟨x, hx, ht⟩ := rel_some (hy ▸ hc k)
  exact mem_holders.2 ⟨x, r, hx, ht.rem ▸ hr⟩

theorem holders_eq {wid : Int} (h : w'.clusters = w.clusters) : holders wid w' = holders wid w := by
  ext k; rw [mem_holders, mem_holders, h]

theorem holders_visits {wid i : Int} {r : Except Fault Int} (e : w.getVisitFrequencyOfSite i = (r, w')) :
    holders wid w' ⊆ holders wid w := by
  have key : ∀ {k : Int} {x y : Cluster K}, w.clusters.get? k = some x → y.remaining = x.remaining →
      holders wid { w with clusters := w.clusters.put k y } ⊆ holders wid w := by
    intro k x y hx hy c hc
    obtain ⟨z, r, hz, hr⟩ := mem_holders.1 hc
    change IMap.get? (IMap.set w.clusters k y) c = some z at hz
    rw [IMap.get?_set] at hz
    split at hz
    · next e =>
      subst e
      cases hz
      rw [hy] at hr
      exact mem_holders.2 ⟨x, r, hx, hr⟩
    · exact mem_holders.2 ⟨z, r, hz, hr⟩
  unfold getVisitFrequencyOfSite at e
  split at e
  · simp only [Prod.mk.injEq] at e; rw [← e.2]
  · next s hs =>
    split at e
    · split at e
      · simp only [Prod.mk.injEq] at e; rw [← e.2]
      · next c hc =>
        have hfr := (Cluster.getVisitFrequency_visitsOnly (c := c) i).frame
        split at e
        · next e' c' hv =>
          rw [hv] at hfr
          simp only [Prod.mk.injEq] at e; rw [← e.2]; exact key (getCluster_ok hc) hfr.remaining
        · next n c' hv =>
          rw [hv] at hfr
          simp only [Prod.mk.injEq] at e; rw [← e.2]; exact key (getCluster_ok hc) hfr.remaining
    · simp only [Prod.mk.injEq] at e; rw [← e.2]

theorem holders_grew (hst : Struct env w) {basin : List Int} {M : K} {order : List Int → List Int}
    (hord : ∀ l, (order l).Perm l) (hgr : Grew env mem w w' basin M order) {wid : Int} : holders wid w' ⊆ holders wid w := by
  intro k hk
  obtain ⟨x, r, hx, hk⟩ := mem_holders.1 hk
  rw [mem_holders]
  cases hgr with
  | created c0 hb hc =>
    rw [hc.cluster] at hx
    split at hx
    · cases hx
      obtain ⟨sites, c1, c2, tau, res, r', h1, h2, h3, h4, h5, h6, h7, rfl⟩ := buildCluster_ok hb
      have f1 := Cluster.addSites_frame h2
      have f2 := Cluster.update_frame (env := env) (mem := mem) c1
      rw [h3] at f2
      have e : ∀ c : Cluster K, (w.seedCluster c).remaining = c.remaining := by
        intro c; unfold seedCluster; split <;> rfl
      rw [e] at hk
      have hk : c2.remaining.get? wid = some r := hk
      rw [f2.remaining, f1.remaining] at hk
      cases hk
    · exact ⟨x, r, hx, hk⟩
  | merged sc fav c d erased hsc hf hu hm hmg =>
    rw [hmg.cluster] at hx
    split at hx
    · next e =>
      subst e
      cases hx
      obtain ⟨iso, cids, w1, c', c1, c2, hm', hc', h1, h2, h3⟩ := merge_steps hm
      obtain ⟨hscw, hget, hknown⟩ := clustersOfSites_ok hst (acc := []) List.nodup_nil hsc
      obtain ⟨ha, ⟨l, hl, hl'⟩, hcids, hcn, -⟩ := mergeCollect_ok hscw hm'
      have hcl : w1.clusters = w.clusters := by rw [ha.eq]
      rw [hcl, hmg.target] at hc'
      cases hc'
      have hfc : k ∉ order cids := by
        rw [(hord cids).mem_iff, hcids]
        simp
      have f1 := Cluster.addSites_frame h1
      have f2 := Cluster.update_frame (env := env) (mem := mem) c1
      rw [h2] at f2
      obtain ⟨d', hd', e'⟩ := mergeClusters_remaining (w := { w1 with clusters := IMap.set w1.clusters k c2 })
        (IMap.WF.set (hcl ▸ hst.clustersWF) _ _) hfc (IMap.get?_set_self _ _ _) h3
      rw [hmg.cluster, if_pos rfl] at hd'
      cases hd'
      rw [e', f2.remaining, f1.remaining] at hk
      exact ⟨c, r, hmg.target, hk⟩
    · split at hx
      · cases hx
      · exact ⟨x, r, hx, hk⟩

/-! ## Dwell times -/

/-- The constants of sites and clusters are not too small. -/
structure Brisk (δ T : K) (w : World K) : Prop where
  site : ∀ i s, w.sites.get? i = some s → T ≤ s.tau
  cluster : ∀ k x, w.clusters.get? k = some x → x.remaining.WF ∧
    ∃ t dt, x.tau = some t ∧ x.timeInc = some dt ∧ T ≤ t ∧ δ ≤ dt

/-- At least every second dwell time was not too short, if those are counted double that have left a remaining time. -/
structure Paced (δ : K) (wid : Int) (w : World K) (l : List K) : Prop where
  pos : ∀ t ∈ l, 0 < t
  count : l.countP (fun t => ¬ δ ≤ t) + (holders wid w).card ≤ l.countP fun t => δ ≤ t

theorem Paced.of_sub {δ : K} {wid : Int} {l : List K} (h : Paced δ wid w l) (hs : holders wid w' ⊆ holders wid w) :
    Paced δ wid w' l :=
  ⟨h.pos, (Nat.add_le_add_left (Finset.card_le_card hs) _).trans h.count⟩

/-- A long stay. -/
theorem Paced.long {δ t : K} {wid k : Int} {l : List K} (h : Paced δ wid w l) (hδ : 0 < δ) (ht : δ ≤ t)
    (hs : holders wid w' ⊆ insert k (holders wid w)) : Paced δ wid w' (l ++ [t]) := by
  refine ⟨fun x hx => ?_, ?_⟩
  · rcases List.mem_append.1 hx with hx | hx
    · exact h.pos x hx
    · rw [List.mem_singleton] at hx; subst hx; exact hδ.trans_le ht
  · have h1 := (Finset.card_le_card hs).trans (Finset.card_insert_le _ _)
    have h2 := h.count
    rw [List.countP_append, List.countP_append, List.countP_singleton, List.countP_singleton]
    simp only [ht, not_true, decide_true, decide_false, if_true, Bool.false_eq_true, if_false]
    omega

/-- A short stay. -/
theorem Paced.short {δ t : K} {wid k : Int} {l : List K} (h : Paced δ wid w l) (ht0 : 0 < t) (ht : ¬ δ ≤ t)
    (hk : k ∈ holders wid w) (hs : holders wid w' ⊆ (holders wid w).erase k) : Paced δ wid w' (l ++ [t]) := by
  refine ⟨fun x hx => ?_, ?_⟩
  · rcases List.mem_append.1 hx with hx | hx
    · exact h.pos x hx
    · rw [List.mem_singleton] at hx; subst hx; exact ht0
  · have h1 := Finset.card_le_card hs
    rw [Finset.card_erase_of_mem hk] at h1
    have h2 := h.count
    have h3 := Finset.card_pos.2 ⟨k, hk⟩
    rw [List.countP_append, List.countP_append, List.countP_singleton, List.countP_singleton]
    simp only [ht, not_false_eq_true, decide_true, decide_false, if_true, Bool.false_eq_true, if_false]
    omega

/-- A feature hands out a dwell time and a next site. -/
theorem Paced.handed {δ T ε : K} {wid : Int} {l : List K} (h : Paced δ wid w l) (hδ : 0 < δ) (hT : 0 < T) (hε : 0 < ε)
    (hδε : δ ≤ ε * T) (hf : Brisk δ T w) {p : FPtr} {wid' n : Int} {e u t : K} (he : ε ≤ e)
    (h2 : w.dwellAt p wid' e = .ok (t, w2)) (h3 : w2.pickAt p wid' u = .ok (n, w3)) :
    Paced δ wid w3 (l ++ if wid' = wid then [t] else []) := by
  have hmul : ∀ {x : K}, T ≤ x → δ ≤ e * x := fun {x} hx => hδε.trans (mul_le_mul he hx hT.le (hε.le.trans he))
  rcases dwellAt_ok h2 with ⟨id, s', rfl, hs, rfl, rfl⟩ | ⟨id, y, y', rfl, hy, hd, rfl⟩
  · rcases pickAt_ok h3 with ⟨id, s', hp, -, -, rfl⟩ | ⟨id, x, x', hp, -⟩
    · split
      · refine h.long (k := 0) hδ (hmul (hf.site _ _ hs)) (Finset.subset_insert _ _)
      · rw [List.append_nil]; exact h
    · cases hp
  · rcases pickAt_ok h3 with ⟨id, s', hp, -⟩ | ⟨id, z, z', hp, hz, hd', rfl⟩
    · cases hp
    · cases hp
      change IMap.get? (IMap.set _ _ _) _ = _ at hz
      rw [IMap.get?_set_self] at hz
      cases hz
      obtain ⟨hwf, tau', dt', a1, a2, a3, a4⟩ := hf.cluster _ y hy
      obtain ⟨tau, dt, b1, b2, rfl, hpos, rfl⟩ := Cluster.getDwellTime_ok hd
      rw [a1] at b1; cases b1
      rw [a2] at b2; cases b2
      obtain ⟨r0, hr0, hr⟩ := Cluster.pickNewSiteId_ok hd'
      have hr0 : IMap.get? (IMap.set y.remaining wid' _) wid' = some r0 := hr0
      rw [IMap.get?_set_self] at hr0
      cases hr0
      have hdt : 0 < dt' := hδ.trans_le a4
      have hrem : ∀ (k : Int) (z : Cluster K),
          IMap.get? (IMap.set (IMap.set w.clusters id { y with
            remaining := y.remaining.set wid' ((y.remaining.get? wid').getD (e * tau') - dt') }) id z') k = some z →
          (k = id ∧ z = z') ∨ (k ≠ id ∧ w.clusters.get? k = some z) := by
        intro k z hz
        rw [IMap.set_set, IMap.get?_set] at hz
        split at hz
        · next e => cases hz; exact .inl ⟨e.symm, rfl⟩
        · next e => exact .inr ⟨Ne.symm e, hz⟩
      have hother : ∀ k : Int, k ≠ wid' → z'.remaining.get? k = y.remaining.get? k := by
        intro k hk
        rcases hr with ⟨-, -, rfl⟩ | ⟨-, -, rfl⟩
        · exact IMap.get?_set_ne _ _ (Ne.symm hk)
        · show IMap.get? (IMap.erase (IMap.set y.remaining wid' _) wid') k = _
          rw [IMap.get?_erase (IMap.WF.set hwf _ _), if_neg (Ne.symm hk), IMap.get?_set_ne _ _ (Ne.symm hk)]
      split
      · next e =>
        subst e
        by_cases hlong : δ ≤ min ((y.remaining.get? wid').getD (e * tau')) dt'
        · refine h.long (k := id) hδ hlong fun k hk => ?_
          obtain ⟨z, r, hz, hzr⟩ := mem_holders.1 hk
          rw [Finset.mem_insert]
          rcases hrem k z hz with ⟨rfl, -⟩ | ⟨-, hz⟩
          · exact .inl rfl
          · exact .inr (mem_holders.2 ⟨z, r, hz, hzr⟩)
        · have hlt : (y.remaining.get? wid').getD (e * tau') < δ := by
            by_contra hc
            exact hlong (le_min (not_lt.1 hc) a4)
          have hle : (y.remaining.get? wid').getD (e * tau') ≤ dt' := hlt.le.trans a4
          have h0 : 0 < (y.remaining.get? wid').getD (e * tau') := by
            rcases hpos with hp | hp
            · exact hdt.trans hp
            · exact hp
          have hsome : ∃ r, y.remaining.get? wid' = some r := by
            cases hg : y.remaining.get? wid' with
            | some r => exact ⟨r, rfl⟩
            | none =>
              rw [hg] at hlt
              exact absurd hlt (not_lt.2 (hmul a3))
          obtain ⟨r, hr'⟩ := hsome
          refine h.short (k := id) (lt_min h0 hdt) hlong (mem_holders.2 ⟨y, r, hy, hr'⟩) fun k hk => ?_
          obtain ⟨z, r, hz, hzr⟩ := mem_holders.1 hk
          rw [Finset.mem_erase]
          rcases hrem k z hz with ⟨rfl, rfl⟩ | ⟨hne, hz⟩
          · exfalso
            rcases hr with ⟨hp, -, -⟩ | ⟨-, -, rfl⟩
            · linarith
            · have hzr : IMap.get? (IMap.erase (IMap.set y.remaining wid' _) wid') wid' = _ := hzr
              rw [IMap.get?_erase (IMap.WF.set hwf _ _), if_pos rfl] at hzr
              cases hzr
          · exact ⟨hne, mem_holders.2 ⟨z, r, hz, hzr⟩⟩
      · next e =>
        rw [List.append_nil]
        refine h.of_sub fun k hk => ?_
        obtain ⟨z, r, hz, hzr⟩ := mem_holders.1 hk
        rcases hrem k z hz with ⟨rfl, rfl⟩ | ⟨-, hz⟩
        · rw [hother wid (Ne.symm e)] at hzr
          exact mem_holders.2 ⟨y, r, hy, hzr⟩
        · exact mem_holders.2 ⟨z, r, hz, hzr⟩

theorem brisk_of (hst : Struct env w) (hg : Good mem w) (hall : AllSettled mem w) {r R θ : K} (hr0 : 0 < r) (hR : 0 < R)
    (hz : AllSized r R θ w) (hw : Within mem r R w) {δ : K} (hδ : δ ≤ 1 / R / max 2 (R / (r * r * θ))) : Brisk δ (1 / R) w where
  site i s hs := by
    obtain ⟨h1, h2, h3⟩ := hw i s hs
    obtain ⟨-, h4, h5⟩ := hg i s hs
    rcases h5 with h5 | h5
    · exact absurd h5 h1
    · rw [h5.tau]
      refine one_div_le_one_div_of_le ?_ h3
      rw [Site.sumRates_eq]
      refine List.sum_pos _ (fun x hx => ?_) (by simpa using h1)
      obtain ⟨na, hna, rfl⟩ := List.mem_map.1 hx
      exact h4 na hna
  cluster k x hx := by
    obtain ⟨t, t1, t2, t3, t4⟩ := hz k x hx
    obtain ⟨t', u1, u2, u3⟩ := (hall k x hx).tau
    rw [t1] at u1; cases u1
    refine ⟨(hst.cinv hx).remaining, t, _, t1, u3, t2, hδ.trans ?_⟩
    have h2 : 0 < x.resolution := by have := (hall k x hx).res; linarith
    have h3 : (0 : K) < max 2 (R / (r * r * θ)) := lt_max_of_lt_left (by norm_num)
    exact div_le_div₀ u2.le t2 h2 t4

/-- A walker enters the system. -/
theorem Paced.initWalker (hst : Struct env w) {δ T ε : K} {wid : Int} {l : List K} (h : Paced δ wid w l) (hδ : 0 < δ) (hT : 0 < T)
    (hε : 0 < ε) (hδε : δ ≤ ε * T) (hf : ∀ w', Keep env w w' → Brisk δ T w') {a : Entry K} (he : ε ≤ a.e)
    (e : w.initWalker a = .ok w') :
    Keep env w w' ∧ ∃ t, dwellOf w' a.handle = [t] ∧ Paced δ wid w' (l ++ if a.wid = wid then [t] else []) ∧
      ∀ k, k ≠ a.handle → w'.walkers.get? k = w.walkers.get? k := by
  obtain ⟨x, w1, t, w2, n, w3, hx, h0, hk, h1, h2, h3, rfl⟩ := initWalker_ok e
  have k1 := hst.occupyFeat_any h1
  have st1 := hst.keep k1
  have hfe : w1.feat x.site = w.feat x.site := by unfold World.feat; rw [k1.feats]
  have h2' := h2
  rw [← hfe] at h2'
  have s2 := st1.dwellAt h2'
  have st2 := st1.step s2
  have h3' := h3
  rw [← hfe, ← s2.inner.feat] at h3'
  have s3 := st2.pickAt h3'
  have hkeep : Keep env w w3 := (k1.trans s2.keep).trans s3.keep
  have hwk : w3.walkers = w.walkers := by
    rw [s3.inner.walkers, s2.inner.walkers]
    rcases occupyFeat_ok h1 with ⟨id, -, s, s', -, -, rfl⟩ | ⟨id, -, c, c', -, -, rfl⟩ <;> rfl
  refine ⟨hkeep.trans (.of_eq rfl rfl rfl le_rfl), t, ?_, ?_, fun k hk => ?_⟩
  · unfold dwellOf
    show (match IMap.get? (IMap.set w3.walkers a.handle _) a.handle with | some x => [x.dwell] | none => []) = [t]
    rw [IMap.get?_set_self]
  · have := (h.of_sub (holders_tables (wid := wid) (occupyFeat_tables h1))).handed hδ hT hε hδε (hf w1 k1) he h2 h3
    exact this.of_sub (holders_eq rfl).subset
  · show IMap.get? (IMap.set w3.walkers a.handle _) k = _
    rw [IMap.get?_set_ne _ _ (Ne.symm hk), hwk]

theorem Paced.initWalkers (hst : Struct env w) {δ T ε : K} {wid : Int} {l : List K} (h : Paced δ wid w l) (hδ : 0 < δ) (hT : 0 < T)
    (hε : 0 < ε) (hδε : δ ≤ ε * T) (hf : ∀ w', Keep env w w' → Brisk δ T w') {as : List (Entry K)} (he : ∀ a ∈ as, ε ≤ a.e)
    (hnd : (as.map (·.handle)).Nodup) {u : Unit} (e : w.initWalkers as = (.ok u, w')) :
    Paced δ wid w' (l ++ (as.filter fun a => a.wid = wid).flatMap fun a => dwellOf w' a.handle) ∧
      ∀ k, k ∉ as.map (·.handle) → w'.walkers.get? k = w.walkers.get? k := by
  induction as generalizing w l with
  | nil =>
    simp only [World.initWalkers, Prod.mk.injEq, true_and] at e
    subst e
    exact ⟨by simpa using h, fun _ _ => rfl⟩
  | cons a as ih =>
    rw [List.map_cons, List.nodup_cons] at hnd
    unfold World.initWalkers at e
    split at e
    · simp at e
    · next w1 h1 =>
      obtain ⟨hk, t, ht, hp, ho⟩ := h.initWalker hst hδ hT hε hδε hf (he a (List.mem_cons_self ..)) h1
      obtain ⟨h2, h3⟩ := ih (hst.keep hk) hp (fun w' hk' => hf w' (hk.trans hk')) (fun b hb => he b (List.mem_cons_of_mem _ hb))
        hnd.2 e
      refine ⟨?_, fun k hk' => ?_⟩
      · have ha : dwellOf w' a.handle = [t] := by
          rw [← ht]; unfold dwellOf; rw [h3 _ hnd.1]
        by_cases hw : a.wid = wid
        · rw [if_pos hw] at h2
          rw [List.filter_cons_of_pos (by simpa using hw), List.flatMap_cons, ha, ← List.append_assoc]
          exact h2
        · rw [if_neg hw, List.append_nil] at h2
          rw [List.filter_cons_of_neg (by simpa using hw)]
          exact h2
      · rw [List.map_cons, List.mem_cons, not_or] at hk'
        rw [h3 k hk'.2, ho k hk'.1]

/-- A walker moves. -/
theorem Paced.hopMove (hst : Struct env w) {δ T ε : K} {wid : Int} {l : List K} (h : Paced δ wid w l) (hδ : 0 < δ) (hT : 0 < T)
    (hε : 0 < ε) (hδε : δ ≤ ε * T) (hf : ∀ w', Keep env w w' → Brisk δ T w') {id k j : Int} {a : Choices K} (he : ε ≤ a.e)
    (e : w.hopMove id k a = .ok (j, w')) :
    ∃ t, dwellOf w' k = [t] ∧ Paced δ wid w' (l ++ if id = wid then [t] else []) := by
  obtain ⟨x, b, w1, w2, t, w3, n, w4, hx, h0, h0', hj, hb, h1, h2, h3, h4, rfl⟩ := hopMove_ok e
  have s1 := hst.vacateAt h1
  have st1 := hst.step s1
  have h2' := h2
  rw [← s1.inner.feat] at h2'
  have s2 := st1.occupyAt h2'
  refine ⟨t, ?_, ?_⟩
  · unfold dwellOf
    show (match IMap.get? (IMap.set w4.walkers k _) k with | some x => [x.dwell] | none => []) = [t]
    rw [IMap.get?_set_self]
  · have hp2 : Paced δ wid w2 l :=
      (h.of_sub (holders_tables (vacateAt_tables h1))).of_sub (holders_tables (occupyAt_tables h2))
    have := hp2.handed hδ hT hε hδε (hf w2 (s1.keep.trans s2.keep)) he h3 h4
    exact this.of_sub (holders_eq rfl).subset

/-- Every proper call. -/
theorem Paced.call (hst : Struct env w) {act : List Int} {hopped : Prop} {δ T ε : K} {wid : Int} {l : List K} (h : Paced δ wid w l)
    (hδ : 0 < δ) (hT : 0 < T) (hε : 0 < ε) (hδε : δ ≤ ε * T) (hf : ∀ w', Keep env w w' → Brisk δ T w') {op : Op K}
    {res : Except Fault Int} (e : w.step env mem op = (res, w')) (hr : Cluster.GoesOn res)
    (hp : Proper act hopped ⟨w, mem, op, res, w'⟩) (hd : DrawsAtLeast ε [⟨w, mem, op, res, w'⟩]) :
    Paced δ wid w' (l ++ staysIn wid ⟨w, mem, op, res, w'⟩) := by
  have hd := hd _ (List.mem_singleton_self _)
  have same : holders wid w' ⊆ holders wid w → staysIn wid ⟨w, mem, op, res, w'⟩ = [] →
      Paced δ wid w' (l ++ staysIn wid ⟨w, mem, op, res, w'⟩) := by
    intro h1 h2
    rw [h2, List.append_nil]
    exact h.of_sub h1
  cases op with
  | initializeWalkers as =>
    obtain ⟨⟨n, hn⟩, hnd, -⟩ := hp
    simp only at hn
    subst hn
    simp only [step, Prod.mk.injEq] at e
    obtain ⟨h1, h2⟩ := e
    unfold World.initializeWalkers at h1 h2
    split at h1
    · cases h1
    · next hne =>
      rw [if_neg hne] at h2
      cases hw : w.initWalkers as with
      | mk r w1 =>
        rw [hw] at h1 h2
        cases r with
        | error e => cases h1
        | ok u =>
          subst h2
          exact (h.initWalkers hst hδ hT hε hδε hf hd hnd hw).1
  | hop id k a =>
    obtain ⟨hk, n, hn⟩ := hp
    simp only at hn
    subst hn
    simp only [step, Prod.mk.injEq] at e
    obtain ⟨h1, h2⟩ := e
    obtain ⟨u, hu⟩ : ∃ u, (w.hop env mem id k a).1 = .ok u := by
      cases hh : (w.hop env mem id k a).1 with
      | error e => rw [hh] at h1; cases h1
      | ok u => exact ⟨u, rfl⟩
    have hhop : w.hop env mem id k a = (.ok u, w') := by rw [← hu, ← h2]
    obtain ⟨j, w1, hm, hc⟩ := hop_ok hhop
    obtain ⟨t, ht, hp1⟩ := h.hopMove hst hδ hT hε hδε hf hd hm
    have st1 := hst.keep (hst.hopMove_keep hm)
    have key : ∀ w2 : World K, holders wid w2 ⊆ holders wid w1 → w2.walkers = w1.walkers →
        Paced δ wid w2 (l ++ staysIn wid ⟨w, mem, .hop id k a, .ok n, w2⟩) := by
      intro w2 hs hwk
      have : staysIn wid ⟨w, mem, .hop id k a, .ok n, w2⟩ = if id = wid then [t] else [] := by
        unfold staysIn
        simp only
        rw [← ht]; unfold dwellOf; rw [hwk]
      rw [this]
      exact hp1.of_sub hs
    obtain ⟨-, hc⟩ := hopCount_ok st1 hc
    rcases hc with ⟨-, rfl⟩ | ⟨-, -, rfl⟩ | ⟨-, -, -, -, rfl⟩ | ⟨-, -, w3, basin, -, hgr, rfl⟩
    · exact key _ (holders_eq rfl).subset rfl
    · exact key _ (holders_eq rfl).subset rfl
    · exact key _ (holders_eq rfl).subset rfl
    · have st2 : Struct env { w1 with iteration := w1.iteration + 1 } := st1.keep (.of_eq rfl rfl rfl le_rfl)
      have hwk := grew_walkers hgr.grew
      refine key _ ?_ hwk
      refine Finset.Subset.trans (holders_eq (w := w3) rfl).subset ?_
      exact (holders_grew st2 a.order_perm hgr.grew).trans (holders_eq rfl).subset
  | removeWalker id k =>
    refine same ?_ rfl
    simp only [step, simple] at e
    split at e
    · next w1 h1 =>
      simp only [Prod.mk.injEq] at e
      obtain ⟨rfl, rfl⟩ := e
      obtain ⟨x, hx, h0, hr⟩ := removeWalker_ok h1
      exact holders_tables (removeAt_tables hr)
    · simp only [Prod.mk.injEq] at e
      rw [← e.2]
  | getVisitFrequencyOfSite i => exact same (holders_visits e) rfl
  | setTimeResolution t =>
    refine same ?_ rfl
    simp only [step, Prod.mk.injEq] at e
    rw [← e.2]
    unfold World.setTimeResolution
    split
    · rfl
    · exact (holders_eq rfl).subset
  | setMinThreshold n =>
    refine same ?_ rfl
    simp only [step, Prod.mk.injEq] at e
    rw [← e.2]; exact (holders_eq rfl).subset
  | setRandomSeed n =>
    refine same ?_ rfl
    simp only [step, Prod.mk.injEq] at e
    rw [← e.2]
    unfold World.setRandomSeed
    split
    · rfl
    · exact (holders_eq rfl).subset
  | setPerformanceRatio r =>
    refine same ?_ rfl
    simp only [step, Prod.mk.injEq] at e
    rw [← e.2]; exact (holders_eq rfl).subset
  | initializeSystem m =>
    refine same ?_ rfl
    simp only [step, Prod.mk.injEq] at e
    have := initializeSystem_adds (mem := mem) (w := w) (m := m)
    rw [e.2] at this
    exact (holders_eq this.clusters).subset
  | newWalker k =>
    refine same ?_ rfl
    simp only [step, Prod.mk.injEq] at e
    rw [← e.2]; exact (holders_eq rfl).subset
  | elsewhere n =>
    refine same ?_ rfl
    simp only [step] at e
    split at e
    · simp only [Prod.mk.injEq] at e; rw [← e.2]
    · simp only [Prod.mk.injEq] at e; rw [← e.2]; exact (holders_eq rfl).subset
  | _ =>
    refine same ?_ rfl
    simp only [step, simple] at e
    split at e
    · next w1 h1 =>
      simp only [Prod.mk.injEq] at e
      obtain ⟨x, -, h1⟩ := bind_eq_ok.1 h1
      cases h1
      rw [← e.2]; exact (holders_eq rfl).subset
    · simp only [Prod.mk.injEq] at e; rw [← e.2]

theorem Trace.paced {n : Nat} {evs : List (Event K)} (ht : Trace env (World.new n) evs w) (hu : Usage evs)
    (hf : RatesFixed mem evs) (hp : RatesPositive mem evs) {r R θ ε : K} (hr0 : 0 < r) (hR : 0 < R) (hθ0 : 0 < θ) (hε : 0 < ε)
    (hθ : ResolutionsAtLeast θ evs) (hw : Within mem r R w) (hd : DrawsAtLeast ε evs) {δ : K} (hδ : 0 < δ) (hδ1 : δ ≤ ε * (1 / R))
    (hδ2 : δ ≤ 1 / R / max 2 (R / (r * r * θ))) (wid : Int) : Paced δ wid w (staysOf wid evs) := by
  generalize hw0 : (World.new n : World K) = w0 at ht
  induction ht with
  | nil =>
    subst hw0
    refine ⟨fun t h => (by cases h), ?_⟩
    have : holders wid (World.new n : World K) = ∅ := by
      ext k
      rw [mem_holders]
      simp only [Finset.notMem_empty, iff_false, not_exists]
      rintro x r ⟨h, -⟩
      cases h
    rw [this]; simp [staysOf]
  | @snoc w1 w' evs op res mem' ht h hr ih =>
    obtain ⟨hu1, hpr⟩ := usage_snoc hu
    obtain ⟨-, hu2⟩ := hopsReturn_snoc hu.hopsReturn
    have hf1 : RatesFixed mem evs := fun ev he => hf ev (List.mem_append_left _ he)
    have hp1 : RatesPositive mem evs := fun ev he => hp ev (List.mem_append_left _ he)
    have hθ1 : ResolutionsAtLeast θ evs := fun ev he => hθ ev (List.mem_append_left _ he)
    have hmem : mem' = mem := hf _ (List.mem_append_right _ (List.mem_singleton_self _))
    subst hmem
    subst hw0
    have hst := ht.struct hu1.hopsReturn
    have hw1 := hw.step hst h hr hu2
    have hg := ht.good hu1.hopsReturn hf1 hp1
    have hall := ht.settled hu1.hopsReturn hf1 hp1
    have hz := ht.sized hu1.hopsReturn hf1 hp1 hr0 hR hθ0 hθ1 hw1
    have ha := ih hu1 hf1 hp1 hθ1 hw1 (fun ev he => hd ev (List.mem_append_left _ he))
    have e : staysOf wid (evs ++ [⟨w1, mem', op, res, w'⟩]) = staysOf wid evs ++ staysIn wid ⟨w1, mem', op, res, w'⟩ := by
      simp [staysOf]
    rw [e]
    refine ha.call hst hδ (one_div_pos.2 hR) hε hδ1 (fun w2 hk => ?_) h hr hpr (fun ev he => hd ev (List.mem_append_right _ he))
    exact brisk_of (hst.keep hk) (hg.keep hk) (hall.keep hk) hr0 hR (hz.keep hk) (hw1.same fun i => (hk.neigh i).symm) hδ2

end Mythical.World
