import Verif.Lemmas.SystemSeeds
import Verif.Lemmas.SystemExit
import Verif.Lemmas.SystemKnown
import Verif.Lemmas.ClusterSolved
import Verif.Props.Basin

/-! # The clusters of a system with positive rates that do not change -/

set_option linter.unusedSectionVars false
set_option linter.unusedVariables false

namespace Mythical.World
open Mythical SystemSpec
variable {K : Type} [Field K] [LinearOrder K] [IsStrictOrderedRing K] [FloorRing K]
variable {w w' w1 w2 : World K} {env : Env K} {mem : Addr → K}

/-! ## Sites -/

/-- The sites have positive rates, and cached values that are up to date unless they are drains. -/
def Good (mem : Addr → K) (w : World K) : Prop :=
  ∀ i s, w.sites.get? i = some s → s.neigh.WF ∧ (∀ na ∈ s.neigh, 0 < mem na.2) ∧ (s.neigh = [] ∨ s.Fresh mem)

theorem Twin.fresh {s t : Site K} (h : Twin s t) (hf : t.Fresh mem) : s.Fresh mem := by
  have e : s.sumRates mem = t.sumRates mem := by unfold Site.sumRates; rw [h.neigh]
  exact ⟨by rw [e]; exact hf.sum, by rw [e, h.tau]; exact hf.tau, by rw [e, h.prob, h.neigh]; exact hf.perm⟩

theorem mem_foldl_set {V : Type} {l m : IMap V} {x : Int × V} (h : x ∈ l.foldl (fun acc na => IMap.set acc na.1 na.2) m) :
    x ∈ l ∨ x ∈ m := by
  induction l generalizing m with
  | nil => exact .inr h
  | cons y l ih =>
    rcases ih h with h | h
    · exact .inl (List.mem_cons_of_mem _ h)
    · have key : ∀ m : IMap V, x ∈ IMap.set m y.1 y.2 → x = y ∨ x ∈ m := by
        intro m
        induction m with
        | nil => intro h; simp only [IMap.set, List.mem_singleton] at h; exact .inl h
        | cons z m ih =>
          intro h
          obtain ⟨k, v⟩ := z
          simp only [IMap.set] at h
          split at h
          · rcases List.mem_cons.1 h with h | h
            · exact .inl h
            · exact .inr (List.mem_cons_of_mem _ h)
          · rcases List.mem_cons.1 h with h | h
            · exact .inr (h ▸ List.mem_cons_self ..)
            · rcases ih h with h | h
              · exact .inl h
              · exact .inr (List.mem_cons_of_mem _ h)
      rcases key m h with h | h
      · exact .inl (h ▸ List.mem_cons_self ..)
      · exact .inr h

theorem NewSite.neigh_mem {m : IMap (IMap Addr)} {sd : Option Nat} {s : Site K} (h : NewSite mem m sd s) {na : Int × Addr}
    (hn : na ∈ s.neigh) : ∃ ir ∈ m, na ∈ ir.2 := by
  rcases h with ⟨rates, s0, hm, h0, e⟩ | ⟨e, -⟩
  · unfold Site.setRatesToNeighbors at h0
    split at h0
    · cases h0
    · obtain ⟨s1, h1, h2⟩ := bind_eq_ok.1 h0
      obtain ⟨e1, -⟩ := Site.setRatesLoop_ok h1
      have hw : s1.neigh.WF := by rw [e1]; exact Site.foldl_set_wf _ _ List.nodup_nil
      obtain ⟨f1, f2, -⟩ := Site.recalc_ok h2 hw
      rw [e] at hn
      change na ∈ s0.neigh at hn
      rw [f2, e1] at hn
      rcases mem_foldl_set hn with h | h
      · exact ⟨_, hm, h⟩
      · cases h
  · rw [e] at hn; cases hn

theorem Trace.good {n : Nat} {evs : List (Event K)} (ht : Trace env (World.new n) evs w) (hu : HopsReturn evs)
    (hf : RatesFixed mem evs) (hp : RatesPositive mem evs) : Good mem w := by
  intro i s hs
  obtain ⟨ev, he, m, sd, s0, ho, hn, htw, -⟩ := (ht.static hu).1 i s hs
  rw [hf ev he] at hn
  obtain ⟨h1, h2⟩ := hn.site
  refine ⟨by rw [htw.neigh]; exact h1, fun na hna => ?_, ?_⟩
  · rw [htw.neigh] at hna
    obtain ⟨ir, hir, hna⟩ := hn.neigh_mem hna
    exact hp ev he m ho ir hir na hna
  · rcases h2 with ⟨h2, -⟩ | ⟨h2, -⟩
    · exact .inl (htw.neigh.trans h2)
    · exact .inr (htw.fresh h2)

theorem Good.keep (h : Good mem w) (hk : Keep env w w') : Good mem w' := by
  intro i s hs
  obtain ⟨t, ht, htw⟩ := hk.twin hs
  obtain ⟨h1, h2, h3⟩ := h i t ht
  exact ⟨htw.neigh ▸ h1, htw.neigh ▸ h2, h3.imp (fun h => htw.neigh.trans h) htw.fresh⟩

theorem Good.grew {basin : List Int} {M : K} {order : List Int → List Int} (h : Good mem w)
    (hg : Grew env mem w w' basin M order) : Good mem w' := by
  intro i s hs
  obtain ⟨t, ht, htw⟩ := hg.twin hs
  obtain ⟨h1, h2, h3⟩ := h i t ht
  exact ⟨htw.neigh ▸ h1, htw.neigh ▸ h2, h3.imp (fun h => htw.neigh.trans h) htw.fresh⟩

/-! ## Reaching sites -/

theorem reach_mono {S : IMap (Site K)} {l l' : List Int} {v x : Int} (h : BasinSpec.Reach mem S l v x) (hl : ∀ i ∈ l, i ∈ l') :
    BasinSpec.Reach mem S l' v x := by
  induction h with
  | start => exact .start
  | hop _ hj r hr ih => exact .hop ih (hl _ hj) r hr

theorem reach_trans {S : IMap (Site K)} {l : List Int} {u v x : Int} (h : BasinSpec.Reach mem S l u v) (h' : BasinSpec.Reach mem S l v x) :
    BasinSpec.Reach mem S l u x := by
  induction h' with
  | start => exact h
  | hop _ hj r hr ih => exact .hop ih hj r hr

theorem reach_mem {S : IMap (Site K)} {l : List Int} {v x : Int} (h : BasinSpec.Reach mem S l v x) (hv : v ∈ l) : x ∈ l := by
  cases h with
  | start => exact hv
  | hop _ hj _ _ => exact hj

theorem reach_congr {S S' : IMap (Site K)} {l : List Int}
    (e : ∀ i ∈ l, ∀ j, BasinSpec.rate mem S' i j = BasinSpec.rate mem S i j) {v x : Int} (hv : v ∈ l)
    (h : BasinSpec.Reach mem S l v x) : BasinSpec.Reach mem S' l v x := by
  induction h with
  | start => exact .start
  | hop h hj r hr ih => exact .hop ih hj r ((e _ (reach_mem h hv) _).trans hr)

/-- The first hop of a way. -/
theorem reach_first {S : IMap (Site K)} {l : List Int} {v x : Int} (h : BasinSpec.Reach mem S l v x) (hne : x ≠ v) :
    ∃ j ∈ l, ∃ r, BasinSpec.rate mem S v j = some r := by
  induction h with
  | start => exact absurd rfl hne
  | @hop i j h hj r hr ih =>
    by_cases hi : i = v
    · subst hi; exact ⟨j, hj, r, hr⟩
    · exact ih hi

/-- The last hop of a way. -/
theorem reach_last {S : IMap (Site K)} {l : List Int} {v x : Int} (h : BasinSpec.Reach mem S l v x) (hne : x ≠ v) (hv : v ∈ l) :
    ∃ j ∈ l, ∃ r, BasinSpec.rate mem S j x = some r := by
  cases h with
  | start => exact absurd rfl hne
  | @hop i _ h hj r hr => exact ⟨i, reach_mem h hv, r, hr⟩

/-- The way back, if every rate inside goes both ways. -/
theorem reach_back {S : IMap (Site K)} {l : List Int} {v x : Int} (h : BasinSpec.Reach mem S l v x) (hv : v ∈ l)
    (hm : ∀ i ∈ l, ∀ j ∈ l, (∃ r, BasinSpec.rate mem S i j = some r) → ∃ r, BasinSpec.rate mem S j i = some r) :
    BasinSpec.Reach mem S l x v := by
  induction h with
  | start => exact .start
  | @hop i j h hj r hr ih =>
    have hi := reach_mem h hv
    obtain ⟨r', hr'⟩ := hm i hi j hj ⟨r, hr⟩
    exact reach_trans (.hop .start hi r' hr') ih

/-! ## Clusters -/

/-- A cluster after its last update, seen from the rates of the system. -/
structure Settled (mem : Addr → K) (w : World K) (x : Cluster K) : Prop where
  size : 2 ≤ x.sites.length
  back : ∀ i ∈ x.sites.keys, ∀ j ∈ x.sites.keys, (∃ r, BasinSpec.rate mem w.sites i j = some r) →
    ∃ r, BasinSpec.rate mem w.sites j i = some r
  conn : ∀ u ∈ x.sites.keys, ∀ v ∈ x.sites.keys, BasinSpec.Reach mem w.sites x.sites.keys u v
  exit : ∃ i ∈ x.sites.keys, ∃ j, j ∉ x.sites.keys ∧ ∃ r, BasinSpec.rate mem w.sites i j = some r
  tau : ∃ t, x.tau = some t ∧ 0 < t ∧ x.timeInc = some (t / x.resolution)
  res : 2 ≤ x.resolution
  method : x.method = .tolerance
  tol : 0 < x.tol
  visits : ∀ i, i ∈ x.siteVisits.keys ↔ i ∈ x.sites.keys
  dwell : ∀ i ∈ x.sites.keys, ∃ d, 0 < d ∧ x.internalDwell.get? i = some d
  inTable : ∃ l rest S wt, x.cumInternal = Cluster.cumulate 0 l ++ rest ∧ Cluster.Table l S wt ∧ ∀ i ∈ S, i ∈ x.sites.keys
  outTable : ∃ l rest S wt, x.cumNeigh = Cluster.cumulate 0 l ++ rest ∧ Cluster.Table l S wt ∧
    ∀ j ∈ S, ∃ i ∈ x.sites.keys, ∃ r, BasinSpec.rate mem w.sites i j = some r

/-- Both tables start with the probabilities of an update. -/
def HasTables (mem : Addr → K) (w : World K) (x : Cluster K) : Prop :=
  (∃ l rest S wt, x.cumInternal = Cluster.cumulate 0 l ++ rest ∧ Cluster.Table l S wt ∧ ∀ i ∈ S, i ∈ x.sites.keys) ∧
  ∃ l rest S wt, x.cumNeigh = Cluster.cumulate 0 l ++ rest ∧ Cluster.Table l S wt ∧
    ∀ j ∈ S, ∃ i ∈ x.sites.keys, ∃ r, BasinSpec.rate mem w.sites i j = some r

theorem rate_member (hst : Struct env w) (htw : Twins w) {k i j : Int} {x : Cluster K} {s : Site K}
    (hx : w.clusters.get? k = some x) (hs : x.sites.get? i = some s) :
    BasinSpec.rate mem w.sites i j = (s.neigh.get? j).map mem := by
  obtain ⟨-, t, ht, -⟩ := hst.member k x i s hx hs
  unfold BasinSpec.rate
  have := (htw k x i s t hx hs ht).neigh
  rw [ht, this]
  rfl

theorem rate_member_iff (hst : Struct env w) (htw : Twins w) {k i j : Int} {x : Cluster K} {s : Site K}
    (hx : w.clusters.get? k = some x) (hs : x.sites.get? i = some s) :
    (∃ r, BasinSpec.rate mem w.sites i j = some r) ↔ j ∈ s.neigh.keys := by
  rw [rate_member hst htw hx hs, IMap.mem_keys_iff_get?]
  cases s.neigh.get? j <;> simp

theorem other_of_length {l : IMap (Site K)} (hw : l.WF) (hl : 2 ≤ l.length) (v : Int) : ∃ x ∈ l.keys, x ≠ v := by
  by_contra h
  push Not at h
  have h1 : l.keys.length ≤ 1 := by
    have hn : l.keys.Nodup := hw
    match hk : l.keys with
    | [] => simp
    | [a] => simp
    | a :: b :: r =>
      rw [hk] at hn h
      have ha := h a (by simp)
      have hb := h b (by simp)
      simp [ha, hb] at hn
  rw [IMap.keys, List.length_map] at h1
  omega

/-- A cluster in which every site has a neighbour is sound. -/
theorem sound_of_conn (hst : Struct env w) (htw : Twins w) (hg : Good mem w) {k : Int} {x : Cluster K}
    (hx : w.clusters.get? k = some x)
    (hl : ∀ i ∈ x.sites.keys, ∃ j ∈ x.sites.keys, ∃ r, BasinSpec.rate mem w.sites i j = some r) :
    ClusterSpec.Sound mem x ∧ ClusterSpec.Linked mem x := by
  have key : ∀ i s, x.sites.get? i = some s → ∃ t, w.sites.get? i = some t ∧ Twin s t := by
    intro i s hs
    obtain ⟨-, t, ht, -⟩ := hst.member k x i s hx hs
    exact ⟨t, ht, htw k x i s t hx hs ht⟩
  have hsound : ClusterSpec.Sound mem x := by
    refine ⟨(hst.cinv hx).sites, ?_, ?_, ?_⟩
    · intro i s hs
      obtain ⟨t, ht, h⟩ := key i s hs
      rw [h.neigh]; exact (hg i t ht).1
    · intro i s hs
      obtain ⟨t, ht, h⟩ := key i s hs
      rw [h.neigh]; exact (hg i t ht).2.1
    · intro i s hs
      obtain ⟨t, ht, h⟩ := key i s hs
      obtain ⟨j, -, hr⟩ := hl i (IMap.mem_keys_iff_get?.2 ⟨s, hs⟩)
      rw [rate_member_iff hst htw hx hs] at hr
      rcases (hg i t ht).2.2 with h0 | h0
      · rw [h.neigh, h0] at hr; simp at hr
      · exact h.fresh h0
  refine ⟨hsound, fun i hi => ?_⟩
  unfold ClusterSpec.ids at hi ⊢
  rw [List.mem_toFinset] at hi
  obtain ⟨s, hs⟩ := IMap.mem_keys_iff_get?.1 hi
  obtain ⟨j, hj, hr⟩ := hl i hi
  rw [rate_member_iff hst htw hx hs] at hr
  exact ⟨j, List.mem_toFinset.2 hj, (hsound.rate_pos_iff hs j).2 hr⟩

/-- A cluster that has just been updated is settled, if all its sites can be reached from one of them. -/
theorem settled_of (hst : Struct env w) (htw : Twins w) (hg : Good mem w) {k v : Int} {x : Cluster K}
    (hx : w.clusters.get? k = some x) (hu : Cluster.Upd env mem x) (hres : 2 ≤ x.resolution) (hv : v ∈ x.sites.keys)
    (hr : ∀ u ∈ x.sites.keys, BasinSpec.Reach mem w.sites x.sites.keys v u) (hex : x.tau ≠ none)
    (htab : ClusterSpec.Sound mem x → ClusterSpec.Mutual mem x → HasTables mem w x) : Settled mem w x := by
  obtain ⟨c1, freqs, c2, hi, hm, ht, hreb, e1, e2, e9, e10, e3, e4, e5, e6, e7, e8⟩ := hu
  have hsize : 2 ≤ x.sites.length := by rw [e1]; exact hreb.size
  have hback : ∀ i ∈ x.sites.keys, ∀ j ∈ x.sites.keys, (∃ r, BasinSpec.rate mem w.sites i j = some r) →
      ∃ r, BasinSpec.rate mem w.sites j i = some r := by
    intro i hi' j hj hr
    obtain ⟨s, hs⟩ := IMap.mem_keys_iff_get?.1 hi'
    obtain ⟨t, ht'⟩ := IMap.mem_keys_iff_get?.1 hj
    rw [rate_member_iff hst htw hx hs] at hr
    rw [rate_member_iff hst htw hx ht']
    have ec : c1.sites = x.sites := by rw [e1, hreb.sites]
    exact Cluster.solveProb_mutual hm ht hreb.solved (by rw [ec]; exact IMap.mem_of_get? hs) hr (by rw [ec]; exact ht')
  have hwf := (hst.cinv hx).sites
  have hlink : ∀ i ∈ x.sites.keys, ∃ j ∈ x.sites.keys, ∃ r, BasinSpec.rate mem w.sites i j = some r := by
    intro i hi'
    by_cases hiv : i = v
    · subst hiv
      obtain ⟨y, hy, hne⟩ := other_of_length hwf hsize i
      exact reach_first (hr y hy) hne
    · obtain ⟨j, hj, hr'⟩ := reach_last (hr i hi') hiv hv
      exact ⟨j, hj, hback j hj i hi' hr'⟩
  obtain ⟨hs, hl⟩ := sound_of_conn hst htw hg hx hlink
  have hmut : ClusterSpec.Mutual mem x := by
    intro i hi' j hj hr
    unfold ClusterSpec.ids at hi' hj
    rw [List.mem_toFinset] at hi' hj
    obtain ⟨s, hs'⟩ := IMap.mem_keys_iff_get?.1 hi'
    obtain ⟨t, ht'⟩ := IMap.mem_keys_iff_get?.1 hj
    rw [hs.rate_pos_iff hs'] at hr
    rw [hs.rate_pos_iff ht']
    exact (rate_member_iff (mem := mem) hst htw hx ht').1 (hback i hi' j hj ((rate_member_iff hst htw hx hs').2 hr))
  have hs2 : ClusterSpec.Sound mem c2 := hs.congr e1.symm
  have hxt := hreb.hasExit hs2 (e2 ▸ hex)
  obtain ⟨t, h1, h2, h3⟩ := hreb.tau_pos hi hs2 (Cluster.Mutual.congr e1.symm hmut) (hl.congr e1.symm) hxt
  refine ⟨hsize, hback, fun u hu' z hz => ?_, ?_, ⟨t, e2.trans h1, h2, ?_⟩, hres, ?_, ?_, fun i => ?_, fun i hi' => ?_, (htab hs hmut).1, (htab hs hmut).2⟩
  · exact reach_trans (reach_back (hr u hu') hv hback) (hr z hz)
  · obtain ⟨i, hi', j, hj, hr'⟩ := hxt
    unfold ClusterSpec.ids at hi' hj
    rw [← e1, List.mem_toFinset] at hi' hj
    refine ⟨i, hi', j, hj, ?_⟩
    obtain ⟨s, hs'⟩ := IMap.mem_keys_iff_get?.1 hi'
    rw [rate_member_iff hst htw hx hs']
    exact (hs2.rate_pos_iff (e1 ▸ hs') j).1 hr'
  · rcases e8 with ⟨a, b⟩ | a
    · rw [b, h3, a]
    · rw [a, h1]; rfl
  · rw [e6, hreb.method, hm]
  · rw [e7, hreb.tol]; exact ht
  · rw [e5, hreb.siteVisits_keys, ← hreb.sites, ← e1]
  · have hi2 : i ∈ ClusterSpec.ids c2 := by rw [← Cluster.ids_congr e1]; exact List.mem_toFinset.2 hi'
    obtain ⟨j, hj, hr'⟩ := (hl.congr e1.symm) i hi2
    rw [e9]
    exact hreb.dwelt hs2 hi2 hj hr'

theorem Settled.congr {x y : Cluster K} (h : Settled mem w x)
    (e : ∀ i ∈ x.sites.keys, ∀ j, BasinSpec.rate mem w'.sites i j = BasinSpec.rate mem w.sites i j)
    (hk : y.sites.keys = x.sites.keys) (h1 : y.tau = x.tau) (h2 : y.timeInc = x.timeInc) (h3 : y.resolution = x.resolution)
    (h4 : y.method = x.method) (h5 : y.tol = x.tol) (h6 : y.siteVisits.keys = x.siteVisits.keys)
    (h7 : y.cumInternal = x.cumInternal) (h8 : y.cumNeigh = x.cumNeigh) (h9 : y.internalDwell = x.internalDwell) :
    Settled mem w' y where
  size := by
    have := congrArg List.length hk
    simp only [IMap.keys, List.length_map] at this
    rw [this]; exact h.size
  back i hi j hj hr := by
    rw [hk] at hi hj
    rw [e i hi] at hr
    rw [e j hj]
    exact h.back i hi j hj hr
  conn u hu v hv := by
    rw [hk] at hu hv ⊢
    exact reach_congr e hu (h.conn u hu v hv)
  exit := by
    obtain ⟨i, hi, j, hj, r, hr⟩ := h.exit
    exact ⟨i, hk ▸ hi, j, hk ▸ hj, r, (e i hi j).trans hr⟩
  tau := by rw [h1, h2, h3]; exact h.tau
  res := h3 ▸ h.res
  method := h4.trans h.method
  tol := h5 ▸ h.tol
  visits i := by rw [h6, hk]; exact h.visits i
  dwell := by rw [h9, hk]; exact h.dwell
  inTable := by rw [h7, hk]; exact h.inTable
  outTable := by
    obtain ⟨l, rest, S, wt, a, b, c⟩ := h.outTable
    refine ⟨l, rest, S, wt, h8.trans a, b, fun j hj => ?_⟩
    obtain ⟨i, hi, r, hr⟩ := c j hj
    exact ⟨i, hk ▸ hi, r, (e i hi j).trans hr⟩

theorem rate_twin {i j : Int} {s t : Site K} (h : w.sites.get? i = some t) (h' : w'.sites.get? i = some s) (ht : Twin s t) :
    BasinSpec.rate mem w'.sites i j = BasinSpec.rate mem w.sites i j := by
  unfold BasinSpec.rate
  rw [h, h']
  simp only [Option.bind_some, ht.neigh]

theorem Keep.rate_eq (hk : Keep env w w') (i j : Int) :
    BasinSpec.rate mem w'.sites i j = BasinSpec.rate mem w.sites i j := by
  cases h : w'.sites.get? i with
  | none =>
    have := (rel_none (hk.site i)).2 h
    unfold BasinSpec.rate
    rw [h, this]
  | some s =>
    obtain ⟨t, ht, htw⟩ := hk.twin h
    exact rate_twin ht h htw

theorem Grew.known {basin : List Int} {M : K} {order : List Int → List Int} (h : Grew env mem w w' basin M order) {i : Int} :
    w'.sites.get? i = none ↔ w.sites.get? i = none := by
  have key : ∀ k, w'.sites.get? i = (if i ∈ basin then (w.sites.get? i).map (World.member k) else w.sites.get? i) →
      (w'.sites.get? i = none ↔ w.sites.get? i = none) := by
    intro k e
    rw [e]
    split <;> simp
  cases h with
  | created c0 hb h => exact key _ (h.site i)
  | merged sc fav c d erased _ _ _ _ h => exact key _ (h.site i)

theorem Grew.rate_eq {basin : List Int} {M : K} {order : List Int → List Int} (h : Grew env mem w w' basin M order) (i j : Int) :
    BasinSpec.rate mem w'.sites i j = BasinSpec.rate mem w.sites i j := by
  cases h' : w'.sites.get? i with
  | none =>
    have := h.known.1 h'
    unfold BasinSpec.rate
    rw [h', this]
  | some s =>
    obtain ⟨t, ht, htw⟩ := h.twin h'
    exact rate_twin ht h' htw

/-- All clusters are settled. -/
def AllSettled (mem : Addr → K) (w : World K) : Prop := ∀ k x, w.clusters.get? k = some x → Settled mem w x

theorem AllSettled.keep (h : AllSettled mem w) (hk : Keep env w w') : AllSettled mem w' := by
  intro k y hy
  obtain ⟨x, hx, hr⟩ := rel_some (hy ▸ hk.cluster k)
  have e := hr.eq
  refine (h k x hx).congr (fun i _ j => hk.rate_eq i j) hr.keys ?_ ?_ ?_ ?_ ?_ hr.visitKeys ?_ ?_ ?_ <;> rw [e]

theorem AllSettled.adds (hst : Struct env w) {m : IMap (IMap Addr)} (h : AllSettled mem w) {mem' : Addr → K}
    (ha : Adds mem' m w w') : AllSettled mem w' := by
  intro k x hx
  rw [ha.clusters] at hx
  refine (h k x hx).congr (fun i hi j => ?_) rfl rfl rfl rfl rfl rfl rfl rfl rfl rfl
  obtain ⟨s, hs⟩ := IMap.mem_keys_iff_get?.1 hi
  obtain ⟨-, t, ht, -⟩ := hst.member k x i s hx hs
  exact rate_twin ht (ha.old ht) (.refl t)

/-! ## New clusters -/

theorem build_upd {id : Int} {l : List Int} {M : K} {c : Cluster K} (h : buildCluster env mem w id l M = .ok c) :
    Cluster.Upd env mem c ∧ 2 ≤ c.resolution ∧
    (∃ c1 freqs c2, Cluster.CInv c1 ∧ Cluster.Rebuilt env mem freqs c1 c2 ∧ c.sites = c2.sites ∧ c.tau = c2.tau ∧
      c.cumInternal = Cluster.cumulate 0 c2.probInternal ∧ c.cumNeigh = Cluster.cumulate 0 c2.probNeigh) ∧
    ∃ tau res, c.tau = some tau ∧ w.timeRes = some res ∧ chosenResolution tau M res = .ok c.resolution ∧
      c.timeInc = some (tau / c.resolution) := by
  obtain ⟨sites, c1, c2, tau, res, r, h1, h2, h3, h4, h5, h6, h7, rfl⟩ := buildCluster_ok h
  have hf := Cluster.addSites_frame h2
  have hi : Cluster.CInv c1 := by
    have : Cluster.CInv (blank id : Cluster K) := by
      have := Cluster.CInv.new (K := K) id
      exact ⟨this.sites, this.prob, this.visits, this.visitsSub, this.remaining, this.dwell⟩
    exact this.addSites h2
  have hm : c1.method = .tolerance := hf.method
  have ht : 0 < c1.tol := by
    have : c1.tol = 1 / 1000 := hf.tol
    rw [this]; norm_num
  refine ⟨?_, h7, ?_, tau, res, h4, h5, h6, rfl⟩
  · obtain ⟨d1, freqs, d2, a1, a2, a3, a4, a5, a6, a13, a14, a7, a8, a9, a10, a11, a12⟩ := Cluster.upd_of h3 hi hm ht
    exact ⟨d1, freqs, d2, a1, a2, a3, a4, a5, a6, a13, a14, a7, a8, a9, a10, a11, .inr (by rw [← a6, h4]; rfl)⟩
  · obtain ⟨freqs, d, -, hv, hr⟩ := Cluster.update_ok h3
    refine ⟨d, freqs, c2, hi.visitsOnly hv, hr, rfl, rfl, ?_, ?_⟩
    · show c2.cumInternal = _
      have hnil : c1.cumInternal = [] := by rw [(addSites_ok h2).1]; rfl
      rw [hr.cumInternal]
      obtain ⟨⟨v, p, rfl⟩, -⟩ := hv
      show c1.cumInternal ++ _ = _
      rw [hnil]; rfl
    · show c2.cumNeigh = _
      have hnil : c1.cumNeigh = [] := by rw [(addSites_ok h2).1]; rfl
      rw [hr.cumNeigh]
      obtain ⟨⟨v, p, rfl⟩, -⟩ := hv
      show c1.cumNeigh ++ _ = _
      rw [hnil]; rfl

theorem mem_exits {x : Cluster K} {j : Int} (h : j ∈ ClusterSpec.exits x) (hw : x.sites.WF) :
    ∃ i s, x.sites.get? i = some s ∧ j ∈ s.neigh.keys := by
  unfold ClusterSpec.exits ClusterSpec.reach at h
  rw [Finset.mem_sdiff, List.mem_toFinset, List.mem_flatMap] at h
  obtain ⟨⟨⟨i, s⟩, his, hj⟩, -⟩ := h
  exact ⟨i, s, IMap.get?_of_mem hw his, hj⟩

theorem settled_created (hst : Struct env w) (htw : Twins w) (hg : Good mem w) (hst' : Struct env w') (htw' : Twins w')
    (hg' : Good mem w') {basin : List Int} {M : K} {c0 : Cluster K} {v : Int}
    (hb : buildCluster env mem w w.nextId basin M = .ok c0) (hc : Created env w w' basin (w.seedCluster c0))
    (hrate : ∀ i j, BasinSpec.rate mem w'.sites i j = BasinSpec.rate mem w.sites i j) (hv : v ∈ basin)
    (hreach : ∀ x ∈ basin, BasinSpec.Reach mem w.sites basin v x) : Settled mem w' (w.seedCluster c0) := by
  have hx : w'.clusters.get? w.nextId = some (w.seedCluster c0) := by rw [hc.cluster, if_pos rfl]
  obtain ⟨hu, hres, ⟨c1, freqs, c2, hi, hr, e1, e0, e2, e3⟩, tau, -, htau, -⟩ := build_upd hb
  have hkeys : ∀ i, i ∈ (w.seedCluster c0).sites.keys ↔ i ∈ basin := by
    intro i
    have := hc.perm hst
    exact this.mem_iff
  have hse := seedCluster_eq w c0
  refine settled_of (k := w.nextId) (v := v) hst' htw' hg' hx ?_ ?_ ((hkeys v).2 hv) ?_ ?_ ?_
  · rw [hse]
    exact hu
  · rw [hse]; exact hres
  · intro u hu'
    refine reach_congr (fun i _ j => hrate i j) ((hkeys v).2 hv) ?_
    exact reach_mono (hreach u ((hkeys u).1 hu')) fun i hi => (hkeys i).2 hi
  · rw [hse]; exact fun e => by rw [show c0.tau = none from e] at htau; cases htau
  · intro hs hm
    have es : (w.seedCluster c0).sites = c2.sites := by rw [hse]; exact e1
    have hs2 : ClusterSpec.Sound mem c2 := hs.congr es.symm
    have hm2 : ClusterSpec.Mutual mem c2 := Cluster.Mutual.congr es.symm hm
    have hd := hr.dist (hs2.congr hr.sites.symm) (Cluster.Mutual.congr hr.sites.symm hm2) hi.prob
    refine ⟨⟨c2.probInternal, [], _, _, ?_, hr.internal hs2 hd, fun i hi => ?_⟩, c2.probNeigh, [], _, _, ?_, hr.exit hs2 hd (hr.hasExit hs2 (by rw [← e0, htau]; nofun)), fun j hj => ?_⟩
    · rw [hse, List.append_nil]; exact e2
    · rw [es]; exact List.mem_toFinset.1 hi
    · rw [hse, List.append_nil]; exact e3
    · obtain ⟨i, s, h1, h2⟩ := mem_exits hj hs2.wf
      rw [← es] at h1
      exact ⟨i, IMap.mem_keys_iff_get?.2 ⟨s, h1⟩, (rate_member_iff hst' htw' hx h1).2 h2⟩

/-! ## Merged clusters -/

theorem mergeClusters_upd {fav : Int} {cids : List Int} {c : Cluster K} (hf : fav ∉ cids)
    (hw : w.clusters.WF) (hc : w.clusters.get? fav = some c) (hi : Cluster.CInv c) (hm : c.method = .tolerance)
    (ht : 0 < c.tol) (hup : Cluster.Upd env mem c ∧ c.tau ≠ none ∧ Cluster.Seen c)
    (h : mergeClusters env mem fav w cids = (.ok (), w')) :
    ∃ d, w'.clusters.get? fav = some d ∧ Cluster.Upd env mem d ∧ d.tau ≠ none := by
  induction cids generalizing w c with
  | nil =>
    unfold mergeClusters at h
    simp only [Prod.mk.injEq, true_and] at h
    subst h
    exact ⟨c, hc, hup.1, hup.2.1⟩
  | cons k cids ih =>
    rw [List.mem_cons, not_or] at hf
    unfold mergeClusters at h
    split at h
    · simp at h
    · simp at h
    · next c0 src hc0 hsrc =>
      have hc0 := getCluster_ok hc0
      rw [hc] at hc0; cases hc0
      split at h
      · simp at h
      · next u c' src' hmg =>
        have hfr := Cluster.migrate_frame (env := env) (mem := mem) (c := c) src
        have hci := hi.migrate (env := env) (mem := mem) src
        rw [hmg] at hfr hci
        have hw' : IMap.WF (w.clusters.put fav c') := IMap.WF.set hw fav c'
        exact ih (w := { w with clusters := (w.clusters.put fav c').erase k }) hf.2
          (IMap.WF.erase hw' k) (by
            show IMap.get? (IMap.erase (IMap.set w.clusters fav c') k) fav = some c'
            rw [IMap.get?_erase (IMap.WF.set hw fav c'), if_neg (Ne.symm hf.1), IMap.get?_set_self])
          hci (hfr.method.trans hm) (by rw [hfr.tol]; exact ht)
          ⟨Cluster.upd_migrate hmg hi hm ht, hup.2.2.migrate hmg⟩ h

theorem merge_upd (hst : Struct env w) {order : List Int → List Int} (hord : ∀ l, (order l).Perm l) {sc : IMap Int}
    {basin : List Int} {fav : Int} (hsc : w.clustersOfSites basin [] = .ok sc) {c0 : Cluster K}
    (hc0 : w.clusters.get? fav = some c0) (hmt : c0.method = .tolerance) (htl : 0 < c0.tol)
    (hseen : Cluster.Seen c0) (h : merge env mem w order sc fav = (.ok (), w')) :
    ∃ d, w'.clusters.get? fav = some d ∧ Cluster.Upd env mem d ∧ d.tau ≠ none := by
  obtain ⟨iso, cids, w1, c, c1, c2, hm, hc, h1, h2, h3⟩ := merge_steps h
  obtain ⟨hscw, hget, hknown⟩ := clustersOfSites_ok hst (acc := []) List.nodup_nil hsc
  obtain ⟨ha, -, hcids, hcn, -⟩ := mergeCollect_ok hscw hm
  have hcl : w1.clusters = w.clusters := by rw [ha.eq]
  rw [hcl, hc0] at hc
  cases hc
  have haf := Cluster.addSites_frame h1
  have hi1 := (hst.cinv hc0).addSites h1
  have huf := Cluster.update_frame (env := env) (mem := mem) c1
  have hi2 := hi1.update (env := env) (mem := mem)
  rw [h2] at huf hi2
  have hm1 : c1.method = .tolerance := haf.method.trans hmt
  have ht1 : 0 < c1.tol := by rw [haf.tol]; exact htl
  exact mergeClusters_upd (w := { w1 with clusters := IMap.set w1.clusters fav c2 }) (c := c2)
    (fun hm => by
      have := (hord cids).mem_iff.1 hm
      rw [hcids] at this
      simp at this) (by show IMap.WF (IMap.set w1.clusters fav c2); rw [hcl]; exact IMap.WF.set hst.clustersWF _ _)
    (by show IMap.get? (IMap.set w1.clusters fav c2) fav = _; exact IMap.get?_set_self ..)
    hi2 (huf.method.trans hm1) (by rw [huf.tol]; exact ht1)
    ⟨Cluster.upd_of h2 hi1 hm1 ht1, (hseen.addSites h1).update h2⟩ h3

/-- A site of the basin is in the surviving cluster. -/
theorem favored_mem (hst : Struct env w) {basin : List Int} {sc : IMap Int} {c : Cluster K}
    (hsc : w.clustersOfSites basin [] = .ok sc) (hc : w.clusters.get? (favoredClusterId sc) = some c) :
    ∃ i ∈ basin, ∃ s, w.sites.get? i = some s ∧ s.clusterId = favoredClusterId sc := by
  obtain ⟨hscw, hget, hknown⟩ := clustersOfSites_ok hst (acc := []) List.nodup_nil hsc
  have hne : favoredClusterId sc ≠ unassignedId := by
    have := (hst.cid _ _ hc).2.1
    have := unassigned_neg
    omega
  have := favored_fold sc unassignedId
  simp only at this
  obtain ⟨-, h2⟩ := this
  change favoredClusterId sc ≠ unassignedId → (favoredClusterId sc = unassignedId ∨ _) ∧ _ at h2
  rcases (h2 hne).1 with h | ⟨ic, hic, he⟩
  · exact absurd h hne
  · have := (mem_of_wf_get? hscw (i := ic.1) (c := ic.2)).1 hic
    rw [hget] at this
    split at this
    · next hb =>
      obtain ⟨s, hs, hs'⟩ := Option.map_eq_some_iff.1 this
      exact ⟨ic.1, hb, s, hs, hs'.trans he⟩
    · cases this

theorem Settled.seen {x : Cluster K} (h : Settled mem w x) : Cluster.Seen x := by
  obtain ⟨⟨i, s⟩, rest, e⟩ := List.exists_cons_of_ne_nil (l := x.sites) (fun e => by have := h.size; rw [e] at this; simp at this)
  have hi : i ∈ x.sites.keys := by rw [e]; exact List.mem_cons_self
  exact ⟨i, hi, (h.visits i).2 hi⟩

theorem settled_merged (hst : Struct env w) (htw : Twins w) (hall : AllSettled mem w) (hst' : Struct env w')
    (htw' : Twins w') (hg' : Good mem w') {order : List Int → List Int} (hord : ∀ l, (order l).Perm l) {basin : List Int} {v : Int} {sc : IMap Int} {fav : Int} {c d : Cluster K} {erased : List Int}
    (hsc : w.clustersOfSites basin [] = .ok sc) (hf : fav = favoredClusterId sc)
    (hm : merge env mem w order sc fav = (.ok (), w')) (h : Merged env w w' basin fav c d erased)
    (hrate : ∀ i j, BasinSpec.rate mem w'.sites i j = BasinSpec.rate mem w.sites i j) (hv : v ∈ basin)
    (hreach : ∀ x ∈ basin, BasinSpec.Reach mem w.sites basin v x) : Settled mem w' d := by
  have hx : w'.clusters.get? fav = some d := by rw [h.cluster, if_pos rfl]
  have hcs := hall fav c h.target
  obtain ⟨d', hd', hu, hdt⟩ := merge_upd hst hord hsc h.target hcs.method hcs.tol hcs.seen hm
  rw [hx] at hd'; cases hd'
  obtain ⟨c', d', h1, h2, hfr⟩ := merge_frame' hst hord hsc hm
  rw [h.target] at h1; cases h1
  rw [hx] at h2; cases h2
  have hold : ∀ i ∈ c.sites.keys, i ∈ d.sites.keys := by
    intro i hi
    obtain ⟨s, hs⟩ := IMap.mem_keys_iff_get?.1 hi
    exact IMap.mem_keys_iff_get?.2 ⟨s, (h.sites i s).2 (.inl hs)⟩
  have herased : ∀ k ∈ erased, ∀ x, w.clusters.get? k = some x → ∀ i ∈ x.sites.keys, i ∈ d.sites.keys := by
    intro k hk x hx i hi
    obtain ⟨s, hs⟩ := IMap.mem_keys_iff_get?.1 hi
    exact IMap.mem_keys_iff_get?.2 ⟨_, (h.sites i _).2 (.inr (.inr ⟨k, hk, x, s, hx, hs, rfl⟩))⟩
  have hbas : ∀ i ∈ basin, i ∈ d.sites.keys := by
    intro i hi
    obtain ⟨s, hs⟩ := Option.ne_none_iff_exists'.1 (h.known i hi)
    by_cases hu : s.clusterId = unassignedId
    · exact IMap.mem_keys_iff_get?.2 ⟨_, (h.sites i _).2 (.inr (.inl ⟨hi, s, hs, hu, rfl⟩))⟩
    · obtain ⟨-, -, -, hj⟩ := hst.joined i s hs hu
      by_cases hk : s.clusterId = fav
      · have := hj c (hk ▸ h.target)
        obtain ⟨t, ht⟩ := Option.ne_none_iff_exists'.1 this
        exact hold i (IMap.mem_keys_iff_get?.2 ⟨t, ht⟩)
      · have hm := (h.mem s.clusterId).2 ⟨hk, hu, i, hi, s, hs, rfl⟩
        obtain ⟨x, hx⟩ := Option.ne_none_iff_exists'.1 (h.exist _ hm)
        obtain ⟨t, ht⟩ := Option.ne_none_iff_exists'.1 (hj x hx)
        exact herased _ hm x hx i (IMap.mem_keys_iff_get?.2 ⟨t, ht⟩)
  have hb' : ∀ x ∈ basin, BasinSpec.Reach mem w'.sites d.sites.keys v x := fun x hx =>
    reach_congr (fun i _ j => hrate i j) (hbas v hv) (reach_mono (hreach x hx) hbas)
  have hcl : ∀ k x, w.clusters.get? k = some x → (∀ i ∈ x.sites.keys, i ∈ d.sites.keys) →
      (∃ i ∈ basin, i ∈ x.sites.keys) → ∀ u ∈ x.sites.keys, BasinSpec.Reach mem w'.sites d.sites.keys v u := by
    intro k x hx hsub ⟨i, hib, hix⟩ u hu
    refine reach_trans (hb' i hib) ?_
    refine reach_congr (fun i _ j => hrate i j) (hsub i hix) ?_
    exact reach_mono ((hall k x hx).conn i hix u hu) hsub
  refine settled_of (k := fav) (v := v) hst' htw' hg' hx hu ?_ (hbas v hv) ?_ hdt ?_
  · rw [hfr.resolution]; exact hcs.res
  · intro u hu
    obtain ⟨s, hs⟩ := IMap.mem_keys_iff_get?.1 hu
    rcases (h.sites u s).1 hs with hs | ⟨hb, -⟩ | ⟨k, hk, x, t, hx, ht, -⟩
    · refine hcl fav c h.target hold ?_ u (IMap.mem_keys_iff_get?.2 ⟨s, hs⟩)
      obtain ⟨i, hi, t, ht, hti⟩ := favored_mem hst hsc (hf ▸ h.target)
      refine ⟨i, hi, ?_⟩
      have hne : t.clusterId ≠ unassignedId := by
        have := (hst.cid _ _ h.target).2.1
        have := unassigned_neg
        rw [hti, ← hf]; omega
      obtain ⟨-, -, -, hj⟩ := hst.joined i t ht hne
      obtain ⟨t', ht'⟩ := Option.ne_none_iff_exists'.1 (hj c (by rw [hti, ← hf]; exact h.target))
      exact IMap.mem_keys_iff_get?.2 ⟨t', ht'⟩
    · exact hb' u hb
    · refine hcl k x hx (herased k hk x hx) ?_ u (IMap.mem_keys_iff_get?.2 ⟨t, ht⟩)
      obtain ⟨-, hne, i, hi, s', hs', rfl⟩ := (h.mem k).1 hk
      obtain ⟨-, -, -, hj⟩ := hst.joined i s' hs' hne
      obtain ⟨t', ht'⟩ := Option.ne_none_iff_exists'.1 (hj x hx)
      exact ⟨i, hi, IMap.mem_keys_iff_get?.2 ⟨t', ht'⟩⟩
  · intro _ _
    obtain ⟨l, rest, S, wt, a, b, e⟩ := hcs.inTable
    obtain ⟨l', rest', S', wt', a', b', e'⟩ := hcs.outTable
    obtain ⟨x1, hx1⟩ := hfr.cumInternal
    obtain ⟨x2, hx2⟩ := hfr.cumNeigh
    refine ⟨⟨l, rest ++ x1, S, wt, ?_, b, fun i hi => hold i (e i hi)⟩, l', rest' ++ x2, S', wt', ?_, b', fun j hj => ?_⟩
    · rw [hx1, a, List.append_assoc]
    · rw [hx2, a', List.append_assoc]
    · obtain ⟨i, hi, r, hr⟩ := e' j hj
      exact ⟨i, hold i hi, r, (hrate i j).trans hr⟩

/-- The basin that was found, seen from its start. -/
theorem found_reach {vis : Visitor} {basin : List Int} {v : Int}
    (h : Explorer.default.findBasin vis mem w.sites w.clusters v = .ok basin) (hne : basin ≠ []) :
    v ∈ basin ∧ ∀ x ∈ basin, BasinSpec.Reach mem w.sites basin v x := by
  rcases Basin.C49_basin Explorer.default (by show 1 ≤ 5; decide) vis mem w.sites w.clusters v basin h with h | ⟨-, -, h1, h2⟩
  · exact absurd h hne
  · exact ⟨h1, h2⟩

theorem Grained'.nonempty (hst : Struct env w) {a : Choices K} {v : Int} {basin : List Int} (h : Grained' env mem w w' a v basin) : basin ≠ [] := by
  cases h.grew with
  | created c0 hb hc => exact hc.nonempty
  | merged sc fav c d erased hsc hf hu hm hmg =>
    obtain ⟨i, hi, -⟩ := favored_mem hst hsc (hf ▸ hmg.target)
    exact List.ne_nil_of_mem hi

theorem AllSettled.grained (hst : Struct env w) (htw : Twins w) (hg : Good mem w) (hall : AllSettled mem w) {a : Choices K}
    {v : Int} {basin : List Int} (h : Grained' env mem w w' a v basin) : AllSettled mem w' := by
  obtain ⟨hv, hreach⟩ := found_reach h.found (h.nonempty hst)
  have hst' := hst.grew h.grew
  have htw' := htw.grew hst h.grew
  have hg' := hg.grew h.grew
  have hrate : ∀ i j, BasinSpec.rate mem w'.sites i j = BasinSpec.rate mem w.sites i j := fun i j => h.grew.rate_eq i j
  have hother : ∀ k x, w.clusters.get? k = some x → Settled mem w' x := fun k x hx =>
    (hall k x hx).congr (fun i _ j => hrate i j) rfl rfl rfl rfl rfl rfl rfl rfl rfl rfl
  intro k x hx
  cases h.grew with
  | created c0 hb hc =>
    rw [hc.cluster] at hx
    split at hx
    · cases hx
      exact settled_created hst htw hg hst' htw' hg' hb hc hrate hv hreach
    · exact hother k x hx
  | merged sc fav c d erased hsc hf hu hm hmg =>
    rw [hmg.cluster] at hx
    split at hx
    · cases hx
      exact settled_merged hst htw hall hst' htw' hg' a.order_perm hsc hf hm hmg hrate hv hreach
    · split at hx
      · cases hx
      · exact hother k x hx

theorem Trace.settled {n : Nat} {evs : List (Event K)} (ht : Trace env (World.new n) evs w) (hu : HopsReturn evs)
    (hf : RatesFixed mem evs) (hp : RatesPositive mem evs) : AllSettled mem w := by
  generalize hw0 : (World.new n : World K) = w0 at ht
  induction ht with
  | nil => subst hw0; intro k x hx; cases hx
  | @snoc w1 w' evs op res mem' ht h hr ih =>
    obtain ⟨hu1, hu2⟩ := hopsReturn_snoc hu
    have hf1 : RatesFixed mem evs := fun ev he => hf ev (List.mem_append_left _ he)
    have hp1 : RatesPositive mem evs := fun ev he => hp ev (List.mem_append_left _ he)
    have hmem : mem' = mem := hf _ (List.mem_append_right _ (List.mem_singleton_self _))
    subst hmem
    subst hw0
    have hst := ht.struct hu1
    obtain ⟨h1, h2⟩ := ht.static hu1
    have hg := ht.good hu1 hf1 hp1
    have ha := ih hu1 hf1 hp1
    rcases step_cases hst h hr hu2 with hk | ⟨m, rfl, hadd⟩ | ⟨wid, k, a, j, w1', w2, w3, basin, -, -, hk, rfl, hgr, rfl⟩
    · exact ha.keep hk
    · exact ha.adds hst hadd
    · have hk2 : Keep env w1 { w1' with iteration := w1'.iteration + 1 } := hk.trans (.of_eq rfl rfl rfl le_rfl)
      have := (ha.keep hk2).grained (hst.keep hk2) (h2.keep hst hk2) (hg.keep hk2) hgr
      exact this.keep (env := env) (.of_eq rfl rfl rfl le_rfl)

end Mythical.World
