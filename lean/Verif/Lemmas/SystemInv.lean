import Verif.Lemmas.SystemGrain
import Verif.Spec.System
import Mathlib.Data.Option.Defs

/-! # Structure of the worlds that can be reached -/

set_option linter.unusedSectionVars false
set_option linter.unusedVariables false

namespace Mythical.World
open Mythical
variable {K : Type} [Field K] [LinearOrder K] [IsStrictOrderedRing K] [FloorRing K]
variable {w w' w1 w2 : World K} {env : Env K} {mem : Addr → K}

/-- How the parts of a world fit together. (A site whose cluster has been merged into another one on behalf of other sites
keeps the id of the erased cluster; it is a member of the surviving one.) -/
structure Struct (env : Env K) (w : World K) : Prop where
  sitesWF : w.sites.WF
  featsWF : w.feats.WF
  clustersWF : w.clusters.WF
  next : 0 ≤ w.nextId
  siteId : ∀ i s, w.sites.get? i = some s → s.id = i
  known : ∀ i, w.feats.get? i = none ↔ w.sites.get? i = none
  cid : ∀ c x, w.clusters.get? c = some x → x.id = c ∧ 0 ≤ c ∧ c < w.nextId
  trace : ∀ c x, w.clusters.get? c = some x → ∃ evs, Cluster.Trace env (Cluster.new c) evs x
  member : ∀ c x i s, w.clusters.get? c = some x → x.sites.get? i = some s →
    s.id = i ∧ ∃ t, w.sites.get? i = some t ∧ t.clusterId ≠ unassignedId
  disjoint : ∀ c x c' x' i, w.clusters.get? c = some x → w.clusters.get? c' = some x' → x.sites.get? i ≠ none →
    x'.sites.get? i ≠ none → c = c'
  lone : ∀ i s, w.sites.get? i = some s → s.clusterId = unassignedId → w.feats.get? i = some (.site i)
  joined : ∀ i s, w.sites.get? i = some s → s.clusterId ≠ unassignedId → w.feats.get? i = some (.cluster s.clusterId) ∧
    0 ≤ s.clusterId ∧ s.clusterId < w.nextId ∧
    ∀ x, w.clusters.get? s.clusterId = some x → x.sites.get? i ≠ none

theorem Struct.new (n : Nat) : Struct env (World.new n : World K) where
  sitesWF := List.nodup_nil
  featsWF := List.nodup_nil
  clustersWF := List.nodup_nil
  next := Int.natCast_nonneg n
  siteId i s h := by cases h
  known i := by simp [World.new]
  cid c x h := by cases h
  trace c x h := by cases h
  member c x i s h := by cases h
  disjoint c x c' x' i h := by cases h
  lone i s h := by cases h
  joined i s h := by cases h

theorem feat_of {i : Int} {p : FPtr} (h : w.feats.get? i = some p) : w.feat i = p := by unfold feat; rw [h]; rfl

theorem feat_null {i : Int} (h : w.feats.get? i = none) : w.feat i = .null := by unfold feat; rw [h]; rfl

/-- The pointer of a site leads to the site itself, if it is in no cluster, or to a cluster with this site, or nowhere. -/
theorem Struct.feat_cases (h : Struct env w) (i : Int) :
    (w.feat i = .null ∧ w.sites.get? i = none) ∨
    (∃ s, w.feat i = .site i ∧ w.sites.get? i = some s ∧ s.clusterId = unassignedId) ∨
    ∃ s, w.feat i = .cluster s.clusterId ∧ w.sites.get? i = some s ∧ s.clusterId ≠ unassignedId ∧
      ∀ x, w.clusters.get? s.clusterId = some x → ∃ t, x.sites.get? i = some t := by
  cases e : w.sites.get? i with
  | none => exact .inl ⟨feat_null ((h.known i).2 e), rfl⟩
  | some s =>
    by_cases hc : s.clusterId = unassignedId
    · exact .inr (.inl ⟨s, feat_of (h.lone i s e hc), rfl, hc⟩)
    · obtain ⟨h1, -, -, h2⟩ := h.joined i s e hc
      exact .inr (.inr ⟨s, feat_of h1, rfl, hc, fun x hx => Option.ne_none_iff_exists'.1 (h2 x hx)⟩)

/-- The site is the same up to its counters. -/
def Same (s s' : Site K) : Prop := s' = { s with occupied := s'.occupied, visits := s'.visits }

theorem Same.refl (s : Site K) : Same s s := rfl

theorem Same.trans {s t u : Site K} (h1 : Same s t) (h2 : Same t u) : Same s u := by
  unfold Same at *
  rw [h2, h1]

theorem Same.id {s t : Site K} (h : Same s t) : t.id = s.id := by rw [h]
theorem Same.clusterId {s t : Site K} (h : Same s t) : t.clusterId = s.clusterId := by rw [h]
theorem Same.neigh {s t : Site K} (h : Same s t) : t.neigh = s.neigh := by rw [h]

/-- The cluster has the same sites up to their counters, and the same tables. The occupation counts of the sites change as
`R` says. -/
structure ClusterKeep (env : Env K) (R : Int → Int → Int → Prop) (x x' : Cluster K) : Prop where
  trace : ∃ evs, Cluster.Trace env x evs x'
  eq : x' = { x with
    sites := x'.sites, visits := x'.visits, occupied := x'.occupied, remaining := x'.remaining,
    siteVisits := x'.siteVisits, prevVisits := x'.prevVisits }
  visitKeys : x'.siteVisits.keys = x.siteVisits.keys
  keys : x'.sites.keys = x.sites.keys
  site : ∀ j, Option.Rel (fun s s' => Same s s' ∧ R j s.occupied s'.occupied) (x.sites.get? j) (x'.sites.get? j)

/-- The change of a world in which only the counters of sites and clusters and the remaining dwell times change. -/
structure Step (env : Env K) (R : Int → Int → Int → Prop) (w w' : World K) : Prop where
  inner : Inner w w'
  siteKeys : w'.sites.keys = w.sites.keys
  clusterKeys : w'.clusters.keys = w.clusters.keys
  site : ∀ j, Option.Rel (fun s s' => Same s s' ∧ (s.clusterId = unassignedId → R j s.occupied s'.occupied))
    (w.sites.get? j) (w'.sites.get? j)
  cluster : ∀ c, Option.Rel (ClusterKeep env R) (w.clusters.get? c) (w'.clusters.get? c)

theorem rel_some {α β : Type} {r : α → β → Prop} {a : Option α} {b : β} (h : Option.Rel r a (some b)) :
    ∃ x, a = some x ∧ r x b := by
  cases h with
  | some h => exact ⟨_, rfl, h⟩

theorem rel_some' {α β : Type} {r : α → β → Prop} {a : α} {b : Option β} (h : Option.Rel r (some a) b) :
    ∃ y, b = some y ∧ r a y := by
  cases h with
  | some h => exact ⟨_, rfl, h⟩

theorem rel_none {α β : Type} {r : α → β → Prop} {a : Option α} {b : Option β} (h : Option.Rel r a b) :
    a = none ↔ b = none := by
  cases h <;> simp

theorem rel_self {α : Type} {r : α → α → Prop} (h : ∀ a, r a a) (a : Option α) : Option.Rel r a a := by
  cases a with
  | none => exact .none
  | some a => exact .some (h a)

theorem rel_trans {α β γ : Type} {r : α → β → Prop} {s : β → γ → Prop} {t : α → γ → Prop} {a : Option α} {b : Option β}
    {c : Option γ} (h : ∀ x y z, r x y → s y z → t x z) (h1 : Option.Rel r a b) (h2 : Option.Rel s b c) :
    Option.Rel t a c := by
  cases h1 with
  | none => cases h2; exact .none
  | some h1 =>
    cases h2 with
    | some h2 => exact .some (h _ _ _ h1 h2)

theorem ClusterKeep.refl {R : Int → Int → Int → Prop} (hR : ∀ j o, R j o o) (x : Cluster K) : ClusterKeep env R x x where
  trace := ⟨[], .nil _⟩
  eq := rfl
  visitKeys := rfl
  keys := rfl
  site j := rel_self (fun s => ⟨.refl _, hR _ _⟩) _

theorem ClusterKeep.trans {R S T : Int → Int → Int → Prop} (hT : ∀ j a b c, R j a b → S j b c → T j a c)
    {x y z : Cluster K} (h1 : ClusterKeep env R x y) (h2 : ClusterKeep env S y z) : ClusterKeep env T x z where
  trace := by
    obtain ⟨l, hl⟩ := h1.trace
    obtain ⟨m, hm⟩ := h2.trace
    exact ⟨l ++ m, hl.append hm⟩
  eq := by rw [h2.eq, h1.eq]
  visitKeys := h2.visitKeys.trans h1.visitKeys
  keys := h2.keys.trans h1.keys
  site j := rel_trans (fun s t u a b => ⟨a.1.trans b.1, hT _ _ _ _ a.2 b.2⟩) (h1.site j) (h2.site j)

theorem Step.refl {R : Int → Int → Int → Prop} (hR : ∀ j o, R j o o) (w : World K) : Step env R w w where
  inner := .refl _
  siteKeys := rfl
  clusterKeys := rfl
  site j := rel_self (fun s => ⟨.refl _, fun _ => hR _ _⟩) _
  cluster c := rel_self (ClusterKeep.refl hR) _

theorem Step.trans {R S T : Int → Int → Int → Prop} (hT : ∀ j a b c, R j a b → S j b c → T j a c)
    (h1 : Step env R w w1) (h2 : Step env S w1 w2) : Step env T w w2 where
  inner := h1.inner.trans h2.inner
  siteKeys := h2.siteKeys.trans h1.siteKeys
  clusterKeys := h2.clusterKeys.trans h1.clusterKeys
  site j := rel_trans (fun s t u a b => ⟨a.1.trans b.1, fun hc =>
    hT _ _ _ _ (a.2 hc) (b.2 (by rw [a.1.clusterId]; exact hc))⟩) (h1.site j) (h2.site j)
  cluster c := rel_trans (fun s t u a b => a.trans hT b) (h1.cluster c) (h2.cluster c)

theorem Inner.feats (h : Inner w w') : w'.feats = w.feats := by obtain ⟨_, _, rfl⟩ := h; rfl
theorem Inner.nextId (h : Inner w w') : w'.nextId = w.nextId := by obtain ⟨_, _, rfl⟩ := h; rfl
theorem Inner.walkers (h : Inner w w') : w'.walkers = w.walkers := by obtain ⟨_, _, rfl⟩ := h; rfl
theorem Inner.feat (h : Inner w w') (i : Int) : w'.feat i = w.feat i := by unfold World.feat; rw [h.feats]

theorem wf_of_keys {V : Type} {m m' : IMap V} (h : m.WF) (e : IMap.keys m' = IMap.keys m) : m'.WF := by
  unfold IMap.WF at *
  have : m'.map Prod.fst = m.map Prod.fst := e
  rw [this]; exact h

theorem Struct.step {R : Int → Int → Int → Prop} (h : Struct env w) (hs : Step env R w w') : Struct env w' where
  sitesWF := wf_of_keys h.sitesWF hs.siteKeys
  featsWF := by rw [hs.inner.feats]; exact h.featsWF
  clustersWF := wf_of_keys h.clustersWF hs.clusterKeys
  next := by rw [hs.inner.nextId]; exact h.next
  siteId i s e := by
    obtain ⟨t, ht, hr, -⟩ := rel_some (e ▸ hs.site i)
    rw [hr.id]; exact h.siteId i t ht
  known i := by rw [hs.inner.feats, h.known, rel_none (hs.site i)]
  cid c x e := by
    obtain ⟨y, hy, hr⟩ := rel_some (e ▸ hs.cluster c)
    rw [hs.inner.nextId, hr.eq]; exact h.cid c y hy
  trace c x e := by
    obtain ⟨y, hy, hr⟩ := rel_some (e ▸ hs.cluster c)
    obtain ⟨l, hl⟩ := h.trace c y hy
    obtain ⟨m, hm⟩ := hr.trace
    exact ⟨_, hl.append hm⟩
  member c x i s e e' := by
    obtain ⟨y, hy, hr⟩ := rel_some (e ▸ hs.cluster c)
    obtain ⟨t, ht, hk, -⟩ := rel_some (e' ▸ hr.site i)
    obtain ⟨a, u, hu, hc⟩ := h.member c y i t hy ht
    obtain ⟨u', hu', hk', -⟩ := rel_some' (hu ▸ hs.site i)
    exact ⟨by rw [hk.id]; exact a, u', hu', by rw [hk'.clusterId]; exact hc⟩
  disjoint c x c' x' i e e' a a' := by
    obtain ⟨y, hy, hr⟩ := rel_some (e ▸ hs.cluster c)
    obtain ⟨y', hy', hr'⟩ := rel_some (e' ▸ hs.cluster c')
    rw [Ne, ← rel_none (hr.site i)] at a
    rw [Ne, ← rel_none (hr'.site i)] at a'
    exact h.disjoint c y c' y' i hy hy' a a'
  lone i s e hc := by
    obtain ⟨t, ht, hr, -⟩ := rel_some (e ▸ hs.site i)
    rw [hs.inner.feats]
    exact h.lone i t ht (by rw [← hr.clusterId]; exact hc)
  joined i s e hc := by
    obtain ⟨t, ht, hr, -⟩ := rel_some (e ▸ hs.site i)
    rw [hr.clusterId] at hc ⊢
    rw [hs.inner.feats, hs.inner.nextId]
    obtain ⟨a, b, c, d⟩ := h.joined i t ht hc
    refine ⟨a, b, c, fun x hx => ?_⟩
    obtain ⟨y, hy, hr'⟩ := rel_some (hx ▸ hs.cluster _)
    rw [Ne, ← rel_none (hr'.site i)]
    exact d y hy

/-- A change of a site that is in no cluster. -/
theorem Struct.siteStep {R : Int → Int → Int → Prop} (h : Struct env w) {i : Int} {s s' : Site K}
    (hs : w.sites.get? i = some s) (hc : s.clusterId = unassignedId) (hk : Same s s') (hR : R i s.occupied s'.occupied)
    (hR' : ∀ j o, j ≠ i → R j o o) : Step env R w { w with sites := w.sites.put i s' } where
  inner := ⟨_, w.clusters, rfl⟩
  siteKeys := IMap.keys_set_of_mem (IMap.mem_keys_iff_get?.2 ⟨s, hs⟩)
  clusterKeys := rfl
  site j := by
    show Option.Rel _ _ (IMap.get? (IMap.set w.sites i s') j)
    rw [IMap.get?_set]
    by_cases hij : i = j
    · subst hij; rw [if_pos rfl, hs]; exact .some ⟨hk, fun _ => hR⟩
    · rw [if_neg hij]; exact rel_self (fun t => ⟨.refl _, fun _ => hR' j _ (Ne.symm hij)⟩) _
  cluster c := by
    show Option.Rel _ _ (w.clusters.get? c)
    cases e : w.clusters.get? c with
    | none => exact .none
    | some x =>
      refine .some ⟨⟨[], .nil _⟩, rfl, rfl, rfl, fun j => ?_⟩
      cases e' : x.sites.get? j with
      | none => exact .none
      | some t =>
        refine .some ⟨.refl _, hR' j _ ?_⟩
        rintro rfl
        obtain ⟨-, u, hu, hcu⟩ := h.member c x j t e e'
        rw [hs] at hu; cases hu; exact hcu hc

/-- A change of a cluster. -/
theorem Struct.clusterStep {R : Int → Int → Int → Prop} (h : Struct env w) {i c : Int} {x x' : Cluster K}
    (hx : w.clusters.get? c = some x) (hi : x.sites.get? i ≠ none) (hk : ClusterKeep env R x x')
    (hR' : ∀ j o, j ≠ i → R j o o) : Step env R w { w with clusters := w.clusters.put c x' } where
  inner := ⟨w.sites, _, rfl⟩
  siteKeys := rfl
  clusterKeys := IMap.keys_set_of_mem (IMap.mem_keys_iff_get?.2 ⟨x, hx⟩)
  site j := by
    show Option.Rel _ _ (w.sites.get? j)
    cases e : w.sites.get? j with
    | none => exact .none
    | some t =>
      refine .some ⟨.refl _, fun hc => hR' j _ ?_⟩
      rintro rfl
      obtain ⟨s, hs⟩ := Option.ne_none_iff_exists'.1 hi
      obtain ⟨-, u, hu, hcu⟩ := h.member c x j s hx hs
      rw [e] at hu; cases hu; exact hcu hc
  cluster d := by
    show Option.Rel _ _ (IMap.get? (IMap.set w.clusters c x') d)
    rw [IMap.get?_set]
    by_cases hcd : c = d
    · subst hcd; rw [if_pos rfl, hx]; exact .some hk
    · rw [if_neg hcd]
      cases e : w.clusters.get? d with
      | none => exact .none
      | some y =>
        refine .some ⟨⟨[], .nil _⟩, rfl, rfl, rfl, fun j => ?_⟩
        cases e' : y.sites.get? j with
        | none => exact .none
        | some t =>
          refine .some ⟨.refl _, hR' j _ ?_⟩
          rintro rfl
          exact hcd (h.disjoint c x d y j hx e hi (by rw [e']; simp))

/-! ## Calls on a site of a cluster -/

/-- One call, as a history. -/
theorem trace_one {x x' : Cluster K} {op : Cluster.Op K} {o : Cluster.Out K} (h : x.step env mem op = (.ok o, x')) :
    ∃ evs, Cluster.Trace env x evs x' := ⟨_, .cons mem h trivial (.nil _)⟩

/-- A site of a cluster has been changed, and the cluster's counters. -/
theorem clusterKeep_site {R : Int → Int → Int → Prop} {x : Cluster K} {i : Int} {s s' : Site K} {v o : Int}
    (ht : ∃ evs, Cluster.Trace env x evs { x with visits := v, sites := x.sites.set i s', occupied := o })
    (hs : x.sites.get? i = some s) (hk : Same s s') (hR : R i s.occupied s'.occupied) (hR' : ∀ j o, j ≠ i → R j o o) :
    ClusterKeep env R x { x with visits := v, sites := x.sites.set i s', occupied := o } where
  trace := ht
  eq := rfl
  visitKeys := rfl
  keys := IMap.keys_set_of_mem (IMap.mem_keys_iff_get?.2 ⟨s, hs⟩)
  site j := by
    show Option.Rel _ _ (IMap.get? (IMap.set x.sites i s') j)
    rw [IMap.get?_set]
    by_cases hij : i = j
    · subst hij; rw [if_pos rfl, hs]; exact .some ⟨hk, hR⟩
    · rw [if_neg hij]; exact rel_self (fun t => ⟨.refl _, hR' j _ (Ne.symm hij)⟩) _

/-- Nothing but counters of the cluster and the remaining times have been changed. -/
theorem clusterKeep_same {R : Int → Int → Int → Prop} (hR : ∀ j o, R j o o) {x x' : Cluster K}
    (ht : ∃ evs, Cluster.Trace env x evs x')
    (he : x' = { x with visits := x'.visits, occupied := x'.occupied, remaining := x'.remaining }) :
    ClusterKeep env R x x' where
  trace := ht
  eq := by rw [he]
  visitKeys := by rw [he]
  keys := by rw [he]
  site j := by
    rw [show x'.sites = x.sites by rw [he]]
    exact rel_self (fun s => ⟨.refl _, hR _ _⟩) _

/-- One occupation less on site `i`. -/
def Less (i j a b : Int) : Prop := if j = i then b = a - 1 else b = a

/-- Site `i`, which was free, becomes occupied. -/
def More (i j a b : Int) : Prop := if j = i then (a = 0 → b = 1) else b = a

/-- No change. -/
def Equal (_j a b : Int) : Prop := b = a

theorem equal_self (j o : Int) : Equal j o o := rfl

theorem Site_vacate_ok {s s' : Site K} (h : s.vacate = .ok s') : Same s s' ∧ s'.occupied = s.occupied - 1 := by
  unfold Site.vacate at h
  obtain ⟨o, ho, h⟩ := bind_eq_ok.1 h
  obtain ⟨rfl, -⟩ := chk_eq_ok.1 ho
  cases h
  exact ⟨rfl, rfl⟩

theorem Site_occupy_ok {s s' : Site K} (h : s.occupy = .ok s') :
    Same s s' ∧ s'.occupied = s.occupied + 1 ∧ s'.visits = s.visits + 1 := by
  unfold Site.occupy at h
  obtain ⟨o, ho, h⟩ := bind_eq_ok.1 h
  obtain ⟨v, hv, h⟩ := bind_eq_ok.1 h
  obtain ⟨rfl, -⟩ := chk_eq_ok.1 ho
  obtain ⟨rfl, -⟩ := chk_eq_ok.1 hv
  cases h
  exact ⟨rfl, rfl, rfl⟩

theorem vacateSite_keep {x x' : Cluster K} {i : Int} {s : Site K} (hs : x.sites.get? i = some s)
    (h : x.vacateSite i = .ok x') : ClusterKeep env (Less i) x x' := by
  have ht : ∃ evs, Cluster.Trace env x evs x' :=
    trace_one (mem := fun _ => 0) (op := .vacateSite i) (o := .unit) (by
      show Cluster.simple _ _ = _; unfold Cluster.simple; simp only [h])
  unfold Cluster.vacateSite at h
  obtain ⟨s', h1, h⟩ := bind_eq_ok.1 h
  obtain ⟨o, ho, h⟩ := bind_eq_ok.1 h
  have ha : x.siteAt i = s := by unfold Cluster.siteAt; rw [hs]; rfl
  rw [ha] at h1
  obtain ⟨hk, hk'⟩ := Site_vacate_ok h1
  cases h
  exact clusterKeep_site (v := x.visits) ht hs hk (by unfold Less; rw [if_pos rfl]; exact hk')
    fun j o hj => by unfold Less; rw [if_neg hj]

theorem occupySite_keep {x x' : Cluster K} {i : Int} {s : Site K} (hs : x.sites.get? i = some s)
    (h : x.occupySite i = .ok x') : ClusterKeep env (More i) x x' := by
  have ht : ∃ evs, Cluster.Trace env x evs x' :=
    trace_one (mem := fun _ => 0) (op := .occupySite i) (o := .unit) (by
      show Cluster.simple _ _ = _; unfold Cluster.simple; simp only [h])
  unfold Cluster.occupySite at h
  split at h
  · obtain ⟨v, hv, h⟩ := bind_eq_ok.1 h
    have ha : x.siteAt i = s := by unfold Cluster.siteAt; rw [hs]; rfl
    rw [ha] at h
    cases h
    exact clusterKeep_site (o := x.occupied) ht hs (s' := s.setToOccupiedStatus) rfl
      (by unfold More; rw [if_pos rfl]; intro _; rfl) fun j o hj => by unfold More; rw [if_neg hj]
  · cases h

theorem occupy_keep {x x' : Cluster K} (h : x.occupy = .ok x') : ClusterKeep env Equal x x' := by
  have ht : ∃ evs, Cluster.Trace env x evs x' :=
    trace_one (mem := fun _ => 0) (op := .occupy) (o := .unit) (by
      show Cluster.simple _ _ = _; unfold Cluster.simple; simp only [h])
  unfold Cluster.occupy at h
  obtain ⟨o, ho, h⟩ := bind_eq_ok.1 h
  obtain ⟨v, hv, h⟩ := bind_eq_ok.1 h
  cases h
  exact clusterKeep_same equal_self ht rfl

theorem getDwellTime_keep {x x' : Cluster K} {wid : Int} {e t : K} (h : x.getDwellTime wid e = .ok (t, x')) :
    ClusterKeep env Equal x x' := by
  have ht : ∃ evs, Cluster.Trace env x evs x' :=
    trace_one (mem := fun _ => 0) (op := .getDwellTime wid e) (o := .time t) (by
      simp only [Cluster.step, h])
  obtain ⟨a, b, c, d, e⟩ := Cluster.getDwellTime_ok h
  refine clusterKeep_same equal_self ht ?_
  simp_all

theorem pickNewSiteId_keep {x x' : Cluster K} {wid n : Int} {u : K} (h : x.pickNewSiteId wid u = .ok (n, x')) :
    ClusterKeep env Equal x x' := by
  have ht : ∃ evs, Cluster.Trace env x evs x' :=
    trace_one (mem := fun _ => 0) (op := .pickNewSiteId wid u) (o := .num n) (by
      simp only [Cluster.step, h])
  unfold Cluster.pickNewSiteId at h
  split at h
  · cases h
  · split at h <;> (cases h; exact clusterKeep_same equal_self ht rfl)

/-! ## Calls through a feature pointer -/

theorem Struct.vacateAt (h : Struct env w) {i : Int} (e : w.vacateAt (w.feat i) i = .ok w') : Step env (Less i) w w' := by
  rcases vacateAt_ok e with ⟨id, hp, s, s', hs, hv, rfl⟩ | ⟨id, hp, x, x', hx, hv, rfl⟩
  · rcases h.feat_cases i with ⟨a, -⟩ | ⟨t, a, b, c⟩ | ⟨t, a, -⟩
    · rw [a] at hp; cases hp
    · rw [a] at hp; cases hp
      rw [b] at hs; cases hs
      obtain ⟨k1, k2⟩ := Site_vacate_ok hv
      exact h.siteStep b c k1 (by unfold Less; rw [if_pos rfl]; exact k2) fun j o hj => by unfold Less; rw [if_neg hj]
    · rw [a] at hp; cases hp
  · rcases h.feat_cases i with ⟨a, -⟩ | ⟨t, a, b, c⟩ | ⟨t, a, b, c, d⟩
    · rw [a] at hp; cases hp
    · rw [a] at hp; cases hp
    · rw [a] at hp; cases hp
      obtain ⟨u, hu⟩ := d x hx
      exact h.clusterStep (i := i) hx (by rw [hu]; simp) (vacateSite_keep hu hv)
        fun j o hj => by unfold Less; rw [if_neg hj]

theorem Struct.occupyAt (h : Struct env w) {i : Int} (e : w.occupyAt (w.feat i) i = .ok w') : Step env (More i) w w' := by
  rcases occupyAt_ok e with ⟨id, hp, s, s', hs, hv, rfl⟩ | ⟨id, hp, x, x', hx, hv, rfl⟩
  · rcases h.feat_cases i with ⟨a, -⟩ | ⟨t, a, b, c⟩ | ⟨t, a, -⟩
    · rw [a] at hp; cases hp
    · rw [a] at hp; cases hp
      rw [b] at hs; cases hs
      obtain ⟨k1, k2, -⟩ := Site_occupy_ok hv
      exact h.siteStep b c k1 (by unfold More; rw [if_pos rfl]; intro h0; rw [k2, h0]; rfl)
        fun j o hj => by unfold More; rw [if_neg hj]
    · rw [a] at hp; cases hp
  · rcases h.feat_cases i with ⟨a, -⟩ | ⟨t, a, b, c⟩ | ⟨t, a, b, c, d⟩
    · rw [a] at hp; cases hp
    · rw [a] at hp; cases hp
    · rw [a] at hp; cases hp
      obtain ⟨u, hu⟩ := d x hx
      exact h.clusterStep (i := i) hx (by rw [hu]; simp) (occupySite_keep hu hv)
        fun j o hj => by unfold More; rw [if_neg hj]

theorem Struct.removeAt (h : Struct env w) {wid i : Int} (e : w.removeAt (w.feat i) wid i = .ok w') :
    Step env (Less i) w w' := by
  apply h.vacateAt
  unfold World.removeAt Cluster.removeWalker at e
  unfold World.vacateAt
  exact e

/-- `occupy()` on a lone site. -/
theorem Struct.occupyFeat (h : Struct env w) {i : Int} (hc : w.feat i = .site i) (e : w.occupyFeat (w.feat i) = .ok w') :
    Step env (More i) w w' := by
  apply h.occupyAt
  rw [hc] at e ⊢
  exact e

/-- A change of a cluster that leaves the occupation of all sites as it is. -/
theorem Struct.clusterStep_same (h : Struct env w) {c : Int} {x x' : Cluster K}
    (hx : w.clusters.get? c = some x) (hk : ClusterKeep env Equal x x') :
    Step env Equal w { w with clusters := w.clusters.put c x' } where
  inner := ⟨w.sites, _, rfl⟩
  siteKeys := rfl
  clusterKeys := IMap.keys_set_of_mem (IMap.mem_keys_iff_get?.2 ⟨x, hx⟩)
  site j := rel_self (fun t => ⟨.refl _, fun _ => rfl⟩) _
  cluster d := by
    show Option.Rel _ _ (IMap.get? (IMap.set w.clusters c x') d)
    rw [IMap.get?_set]
    by_cases hcd : c = d
    · subst hcd; rw [if_pos rfl, hx]; exact .some hk
    · rw [if_neg hcd]; exact rel_self (ClusterKeep.refl equal_self) _

theorem Struct.dwellAt (h : Struct env w) {p : FPtr} {wid : Int} {e t : K} (he : w.dwellAt p wid e = .ok (t, w')) :
    Step env Equal w w' := by
  rcases dwellAt_ok he with ⟨_, _, _, _, _, rfl⟩ | ⟨_, x, x', _, hx, hd, rfl⟩
  · exact Step.refl equal_self _
  · exact h.clusterStep_same hx (getDwellTime_keep hd)

theorem Struct.pickAt (h : Struct env w) {p : FPtr} {wid n : Int} {u : K} (he : w.pickAt p wid u = .ok (n, w')) :
    Step env Equal w w' := by
  rcases pickAt_ok he with ⟨_, _, _, _, _, rfl⟩ | ⟨_, x, x', _, hx, hd, rfl⟩
  · exact Step.refl equal_self _
  · exact h.clusterStep_same hx (pickNewSiteId_keep hd)

end Mythical.World
