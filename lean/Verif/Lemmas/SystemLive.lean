import Verif.Lemmas.SystemSolid
import Verif.Lemmas.SystemHands

/-! # The next sites of the walkers are known, and their moves succeed -/

set_option linter.unusedSectionVars false
set_option linter.unusedVariables false

namespace Mythical.World
open Mythical SystemSpec
variable {K : Type} [Field K] [LinearOrder K] [IsStrictOrderedRing K] [FloorRing K]
variable {w w' w1 w2 w3 : World K} {env : Env K} {mem : Addr → K} {act act' : List Int}

/-- All rates go to known sites, and no site has the id that stands for "no site". -/
def Closed (w : World K) : Prop :=
  ∀ i s, w.sites.get? i = some s → i ≠ unassignedId ∧ ∀ j ∈ s.neigh.keys, w.sites.get? j ≠ none

/-- The remaining dwell times kept by the clusters are positive. -/
def Left (w : World K) : Prop :=
  ∀ c x k r, w.clusters.get? c = some x → x.remaining.get? k = some r → 0 < r

/-- The walkers in the system that are not on a drain have known next sites. -/
def Aimed (w : World K) (act : List Int) : Prop :=
  ∀ h ∈ act, ∃ x, w.walkers.get? h = some x ∧
    (w.sites.get? x.pot ≠ none ∨ ∃ s, w.sites.get? x.site = some s ∧ s.neigh = [])

/-- What is needed for the moves of the walkers. -/
structure Live (w : World K) (act : List Int) : Prop where
  closed : Closed w
  left : Left w
  aimed : Aimed w act

/-- The same sites, up to counters and clusters. -/
def SameRates (w w' : World K) : Prop := ∀ i, (w'.sites.get? i).map (·.neigh) = (w.sites.get? i).map (·.neigh)

theorem SameRates.none (h : SameRates w w') {i : Int} : w'.sites.get? i = none ↔ w.sites.get? i = none := by
  have := h i
  cases h1 : w'.sites.get? i <;> cases h2 : w.sites.get? i <;> rw [h1, h2] at this <;> simp at this ⊢

theorem SameRates.some (h : SameRates w w') {i : Int} {s : Site K} (hs : w'.sites.get? i = some s) :
    ∃ t, w.sites.get? i = some t ∧ s.neigh = t.neigh := by
  have := h i
  rw [hs] at this
  cases h2 : w.sites.get? i with
  | none => rw [h2] at this; simp at this
  | some t => rw [h2] at this; exact ⟨t, rfl, by simpa using this⟩

theorem SameRates.symm (h : SameRates w w') : SameRates w' w := fun i => (h i).symm

theorem Closed.same (h : Closed w) (e : SameRates w w') : Closed w' := by
  intro i s hs
  obtain ⟨t, ht, hn⟩ := e.some hs
  obtain ⟨h1, h2⟩ := h i t ht
  exact ⟨h1, fun j hj hn' => h2 j (hn ▸ hj) (e.none.1 hn')⟩

/-- A walker that is aimed well stays so. -/
theorem aimed_same {x : Walker K} (e : SameRates w w')
    (h : w.sites.get? x.pot ≠ none ∨ ∃ s, w.sites.get? x.site = some s ∧ s.neigh = []) :
    w'.sites.get? x.pot ≠ none ∨ ∃ s, w'.sites.get? x.site = some s ∧ s.neigh = [] := by
  rcases h with h | ⟨s, hs, hn⟩
  · exact .inl fun h' => h (e.none.1 h')
  · obtain ⟨t, ht, hnt⟩ := e.symm.some hs
    exact .inr ⟨t, ht, hnt ▸ hn⟩

theorem Aimed.same (h : Aimed w act) (e : SameRates w w') (hw : ∀ k ∈ act, w'.walkers.get? k = w.walkers.get? k) :
    Aimed w' act := by
  intro k hk
  obtain ⟨x, hx, hp⟩ := h k hk
  exact ⟨x, by rw [hw k hk]; exact hx, aimed_same e hp⟩

/-! ## What the features hand out -/

theorem table_pick {l rest : List (Int × K)} {S : Finset Int} {wt : Int → K} (T : Cluster.Table l S wt) {u : K}
    (hu : SiteSpec.Draw u) : Cluster.pickCum u (Cluster.cumulate 0 l ++ rest) ∈ S := by
  have hlt : u < 0 + (l.map Prod.snd).sum := by rw [T.one, zero_add]; exact hu.2
  rw [Cluster.pickCum_append (fun np h => (T.pos np h).le) hu.1 hlt]
  exact (T.keys _).1 (Site.pickLoop_mem T.pos hu.1 hlt)

theorem prob_keys {s : Site K} (hf : s.Fresh mem) : ∀ k ∈ IMap.keys s.prob, k ∈ s.neigh.keys := by
  intro k hk
  have := hf.perm.map Prod.fst
  have hk' : k ∈ List.map Prod.fst s.prob := hk
  rw [this.mem_iff] at hk'
  rw [List.map_map] at hk'
  exact hk'

theorem site_pick (hg : Good mem w) {i : Int} {s : Site K} (hs : w.sites.get? i = some s) {u : K} (hu : SiteSpec.Draw u) :
    s.neigh = [] ∨ s.pickNewSiteId u ∈ s.neigh.keys := by
  obtain ⟨hw, hpos, hf⟩ := hg i s hs
  rcases hf with hf | hf
  · exact .inl hf
  · refine .inr (prob_keys hf _ ?_)
    exact Site.pickLoop_mem (hf.prob_pos hpos) hu.1 (by rw [hf.sum_prob]; simpa using hu.2)

/-- The site handed out is known. -/
theorem handsOut_known (hst : Struct env w) (hg : Good mem w) (hall : AllSettled mem w) (hcl : Closed w) {k wid n : Int}
    {e u t : K} (h : HandsOut w k wid e u t n) (hu : SiteSpec.Draw u) :
    w.sites.get? n ≠ none ∨ ∃ s, w.sites.get? k = some s ∧ s.neigh = [] := by
  obtain ⟨s, hs, h⟩ := h
  rcases h with ⟨-, -, rfl⟩ | ⟨-, x, x1, x2, hx, hd, hp⟩
  · rcases site_pick hg hs hu with h | h
    · exact .inr ⟨s, hs, h⟩
    · exact .inl ((hcl k s hs).2 _ h)
  · left
    have hset := hall _ x hx
    obtain ⟨_, _, -, -, rfl, -, -⟩ := Cluster.getDwellTime_ok hd
    obtain ⟨r, -, hr⟩ := Cluster.pickNewSiteId_ok hp
    rcases hr with ⟨-, rfl, -⟩ | ⟨-, rfl, -⟩
    · obtain ⟨l, rest, S, wt, e1, T, hS⟩ := hset.inTable
      have hm := table_pick (rest := rest) T hu
      rw [← e1] at hm
      obtain ⟨s', hs'⟩ := IMap.mem_keys_iff_get?.1 (hS _ hm)
      obtain ⟨-, t', ht', -⟩ := hst.member _ x _ s' hx hs'
      exact fun hn => by
        have hn : w.sites.get? (Cluster.pickCum u x.cumInternal) = none := hn
        rw [ht'] at hn; cases hn
    · obtain ⟨l, rest, S, wt, e1, T, hS⟩ := hset.outTable
      have hm := table_pick (rest := rest) T hu
      rw [← e1] at hm
      obtain ⟨i, hi, r, hr⟩ := hS _ hm
      unfold BasinSpec.rate at hr
      cases hsi : w.sites.get? i with
      | none => rw [hsi] at hr; cases hr
      | some s' =>
        rw [hsi] at hr
        refine (hcl i s' hsi).2 _ ?_
        rw [IMap.mem_keys_iff_get?]
        cases hn : s'.neigh.get? (Cluster.pickCum u x.cumNeigh) with
        | none =>
          have hr : (s'.neigh.get? (Cluster.pickCum u x.cumNeigh)).map mem = some r := hr
          rw [hn] at hr; cases hr
        | some a => exact ⟨a, rfl⟩

/-! ## Remaining dwell times -/

theorem Left.tables (h : Left w) (hc : ∀ c, Option.Rel Tables (w.clusters.get? c) (w'.clusters.get? c)) : Left w' := by
  intro c y k r hy hr
  obtain ⟨x, hx, ht⟩ := rel_some (hy ▸ hc c)
  rw [ht.rem] at hr
  exact h c x k r hx hr

theorem Left.handed (hw : ∀ c x, w.clusters.get? c = some x → x.remaining.WF) (h : Left w) {p : FPtr} {wid n : Int} {e u t : K}
    (h2 : w.dwellAt p wid e = .ok (t, w2)) (h3 : w2.pickAt p wid u = .ok (n, w3)) : Left w3 := by
  rcases dwellAt_ok h2 with ⟨id, s', rfl, -, -, rfl⟩ | ⟨id, y, y', rfl, hy, hd, rfl⟩
  · rcases pickAt_ok h3 with ⟨id, s', hp, -, -, rfl⟩ | ⟨id, x, x', hp, -⟩
    · exact h
    · cases hp
  · rcases pickAt_ok h3 with ⟨id, s', hp, -⟩ | ⟨id, z, z', hp, hz, hd', rfl⟩
    · cases hp
    · cases hp
      change IMap.get? (IMap.set _ _ _) _ = _ at hz
      rw [IMap.get?_set_self] at hz
      cases hz
      obtain ⟨_, _, -, -, rfl, -, -⟩ := Cluster.getDwellTime_ok hd
      obtain ⟨r0, hr0, hr⟩ := Cluster.pickNewSiteId_ok hd'
      intro c x k r hx hk
      change IMap.get? (IMap.set (IMap.set _ _ _) _ _) _ = _ at hx
      rw [IMap.set_set, IMap.get?_set] at hx
      split at hx
      · next e =>
        subst e
        cases hx
        rcases hr with ⟨hpos, -, rfl⟩ | ⟨hneg, -, rfl⟩
        · by_cases hk' : wid = k
          · subst hk'
            rw [hr0] at hk; cases hk; exact hpos
          · have hk : IMap.get? (IMap.set y.remaining wid _) k = some r := hk
            rw [IMap.get?_set_ne _ _ hk'] at hk
            exact h _ y k r hy hk
        · have hk : IMap.get? (IMap.erase (IMap.set y.remaining wid _) wid) k = some r := hk
          rw [IMap.get?_erase (IMap.WF.set (hw _ y hy) _ _)] at hk
          split at hk
          · cases hk
          · next hk' =>
            rw [IMap.get?_set_ne _ _ hk'] at hk
            exact h _ y k r hy hk
      · exact h _ x k r hx hk

theorem mergeClusters_remaining {fav : Int} {cids : List Int} {c : Cluster K} (hw : w.clusters.WF) (hf : fav ∉ cids)
    (hc : w.clusters.get? fav = some c) (h : mergeClusters env mem fav w cids = (.ok (), w')) :
    ∃ d, w'.clusters.get? fav = some d ∧ d.remaining = c.remaining := by
  induction cids generalizing w c with
  | nil =>
    unfold mergeClusters at h
    simp only [Prod.mk.injEq, true_and] at h
    subst h
    exact ⟨c, hc, rfl⟩
  | cons k cids ih =>
    rw [List.mem_cons, not_or] at hf
    unfold mergeClusters at h
    split at h
    · simp at h
    · simp at h
    · next c0 src hc0 hsrc =>
      have hc0 := getCluster_ok hc0
      rw [hc] at hc0; cases hc0
      split at h
      · simp at h
      · next u c' src' hm =>
        have hfr := Cluster.migrate_frame (env := env) (mem := mem) (c := c) src
        rw [hm] at hfr
        have hget : IMap.get? ((w.clusters.put fav c').erase k) fav = some c' := by
          have := IMap.get?_erase (IMap.WF.set hw fav c') k fav
          change IMap.get? ((w.clusters.put fav c').erase k) fav = _ at this
          rw [this, if_neg (Ne.symm hf.1), IMap.get?_set_self]
        obtain ⟨d, hd, e⟩ := ih (w := { w with clusters := (w.clusters.put fav c').erase k })
          ((IMap.WF.set hw fav c').erase k) hf.2 hget h
        exact ⟨d, hd, e.trans hfr.remaining⟩

theorem Left.grew (hst : Struct env w) (h : Left w) {basin : List Int} {M : K} {order : List Int → List Int}
    (hord : ∀ l, (order l).Perm l) (hgr : Grew env mem w w' basin M order) : Left w' := by
  cases hgr with
  | created c0 hb hc =>
    intro c x k r hx hk
    rw [hc.cluster] at hx
    split at hx
    · cases hx
      obtain ⟨sites, c1, c2, tau, res, r', h1, h2, h3, h4, h5, h6, h7, rfl⟩ := buildCluster_ok hb
      have f1 := Cluster.addSites_frame h2
      have f2 := Cluster.update_frame (env := env) (mem := mem) c1
      rw [h3] at f2
      have e : ∀ c : Cluster K, (w.seedCluster c).remaining = c.remaining := by
        intro c; unfold seedCluster; split <;> rfl
      rw [e] at hk
      have hk : c2.remaining.get? k = some r := hk
      rw [f2.remaining, f1.remaining] at hk
      cases hk
    · exact h c x k r hx hk
  | merged sc fav c d erased hsc hf hu hm hmg =>
    intro k x wid r hx hk
    rw [hmg.cluster] at hx
    split at hx
    · next e =>
      subst e
      cases hx
      obtain ⟨iso, cids, w1, c', c1, c2, hm', hc', h1, h2, h3⟩ := merge_steps hm
      obtain ⟨hscw, hget, hknown⟩ := clustersOfSites_ok hst (acc := []) List.nodup_nil hsc
      obtain ⟨ha, ⟨l, hl, hl'⟩, hcids, hcn, -⟩ := mergeCollect_ok hscw hm'
      have hcl : w1.clusters = w.clusters := by rw [ha.eq]
      rw [hcl, hmg.target] at hc'
      cases hc'
      have hfc : k ∉ order cids := by
        rw [(hord cids).mem_iff, hcids]
        simp
      have f1 := Cluster.addSites_frame h1
      have f2 := Cluster.update_frame (env := env) (mem := mem) c1
      rw [h2] at f2
      obtain ⟨d', hd', e'⟩ := mergeClusters_remaining (w := { w1 with clusters := IMap.set w1.clusters k c2 })
        (IMap.WF.set (hcl ▸ hst.clustersWF) _ _) hfc (IMap.get?_set_self _ _ _) h3
      rw [hmg.cluster, if_pos rfl] at hd'
      cases hd'
      rw [e', f2.remaining, f1.remaining] at hk
      exact h k c wid r hmg.target hk
    · split at hx
      · cases hx
      · exact h k x wid r hx hk

/-! ## Calls -/

theorem mentions_iff {m : IMap (IMap Addr)} {i : Int} : Mentions m i ↔ i ∈ m.keys ∨ ∃ ir ∈ m, i ∈ IMap.keys ir.2 := by
  unfold Mentions
  constructor
  · rintro ⟨ir, hir, rfl | ⟨na, hna, rfl⟩⟩
    · exact .inl (List.mem_map.2 ⟨ir, hir, rfl⟩)
    · exact .inr ⟨ir, hir, List.mem_map.2 ⟨na, hna, rfl⟩⟩
  · rintro (h | ⟨ir, hir, h⟩)
    · obtain ⟨ir, hir, rfl⟩ := List.mem_map.1 h
      exact ⟨ir, hir, .inl rfl⟩
    · obtain ⟨na, hna, rfl⟩ := List.mem_map.1 h
      exact ⟨ir, hir, .inr ⟨na, hna, rfl⟩⟩

theorem Closed.init (h : Closed w) {m : IMap (IMap Addr)} {u : Unit} (hi : initializeSystem mem w m = (.ok u, w'))
    (hm : ∀ i, Mentions m i → i ≠ unassignedId) : Closed w' := by
  have ha : Adds mem m w w' := by
    have := initializeSystem_adds (mem := mem) (w := w) (m := m)
    rw [hi] at this; exact this
  intro i s hs
  rcases ha.sites hs with hs' | ⟨-, hnone, sd, hnew⟩
  · obtain ⟨h1, h2⟩ := h i s hs'
    exact ⟨h1, fun j hj => ((initializeSystem_known hi j).1).2 (.inl (h2 j hj))⟩
  · constructor
    · have := ((initializeSystem_known hi i).1).1 (by rw [hs]; simp)
      rcases this with h' | h'
      · exact absurd hnone h'
      · exact hm i (mentions_iff.2 h')
    · intro j hj
      obtain ⟨na, hna, rfl⟩ := List.mem_map.1 hj
      obtain ⟨ir, hir, hna'⟩ := hnew.neigh_mem hna
      exact ((initializeSystem_known hi na.1).1).2 (.inr (.inr ⟨ir, hir, List.mem_map.2 ⟨na, hna', rfl⟩⟩))

theorem Aimed.adds (h : Aimed w act) {m : IMap (IMap Addr)} (ha : Adds mem m w w') (hw : w'.walkers = w.walkers) : Aimed w' act := by
  intro k hk
  obtain ⟨x, hx, hp⟩ := h k hk
  refine ⟨x, by rw [hw]; exact hx, ?_⟩
  rcases hp with hp | ⟨s, hs, hn⟩
  · obtain ⟨s, hs⟩ := Option.ne_none_iff_exists'.1 hp
    exact .inl (by rw [ha.old hs]; simp)
  · exact .inr ⟨s, ha.old hs, hn⟩

theorem Left.adds (h : Left w) {m : IMap (IMap Addr)} (ha : Adds mem m w w') : Left w' := by
  intro c x k r hx
  rw [ha.clusters] at hx
  exact h c x k r hx

theorem Live.of_eq (h : Live w act) (h1 : w'.sites = w.sites) (h2 : w'.clusters = w.clusters)
    (h3 : ∀ k ∈ act, w'.walkers.get? k = w.walkers.get? k) : Live w' act where
  closed := h.closed.same fun i => by rw [h1]
  left := fun c x k r hx => h.left c x k r (by rw [← h2]; exact hx)
  aimed := h.aimed.same (fun i => by rw [h1]) h3

/-- The remaining dwell times after a move. -/
theorem Left.hopMove (hst : Struct env w) (h : Left w) {wid k j : Int} {a : Choices K} (e : w.hopMove wid k a = .ok (j, w')) :
    Left w' := by
  obtain ⟨x, b, w1, w2, t, w3, n, w4, hx, h0, h0', hj, hb, h1, h2, h3, h4, rfl⟩ := hopMove_ok e
  have s1 := hst.vacateAt h1
  have st1 := hst.step s1
  have h2' := h2
  rw [← s1.inner.feat] at h2'
  have s2 := st1.occupyAt h2'
  have st2 := st1.step s2
  have l2 : Left w2 := (h.tables (vacateAt_tables h1)).tables (occupyAt_tables h2)
  have l4 : Left w4 := l2.handed (fun c x hx => (st2.cinv hx).remaining) h3 h4
  exact fun c x k r hx => l4 c x k r hx

/-- A move. -/
theorem Live.hopMove (hst : Struct env w) (hg : Good mem w) (hall : AllSettled mem w) (h : Live w act) {wid k j : Int}
    {a : Choices K} (hu : SiteSpec.Draw a.u) (e : w.hopMove wid k a = .ok (j, w')) : Live w' act := by
  have hk := hst.hopMove_keep e
  have hsr : SameRates w w' := fun i => hk.neigh i
  refine ⟨h.closed.same hsr, h.left.hopMove hst e, ?_⟩
  obtain ⟨x, b, n, t, hx, -, -, -, -, hh, hw⟩ := hopMove_hands hst e
  intro l hl
  rw [hw]
  by_cases hkl : k = l
  · subst hkl
    refine ⟨_, IMap.get?_set_self _ _ _, ?_⟩
    exact aimed_same (x := ⟨if b then x.site else x.pot, n, t⟩) hsr (handsOut_known hst hg hall h.closed hh hu)
  · rw [IMap.get?_set_ne _ _ hkl]
    obtain ⟨y, hy, hp⟩ := h.aimed l hl
    exact ⟨y, hy, aimed_same hsr hp⟩

/-- A walker enters the system. -/
theorem Live.initWalker (hst : Struct env w) (hg : Good mem w) (hall : AllSettled mem w) (h : Live w act) {a : Entry K}
    (hu : SiteSpec.Draw a.u) (e : w.initWalker a = .ok w') :
    Keep env w w' ∧ Live w' (act ++ [a.handle]) := by
  obtain ⟨x, w1, t, w2, n, w3, hx, h0, hk, h1, h2, h3, rfl⟩ := initWalker_ok e
  have k1 := hst.occupyFeat_any h1
  have st1 := hst.keep k1
  have hf : w1.feat x.site = w.feat x.site := by unfold World.feat; rw [k1.feats]
  have h2' := h2
  rw [← hf] at h2'
  have s2 := st1.dwellAt h2'
  have st2 := st1.step s2
  have h3' := h3
  rw [← hf, ← s2.inner.feat] at h3'
  have s3 := st2.pickAt h3'
  have hkeep : Keep env w w3 := (k1.trans s2.keep).trans s3.keep
  have hkeep' : Keep env w { w3 with walkers := w3.walkers.set a.handle { x with dwell := t, pot := n } } :=
    hkeep.trans (.of_eq rfl rfl rfl le_rfl)
  have hsr : SameRates w { w3 with walkers := w3.walkers.set a.handle { x with dwell := t, pot := n } } := fun i => hkeep'.neigh i
  have hands := handsOut_of hst k1 (occupyFeat_tables h1) h2 h3
  have hwk : w3.walkers = w.walkers := by
    rw [s3.inner.walkers, s2.inner.walkers]
    rcases occupyFeat_ok h1 with ⟨id, -, s, s', -, -, rfl⟩ | ⟨id, -, c, c', -, -, rfl⟩ <;> rfl
  refine ⟨hkeep', h.closed.same hsr, ?_, ?_⟩
  · have l3 : Left w3 := (h.left.tables (occupyFeat_tables h1)).handed (fun c x hx => (st1.cinv hx).remaining) h2 h3
    exact fun c x k r hx => l3 c x k r hx
  · intro l hl
    by_cases hkl : a.handle = l
    · subst hkl
      refine ⟨_, IMap.get?_set_self _ _ _, ?_⟩
      exact aimed_same (x := { x with dwell := t, pot := n }) hsr (handsOut_known hst hg hall h.closed hands hu)
    · have hl : l ∈ act := by
        rcases List.mem_append.1 hl with hl | hl
        · exact hl
        · exact absurd (List.mem_singleton.1 hl).symm hkl
      obtain ⟨y, hy, hp⟩ := h.aimed l hl
      refine ⟨y, ?_, aimed_same hsr hp⟩
      show IMap.get? (IMap.set w3.walkers a.handle _) l = some y
      rw [IMap.get?_set_ne _ _ hkl, hwk]
      exact hy

theorem Live.initWalkers (hst : Struct env w) (hg : Good mem w) (hall : AllSettled mem w) (h : Live w act) {l : List (Entry K)}
    (hu : ∀ a ∈ l, SiteSpec.Draw a.u) {u : Unit} (e : w.initWalkers l = (.ok u, w')) : Live w' (act ++ l.map (·.handle)) := by
  induction l generalizing w act with
  | nil =>
    simp only [World.initWalkers, Prod.mk.injEq, true_and] at e
    subst e
    simpa using h
  | cons a l ih =>
    unfold World.initWalkers at e
    split at e
    · simp at e
    · next w1 h1 =>
      obtain ⟨hk, h1⟩ := h.initWalker hst hg hall (hu a (List.mem_cons_self ..)) h1
      have := ih (hst.keep hk) (hg.keep hk) (hall.keep hk) h1 (fun b hb => hu b (List.mem_cons_of_mem _ hb)) e
      simpa using this

theorem known_iff {i : Int} : Known w i ↔ w.sites.get? i ≠ none := by
  unfold Known
  constructor
  · rintro ⟨c, hc⟩ hn
    have hc : w.sites.getClusterIdOfSite i = .ok c := hc
    unfold SiteContainer.getClusterIdOfSite SiteContainer.getSite at hc
    have e' : IMap.get? w.sites i = none := hn
    rw [e'] at hc
    cases hc
  · intro h
    obtain ⟨s, hs⟩ := Option.ne_none_iff_exists'.1 h
    exact ⟨_, getClusterIdOfSite_of hs⟩

theorem Left.visits (h : Left w) {i : Int} {r : Except Fault Int} (e : w.getVisitFrequencyOfSite i = (r, w')) : Left w' := by
  have key : ∀ {k : Int} {x y : Cluster K}, w.clusters.get? k = some x → y.remaining = x.remaining →
      Left { w with clusters := w.clusters.put k y } := by
    intro k x y hx hy c z l r hz hr
    change IMap.get? (IMap.set w.clusters k y) c = some z at hz
    rw [IMap.get?_set] at hz
    split at hz
    · cases hz
      rw [hy] at hr
      exact h k x l r hx hr
    · exact h c z l r hz hr
  unfold getVisitFrequencyOfSite at e
  split at e
  · simp only [Prod.mk.injEq] at e; rw [← e.2]; exact h
  · next s hs =>
    split at e
    · split at e
      · simp only [Prod.mk.injEq] at e; rw [← e.2]; exact h
      · next c hc =>
        have hfr := (Cluster.getVisitFrequency_visitsOnly (c := c) i).frame
        split at e
        · next e' c' hv =>
          rw [hv] at hfr
          simp only [Prod.mk.injEq] at e; rw [← e.2]; exact key (getCluster_ok hc) hfr.remaining
        · next n c' hv =>
          rw [hv] at hfr
          simp only [Prod.mk.injEq] at e; rw [← e.2]; exact key (getCluster_ok hc) hfr.remaining
    · simp only [Prod.mk.injEq] at e; rw [← e.2]; exact h

theorem removeAt_tables {p : FPtr} {wid i : Int} (h : w.removeAt p wid i = .ok w') (c : Int) :
    Option.Rel Tables (w.clusters.get? c) (w'.clusters.get? c) := by
  rcases removeAt_ok h with ⟨id, -, s, s', hs, hv, rfl⟩ | ⟨id, -, h⟩
  · exact rel_self Tables.refl _
  · refine clusterCall_tables h (fun x y hxy => ?_) c
    obtain ⟨-, -, rfl⟩ := Cluster.vacateSite_ok (show x.vacateSite i = .ok y from hxy)
    exact ⟨rfl, rfl, rfl, rfl, rfl⟩

theorem grew_walkers {basin : List Int} {M : K} {order : List Int → List Int} (h : Grew env mem w w' basin M order) :
    w'.walkers = w.walkers := by
  cases h with
  | created c0 hb hc => rw [hc.eq]
  | merged sc fav c d erased hsc hf hu hm hmg => rw [hmg.eq]

/-- Every proper call with possible draws keeps the walkers aimed at known sites. -/
theorem Live.call (hst : Struct env w) (hg : Good mem w) (hall : AllSettled mem w) {hopped : Prop} (hl : Live w act) {op : Op K}
    {res : Except Fault Int} (h : w.step env mem op = (res, w')) (hr : Cluster.GoesOn res)
    (hp : Proper act hopped ⟨w, mem, op, res, w'⟩) (hd : DrawsOf op)
    (hs : ∀ m, op = .initializeSystem m → (∃ n, res = .ok n) ∧ ∀ i, Mentions m i → i ≠ unassignedId)
    (hk : ∀ h i, op = .walkerSetPotential h i → Known w i) : Live w' (enter act ⟨w, mem, op, res, w'⟩) := by
  cases op with
  | setTimeResolution t =>
    simp only [step, Prod.mk.injEq] at h
    show Live w' act
    rw [← h.2]
    unfold World.setTimeResolution
    split
    · exact hl
    · exact hl.of_eq rfl rfl fun _ _ => rfl
  | setMinThreshold n =>
    simp only [step, Prod.mk.injEq] at h
    show Live w' act
    rw [← h.2]; exact hl.of_eq rfl rfl fun _ _ => rfl
  | setRandomSeed n =>
    simp only [step, Prod.mk.injEq] at h
    show Live w' act
    rw [← h.2]
    unfold World.setRandomSeed
    split
    · exact hl
    · exact hl.of_eq rfl rfl fun _ _ => rfl
  | setPerformanceRatio r =>
    simp only [step, Prod.mk.injEq] at h
    show Live w' act
    rw [← h.2]; exact hl.of_eq rfl rfl fun _ _ => rfl
  | initializeSystem m =>
    obtain ⟨⟨n, rfl⟩, hm⟩ := hs m rfl
    simp only [step, Prod.mk.injEq] at h
    obtain ⟨h1, h2⟩ := h
    show Live w' act
    cases hi : w.initializeSystem mem m with
    | mk r w1 =>
      rw [hi] at h1 h2
      cases r with
      | error e => cases h1
      | ok u =>
        subst h2
        have ha : Adds mem m w w1 := by
          have := initializeSystem_adds (mem := mem) (w := w) (m := m)
          rw [hi] at this; exact this
        exact ⟨hl.closed.init hi hm, hl.left.adds ha, hl.aimed.adds ha ha.walkers⟩
  | newWalker k =>
    simp only [step, Prod.mk.injEq] at h
    show Live w' act
    rw [← h.2]
    refine hl.of_eq rfl rfl fun l hl => IMap.get?_set_ne _ _ ?_
    rintro rfl; exact hp hl
  | walkerOccupy k i =>
    show Live w' act
    simp only [step, simple] at h
    split at h
    · next w1 h1 =>
      simp only [Prod.mk.injEq] at h
      obtain ⟨x, -, h1⟩ := bind_eq_ok.1 h1
      cases h1
      rw [← h.2]
      refine hl.of_eq rfl rfl fun l hl => IMap.get?_set_ne _ _ ?_
      rintro rfl; exact hp hl
    · simp only [Prod.mk.injEq] at h; rw [← h.2]; exact hl
  | walkerSetPotential k i =>
    show Live w' act
    simp only [step, simple] at h
    split at h
    · next w1 h1 =>
      simp only [Prod.mk.injEq] at h
      obtain ⟨x, hx, h1⟩ := bind_eq_ok.1 h1
      cases h1
      rw [← h.2]
      refine ⟨hl.closed.same fun _ => rfl, hl.left, fun l hl' => ?_⟩
      by_cases e : k = l
      · subst e
        exact ⟨_, IMap.get?_set_self _ _ _, .inl (known_iff.1 (hk _ i rfl))⟩
      · obtain ⟨y, hy, hq⟩ := hl.aimed l hl'
        exact ⟨y, (IMap.get?_set_ne _ _ e).trans hy, hq⟩
    · simp only [Prod.mk.injEq] at h; rw [← h.2]; exact hl
  | walkerSetDwell k t =>
    show Live w' act
    simp only [step, simple] at h
    split at h
    · next w1 h1 =>
      simp only [Prod.mk.injEq] at h
      obtain ⟨x, hx, h1⟩ := bind_eq_ok.1 h1
      cases h1
      rw [← h.2]
      refine ⟨hl.closed.same fun _ => rfl, hl.left, fun l hl' => ?_⟩
      obtain ⟨y, hy, hq⟩ := hl.aimed l hl'
      by_cases e : k = l
      · subst e
        rw [walkerOf_ok hx] at hy
        cases hy
        exact ⟨_, IMap.get?_set_self _ _ _, hq⟩
      · exact ⟨y, (IMap.get?_set_ne _ _ e).trans hy, hq⟩
    · simp only [Prod.mk.injEq] at h; rw [← h.2]; exact hl
  | initializeWalkers l =>
    obtain ⟨⟨n, hn⟩, -⟩ := hp
    simp only at hn
    subst hn
    simp only [step, Prod.mk.injEq] at h
    show Live w' (act ++ l.map (·.handle))
    obtain ⟨h1, h2⟩ := h
    unfold World.initializeWalkers at h1 h2
    split at h1
    · cases h1
    · next hne =>
      rw [if_neg hne] at h2
      cases hw : w.initWalkers l with
      | mk r w1 =>
        rw [hw] at h1 h2
        cases r with
        | error e => cases h1
        | ok u =>
          subst h2
          exact hl.initWalkers hst hg hall (fun a ha => (hd a ha).1) hw
  | hop wid k a =>
    obtain ⟨hk, n, hn⟩ := hp
    simp only at hn
    subst hn
    show Live w' act
    simp only [step, Prod.mk.injEq] at h
    obtain ⟨h1, h2⟩ := h
    obtain ⟨u, hu⟩ : ∃ u, (w.hop env mem wid k a).1 = .ok u := by
      cases hh : (w.hop env mem wid k a).1 with
      | error e => rw [hh] at h1; cases h1
      | ok u => exact ⟨u, rfl⟩
    have hhop : w.hop env mem wid k a = (.ok u, w') := by rw [← hu, ← h2]
    obtain ⟨j, w1, hm, hc⟩ := hop_ok hhop
    have l1 := hl.hopMove hst hg hall hd.1 hm
    have st1 := hst.keep (hst.hopMove_keep hm)
    obtain ⟨-, hc⟩ := hopCount_ok st1 hc
    rcases hc with ⟨-, rfl⟩ | ⟨-, -, rfl⟩ | ⟨-, -, -, -, rfl⟩ | ⟨-, -, w3, basin, -, hgr, rfl⟩
    · exact l1.of_eq rfl rfl fun _ _ => rfl
    · exact l1.of_eq rfl rfl fun _ _ => rfl
    · exact l1.of_eq rfl rfl fun _ _ => rfl
    · have st2 : Struct env { w1 with iteration := w1.iteration + 1 } := st1.keep (.of_eq rfl rfl rfl le_rfl)
      have l2 : Live { w1 with iteration := w1.iteration + 1 } act := l1.of_eq rfl rfl fun _ _ => rfl
      have l3 : Live w3 act := by
        have hsr : SameRates { w1 with iteration := w1.iteration + 1 } w3 := fun i => hgr.grew.neigh i
        refine ⟨l2.closed.same hsr, l2.left.grew st2 a.order_perm hgr.grew, l2.aimed.same hsr fun _ _ => ?_⟩
        rw [grew_walkers hgr.grew]
      exact l3.of_eq rfl rfl fun _ _ => rfl
  | removeWalker wid k =>
    simp only [step, simple] at h
    split at h
    · next w1 h1 =>
      simp only [Prod.mk.injEq] at h
      obtain ⟨rfl, rfl⟩ := h
      show Live w1 (act.filter fun l => l ≠ k)
      have hkeep := hst.removeWalker_keep h1
      obtain ⟨x, hx, h0, hr⟩ := removeWalker_ok h1
      have hw : w1.walkers = w.walkers := (hst.removeAt hr).inner.walkers
      refine ⟨hl.closed.same fun i => hkeep.neigh i, hl.left.tables (removeAt_tables hr), ?_⟩
      intro l hl'
      exact (hl.aimed.same (fun i => hkeep.neigh i) fun _ _ => by rw [hw]) l (List.mem_filter.1 hl').1
    · simp only [Prod.mk.injEq] at h
      obtain ⟨rfl, rfl⟩ := h
      exact hl
  | getVisitFrequencyOfSite i =>
    show Live w' act
    have hs := hst.getVisitFrequencyOfSite_step h hr
    exact ⟨hl.closed.same fun i => hs.keep.neigh i, hl.left.visits h,
      hl.aimed.same (fun i => hs.keep.neigh i) fun _ _ => by rw [hs.inner.walkers]⟩
  | elsewhere n =>
    show Live w' act
    simp only [step] at h
    split at h
    · simp only [Prod.mk.injEq] at h; rw [← h.2]; exact hl
    · simp only [Prod.mk.injEq] at h; rw [← h.2]; exact hl.of_eq rfl rfl fun _ _ => rfl

theorem Trace.live {n : Nat} {evs : List (Event K)} (ht : Trace env (World.new n) evs w) (hu : Usage evs)
    (hf : RatesFixed mem evs) (hp : RatesPositive mem evs) (hs : SystemsReturn evs) (hd : Draws evs) (hk : SentToKnown evs) :
    Live w (active evs) := by
  generalize hw0 : (World.new n : World K) = w0 at ht
  induction ht with
  | nil => subst hw0; exact ⟨fun i s h => (by cases h), fun c x k r h => (by cases h), fun h hh => (by cases hh)⟩
  | @snoc w1 w' evs op res mem' ht h hr ih =>
    obtain ⟨hu1, hpr⟩ := usage_snoc hu
    have hf1 : RatesFixed mem evs := fun ev he => hf ev (List.mem_append_left _ he)
    have hp1 : RatesPositive mem evs := fun ev he => hp ev (List.mem_append_left _ he)
    have hmem : mem' = mem := hf _ (List.mem_append_right _ (List.mem_singleton_self _))
    subst hmem
    subst hw0
    have hlast : ∀ {P : Event K → Prop}, (∀ ev ∈ evs ++ [⟨w1, mem', op, res, w'⟩], P ev) → P ⟨w1, mem', op, res, w'⟩ :=
      fun h => h _ (List.mem_append_right _ (List.mem_singleton_self _))
    have hl := ih hu1 hf1 hp1 (fun ev he => hs ev (List.mem_append_left _ he)) (fun ev he => hd ev (List.mem_append_left _ he))
      (fun ev he => hk ev (List.mem_append_left _ he))
    rw [active_snoc]
    exact hl.call (ht.struct hu1.hopsReturn) (ht.good hu1.hopsReturn hf1 hp1) (ht.settled hu1.hopsReturn hf1 hp1) h hr hpr
      (hlast hd) (hlast hs) (hlast hk)

/-! ## Moves succeed -/

/-- Only a counter can stand in the way. -/
def OkOrOverflow {α : Type} (r : Except Fault α) : Prop := (∃ x, r = .ok x) ∨ r = .error (.ub .intOverflow)

theorem chk_or (n : Int) : OkOrOverflow (chk n) := by
  unfold chk OkOrOverflow
  split
  · exact .inl ⟨_, rfl⟩
  · exact .inr rfl

theorem or_bind {α β : Type} {r : Except Fault α} {f : α → Except Fault β} (h : OkOrOverflow r)
    (hf : ∀ x, r = .ok x → OkOrOverflow (f x)) : OkOrOverflow (r >>= f) := by
  rcases h with ⟨x, hx⟩ | h
  · rw [hx]; exact hf x hx
  · rw [h]; exact .inr rfl

theorem or_ok {α : Type} (x : α) : OkOrOverflow (.ok x : Except Fault α) := .inl ⟨x, rfl⟩

theorem site_vacate_or (s : Site K) : OkOrOverflow s.vacate := by
  unfold Site.vacate
  exact or_bind (chk_or _) fun _ _ => or_ok _

theorem site_occupy_or (s : Site K) : OkOrOverflow s.occupy := by
  unfold Site.occupy
  exact or_bind (chk_or _) fun _ _ => or_bind (chk_or _) fun _ _ => or_ok _

/-- The site is known, and its cluster, if any, exists. -/
def Sure (w : World K) (i : Int) : Prop :=
  ∃ s, w.sites.get? i = some s ∧
    ((w.feat i = .site i ∧ s.clusterId = unassignedId) ∨
     ∃ x t, w.feat i = .cluster s.clusterId ∧ w.clusters.get? s.clusterId = some x ∧ x.sites.get? i = some t ∧
      s.clusterId ≠ unassignedId)

theorem Solid.sure (hst : Struct env w) (h : Solid mem w) {i : Int} (hi : w.sites.get? i ≠ none) : Sure w i := by
  rcases hst.feat_cases i with ⟨-, b⟩ | ⟨s, a, b, c⟩ | ⟨s, a, b, c, d⟩
  · exact absurd b hi
  · exact ⟨s, b, .inl ⟨a, c⟩⟩
  · obtain ⟨x, hx⟩ := h.exist i s b c
    obtain ⟨t, ht⟩ := d x hx
    exact ⟨s, b, .inr ⟨x, t, a, hx, ht, c⟩⟩

theorem Sure.keep {i : Int} (h : Sure w i) (hk : Keep env w w') : Sure w' i := by
  obtain ⟨s, hs, h⟩ := h
  obtain ⟨s', hs', hsm⟩ := rel_some' (hs ▸ hk.site i)
  refine ⟨s', hs', ?_⟩
  have hf : w'.feat i = w.feat i := by unfold World.feat; rw [hk.feats]
  rw [hf, hsm.clusterId]
  rcases h with h | ⟨x, t, h1, h2, h3, h4⟩
  · exact .inl h
  · obtain ⟨y, hy, hr⟩ := rel_some' (h2 ▸ hk.cluster s.clusterId)
    obtain ⟨t', ht', -⟩ := rel_some' (h3 ▸ hr.site i)
    exact .inr ⟨y, t', h1, hy, ht', h4⟩

theorem Sure.isOccupied {i : Int} (h : Sure w i) : ∃ b, w.isOccupiedAt (w.feat i) i = .ok b := by
  obtain ⟨s, hs, ⟨h1, -⟩ | ⟨x, t, h1, h2, h3, -⟩⟩ := h
  · exact ⟨s.isOccupied, by rw [h1]; unfold isOccupiedAt; simp only [siteOf_of hs]; rfl⟩
  · refine ⟨t.isOccupied, ?_⟩
    rw [h1]; unfold isOccupiedAt
    simp only [clusterOf_of h2, ok_bind]
    unfold Cluster.isOccupiedSite
    rw [h3]

theorem Sure.vacate {i : Int} (h : Sure w i) : OkOrOverflow (w.vacateAt (w.feat i) i) := by
  obtain ⟨s, hs, ⟨h1, -⟩ | ⟨x, t, h1, h2, h3, -⟩⟩ := h
  · rw [h1]; unfold vacateAt
    simp only [siteOf_of hs, ok_bind]
    exact or_bind (site_vacate_or s) fun _ _ => or_ok _
  · rw [h1]; unfold vacateAt
    simp only [clusterOf_of h2, ok_bind]
    refine or_bind ?_ fun _ _ => or_ok _
    unfold Cluster.vacateSite
    exact or_bind (site_vacate_or _) fun _ _ => or_bind (chk_or _) fun _ _ => or_ok _

theorem Sure.occupy {i : Int} (hall : AllSettled mem w) (h : Sure w i) : OkOrOverflow (w.occupyAt (w.feat i) i) := by
  obtain ⟨s, hs, ⟨h1, -⟩ | ⟨x, t, h1, h2, h3, -⟩⟩ := h
  · rw [h1]; unfold occupyAt
    simp only [siteOf_of hs, ok_bind]
    exact or_bind (site_occupy_or s) fun _ _ => or_ok _
  · rw [h1]; unfold occupyAt
    simp only [clusterOf_of h2, ok_bind]
    refine or_bind ?_ fun _ _ => or_ok _
    unfold Cluster.occupySite
    have hv : i ∈ x.siteVisits.keys := ((hall _ x h2).visits i).2 (IMap.mem_keys_iff_get?.2 ⟨t, h3⟩)
    rw [if_pos (IMap.has_iff.2 hv)]
    exact or_bind (chk_or _) fun _ _ => or_ok _

/-- The cluster after a walker has asked for its dwell time. -/
def rest (x : Cluster K) (wid : Int) (e tau : K) : Cluster K :=
  { x with remaining := IMap.set x.remaining wid ((x.remaining.get? wid).getD (e * tau) - tau / x.resolution) }

theorem Sure.hands {i : Int} (hall : AllSettled mem w) (hl : Left w) (h : Sure w i) {wid : Int} {e u : K} (he : 0 < e) :
    ∃ t w2 n w3, w.dwellAt (w.feat i) wid e = .ok (t, w2) ∧ w2.pickAt (w.feat i) wid u = .ok (n, w3) := by
  obtain ⟨s, hs, ⟨h1, -⟩ | ⟨x, t, h1, h2, h3, -⟩⟩ := h
  · rw [h1]
    refine ⟨s.getDwellTime e, w, s.pickNewSiteId u, w, ?_, ?_⟩
    · unfold dwellAt; simp only [siteOf_of hs]; rfl
    · unfold pickAt; simp only [siteOf_of hs]; rfl
  · rw [h1]
    obtain ⟨tau, ht, htp, hdt⟩ := (hall _ x h2).tau
    have hd : 0 < (x.remaining.get? wid).getD (e * tau) := by
      cases hr : x.remaining.get? wid with
      | none => exact mul_pos he htp
      | some r => exact hl _ x wid r h2 hr
    obtain ⟨t', hx'⟩ : ∃ t', x.getDwellTime wid e = .ok (t', (rest x wid e tau)) := by
      have hrest : rest x wid e tau = { x with
          tau := some tau, timeInc := some (tau / x.resolution),
          remaining := IMap.set x.remaining wid ((x.remaining.get? wid).getD (e * tau) - tau / x.resolution) } := by
        rw [← ht, ← hdt]; rfl
      unfold Cluster.getDwellTime
      simp only [ht, hdt]
      rw [hrest]
      split
      · exact ⟨_, rfl⟩
      · exact ⟨_, rfl⟩
    obtain ⟨n, x2, hx2⟩ : ∃ n x2, Cluster.pickNewSiteId (rest x wid e tau) wid u = .ok (n, x2) := by
      unfold Cluster.pickNewSiteId rest
      simp only [IMap.get?_set_self]
      split <;> exact ⟨_, _, rfl⟩
    refine ⟨t', { w with clusters := w.clusters.put s.clusterId (rest x wid e tau) }, n,
      { w with clusters := (w.clusters.put s.clusterId (rest x wid e tau)).put s.clusterId x2 }, ?_, ?_⟩
    · unfold dwellAt; simp only [clusterOf_of h2, ok_bind, hx']
    · unfold pickAt
      have : World.clusterOf { w with clusters := w.clusters.put s.clusterId (rest x wid e tau) } s.clusterId = .ok (rest x wid e tau) := clusterOf_of (IMap.get?_set_self _ _ _)
      simp only [this, ok_bind, hx2]

/-- The move of a walker whose next site is known succeeds, unless a counter overflows. -/
theorem hopMove_moves (hst : Struct env w) (hall : AllSettled mem w) (hl : Left w) {wid h : Int} {a : Choices K} {x : Walker K}
    (hx : w.walkers.get? h = some x) (h0 : x.site ≠ unassignedId) (h1 : x.pot ≠ unassignedId) (hs1 : Sure w x.site)
    (hs2 : Sure w x.pot) (he : 0 < a.e) : OkOrOverflow (w.hopMove wid h a) := by
  have ex : w.walkerOf h = .ok x := by unfold walkerOf; rw [hx]
  have e1 : walkerSite x = .ok x.site := walkerSite_ok.2 ⟨h0, rfl⟩
  have e2 : walkerPot x = .ok x.pot := walkerPot_ok.2 ⟨h1, rfl⟩
  obtain ⟨b, hb⟩ := hs2.isOccupied
  unfold hopMove
  simp only [ex, e1, e2, hb, ok_bind]
  have key : ∀ k, Sure w k → ∀ W : World K → K → Int → World K, OkOrOverflow (do
      let w1 ← w.vacateAt (w.feat x.site) x.site
      let w2 ← w1.occupyAt (w.feat k) k
      let (t, w3) ← w2.dwellAt (w.feat k) wid a.e
      let (n, w4) ← w3.pickAt (w.feat k) wid a.u
      (Except.ok (x.pot, W w4 t n) : Except Fault (Int × World K))) := by
    intro k hk W
    refine or_bind hs1.vacate fun w1 hw1 => ?_
    have s1 := hst.vacateAt hw1
    have st1 := hst.step s1
    have f1 : w1.feat k = w.feat k := s1.inner.feat k
    have sk1 := hk.keep s1.keep
    rw [← f1]
    refine or_bind (sk1.occupy (hall.keep s1.keep)) fun w2 hw2 => ?_
    have s2 := st1.occupyAt hw2
    have f2 : w2.feat k = w1.feat k := s2.inner.feat k
    have sk2 := sk1.keep s2.keep
    have l2 : Left w2 := (hl.tables (vacateAt_tables hw1)).tables (occupyAt_tables hw2)
    rw [← f2]
    obtain ⟨t, w3, n, w4, h3, h4⟩ := sk2.hands ((hall.keep s1.keep).keep s2.keep) l2 (wid := wid) (u := a.u) he
    rw [h3, ok_bind]
    simp only [h4, ok_bind]
    exact or_ok _
  cases b with
  | true => exact key x.site hs1 fun w4 t n => { w4 with walkers := w4.walkers.set h { x with dwell := t, pot := n } }
  | false => exact key x.pot hs2 fun w4 t n => { w4 with walkers := w4.walkers.set h ⟨x.pot, n, t⟩ }

/-! ## Checking the assumptions on concrete histories -/

/-- Check of `SystemsReturn`, `Draws` and `SentToKnown` for one call. -/
def aimB (ev : Event K) : Bool :=
  match ev.op with
  | .initializeSystem m => ev.res.toOption.isSome &&
      m.all fun ir => decide (ir.1 ≠ unassignedId) && ir.2.all fun na => decide (na.1 ≠ unassignedId)
  | .initializeWalkers l => l.all fun a => decide (0 ≤ a.u) && decide (a.u < 1) && decide (0 < a.e)
  | .hop _ _ a => decide (0 ≤ a.u) && decide (a.u < 1) && decide (0 < a.e)
  | .walkerSetPotential _ _ => false
  | _ => true

theorem aim_of {evs : List (Event K)} (h : evs.all aimB = true) : SystemsReturn evs ∧ Draws evs ∧ SentToKnown evs := by
  rw [List.all_eq_true] at h
  refine ⟨fun ev he m hop => ?_, fun ev he => ?_, fun ev he k i hop => ?_⟩
  · have := h ev he
    unfold aimB at this
    rw [hop] at this
    simp only [Bool.and_eq_true, List.all_eq_true, decide_eq_true_eq] at this
    obtain ⟨h1, h2⟩ := this
    refine ⟨?_, ?_⟩
    · cases hr : ev.res with
      | error e => rw [hr] at h1; simp [Except.toOption] at h1
      | ok n => exact ⟨n, rfl⟩
    · rintro i ⟨ir, hir, rfl | ⟨na, hna, rfl⟩⟩
      · exact (h2 ir hir).1
      · exact (h2 ir hir).2 na hna
  · have := h ev he
    unfold aimB at this
    unfold DrawsOf SiteSpec.Draw
    cases hop : ev.op <;> rw [hop] at this <;>
      simp only [Bool.and_eq_true, List.all_eq_true, decide_eq_true_eq] at this ⊢ <;> exact this
  · have := h ev he
    unfold aimB at this
    rw [hop] at this
    cases this

end Mythical.World
