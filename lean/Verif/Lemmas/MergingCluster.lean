import Verif.Lemmas.MergingNet
import Verif.Lemmas.EscapeCluster
import Verif.Spec.Merging

/-! # The clusters of the unit test in which two clusters are merged (for C118) -/

set_option linter.unusedSectionVars false
set_option linter.unusedVariables false

namespace Mythical.Merging
open World SystemSpec ProgramSpec BasinSpec MergingSpec
open _root_.Mythical.ToF (layout memOf)
variable {K : Type} [Field K] [LinearOrder K] [IsStrictOrderedRing K] [FloorRing K]
variable {env : Env K} {mem : Addr → K} {m : IMap (IMap Addr)} {w w' : World K} {n0 : Nat} {evs : List (Event K)}

/-- What holds of the histories that are looked at. -/
structure Calls (mem : Addr → K) (m : IMap (IMap Addr)) (evs : List (Event K)) : Prop where
  hops : HopsReturn evs
  fixed : RatesFixed mem evs
  only : ∀ ev ∈ evs, ∀ m', ev.op = .initializeSystem m' → m' = m ∧ ∃ n, ev.res = .ok n

/-- The references are those to the rates of the test. -/
structure Refers (mem : Addr → K) (m : IMap (IMap Addr)) : Prop where
  proper : Proper mem m
  closed : ∀ i, Mentions m i → ∃ row, (i, row) ∈ m
  row : ∀ i row, (i, row) ∈ m → ∃ row', (i, row') ∈ (grid : IMap (IMap K)) ∧ (row.map fun na => (na.1, mem na.2)).Perm row'
  all : ∀ i, 1 ≤ i → i ≤ 16 → Mentions m i

theorem grid_refers {R' : IMap (IMap K)} (hR : Rearranged R' grid) : Refers (memOf R') (layout R') := by
  have hh := ToF.layout_holds R'
  unfold ToFSpec.Holds at hh
  have hrow : ∀ i row, (i, row) ∈ layout R' → ∃ row', (i, row') ∈ (grid : IMap (IMap K)) ∧ (row.map fun na => (na.1, memOf R' na.2)).Perm row' := by
    intro i row hrow
    have hmem : (i, row.map fun na => (na.1, memOf R' na.2)) ∈ R' := by
      have := List.mem_map_of_mem (f := fun ir : Int × IMap Addr => (ir.1, ir.2.map fun na => (na.1, memOf R' na.2))) hrow
      exact (congrArg (_ ∈ ·) hh).mp this
    obtain ⟨⟨i', row'⟩, hj, e1, hperm⟩ := hR.row.2 _ hmem
    simp only at e1 hperm
    subst e1
    exact ⟨row', hj, hperm⟩
  have hall : ∀ i, 1 ≤ i → i ≤ 16 → ∃ row, (i, row) ∈ layout R' := by
    intro i h1 h2
    obtain ⟨row, hrow⟩ := grid_all (K := K) h1 h2
    have e1 : (layout R').map Prod.fst = R'.map Prod.fst := by
      have := congrArg (List.map Prod.fst) hh
      rw [List.map_map] at this
      exact this
    have : i ∈ (layout R').map Prod.fst := by
      rw [e1, hR.row.1.mem_iff]
      exact List.mem_map.2 ⟨_, hrow, rfl⟩
    obtain ⟨⟨i', row'⟩, h, rfl⟩ := List.mem_map.1 this
    exact ⟨_, h⟩
  refine ⟨proper_layout grid_wf grid_pos hR, fun i hi => ?_, hrow, fun i h1 h2 => ?_⟩
  · obtain ⟨ir, hir, h⟩ := hi
    obtain ⟨row', h1, h2⟩ := hrow ir.1 ir.2 hir
    obtain ⟨n1, n2⟩ := grid_range _ h1
    rcases h with rfl | ⟨na, hna, rfl⟩
    · exact hall _ n1.1 n1.2
    · have := n2 _ (h2.subset (List.mem_map_of_mem (f := fun na : Int × Addr => (na.1, memOf R' na.2)) hna))
      exact hall _ this.1 this.2
  · obtain ⟨row, h⟩ := hall i h1 h2
    exact ⟨_, h, .inl rfl⟩

theorem Calls.positive (h : Calls mem m evs) (hm : Refers mem m) : RatesPositive mem evs := by
  intro ev he m' ho
  obtain ⟨rfl, -⟩ := h.only ev he m' ho
  intro ir hir na hna
  exact (hm.proper.2 ir hir).2.2 na hna

theorem Calls.row (h : Calls mem m evs) (hm : Refers mem m) (ht : Trace env (World.new n0) evs w) {i : Int} {s : Site K}
    (hs : w.sites.get? i = some s) : s.neigh.WF ∧ ∃ row, (i, row) ∈ (grid : IMap (IMap K)) ∧ (s.neigh.map fun na => (na.1, mem na.2)).Perm row := by
  obtain ⟨hw, -, -⟩ := ht.good h.hops h.fixed (h.positive hm) i s hs
  obtain ⟨ev, he, m', sd, s0, ho, hn, htw, rfl⟩ := (ht.static h.hops).1 i s hs
  obtain ⟨rfl, -⟩ := h.only ev he m' ho
  have hmen : Mentions m' s0.id := by
    refine mentions_iff.2 ?_
    rcases hn with ⟨rates, -, hr, -⟩ | ⟨-, hd⟩
    · exact .inl (IMap.mem_keys_of_mem hr)
    · exact .inr (mem_drains.1 hd).2
  obtain ⟨row, hrow⟩ := hm.closed _ hmen
  have hwr := (hm.proper.2 _ hrow).1
  have hperm := ToF.perm_of_get? hw hwr (by rw [htw.neigh]; exact hn.rates hm.proper.1 hrow hwr)
  obtain ⟨row', h1, h2⟩ := hm.row _ _ hrow
  exact ⟨hw, row', h1, (hperm.map _).trans h2⟩

/-- All clusters are pairs or both pairs, the cluster of a site exists, and the ids are not below `n0`. -/
structure Pairs (n0 : Nat) (w : World K) : Prop where
  sort : ∀ k x, w.clusters.get? k = some x → Paired x.sites.keys
  exist : ∀ i s, w.sites.get? i = some s → s.clusterId ≠ unassignedId → ∃ x, w.clusters.get? s.clusterId = some x
  ids : ∀ k x, w.clusters.get? k = some x → (n0 : Int) ≤ k
  next : (n0 : Int) ≤ w.nextId

theorem Paired.sub {l : List Int} (h : Paired l) : l ⊆ [6, 7, 10, 11] := by
  rcases h with h | h | h
  · exact fun x hx => (by decide : ([6, 10] : List Int) ⊆ [6, 7, 10, 11]) (h.subset hx)
  · exact fun x hx => (by decide : ([7, 11] : List Int) ⊆ [6, 7, 10, 11]) (h.subset hx)
  · exact h.subset

/-- A cluster with one of a pair has the pair. -/
theorem Paired.pair {l B : List Int} (h : Paired l) (hB : B.Perm [6, 10] ∨ B.Perm [7, 11]) {i : Int} (hi : i ∈ B) (hl : i ∈ l) : B ⊆ l := by
  have key : ∀ P ∈ ([[6, 10], [7, 11]] : List (List Int)), ∀ L ∈ ([[6, 10], [7, 11], [6, 7, 10, 11]] : List (List Int)), ∀ i ∈ P, i ∈ L → P ⊆ L := by decide
  obtain ⟨P, hP, hBP⟩ : ∃ P ∈ ([[6, 10], [7, 11]] : List (List Int)), B.Perm P := by
    rcases hB with h | h
    · exact ⟨_, by simp, h⟩
    · exact ⟨_, by simp, h⟩
  obtain ⟨L, hL, hlL⟩ : ∃ L ∈ ([[6, 10], [7, 11], [6, 7, 10, 11]] : List (List Int)), l.Perm L := by
    rcases h with h | h | h
    · exact ⟨_, by simp, h⟩
    · exact ⟨_, by simp, h⟩
    · exact ⟨_, by simp, h⟩
  have := key P hP L hL i (hBP.subset hi) (hlL.subset hl)
  exact fun x hx => hlL.symm.subset (this (hBP.subset hx))

theorem Pairs.new : Pairs n0 (World.new n0 : World K) :=
  ⟨fun k x h => (by cases h), fun i s h => (by cases h), fun k x h => (by cases h), le_refl (n0 : Int)⟩

theorem Pairs.keep (h : Pairs n0 w) (hk : Keep env w w') : Pairs n0 w' := by
  refine ⟨fun k x hx => ?_, fun i s hs hne => ?_, fun k x hx => ?_, le_trans h.next hk.nextId⟩
  · obtain ⟨y, hy, hr⟩ := rel_some (hx ▸ hk.cluster k)
    rw [hr.keys]
    exact h.sort k y hy
  · obtain ⟨t, ht, hs'⟩ := rel_some (hs ▸ hk.site i)
    have e : s.clusterId = t.clusterId := hs'.clusterId
    rw [e] at hne ⊢
    obtain ⟨x, hx⟩ := h.exist i t ht hne
    obtain ⟨y, hy, -⟩ := rel_some' (hx ▸ hk.cluster t.clusterId)
    exact ⟨y, hy⟩
  · obtain ⟨y, hy, -⟩ := rel_some (hx ▸ hk.cluster k)
    exact h.ids k y hy

theorem Pairs.adds (h : Pairs n0 w) (ha : Adds mem m w w') : Pairs n0 w' := by
  refine ⟨fun k x hx => ?_, fun i s hs hne => ?_, fun k x hx => ?_, by rw [ha.nextId]; exact h.next⟩
  · rw [ha.clusters] at hx; exact h.sort k x hx
  · rw [ha.clusters]
    rcases ha.sites hs with hs | ⟨-, -, sd, hn⟩
    · exact h.exist i s hs hne
    · exact absurd hn.fresh.1 hne
  · rw [ha.clusters] at hx; exact h.ids k x hx

/-- What a successful attempt does. -/
theorem Pairs.grained (h : Pairs n0 w) (hst : Struct env w) (htw : Twins w) (hnet : Gridded mem w.sites)
    {a : Choices K} {v : Int} {basin : List Int} (hg : Grained' env mem w w' a v basin) : Pairs n0 w' := by
  have hne := hg.nonempty hst
  obtain hnil | ⟨hnd, -, hv, -⟩ := Basin.C49_basin Explorer.default (by show 1 ≤ 5; omega) a.vis mem w.sites w.clusters v basin hg.found
  · exact absurd hnil hne
  have hknown : ∀ i ∈ basin, w.sites.get? i ≠ none := by
    cases hg.grew with
    | created c0 hb h => intro i hi; obtain ⟨s, hs, -⟩ := h.lone i hi; rw [hs]; simp
    | merged sc fav c d erased _ _ _ _ h => exact h.known
  obtain ⟨s, hs⟩ := Option.ne_none_iff_exists'.1 (hknown v hv)
  have hin : ∀ i t x, w.sites.get? i = some t → t.clusterId ≠ unassignedId → w.clusters.get? t.clusterId = some x → i ∈ x.sites.keys := by
    intro i t x ht hn hx
    exact IMap.get?_isSome_iff.1 (Option.isSome_iff_ne_none.2 ((hst.joined i t ht hn).2.2.2 x hx))
  have hmem : ∀ k x i, w.clusters.get? k = some x → i ∈ x.sites.keys → ∀ t, w.sites.get? i = some t → t.clusterId ≠ unassignedId := by
    intro k x i hx hi t ht
    obtain ⟨q, hq⟩ := Option.isSome_iff_exists.1 (IMap.get?_isSome_iff.2 hi)
    obtain ⟨-, t', ht', hn⟩ := hst.member k x i q hx hq
    rw [ht] at ht'
    obtain rfl := Option.some.inj ht'
    exact hn
  cases hg.grew with
  | created c0 hb hc =>
    have hu : s.clusterId = unassignedId := by
      obtain ⟨t, ht, e⟩ := hc.lone v hv
      rw [hs] at ht
      obtain rfl := Option.some.inj ht
      exact e
    have hB := hnet.lone hg.found hne hs hu
    refine ⟨fun k x hx => ?_, fun i t ht hn => ?_, fun k x hx => ?_, ?_⟩
    · rw [hc.cluster] at hx
      split at hx
      · obtain rfl := Option.some.inj hx
        have hp : (w.seedCluster c0).sites.keys.Perm basin := hc.perm hst
        rcases hB with hB | hB
        · exact .inl (hp.trans hB)
        · exact .inr (.inl (hp.trans hB))
      · exact h.sort k x hx
    · rw [hc.site] at ht
      split at ht
      · obtain ⟨t', -, rfl⟩ := Option.map_eq_some_iff.1 ht
        exact ⟨_, by rw [hc.cluster]; exact if_pos rfl⟩
      · obtain ⟨x, hx⟩ := h.exist i t ht hn
        rw [hc.cluster]
        split
        · exact ⟨_, rfl⟩
        · exact ⟨x, hx⟩
    · rw [hc.cluster] at hx
      split at hx
      · next e => rw [e]; exact h.next
      · exact h.ids k x hx
    · have e : w'.nextId = w.nextId + 2 := by rw [hc.eq]
      rw [e]
      have := h.next
      omega
  | merged sc fav c d erased hsc hf hu hm hmg =>
    have hfav := hmg.target
    obtain ⟨i0, hi0, t0, ht0, e0⟩ := favored_mem hst hsc (hf ▸ hfav)
    rw [← hf] at e0
    have hfne : fav ≠ unassignedId := by
      have := (hst.cid _ _ hfav).2.1
      have := unassigned_neg
      omega
    have hi0c : i0 ∈ c.sites.keys := hin i0 t0 c ht0 (by rw [e0]; exact hfne) (by rw [e0]; exact hfav)
    -- the start is in a cluster
    have hs' : s.clusterId ≠ unassignedId := by
      intro hlone
      have hB := hnet.lone hg.found hne hs hlone
      have := Paired.pair (h.sort fav c hfav) hB hi0 hi0c
      exact hmem fav c v hfav (this hv) s hs hlone
    obtain ⟨x, hx⟩ := h.exist v s hs hs'
    obtain ⟨hBp, -⟩ := hnet.joined hg.found hne hs (by have := (hst.joined v s hs hs').2.1; omega) hx (h.sort _ _ hx) (hin v s x hs hs' hx)
      fun i t hit => by
        obtain ⟨evs, hev⟩ := hst.trace _ x hx
        have hwf : x.sites.WF := ((Cluster.CInv.new _).trace hev).sites
        have hi := IMap.get?_of_mem hwf hit
        obtain ⟨-, t', ht', -⟩ := hst.member _ x i t hx hi
        exact ⟨t', ht', (htw _ x i t t' hx hi ht').neigh⟩
    have hdk : ∀ i, i ∈ d.sites.keys ↔ i ∈ ([6, 7, 10, 11] : List Int) := by
      intro i
      constructor
      · intro hi
        obtain ⟨q, hq⟩ := Option.isSome_iff_exists.1 (IMap.get?_isSome_iff.2 hi)
        rcases (hmg.sites i q).1 hq with h1 | ⟨h1, -⟩ | ⟨k, hk, y, t, hy, ht, -⟩
        · exact Paired.sub (h.sort fav c hfav) (IMap.get?_isSome_iff.1 (by rw [h1]; rfl))
        · exact hBp.subset h1
        · exact Paired.sub (h.sort k y hy) (IMap.get?_isSome_iff.1 (by rw [ht]; rfl))
      · intro hi
        have hib : i ∈ basin := hBp.symm.subset hi
        obtain ⟨t, ht⟩ := Option.ne_none_iff_exists'.1 (hknown i hib)
        have : ∃ q, d.sites.get? i = some q := by
          by_cases hl : t.clusterId = unassignedId
          · exact ⟨_, (hmg.sites i _).2 (.inr (.inl ⟨hib, t, ht, hl, rfl⟩))⟩
          · obtain ⟨y, hy⟩ := h.exist i t ht hl
            have hiy := hin i t y ht hl hy
            obtain ⟨q, hq⟩ := Option.isSome_iff_exists.1 (IMap.get?_isSome_iff.2 hiy)
            by_cases hk : t.clusterId = fav
            · rw [hk, hfav] at hy
              obtain rfl := Option.some.inj hy
              exact ⟨q, (hmg.sites i q).2 (.inl hq)⟩
            · exact ⟨_, (hmg.sites i _).2 (.inr (.inr ⟨t.clusterId, (hmg.mem _).2 ⟨hk, hl, i, hib, t, ht, rfl⟩, y, q, hy, hq, rfl⟩))⟩
        obtain ⟨q, hq⟩ := this
        exact IMap.get?_isSome_iff.1 (by rw [hq]; rfl)
    have hdwf : d.sites.keys.Nodup := by
      obtain ⟨l1, hl1⟩ := hst.trace fav c hfav
      obtain ⟨l2, hl2⟩ := hmg.trace
      exact (((Cluster.CInv.new fav).trace hl1).trace hl2).sites
    have hdp : d.sites.keys.Perm [6, 7, 10, 11] := (List.perm_ext_iff_of_nodup hdwf (by decide)).2 hdk
    refine ⟨fun k y hy => ?_, fun i t ht hn => ?_, fun k y hy => ?_, ?_⟩
    · rw [hmg.cluster] at hy
      split at hy
      · obtain rfl := Option.some.inj hy
        exact .inr (.inr hdp)
      · split at hy
        · cases hy
        · exact h.sort k y hy
    · rw [hmg.site] at ht
      split at ht
      · obtain ⟨t', -, rfl⟩ := Option.map_eq_some_iff.1 ht
        exact ⟨d, by rw [hmg.cluster]; exact if_pos rfl⟩
      · next hib =>
        exfalso
        obtain ⟨y, hy⟩ := h.exist i t ht hn
        exact hib (hBp.symm.subset (Paired.sub (h.sort _ y hy) (hin i t y ht hn hy)))
    · rw [hmg.cluster] at hy
      split at hy
      · next e => rw [e]; exact h.ids fav c hfav
      · split at hy
        · cases hy
        · exact h.ids k y hy
    · have e : w'.nextId = w.nextId := by rw [hmg.eq]
      rw [e]; exact h.next

/-- All histories with the rates of the test. -/
theorem trace_pairs (hm : Refers mem m) (ht : Trace env (World.new n0) evs w) (h : Calls mem m evs) :
    (Pairs n0 w ∧ (w.sites = [] ∨ ∀ i, 1 ≤ i → i ≤ 16 → w.sites.get? i ≠ none)) ∧ ∀ ev ∈ evs, Struct env ev.post ∧ Pairs n0 ev.post := by
  generalize hw0 : (World.new n0 : World K) = w0 at ht
  induction ht with
  | nil =>
    subst hw0
    exact ⟨⟨.new, .inl rfl⟩, fun ev hev => (by cases hev)⟩
  | @snoc w1 w' evs op res mem' ht hstep hr ih =>
    subst hw0
    have h1 : Calls mem m evs := ⟨fun ev he => h.hops ev (List.mem_append_left _ he), fun ev he => h.fixed ev (List.mem_append_left _ he),
      fun ev he => h.only ev (List.mem_append_left _ he)⟩
    have hlast : (⟨w1, mem', op, res, w'⟩ : Event K) ∈ evs ++ [⟨w1, mem', op, res, w'⟩] := List.mem_append_right _ (List.mem_singleton_self _)
    obtain ⟨⟨i1, i3⟩, i4⟩ := ih h1
    have hst' : Struct env w' := (Trace.snoc mem' ht hstep hr).struct h.hops
    suffices hs : Pairs n0 w' ∧ (w'.sites = [] ∨ ∀ i, 1 ≤ i → i ≤ 16 → w'.sites.get? i ≠ none) by
      refine ⟨hs, fun ev hev => ?_⟩
      rcases List.mem_append.1 hev with hev | hev
      · exact i4 ev hev
      · rw [List.mem_singleton.1 hev]; exact ⟨hst', hs.1⟩
    have hmem : mem' = mem := h.fixed _ hlast
    subst hmem
    obtain ⟨-, hu2⟩ := hopsReturn_snoc h.hops
    have hst := ht.struct h1.hops
    have htw := (ht.static h1.hops).2
    have keys : ∀ {w2 : World K}, w2.sites.keys = w1.sites.keys → (w2.sites = [] ∨ ∀ i, 1 ≤ i → i ≤ 16 → w2.sites.get? i ≠ none) := by
      intro w2 e
      rcases i3 with i3 | i3
      · left
        rw [i3] at e
        exact List.map_eq_nil_iff.1 e
      · right
        intro i a b
        have := i3 i a b
        rw [← Option.isSome_iff_ne_none, IMap.get?_isSome_iff] at this ⊢
        rw [e]; exact this
    rcases step_cases hst hstep hr hu2 with hk | ⟨m', rfl, ha⟩ | ⟨wid, k, a, j, w1', w2, w3, basin, rfl, hmove, hk, rfl, hg, rfl⟩
    · exact ⟨i1.keep hk, keys hk.siteKeys⟩
    · refine ⟨i1.adds ha, .inr fun i a b => ?_⟩
      obtain ⟨rfl, n, hn⟩ := h.only _ hlast m' rfl
      simp only at hn
      subst hn
      simp only [World.step, Prod.mk.injEq] at hstep
      have hok : w1.initializeSystem mem' m' = (.ok (), w') := by
        refine Prod.ext ?_ hstep.2
        cases hh : (w1.initializeSystem mem' m').1 with
        | ok u => rfl
        | error e => rw [hh] at hstep; cases hstep.1
      exact ((initializeSystem_known hok i).1).2 (.inr (mentions_iff.1 (hm.all i a b)))
    · have hk2 : Keep env w1 { w1' with iteration := w1'.iteration + 1 } := hk.trans (.of_eq rfl rfl rfl le_rfl)
      have st2 := hst.keep hk2
      have hkn := keys hk2.siteKeys
      have hne := hg.nonempty st2
      have hsites : w1'.sites ≠ [] := by
        intro e
        obtain ⟨i, hi⟩ := List.exists_mem_of_ne_nil _ hne
        have : w1'.sites.get? i ≠ none := by
          cases hg.grew with
          | created c0 hb h => obtain ⟨s, hs, -⟩ := h.lone i hi; exact fun e => by rw [show w1'.sites.get? i = some s from hs] at e; cases e
          | merged sc fav c d erased _ _ _ _ h => exact h.known i hi
        rw [e] at this
        exact this rfl
      have hall : ∀ i, 1 ≤ i → i ≤ 16 → w1'.sites.get? i ≠ none := by
        rcases hkn with e | e
        · exact absurd e hsites
        · exact e
      have hnet : Gridded mem' w1'.sites := by
        refine ⟨fun i s hs => ?_, fun i s hs => ?_, hall⟩
        · obtain ⟨t, ht', hs'⟩ := hk.twin hs
          rw [hs'.neigh]; exact (h1.row hm ht ht').1
        · obtain ⟨t, ht', hs'⟩ := hk.twin hs
          rw [hs'.neigh]; exact (h1.row hm ht ht').2
      have hp := (i1.keep hk2).grained st2 (htw.keep hst hk2) hnet hg
      refine ⟨⟨hp.sort, hp.exist, hp.ids, hp.next⟩, .inr fun i a b => ?_⟩
      have hi := hall i a b
      obtain ⟨s, hs⟩ := Option.ne_none_iff_exists'.1 hi
      show w3.sites.get? i ≠ none
      cases hg.grew with
      | created c0 hb h =>
        rw [h.site]
        show (if i ∈ basin then Option.map _ (w1'.sites.get? i) else w1'.sites.get? i) ≠ none
        rw [hs]; split <;> simp
      | merged sc fav c d erased _ _ _ _ h =>
        rw [h.site]
        show (if i ∈ basin then Option.map _ (w1'.sites.get? i) else w1'.sites.get? i) ≠ none
        rw [hs]; split <;> simp

/-- The clusters are as announced. -/
theorem Pairs.announced (h : Pairs n0 w) (hst : Struct env w) : Announced w.getClusters ∧ ∀ kl ∈ w.getClusters, (n0 : Int) ≤ kl.1 := by
  have hget : ∀ k x, (k, x) ∈ w.clusters → w.clusters.get? k = some x := fun k x hx => IMap.get?_of_mem hst.clustersWF hx
  have hids : ∀ kl ∈ w.getClusters, (n0 : Int) ≤ kl.1 := by
    intro kl hkl
    obtain ⟨⟨k, x⟩, hx, rfl⟩ := List.mem_map.1 hkl
    exact h.ids k x (hget k x hx)
  refine ⟨?_, hids⟩
  have hsort : ∀ k x, (k, x) ∈ w.clusters → Paired x.sites.keys := fun k x hx => h.sort k x (hget k x hx)
  have hdis : ∀ k x k' x' i, (k, x) ∈ w.clusters → (k', x') ∈ w.clusters → i ∈ x.sites.keys → i ∈ x'.sites.keys → k = k' := by
    intro k x k' x' i hx hx' hi hi'
    refine hst.disjoint k x k' x' i (hget k x hx) (hget k' x' hx') ?_ ?_
    · exact Option.isSome_iff_ne_none.1 (IMap.get?_isSome_iff.2 hi)
    · exact Option.isSome_iff_ne_none.1 (IMap.get?_isSome_iff.2 hi')
  have two : ∀ k x k' x', (k, x) ∈ w.clusters → (k', x') ∈ w.clusters → k ≠ k' →
      (x.sites.keys.Perm [6, 10] ∧ x'.sites.keys.Perm [7, 11] ∨ x.sites.keys.Perm [7, 11] ∧ x'.sites.keys.Perm [6, 10]) := by
    intro k x k' x' hx hx' hne
    have no : ∀ i, i ∈ x.sites.keys → i ∈ x'.sites.keys → False := fun i a b => hne (hdis k x k' x' i hx hx' a b)
    rcases hsort k x hx with a | a | a <;> rcases hsort k' x' hx' with b | b | b
    · exact absurd (no 6 (a.symm.subset (by simp)) (b.symm.subset (by simp))) id
    · exact .inl ⟨a, b⟩
    · exact absurd (no 6 (a.symm.subset (by simp)) (b.symm.subset (by simp))) id
    · exact .inr ⟨a, b⟩
    · exact absurd (no 7 (a.symm.subset (by simp)) (b.symm.subset (by simp))) id
    · exact absurd (no 7 (a.symm.subset (by simp)) (b.symm.subset (by simp))) id
    · exact absurd (no 6 (a.symm.subset (by simp)) (b.symm.subset (by simp))) id
    · exact absurd (no 7 (a.symm.subset (by simp)) (b.symm.subset (by simp))) id
    · exact absurd (no 6 (a.symm.subset (by simp)) (b.symm.subset (by simp))) id
  have hwf : (w.clusters.map Prod.fst).Nodup := hst.clustersWF
  unfold World.getClusters ClusterContainer.getSiteIdsOfClusters
  rcases hcl : w.clusters with _ | ⟨⟨k, x⟩, _ | ⟨⟨k', x'⟩, _ | ⟨⟨k2, x2⟩, rest⟩⟩⟩
  · exact .inl rfl
  · exact .inr (.inl ⟨k, x.sites.keys, rfl, hsort k x (by rw [hcl]; simp)⟩)
  · rw [hcl] at hwf
    refine .inr (.inr ⟨k, x.sites.keys, k', x'.sites.keys, rfl, two k x k' x' (by rw [hcl]; simp) (by rw [hcl]; simp) ?_⟩)
    simp at hwf
    exact hwf
  · exfalso
    rw [hcl] at hwf
    simp only [List.map_cons, List.nodup_cons, List.mem_cons, not_or] at hwf
    obtain ⟨⟨n1, n2, -⟩, ⟨n3, -⟩, -⟩ := hwf
    have m1 : (k, x) ∈ w.clusters := by rw [hcl]; simp
    have m2 : (k', x') ∈ w.clusters := by rw [hcl]; simp
    have m3 : (k2, x2) ∈ w.clusters := by rw [hcl]; simp
    have e : ∀ {l : List Int}, l.Perm [6, 10] → l.Perm [7, 11] → False := fun a b => by
      have := (a.symm.trans b).subset (List.mem_cons_self (a := (6 : Int)))
      simp at this
    rcases two k x k' x' m1 m2 n1 with ⟨a, b⟩ | ⟨a, b⟩ <;> rcases two k x k2 x2 m1 m3 n2 with ⟨c, d⟩ | ⟨c, d⟩
    · rcases two k' x' k2 x2 m2 m3 n3 with ⟨f, g⟩ | ⟨f, g⟩
      · exact e f b
      · exact e g d
    · exact e a c
    · exact e c a
    · rcases two k' x' k2 x2 m2 m3 n3 with ⟨f, g⟩ | ⟨f, g⟩
      · exact e d g
      · exact e b f

/-! ## What the calls of a block keep -/

theorem block_ops {P : ToF.Prog K → Prop} {luck : Luck K} {threshold : Int} {r : Nat} {p : ToF.Prog K} {pb : ToF.Prog K × Books K}
    (hP : ∀ p op p', (∀ m', op = .initializeSystem m' → m' = m) → P p → p.call env mem op = .ok p' → P p')
    (e : block env mem m threshold luck r p = .ok pb) (h0 : P p) : P pb.1 := by
  have hroam : ∀ (r : Nat) (p7 : ToF.Prog K) (b : Books K), P p7 → roam env mem luck r p7 b = .ok pb → P pb.1 := by
    clear e h0
    intro r
    induction r with
    | zero =>
      intro p7 b h7 e
      unfold roam at e
      split at e
      · cases e
      · rw [← ok_inj.1 e]; exact h7
    | succ r ih =>
      intro p7 b h7 e
      unfold roam at e
      split at e
      · obtain ⟨⟨q, b'⟩, e1, e⟩ := bind_eq_ok.1 e
        unfold hopOnce at e1
        obtain ⟨q1, c, e1⟩ := bind_eq_ok.1 e1
        obtain ⟨z, -, e1⟩ := bind_eq_ok.1 e1
        obtain ⟨j, -, e1⟩ := bind_eq_ok.1 e1
        obtain ⟨times, -, e1⟩ := bind_eq_ok.1 e1
        obtain ⟨hops, -, e1⟩ := bind_eq_ok.1 e1
        obtain ⟨count, -, e1⟩ := bind_eq_ok.1 e1
        have e1 := ok_inj.1 e1
        simp only [Prod.mk.injEq] at e1
        refine ih q b' ?_ e
        rw [← e1.1]
        exact hP _ _ _ (by intro _ e; cases e) h7 c
      · rw [← ok_inj.1 e]; exact h7
  unfold block at e
  obtain ⟨p1, c1, e⟩ := bind_eq_ok.1 e
  obtain ⟨p2, c2, e⟩ := bind_eq_ok.1 e
  obtain ⟨p3, c3, e⟩ := bind_eq_ok.1 e
  obtain ⟨p4, c4, e⟩ := bind_eq_ok.1 e
  obtain ⟨p5, c5, e⟩ := bind_eq_ok.1 e
  obtain ⟨p6, c6, e⟩ := bind_eq_ok.1 e
  obtain ⟨p7, c7, e⟩ := bind_eq_ok.1 e
  have h1 := hP _ _ _ (by intro _ e; cases e) h0 c1
  have h2 := hP _ _ _ (by intro _ e; cases e) h1 c2
  have h3 := hP _ _ _ (by intro _ e; cases e) h2 c3
  have h4 := hP _ _ _ (by intro _ e; cases e; rfl) h3 c4
  have h5 := hP _ _ _ (by intro _ e; cases e) h4 c5
  have h6 := hP _ _ _ (by intro _ e; cases e) h5 c6
  have h7 := hP _ _ _ (by intro _ e; cases e) h6 c7
  exact hroam _ _ _ h7 e

/-- The calls of a block. -/
theorem block_calls {luck : Luck K} {threshold : Int} {r : Nat} {pb : ToF.Prog K × Books K}
    (e : block env mem m threshold luck r ⟨World.new n0, []⟩ = .ok pb) :
    Trace env (World.new n0) pb.1.calls pb.1.world ∧ Calls mem m pb.1.calls :=
  block_ops (P := fun p => Trace env (World.new n0) p.calls p.world ∧ Calls mem m p.calls)
    (fun p op p' hop h hc => by
      obtain ⟨r, h1, h2⟩ := ToF.call_ok hc
      rw [h2]
      have cases' : ∀ ev ∈ p.calls ++ [(⟨p.world, mem, op, .ok r, p'.world⟩ : Event K)], ev ∈ p.calls ∨ ev = ⟨p.world, mem, op, .ok r, p'.world⟩ := by
        intro ev hev
        rcases List.mem_append.1 hev with hev | hev
        · exact .inl hev
        · exact .inr (List.mem_singleton.1 hev)
      refine ⟨.snoc mem h.1 h1 trivial, fun ev hev wid k a ho => ?_, fun ev hev => ?_, fun ev hev m' ho => ?_⟩
      · rcases cases' ev hev with hev | rfl
        · exact h.2.hops ev hev wid k a ho
        · exact ⟨r, rfl⟩
      · rcases cases' ev hev with hev | rfl
        · exact h.2.fixed ev hev
        · rfl
      · rcases cases' ev hev with hev | rfl
        · exact h.2.only ev hev m' ho
        · exact ⟨hop m' ho, r, rfl⟩) e ⟨.nil _, fun ev hev => (by cases hev), fun ev hev => (by cases hev), fun ev hev => (by cases hev)⟩

end Mythical.Merging
