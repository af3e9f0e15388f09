import Verif.Lemmas.ClusterTrace

/-! # Lemmas about the cluster: sites and visit counts under updates and merges -/

set_option linter.unusedSectionVars false

namespace Mythical.Cluster
open Mythical ClusterSpec
variable {K : Type} [Field K] [LinearOrder K] [IsStrictOrderedRing K] [FloorRing K]
variable {env : Env K} {mem : Addr → K} {c c' d src src' : Cluster K}

theorem update_sites (c : Cluster K) : (c.update env mem).2.sites = c.sites := by
  rcases update_cases (env := env) (mem := mem) c with ⟨freqs, c1, c2, h1, h2, h3⟩ | ⟨e, c1, hv, h3⟩
  · have hv := visitFreqsLoop_visitsOnly (c := c) [] c.siteVisits.keys
    rw [h1] at hv
    rw [h3]
    obtain ⟨⟨v, p, rfl⟩, -⟩ := hv
    exact (rebuild_ok h2).sites
  · rw [h3]
    obtain ⟨⟨v, p, rfl⟩, -⟩ := hv
    rfl

theorem get?_insertAll {l m : IMap (Site K)} (hl : l.WF) (k : Int) :
    (l.foldl insertIfNew m).get? k = match m.get? k with
      | some s => some s
      | none => l.get? k := by
  induction l generalizing m with
  | nil => simp [IMap.get?]; cases IMap.get? m k <;> rfl
  | cons x l ih =>
    obtain ⟨i, s⟩ := x
    obtain ⟨hi, hl⟩ := IMap.wf_cons.1 hl
    rw [List.foldl_cons, ih hl, IMap.get?_cons]
    have e : IMap.get? (insertIfNew m (i, s)) k = match m.get? k with
        | some t => some t
        | none => if i = k then some s else none := by
      unfold insertIfNew
      simp only
      by_cases h : m.has i = true
      · rw [if_pos h]
        have h := IMap.has_iff.1 h
        cases hm : m.get? k with
        | some t => rfl
        | none =>
          rw [if_neg]
          rintro rfl
          exact IMap.get?_eq_none_iff.1 hm h
      · rw [if_neg h, IMap.get?_set]
        have h : i ∉ m.keys := fun hh => h (IMap.has_iff.2 hh)
        by_cases hk : i = k
        · subst hk; rw [IMap.get?_eq_none_iff.2 h]
        · simp only [hk, if_false]; cases m.get? k <;> rfl
    rw [e]
    cases m.get? k with
    | some t => rfl
    | none =>
      by_cases hk : i = k
      · simp [hk]
      · simp [hk]

/-- The marking of the source's sites. -/
def mark (tid : Int) (s : Site K) : Site K := { s with clusterId := tid }

theorem VisitsOnly.sites (h : VisitsOnly c c') : c'.sites = c.sites := by
  obtain ⟨⟨v, p, rfl⟩, -⟩ := h; rfl

theorem migrateLoop_sites (tid : Int) (l : List Int) (acc : IMap Int) (src : Cluster K)
    (hl : ∀ i ∈ l, i ∈ src.sites.keys) :
    (migrateLoop tid src acc l).2.sites.keys = src.sites.keys ∧
    (∀ k s, src.sites.get? k = some s → ∃ s', (migrateLoop tid src acc l).2.sites.get? k = some s' ∧
      (s' = s ∨ s' = mark tid s)) ∧
    ∀ r, (migrateLoop tid src acc l).1 = .ok r → ∀ k, (migrateLoop tid src acc l).2.sites.get? k =
      if k ∈ l then (src.sites.get? k).map (mark tid) else src.sites.get? k := by
  induction l generalizing src acc with
  | nil => exact ⟨rfl, fun k s h => ⟨s, h, Or.inl rfl⟩, fun _ _ k => by simp [migrateLoop]⟩
  | cons i l ih =>
    unfold migrateLoop
    simp only
    have hi := hl i (List.mem_cons_self ..)
    obtain ⟨s, hs⟩ := IMap.mem_keys_iff_get?.1 hi
    have hat : src.siteAt i = s := by unfold siteAt; rw [hs]; rfl
    rw [hat]
    have hv := getVisitFrequency_visitsOnly (c := { src with sites := src.sites.set i { s with clusterId := tid } }) i
    have hk0 : (IMap.set src.sites i { s with clusterId := tid }).keys = src.sites.keys := IMap.keys_set_of_mem hi
    split
    · next e src1 he =>
      rw [he] at hv
      have es := hv.sites
      simp only at es ⊢
      refine ⟨by rw [es]; exact hk0, fun k t ht => ?_, fun r hr => by cases hr⟩
      rw [es, IMap.get?_set]
      by_cases hik : i = k
      · subst hik; rw [hs] at ht; cases ht; exact ⟨_, by simp; rfl, Or.inr rfl⟩
      · exact ⟨t, by simp [hik, ht], Or.inl rfl⟩
    · next n src1 he =>
      rw [he] at hv
      have es := hv.sites
      simp only at es
      obtain ⟨h1, h2, h3⟩ := ih (acc.set i n) src1 (fun j hj => by
        rw [es, hk0]; exact hl j (List.mem_cons_of_mem _ hj))
      refine ⟨h1.trans (by rw [es]; exact hk0), fun k t ht => ?_, fun r hr k => ?_⟩
      · by_cases hik : i = k
        · subst hik
          rw [hs] at ht; cases ht
          obtain ⟨s', g1, g2⟩ := h2 i { s with clusterId := tid } (by rw [es]; simp)
          refine ⟨s', g1, Or.inr ?_⟩
          rcases g2 with g2 | g2 <;> rw [g2] <;> rfl
        · exact h2 k t (by rw [es, IMap.get?_set]; simp [hik, ht])
      · rw [h3 r hr k, es, IMap.get?_set]
        by_cases hik : i = k
        · subst hik
          rw [hs]
          by_cases hil : i ∈ l
          · simp [hil, mark]
          · simp [hil, mark]
        · simp [hik, Ne.symm hik]

/-- What a merge does to the sites of the two clusters. -/
theorem migrate_sites (hsrc : src.sites.WF) :
    match c.migrateSitesFrom env mem src with
    | (r, c', src') =>
      (c' = c ∧ (∀ u, r ≠ .ok u) ∧ src'.sites.keys = src.sites.keys ∧ (∀ k s, src.sites.get? k = some s → ∃ s', src'.sites.get? k = some s' ∧
        (s' = s ∨ s' = mark c.id s))) ∨
      (src'.sites = [] ∧ ∀ k, c'.sites.get? k = match c.sites.get? k with
        | some s => some s
        | none => (src.sites.get? k).map (mark c.id)) := by
  unfold migrateSitesFrom
  obtain ⟨h1, h2, h3⟩ := migrateLoop_sites c.id src.sites.keys [] src fun _ h => h
  cases hm : migrateLoop c.id src [] src.sites.keys with
  | mk r src1 =>
    rw [hm] at h1 h2 h3
    cases r with
    | error e => exact Or.inl ⟨rfl, (fun _ h => nomatch h), h1, h2⟩
    | ok visits =>
      simp only
      have hw : src1.sites.WF := by
        have : src1.sites.map Prod.fst = src.sites.map Prod.fst := h1
        unfold IMap.WF; rw [this]; exact hsrc
      have key : ∀ k, (src1.sites.foldl insertIfNew c.sites).get? k = match c.sites.get? k with
          | some s => some s
          | none => (src.sites.get? k).map (mark c.id) := by
        intro k
        rw [get?_insertAll hw, h3 visits rfl k]
        cases c.sites.get? k with
        | some s => rfl
        | none =>
          simp only
          by_cases hk : k ∈ src.sites.keys
          · rw [if_pos hk]
          · rw [if_neg hk, IMap.get?_eq_none_iff.2 hk]; rfl
      have hu := update_sites (env := env) (mem := mem) { c with sites := src1.sites.foldl insertIfNew c.sites }
      simp only at hu
      cases hup : update env mem { c with sites := src1.sites.foldl insertIfNew c.sites } with
      | mk r2 c2 =>
        rw [hup] at hu
        simp only at hu
        cases r2 with
        | error e => exact Or.inr ⟨rfl, fun k => by rw [hu]; exact key k⟩
        | ok u =>
          simp only
          cases hb : c2.addBackVisits visits with
          | error e => exact Or.inr ⟨rfl, fun k => by rw [hu]; exact key k⟩
          | ok c3 => exact Or.inr ⟨rfl, fun k => by rw [(addBack_visitsOnly hb).sites, hu]; exact key k⟩

/-- Calls that do not occupy or vacate leave the sites of the cluster alone (and may add sites). -/
theorem step_quiet_sites {op : Op K} (hq : op.isQuiet = true) (hop : ∀ s, op = .migrateSitesFrom s → s.sites.WF)
    {i : Int} {s : Site K} (hi : c.sites.get? i = some s) : (c.step env mem op).2.sites.get? i = some s := by
  have hsimple : ∀ {r : Except Fault (Cluster K)}, (∀ c', r = .ok c' → c'.sites.get? i = some s) →
      (c.simple r).2.sites.get? i = some s := by
    intro r hr
    unfold simple; split
    · exact hr _ rfl
    · exact hi
  have hadd : ∀ {a b : Cluster K} {t : Site K}, a.addSite t = .ok b → a.sites.get? i = some s → b.sites.get? i = some s := by
    intro a b t h ha
    obtain ⟨hn, rfl⟩ := addSite_ok h
    have : t.id ≠ i := fun e => hn (by rw [e]; exact IMap.mem_keys_iff_get?.2 ⟨s, ha⟩)
    show IMap.get? (IMap.set a.sites t.id _) i = _
    rw [IMap.get?_set_ne _ _ this, ha]
  cases op with
  | addSite t => exact hsimple fun _ h => hadd h hi
  | addSites l =>
    refine hsimple fun b h => ?_
    have : ∀ (l : List (Site K)) (a b : Cluster K), a.addSites l = .ok b → a.sites.get? i = some s → b.sites.get? i = some s := by
      intro l
      induction l with
      | nil => intro a b h ha; cases h; exact ha
      | cons t l ih =>
        intro a b h ha
        unfold addSites at h
        rw [bind_eq_ok] at h
        obtain ⟨x, h1, h2⟩ := h
        exact ih x b h2 (hadd h1 ha)
    exact this l c b h hi
  | update =>
    have := update_sites (env := env) (mem := mem) c
    unfold Cluster.step; simp only
    split <;> (next he => rw [he] at this; simp only at this; rw [this]; exact hi)
  | migrateSitesFrom src =>
    have := migrate_sites (c := c) (env := env) (mem := mem) (hop src rfl)
    have key : (c.migrateSitesFrom env mem src).2.1.sites.get? i = some s := by
      cases hm : c.migrateSitesFrom env mem src with
      | mk r cs =>
        obtain ⟨c', src'⟩ := cs
        rw [hm] at this
        rcases this with ⟨h1, -⟩ | ⟨-, h2⟩
        · simp only; rw [h1]; exact hi
        · simp only; rw [h2, hi]
    unfold Cluster.step; simp only
    split <;> (next he => rw [he] at key; exact key)
  | getVisitFrequency id =>
    have := (getVisitFrequency_visitsOnly (c := c) id).sites
    unfold Cluster.step; simp only
    split <;> (next he => rw [he] at this; simp only at this; rw [this]; exact hi)
  | setVisitFrequency n id =>
    refine hsimple fun b h => ?_
    obtain ⟨rfl, -, -⟩ := setVisitFrequency_ok h
    exact hi
  | _ => cases hq

/-! ## Visit counts -/

/-- An update does not change what is reported. -/
theorem update_reports (hi : CInv c) (h : c.update env mem = (.ok (), c')) {i n : Int}
    (hn : c.getVisitFrequency i = (.ok n, d)) :
    (c'.getVisitFrequency i = (.ok n, c')) ∧ c'.visits = c'.prevVisits ∧ c'.tau.isSome := by
  obtain ⟨freqs, c1, h1, hv, hr⟩ := update_ok h
  obtain ⟨-, hk, hfl, -, hsp⟩ := visitFreqs_spec hi.visits h1
  obtain ⟨hki, ⟨t, ht, -⟩, -, -⟩ := getVisitFrequency_ok hn
  have hne : c.siteVisits.keys ≠ [] := fun e => by rw [e] at hki; simp at hki
  have hflc := hfl hne
  have hi1 : i ∈ c1.sites.keys := by rw [hv.sites]; exact hi.visitsSub i hki
  have hfi : i ∈ freqs.keys := (hk i).2 hki
  obtain ⟨m, hm⟩ := IMap.mem_keys_iff_get?.1 hfi
  have hnm : n = m := by
    have := (hsp i m).1 hm
    rw [hn] at this
    cases this; rfl
  subst hnm
  have htau := hr.tauSome ⟨i, hi1, hfi⟩
  have hve : c'.visits = c'.prevVisits := by rw [hr.visits, hr.prevVisits, hflc]
  obtain ⟨t', ht'⟩ := Option.isSome_iff_exists.1 htau
  have hval : c'.siteVisits.at0 i = (n : K) := by
    unfold IMap.at0
    rw [hr.siteVisits, get?_foldl_set_list, if_pos hi1]
    unfold restored
    rw [hm]
    rfl
  have hfit : FitsInt n := by
    obtain ⟨-, -, -, hfit⟩ := getVisitFrequency_ok hn
    exact hfit
  refine ⟨?_, hve, htau⟩
  have := getVisitFrequency_of (c := c') (c' := c') (id := i) ((hr.siteVisits_keys i).2 hi1) ht' (flush_of_eq hve t')
    (by rw [hval, roundHalf_intCast]; exact hfit)
  rw [hval, roundHalf_intCast] at this
  exact this

/-- Writing visit counts back. -/
theorem addBack_at0 {l : List (Int × Int)} (hw : IMap.WF l) (h : c.addBackVisits l = .ok c') (i : Int) :
    c'.siteVisits.at0 i = match IMap.get? l i with
      | some n => (n : K)
      | none => c.siteVisits.at0 i := by
  induction l generalizing c with
  | nil => cases h; rfl
  | cons x l ih =>
    obtain ⟨j, m⟩ := x
    obtain ⟨hj, hw⟩ := IMap.wf_cons.1 hw
    unfold addBackVisits at h
    rw [bind_eq_ok] at h
    obtain ⟨d, h1, h2⟩ := h
    rw [ih hw h2, IMap.get?_cons]
    obtain ⟨rfl, -, -⟩ := setVisitFrequency_ok h1
    by_cases hji : j = i
    · subst hji
      rw [IMap.get?_eq_none_iff.2 hj]
      simp [IMap.at0]
    · cases IMap.get? l i with
      | none => simp [IMap.at0, hji, IMap.get?_set_ne]
      | some n => simp [hji]

theorem addBack_reads {l : List (Int × Int)} (h : c.addBackVisits l = .ok c') :
    c'.visits = c.visits ∧ c'.prevVisits = c.prevVisits ∧ c'.tau = c.tau ∧ c'.siteVisits.keys = c.siteVisits.keys := by
  induction l generalizing c with
  | nil => cases h; exact ⟨rfl, rfl, rfl, rfl⟩
  | cons x l ih =>
    obtain ⟨j, m⟩ := x
    unfold addBackVisits at h
    rw [bind_eq_ok] at h
    obtain ⟨d, h1, h2⟩ := h
    obtain ⟨rfl, hk, -⟩ := setVisitFrequency_ok h1
    obtain ⟨a1, a2, a3, a4⟩ := ih h2
    exact ⟨a1, a2, a3, a4.trans (IMap.keys_set_of_mem hk)⟩

/-- Changing the sites of a cluster to agree with the old ones in what visit counts depend on. -/
theorem getVisitFrequency_sites {S : IMap (Site K)} (hS : ∀ i ∈ c.siteVisits.keys, (S.get? i).map (·.tau) = (c.sites.get? i).map (·.tau))
    {i n : Int} (h : c.getVisitFrequency i = (.ok n, d)) :
    ({ c with sites := S } : Cluster K).getVisitFrequency i = (.ok n, { d with sites := S }) := by
  have hshare : ∀ (a : Cluster K) (S : IMap (Site K)) (t diff : K) (j : Int),
      (S.get? j).map (·.tau) = (a.sites.get? j).map (·.tau) →
      ({ a with sites := S } : Cluster K).visitShare t diff j = a.visitShare t diff j := by
    intro a S t diff j hj
    unfold visitShare
    simp only
    cases h1 : IMap.get? S j with
    | none =>
      rw [h1] at hj
      cases h2 : IMap.get? a.sites j with
      | none => rfl
      | some s => rw [h2] at hj; cases hj
    | some s =>
      rw [h1] at hj
      cases h2 : IMap.get? a.sites j with
      | none => rw [h2] at hj; cases hj
      | some s' =>
        rw [h2] at hj
        simp only [Option.map_some, Option.some.injEq] at hj
        cases IMap.get? a.internalDwell j with
        | none => rfl
        | some d => simp only; rw [hj]
  have hloop : ∀ (l : List Int) (a : Cluster K) (t diff : K), (∀ j ∈ l, j ∈ c.siteVisits.keys) → a.sites = c.sites →
      ({ a with sites := S } : Cluster K).flushLoop t diff l =
        ((a.flushLoop t diff l).1, { (a.flushLoop t diff l).2 with sites := S }) := by
    intro l
    induction l with
    | nil => intro a t diff _ _; rfl
    | cons j l ih =>
      intro a t diff hl ha
      unfold flushLoop
      rw [hshare a S t diff j (by rw [ha]; exact hS j (hl j (List.mem_cons_self ..)))]
      cases a.visitShare t diff j with
      | error e => rfl
      | ok v =>
        exact ih { a with siteVisits := a.siteVisits.set j (a.siteVisits.at0 j + v) } t diff
          (fun k hk => hl k (List.mem_cons_of_mem _ hk)) ha
  have hflush : ∀ t, ({ c with sites := S } : Cluster K).flush t = ((c.flush t).1, { (c.flush t).2 with sites := S }) := by
    intro t
    unfold flush
    simp only
    split
    · rfl
    · split
      · rfl
      · rw [hloop _ c _ _ (fun _ h => h) rfl]
        cases c.flushLoop t _ c.siteVisits.keys with
        | mk r d => cases r <;> rfl
  unfold getVisitFrequency at h ⊢
  simp only at h ⊢
  split at h
  · next hk =>
    rw [if_pos hk]
    split at h
    · cases h
    · next t ht =>
      rw [hflush]
      split at h
      · cases h
      · next u c1 hc1 =>
        rw [hc1]
        simp only at h ⊢
        split at h
        · next hf => rw [if_pos hf]; cases h; rfl
        · cases h
  · cases h

/-- The visit counts a merge takes over are those the source would have reported. -/
theorem migrateLoop_visits (tid : Int) (l : List Int) (acc r : IMap Int) (src : Cluster K) (hl : l.Nodup)
    (hin : ∀ i ∈ l, i ∈ src.sites.keys) (hacc : acc.WF)
    (h : migrateLoop tid src acc l = (.ok r, src')) :
    r.WF ∧ (∀ i, r.get? i ≠ none ↔ (i ∈ l ∨ acc.get? i ≠ none)) ∧ (∀ i, i ∉ l → r.get? i = acc.get? i) ∧
    ∀ i ∈ l, ∀ n d, src.getVisitFrequency i = (.ok n, d) → r.get? i = some n := by
  have hread : ∀ (i : Int) (a b e : Cluster K) (m j n : Int), a.getVisitFrequency i = (.ok m, b) →
      a.getVisitFrequency j = (.ok n, e) → ∃ e', b.getVisitFrequency j = (.ok n, e') := by
    intro i a b e m j n h1 h2
    obtain ⟨h1k, ⟨t, ht, hf⟩, -, -⟩ := getVisitFrequency_ok h1
    obtain ⟨h2k, ⟨t', ht', hf'⟩, hn, hfit⟩ := getVisitFrequency_ok h2
    rw [ht] at ht'
    cases ht'
    rw [hf] at hf'
    cases hf'
    have hvo := getVisitFrequency_visitsOnly (c := a) i
    rw [h1] at hvo
    have htb : b.tau = some t := by obtain ⟨⟨v, p, rfl⟩, -⟩ := hvo; exact ht
    refine ⟨b, ?_⟩
    rw [hn]
    exact getVisitFrequency_of (by rw [hvo.2]; exact h2k) htb (flush_of_eq (flush_ok hf) t) (by rw [← hn]; exact hfit)
  induction l generalizing src acc with
  | nil =>
    cases h
    exact ⟨hacc, by simp, fun _ _ => rfl, by simp⟩
  | cons i l ih =>
    obtain ⟨hil, hl⟩ := List.nodup_cons.1 hl
    unfold migrateLoop at h
    simp only at h
    have hi := hin i (List.mem_cons_self ..)
    obtain ⟨s, hs⟩ := IMap.mem_keys_iff_get?.1 hi
    have hat : src.siteAt i = s := by unfold siteAt; rw [hs]; rfl
    rw [hat] at h
    have hS : ∀ k, (IMap.get? (IMap.set src.sites i { s with clusterId := tid }) k).map (·.tau) =
        (src.sites.get? k).map (·.tau) := by
      intro k
      rw [IMap.get?_set]
      by_cases hik : i = k
      · subst hik; rw [hs]; simp
      · simp [hik]
    split at h
    · cases h
    · next n src1 he =>
      have hv := getVisitFrequency_visitsOnly (c := { src with sites := src.sites.set i { s with clusterId := tid } }) i
      rw [he] at hv
      have es := hv.sites
      simp only at es
      obtain ⟨g1, g2, g3, g4⟩ := ih (acc.set i n) src1 hl (fun j hj => by
        rw [es, IMap.keys_set_of_mem hi]; exact hin j (List.mem_cons_of_mem _ hj)) (hacc.set _ _) h
      refine ⟨g1, fun k => ?_, fun k hk => ?_, fun k hk m d hm => ?_⟩
      · rw [g2, IMap.get?_set, List.mem_cons]
        by_cases hik : i = k
        · simp [hik]
        · simp [hik, Ne.symm hik]
      · rw [List.mem_cons, not_or] at hk
        rw [g3 k hk.2, IMap.get?_set_ne _ _ (Ne.symm hk.1)]
      · have hm' := getVisitFrequency_sites (fun k _ => hS k) hm
        rcases List.mem_cons.1 hk with rfl | hk
        · rw [he] at hm'
          cases hm'
          rw [g3 k hil]
          simp
        · obtain ⟨e', he'⟩ := hread i _ _ _ n k m he hm'
          exact g4 k hk m e' he'

/-- Merging two clusters that share no site leaves the reported visit count of every site of either unchanged. -/
theorem migrate_reports (hci : CInv c) (hsi : CInv src) (hd : Disjoint (ids c) (ids src))
    (h : c.migrateSitesFrom env mem src = (.ok (), c', src')) {j m : Int} (hj : reports c j m) :
    (∀ i n, reports c i n → reports c' i n) ∧ ∀ i n, reports src i n → reports c' i n := by
  unfold migrateSitesFrom at h
  obtain ⟨k1, -, k3⟩ := migrateLoop_sites c.id src.sites.keys [] src fun _ h => h
  cases hm : migrateLoop c.id src [] src.sites.keys with
  | mk r src1 =>
    rw [hm] at h k1 k3
    cases r with
    | error e => simp at h
    | ok visits =>
      simp only at h k1 k3
      obtain ⟨v1, v2, -, v4⟩ := migrateLoop_visits c.id src.sites.keys [] visits src hsi.sites (fun _ h => h) List.nodup_nil hm
      have hw : src1.sites.WF := by
        have : src1.sites.map Prod.fst = src.sites.map Prod.fst := k1
        unfold IMap.WF; rw [this]; exact hsi.sites
      have hgrow : ∀ k s, c.sites.get? k = some s → (src1.sites.foldl insertIfNew c.sites).get? k = some s := by
        intro k s hk; rw [get?_insertAll hw, hk]
      have hgi : CInv { c with sites := src1.sites.foldl insertIfNew c.sites } :=
        hci.grow (insertAll_wf hci.sites) fun k hk => (insertAll_keys _ _ _).2 (Or.inl hk)
      cases hup : update env mem { c with sites := src1.sites.foldl insertIfNew c.sites } with
      | mk r2 c2 =>
        rw [hup] at h
        cases r2 with
        | error e => simp at h
        | ok u =>
          simp only at h
          cases hb : c2.addBackVisits visits with
          | error e => rw [hb] at h; simp at h
          | ok c3 =>
            rw [hb] at h
            simp only [Prod.mk.injEq, true_and] at h
            obtain ⟨rfl, -⟩ := h
            have hrep : ∀ i n, reports c i n → c2.getVisitFrequency i = (.ok n, c2) ∧ c2.visits = c2.prevVisits ∧ c2.tau.isSome := by
              intro i n hn
              unfold reports at hn
              have hg := getVisitFrequency_sites (c := c) (S := src1.sites.foldl insertIfNew c.sites) (i := i) (n := n)
                (d := (c.getVisitFrequency i).2) (fun k hk => by
                  obtain ⟨s, hs⟩ := IMap.mem_keys_iff_get?.1 (hci.visitsSub k hk)
                  rw [hgrow k s hs, hs]) (Prod.ext hn rfl)
              exact update_reports hgi hup hg
            obtain ⟨-, hve, hts⟩ := hrep j m hj
            obtain ⟨t, ht2⟩ := Option.isSome_iff_exists.1 hts
            obtain ⟨b1, b2, b3, b4⟩ := addBack_reads hb
            have hread : ∀ i, i ∈ c2.siteVisits.keys → FitsInt (roundHalf (c3.siteVisits.at0 i)) →
                c3.getVisitFrequency i = (.ok (roundHalf (c3.siteVisits.at0 i)), c3) := fun i hi hf =>
              getVisitFrequency_of (by rw [b4]; exact hi) (by rw [b3]; exact ht2)
                (flush_of_eq (by rw [b1, b2]; exact hve) t) hf
            have hat := addBack_at0 v1 hb
            constructor
            · intro i n hn
              obtain ⟨g1, -, -⟩ := hrep i n hn
              obtain ⟨g2, ⟨t', -, hf⟩, g3, g4⟩ := getVisitFrequency_ok g1
              have hno : visits.get? i = none := by
                by_contra hne
                have hisrc : i ∈ src.sites.keys := by
                  rcases (v2 i).1 hne with h | h
                  · exact h
                  · exact absurd rfl h
                have hic : i ∈ c.sites.keys := by
                  unfold reports at hn
                  obtain ⟨g, -, -, -⟩ := getVisitFrequency_ok (c' := (c.getVisitFrequency i).2) (Prod.ext hn rfl)
                  exact hci.visitsSub i g
                exact Finset.disjoint_left.1 hd (List.mem_toFinset.2 hic) (List.mem_toFinset.2 hisrc)
              have e : c3.siteVisits.at0 i = c2.siteVisits.at0 i := by rw [hat, hno]
              unfold reports
              rw [hread i g2 (by rw [e, ← g3]; exact g4), e, ← g3]
            · intro i n hn
              unfold reports at hn ⊢
              have hn' : src.getVisitFrequency i = (.ok n, (src.getVisitFrequency i).2) := Prod.ext hn rfl
              obtain ⟨g1, -, -, g4⟩ := getVisitFrequency_ok hn'
              have hisrc := hsi.visitsSub i g1
              have hv := v4 i hisrc n _ hn'
              have e : c3.siteVisits.at0 i = (n : K) := by rw [hat, hv]
              have hi2 : i ∈ c2.siteVisits.keys := by
                obtain ⟨freqs, c1, -, hvo, hr⟩ := update_ok hup
                rw [hr.siteVisits_keys, hvo.sites]
                exact (insertAll_keys _ _ _).2 (Or.inr (by rw [k1]; exact hisrc))
              rw [hread i hi2 (by rw [e, roundHalf_intCast]; exact g4), e, roundHalf_intCast]

/-- After an update all sites have visit counts. -/
theorem update_visitKeys (h : c.update env mem = (.ok (), c')) (i : Int) : i ∈ c'.siteVisits.keys ↔ i ∈ c'.sites.keys := by
  obtain ⟨freqs, c1, -, -, hr⟩ := update_ok h
  rw [hr.siteVisits_keys, hr.sites]

/-- After an update all visits are accounted for, if there were visit counts before. -/
theorem update_flushed (hi : CInv c) (h : c.update env mem = (.ok (), c')) (hne : c.siteVisits.keys ≠ []) :
    c'.visits = c'.prevVisits ∧ ∃ j m, reports c' j m := by
  obtain ⟨freqs, c1, h1, hv, hr⟩ := update_ok h
  obtain ⟨-, hk, hfl, -, hsp⟩ := visitFreqs_spec hi.visits h1
  refine ⟨by rw [hr.visits, hr.prevVisits]; exact hfl hne, ?_⟩
  obtain ⟨j, l, e⟩ := List.exists_cons_of_ne_nil hne
  have hj : j ∈ c.siteVisits.keys := by rw [e]; exact List.mem_cons_self ..
  obtain ⟨m, hm⟩ := IMap.mem_keys_iff_get?.1 ((hk j).2 hj)
  have := (hsp j m).1 hm
  refine ⟨j, m, ?_⟩
  unfold reports
  rw [(update_reports hi h this).1]

/-- An update gives new sites no visits. -/
theorem update_fresh (hi : CInv c) (h : c.update env mem = (.ok (), c')) (hv : c'.visits = c'.prevVisits) {i : Int}
    {t : K} (ht : c'.tau = some t) (hi' : i ∈ c'.sites.keys) (hn : i ∉ c.siteVisits.keys) : reports c' i 0 := by
  obtain ⟨freqs, c1, h1, -, hr⟩ := update_ok h
  obtain ⟨-, hk, -, -, -⟩ := visitFreqs_spec hi.visits h1
  have hf : freqs.get? i = none := by
    by_contra hne
    obtain ⟨m, hm⟩ := Option.ne_none_iff_exists'.1 hne
    exact hn ((hk i).1 (IMap.mem_keys_iff_get?.2 ⟨m, hm⟩))
  have hi1 : i ∈ c1.sites.keys := by rw [← hr.sites]; exact hi'
  have hval : c'.siteVisits.at0 i = ((0 : Int) : K) := by
    unfold IMap.at0
    rw [hr.siteVisits, get?_foldl_set_list, if_pos hi1]
    simp [restored, hf]
  have := getVisitFrequency_of (c := c') (c' := c') (id := i) ((hr.siteVisits_keys i).2 hi1) ht (flush_of_eq hv t)
    (by rw [hval, roundHalf_intCast]; decide)
  unfold reports
  rw [this, hval, roundHalf_intCast]

theorem addBack_sites {l : List (Int × Int)} (h : c.addBackVisits l = .ok c') : c'.sites = c.sites := by
  induction l generalizing c with
  | nil => cases h; rfl
  | cons x l ih =>
    obtain ⟨j, m⟩ := x
    unfold addBackVisits at h
    rw [bind_eq_ok] at h
    obtain ⟨d, h1, h2⟩ := h
    obtain ⟨rfl, hk, -⟩ := setVisitFrequency_ok h1
    have := ih h2
    exact this

/-- After a merge all sites have visit counts. -/
theorem migrate_visitKeys (h : c.migrateSitesFrom env mem src = (.ok (), c', src')) (i : Int) :
    i ∈ c'.siteVisits.keys ↔ i ∈ c'.sites.keys := by
  unfold migrateSitesFrom at h
  split at h
  · simp at h
  · next visits src1 hm =>
    simp only at h
    split at h
    · simp at h
    · next u c2 hup =>
      split at h
      · simp at h
      · next c3 hb =>
        simp only [Prod.mk.injEq, true_and] at h
        obtain ⟨rfl, -⟩ := h
        obtain ⟨-, -, -, b4⟩ := addBack_reads hb
        have hsites : c3.sites = c2.sites := addBack_sites hb
        rw [b4, hsites]
        exact update_visitKeys hup i

end Mythical.Cluster
