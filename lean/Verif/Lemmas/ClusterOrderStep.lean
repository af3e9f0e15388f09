import Verif.Lemmas.ClusterOrderCalls

/-! # Every public call on clusters that differ in the order of their maps -/

set_option linter.unusedSectionVars false
set_option linter.unusedVariables false

namespace Mythical
open Cluster OrderSpec
variable {K : Type} [Field K] [LinearOrder K] [IsStrictOrderedRing K] [FloorRing K]
variable {P I N : List (Int × K) → List (Int × K) → Prop}

namespace OrderSpec.Same
variable {c c' c'' : Cluster K} {env env' : Env K} {mem : Addr → K}

/-! ## Merging -/

/-- cluster.cpp 146: give a site of the source the new cluster id. -/
def mark (tid : Int) (c : Cluster K) (i : Int) : Cluster K :=
  { c with sites := c.sites.set i { c.siteAt i with clusterId := tid } }

theorem mark_same (h : Same P I N c c') (tid i : Int) : Same P I N (mark tid c i) (mark tid c' i) := by
  unfold mark
  rw [h.siteAt]
  exact { h with sites := h.sites.set _ _ }

theorem mark_keys (tid i j : Int) (h : i ∈ c.sites.keys) : j ∈ (mark tid c i).sites.keys ↔ j ∈ c.sites.keys := by
  show j ∈ IMap.keys (IMap.set _ _ _) ↔ _
  rw [IMap.keys_set_of_mem h]

theorem mark_siteAt_tau (tid i j : Int) : ((mark tid c i).siteAt j).tau = (c.siteAt j).tau := by
  unfold mark Cluster.siteAt
  dsimp only
  rw [IMap.get?_set]
  split
  · next e => subst e; rfl
  · rfl

theorem mark_visitShare (tid i : Int) (h : i ∈ c.sites.keys) (t d : K) (j : Int) :
    (mark tid c i).visitShare t d j = c.visitShare t d j := by
  obtain ⟨s, hs⟩ := IMap.mem_keys_iff_get?.1 h
  unfold Cluster.visitShare mark Cluster.siteAt
  dsimp only
  by_cases e : i = j
  · subst e
    rw [IMap.get?_set_self, hs]
    cases c.internalDwell.get? i <;> rfl
  · rw [IMap.get?_set_ne _ _ e]

theorem mark_flushLoop (tid i : Int) (h : i ∈ c.sites.keys) (t d : K) (l : List Int) :
    (mark tid c i).flushLoop t d l = ((c.flushLoop t d l).1, mark tid (c.flushLoop t d l).2 i) := by
  induction l generalizing c with
  | nil => rfl
  | cons j l ih =>
    unfold Cluster.flushLoop
    rw [mark_visitShare tid i h]
    cases c.visitShare t d j with
    | error e => rfl
    | ok v => exact ih (c := { c with siteVisits := c.siteVisits.set j (c.siteVisits.at0 j + v) }) h

theorem mark_flush (tid i : Int) (h : i ∈ c.sites.keys) (t : K) :
    (mark tid c i).flush t = ((c.flush t).1, mark tid (c.flush t).2 i) := by
  unfold Cluster.flush
  show (if c.visits = c.prevVisits then _ else match chk (c.visits - c.prevVisits) with
    | .error e => _
    | .ok d => _) = _
  split
  · rfl
  · cases chk (c.visits - c.prevVisits) with
    | error e => rfl
    | ok d =>
      show (match (mark tid c i).flushLoop t (d : K) c.siteVisits.keys with
        | (.ok _, c') => _
        | r => r) = _
      rw [mark_flushLoop tid i h]
      dsimp only
      rcases c.flushLoop t (d : K) c.siteVisits.keys with ⟨(e | u), c1⟩
      · rfl
      · rfl

theorem mark_getVisitFrequency (tid i : Int) (h : i ∈ c.sites.keys) (j : Int) :
    (mark tid c i).getVisitFrequency j = ((c.getVisitFrequency j).1, mark tid (c.getVisitFrequency j).2 i) := by
  unfold Cluster.getVisitFrequency
  show (if c.siteVisits.has j then match c.tau with
    | none => _
    | some t => _
    else _) = _
  split
  · cases c.tau with
    | none => rfl
    | some t =>
      dsimp only
      rw [mark_flush tid i h]
      rcases c.flush t with ⟨(e | u), c1⟩
      · rfl
      · dsimp only
        show (if FitsInt (roundHalf (c1.siteVisits.at0 j)) then _ else _) = _
        split <;> rfl
  · rfl

/-- One round of the loop of `migrateSitesFrom`. -/
def migStep (tid : Int) (a : IMap Int × Cluster K) (i : Int) : Except Fault (IMap Int × Cluster K) :=
  freqStep (a.1, mark tid a.2 i) i

theorem migrateLoop_eq (tid : Int) (c : Cluster K) (acc : IMap Int) (l : List Int) :
    both (migrateLoop tid c acc l) = l.foldlM (migStep tid) (acc, c) := by
  induction l generalizing c acc with
  | nil => rfl
  | cons i l ih =>
    unfold Cluster.migrateLoop
    rw [List.foldlM_cons]
    unfold migStep freqStep
    show both (match (mark tid c i).getVisitFrequency i with
      | (.error e, src) => _
      | (.ok n, src) => _) = (both ((mark tid c i).getVisitFrequency i) >>= _) >>= _
    rcases (mark tid c i).getVisitFrequency i with ⟨(e | n), c1⟩
    · rfl
    · exact ih _ _

theorem migStep_same {a b : IMap Int × Cluster K} (h : Carry P I N a b) (tid i : Int) :
    Follows (Carry P I N) (migStep tid a i) (migStep tid b i) :=
  freqStep_same (a := (a.1, mark tid a.2 i)) (b := (b.1, mark tid b.2 i)) ⟨h.1, h.2.mark_same tid i⟩ i

/-- `Carry` for a cluster that has all the sites in `L`. -/
def CarryAll (L : List Int) (a b : IMap Int × Cluster K) : Prop := Carry Eq Eq Eq a b ∧ ∀ i ∈ L, i ∈ a.2.sites.keys

theorem getVisitFrequency_sites {i n : Int} {c1 : Cluster K} (h : c.getVisitFrequency i = (.ok n, c1)) :
    c1.sites = c.sites := by
  have := getVisitFrequency_visitsOnly (c := c) i
  rw [h] at this
  obtain ⟨⟨v, p, e⟩, -⟩ := this
  rw [show c1 = _ from e]

theorem migStep_all {L : List Int} {a b : IMap Int × Cluster K} (h : CarryAll L a b) (tid i : Int) :
    Follows (CarryAll L) (migStep tid a i) (migStep tid b i) := by
  intro r hr
  obtain ⟨r', hr', hs⟩ := migStep_same h.1 tid i r hr
  refine ⟨r', hr', hs, fun j hj => ?_⟩
  obtain ⟨⟨n, c1⟩, h1, h2⟩ := bind_eq_ok.1 hr
  cases h2
  have e := getVisitFrequency_sites (both_eq.1 h1)
  show j ∈ c1.sites.keys
  dsimp only at e
  rw [e]
  show j ∈ IMap.keys (IMap.set _ _ _)
  rw [IMap.mem_keys_set]
  exact .inr (h.2 j hj)

theorem migStep_comm {L : List Int} {a : IMap Int × Cluster K} (h : CarryAll L a a) (tid i j : Int) (hi : i ∈ L) (hj : j ∈ L) :
    Follows (CarryAll L) (migStep tid a i >>= fun a => migStep tid a j) (migStep tid a j >>= fun a => migStep tid a i) := by
  by_cases hij : i = j
  · subst hij
    exact (migStep_all h tid i).bind fun _ _ g => migStep_all g tid i
  · intro r hr
    have hself : CarryAll L r r := by
      obtain ⟨r', hr', hs⟩ := (migStep_all h tid i).bind (fun _ _ g => migStep_all g tid j) r hr
      rw [hr] at hr'
      cases hr'
      exact hs
    obtain ⟨acc, c⟩ := a
    have ki : i ∈ c.sites.keys := h.2 i hi
    have kj : j ∈ c.sites.keys := h.2 j hj
    obtain ⟨a1, h1, hr2⟩ := bind_eq_ok.1 hr
    obtain ⟨⟨n, d1⟩, h2, h3⟩ := bind_eq_ok.1 h1
    cases h3
    obtain ⟨⟨m, d2⟩, h4, h5⟩ := bind_eq_ok.1 hr2
    cases h5
    clear h1 hr2 hr
    have h2 := both_eq.1 h2
    have h4 := both_eq.1 h4
    dsimp only at h2 h4
    rw [mark_getVisitFrequency tid i ki] at h2
    rcases hg : c.getVisitFrequency i with ⟨x, c1⟩
    rw [hg] at h2
    cases h2
    have e1 := getVisitFrequency_sites hg
    have ki1 : i ∈ c1.sites.keys := e1 ▸ ki
    have kj1 : j ∈ c1.sites.keys := e1 ▸ kj
    rw [mark_getVisitFrequency tid j ((mark_keys tid i j ki1).2 kj1), mark_getVisitFrequency tid i ki1] at h4
    rcases hg2 : c1.getVisitFrequency j with ⟨y, c2⟩
    rw [hg2] at h4
    cases h4
    obtain ⟨rfl, g1, g2⟩ := getVisitFrequency_two hg hg2
    refine ⟨((acc.set j m).set i n, mark tid (mark tid c2 j) i), ?_, ⟨?_, ?_⟩, hself.2⟩
    · unfold migStep freqStep
      dsimp only
      rw [mark_getVisitFrequency tid j kj, g1]
      show (both ((mark tid (mark tid c2 j) i).getVisitFrequency i) >>= _) = _
      rw [mark_getVisitFrequency tid i ((mark_keys tid j i kj1).2 ki1), mark_getVisitFrequency tid j kj1, g2]
      rfl
    · exact SameMap.set_comm h.1.1.wf _ _ fun e => absurd e hij
    · have h2 := hself.1.2
      refine { h2 with sites := ?_ }
      show SameMap (mark tid (mark tid c2 i) j).sites (mark tid (mark tid c2 j) i).sites
      have f : ∀ (i j : Int), i ≠ j → (mark tid c2 i).siteAt j = c2.siteAt j := by
        intro i j hij
        unfold mark Cluster.siteAt
        dsimp only
        rw [IMap.get?_set_ne _ _ hij]
      unfold mark
      dsimp only
      have f1 := f i j hij
      have f2 := f j i (Ne.symm hij)
      unfold mark at f1 f2
      rw [f1, f2]
      exact SameMap.set_comm (e1 ▸ h.1.2.sites.wf) _ _ fun e => absurd e hij

theorem migrateLoop (h : Same P I N c c') (tid : Int) :
    Follows (Carry P I N) (both (Cluster.migrateLoop tid c [] c.sites.keys))
      (both (Cluster.migrateLoop tid c' [] c'.sites.keys)) := by
  rw [migrateLoop_eq, migrateLoop_eq]
  have hR : ∀ (b : IMap Int × Cluster K) (b' : IMap Int × Cluster K) (x : Int),
      (Carry P I N b b' ∧ ∀ i ∈ c.sites.keys, i ∈ b.2.sites.keys) →
      Follows (fun b b' => Carry P I N b b' ∧ ∀ i ∈ c.sites.keys, i ∈ b.2.sites.keys) (migStep tid b x) (migStep tid b' x) := by
    intro b b' x hb r hr
    obtain ⟨r', hr', hs⟩ := migStep_same hb.1 tid x r hr
    obtain ⟨_, _, hs2⟩ := migStep_all (L := c.sites.keys) (a := b) (b := b) ⟨⟨.refl hb.1.1.wf, hb.1.2.refl_left⟩, hb.2⟩ tid x r hr
    exact ⟨r', hr', hs, hs2.2⟩
  intro r hr
  obtain ⟨r', hr', hs⟩ := foldlM_perm' (E := CarryAll c.sites.keys)
    (R := fun b b' => Carry P I N b b' ∧ ∀ i ∈ c.sites.keys, i ∈ b.2.sites.keys)
    (fun a b h => ⟨⟨h.1.1.symm, h.1.2.symm⟩, fun i hi => h.1.2.sites.keys.mem_iff.1 (h.2 i hi)⟩)
    (fun _ _ _ h g => ⟨⟨h.1.1.trans g.1.1, h.1.2.mix g.1.2⟩, h.2⟩)
    (fun _ _ _ h g => ⟨⟨h.1.1.trans g.1.1, h.1.2.mix g.1.2⟩, h.2⟩)
    (fun _ _ h => ⟨⟨.refl h.1.1.wf, h.1.2.refl_left⟩, h.2⟩) (Q := fun x y => x ∈ c.sites.keys ∧ y ∈ c.sites.keys)
    (fun _ _ x h => migStep_all h tid x) hR
    (fun b x y h q => migStep_comm h tid x y q.1 q.2) h.sites.keys (fun x hx y hy => ⟨hx, hy⟩) ([], c) ([], c')
    ⟨⟨.nil, h⟩, fun i hi => hi⟩ r hr
  exact ⟨r', hr', hs.1⟩

theorem insertIfNew_wf {m : IMap (Site K)} (h : m.WF) (l : List (Int × Site K)) : (l.foldl insertIfNew m).WF := by
  induction l generalizing m with
  | nil => exact h
  | cons x l ih =>
    rw [List.foldl_cons]
    refine ih ?_
    unfold insertIfNew
    split
    · exact h
    · exact h.set _ _

theorem insertIfNew_get? {l : IMap (Site K)} (hl : l.WF) (m : IMap (Site K)) (k : Int) :
    IMap.get? (l.foldl insertIfNew m) k = (m.get? k).or (l.get? k) := by
  induction l generalizing m with
  | nil => simp
  | cons x l ih =>
    obtain ⟨j, s⟩ := x
    rw [IMap.wf_cons] at hl
    rw [List.foldl_cons, ih hl.2, IMap.get?_cons]
    unfold insertIfNew
    dsimp only
    split
    · next hh =>
      split
      · next e =>
        subst e
        rw [IMap.has, Option.isSome_iff_exists] at hh
        obtain ⟨v, hv⟩ := hh
        rw [hv]; rfl
      · rfl
    · next hh =>
      rw [IMap.get?_set]
      split
      · next e =>
        subst e
        have : m.get? j = none := by
          rw [IMap.has] at hh
          exact Option.not_isSome_iff_eq_none.1 hh
        rw [this]; rfl
      · rfl

theorem insertSites {m m' l l' : IMap (Site K)} (h : SameMap m m') (hl : SameMap l l') :
    SameMap (l.foldl insertIfNew m) (l'.foldl insertIfNew m') :=
  SameMap.of_get? (insertIfNew_wf h.wf _) (insertIfNew_wf h.wf' _) fun k => by
    rw [insertIfNew_get? hl.wf, insertIfNew_get? hl.wf', h.get?, hl.get?]

/-- Taking in the sites of another cluster: the result for the taker. -/
theorem migrateSitesFrom {P' I' N' : List (Int × K) → List (Int × K) → Prop} {src src' : Cluster K}
    (hT : TableRel env env' P I N) (h : Same P I N c c') (hs : Same P' I' N' src src') :
    Follows (fun a b => Same P I N a.2.1 b.2.1) (both (c.migrateSitesFrom env mem src))
      (both (c'.migrateSitesFrom env' mem src')) := by
  intro r hr
  have key := hs.migrateLoop c.id
  unfold Cluster.migrateSitesFrom at hr ⊢
  rw [h.id]
  revert hr key
  generalize Cluster.migrateLoop c.id src [] src.sites.keys = x
  generalize Cluster.migrateLoop c.id src' [] src'.sites.keys = y
  obtain ⟨x, c1⟩ := x
  obtain ⟨y, c1'⟩ := y
  intro hr key
  cases x with
  | error e => cases hr
  | ok a =>
    obtain ⟨b, hb, hc⟩ := key _ rfl
    obtain ⟨b, c2⟩ := b
    have := both_eq.1 hb
    cases this
    dsimp only at hr ⊢
    have hin : Same P I N { c with sites := c1.sites.foldl insertIfNew c.sites }
        { c' with sites := c2.sites.foldl insertIfNew c'.sites, id := c.id } :=
      { h with id := rfl, sites := insertSites h.sites hc.2.sites }
    have hu := hin.update (mem := mem) hT
    revert hr hu
    generalize Cluster.update env mem { c with sites := c1.sites.foldl insertIfNew c.sites } = x
    generalize Cluster.update env' mem { c' with sites := c2.sites.foldl insertIfNew c'.sites, id := c.id } = y
    obtain ⟨x, d⟩ := x
    obtain ⟨y, d'⟩ := y
    intro hr hu
    cases x with
    | error e => cases hr
    | ok u =>
      obtain ⟨⟨u', d''⟩, hb2, hd⟩ := hu _ rfl
      have := both_eq.1 hb2
      cases this
      dsimp only at hr ⊢
      cases hadd : d.addBackVisits a with
      | error e => rw [hadd] at hr; cases hr
      | ok d1 =>
        rw [hadd] at hr
        cases hr
        obtain ⟨d1', h1, g⟩ := Same.addBackVisits hd hc.1 d1 hadd
        exact ⟨((), d1', c2.emptied), by rw [h1]; rfl, g⟩

/-! ## The other calls -/

theorem addSite (h : Same P I N c c') (s : Site K) : Follows (Same P I N) (c.addSite s) (c'.addSite s) := by
  unfold Cluster.addSite
  rw [h.sites.has, h.id]
  split
  · exact .error
  · exact .ok { h with id := rfl, sites := h.sites.set _ _ }

theorem addSites (h : Same P I N c c') (l : List (Site K)) : Follows (Same P I N) (c.addSites l) (c'.addSites l) := by
  induction l generalizing c c' with
  | nil => exact .ok h
  | cons s l ih => exact (h.addSite s).bind fun _ _ g => ih g

theorem occupySite (h : Same P I N c c') (i : Int) : Follows (Same P I N) (c.occupySite i) (c'.occupySite i) := by
  unfold Cluster.occupySite
  rw [h.siteVisits.has, h.visits, h.siteAt]
  split
  · refine Follows.bind (R := Eq) (.of_eq fun _ _ => rfl) ?_
    rintro v _ rfl
    exact .ok { h with visits := rfl, sites := h.sites.set _ _ }
  · exact .error

theorem vacateSite (h : Same P I N c c') (i : Int) : Follows (Same P I N) (c.vacateSite i) (c'.vacateSite i) := by
  unfold Cluster.vacateSite
  rw [h.siteAt, h.occupied]
  refine Follows.bind (R := Eq) (.of_eq fun _ _ => rfl) ?_
  rintro s _ rfl
  refine Follows.bind (R := Eq) (.of_eq fun _ _ => rfl) ?_
  rintro o _ rfl
  exact .ok { h with occupied := rfl, sites := h.sites.set _ _ }

theorem occupy (h : Same P I N c c') : Follows (Same P I N) c.occupy c'.occupy := by
  unfold Cluster.occupy
  rw [h.occupied, h.visits]
  refine Follows.bind (R := Eq) (.of_eq fun _ _ => rfl) ?_
  rintro s _ rfl
  refine Follows.bind (R := Eq) (.of_eq fun _ _ => rfl) ?_
  rintro o _ rfl
  exact .ok { h with occupied := rfl, visits := rfl }

theorem vacate (h : Same P I N c c') : Follows (Same P I N) c.vacate c'.vacate := by
  unfold Cluster.vacate
  rw [h.occupied]
  refine Follows.bind (R := Eq) (.of_eq fun _ _ => rfl) ?_
  rintro s _ rfl
  exact .ok { h with occupied := rfl }

theorem getDwellTime (h : Same P I N c c') (w : Int) (e : K) :
    Follows (fun a b => b.1 = a.1 ∧ Same P I N a.2 b.2) (c.getDwellTime w e) (c'.getDwellTime w e) := by
  unfold Cluster.getDwellTime
  simp only [h.tau, h.timeInc, h.remaining.get?]
  split
  · exact .error
  · exact .error
  · split
    · exact .ok ⟨rfl, { h with tau := rfl, timeInc := rfl, remaining := h.remaining.set _ _ }⟩
    · split
      · exact .ok ⟨rfl, { h with tau := rfl, timeInc := rfl, remaining := h.remaining.set _ _ }⟩
      · exact .error

/-- The site that a pick returns comes from one of the two tables, the same one in both clusters. -/
theorem pickNewSiteId (h : Same P I N c c') (w : Int) (u : K) :
    Follows (fun a b => Same P I N a.2 b.2 ∧ ((a.1 = pickCum u c.cumInternal ∧ b.1 = pickCum u c'.cumInternal) ∨
      (a.1 = pickCum u c.cumNeigh ∧ b.1 = pickCum u c'.cumNeigh))) (c.pickNewSiteId w u) (c'.pickNewSiteId w u) := by
  unfold Cluster.pickNewSiteId
  rw [h.remaining.get?]
  split
  · exact .error
  · split
    · exact .ok ⟨h, .inl ⟨rfl, rfl⟩⟩
    · exact .ok ⟨{ h with remaining := h.remaining.erase _ }, .inr ⟨rfl, rfl⟩⟩

theorem setResolution (h : Same P I N c c') (r : K) : Follows (Same P I N) (c.setResolution r) (c'.setResolution r) := by
  unfold Cluster.setResolution
  rw [h.tau]
  split
  · exact .ok { h with resolution := rfl, timeInc := rfl, tau := rfl }
  · exact .error

theorem setConvergenceTolerance (h : Same P I N c c') (r : K) :
    Follows (Same P I N) (c.setConvergenceTolerance r) (c'.setConvergenceTolerance r) := by
  unfold Cluster.setConvergenceTolerance
  split
  · exact .ok { h with tol := rfl }
  · exact .error

theorem setConvergenceIterations (h : Same P I N c c') (n : Int) :
    Follows (Same P I N) (c.setConvergenceIterations n) (c'.setConvergenceIterations n) := by
  unfold Cluster.setConvergenceIterations
  split
  · exact .ok { h with iterations := rfl }
  · exact .error

theorem simple (x : Except Fault (Cluster K)) (x' : Except Fault (Cluster K)) (h : Follows (Same P I N) x x')
    {r : Out K} {c1 : Cluster K} (hr : c.simple x = (.ok r, c1)) :
    ∃ r' c1', c'.simple x' = (.ok r', c1') ∧ Same P I N c1 c1' ∧ r' = r := by
  cases x with
  | error e => cases hr
  | ok d =>
    cases hr
    obtain ⟨d', h1, h2⟩ := h _ rfl
    rw [h1]
    exact ⟨_, _, rfl, h2, rfl⟩

/-- What two results of the same call have to do with each other. -/
def SameOut (c c' : Cluster K) (op : Op K) (r r' : Out K) : Prop :=
  (¬ IsPick op → r' = r) ∧
  ∀ w u, op = .pickNewSiteId w u →
    (r = .num (pickCum u c.cumInternal) ∧ r' = .num (pickCum u c'.cumInternal)) ∨
    (r = .num (pickCum u c.cumNeigh) ∧ r' = .num (pickCum u c'.cumNeigh))

/-- Every public call. -/
theorem step {R : Cluster K → Cluster K → Prop} (hR : ∀ s s', R s s' → ∃ P' I' N', Same P' I' N' s s')
    (hT : TableRel env env' P I N) (h : Same P I N c c') {op op' : Op K} (hop : SameCall R op op')
    {r : Out K} {c1 : Cluster K} (hr : c.step env mem op = (.ok r, c1)) :
    ∃ r' c1', c'.step env' mem op' = (.ok r', c1') ∧ Same P I N c1 c1' ∧ SameOut c c' op r r' := by
  cases hop with
  | migrate hsrc =>
    obtain ⟨P', I', N', hs⟩ := hR _ _ hsrc
    rename_i src src'
    have key := h.migrateSitesFrom (mem := mem) hT hs
    unfold Cluster.step at hr ⊢
    dsimp only at hr ⊢
    revert hr key
    generalize c.migrateSitesFrom env mem src = x
    generalize c'.migrateSitesFrom env' mem src' = y
    rintro hr key
    rcases x with ⟨(e | u), d, s⟩
    · cases hr
    · cases hr
      obtain ⟨⟨u', d', s'⟩, h1, h2⟩ := key _ rfl
      have := both_eq.1 h1
      subst this
      exact ⟨_, _, rfl, h2, fun _ => rfl, fun _ _ e => (nomatch e)⟩
  | same _ hne =>
    have nop : ∀ {r r' : Out K}, (∀ w u, op ≠ .pickNewSiteId w u) → r' = r → SameOut c c' op r r' :=
      fun hn e => ⟨fun _ => e, fun w u e' => absurd e' (hn w u)⟩
    have fin : ∀ {x x' : Except Fault (Cluster K)}, Follows (Same P I N) x x' → (∀ w u, op ≠ .pickNewSiteId w u) →
        c.simple x = (.ok r, c1) →
        ∃ r' c1', c'.simple x' = (.ok r', c1') ∧ Same P I N c1 c1' ∧ SameOut c c' op r r' := by
      intro x x' hf hn hr
      obtain ⟨r', c1', h1, h2, h3⟩ := simple (c' := c') x x' hf hr
      exact ⟨r', c1', h1, h2, nop hn h3⟩
    cases op with
    | addSite s => exact fin (h.addSite s) (fun _ _ e => nomatch e) hr
    | addSites l => exact fin (h.addSites l) (fun _ _ e => nomatch e) hr
    | update =>
      have key := h.update (mem := mem) hT
      unfold Cluster.step at hr ⊢
      dsimp only at hr ⊢
      revert hr key
      generalize c.update env mem = x
      generalize c'.update env' mem = y
      rintro hr key
      rcases x with ⟨(e | u), d⟩
      · cases hr
      · cases hr
        obtain ⟨⟨u', d'⟩, h1, h2⟩ := key _ rfl
        have := both_eq.1 h1
        subst this
        exact ⟨_, _, rfl, h2, nop (fun _ _ e => nomatch e) rfl⟩
    | migrateSitesFrom src => exact absurd rfl (hne src)
    | occupySite i => exact fin (h.occupySite i) (fun _ _ e => nomatch e) hr
    | vacateSite i => exact fin (h.vacateSite i) (fun _ _ e => nomatch e) hr
    | occupy => exact fin h.occupy (fun _ _ e => nomatch e) hr
    | vacate => exact fin h.vacate (fun _ _ e => nomatch e) hr
    | removeWalker w i => exact fin (h.vacateSite i) (fun _ _ e => nomatch e) hr
    | getDwellTime w e =>
      have key := h.getDwellTime w e
      unfold Cluster.step at hr ⊢
      dsimp only at hr ⊢
      revert hr key
      generalize c.getDwellTime w e = x
      generalize c'.getDwellTime w e = y
      rintro hr key
      rcases x with (f | ⟨t, d⟩)
      · cases hr
      · cases hr
        obtain ⟨⟨t', d'⟩, rfl, h2, h3⟩ := key _ rfl
        dsimp only at h2
        subst h2
        exact ⟨_, _, rfl, h3, nop (fun _ _ e => nomatch e) rfl⟩
    | pickNewSiteId w u =>
      have key := h.pickNewSiteId w u
      unfold Cluster.step at hr ⊢
      dsimp only at hr ⊢
      revert hr key
      generalize c.pickNewSiteId w u = x
      generalize c'.pickNewSiteId w u = y
      rintro hr key
      rcases x with (f | ⟨t, d⟩)
      · cases hr
      · cases hr
        obtain ⟨⟨t', d'⟩, rfl, h2, h3⟩ := key _ rfl
        refine ⟨_, _, rfl, h2, fun hn => absurd trivial hn, ?_⟩
        rintro w' u' e
        cases e
        rcases h3 with ⟨e1, e2⟩ | ⟨e1, e2⟩
        · dsimp only at e1 e2
          subst e1 e2
          exact .inl ⟨rfl, rfl⟩
        · dsimp only at e1 e2
          subst e1 e2
          exact .inr ⟨rfl, rfl⟩
    | getVisitFrequency i =>
      have key := h.getVisitFrequency i
      unfold Cluster.step at hr ⊢
      dsimp only at hr ⊢
      revert hr key
      generalize c.getVisitFrequency i = x
      generalize c'.getVisitFrequency i = y
      rintro hr key
      rcases x with ⟨(f | n), d⟩
      · cases hr
      · cases hr
        obtain ⟨⟨n', d'⟩, h1, h2, h3⟩ := key _ rfl
        have := both_eq.1 h1
        subst this
        dsimp only at h2
        subst h2
        exact ⟨_, _, rfl, h3, nop (fun _ _ e => nomatch e) rfl⟩
    | setVisitFrequency n i => exact fin (h.setVisitFrequency n i) (fun _ _ e => nomatch e) hr
    | setResolution r => exact fin (h.setResolution r) (fun _ _ e => nomatch e) hr
    | setConvergenceMethod m =>
      cases hr
      exact ⟨_, _, rfl, { h with method := rfl }, nop (fun _ _ e => nomatch e) rfl⟩
    | setConvergenceTolerance t => exact fin (h.setConvergenceTolerance t) (fun _ _ e => nomatch e) hr
    | setConvergenceIterations n => exact fin (h.setConvergenceIterations n) (fun _ _ e => nomatch e) hr
    | setRandomSeed n =>
      cases hr
      exact ⟨_, _, rfl, { h with seed := rfl }, nop (fun _ _ e => nomatch e) rfl⟩

end OrderSpec.Same
end Mythical
