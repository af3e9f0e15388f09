import Verif.Lemmas.SystemSeeds

/-! # Visit counts of a system without clusters -/

set_option linter.unusedSectionVars false
set_option linter.unusedVariables false

namespace Mythical.World
open Mythical SystemSpec
variable {K : Type} [Field K] [LinearOrder K] [IsStrictOrderedRing K] [FloorRing K]
variable {w w' w1 w2 : World K} {env : Env K} {mem : Addr → K}

/-- Sum of the visit counts of the sites. -/
def totalVisits (w : World K) : Int := (w.sites.map fun p => p.2.visits).sum

theorem sum_set_visits {S : IMap (Site K)} {i : Int} {s s' : Site K} (h : S.get? i = some s) :
    ((IMap.set S i s').map fun p => p.2.visits).sum = (S.map fun p => p.2.visits).sum + (s'.visits - s.visits) := by
  induction S with
  | nil => cases h
  | cons a S ih =>
    obtain ⟨k, t⟩ := a
    rw [IMap.get?_cons] at h
    unfold IMap.set
    split at h
    · next e =>
      cases h
      rw [if_pos e]
      simp only [List.map_cons, List.sum_cons]
      omega
    · next e =>
      rw [if_neg e]
      simp only [List.map_cons, List.sum_cons]
      have := ih h
      omega

theorem sum_set_new {S : IMap (Site K)} {i : Int} {s : Site K} (h : S.get? i = none) :
    ((IMap.set S i s).map fun p => p.2.visits).sum = (S.map fun p => p.2.visits).sum + s.visits := by
  rw [IMap.set_of_not_mem (IMap.get?_eq_none_iff.1 h)]
  simp

/-- No cluster exists. -/
def NoClusters (w : World K) : Prop := ∀ c, w.clusters.get? c = none

theorem SiteCall.total {i : Int} {f : Site K → Except Fault (Site K)} (h : SiteCall w w' i f) {d : Int}
    (hf : ∀ s s', f s = .ok s' → s'.visits = s.visits + d) : totalVisits w' = totalVisits w + d ∧ w'.clusters = w.clusters := by
  obtain ⟨s, s', h1, h2, rfl⟩ := h
  refine ⟨?_, rfl⟩
  unfold totalVisits
  rw [show (({ w with sites := w.sites.put i s' } : World K).sites.map fun p => p.2.visits).sum = _ from
    sum_set_visits (s' := s') h1, hf s s' h2]
  omega

theorem vacate_visits (s s' : Site K) (h : s.vacate = .ok s') : s'.visits = s.visits + 0 := by
  unfold Site.vacate at h
  obtain ⟨o, -, h⟩ := bind_eq_ok.1 h
  cases h; simp

theorem occupy_visits (s s' : Site K) (h : s.occupy = .ok s') : s'.visits = s.visits + 1 := by
  unfold Site.occupy at h
  obtain ⟨o, -, h⟩ := bind_eq_ok.1 h
  obtain ⟨v, hv, h⟩ := bind_eq_ok.1 h
  cases h
  exact (chk_eq_ok.1 hv).1

theorem ClusterCall.absurd {c : Int} {f : Cluster K → Except Fault (Cluster K)} (hn : NoClusters w) (h : ClusterCall w w' c f) :
    False := by
  obtain ⟨x, x', h1, -⟩ := h
  rw [hn] at h1; cases h1

theorem hopMove_total {wid h j : Int} {a : Choices K} (hn : NoClusters w) (e : w.hopMove wid h a = .ok (j, w')) :
    totalVisits w' = totalVisits w + 1 ∧ NoClusters w' := by
  obtain ⟨x, b, w1, w2, t, w3, n, w4, -, -, -, -, -, h1, h2, h3, h4, rfl⟩ := hopMove_ok e
  obtain ⟨e1, c1⟩ : totalVisits w1 = totalVisits w + 0 ∧ w1.clusters = w.clusters := by
    rcases vacateAt_ok h1 with ⟨id, -, h⟩ | ⟨id, -, h⟩
    · exact h.total vacate_visits
    · exact (h.absurd hn).elim
  have hn1 : NoClusters w1 := fun c => by rw [c1]; exact hn c
  obtain ⟨e2, c2⟩ : totalVisits w2 = totalVisits w1 + 1 ∧ w2.clusters = w1.clusters := by
    rcases occupyAt_ok h2 with ⟨id, -, h⟩ | ⟨id, -, h⟩
    · exact h.total occupy_visits
    · exact (h.absurd hn1).elim
  have hn2 : NoClusters w2 := fun c => by rw [c2]; exact hn1 c
  have e3 : w3 = w2 := by
    rcases dwellAt_ok h3 with ⟨id, s, -, -, -, h⟩ | ⟨id, c, c', -, hc, -⟩
    · exact h
    · rw [hn2] at hc; cases hc
  subst e3
  have e4 : w4 = w3 := by
    rcases pickAt_ok h4 with ⟨id, s, -, -, -, h⟩ | ⟨id, c, c', -, hc, -⟩
    · exact h
    · rw [hn2] at hc; cases hc
  subst e4
  refine ⟨?_, hn2⟩
  show totalVisits w4 = _
  omega

theorem initWalker_total {a : Entry K} (hn : NoClusters w) (e : w.initWalker a = .ok w') :
    totalVisits w' = totalVisits w + 1 ∧ NoClusters w' := by
  obtain ⟨x, w1, t, w2, n, w3, -, -, -, h1, h2, h3, rfl⟩ := initWalker_ok e
  obtain ⟨e1, c1⟩ : totalVisits w1 = totalVisits w + 1 ∧ w1.clusters = w.clusters := by
    rcases occupyFeat_ok h1 with ⟨id, -, h⟩ | ⟨id, -, h⟩
    · exact h.total occupy_visits
    · exact (h.absurd hn).elim
  have hn1 : NoClusters w1 := fun c => by rw [c1]; exact hn c
  have e3 : w2 = w1 := by
    rcases dwellAt_ok h2 with ⟨id, s, -, -, -, h⟩ | ⟨id, c, c', -, hc, -⟩
    · exact h
    · rw [hn1] at hc; cases hc
  subst e3
  have e4 : w3 = w2 := by
    rcases pickAt_ok h3 with ⟨id, s, -, -, -, h⟩ | ⟨id, c, c', -, hc, -⟩
    · exact h
    · rw [hn1] at hc; cases hc
  subst e4
  exact ⟨e1, hn1⟩

theorem initWalkers_total {l : List (Entry K)} {u : Unit} (hn : NoClusters w) (e : w.initWalkers l = (.ok u, w')) :
    totalVisits w' = totalVisits w + l.length ∧ NoClusters w' := by
  induction l generalizing w with
  | nil => unfold initWalkers at e; simp only [Prod.mk.injEq, true_and] at e; subst e; exact ⟨by simp, hn⟩
  | cons a l ih =>
    unfold initWalkers at e
    split at e
    · simp at e
    · next w1 h1 =>
      obtain ⟨e1, n1⟩ := initWalker_total hn h1
      obtain ⟨e2, n2⟩ := ih n1 e
      refine ⟨?_, n2⟩
      simp only [List.length_cons]
      omega

theorem Adds.total {m : IMap (IMap Addr)} (h : Adds mem m w w') : totalVisits w' = totalVisits w := by
  induction h with
  | refl => rfl
  | seed _ ih => exact ih
  | @add w w' t sd hs hsd hnew h ih =>
    rw [ih]
    unfold totalVisits
    rw [show (({ w with seed := sd, sites := IMap.set w.sites t.id t, feats := w.feats.set t.id (.site t.id) } : World K).sites.map
      fun p => p.2.visits).sum = _ from sum_set_new (s := t) hnew, hs.fresh.2.2]
    omega

/-- The calls that leave the sites alone. -/
theorem step_sites {op : Op K} {res : Except Fault Int} (h : w.step env mem op = (res, w')) (h1 : ∀ m, op ≠ .initializeSystem m)
    (h2 : ∀ l, op ≠ .initializeWalkers l) (h3 : ∀ a b c, op ≠ .hop a b c) (h4 : ∀ a b, op ≠ .removeWalker a b) :
    w'.sites = w.sites := by
  cases op with
  | initializeSystem m => exact (h1 _ rfl).elim
  | initializeWalkers l => exact (h2 _ rfl).elim
  | hop _ _ _ => exact (h3 _ _ _ rfl).elim
  | removeWalker _ _ => exact (h4 _ _ rfl).elim
  | walkerOccupy k i =>
    simp only [step, simple] at h
    split at h
    · next w2 e =>
      simp only [Prod.mk.injEq] at h
      unfold walkerOccupy at e
      obtain ⟨x, -, e⟩ := bind_eq_ok.1 e
      cases e
      rw [← h.2]
    · simp only [Prod.mk.injEq] at h
      rw [h.2]
  | walkerSetPotential k i =>
    simp only [step, simple] at h
    split at h
    · next w2 e =>
      simp only [Prod.mk.injEq] at h
      unfold walkerSetPotential at e
      obtain ⟨x, -, e⟩ := bind_eq_ok.1 e
      cases e
      rw [← h.2]
    · simp only [Prod.mk.injEq] at h
      rw [h.2]
  | walkerSetDwell k i =>
    simp only [step, simple] at h
    split at h
    · next w2 e =>
      simp only [Prod.mk.injEq] at h
      unfold walkerSetDwell at e
      obtain ⟨x, -, e⟩ := bind_eq_ok.1 e
      cases e
      rw [← h.2]
    · simp only [Prod.mk.injEq] at h
      rw [h.2]
  | setTimeResolution t =>
    simp only [step, Prod.mk.injEq] at h
    rw [← h.2]; unfold setTimeResolution; split <;> rfl
  | setRandomSeed t =>
    simp only [step, Prod.mk.injEq] at h
    rw [← h.2]; unfold setRandomSeed; split <;> rfl
  | setMinThreshold t => simp only [step, Prod.mk.injEq] at h; rw [← h.2]; rfl
  | setPerformanceRatio t => simp only [step, Prod.mk.injEq] at h; rw [← h.2]; rfl
  | newWalker t => simp only [step, Prod.mk.injEq] at h; rw [← h.2]; rfl
  | getVisitFrequencyOfSite i =>
    simp only [step] at h
    have := congrArg Prod.snd h
    rw [← show _ = w' from this]
    unfold getVisitFrequencyOfSite
    split
    · rfl
    · split
      · split
        · rfl
        · split <;> rfl
      · rfl
  | elsewhere n =>
    simp only [step] at h
    split at h <;> (simp only [Prod.mk.injEq] at h; rw [← h.2])

/-- Once there is a cluster, there always is one. -/
theorem Trace.noClusters_prev {n : Nat} {evs : List (Event K)} (ht : Trace env (World.new n) evs w) (hu : HopsReturn evs)
    {op : Op K} {res : Except Fault Int} (h : w.step env mem op = (res, w')) (hr : Cluster.GoesOn res)
    (hu2 : ∀ wid h a, op = .hop wid h a → ∃ n, res = .ok n) (hn : NoClusters w') : NoClusters w := by
  have hst := ht.struct hu
  intro c
  rcases step_cases hst h hr hu2 with hk | ⟨m, rfl, ha⟩ | ⟨wid, k, a, j, w1', w2, w3, basin, -, -, hk, rfl, hg, rfl⟩
  · rw [rel_none (hk.cluster c)]; exact hn c
  · rw [← ha.clusters]; exact hn c
  · exfalso
    change ∀ c, w3.clusters.get? c = none at hn
    cases hg.grew with
    | created c0 hb hc =>
      have := hc.cluster w1'.nextId
      rw [hn, if_pos rfl] at this; cases this
    | merged sc fav c d erased hsc hf hu hm hc =>
      have := hc.cluster fav
      rw [hn, if_pos rfl] at this; cases this

/-- Without clusters every site is in no cluster, and the visit counts add up. -/
theorem Trace.visits {n : Nat} {evs : List (Event K)} (ht : Trace env (World.new n) evs w) (hu : HopsReturn evs)
    (hi : InitsReturn evs) (hn : NoClusters w) :
    (∀ i s, w.sites.get? i = some s → s.clusterId = unassignedId) ∧ totalVisits w = walkersIn evs + hopsIn evs := by
  generalize hw0 : (World.new n : World K) = w0 at ht
  induction ht with
  | nil => subst hw0; exact ⟨fun i s h => (by cases h), rfl⟩
  | @snoc w1 w' evs op res mem ht h hr ih =>
    obtain ⟨hu1, hu2⟩ := hopsReturn_snoc hu
    subst hw0
    have hst := ht.struct hu1
    have hn1 := ht.noClusters_prev hu1 h hr hu2 hn
    obtain ⟨i1, i2⟩ := ih hu1 (fun e he => hi e (List.mem_append_left _ he)) hn1
    have hw : walkersIn (evs ++ [⟨w1, mem, op, res, w'⟩]) = walkersIn evs + newWalkers op := by simp [walkersIn]
    have hh : hopsIn (evs ++ [⟨w1, mem, op, res, w'⟩]) = hopsIn evs + (if isHop op then 1 else 0) := by
      simp [hopsIn, List.countP_cons]
    rw [hw, hh]
    constructor
    · intro i s hs
      rcases step_cases hst h hr hu2 with hk | ⟨m, rfl, ha⟩ | ⟨wid, k, a, j, w1', w2, w3, basin, -, -, hk, rfl, hg, rfl⟩
      · obtain ⟨t, ht, hts⟩ := rel_some (hs ▸ hk.site i)
        rw [hts.clusterId]; exact i1 i t ht
      · rcases ha.sites hs with hs | ⟨-, -, sd, hnew⟩
        · exact i1 i s hs
        · exact hnew.fresh.1
      · exfalso
        change ∀ c, w3.clusters.get? c = none at hn
        cases hg.grew with
        | created c0 hb hc =>
          have := hc.cluster w1'.nextId
          rw [hn, if_pos rfl] at this; cases this
        | merged sc fav c d erased hsc hf hu hm hc =>
          have := hc.cluster fav
          rw [hn, if_pos rfl] at this; cases this
    · cases op with
      | hop wid k a =>
        obtain ⟨r, rfl⟩ := hu2 wid k a rfl
        simp only [step, Prod.mk.injEq] at h
        obtain ⟨h1, h2⟩ := h
        have hret : w1.hop env mem wid k a = (.ok (), w') := by
          refine Prod.ext ?_ h2
          cases hh : (w1.hop env mem wid k a).1 with
          | ok u => rfl
          | error e => rw [hh] at h1; cases h1
        obtain ⟨j, w2, hm, hc⟩ := hop_ok hret
        obtain ⟨t1, t2⟩ := hopMove_total hn1 hm
        obtain ⟨-, hcc⟩ := hopCount_ok (hst.keep (hst.hopMove_keep hm)) hc
        have hs : w'.sites = w2.sites := by
          rcases hcc with ⟨-, rfl⟩ | ⟨-, -, rfl⟩ | ⟨-, -, -, -, rfl⟩ | ⟨-, -, w3, basin, -, hg, rfl⟩
          · rfl
          · rfl
          · rfl
          · exfalso
            change ∀ c, w3.clusters.get? c = none at hn
            cases hg.grew with
            | created c0 hb hc =>
              have := hc.cluster w2.nextId
              rw [hn, if_pos rfl] at this; cases this
            | merged sc fav c d erased hsc hf hu hm hc =>
              have := hc.cluster fav
              rw [hn, if_pos rfl] at this; cases this
        have : totalVisits w' = totalVisits w2 := by unfold totalVisits; rw [hs]
        simp only [isHop, newWalkers, if_true]
        omega
      | initializeWalkers l =>
        obtain ⟨r, rfl⟩ := hi _ (List.mem_append_right _ (List.mem_singleton_self _)) l rfl
        simp only [step, Prod.mk.injEq] at h
        obtain ⟨h1, h2⟩ := h
        unfold initializeWalkers at h1 h2
        split at h2
        · next hf => rw [if_pos hf] at h1; cases h1
        · next hf =>
          rw [if_neg hf] at h1
          cases hh : (w1.initWalkers l).1 with
          | error e => rw [hh] at h1; cases h1
          | ok u =>
            obtain ⟨t1, -⟩ := initWalkers_total hn1 (Prod.ext (x := w1.initWalkers l) (y := (.ok u, w')) hh h2)
            simp only [isHop, newWalkers, Bool.false_eq_true, if_false]
            omega
      | initializeSystem m =>
        simp only [step, Prod.mk.injEq] at h
        have : Adds mem m w1 w' := h.2 ▸ initializeSystem_adds
        rw [this.total]
        simpa [isHop, newWalkers] using i2
      | removeWalker wid k =>
        have : totalVisits w' = totalVisits w1 := by
          simp only [step, simple] at h
          split at h
          · next w2 h2 =>
            simp only [Prod.mk.injEq] at h
            obtain ⟨-, rfl⟩ := h
            obtain ⟨x, -, -, h3⟩ := removeWalker_ok h2
            rcases removeAt_ok h3 with ⟨id, -, h4⟩ | ⟨id, -, h4⟩
            · simpa using (h4.total vacate_visits).1
            · exact (h4.absurd hn1).elim
          · simp only [Prod.mk.injEq] at h
            rw [h.2]
        rw [this]
        simpa [isHop, newWalkers] using i2
      | _ =>
        have : totalVisits w' = totalVisits w1 := by
          unfold totalVisits
          rw [step_sites h (by rintro _ ⟨⟩) (by rintro _ ⟨⟩) (by rintro _ _ _ ⟨⟩) (by rintro _ _ ⟨⟩)]
        rw [this]
        simpa [isHop, newWalkers] using i2

end Mythical.World
