import Verif.Lemmas.SystemMerge

/-! # Initialisation of a system -/

set_option linter.unusedSectionVars false
set_option linter.unusedVariables false

namespace Mythical.World
open Mythical
variable {K : Type} [Field K] [LinearOrder K] [IsStrictOrderedRing K] [FloorRing K]
variable {w w' w1 w2 : World K} {env : Env K} {mem : Addr → K}

/-- A new site: it has been given the rates of an entry of `m`, or it is a drain. -/
def NewSite (mem : Addr → K) (m : IMap (IMap Addr)) (sd : Option Nat) (s : Site K) : Prop :=
  (∃ rates s0, (s.id, rates) ∈ m ∧ (Site.new s.id).setRatesToNeighbors mem rates = .ok s0 ∧
    s = { s0 with seed := sd.map (· % 2 ^ 32) }) ∨
  (s = Site.new s.id ∧ s.id ∈ drains m)

/-- The changes that `initializeSystem` makes, one after the other. -/
inductive Adds (mem : Addr → K) (m : IMap (IMap Addr)) : World K → World K → Prop where
  | refl (w : World K) : Adds mem m w w
  | seed {w w' : World K} (h : Adds mem m { w with seed := w.nextSeed } w') : Adds mem m w w'
  | add {w w' : World K} (s : Site K) (sd : Option Nat) (hs : NewSite mem m w.seed s)
      (hsd : (s ≠ Site.new s.id ∧ sd = w.nextSeed) ∨ (s = Site.new s.id ∧ sd = w.seed))
      (hnew : w.sites.get? s.id = none)
      (h : Adds mem m { w with seed := sd, sites := IMap.set w.sites s.id s, feats := w.feats.set s.id (.site s.id) } w') :
      Adds mem m w w'

theorem Adds.trans {m : IMap (IMap Addr)} (h1 : Adds mem m w w1) (h2 : Adds mem m w1 w2) : Adds mem m w w2 := by
  induction h1 with
  | refl => exact h2
  | seed h ih => exact .seed (ih h2)
  | add s sd hs hsd hnew h ih => exact .add s sd hs hsd hnew (ih h2)

/-- What `setRatesToNeighbors` leaves as it is. -/
theorem setRatesLoop_keep {s s' : Site K} {m : IMap Addr} (h : s.setRatesLoop mem m = .ok s') :
    s' = { s with neigh := s'.neigh } := by
  induction m generalizing s with
  | nil => unfold Site.setRatesLoop at h; cases h; rfl
  | cons a m ih =>
    obtain ⟨n, a⟩ := a
    unfold Site.setRatesLoop at h
    split at h
    · cases h
    · have := ih h; exact this

theorem setRates_keep {s s' : Site K} {m : IMap Addr} (h : s.setRatesToNeighbors mem m = .ok s') :
    s' = { s with neigh := s'.neigh, tau := s'.tau, prob := s'.prob } := by
  unfold Site.setRatesToNeighbors at h
  split at h
  · cases h
  · obtain ⟨s1, h1, h⟩ := bind_eq_ok.1 h
    have e1 := setRatesLoop_keep h1
    unfold Site.recalc at h
    obtain ⟨s2, h2, h⟩ := bind_eq_ok.1 h
    unfold Site.calcTau at h2
    split at h2
    · cases h2
    · cases h2
      unfold Site.calcProb at h
      split at h
      · cases h
      · simp only at h
        split at h
        · cases h
        · cases h
          simp only
          rw [e1]

theorem setRates_neigh_ne {s s' : Site K} {m : IMap Addr} (h : s.setRatesToNeighbors mem m = .ok s') : s'.neigh ≠ [] := by
  unfold Site.setRatesToNeighbors at h
  split at h
  · cases h
  · next hm =>
    obtain ⟨s1, h1, h⟩ := bind_eq_ok.1 h
    have e2 : s'.neigh = s1.neigh := by
      unfold Site.recalc at h
      obtain ⟨s2, h2, h⟩ := bind_eq_ok.1 h
      unfold Site.calcTau at h2
      split at h2
      · cases h2
      · cases h2
        unfold Site.calcProb at h
        split at h
        · cases h
        · simp only at h
          split at h
          · cases h
          · cases h; rfl
    rw [e2]
    clear e2 h
    have key : ∀ (m : IMap Addr) (s : Site K), s.neigh ≠ [] → ∀ s1, s.setRatesLoop mem m = .ok s1 → s1.neigh ≠ [] := by
      intro m
      induction m with
      | nil => intro s hs s1 h; unfold Site.setRatesLoop at h; cases h; exact hs
      | cons a m ih =>
        intro s hs s1 h
        unfold Site.setRatesLoop at h
        split at h
        · cases h
        · refine ih _ ?_ s1 h
          simp only
          intro e
          have := IMap.get?_set_self (m := s.neigh) (k := a.1) (v := a.2)
          rw [e] at this; cases this
    cases m with
    | nil => simp at hm
    | cons a m =>
      unfold Site.setRatesLoop at h1
      split at h1
      · cases h1
      · refine key m _ ?_ s1 h1
        simp only
        intro e
        have := IMap.get?_set_self (m := s.neigh) (k := a.1) (v := a.2)
        rw [e] at this; cases this

theorem seedSite_eq (w : World K) (s : Site K) (h : s.seed = none) :
    w.seedSite s = { s with seed := w.seed.map (· % 2 ^ 32) } := by
  unfold seedSite
  cases w.seed with
  | none => simp only [Option.map_none]; rw [← h]
  | some n => rfl

theorem initSite_adds {m : IMap (IMap Addr)} {id : Int} {rates : IMap Addr} (hm : (id, rates) ∈ m) :
    Adds mem m w (initSite mem w id rates).2 := by
  unfold initSite
  split
  · exact .refl _
  · next s hs =>
    have hk := setRates_keep hs
    have hid : s.id = id := by rw [hk]; rfl
    have hse : s.seed = none := by rw [hk]; rfl
    have e := seedSite_eq w s hse
    have hid' : (w.seedSite s).id = id := by rw [e]; exact hid
    unfold SiteContainer.addSite
    by_cases hx : IMap.has w.sites (w.seedSite s).id = true
    · rw [if_pos hx]
      exact .seed (.refl _)
    · rw [if_neg hx]
      simp only
      have hnew : w.sites.get? (w.seedSite s).id = none := by
        rw [IMap.get?_eq_none_iff]; exact fun h => hx (IMap.has_iff.2 h)
      refine .add (w.seedSite s) w.nextSeed (.inl ⟨rates, s, ?_, ?_, e⟩) (.inl ⟨?_, rfl⟩) hnew ?_
      · rw [hid']; exact hm
      · rw [hid']; exact hs
      · intro he
        have h1 := setRates_neigh_ne hs
        have h2 : (w.seedSite s).neigh = s.neigh := by rw [e]
        rw [he] at h2
        exact h1 h2.symm
      · rw [hid']; exact .refl _

theorem initSites_adds {m : IMap (IMap Addr)} {l : List (Int × IMap Addr)} (hl : ∀ x ∈ l, x ∈ m) :
    Adds mem m w (initSites mem w l).2 := by
  induction l generalizing w with
  | nil => exact .refl _
  | cons a l ih =>
    obtain ⟨id, rates⟩ := a
    unfold initSites
    have h1 := initSite_adds (mem := mem) (w := w) (hl (id, rates) (List.mem_cons_self ..))
    split
    · next he => rw [he] at h1; exact h1
    · next w1 he =>
      rw [he] at h1
      exact h1.trans (ih fun x hx => hl x (List.mem_cons_of_mem _ hx))

theorem initDrains_adds {m : IMap (IMap Addr)} {l : List Int} (hl : ∀ i ∈ l, i ∈ drains m) :
    Adds mem m w (initDrains w l).2 := by
  induction l generalizing w with
  | nil => exact .refl _
  | cons i l ih =>
    unfold initDrains SiteContainer.addSite
    by_cases hx : IMap.has w.sites (Site.new i : Site K).id = true
    · rw [if_pos hx]; exact .refl _
    · rw [if_neg hx]
      simp only
      have hnew : w.sites.get? (Site.new i : Site K).id = none := by
        rw [IMap.get?_eq_none_iff]; exact fun h => hx (IMap.has_iff.2 h)
      refine .add (Site.new i) w.seed (.inr ⟨rfl, hl i (List.mem_cons_self ..)⟩) (.inr ⟨rfl, rfl⟩) hnew ?_
      exact ih fun j hj => hl j (List.mem_cons_of_mem _ hj)

theorem initializeSystem_adds {m : IMap (IMap Addr)} : Adds mem m w (initializeSystem mem w m).2 := by
  unfold initializeSystem
  split
  · exact .refl _
  · have h1 := initSites_adds (mem := mem) (w := w) (m := m) (l := m) fun _ h => h
    split
    · next he => rw [he] at h1; exact h1
    · next w1 he => rw [he] at h1; exact h1.trans (initDrains_adds fun _ h => h)

theorem NewSite.fresh {m : IMap (IMap Addr)} {sd : Option Nat} {s : Site K} (h : NewSite mem m sd s) :
    s.clusterId = unassignedId ∧ s.occupied = 0 ∧ s.visits = 0 := by
  rcases h with ⟨rates, s0, -, h0, e⟩ | ⟨e, -⟩
  · have := setRates_keep h0
    rw [e, this]; exact ⟨rfl, rfl, rfl⟩
  · rw [e]; exact ⟨rfl, rfl, rfl⟩

theorem Struct.seed (h : Struct env w) (sd : Option Nat) : Struct env { w with seed := sd } :=
  ⟨h.sitesWF, h.featsWF, h.clustersWF, h.next, h.siteId, h.known, h.cid, h.trace, h.member, h.disjoint, h.lone, h.joined⟩

theorem Struct.addSite (h : Struct env w) {s : Site K} {sd : Option Nat} (hu : s.clusterId = unassignedId)
    (hnew : w.sites.get? s.id = none) :
    Struct env { w with seed := sd, sites := IMap.set w.sites s.id s, feats := w.feats.set s.id (.site s.id) } := by
  have hs : ∀ i, IMap.get? (IMap.set w.sites s.id s) i = if s.id = i then some s else w.sites.get? i :=
    fun i => IMap.get?_set ..
  have hf : ∀ i, IMap.get? (w.feats.set s.id (.site s.id)) i = if s.id = i then some (.site s.id) else w.feats.get? i :=
    fun i => IMap.get?_set ..
  refine ⟨IMap.WF.set h.sitesWF _ _, IMap.WF.set h.featsWF _ _, h.clustersWF, h.next, ?_, ?_, h.cid, h.trace, ?_,
    h.disjoint, ?_, ?_⟩
  · intro i t ht
    simp only at ht
    rw [hs] at ht
    split at ht
    · next e => cases ht; exact e
    · exact h.siteId i t ht
  · intro i
    simp only
    rw [hs, hf]
    by_cases e : s.id = i
    · simp [e]
    · simp only [e, if_false]; exact h.known i
  · intro k x i t hx ht
    obtain ⟨a, u, hu1, hu2⟩ := h.member k x i t hx ht
    refine ⟨a, u, ?_, hu2⟩
    simp only
    rw [hs, if_neg, hu1]
    rintro rfl
    rw [hnew] at hu1; cases hu1
  · intro i t ht hc
    simp only at ht ⊢
    rw [hs] at ht
    rw [hf]
    split at ht
    · next e => rw [if_pos e, e]
    · next e => rw [if_neg e]; exact h.lone i t ht hc
  · intro i t ht hc
    simp only at ht ⊢
    rw [hs] at ht
    rw [hf]
    split at ht
    · cases ht; exact absurd hu hc
    · next e => rw [if_neg e]; exact h.joined i t ht hc

theorem Struct.adds {m : IMap (IMap Addr)} (h : Struct env w) (ha : Adds mem m w w') : Struct env w' := by
  induction ha with
  | refl => exact h
  | seed _ ih => exact ih (h.seed _)
  | add s sd hs _ hnew _ ih => exact ih (h.addSite hs.fresh.1 hnew)

end Mythical.World
