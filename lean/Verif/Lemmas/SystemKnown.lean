import Verif.Lemmas.SystemStatic
import Verif.Lemmas.SystemExit

/-! # The sites known after an initialisation -/

set_option linter.unusedSectionVars false
set_option linter.unusedVariables false

namespace Mythical.World
open Mythical SystemSpec
variable {K : Type} [Field K] [LinearOrder K] [IsStrictOrderedRing K] [FloorRing K]
variable {w w' w1 w2 : World K} {env : Env K} {mem : Addr → K}

theorem addSite_ok {S S' : SiteContainer K} {s : Site K} {u : Unit} (h : S.addSite s = (.ok u, S')) :
    IMap.get? S s.id = none ∧ S' = IMap.set S s.id s := by
  unfold SiteContainer.addSite at h
  split at h
  · simp at h
  · next hx =>
    simp only [Prod.mk.injEq, true_and] at h
    exact ⟨IMap.get?_eq_none_iff.2 fun hm => hx (IMap.has_iff.2 hm), h.symm⟩

theorem initSite_ok {id : Int} {rates : IMap Addr} {u : Unit} (h : initSite mem w id rates = (.ok u, w')) :
    ∃ s, (Site.new id).setRatesToNeighbors mem rates = .ok s ∧ s.id = id ∧ w.sites.get? id = none ∧
      w' = { w with
        seed := w.nextSeed, sites := IMap.set w.sites id (w.seedSite s), feats := w.feats.set id (.site id) } := by
  unfold initSite at h
  split at h
  · simp at h
  · next s hs =>
    have hk := setRates_keep hs
    have hid : s.id = id := by rw [hk]; rfl
    have hse : s.seed = none := by rw [hk]; rfl
    have e := seedSite_eq w s hse
    have hid' : (w.seedSite s).id = id := by rw [e]; exact hid
    refine ⟨s, hs, hid, ?_⟩
    split at h
    · simp at h
    · next S hS =>
      obtain ⟨h1, h2⟩ := addSite_ok hS
      rw [hid'] at h1 h2
      simp only [Prod.mk.injEq, true_and] at h
      exact ⟨h1, by rw [← h, h2]⟩

theorem initSites_known {l : List (Int × IMap Addr)} {u : Unit} (h : initSites mem w l = (.ok u, w')) :
    (∀ i, w'.sites.get? i = none ↔ w.sites.get? i = none ∧ i ∉ IMap.keys l) ∧ ∀ i ∈ IMap.keys l, w.sites.get? i = none := by
  induction l generalizing w with
  | nil => unfold initSites at h; simp only [Prod.mk.injEq, true_and] at h; subst h; simp
  | cons a l ih =>
    obtain ⟨id, rates⟩ := a
    unfold initSites at h
    split at h
    · simp at h
    · next v w1 h1 =>
      obtain ⟨s, -, -, hn, e⟩ := initSite_ok h1
      obtain ⟨i1, i2⟩ := ih h
      have hg : ∀ i, w1.sites.get? i = if id = i then some (w.seedSite s) else w.sites.get? i := by
        intro i; rw [e]; exact IMap.get?_set ..
      constructor
      · intro i
        rw [i1, hg]
        by_cases hi : id = i
        · simp [hi]
        · simp [hi, Ne.symm hi]
      · intro i hi
        rw [IMap.keys_cons, List.mem_cons] at hi
        rcases hi with rfl | hi
        · exact hn
        · have := i2 i hi
          rw [hg] at this
          split at this
          · cases this
          · exact this

theorem initDrains_known {l : List Int} {u : Unit} (h : initDrains w l = (.ok u, w')) :
    (∀ i, w'.sites.get? i = none ↔ w.sites.get? i = none ∧ i ∉ l) ∧ ∀ i ∈ l, w.sites.get? i = none := by
  induction l generalizing w with
  | nil => unfold initDrains at h; simp only [Prod.mk.injEq, true_and] at h; subst h; simp
  | cons id l ih =>
    unfold initDrains at h
    split at h
    · simp at h
    · next S hS =>
      obtain ⟨hn, e⟩ := addSite_ok hS
      obtain ⟨i1, i2⟩ := ih h
      have hg : ∀ i, IMap.get? S i = if id = i then some (Site.new i) else w.sites.get? i := by
        intro i
        rw [e]
        refine (IMap.get?_set ..).trans ?_
        by_cases hi : id = i
        · subst hi; rfl
        · rw [if_neg hi]; exact if_neg hi
      constructor
      · intro i
        rw [i1]
        show IMap.get? S i = none ∧ _ ↔ _
        rw [hg]
        by_cases hi : id = i
        · simp [hi]
        · simp [hi, Ne.symm hi]
      · intro i hi
        rw [List.mem_cons] at hi
        rcases hi with rfl | hi
        · exact hn
        · have := i2 i hi
          change IMap.get? S i = none at this
          rw [hg] at this
          split at this
          · cases this
          · exact this

theorem mem_drains {m : IMap (IMap Addr)} {i : Int} :
    i ∈ drains m ↔ i ∉ m.keys ∧ ∃ ir ∈ m, i ∈ IMap.keys ir.2 := by
  unfold drains
  rw [List.mem_dedup, List.mem_filter, List.mem_flatMap]
  simp only [Bool.not_eq_true', IMap.has_eq_false_iff]
  exact and_comm

theorem initializeSystem_ok {m : IMap (IMap Addr)} {u : Unit} (h : initializeSystem mem w m = (.ok u, w')) :
    w.timeRes ≠ none ∧ ∃ w1, initSites mem w m = (.ok u, w1) ∧ initDrains w1 (drains m) = (.ok u, w') := by
  unfold initializeSystem at h
  split at h
  · simp at h
  · next t ht =>
    refine ⟨by rw [ht]; simp, ?_⟩
    split at h
    · simp at h
    · next w1 h1 => exact ⟨w1, h1, h⟩

/-- The known sites after an initialisation that returns. -/
theorem initializeSystem_known {m : IMap (IMap Addr)} {u : Unit} (h : initializeSystem mem w m = (.ok u, w')) (i : Int) :
    (w'.sites.get? i ≠ none ↔ w.sites.get? i ≠ none ∨ i ∈ m.keys ∨ ∃ ir ∈ m, i ∈ IMap.keys ir.2) ∧
    (i ∈ m.keys ∨ (∃ ir ∈ m, i ∈ IMap.keys ir.2) → w.sites.get? i = none) := by
  obtain ⟨-, w1, h1, h2⟩ := initializeSystem_ok h
  obtain ⟨a1, a2⟩ := initSites_known h1
  obtain ⟨b1, b2⟩ := initDrains_known h2
  constructor
  · rw [Ne, b1, a1, mem_drains]
    by_cases hk : i ∈ m.keys <;> by_cases hd : ∃ ir ∈ m, i ∈ IMap.keys ir.2 <;> by_cases hw : w.sites.get? i = none <;>
      simp only [hk, hd, hw] <;> tauto
  · intro hh
    by_cases hk : i ∈ m.keys
    · exact a2 i hk
    · rcases hh with hh | hh
      · exact absurd hh hk
      · exact ((a1 i).1 (b2 i (mem_drains.2 ⟨hk, hh⟩))).1

/-- Setting rates succeeds on a new site if they are positive. -/
theorem setRates_total {id : Int} {rates : IMap Addr} (hw : rates.WF) (hne : rates ≠ []) (hpos : ∀ na ∈ rates, 0 < mem na.2) :
    ∃ s, (Site.new id : Site K).setRatesToNeighbors mem rates = .ok s := by
  unfold Site.setRatesToNeighbors
  rw [if_neg (by simpa using hne), Site.setRatesLoop_total fun na h => (hpos na h).ne', ok_bind]
  have hw2 := Site.foldl_set_wf rates (Site.new id : Site K).neigh List.nodup_nil
  have hg := Site.foldl_set_get? rates hw (Site.new id : Site K).neigh
  apply Site.recalc_total
  · intro na hna
    have := (IMap.get?_eq_some_iff hw2).2 hna
    rw [hg] at this
    apply hpos na
    refine IMap.mem_of_get? (k := na.1) (v := na.2) ?_
    simpa [Site.new] using this
  · intro he
    obtain ⟨x, hx⟩ := List.exists_mem_of_ne_nil rates hne
    have := hg x.1
    simp only at he
    rw [he, IMap.get?_of_mem hw (k := x.1) (v := x.2) hx] at this
    simp at this

theorem initSites_total {l : List (Int × IMap Addr)} (hl : IMap.WF l) (hr : ∀ ir ∈ l, ir.2.WF ∧ ir.2 ≠ [] ∧ ∀ na ∈ ir.2, 0 < mem na.2)
    (hnew : ∀ i ∈ IMap.keys l, w.sites.get? i = none) : ∃ w', initSites mem w l = (.ok (), w') := by
  induction l generalizing w with
  | nil => exact ⟨w, rfl⟩
  | cons a l ih =>
    obtain ⟨id, rates⟩ := a
    obtain ⟨r1, r2, r3⟩ := hr (id, rates) (List.mem_cons_self ..)
    obtain ⟨s, hs⟩ := setRates_total (id := id) r1 r2 r3
    have hk := setRates_keep hs
    have hid : s.id = id := by rw [hk]; rfl
    have hse : s.seed = none := by rw [hk]; rfl
    have e := seedSite_eq w s hse
    have hid' : (w.seedSite s).id = id := by rw [e]; exact hid
    have hn : IMap.get? w.sites id = none := hnew id (by simp)
    have h1 : initSite mem w id rates = (.ok (), { w with
        seed := w.nextSeed, sites := IMap.set w.sites id (w.seedSite s), feats := w.feats.set id (.site id) }) := by
      unfold initSite
      rw [hs]
      simp only
      unfold SiteContainer.addSite
      rw [if_neg (by rw [hid', IMap.has_iff]; exact IMap.get?_eq_none_iff.1 hn), hid']
    obtain ⟨hn1, hn2⟩ := IMap.wf_cons.1 hl
    unfold initSites
    rw [h1]
    simp only
    refine ih hn2 (fun ir h => hr ir (List.mem_cons_of_mem _ h)) ?_
    intro i hi
    show IMap.get? (IMap.set w.sites id (w.seedSite s)) i = none
    rw [IMap.get?_set, if_neg]
    · exact hnew i (by rw [IMap.keys_cons]; exact List.mem_cons_of_mem _ hi)
    · rintro rfl; exact hn1 hi

theorem initDrains_total {l : List Int} (hl : l.Nodup) (hnew : ∀ i ∈ l, w.sites.get? i = none) :
    ∃ w', initDrains w l = (.ok (), w') := by
  induction l generalizing w with
  | nil => exact ⟨w, rfl⟩
  | cons id l ih =>
    have hn : IMap.get? w.sites id = none := hnew id (by simp)
    obtain ⟨hn1, hn2⟩ := List.nodup_cons.1 hl
    unfold initDrains SiteContainer.addSite
    rw [if_neg (by rw [IMap.has_iff]; exact IMap.get?_eq_none_iff.1 hn)]
    simp only
    refine ih hn2 ?_
    intro i hi
    show IMap.get? (IMap.set w.sites id (Site.new id)) i = none
    rw [IMap.get?_set, if_neg]
    · exact hnew i (List.mem_cons_of_mem _ hi)
    · rintro rfl; exact hn1 hi

theorem initializeSystem_total {m : IMap (IMap Addr)} (hm : m.WF)
    (hr : ∀ ir ∈ m, ir.2.WF ∧ ir.2 ≠ [] ∧ ∀ na ∈ ir.2, 0 < mem na.2) (ht : w.timeRes ≠ none)
    (hnew : ∀ i, i ∈ m.keys ∨ (∃ ir ∈ m, i ∈ IMap.keys ir.2) → w.sites.get? i = none) :
    ∃ w', initializeSystem mem w m = (.ok (), w') := by
  obtain ⟨t, ht⟩ := Option.ne_none_iff_exists'.1 ht
  obtain ⟨w1, h1⟩ := initSites_total (w := w) hm hr fun i hi => hnew i (.inl hi)
  obtain ⟨a1, -⟩ := initSites_known h1
  obtain ⟨w2, h2⟩ := initDrains_total (w := w1) (l := drains m) (List.nodup_dedup _) fun i hi => by
    rw [a1]
    rw [mem_drains] at hi
    exact ⟨hnew i (.inr hi.2), hi.1⟩
  exact ⟨w2, by unfold initializeSystem; rw [ht]; simp only; rw [h1]; exact h2⟩

/-- The rates of a new site that is not a drain. -/
theorem NewSite.rates {m : IMap (IMap Addr)} {sd : Option Nat} {s : Site K} (h : NewSite mem m sd s) (hm : m.WF) {rates : IMap Addr}
    (hi : (s.id, rates) ∈ m) (hw : rates.WF) : ∀ n, s.neigh.get? n = rates.get? n := by
  rcases h with ⟨rates', s0, hm', h0, e⟩ | ⟨-, hd⟩
  · have : rates' = rates := by
      have h1 := IMap.get?_of_mem hm hm'
      rw [IMap.get?_of_mem hm hi] at h1
      exact (Option.some_inj.1 h1).symm
    subst this
    unfold Site.setRatesToNeighbors at h0
    split at h0
    · cases h0
    · obtain ⟨s1, h1, h2⟩ := bind_eq_ok.1 h0
      obtain ⟨e1, -⟩ := Site.setRatesLoop_ok h1
      have hw1 : s1.neigh.WF := by rw [e1]; exact Site.foldl_set_wf _ _ List.nodup_nil
      obtain ⟨f1, f2, -⟩ := Site.recalc_ok h2 hw1
      intro n
      rw [e]
      show IMap.get? s0.neigh n = _
      rw [f2, e1]
      refine (Site.foldl_set_get? rates' hw _ n).trans ?_
      simp [Site.new]
  · exact absurd (IMap.mem_keys_of_mem hi) (mem_drains.1 hd).1

end Mythical.World
