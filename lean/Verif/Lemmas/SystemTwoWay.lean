import Verif.Lemmas.SystemLive
import Verif.Lemmas.SystemKnown

/-! # Systems whose rates go both ways -/

set_option linter.unusedSectionVars false
set_option linter.unusedVariables false

namespace Mythical.World
open Mythical SystemSpec
variable {K : Type} [Field K] [LinearOrder K] [IsStrictOrderedRing K] [FloorRing K]
variable {w w' w1 w2 : World K} {env : Env K} {mem : Addr → K}

/-! ## The time resolution -/

theorem Adds.timeRes {m : IMap (IMap Addr)} (h : Adds mem m w w') : w'.timeRes = w.timeRes := by
  induction h with
  | refl => rfl
  | seed _ ih => exact ih
  | add _ _ _ _ _ _ ih => exact ih

theorem step_timeRes_eq (hst : Struct env w) {op : Op K} {res : Except Fault Int} (h : w.step env mem op = (res, w'))
    (hr : Cluster.GoesOn res) (hhop : ∀ wid h a, op = .hop wid h a → ∃ n, res = .ok n) :
    w'.timeRes = w.timeRes ∨ ∃ t, op = .setTimeResolution t ∧ 0 < t ∧ w'.timeRes = some t := by
  cases op with
  | setTimeResolution t =>
    simp only [step, Prod.mk.injEq] at h
    rw [← h.2]; unfold World.setTimeResolution
    split
    · left; rfl
    · next ht => right; exact ⟨t, rfl, not_le.1 ht, rfl⟩
  | initializeSystem m =>
    simp only [step, Prod.mk.injEq] at h
    left
    have : Adds mem m w w' := h.2 ▸ initializeSystem_adds
    exact this.timeRes
  | hop wid k a =>
    left
    obtain ⟨n, rfl⟩ := hhop wid k a rfl
    simp only [step, Prod.mk.injEq] at h
    obtain ⟨h1, h2⟩ := h
    have hret : w.hop env mem wid k a = (.ok (), w') := by
      refine Prod.ext ?_ h2
      cases hh : (w.hop env mem wid k a).1 with
      | ok u => rfl
      | error e => rw [hh] at h1; cases h1
    obtain ⟨j, w1, hm, hc⟩ := hop_ok hret
    have hk : Keep env w w1 := hst.hopMove_keep hm
    have hsd : w1.timeRes = w.timeRes := by obtain ⟨S, C, W, rfl⟩ := hopMove_outer hm; rfl
    obtain ⟨-, h⟩ := hopCount_ok (hst.keep hk) hc
    rcases h with ⟨-, rfl⟩ | ⟨-, -, rfl⟩ | ⟨-, -, -, -, rfl⟩ | ⟨-, -, w3, basin, -, hg, rfl⟩
    · exact hsd
    · exact hsd
    · exact hsd
    · show w3.timeRes = w.timeRes
      cases hg.grew with
      | created c0 hb h => rw [h.eq]; exact hsd
      | merged sc fav c d erased _ _ _ _ h => rw [h.eq]; exact hsd
  | setRandomSeed n =>
    left
    simp only [step, Prod.mk.injEq] at h
    rw [← h.2]; unfold World.setRandomSeed; split <;> rfl
  | _ =>
    left
    simp only [step] at h
    first
      | (simp only [Prod.mk.injEq] at h; rw [← h.2]; rfl)
      | (simp only [Prod.mk.injEq] at h; rw [← h.2]; obtain ⟨S, C, W, e⟩ := initializeWalkers_outer (w := w); rw [e])
      | (simp only [simple] at h
         split at h
         · next w1 h1 =>
           simp only [Prod.mk.injEq] at h
           obtain ⟨x, -, h1⟩ := bind_eq_ok.1 h1
           cases h1
           rw [← h.2]
         · simp only [Prod.mk.injEq] at h; rw [← h.2])
      | (simp only [simple] at h
         split at h
         · next w1 h1 =>
           simp only [Prod.mk.injEq] at h
           rw [← h.2]
           obtain ⟨S, C, rfl⟩ := removeWalker_inner h1
           rfl
         · simp only [Prod.mk.injEq] at h; rw [← h.2])
      | (split at h <;> simp only [Prod.mk.injEq] at h <;> rw [← h.2])
      | (obtain ⟨S, C, rfl⟩ := (hst.getVisitFrequencyOfSite_step h hr).inner; rfl)

theorem step_timeRes (hst : Struct env w) {op : Op K} {res : Except Fault Int} (h : w.step env mem op = (res, w'))
    (hr : Cluster.GoesOn res) (hhop : ∀ wid h a, op = .hop wid h a → ∃ n, res = .ok n) :
    w'.timeRes = w.timeRes ∨ w'.timeRes ≠ none := by
  rcases step_timeRes_eq hst h hr hhop with e | ⟨t, -, -, e⟩
  · exact .inl e
  · rw [e]; exact .inr (by simp)

/-! ## Both ways -/

/-- Every site has neighbours, and all of them are other sites that have a rate back. -/
def BothWays (w : World K) : Prop := ∀ i s, w.sites.get? i = some s → s.neigh ≠ [] ∧
  ∀ j ∈ s.neigh.keys, j ≠ i ∧ ∃ t, w.sites.get? j = some t ∧ i ∈ t.neigh.keys

theorem BothWays.same (h : BothWays w) (e : SameRates w w') : BothWays w' := by
  intro i s hs
  obtain ⟨t, ht, hn⟩ := e.some hs
  obtain ⟨h1, h2⟩ := h i t ht
  refine ⟨by rw [hn]; exact h1, fun j hj => ?_⟩
  obtain ⟨h3, t', ht', h4⟩ := h2 j (hn ▸ hj)
  obtain ⟨t2, ht2, hn2⟩ := e.symm.some ht'
  exact ⟨h3, t2, ht2, hn2 ▸ h4⟩

/-- The rates of a new site with rates. -/
theorem NewSite.neigh_keys {m : IMap (IMap Addr)} {rates : IMap Addr} {s0 : Site K} {i : Int} (hw : rates.WF)
    (h0 : (Site.new i : Site K).setRatesToNeighbors mem rates = .ok s0) (j : Int) : j ∈ s0.neigh.keys ↔ j ∈ rates.keys := by
  unfold Site.setRatesToNeighbors at h0
  split at h0
  · cases h0
  · obtain ⟨s1, h1, h2⟩ := bind_eq_ok.1 h0
    obtain ⟨e1, -⟩ := Site.setRatesLoop_ok h1
    have hw1 : s1.neigh.WF := by rw [e1]; exact Site.foldl_set_wf _ _ List.nodup_nil
    obtain ⟨f1, f2, -⟩ := Site.recalc_ok h2 hw1
    rw [f2, e1, IMap.mem_keys_iff_get?, IMap.mem_keys_iff_get?]
    have := Site.foldl_set_get? rates hw (Site.new i : Site K).neigh j
    rw [this]
    have : (Site.new i : Site K).neigh.get? j = none := rfl
    rw [this, Option.or_none]

theorem BothWays.init (h : BothWays w) {m : IMap (IMap Addr)} {u : Unit} (hi : initializeSystem mem w m = (.ok u, w'))
    (hm : m.WF) (hm' : ∀ ir ∈ m, ir.2.WF) (ht : TwoWay m) : BothWays w' := by
  have ha : Adds mem m w w' := by
    have := initializeSystem_adds (mem := mem) (w := w) (m := m)
    rw [hi] at this; exact this
  -- no drains
  have hnd : ∀ i, i ∉ drains m := by
    intro i hd
    obtain ⟨hk, ir, hir, hi⟩ := mem_drains.1 hd
    obtain ⟨na, hna, rfl⟩ := List.mem_map.1 hi
    obtain ⟨-, ir', hir', e, -⟩ := ht ir hir na hna
    exact hk (e ▸ List.mem_map_of_mem (f := Prod.fst) hir')
  have hnew : ∀ i s sd, s.id = i → NewSite mem m sd s → ∃ rates, (i, rates) ∈ m ∧ s.neigh ≠ [] ∧
      ∀ j, j ∈ s.neigh.keys ↔ j ∈ rates.keys := by
    rintro i s sd rfl (⟨rates, s0, hmem, h0, e⟩ | ⟨-, hd⟩)
    · have en : s.neigh = s0.neigh := by rw [e]
      refine ⟨rates, hmem, ?_, fun j => ?_⟩
      · rw [en]; exact setRates_neigh_ne h0
      · rw [en]; exact NewSite.neigh_keys (m := m) (hm' _ hmem) h0 j
    · exact absurd hd (hnd _)
  intro i s hs
  rcases ha.sites hs with hs' | ⟨hid, hnone, sd, hns⟩
  · obtain ⟨h1, h2⟩ := h i s hs'
    refine ⟨h1, fun j hj => ?_⟩
    obtain ⟨h3, t, ht, h4⟩ := h2 j hj
    exact ⟨h3, t, ha.old ht, h4⟩
  · obtain ⟨rates, hmem, h1, h2⟩ := hnew i s sd hid hns
    refine ⟨h1, fun j hj => ?_⟩
    obtain ⟨na, hna, rfl⟩ := List.mem_map.1 ((h2 j).1 hj)
    obtain ⟨hne, ⟨j, rates'⟩, hir', e, na', hna', e'⟩ := ht (i, rates) hmem na hna
    change j = na.1 at e
    change na'.1 = i at e'
    refine ⟨hne, ?_⟩
    rw [← e]
    have hjm : j ∈ m.keys := List.mem_map_of_mem (f := Prod.fst) hir'
    have hkn := initializeSystem_known hi j
    obtain ⟨t, ht'⟩ := Option.ne_none_iff_exists'.1 (hkn.1.2 (.inr (.inl hjm)))
    refine ⟨t, ht', ?_⟩
    rcases ha.sites ht' with hold | ⟨hid', -, sd', hns'⟩
    · rw [hkn.2 (.inl hjm)] at hold; cases hold
    · obtain ⟨rates2, hmem2, -, h3⟩ := hnew j t sd' hid' hns'
      have : rates2 = rates' := by
        have e1 := IMap.get?_of_mem hm hmem2
        have e2 := IMap.get?_of_mem hm hir'
        rw [e1] at e2; exact Option.some.inj e2
      rw [h3, this, ← e']
      exact List.mem_map_of_mem (f := Prod.fst) hna'

/-- What the histories of systems with rates both ways lead to: there is a time resolution if there are sites. -/
theorem Trace.bothWays {n : Nat} {evs : List (Event K)} (ht : Trace env (World.new n) evs w) (hu : HopsReturn evs)
    (hs : SystemsReturn evs) (hm : Maps evs) (h2 : TwoWayRates evs) :
    BothWays w ∧ ∀ i s, w.sites.get? i = some s → w.timeRes ≠ none := by
  generalize hw0 : (World.new n : World K) = w0 at ht
  induction ht with
  | nil => subst hw0; exact ⟨fun i s h => (by cases h), fun i s h => (by cases h)⟩
  | @snoc w1 w' evs op res mem' ht h hr ih =>
    obtain ⟨hu1, hu2⟩ := hopsReturn_snoc hu
    subst hw0
    obtain ⟨ih1, ih2⟩ := ih hu1 (fun ev he => hs ev (List.mem_append_left _ he)) (fun ev he => hm ev (List.mem_append_left _ he))
      (fun ev he => h2 ev (List.mem_append_left _ he))
    have hst := ht.struct hu1
    have htr := step_timeRes hst h hr hu2
    have hkeep : SameRates w1 w' → BothWays w' ∧ ∀ i s, w'.sites.get? i = some s → w'.timeRes ≠ none := by
      intro e
      refine ⟨ih1.same e, fun i s hs => ?_⟩
      obtain ⟨t, ht, -⟩ := e.some hs
      rcases htr with h | h
      · rw [h]; exact ih2 i t ht
      · exact h
    rcases step_cases hst h hr hu2 with hk | ⟨m, rfl, hadd⟩ | ⟨wid, k, a, j, w1', w2, w3, basin, -, -, hk, rfl, hgr, rfl⟩
    · exact hkeep hk.neigh
    · obtain ⟨⟨n, e⟩, -⟩ := hs _ (List.mem_append_right _ (List.mem_singleton_self _)) m rfl
      obtain ⟨m1, m2⟩ := hm _ (List.mem_append_right _ (List.mem_singleton_self _)) m rfl
      have m3 := h2 _ (List.mem_append_right _ (List.mem_singleton_self _)) m rfl
      change res = .ok n at e
      simp only [step, Prod.mk.injEq] at h
      obtain ⟨e1, e2⟩ := h
      have hi : initializeSystem mem' w1 m = (.ok (), w') := by
        refine Prod.ext ?_ e2
        cases hh : (initializeSystem mem' w1 m).1 with
        | ok u => rfl
        | error e' => rw [hh, e] at e1; cases e1
      refine ⟨ih1.init hi m1 m2 m3, fun i s hs => ?_⟩
      rw [hadd.timeRes]
      exact (initializeSystem_ok hi).1
    · exact hkeep fun i => (hgr.grew.neigh i).trans (hk.neigh i)

end Mythical.World
