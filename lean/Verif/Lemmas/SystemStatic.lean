import Verif.Lemmas.SystemPace
import Verif.Lemmas.Site

/-! # What never changes in a site -/

set_option linter.unusedSectionVars false
set_option linter.unusedVariables false

namespace Mythical.World
open Mythical SystemSpec
variable {K : Type} [Field K] [LinearOrder K] [IsStrictOrderedRing K] [FloorRing K]
variable {w w' w1 w2 : World K} {env : Env K} {mem : Addr → K}

/-- The two sites differ at most in their counters and their cluster. -/
structure Twin (s t : Site K) : Prop where
  id : s.id = t.id
  neigh : s.neigh = t.neigh
  prob : s.prob = t.prob
  tau : s.tau = t.tau
  seed : s.seed = t.seed

theorem Twin.refl (s : Site K) : Twin s s := ⟨rfl, rfl, rfl, rfl, rfl⟩

theorem Twin.symm {s t : Site K} (h : Twin s t) : Twin t s := ⟨h.1.symm, h.2.symm, h.3.symm, h.4.symm, h.5.symm⟩

theorem Twin.trans {s t u : Site K} (h : Twin s t) (h' : Twin t u) : Twin s u :=
  ⟨h.1.trans h'.1, h.2.trans h'.2, h.3.trans h'.3, h.4.trans h'.4, h.5.trans h'.5⟩

theorem Same.twin {s t : Site K} (h : Same s t) : Twin t s := by rw [h]; exact ⟨rfl, rfl, rfl, rfl, rfl⟩

theorem member_twin (k : Int) (s : Site K) : Twin (World.member k s) s := ⟨rfl, rfl, rfl, rfl, rfl⟩

theorem mark_twin (k : Int) (s : Site K) : Twin (Cluster.mark k s) s := ⟨rfl, rfl, rfl, rfl, rfl⟩

/-- Every site is one that an initialisation has made. -/
def Origin (evs : List (Event K)) (w : World K) : Prop :=
  ∀ i s, w.sites.get? i = some s → ∃ ev ∈ evs, ∃ m sd s0, ev.op = .initializeSystem m ∧ NewSite ev.mem m sd s0 ∧
    Twin s s0 ∧ s0.id = i

/-- The sites of the clusters are like those in the container. -/
def Twins (w : World K) : Prop :=
  ∀ c x i s t, w.clusters.get? c = some x → x.sites.get? i = some s → w.sites.get? i = some t → Twin s t

theorem Origin.mono {evs evs' : List (Event K)} (h : Origin evs w) (hs : ∀ ev ∈ evs, ev ∈ evs') : Origin evs' w := by
  intro i s hi
  obtain ⟨ev, he, r⟩ := h i s hi
  exact ⟨ev, hs ev he, r⟩

/-- The sites of the second world are those of the first, up to counters and clusters. -/
theorem Origin.of_twin {evs : List (Event K)} (h : Origin evs w)
    (ht : ∀ i s, w'.sites.get? i = some s → ∃ t, w.sites.get? i = some t ∧ Twin s t) : Origin evs w' := by
  intro i s hi
  obtain ⟨t, h1, h2⟩ := ht i s hi
  obtain ⟨ev, he, m, sd, s0, ho, hn, htw, hid⟩ := h i t h1
  exact ⟨ev, he, m, sd, s0, ho, hn, h2.trans htw, hid⟩

theorem Keep.twin (h : Keep env w w') {i : Int} {s : Site K} (hi : w'.sites.get? i = some s) :
    ∃ t, w.sites.get? i = some t ∧ Twin s t := by
  obtain ⟨t, ht, hk⟩ := rel_some (hi ▸ h.site i)
  exact ⟨t, ht, hk.twin⟩

theorem Grew.twin {basin : List Int} {M : K} {order : List Int → List Int} (h : Grew env mem w w' basin M order) {i : Int}
    {s : Site K} (hi : w'.sites.get? i = some s) : ∃ t, w.sites.get? i = some t ∧ Twin s t := by
  have key : ∀ k, w'.sites.get? i = (if i ∈ basin then (w.sites.get? i).map (World.member k) else w.sites.get? i) →
      ∃ t, w.sites.get? i = some t ∧ Twin s t := by
    intro k e
    rw [e] at hi
    split at hi
    · rw [Option.map_eq_some_iff] at hi
      obtain ⟨t, ht, rfl⟩ := hi
      exact ⟨t, ht, member_twin _ _⟩
    · exact ⟨s, hi, .refl s⟩
  cases h with
  | created c0 hb h => exact key _ (h.site i)
  | merged sc fav c d erased _ _ _ _ h => exact key _ (h.site i)

theorem Adds.sites {m : IMap (IMap Addr)} (h : Adds mem m w w') {i : Int} {s : Site K} (hi : w'.sites.get? i = some s) :
    w.sites.get? i = some s ∨ s.id = i ∧ w.sites.get? i = none ∧ ∃ sd, NewSite mem m sd s := by
  induction h with
  | refl => exact .inl hi
  | seed _ ih => exact ih hi
  | @add w w' t sd hs hsd hnew h ih =>
    rcases ih hi with h | ⟨h1, h2, h3⟩
    · change IMap.get? (IMap.set w.sites t.id t) i = some s at h
      rw [IMap.get?_set] at h
      split at h
      · next e => cases h; exact .inr ⟨e, by rw [← e]; exact hnew, _, hs⟩
      · exact .inl h
    · change IMap.get? (IMap.set w.sites t.id t) i = none at h2
      rw [IMap.get?_set] at h2
      split at h2
      · cases h2
      · exact .inr ⟨h1, h2, h3⟩

theorem Adds.old {m : IMap (IMap Addr)} (h : Adds mem m w w') {i : Int} {s : Site K} (hi : w.sites.get? i = some s) :
    w'.sites.get? i = some s := by
  induction h with
  | refl => exact hi
  | seed _ ih => exact ih hi
  | @add w w' t sd hs hsd hnew h ih =>
    apply ih
    show IMap.get? (IMap.set w.sites t.id t) i = some s
    rw [IMap.get?_set]
    split
    · next e => rw [← e, hnew] at hi; cases hi
    · exact hi

theorem Adds.clusters {m : IMap (IMap Addr)} (h : Adds mem m w w') : w'.clusters = w.clusters := by
  induction h with
  | refl => rfl
  | seed _ ih => exact ih
  | add _ _ _ _ _ _ ih => exact ih

theorem Adds.nextId {m : IMap (IMap Addr)} (h : Adds mem m w w') : w'.nextId = w.nextId := by
  induction h with
  | refl => rfl
  | seed _ ih => exact ih
  | add _ _ _ _ _ _ ih => exact ih

theorem Twins.keep (hst : Struct env w) (h : Twins w) (hk : Keep env w w') : Twins w' := by
  intro c x i s t hx hs ht
  obtain ⟨y, hy, hr⟩ := rel_some (hx ▸ hk.cluster c)
  obtain ⟨s0, hs0, hss, -⟩ := rel_some (hs ▸ hr.site i)
  obtain ⟨t0, ht0, htt⟩ := rel_some (ht ▸ hk.site i)
  exact hss.twin.trans ((h c y i s0 t0 hy hs0 ht0).trans htt.twin.symm)

theorem Twins.adds (hst : Struct env w) {m : IMap (IMap Addr)} (h : Twins w) (ha : Adds mem m w w') : Twins w' := by
  intro c x i s t hx hs ht
  rw [ha.clusters] at hx
  obtain ⟨-, t0, ht0, -⟩ := hst.member c x i s hx hs
  obtain rfl : t0 = t := by rw [ha.old ht0] at ht; exact Option.some_inj.1 ht
  exact h c x i s t0 hx hs ht0

theorem Twins.grew (hst : Struct env w) {basin : List Int} {M : K} {order : List Int → List Int} (h : Twins w)
    (hg : Grew env mem w w' basin M order) : Twins w' := by
  intro c x i s t hx hs ht
  obtain ⟨t0, ht0, htt⟩ := hg.twin ht
  have key : ∃ u, Twin s u ∧ (w.sites.get? i = some u ∨ ∃ c x, w.clusters.get? c = some x ∧ x.sites.get? i = some u) := by
    cases hg with
    | created c0 hb hc =>
      rw [hc.cluster] at hx
      split at hx
      · cases hx
        rw [hc.sites] at hs
        split at hs
        · rw [Option.map_eq_some_iff] at hs
          obtain ⟨u, hu, rfl⟩ := hs
          exact ⟨u, member_twin _ _, .inl hu⟩
        · cases hs
      · exact ⟨s, .refl s, .inr ⟨c, x, hx, hs⟩⟩
    | merged sc fav c' d erased _ _ _ _ hm =>
      rw [hm.cluster] at hx
      split at hx
      · cases hx
        rcases (hm.sites i s).1 hs with hs | ⟨-, u, hu, -, rfl⟩ | ⟨k, hk, y, u, hy, hu, rfl⟩
        · exact ⟨s, .refl s, .inr ⟨_, _, hm.target, hs⟩⟩
        · exact ⟨u, member_twin _ _, .inl hu⟩
        · exact ⟨u, mark_twin _ _, .inr ⟨k, y, hy, hu⟩⟩
      · split at hx
        · cases hx
        · exact ⟨s, .refl s, .inr ⟨c, x, hx, hs⟩⟩
  obtain ⟨u, hu, hw | ⟨k, y, hy, hyu⟩⟩ := key
  · rw [ht0] at hw; cases hw; exact hu.trans htt.symm
  · exact hu.trans ((h k y i u t0 hy hyu ht0).trans htt.symm)

/-- The facts about sites that hold in every history whose hops return. -/
theorem Trace.static {n : Nat} {evs : List (Event K)} (ht : Trace env (World.new n) evs w) (hu : HopsReturn evs) :
    Origin evs w ∧ Twins w := by
  generalize hw0 : (World.new n : World K) = w0 at ht
  induction ht with
  | nil => subst hw0; exact ⟨fun i s h => (by cases h), fun c x i s t h => (by cases h)⟩
  | @snoc w1 w' evs op res mem ht h hr ih =>
    obtain ⟨hu1, hu2⟩ := hopsReturn_snoc hu
    subst hw0
    have hst := ht.struct hu1
    obtain ⟨h1, h2⟩ := ih hu1
    have h1' := h1.mono (evs' := evs ++ [⟨w1, mem, op, res, w'⟩]) fun ev he => List.mem_append_left _ he
    rcases step_cases hst h hr hu2 with hk | ⟨m, rfl, ha⟩ | ⟨wid, k, a, j, w1', w2, w3, basin, -, -, hk, rfl, hg, rfl⟩
    · exact ⟨h1'.of_twin fun i s => hk.twin, h2.keep hst hk⟩
    · refine ⟨?_, h2.adds hst ha⟩
      intro i s hs
      rcases ha.sites hs with hs | ⟨hid, -, sd, hn⟩
      · exact h1' i s hs
      · exact ⟨_, List.mem_append_right _ (List.mem_singleton_self _), m, sd, s, rfl, hn, .refl s, hid⟩
    · have st1 := hst.keep hk
      have st2 : Struct env { w1' with iteration := w1'.iteration + 1 } := st1.keep (.of_eq rfl rfl rfl le_rfl)
      refine ⟨h1'.of_twin fun i s hs => ?_, ?_⟩
      · obtain ⟨t, ht, hst⟩ := hg.grew.twin hs
        obtain ⟨u, hu, htu⟩ := hk.twin ht
        exact ⟨u, hu, hst.trans htu⟩
      · have t2 : Twins { w1' with iteration := w1'.iteration + 1 } := h2.keep hst (hk.trans (.of_eq rfl rfl rfl le_rfl))
        have := t2.grew st2 hg.grew
        exact this

/-- The rates and cached values of a new site. -/
theorem NewSite.site {m : IMap (IMap Addr)} {sd : Option Nat} {s : Site K} (h : NewSite mem m sd s) :
    s.neigh.WF ∧ ((s.neigh = [] ∧ s.prob = [] ∧ s.tau = 0 ∧ s.seed = none) ∨ s.Fresh mem ∧ s.seed = sd.map (· % 2 ^ 32)) := by
  rcases h with ⟨rates, s0, hm, h0, e⟩ | ⟨e, -⟩
  · unfold Site.setRatesToNeighbors at h0
    split at h0
    · cases h0
    · obtain ⟨s1, h1, h2⟩ := bind_eq_ok.1 h0
      obtain ⟨e1, -⟩ := Site.setRatesLoop_ok h1
      have hw : s1.neigh.WF := by rw [e1]; exact Site.foldl_set_wf _ _ List.nodup_nil
      obtain ⟨f1, f2, -⟩ := Site.recalc_ok h2 hw
      rw [e]
      refine ⟨by rw [f2]; exact hw, .inr ⟨⟨f1.sum, f1.tau, f1.perm⟩, rfl⟩⟩
  · rw [e]
    exact ⟨List.nodup_nil, .inl ⟨rfl, rfl, rfl, rfl⟩⟩

theorem Trace.neighWF {n : Nat} {evs : List (Event K)} (ht : Trace env (World.new n) evs w) (hu : HopsReturn evs) {i : Int}
    {s : Site K} (hs : w.sites.get? i = some s) : s.neigh.WF := by
  obtain ⟨ev, -, m, sd, s0, -, hn, htw, -⟩ := (ht.static hu).1 i s hs
  rw [htw.neigh]; exact hn.site.1

end Mythical.World
