import Verif.Model.System
import Verif.Lemmas.IMap
import Verif.Lemmas.Except

/-! # What the calls of the system leave unchanged -/

set_option linter.unusedSectionVars false

namespace Mythical.World
open Mythical
variable {K : Type} [Field K] [LinearOrder K] [IsStrictOrderedRing K] [FloorRing K]
variable {w w' w1 w2 : World K} {p q : FPtr} {env : Env K} {mem : Addr → K}

/-- Only the stored sites and clusters differ. -/
def Inner (w w' : World K) : Prop := ∃ S C, w' = { w with sites := S, clusters := C }

theorem Inner.refl (w : World K) : Inner w w := ⟨w.sites, w.clusters, rfl⟩

theorem Inner.trans (h1 : Inner w w1) (h2 : Inner w1 w2) : Inner w w2 := by
  obtain ⟨S, C, rfl⟩ := h1
  obtain ⟨S', C', rfl⟩ := h2
  exact ⟨S', C', rfl⟩

theorem siteOf_ok {i : Int} {s : Site K} (h : w.siteOf i = .ok s) : w.sites.get? i = some s := by
  unfold siteOf at h
  cases e : w.sites.get? i with
  | none => rw [e] at h; cases h
  | some t => rw [e] at h; cases h; rfl

theorem clusterOf_ok {i : Int} {c : Cluster K} (h : w.clusterOf i = .ok c) : w.clusters.get? i = some c := by
  unfold clusterOf at h
  cases e : w.clusters.get? i with
  | none => rw [e] at h; cases h
  | some t => rw [e] at h; cases h; rfl

theorem siteOf_of {i : Int} {s : Site K} (h : w.sites.get? i = some s) : w.siteOf i = .ok s := by
  unfold siteOf; rw [h]

theorem clusterOf_of {i : Int} {c : Cluster K} (h : w.clusters.get? i = some c) : w.clusterOf i = .ok c := by
  unfold clusterOf; rw [h]

/-- A change of the object behind a pointer. -/
def SiteCall (w w' : World K) (id : Int) (f : Site K → Except Fault (Site K)) : Prop :=
  ∃ s s', w.sites.get? id = some s ∧ f s = .ok s' ∧ w' = { w with sites := w.sites.put id s' }

/-- A change of the object behind a pointer. -/
def ClusterCall (w w' : World K) (id : Int) (f : Cluster K → Except Fault (Cluster K)) : Prop :=
  ∃ c c', w.clusters.get? id = some c ∧ f c = .ok c' ∧ w' = { w with clusters := w.clusters.put id c' }

theorem SiteCall.inner {id : Int} {f : Site K → Except Fault (Site K)} (h : SiteCall w w' id f) : Inner w w' := by
  obtain ⟨s, s', -, -, rfl⟩ := h; exact ⟨_, w.clusters, rfl⟩

theorem ClusterCall.inner {id : Int} {f : Cluster K → Except Fault (Cluster K)} (h : ClusterCall w w' id f) :
    Inner w w' := by
  obtain ⟨s, s', -, -, rfl⟩ := h; exact ⟨w.sites, _, rfl⟩

theorem siteCall_of {id : Int} {f : Site K → Except Fault (Site K)}
    (h : (w.siteOf id >>= fun s => f s >>= fun s' => Except.ok { w with sites := w.sites.put id s' }) = .ok w') :
    SiteCall w w' id f := by
  rw [bind_eq_ok] at h
  obtain ⟨s, hs, h⟩ := h
  rw [bind_eq_ok] at h
  obtain ⟨s', hf, h⟩ := h
  cases h
  exact ⟨s, s', siteOf_ok hs, hf, rfl⟩

theorem clusterCall_of {id : Int} {f : Cluster K → Except Fault (Cluster K)}
    (h : (w.clusterOf id >>= fun c => f c >>= fun c' => Except.ok { w with clusters := w.clusters.put id c' }) = .ok w') :
    ClusterCall w w' id f := by
  rw [bind_eq_ok] at h
  obtain ⟨s, hs, h⟩ := h
  rw [bind_eq_ok] at h
  obtain ⟨s', hf, h⟩ := h
  cases h
  exact ⟨s, s', clusterOf_ok hs, hf, rfl⟩

theorem vacateAt_ok {i : Int} (h : w.vacateAt p i = .ok w') :
    (∃ id, p = .site id ∧ SiteCall w w' id Site.vacate) ∨
    ∃ id, p = .cluster id ∧ ClusterCall w w' id fun c => c.vacateSite i := by
  cases p with
  | null => cases h
  | site id => exact .inl ⟨id, rfl, siteCall_of h⟩
  | cluster id => exact .inr ⟨id, rfl, clusterCall_of h⟩

theorem occupyAt_ok {i : Int} (h : w.occupyAt p i = .ok w') :
    (∃ id, p = .site id ∧ SiteCall w w' id Site.occupy) ∨
    ∃ id, p = .cluster id ∧ ClusterCall w w' id fun c => c.occupySite i := by
  cases p with
  | null => cases h
  | site id => exact .inl ⟨id, rfl, siteCall_of h⟩
  | cluster id => exact .inr ⟨id, rfl, clusterCall_of h⟩

theorem occupyFeat_ok (h : w.occupyFeat p = .ok w') :
    (∃ id, p = .site id ∧ SiteCall w w' id Site.occupy) ∨
    ∃ id, p = .cluster id ∧ ClusterCall w w' id fun c => c.occupy := by
  cases p with
  | null => cases h
  | site id => exact .inl ⟨id, rfl, siteCall_of h⟩
  | cluster id => exact .inr ⟨id, rfl, clusterCall_of h⟩

theorem removeAt_ok {wid i : Int} (h : w.removeAt p wid i = .ok w') :
    (∃ id, p = .site id ∧ SiteCall w w' id Site.vacate) ∨
    ∃ id, p = .cluster id ∧ ClusterCall w w' id fun c => c.removeWalker wid i := by
  cases p with
  | null => cases h
  | site id => exact .inl ⟨id, rfl, siteCall_of h⟩
  | cluster id => exact .inr ⟨id, rfl, clusterCall_of h⟩

theorem dwellAt_ok {wid : Int} {e t : K} (h : w.dwellAt p wid e = .ok (t, w')) :
    (∃ id s, p = .site id ∧ w.sites.get? id = some s ∧ t = s.getDwellTime e ∧ w' = w) ∨
    ∃ id c c', p = .cluster id ∧ w.clusters.get? id = some c ∧ c.getDwellTime wid e = .ok (t, c') ∧
      w' = { w with clusters := w.clusters.put id c' } := by
  cases p with
  | null => cases h
  | site id =>
    obtain ⟨s, hs, h⟩ := bind_eq_ok.1 h
    cases h
    exact .inl ⟨id, s, rfl, siteOf_ok hs, rfl, rfl⟩
  | cluster id =>
    obtain ⟨c, hc, h⟩ := bind_eq_ok.1 h
    obtain ⟨⟨t', c'⟩, hf, h⟩ := bind_eq_ok.1 h
    simp only [Except.ok.injEq, Prod.mk.injEq] at h
    obtain ⟨rfl, rfl⟩ := h
    exact .inr ⟨id, c, c', rfl, clusterOf_ok hc, hf, rfl⟩

theorem pickAt_ok {wid n : Int} {u : K} (h : w.pickAt p wid u = .ok (n, w')) :
    (∃ id s, p = .site id ∧ w.sites.get? id = some s ∧ n = s.pickNewSiteId u ∧ w' = w) ∨
    ∃ id c c', p = .cluster id ∧ w.clusters.get? id = some c ∧ c.pickNewSiteId wid u = .ok (n, c') ∧
      w' = { w with clusters := w.clusters.put id c' } := by
  cases p with
  | null => cases h
  | site id =>
    obtain ⟨s, hs, h⟩ := bind_eq_ok.1 h
    cases h
    exact .inl ⟨id, s, rfl, siteOf_ok hs, rfl, rfl⟩
  | cluster id =>
    obtain ⟨c, hc, h⟩ := bind_eq_ok.1 h
    obtain ⟨⟨t', c'⟩, hf, h⟩ := bind_eq_ok.1 h
    simp only [Except.ok.injEq, Prod.mk.injEq] at h
    obtain ⟨rfl, rfl⟩ := h
    exact .inr ⟨id, c, c', rfl, clusterOf_ok hc, hf, rfl⟩

theorem vacateAt_inner {i : Int} (h : w.vacateAt p i = .ok w') : Inner w w' := by
  rcases vacateAt_ok h with ⟨_, _, h⟩ | ⟨_, _, h⟩ <;> exact h.inner

theorem occupyAt_inner {i : Int} (h : w.occupyAt p i = .ok w') : Inner w w' := by
  rcases occupyAt_ok h with ⟨_, _, h⟩ | ⟨_, _, h⟩ <;> exact h.inner

theorem occupyFeat_inner (h : w.occupyFeat p = .ok w') : Inner w w' := by
  rcases occupyFeat_ok h with ⟨_, _, h⟩ | ⟨_, _, h⟩ <;> exact h.inner

theorem removeAt_inner {wid i : Int} (h : w.removeAt p wid i = .ok w') : Inner w w' := by
  rcases removeAt_ok h with ⟨_, _, h⟩ | ⟨_, _, h⟩ <;> exact h.inner

theorem dwellAt_inner {wid : Int} {e t : K} (h : w.dwellAt p wid e = .ok (t, w')) : Inner w w' := by
  rcases dwellAt_ok h with ⟨_, _, _, _, _, rfl⟩ | ⟨_, _, _, _, _, _, rfl⟩
  · exact .refl _
  · exact ⟨w.sites, _, rfl⟩

theorem pickAt_inner {wid n : Int} {u : K} (h : w.pickAt p wid u = .ok (n, w')) : Inner w w' := by
  rcases pickAt_ok h with ⟨_, _, _, _, _, rfl⟩ | ⟨_, _, _, _, _, _, rfl⟩
  · exact .refl _
  · exact ⟨w.sites, _, rfl⟩

theorem walkerOf_ok {h : Int} {x : Walker K} (e : w.walkerOf h = .ok x) : w.walkers.get? h = some x := by
  unfold walkerOf at e
  cases e' : w.walkers.get? h with
  | none => rw [e'] at e; cases e
  | some t => rw [e'] at e; cases e; rfl

theorem walkerOf_of {h : Int} {x : Walker K} (e : w.walkers.get? h = some x) : w.walkerOf h = .ok x := by
  unfold walkerOf; rw [e]

theorem walkerSite_ok {x : Walker K} {i : Int} : walkerSite x = .ok i ↔ x.site ≠ unassignedId ∧ x.site = i := by
  unfold walkerSite; split <;> simp_all

theorem walkerPot_ok {x : Walker K} {i : Int} : walkerPot x = .ok i ↔ x.pot ≠ unassignedId ∧ x.pot = i := by
  unfold walkerPot; split <;> simp_all

/-- `initWalker`, step by step. -/
theorem initWalker_ok {a : Entry K} (h : w.initWalker a = .ok w') :
    ∃ x w1 t w2 n w3, w.walkers.get? a.handle = some x ∧ x.site ≠ unassignedId ∧ x.site ∈ w.feats.keys ∧
      w.occupyFeat (w.feat x.site) = .ok w1 ∧ w1.dwellAt (w.feat x.site) a.wid a.e = .ok (t, w2) ∧
      w2.pickAt (w.feat x.site) a.wid a.u = .ok (n, w3) ∧
      w' = { w3 with walkers := w3.walkers.set a.handle { x with dwell := t, pot := n } } := by
  unfold initWalker at h
  obtain ⟨x, hx, h⟩ := bind_eq_ok.1 h
  obtain ⟨i, hi, h⟩ := bind_eq_ok.1 h
  obtain ⟨hi0, rfl⟩ := walkerSite_ok.1 hi
  split at h
  · next hk =>
    obtain ⟨w1, h1, h⟩ := bind_eq_ok.1 h
    obtain ⟨⟨t, w2⟩, h2, h⟩ := bind_eq_ok.1 h
    obtain ⟨⟨n, w3⟩, h3, h⟩ := bind_eq_ok.1 h
    cases h
    exact ⟨x, w1, t, w2, n, w3, walkerOf_ok hx, hi0, IMap.has_iff.1 hk, h1, h2, h3, rfl⟩
  · cases h

/-- `removeWalkerFromSystem`, step by step. -/
theorem removeWalker_ok {wid h : Int} (e : w.removeWalker wid h = .ok w') :
    ∃ x, w.walkers.get? h = some x ∧ x.site ≠ unassignedId ∧ w.removeAt (w.feat x.site) wid x.site = .ok w' := by
  unfold removeWalker at e
  obtain ⟨x, hx, e⟩ := bind_eq_ok.1 e
  obtain ⟨i, hi, e⟩ := bind_eq_ok.1 e
  obtain ⟨hi0, rfl⟩ := walkerSite_ok.1 hi
  exact ⟨x, walkerOf_ok hx, hi0, e⟩

/-- `hop` up to the counter, step by step: `b` says whether the hop is blocked, `(k, r)` is where the walker is then. -/
theorem hopMove_ok {wid h j : Int} {a : Choices K} (e : w.hopMove wid h a = .ok (j, w')) :
    ∃ x b w1 w2 t w3 n w4, w.walkers.get? h = some x ∧ x.site ≠ unassignedId ∧ x.pot ≠ unassignedId ∧ j = x.pot ∧
      w.isOccupiedAt (w.feat x.pot) x.pot = .ok b ∧ w.vacateAt (w.feat x.site) x.site = .ok w1 ∧
      w1.occupyAt (w.feat (if b then x.site else x.pot)) (if b then x.site else x.pot) = .ok w2 ∧
      w2.dwellAt (w.feat (if b then x.site else x.pot)) wid a.e = .ok (t, w3) ∧
      w3.pickAt (w.feat (if b then x.site else x.pot)) wid a.u = .ok (n, w4) ∧
      w' = { w4 with walkers := w4.walkers.set h ⟨if b then x.site else x.pot, n, t⟩ } := by
  unfold hopMove at e
  obtain ⟨x, hx, e⟩ := bind_eq_ok.1 e
  obtain ⟨i, hi, e⟩ := bind_eq_ok.1 e
  obtain ⟨hi0, rfl⟩ := walkerSite_ok.1 hi
  obtain ⟨k, hk, e⟩ := bind_eq_ok.1 e
  obtain ⟨hk0, rfl⟩ := walkerPot_ok.1 hk
  obtain ⟨b, hb, e⟩ := bind_eq_ok.1 e
  cases b with
  | true =>
    simp only [if_true] at e
    obtain ⟨w1, h1, e⟩ := bind_eq_ok.1 e
    obtain ⟨w2, h2, e⟩ := bind_eq_ok.1 e
    obtain ⟨⟨t, w3⟩, h3, e⟩ := bind_eq_ok.1 e
    obtain ⟨⟨n, w4⟩, h4, e⟩ := bind_eq_ok.1 e
    simp only [Except.ok.injEq, Prod.mk.injEq] at e
    obtain ⟨rfl, rfl⟩ := e
    exact ⟨x, true, w1, w2, t, w3, n, w4, walkerOf_ok hx, hi0, hk0, rfl, hb, h1, h2, h3, h4, rfl⟩
  | false =>
    simp only [Bool.false_eq_true, if_false] at e
    obtain ⟨w1, h1, e⟩ := bind_eq_ok.1 e
    obtain ⟨w2, h2, e⟩ := bind_eq_ok.1 e
    obtain ⟨⟨t, w3⟩, h3, e⟩ := bind_eq_ok.1 e
    obtain ⟨⟨n, w4⟩, h4, e⟩ := bind_eq_ok.1 e
    simp only [Except.ok.injEq, Prod.mk.injEq] at e
    obtain ⟨rfl, rfl⟩ := e
    exact ⟨x, false, w1, w2, t, w3, n, w4, walkerOf_ok hx, hi0, hk0, rfl, hb, h1, h2, h3, h4, rfl⟩

/-- Only sites, clusters and walkers differ. -/
def Outer (w w' : World K) : Prop := ∃ S C W, w' = { w with sites := S, clusters := C, walkers := W }

theorem Inner.outer (h : Inner w w') : Outer w w' := by
  obtain ⟨S, C, rfl⟩ := h; exact ⟨S, C, w.walkers, rfl⟩

theorem Outer.refl (w : World K) : Outer w w := ⟨w.sites, w.clusters, w.walkers, rfl⟩

theorem Outer.trans (h1 : Outer w w1) (h2 : Outer w1 w2) : Outer w w2 := by
  obtain ⟨S, C, W, rfl⟩ := h1
  obtain ⟨S', C', W', rfl⟩ := h2
  exact ⟨S', C', W', rfl⟩

theorem Outer.setWalkers (h : Outer w w') (W : IMap (Walker K)) : Outer w { w' with walkers := W } := by
  obtain ⟨S, C, W', rfl⟩ := h; exact ⟨S, C, W, rfl⟩

theorem initWalker_outer {a : Entry K} (h : w.initWalker a = .ok w') : Outer w w' := by
  obtain ⟨x, w1, t, w2, n, w3, -, -, -, h1, h2, h3, rfl⟩ := initWalker_ok h
  exact (((occupyFeat_inner h1).trans (dwellAt_inner h2)).trans (pickAt_inner h3)).outer.setWalkers _

theorem initWalkers_outer {l : List (Entry K)} : Outer w (w.initWalkers l).2 := by
  induction l generalizing w with
  | nil => exact .refl _
  | cons a l ih =>
    unfold initWalkers
    cases e : w.initWalker a with
    | error e => exact .refl _
    | ok w1 => exact (initWalker_outer e).trans ih

theorem initializeWalkers_outer {l : List (Entry K)} : Outer w (w.initializeWalkers l).2 := by
  unfold initializeWalkers; split
  · exact .refl _
  · exact initWalkers_outer

theorem hopMove_outer {wid h j : Int} {a : Choices K} (e : w.hopMove wid h a = .ok (j, w')) : Outer w w' := by
  obtain ⟨x, b, w1, w2, t, w3, n, w4, -, -, -, -, -, h1, h2, h3, h4, rfl⟩ := hopMove_ok e
  exact ((((vacateAt_inner h1).trans (occupyAt_inner h2)).trans (dwellAt_inner h3)).trans
    (pickAt_inner h4)).outer.setWalkers _

theorem removeWalker_inner {wid h : Int} (e : w.removeWalker wid h = .ok w') : Inner w w' := by
  obtain ⟨x, -, -, h⟩ := removeWalker_ok e
  exact removeAt_inner h

end Mythical.World
