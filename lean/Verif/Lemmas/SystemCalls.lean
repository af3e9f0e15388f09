import Verif.Lemmas.SystemLive
import Verif.Lemmas.SystemTotal

/-! # The other calls return -/

namespace Mythical
namespace World
open SystemSpec
set_option linter.unusedSectionVars false
variable {K : Type} [Field K] [LinearOrder K] [IsStrictOrderedRing K] [FloorRing K]
variable {env : Env K} {mem : Addr → K} {w w' : World K}

theorem cluster_occupy_or (c : Cluster K) : OkOrOverflow c.occupy := by
  unfold Cluster.occupy
  exact or_bind (chk_or _) fun _ _ => or_bind (chk_or _) fun _ _ => or_ok _

theorem Sure.occupyFeat {i : Int} (h : Sure w i) : OkOrOverflow (w.occupyFeat (w.feat i)) := by
  obtain ⟨s, hs, ⟨h1, -⟩ | ⟨x, t, h1, h2, h3, -⟩⟩ := h
  · rw [h1]; unfold World.occupyFeat
    simp only [siteOf_of hs, ok_bind]
    exact or_bind (site_occupy_or s) fun _ _ => or_ok _
  · rw [h1]; unfold World.occupyFeat
    simp only [clusterOf_of h2, ok_bind]
    exact or_bind (cluster_occupy_or _) fun _ _ => or_ok _

theorem Sure.remove {i : Int} (h : Sure w i) (wid : Int) : OkOrOverflow (w.removeAt (w.feat i) wid i) := by
  obtain ⟨s, hs, ⟨h1, -⟩ | ⟨x, t, h1, h2, h3, -⟩⟩ := h
  · rw [h1]; unfold removeAt
    simp only [siteOf_of hs, ok_bind]
    exact or_bind (site_vacate_or s) fun _ _ => or_ok _
  · rw [h1]; unfold removeAt
    simp only [clusterOf_of h2, ok_bind]
    refine or_bind ?_ fun _ _ => or_ok _
    unfold Cluster.removeWalker Cluster.vacateSite
    exact or_bind (site_vacate_or _) fun _ _ => or_bind (chk_or _) fun _ _ => or_ok _

theorem initWalker_moves (hst : Struct env w) (hall : AllSettled mem w) (hl : Left w) {a : Entry K} {i : Int}
    (ho : On w a.handle i) (hs : Sure w i) (he : 0 < a.e) : OkOrOverflow (w.initWalker a) := by
  obtain ⟨x, hx, rfl, h0⟩ := ho
  have ex : w.walkerOf a.handle = .ok x := by unfold walkerOf; rw [hx]
  have e1 : walkerSite x = .ok x.site := walkerSite_ok.2 ⟨h0, rfl⟩
  have hk : w.feats.has x.site = true := by
    rw [IMap.has_iff, IMap.mem_keys_iff_get?]
    obtain ⟨s, hs, -⟩ := hs
    have : w.feats.get? x.site ≠ none := fun h => by rw [(hst.known _).1 h] at hs; cases hs
    exact Option.ne_none_iff_exists'.1 this
  unfold initWalker
  simp only [ex, e1, ok_bind, hk, if_true]
  refine or_bind hs.occupyFeat fun w1 hw1 => ?_
  have k1 := hst.occupyFeat_any hw1
  have hf : w1.feat x.site = w.feat x.site := by unfold World.feat; rw [k1.feats]
  have l1 : Left w1 := hl.tables (occupyFeat_tables hw1)
  rw [← hf]
  obtain ⟨t, w3, n, w4, h3, h4⟩ := (hs.keep k1).hands (hall.keep k1) l1 (wid := a.wid) (u := a.u) he
  rw [h3, ok_bind]
  simp only [h4, ok_bind]
  exact or_ok _

theorem initWalker_on {a : Entry K} (e : w.initWalker a = .ok w') (h i : Int) : On w' h i ↔ On w h i := by
  obtain ⟨x, w1, t, w2, n, w3, hx, h0, hk, h1, h2, h3, rfl⟩ := initWalker_ok e
  have hwk : w3.walkers = w.walkers := by
    rw [(pickAt_inner h3).walkers, (dwellAt_inner h2).walkers]
    rcases occupyFeat_ok h1 with ⟨id, -, s, s', -, -, rfl⟩ | ⟨id, -, c, c', -, -, rfl⟩ <;> rfl
  unfold On
  simp only [hwk]
  rw [IMap.get?_set]
  split
  · next hh =>
    subst hh
    simp [hx]
  · rfl

end World
end Mythical
