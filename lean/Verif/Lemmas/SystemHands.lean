import Verif.Lemmas.SystemInvariant

/-! # What a hop hands out to the walker -/

set_option linter.unusedSectionVars false
set_option linter.unusedVariables false

namespace Mythical.World
open Mythical SystemSpec
variable {K : Type} [Field K] [LinearOrder K] [IsStrictOrderedRing K] [FloorRing K]
variable {w w' w1 w2 : World K} {env : Env K} {mem : Addr → K} {act act' : List Int}

/-- The tables from which dwell times and next sites are taken are the same. -/
structure Tables (x y : Cluster K) : Prop where
  tau : y.tau = x.tau
  inc : y.timeInc = x.timeInc
  rem : y.remaining = x.remaining
  cumI : y.cumInternal = x.cumInternal
  cumN : y.cumNeigh = x.cumNeigh

theorem Tables.refl (x : Cluster K) : Tables x x := ⟨rfl, rfl, rfl, rfl, rfl⟩

theorem Tables.dwell {x y y' : Cluster K} (h : Tables x y) {wid : Int} {e t : K} (hd : y.getDwellTime wid e = .ok (t, y')) :
    ∃ x', x.getDwellTime wid e = .ok (t, x') ∧ Tables x' y' := by
  unfold Cluster.getDwellTime at hd ⊢
  rw [h.tau, h.inc, h.rem] at hd
  cases ht : x.tau with
  | none => rw [ht] at hd; cases hd
  | some t0 =>
    cases hi : x.timeInc with
    | none => rw [ht, hi] at hd; cases hd
    | some dt =>
      rw [ht, hi] at hd
      simp only at hd ⊢
      split at hd
      · next h1 =>
        simp only [Except.ok.injEq, Prod.mk.injEq] at hd
        obtain ⟨rfl, rfl⟩ := hd
        rw [if_pos h1]
        exact ⟨_, rfl, rfl, rfl, rfl, h.cumI, h.cumN⟩
      · next h1 =>
        rw [if_neg h1]
        split at hd
        · next h2 =>
          simp only [Except.ok.injEq, Prod.mk.injEq] at hd
          obtain ⟨rfl, rfl⟩ := hd
          rw [if_pos h2]
          exact ⟨_, rfl, rfl, rfl, rfl, h.cumI, h.cumN⟩
        · cases hd

theorem Tables.pick {x y y' : Cluster K} (h : Tables x y) {wid n : Int} {u : K} (hd : y.pickNewSiteId wid u = .ok (n, y')) :
    ∃ x', x.pickNewSiteId wid u = .ok (n, x') := by
  unfold Cluster.pickNewSiteId at hd ⊢
  rw [h.rem, h.cumI, h.cumN] at hd
  split at hd
  · cases hd
  · split at hd
    · next h1 => cases hd; exact ⟨_, if_pos h1⟩
    · next h1 => cases hd; exact ⟨_, if_neg h1⟩

theorem clusterCall_tables {id : Int} {f : Cluster K → Except Fault (Cluster K)} (h : ClusterCall w w' id f)
    (hf : ∀ x y, f x = .ok y → Tables x y) (c : Int) : Option.Rel Tables (w.clusters.get? c) (w'.clusters.get? c) := by
  obtain ⟨x, x', hx, hv, rfl⟩ := h
  show Option.Rel _ _ (IMap.get? (IMap.set w.clusters id x') c)
  rw [IMap.get?_set]
  by_cases e : id = c
  · subst e; rw [if_pos rfl, hx]; exact .some (hf _ _ hv)
  · rw [if_neg e]; exact rel_self Tables.refl _

theorem vacateAt_tables {p : FPtr} {i : Int} (h : w.vacateAt p i = .ok w') (c : Int) :
    Option.Rel Tables (w.clusters.get? c) (w'.clusters.get? c) := by
  rcases vacateAt_ok h with ⟨id, -, s, s', hs, hv, rfl⟩ | ⟨id, -, h⟩
  · exact rel_self Tables.refl _
  · refine clusterCall_tables h (fun x y hxy => ?_) c
    obtain ⟨-, -, rfl⟩ := Cluster.vacateSite_ok hxy
    exact ⟨rfl, rfl, rfl, rfl, rfl⟩

theorem occupyAt_tables {p : FPtr} {i : Int} (h : w.occupyAt p i = .ok w') (c : Int) :
    Option.Rel Tables (w.clusters.get? c) (w'.clusters.get? c) := by
  rcases occupyAt_ok h with ⟨id, -, s, s', hs, hv, rfl⟩ | ⟨id, -, h⟩
  · exact rel_self Tables.refl _
  · refine clusterCall_tables h (fun x y hxy => ?_) c
    obtain ⟨-, -, rfl⟩ := Cluster.occupySite_ok hxy
    exact ⟨rfl, rfl, rfl, rfl, rfl⟩

theorem occupyFeat_tables {p : FPtr} (h : w.occupyFeat p = .ok w') (c : Int) :
    Option.Rel Tables (w.clusters.get? c) (w'.clusters.get? c) := by
  rcases occupyFeat_ok h with ⟨id, -, s, s', hs, hv, rfl⟩ | ⟨id, -, h⟩
  · exact rel_self Tables.refl _
  · refine clusterCall_tables h (fun x y hxy => ?_) c
    obtain ⟨-, rfl⟩ := Cluster.occupy_ok hxy
    exact ⟨rfl, rfl, rfl, rfl, rfl⟩

theorem Tables.trans {x y z : Cluster K} (h1 : Tables x y) (h2 : Tables y z) : Tables x z :=
  ⟨h2.tau.trans h1.tau, h2.inc.trans h1.inc, h2.rem.trans h1.rem, h2.cumI.trans h1.cumI, h2.cumN.trans h1.cumN⟩

/-- What the feature of site `k` hands out after the occupation counts have changed is what it handed out before. -/
theorem handsOut_of (hst : Struct env w) (hk : Keep env w w1)
    (hc : ∀ c, Option.Rel Tables (w.clusters.get? c) (w1.clusters.get? c)) {k wid n : Int} {e u t : K} {w2 w3 : World K}
    (h2 : w1.dwellAt (w.feat k) wid e = .ok (t, w2)) (h3 : w2.pickAt (w.feat k) wid u = .ok (n, w3)) :
    HandsOut w k wid e u t n := by
  rcases hst.feat_cases k with ⟨a, -⟩ | ⟨s, a, b, c⟩ | ⟨s, a, b, c, -⟩
  · rw [a] at h2; cases h2
  · refine ⟨s, b, .inl ⟨c, ?_⟩⟩
    obtain ⟨s1, hs1, hsame⟩ := rel_some' (b ▸ hk.site k)
    rw [a] at h2 h3
    rcases dwellAt_ok h2 with ⟨id, s', hp, hs', ht, rfl⟩ | ⟨id, x, x', hp, -⟩
    · cases hp
      rw [hs1] at hs'; cases hs'
      rcases pickAt_ok h3 with ⟨id, s', hp, hs', hn, -⟩ | ⟨id, x, x', hp, -⟩
      · cases hp
        rw [hs1] at hs'; cases hs'
        rw [ht, hn, hsame]
        exact ⟨rfl, rfl⟩
      · cases hp
    · cases hp
  · refine ⟨s, b, .inr ⟨c, ?_⟩⟩
    rw [a] at h2 h3
    rcases dwellAt_ok h2 with ⟨id, s', hp, -⟩ | ⟨id, y, y', hp, hy, hd, rfl⟩
    · cases hp
    · cases hp
      obtain ⟨x, hx, htab⟩ := rel_some (hy ▸ hc s.clusterId)
      obtain ⟨x1, hx1, htab1⟩ := htab.dwell hd
      rcases pickAt_ok h3 with ⟨id, s', hp, -⟩ | ⟨id, z, z', hp, hz, hd', -⟩
      · cases hp
      · cases hp
        change IMap.get? (IMap.set _ _ _) _ = _ at hz
        rw [IMap.get?_set_self] at hz
        cases hz
        obtain ⟨x2, hx2⟩ := htab1.pick hd'
        exact ⟨x, x1, x2, hx, hx1, hx2⟩

/-- The move of a walker, with what it is handed out. -/
theorem hopMove_hands (hst : Struct env w) {wid h j : Int} {a : Choices K} (e : w.hopMove wid h a = .ok (j, w')) :
    ∃ x b n t, w.walkers.get? h = some x ∧ x.site ≠ unassignedId ∧ x.pot ≠ unassignedId ∧ j = x.pot ∧
      w.isOccupiedAt (w.feat x.pot) x.pot = .ok b ∧
      HandsOut w (if b then x.site else x.pot) wid a.e a.u t n ∧
      w'.walkers = w.walkers.set h ⟨if b then x.site else x.pot, n, t⟩ := by
  obtain ⟨x, b, w1, w2, t, w3, n, w4, hx, h0, h0', hj, hb, h1, h2, h3, h4, rfl⟩ := hopMove_ok e
  have s1 := hst.vacateAt h1
  have st1 := hst.step s1
  have h2' := h2
  rw [← s1.inner.feat] at h2'
  have s2 := st1.occupyAt h2'
  have i4 := ((s1.inner.trans s2.inner).trans (dwellAt_inner h3)).trans (pickAt_inner h4)
  refine ⟨x, b, n, t, hx, h0, h0', hj, hb, ?_, ?_⟩
  · exact handsOut_of hst (s1.keep.trans s2.keep)
      (fun c => rel_trans (r := Tables) (s := Tables) (fun _ _ _ a b => a.trans b) (vacateAt_tables h1 c) (occupyAt_tables h2 c))
      h3 h4
  · show IMap.set _ _ _ = _
    rw [i4.walkers]

end Mythical.World
