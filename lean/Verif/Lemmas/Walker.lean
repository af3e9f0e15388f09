import Verif.Spec.Walker
import Verif.Lemmas.SystemFrame

/-! # Lemmas: which calls write to which walkers -/

set_option linter.unusedSectionVars false

namespace Mythical.World
open Mythical WalkerSpec
variable {K : Type} [Field K] [LinearOrder K] [IsStrictOrderedRing K] [FloorRing K]
variable {env : Env K} {mem : Addr → K} {w w' : World K}

theorem vacateAt_walkers {p : FPtr} {i : Int} (h : w.vacateAt p i = .ok w') : w'.walkers = w.walkers := by
  unfold vacateAt at h
  split at h
  · cases h
  all_goals
    obtain ⟨_, -, h⟩ := bind_eq_ok.1 h
    obtain ⟨_, -, h⟩ := bind_eq_ok.1 h
    cases h; rfl

theorem occupyAt_walkers {p : FPtr} {i : Int} (h : w.occupyAt p i = .ok w') : w'.walkers = w.walkers := by
  unfold occupyAt at h
  split at h
  · cases h
  all_goals
    obtain ⟨_, -, h⟩ := bind_eq_ok.1 h
    obtain ⟨_, -, h⟩ := bind_eq_ok.1 h
    cases h; rfl

theorem occupyFeat_walkers {p : FPtr} (h : w.occupyFeat p = .ok w') : w'.walkers = w.walkers := by
  unfold occupyFeat at h
  split at h
  · cases h
  all_goals
    obtain ⟨_, -, h⟩ := bind_eq_ok.1 h
    obtain ⟨_, -, h⟩ := bind_eq_ok.1 h
    cases h; rfl

theorem removeAt_walkers {p : FPtr} {wid i : Int} (h : w.removeAt p wid i = .ok w') : w'.walkers = w.walkers := by
  unfold removeAt at h
  split at h
  · cases h
  all_goals
    obtain ⟨_, -, h⟩ := bind_eq_ok.1 h
    obtain ⟨_, -, h⟩ := bind_eq_ok.1 h
    cases h; rfl

theorem dwellAt_walkers {p : FPtr} {wid : Int} {e t : K} (h : w.dwellAt p wid e = .ok (t, w')) : w'.walkers = w.walkers := by
  unfold dwellAt at h
  split at h
  · cases h
  · obtain ⟨_, -, h⟩ := bind_eq_ok.1 h
    cases h; rfl
  · obtain ⟨_, -, h⟩ := bind_eq_ok.1 h
    obtain ⟨_, -, h⟩ := bind_eq_ok.1 h
    cases h; rfl

theorem pickAt_walkers {p : FPtr} {wid n : Int} {u : K} (h : w.pickAt p wid u = .ok (n, w')) : w'.walkers = w.walkers := by
  unfold pickAt at h
  split at h
  · cases h
  · obtain ⟨_, -, h⟩ := bind_eq_ok.1 h
    cases h; rfl
  · obtain ⟨_, -, h⟩ := bind_eq_ok.1 h
    obtain ⟨_, -, h⟩ := bind_eq_ok.1 h
    cases h; rfl

theorem initSite_walkers (id : Int) (rates : IMap Addr) : (initSite mem w id rates).2.walkers = w.walkers := by
  unfold initSite
  split
  · rfl
  · split <;> rfl

theorem initSites_walkers : ∀ (l : List (Int × IMap Addr)) (w : World K), (initSites mem w l).2.walkers = w.walkers
  | [], _ => rfl
  | (id, rates) :: l, w => by
    have := initSite_walkers (mem := mem) (w := w) id rates
    unfold initSites
    split
    · next h => rw [h] at this; exact this
    · next h => rw [h] at this; rw [initSites_walkers l]; exact this

theorem initDrains_walkers : ∀ (l : List Int) (w : World K), (initDrains w l).2.walkers = w.walkers
  | [], _ => rfl
  | id :: l, w => by
    unfold initDrains
    split
    · rfl
    · rw [initDrains_walkers l]

theorem initializeSystem_walkers (m : IMap (IMap Addr)) : (w.initializeSystem mem m).2.walkers = w.walkers := by
  have := initSites_walkers (mem := mem) m w
  unfold initializeSystem
  split
  · rfl
  · split
    · next h => rw [h] at this; exact this
    · next h => rw [h] at this; rw [initDrains_walkers]; exact this

theorem attach_walkers (cid : Int) : ∀ (l : List Int) (w : World K), (w.attach cid l).2.walkers = w.walkers
  | [], _ => rfl
  | i :: l, w => by
    unfold attach
    split
    · rfl
    · rw [attach_walkers cid l]

theorem createCluster_walkers (l : List Int) (t : K) : (createCluster env mem w l t).2.walkers = w.walkers := by
  unfold createCluster
  split
  · rfl
  · split
    · rfl
    · split
      · rfl
      · split
        · rfl
        · rw [attach_walkers]

theorem mergeCollect_walkers (fav : Int) : ∀ (l : List (Int × Int)) (w : World K) (iso : List (Site K)) (cids : List Int),
    (mergeCollect w fav iso cids l).2.walkers = w.walkers
  | [], _, _, _ => rfl
  | (i, c) :: l, w, iso, cids => by
    unfold mergeCollect
    split
    · split
      · rfl
      · split
        · rfl
        · have := attach_walkers fav [i] w
          split
          · next h => rw [h] at this; exact this
          · next h =>
            rw [h] at this
            split <;> (rw [mergeCollect_walkers fav l]; exact this)
    · exact mergeCollect_walkers fav l w iso cids

theorem mergeClusters_walkers (fav : Int) : ∀ (l : List Int) (w : World K), (mergeClusters env mem fav w l).2.walkers = w.walkers
  | [], _ => rfl
  | cid :: l, w => by
    unfold mergeClusters
    split
    · rfl
    · rfl
    · split
      · rfl
      · rw [mergeClusters_walkers fav l]

theorem merge_walkers (order : List Int → List Int) (sc : IMap Int) (fav : Int) : (merge env mem w order sc fav).2.walkers = w.walkers := by
  have := mergeCollect_walkers fav sc w [] []
  unfold merge
  split
  · next h => rw [h] at this; exact this
  · next h =>
    rw [h] at this
    split
    · exact this
    · split
      · exact this
      · split
        · exact this
        · rw [mergeClusters_walkers]; exact this

theorem coarseGrainBasin_walkers (a : Choices K) (basin : List Int) : (coarseGrainBasin env mem w a basin).2.walkers = w.walkers := by
  unfold coarseGrainBasin
  split
  · rfl
  · next sc _ =>
    split
    · have := createCluster_walkers (env := env) (mem := mem) (w := w) basin (maxTime a.times)
      split
      all_goals
        next h => rw [h] at this; exact this
    · split
      · have := merge_walkers (env := env) (mem := mem) (w := w) a.order sc (favoredClusterId sc)
        split
        all_goals
          next h => rw [h] at this; exact this
      · rfl

theorem coarseGrain_walkers (a : Choices K) (v : Int) : (coarseGrain env mem w a v).2.walkers = w.walkers := by
  unfold coarseGrain
  split
  · rfl
  · split
    · rfl
    · rfl
    · exact coarseGrainBasin_walkers a _

theorem hopCount_walkers (a : Choices K) (j : Int) : (hopCount env mem w a j).2.walkers = w.walkers := by
  unfold hopCount
  split
  · rfl
  · next it _ =>
    have := coarseGrain_walkers (env := env) (mem := mem) (w := { w with iteration := it }) a j
    simp only
    split
    · split
      · split
        · next h => rw [h] at this; exact this
        · next h => rw [h] at this; exact this
        · next h =>
          rw [h] at this
          split <;> exact this
      · rfl
    · rfl

theorem hopMove_walkers {wid h j : Int} {a : Choices K} (e : w.hopMove wid h a = .ok (j, w')) :
    ∃ x, w'.walkers = w.walkers.set h x := by
  unfold hopMove at e
  obtain ⟨x, -, e⟩ := bind_eq_ok.1 e
  obtain ⟨i, -, e⟩ := bind_eq_ok.1 e
  obtain ⟨j, -, e⟩ := bind_eq_ok.1 e
  obtain ⟨b, -, e⟩ := bind_eq_ok.1 e
  split at e
  all_goals
    obtain ⟨w1, h1, e⟩ := bind_eq_ok.1 e
    obtain ⟨w2, h2, e⟩ := bind_eq_ok.1 e
    obtain ⟨⟨t, w3⟩, h3, e⟩ := bind_eq_ok.1 e
    obtain ⟨⟨n, w4⟩, h4, e⟩ := bind_eq_ok.1 e
    cases e
    simp only [pickAt_walkers h4, dwellAt_walkers h3, occupyAt_walkers h2, vacateAt_walkers h1]
    exact ⟨_, rfl⟩

theorem hop_walkers (wid h : Int) (a : Choices K) :
    (w.hop env mem wid h a).2.walkers = w.walkers ∨ ∃ x, (w.hop env mem wid h a).2.walkers = w.walkers.set h x := by
  unfold hop
  split
  · exact .inl rfl
  · next h1 => rw [hopCount_walkers]; exact .inr (hopMove_walkers h1)

theorem initWalker_walkers {a : Entry K} (e : w.initWalker a = .ok w') :
    ∃ x x', w.walkers.get? a.handle = some x ∧ x'.site = x.site ∧ w'.walkers = w.walkers.set a.handle x' := by
  unfold initWalker at e
  obtain ⟨x, hx, e⟩ := bind_eq_ok.1 e
  obtain ⟨i, -, e⟩ := bind_eq_ok.1 e
  split at e
  · obtain ⟨w1, h1, e⟩ := bind_eq_ok.1 e
    obtain ⟨⟨t, w2⟩, h2, e⟩ := bind_eq_ok.1 e
    obtain ⟨⟨n, w3⟩, h3, e⟩ := bind_eq_ok.1 e
    cases e
    refine ⟨x, { x with dwell := t, pot := n }, walkerOf_ok hx, rfl, ?_⟩
    simp only [pickAt_walkers h3, dwellAt_walkers h2, occupyFeat_walkers h1]
  · cases e

theorem initWalkers_walkers (h : Int) : ∀ (l : List (Entry K)) (w : World K),
    ((initWalkers w l).2.walkers.get? h).map Walker.site = (w.walkers.get? h).map Walker.site ∧
    ((∀ a ∈ l, a.handle ≠ h) → (initWalkers w l).2.walkers.get? h = w.walkers.get? h)
  | [], _ => ⟨rfl, fun _ => rfl⟩
  | a :: l, w => by
    unfold initWalkers
    split
    · exact ⟨rfl, fun _ => rfl⟩
    · next w1 h1 =>
      obtain ⟨x, x', hx, hs, e⟩ := initWalker_walkers h1
      obtain ⟨h2, h3⟩ := initWalkers_walkers h l w1
      constructor
      · rw [h2, e]
        by_cases hh : h = a.handle
        · subst hh; rw [IMap.get?_set_self, hx]; simp [hs]
        · rw [IMap.get?_set_ne _ _ (Ne.symm hh)]
      · intro hn
        rw [h3 fun b hb => hn b (by simp [hb]), e, IMap.get?_set_ne _ _ (hn a (by simp))]

theorem getVisitFrequencyOfSite_walkers (i : Int) : (w.getVisitFrequencyOfSite i).2.walkers = w.walkers := by
  unfold getVisitFrequencyOfSite
  split
  · rfl
  · split
    · split
      · rfl
      · split <;> rfl
    · rfl

theorem removeWalker_walkers {wid h : Int} (e : w.removeWalker wid h = .ok w') : w'.walkers = w.walkers := by
  unfold removeWalker at e
  obtain ⟨x, -, e⟩ := bind_eq_ok.1 e
  obtain ⟨i, -, e⟩ := bind_eq_ok.1 e
  exact removeAt_walkers e

/-- What a call leaves as it is in the walker `h`. -/
theorem step_walkers {op : Op K} {res : Except Fault Int} (e : w.step env mem op = (res, w')) (h : Int) :
    (¬ MovesSite op h → (w'.walkers.get? h).map Walker.site = (w.walkers.get? h).map Walker.site) ∧
    (¬ MovesAim op h → (w'.walkers.get? h).map Walker.pot = (w.walkers.get? h).map Walker.pot) ∧
    (¬ MovesDwell op h → (w'.walkers.get? h).map Walker.dwell = (w.walkers.get? h).map Walker.dwell) := by
  have same : w'.walkers.get? h = w.walkers.get? h → (¬ MovesSite op h → (w'.walkers.get? h).map Walker.site = (w.walkers.get? h).map Walker.site) ∧
    (¬ MovesAim op h → (w'.walkers.get? h).map Walker.pot = (w.walkers.get? h).map Walker.pot) ∧
    (¬ MovesDwell op h → (w'.walkers.get? h).map Walker.dwell = (w.walkers.get? h).map Walker.dwell) := fun q => by simp [q]
  have e2 : (w.step env mem op).2 = w' := by rw [e]
  cases op with
  | setTimeResolution t =>
    apply same; rw [← e2]; simp only [step]; unfold setTimeResolution; split <;> rfl
  | setMinThreshold n => apply same; rw [← e2]; rfl
  | setRandomSeed n =>
    apply same; rw [← e2]; simp only [step]; unfold setRandomSeed; split <;> rfl
  | setPerformanceRatio r => apply same; rw [← e2]; rfl
  | initializeSystem m => apply same; rw [← e2]; simp only [step]; rw [initializeSystem_walkers]
  | newWalker k =>
    by_cases hk : k = h
    · subst hk
      exact ⟨fun hn => (hn (.inl rfl)).elim, fun hn => (hn (.inl rfl)).elim, fun hn => (hn (.inl rfl)).elim⟩
    · apply same; rw [← e2]; exact IMap.get?_set_ne _ _ hk
  | walkerOccupy k i =>
    simp only [step, simple] at e2
    cases q : w.walkerOccupy k i with
    | error f => rw [q] at e2; apply same; rw [← e2]
    | ok w2 =>
      rw [q] at e2
      unfold walkerOccupy at q
      obtain ⟨x, hx, q⟩ := bind_eq_ok.1 q
      cases q
      replace hx := walkerOf_ok hx
      by_cases hk : k = h
      · subst hk
        subst e2
        simp only [IMap.get?_set_self, hx]
        exact ⟨fun hn => (hn (.inr (.inl ⟨_, rfl⟩))).elim, fun _ => rfl, fun _ => rfl⟩
      · apply same; rw [← e2]; exact IMap.get?_set_ne _ _ hk
  | walkerSetPotential k i =>
    simp only [step, simple] at e2
    cases q : w.walkerSetPotential k i with
    | error f => rw [q] at e2; apply same; rw [← e2]
    | ok w2 =>
      rw [q] at e2
      unfold walkerSetPotential at q
      obtain ⟨x, hx, q⟩ := bind_eq_ok.1 q
      cases q
      replace hx := walkerOf_ok hx
      by_cases hk : k = h
      · subst hk
        subst e2
        simp only [IMap.get?_set_self, hx]
        exact ⟨fun _ => rfl, fun hn => (hn (.inr (.inl ⟨_, rfl⟩))).elim, fun _ => rfl⟩
      · apply same; rw [← e2]; exact IMap.get?_set_ne _ _ hk
  | walkerSetDwell k i =>
    simp only [step, simple] at e2
    cases q : w.walkerSetDwell k i with
    | error f => rw [q] at e2; apply same; rw [← e2]
    | ok w2 =>
      rw [q] at e2
      unfold walkerSetDwell at q
      obtain ⟨x, hx, q⟩ := bind_eq_ok.1 q
      cases q
      replace hx := walkerOf_ok hx
      by_cases hk : k = h
      · subst hk
        subst e2
        simp only [IMap.get?_set_self, hx]
        exact ⟨fun _ => rfl, fun _ => rfl, fun hn => (hn (.inr (.inl ⟨_, rfl⟩))).elim⟩
      · apply same; rw [← e2]; exact IMap.get?_set_ne _ _ hk
  | initializeWalkers l =>
    simp only [step] at e2
    unfold initializeWalkers at e2
    split at e2
    · apply same; rw [← e2]
    · subst e2
      obtain ⟨h1, h2⟩ := initWalkers_walkers h l w
      refine ⟨fun _ => h1, fun hn => ?_, fun hn => ?_⟩
      all_goals
        rw [h2]
        intro a ha hh
        exact hn (.inr (.inr (.inl ⟨l, rfl, a, ha, hh⟩)))
  | hop wid k a =>
    simp only [step] at e2
    by_cases hk : k = h
    · subst hk
      exact ⟨fun hn => (hn (.inr (.inr ⟨_, _, rfl⟩))).elim, fun hn => (hn (.inr (.inr (.inr ⟨_, _, rfl⟩)))).elim,
        fun hn => (hn (.inr (.inr (.inr ⟨_, _, rfl⟩)))).elim⟩
    · apply same
      rw [← e2]
      rcases hop_walkers (env := env) (mem := mem) (w := w) wid k a with q | ⟨x, q⟩
      · rw [q]
      · rw [q]; exact IMap.get?_set_ne _ _ hk
  | removeWalker wid k =>
    apply same
    simp only [step, simple] at e2
    cases q : w.removeWalker wid k with
    | error f => rw [q] at e2; rw [← e2]
    | ok w2 => rw [q] at e2; subst e2; rw [removeWalker_walkers q]
  | getVisitFrequencyOfSite i => apply same; rw [← e2]; simp only [step]; rw [getVisitFrequencyOfSite_walkers]
  | elsewhere n =>
    apply same
    simp only [step] at e2
    split at e2 <;> rw [← e2]

end Mythical.World
