import Verif.Lemmas.SystemCalls
import Verif.Props.SystemTotal

/-! # The calls around the hops return (C72) -/

namespace Mythical
open World SystemSpec
variable {K : Type} [Field K] [LinearOrder K] [IsStrictOrderedRing K] [FloorRing K]

theorem World.initWalkers_moves {env : Env K} {mem : Addr → K} {w : World K} (hst : Struct env w) (hg : Good mem w)
    (hall : AllSettled mem w) {act : List Int} (hl : Live w act) {l : List (Entry K)}
    (h : ∀ a ∈ l, SiteSpec.Draw a.u ∧ 0 < a.e ∧ ∃ i, On w a.handle i ∧ Sure w i) :
    OkOrOverflow (w.initWalkers l).1 := by
  induction l generalizing w act with
  | nil => exact or_ok _
  | cons a l ih =>
    obtain ⟨h1, h2, i, h3, h4⟩ := h a (List.mem_cons_self ..)
    unfold World.initWalkers
    rcases initWalker_moves hst hall hl.left h3 h4 h2 with ⟨w1, e⟩ | e
    · rw [e]
      obtain ⟨hk, hl1⟩ := hl.initWalker hst hg hall h1 e
      refine ih (hst.keep hk) (hg.keep hk) (hall.keep hk) hl1 fun b hb => ?_
      obtain ⟨k1, k2, j, k3, k4⟩ := h b (List.mem_cons_of_mem _ hb)
      exact ⟨k1, k2, j, (initWalker_on e _ _).2 k3, k4.keep hk⟩
    · rw [e]; exact .inr rfl

theorem World.initWalkers_placed {env : Env K} {w : World K} (hst : Struct env w) {l : List (Entry K)} {u : Unit} {w' : World K}
    (h : w.initWalkers l = (.ok u, w')) : ∀ a ∈ l, ∃ i, On w a.handle i ∧ Known w i := by
  induction l generalizing w with
  | nil => intro a ha; cases ha
  | cons a l ih =>
    unfold World.initWalkers at h
    split at h
    · simp at h
    · next w1 h1 =>
      have hk := hst.initWalker_keep h1
      intro b hb
      rcases List.mem_cons.1 hb with rfl | hb
      · obtain ⟨x, w1, t, w2, n, w3, hx, h0, hf, -⟩ := initWalker_ok h1
        refine ⟨x.site, ⟨x, hx, rfl, h0⟩, known_iff.2 fun hn => ?_⟩
        rw [IMap.mem_keys_iff_get?] at hf
        obtain ⟨p, hp⟩ := hf
        rw [(hst.known _).2 hn] at hp
        cases hp
      · obtain ⟨i, hi, hkn⟩ := ih (hst.keep hk) h b hb
        refine ⟨i, (initWalker_on h1 _ _).1 hi, known_iff.2 fun hn => known_iff.1 hkn ?_⟩
        exact (rel_none (hk.site i)).1 hn

/-- **C72** (`initializeWalkers`). In every history with proper calls of a system whose rates stay as they are and are positive,
with walkers sent to known sites, possible draws, performance ratios of at least 1/2 and traversal times that cover the basins:
`initializeWalkers` for walkers that are on known sites returns (also if these sites are in clusters), whatever the ids and the
draws, unless an `int` counter overflows. If it returns, all the walkers it was called for are on known sites. -/
theorem C72_initializeWalkers (env : Env K) (mem : Addr → K) (n : Nat) (evs : List (Event K)) (w : World K)
    (ht : Trace env (World.new n) evs w) (hu : Usage evs) (hf : RatesFixed mem evs) (hp : RatesPositive mem evs)
    (hs : SystemsReturn evs) (hd : Draws evs) (hk : SentToKnown evs) (hh : RatioHalf evs) (hc : TimesCover evs)
    (l : List (Entry K)) (hl : DrawsOf (.initializeWalkers l)) (hne : l ≠ []) :
    ((∀ a ∈ l, ∃ i, On w a.handle i ∧ Known w i) →
      (∃ r, (w.step env mem (.initializeWalkers l)).1 = .ok r) ∨
        (w.step env mem (.initializeWalkers l)).1 = .error (.ub .intOverflow)) ∧
    ∀ r, (w.step env mem (.initializeWalkers l)).1 = .ok r → ∀ a ∈ l, ∃ i, On w a.handle i ∧ Known w i := by
  have hst := ht.struct hu.hopsReturn
  constructor
  · intro ha
    have hsol := ht.solid hu.hopsReturn hf hp hh hc
    have hfe : w.feats.length ≠ 0 := by
      obtain ⟨a, hm⟩ := List.exists_mem_of_ne_nil _ hne
      obtain ⟨i, -, hi⟩ := ha a hm
      rw [known_iff] at hi
      intro h0
      apply hi
      rw [← hst.known, List.length_eq_zero_iff.1 h0]
      rfl
    have := initWalkers_moves (l := l) hst (ht.good hu.hopsReturn hf hp) (ht.settled hu.hopsReturn hf hp)
      (ht.live hu hf hp hs hd hk) fun a hm => by
        obtain ⟨i, h1, h2⟩ := ha a hm
        exact ⟨(hl a hm).1, (hl a hm).2, i, h1, hsol.sure hst (known_iff.1 h2)⟩
    show (∃ r, ((w.initializeWalkers l).1.map fun _ => (0 : Int)) = .ok r) ∨ _ = _
    unfold initializeWalkers
    rw [if_neg hfe]
    rcases this with ⟨x, e⟩ | e
    · rw [e]; exact .inl ⟨_, rfl⟩
    · exact .inr (by show Except.map _ (World.initializeWalkers w l).1 = _; unfold initializeWalkers; rw [if_neg hfe, e]; rfl)
  · intro r hr
    have hr : ((w.initializeWalkers l).1.map fun _ => (0 : Int)) = .ok r := hr
    unfold initializeWalkers at hr
    split at hr
    · cases hr
    · cases h : w.initWalkers l with
      | mk res w' =>
        rw [h] at hr
        cases res with
        | error e => cases hr
        | ok u => exact initWalkers_placed hst h

/-- **C72** (`removeWalkerFromSystem`). In such a history, taking a walker in the system out of it returns, whatever its id,
unless an `int` counter overflows. -/
theorem C72_removeWalker (env : Env K) (mem : Addr → K) (n : Nat) (evs : List (Event K)) (w : World K)
    (ht : Trace env (World.new n) evs w) (hu : Usage evs) (hf : RatesFixed mem evs) (hp : RatesPositive mem evs)
    (hh : RatioHalf evs) (hc : TimesCover evs) (wid h : Int) (hact : h ∈ active evs) :
    (∃ r, (w.step env mem (.removeWalker wid h)).1 = .ok r) ∨
      (w.step env mem (.removeWalker wid h)).1 = .error (.ub .intOverflow) := by
  have hst := ht.struct hu.hopsReturn
  have hsol := ht.solid hu.hopsReturn hf hp hh hc
  obtain ⟨i, ho, hi⟩ := (ht.inv hu).occup.placed h hact
  obtain ⟨x, hx, rfl, h0⟩ := ho
  have key : OkOrOverflow (w.removeWalker wid h) := by
    unfold World.removeWalker
    have ex : w.walkerOf h = .ok x := by unfold walkerOf; rw [hx]
    simp only [ex, walkerSite_ok.2 ⟨h0, rfl⟩, ok_bind]
    exact (hsol.sure hst hi).remove wid
  show (∃ r, (w.simple (w.removeWalker wid h)).1 = .ok r) ∨ (w.simple (w.removeWalker wid h)).1 = _
  rcases key with ⟨w', e⟩ | e
  · rw [e]; exact .inl ⟨0, rfl⟩
  · rw [e]; exact .inr rfl

/-- **C72** (`getVisitFrequencyOfSite`). In such a history, asking for the visits of a known site returns, unless a counter or
the conversion of a number of visits overflows; asking for those of any other site throws `std::invalid_argument` and changes
nothing. -/
theorem C72_visitFrequency (env : Env K) (mem : Addr → K) (n : Nat) (evs : List (Event K)) (w : World K)
    (ht : Trace env (World.new n) evs w) (hu : Usage evs) (hf : RatesFixed mem evs) (hp : RatesPositive mem evs)
    (hh : RatioHalf evs) (hc : TimesCover evs) (i : Int) :
    (Known w i → (∃ r, (w.step env mem (.getVisitFrequencyOfSite i)).1 = .ok r) ∨
      (w.step env mem (.getVisitFrequencyOfSite i)).1 = .error (.ub .intOverflow) ∨
      (w.step env mem (.getVisitFrequencyOfSite i)).1 = .error (.ub .floatToInt)) ∧
    (¬ Known w i → w.step env mem (.getVisitFrequencyOfSite i) = (.error .invalidArgument, w)) := by
  have hst := ht.struct hu.hopsReturn
  have hsol := ht.solid hu.hopsReturn hf hp hh hc
  have hall := ht.settled hu.hopsReturn hf hp
  show (_ → (∃ r, (w.getVisitFrequencyOfSite i).1 = .ok r) ∨ (w.getVisitFrequencyOfSite i).1 = _ ∨
    (w.getVisitFrequencyOfSite i).1 = _) ∧ (_ → w.getVisitFrequencyOfSite i = _)
  rw [known_iff]
  constructor
  · intro hi
    obtain ⟨s, hs, ⟨-, h1⟩ | ⟨x, t, -, h2, h3, h4⟩⟩ := hsol.sure hst hi
    · unfold World.getVisitFrequencyOfSite
      rw [hs]
      simp only
      rw [if_neg (by rw [Site.partOfCluster, h1]; decide)]
      exact .inl ⟨_, rfl⟩
    · unfold World.getVisitFrequencyOfSite
      rw [hs]
      simp only
      split
      · have hg : w.clusters.getCluster s.clusterId = .ok x := by
          unfold ClusterContainer.getCluster; rw [h2]
        rw [hg]
        simp only
        have hv : i ∈ x.siteVisits.keys := ((hall _ x h2).visits i).2 (IMap.mem_keys_iff_get?.2 ⟨t, h3⟩)
        have hfair := Cluster.getVisitFrequency_fair (Settled.reads (hall _ x h2)) hv
        split
        · next e c' he =>
          rw [he] at hfair
          rcases hfair with ⟨_, h⟩ | h | h
          · cases h
          · exact .inr (.inl h)
          · exact .inr (.inr h)
        · rcases chk_or (s.visits + _) with ⟨r, h⟩ | h
          · exact .inl ⟨r, h⟩
          · exact .inr (.inl h)
      · exact .inl ⟨_, rfl⟩
  · intro hi
    have hi : w.sites.get? i = none := by simpa using hi
    unfold World.getVisitFrequencyOfSite
    rw [hi]

/-! ## A history with two clusters and a new walker on a site of one of them -/

/-- The calls of `totalEvs`, and a new walker that is put on site 1. -/
def World.callOps : List (Op ℚ) := coverOps.take 11 ++ [.newWalker 20, .walkerOccupy 20 1]

/-- The history of these calls. -/
def World.callEvs : List (Event ℚ) := (runOps Cluster.witEnv mergeRates (World.new 0) callOps).1

/-- The world they lead to. -/
def World.callWorld : World ℚ := (runOps Cluster.witEnv mergeRates (World.new 0) callOps).2

theorem World.callRatesFixed : RatesFixed mergeRates callEvs := by
  intro ev hev
  have : callEvs.map (·.mem) = List.replicate callEvs.length mergeRates := rfl
  have hm := List.mem_map_of_mem (f := fun e : Event ℚ => e.mem) hev
  rw [this] at hm
  exact (List.mem_replicate.1 hm).2

theorem World.callRatesPositive : RatesPositive mergeRates callEvs :=
  ratesPositive_of (fun a => by unfold mergeRates; split <;> (try split) <;> norm_num) _

/-- The new walker is on a site of a cluster and can be initialised. -/
example : callWorld.getClusterIdOfSite 1 = .ok 0 ∧
    ((∃ r, (callWorld.step Cluster.witEnv mergeRates (.initializeWalkers [⟨20, 20, 1, 1 / 3⟩])).1 = .ok r) ∨
      (callWorld.step Cluster.witEnv mergeRates (.initializeWalkers [⟨20, 20, 1, 1 / 3⟩])).1 = .error (.ub .intOverflow)) := by
  have aim := aim_of (evs := callEvs) (by decide +kernel)
  refine ⟨by decide +kernel, (C72_initializeWalkers Cluster.witEnv mergeRates 0 callEvs callWorld (runOps_trace (by decide +kernel))
    (usageB_iff (by decide +kernel)) callRatesFixed callRatesPositive aim.1 aim.2.1 aim.2.2 (ratioHalf_of (by decide +kernel))
    (timesCover_of (by decide +kernel)) [⟨20, 20, 1, 1 / 3⟩] ?_ (by simp)).1 ?_⟩
  · intro a ha
    rw [List.mem_singleton.1 ha]
    exact ⟨by unfold SiteSpec.Draw; norm_num, by norm_num⟩
  · intro a ha
    rw [List.mem_singleton.1 ha]
    exact ⟨1, on_of (by decide +kernel) (by decide), 0, by decide +kernel⟩

/-- A walker can be taken out of a cluster, and the visits of its site can be asked for. -/
example : 10 ∈ active callEvs ∧
    ((∃ r, (callWorld.step Cluster.witEnv mergeRates (.removeWalker 0 10)).1 = .ok r) ∨
      (callWorld.step Cluster.witEnv mergeRates (.removeWalker 0 10)).1 = .error (.ub .intOverflow)) ∧
    ((∃ r, (callWorld.step Cluster.witEnv mergeRates (.getVisitFrequencyOfSite 2)).1 = .ok r) ∨
      (callWorld.step Cluster.witEnv mergeRates (.getVisitFrequencyOfSite 2)).1 = .error (.ub .intOverflow) ∨
      (callWorld.step Cluster.witEnv mergeRates (.getVisitFrequencyOfSite 2)).1 = .error (.ub .floatToInt)) :=
  ⟨by decide +kernel,
    C72_removeWalker Cluster.witEnv mergeRates 0 callEvs callWorld (runOps_trace (by decide +kernel))
      (usageB_iff (by decide +kernel)) callRatesFixed callRatesPositive (ratioHalf_of (by decide +kernel))
      (timesCover_of (by decide +kernel)) 0 10 (by decide +kernel),
    (C72_visitFrequency Cluster.witEnv mergeRates 0 callEvs callWorld (runOps_trace (by decide +kernel))
      (usageB_iff (by decide +kernel)) callRatesFixed callRatesPositive (ratioHalf_of (by decide +kernel))
      (timesCover_of (by decide +kernel)) 2).1 ⟨0, by decide +kernel⟩⟩

end Mythical
