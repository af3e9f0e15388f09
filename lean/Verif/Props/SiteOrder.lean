import Verif.Lemmas.SiteOrder
import Mathlib.Data.Rat.Floor

/-! # C104: the order of the hash map of a site makes no difference -/

set_option linter.unusedSectionVars false

namespace Mythical
open Site SiteSpec
variable {K : Type} [Field K] [LinearOrder K] [IsStrictOrderedRing K] [FloorRing K]

theorem runs_reordered {ops : List ((Addr → K) × Op)} : ∀ {s1 s2 t1 t2 : Site K}, Reordered s1 s2 → Runs s1 ops t1 → Runs s2 ops t2 →
    Reordered t1 t2 := by
  induction ops with
  | nil =>
    intro s1 s2 t1 t2 h h1 h2
    cases h1 with | nil h1 =>
    cases h2 with | nil h2 =>
    exact (h1.symm.trans h).trans h2
  | cons mo ops ih =>
    intro s1 s2 t1 t2 h h1 h2
    cases h1 with | cons r1 c1 e1 q1 =>
    cases h2 with | cons r2 c2 e2 q2 =>
    have hr := (r1.symm.trans h).trans r2
    rename_i u1 v1 mem o o1 u2 v2 o2
    have hc : SameCall o1 o2 := by
      cases c1 with
      | set hw p1 =>
        cases c2 with | set hw2 p2 =>
        exact .set (((p1.map Prod.fst).nodup_iff).1 hw) (p1.symm.trans p2)
      | add n a => cases c2; exact .add n a
      | reset n a => cases c2; exact .reset n a
    rcases hr.step hc mem with ⟨x, y, ex, ey, hxy⟩ | ⟨e, ex, -⟩
    · rw [e1] at ex; rw [e2] at ey
      cases ex; cases ey
      exact ih hxy q1 q2
    · rw [e1] at ex; cases ex

/-- **C104.** Take two executions of the same calls on a new site, where the map of neighbours and the maps given to
`setRatesToNeighbors` are iterated in any orders, which may change before every call. Then the two sites differ in the order of
the map only, and everything they report is the same: time constant, dwell time and choice for equal draws, probabilities, rates,
fastest rate, and (up to order) the lists of neighbours and rates. The next call either succeeds on both or fails on both in
the same way. -/
theorem C104_order {id : Int} {ops : List ((Addr → K) × Op)} {s s' : Site K} (h : Runs (Site.new id) ops s)
    (h' : Runs (Site.new id) ops s') :
    (s'.getTimeConstant = s.getTimeConstant ∧ (∀ e, s'.getDwellTime e = s.getDwellTime e) ∧
      ∀ u, s'.pickNewSiteId u = s.pickNewSiteId u) ∧
    (∀ n, s'.isNeighbor n = s.isNeighbor n ∧ s'.probabilityTo n = s.probabilityTo n) ∧
    (∀ mem n, s'.getRateToNeighbor mem n = s.getRateToNeighbor mem n) ∧
    (∀ mem, s'.getFastestRate mem = s.getFastestRate mem ∧ (s'.getRateToNeighbors mem).Perm (s.getRateToNeighbors mem)) ∧
    s'.getNeighborSiteIds.Perm s.getNeighborSiteIds ∧
    ∀ mem o o', SameCall o o' → (∀ e, s.step mem o = .error e ↔ s'.step mem o' = .error e) := by
  have hr : Reordered s s' := runs_reordered (.refl (by simp [Site.new, IMap.WF])) h h'
  have hhas : ∀ n, s'.neigh.has n = s.neigh.has n := fun n => by
    rw [Bool.eq_iff_iff, IMap.has_iff, IMap.has_iff]; exact ((hr.perm.map Prod.fst).mem_iff).symm
  have etau : s'.tau = s.tau := by rw [hr.rest]
  have eprob : s'.prob = s.prob := by rw [hr.rest]
  refine ⟨⟨etau, fun e => ?_, fun u => ?_⟩, fun n => ⟨hhas n, ?_⟩, fun mem n => ?_, fun mem => ⟨?_, (hr.perm.map _).symm⟩,
    (hr.perm.map Prod.fst).symm, fun mem o o' ho e => ?_⟩
  · unfold getDwellTime; rw [etau]
  · unfold pickNewSiteId; rw [eprob]
  · unfold probabilityTo; rw [hhas, eprob]
  · unfold getRateToNeighbor; rw [hr.get?]
  · unfold getFastestRate
    have hm : ∀ a b : K, (if b > a then b else a) = max a b := fun a b => by
      rcases lt_or_ge a b with q | q
      · rw [if_pos q, max_eq_right q.le]
      · rw [if_neg (not_lt.2 q), max_eq_left q]
    simp only [hm]
    exact (hr.perm.foldl_eq' (f := fun a na => max a (mem na.2)) (fun x _ y _ z => max_right_comm _ _ _) 0).symm
  · rcases hr.step ho mem with ⟨x, y, ex, ey, -⟩ | ⟨f, ex, ey⟩
    · rw [ex, ey]; simp
    · rw [ex, ey]

/-- The model's own execution, which keeps the order of insertion, is one of them. -/
theorem runs_of_run {ops : List ((Addr → K) × Op)} : ∀ {s s' : Site K}, s.neigh.WF → (∀ mo ∈ ops, ValidOp mo.2) →
    s.run ops = .ok s' → Runs s ops s' := by
  induction ops with
  | nil => intro s s' hw _ h; cases h; exact .nil (.refl hw)
  | cons mo ops ih =>
    obtain ⟨mem, o⟩ := mo
    intro s s' hw hv h
    unfold run at h
    obtain ⟨s1, h1, h⟩ := bind_eq_ok.1 h
    have ho := hv (mem, o) (by simp)
    refine .cons (.refl hw) ?_ h1 (ih (step_ok hw ho h1).2.1 (fun mo hm => hv mo (by simp [hm])) h)
    cases o with
    | setRates m => exact .set ho (.refl m)
    | addNeigh n a => exact .add n a
    | resetNeigh n a => exact .reset n a

/-- Rates 1, 2 and 3. -/
def orderMem : Addr → ℚ := fun a => a + 1

/-- Two orders of three neighbours, and a rate given anew: the tables of probabilities come out the same. -/
example : Runs (Site.new 4) [(orderMem, .setRates [(5, 0), (9, 1), (7, 2)]), (orderMem, .resetNeigh 9 0)]
      (⟨4, 0, 0, 1 / 5, unassignedId, [(5, 0), (9, 0), (7, 2)], [(5, 1 / 5), (7, 3 / 5), (9, 1 / 5)], none⟩ : Site ℚ) ∧
    Runs (Site.new 4) [(orderMem, .setRates [(5, 0), (9, 1), (7, 2)]), (orderMem, .resetNeigh 9 0)]
      (⟨4, 0, 0, 1 / 5, unassignedId, [(9, 0), (7, 2), (5, 0)], [(5, 1 / 5), (7, 3 / 5), (9, 1 / 5)], none⟩ : Site ℚ) := by
  constructor
  · exact runs_of_run (by simp [Site.new, IMap.WF]) (by simp [ValidOp, IMap.WF]) (by decide +kernel)
  · refine .cons (o' := .setRates [(9, 1), (7, 2), (5, 0)]) (s0 := Site.new 4)
      (s1 := ⟨4, 0, 0, 1 / 6, unassignedId, [(9, 1), (7, 2), (5, 0)], [(5, 1 / 6), (7, 1 / 2), (9, 1 / 3)], none⟩)
      (.refl (by simp [Site.new, IMap.WF])) (.set (by simp [IMap.WF]) (by decide)) (by decide +kernel) ?_
    exact runs_of_run (by simp [IMap.WF]) (by simp [ValidOp]) (by decide +kernel)

end Mythical
