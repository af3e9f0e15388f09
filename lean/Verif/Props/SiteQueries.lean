import Verif.Lemmas.Site
import Verif.Lemmas.Basin
import Verif.Spec.Site
import Mathlib.Data.Rat.Floor

/-! # C103: what a site reports about its neighbours -/

set_option linter.unusedSectionVars false

namespace Mythical
open Site SiteSpec
variable {K : Type} [Field K] [LinearOrder K] [IsStrictOrderedRing K] [FloorRing K]

theorem fastest_cases (mem : Addr → K) : ∀ (l : List (Int × Addr)) (r : K),
    l.foldl (fun rate na => if mem na.2 > rate then mem na.2 else rate) r = r ∨
      ∃ na ∈ l, l.foldl (fun rate na => if mem na.2 > rate then mem na.2 else rate) r = mem na.2
  | [], _ => .inl rfl
  | na :: l, r => by
    rw [List.foldl_cons]
    by_cases h : mem na.2 > r
    · rw [if_pos h]
      rcases fastest_cases mem l (mem na.2) with e | ⟨nb, hb, e⟩
      · exact .inr ⟨na, by simp, e⟩
      · exact .inr ⟨nb, by simp [hb], e⟩
    · rw [if_neg h]
      rcases fastest_cases mem l r with e | ⟨nb, hb, e⟩
      · exact .inl e
      · exact .inr ⟨nb, by simp [hb], e⟩

/-- **C103.** Whatever calls have been made on a new site, and whatever the rate variables hold now: the neighbours it reports are
those for which a rate was given, each once; `isNeighbor` and the look-ups agree with that; the rates are those that the variables
hold now; the fastest one is the largest of them, or 0 if none is positive. -/
theorem C103_queries {id : Int} {ops : List ((Addr → K) × Op)} {s : Site K} (hv : ∀ mo ∈ ops, ValidOp mo.2)
    (h : (Site.new id : Site K).run ops = .ok s) (mem : Addr → K) :
    s.getNeighborSiteIds.Nodup ∧
    (∀ n, n ∈ s.getNeighborSiteIds ↔ (neighOf ops n).isSome) ∧
    (∀ n, s.isNeighbor n = true ↔ (neighOf ops n).isSome) ∧
    (∀ n, s.getRateToNeighbor mem n = match neighOf ops n with
      | some a => .ok (mem a)
      | none => .error .assertFail) ∧
    (∀ n, neighOf ops n = none → s.probabilityTo n = .error .assertFail) ∧
    (s.getRateToNeighbors mem).map some = s.getNeighborSiteIds.map (fun n => (neighOf ops n).map mem) ∧
    (∀ n a, neighOf ops n = some a → mem a ≤ s.getFastestRate mem) ∧
    0 ≤ s.getFastestRate mem ∧
    (0 < s.getFastestRate mem → ∃ n a, neighOf ops n = some a ∧ s.getFastestRate mem = mem a) := by
  obtain ⟨hw, -, hn⟩ := run_neigh (s := (Site.new id : Site K)) (by simp [Site.new, IMap.WF]) hv h
  have hn : ∀ n, s.neigh.get? n = neighOf ops n := fun n => congrFun hn n
  have hmem : ∀ n, n ∈ s.neigh.keys ↔ (neighOf ops n).isSome := by
    intro n
    rw [IMap.mem_keys_iff_get?, hn, Option.isSome_iff_exists]
  have hhas : ∀ n, s.neigh.has n = true ↔ (neighOf ops n).isSome := by
    intro n
    rw [← hmem]; exact IMap.has_iff
  refine ⟨hw, hmem, hhas, fun n => ?_, fun n h0 => ?_, ?_, fun n a hna => ?_, ?_, fun hp => ?_⟩
  · unfold getRateToNeighbor; rw [hn]; cases neighOf ops n <;> rfl
  · unfold probabilityTo
    rw [if_neg]
    rw [hhas, h0]; simp
  · unfold getRateToNeighbors getNeighborSiteIds IMap.keys
    rw [List.map_map, List.map_map]
    refine List.map_congr_left fun na hna => ?_
    simp only [Function.comp]
    rw [← hn, IMap.get?_of_mem hw hna]; rfl
  · exact Explorer.rate_le_fastest ((hn n).trans hna)
  · exact Explorer.fastest_nonneg mem s
  · rcases fastest_cases mem s.neigh 0 with e | ⟨na, hna, e⟩
    · unfold getFastestRate at hp; rw [e] at hp; exact absurd hp (lt_irrefl 0)
    · exact ⟨na.1, na.2, by rw [← hn]; exact IMap.get?_of_mem hw hna, e⟩

/-! ## Concrete case -/

/-- A site with rates 3 and 1/2 to sites 5 and 7. -/
def twoRates : List ((Addr → ℚ) × Op) := [(fun _ => 1, .setRates [(5, 0)]), (fun _ => 1, .addNeigh 7 1)]

/-- The rates are then changed in place to 3 and 1/2. -/
def laterMem : Addr → ℚ := fun a => if a = 0 then 3 else 1 / 2

example : ∃ s, (Site.new 4 : Site ℚ).run twoRates = .ok s ∧ s.getNeighborSiteIds = [5, 7] ∧ s.isNeighbor 7 = true ∧
    s.isNeighbor 4 = false ∧ s.getRateToNeighbors laterMem = [3, 1 / 2] ∧ s.getRateToNeighbor laterMem 4 = .error .assertFail ∧
    s.getFastestRate laterMem = 3 :=
  ⟨⟨4, 0, 0, 1 / 2, unassignedId, [(5, 0), (7, 1)], [(5, 1 / 2), (7, 1 / 2)], none⟩, by decide +kernel, by decide +kernel,
    by decide +kernel, by decide +kernel, by decide +kernel, by decide +kernel, by decide +kernel⟩

example : ∀ mo ∈ twoRates, ValidOp mo.2 := by simp [twoRates, ValidOp, IMap.WF]

end Mythical
