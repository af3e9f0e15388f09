import Verif.Lemmas.EscapeRun

/-! # Helper lemmas for the program that lets electrons escape: the map of rates -/

set_option linter.unusedSectionVars false
set_option linter.unusedVariables false

namespace Mythical.Escape
open World SystemSpec ProgramSpec EscapeSpec
open _root_.Mythical.ToF (layout memOf)
variable {K : Type} [Field K] [LinearOrder K] [IsStrictOrderedRing K] [FloorRing K]

/-- The map of rates. -/
def net : IMap (IMap K) :=
  [(1, [(14, 1 / 400), (6, 1 / 100), (2, 1 / 1), (5, 1 / 1)]),
   (2, [(1, 1 / 1), (7, 1 / 400), (3, 1 / 1), (4, 10)]),
   (3, [(2, 1 / 5), (8, 1 / 400), (9, 1 / 400), (10, 1 / 400)]),
   (4, [(5, 1 / 1), (2, 1 / 1), (10, 1 / 300), (11, 1 / 400)]),
   (5, [(13, 1 / 100), (1, 1 / 1), (4, 1 / 1), (12, 1 / 400)]),
   (6, [(1, 1 / 400)]), (7, [(2, 1 / 400)]), (8, [(3, 1 / 400)]), (9, [(3, 1 / 400)]), (10, [(3, 1 / 400)]), (11, [(4, 1 / 400)]),
   (12, [(4, 1 / 400)]), (13, [(5, 1 / 400)]), (14, [(5, 1 / 400)])]

theorem table_net : (table : Except Fault (IMap (IMap K) × Nat)) = .ok (net, 29) := rfl

theorem net_wf : (net : IMap (IMap K)).WF ∧ ∀ ir ∈ (net : IMap (IMap K)), ir.2.WF ∧ ir.2 ≠ [] := by
  unfold IMap.WF
  constructor
  · show ([1, 2, 3, 4, 5, 6, 7, 8, 9, 10, 11, 12, 13, 14] : List Int).Nodup
    decide
  · intro ir hir
    unfold net at hir
    simp only [List.mem_cons, List.not_mem_nil, or_false] at hir
    rcases hir with rfl | rfl | rfl | rfl | rfl | rfl | rfl | rfl | rfl | rfl | rfl | rfl | rfl | rfl <;>
      exact ⟨by simp, by simp⟩

theorem net_pos : ∀ ir ∈ (net : IMap (IMap K)), ∀ jk ∈ ir.2, 0 < jk.2 := by
  intro ir hir
  unfold net at hir
  simp only [List.mem_cons, List.not_mem_nil, or_false] at hir
  rcases hir with rfl | rfl | rfl | rfl | rfl | rfl | rfl | rfl | rfl | rfl | rfl | rfl | rfl | rfl <;>
    simp

theorem net_range : ∀ ir ∈ (net : IMap (IMap K)), (1 ≤ ir.1 ∧ ir.1 ≤ 14) ∧ ∀ jk ∈ ir.2, 1 ≤ jk.1 ∧ jk.1 ≤ 14 := by
  intro ir hir
  unfold net at hir
  simp only [List.mem_cons, List.not_mem_nil, or_false] at hir
  rcases hir with rfl | rfl | rfl | rfl | rfl | rfl | rfl | rfl | rfl | rfl | rfl | rfl | rfl | rfl <;>
    simp

theorem net_all {i : Int} (h1 : 1 ≤ i) (h2 : i ≤ 14) : ∃ row, (i, row) ∈ (net : IMap (IMap K)) := by
  unfold net
  obtain h | h | h | h | h | h | h | h | h | h | h | h | h | h : i = 1 ∨ i = 2 ∨ i = 3 ∨ i = 4 ∨ i = 5 ∨ i = 6 ∨ i = 7 ∨ i = 8 ∨ i = 9 ∨ i = 10 ∨
    i = 11 ∨ i = 12 ∨ i = 13 ∨ i = 14 := by omega
  all_goals subst h; simp

theorem net_fits {R' : IMap (IMap K)} (hR : Rearranged R' net) : Fits (memOf R') (layout R') := by
  have hh := ToF.layout_holds R'
  unfold ToFSpec.Holds at hh
  have hkeys : ∀ i, (∃ row, (i, row) ∈ layout R') ↔ ∃ row, (i, row) ∈ (net : IMap (IMap K)) := by
    intro i
    have e1 : (layout R').map Prod.fst = R'.map Prod.fst := by
      have := congrArg (List.map Prod.fst) hh
      rw [List.map_map] at this
      exact this
    have e2 : ∀ {V : Type} (m : IMap V), (∃ row, (i, row) ∈ m) ↔ i ∈ m.map Prod.fst := by
      intro V m
      rw [List.mem_map]
      constructor
      · rintro ⟨row, h⟩; exact ⟨_, h, rfl⟩
      · rintro ⟨⟨a, row⟩, h, rfl⟩; exact ⟨row, h⟩
    rw [e2, e2, e1, hR.row.1.mem_iff]
  have hrange : ∀ i, Mentions (layout R') i → 1 ≤ i ∧ i ≤ 14 := by
    rintro i ⟨ir, hir, h⟩
    have hmem : (ir.1, ir.2.map fun na => (na.1, memOf R' na.2)) ∈ R' := by
      have := List.mem_map_of_mem (f := fun ir : Int × IMap Addr => (ir.1, ir.2.map fun na => (na.1, memOf R' na.2))) hir
      exact (congrArg (_ ∈ ·) hh).mp this
    obtain ⟨jr, hj, e1, hperm⟩ := hR.row.2 _ hmem
    simp only at e1 hperm
    obtain ⟨n1, n2⟩ := net_range jr hj
    rcases h with rfl | ⟨na, hna, rfl⟩
    · rw [← e1]; exact n1
    · exact n2 _ (hperm.subset (List.mem_map_of_mem (f := fun na : Int × Addr => (na.1, memOf R' na.2)) hna))
  have hall : ∀ i, 1 ≤ i → i ≤ 14 → ∃ row, (i, row) ∈ layout R' := fun i h1 h2 => (hkeys i).2 (net_all h1 h2)
  refine ⟨proper_layout net_wf net_pos hR, fun i hi => hall i (hrange i hi).1 (hrange i hi).2, hrange, fun i h1 h2 => ?_⟩
  obtain ⟨row, h⟩ := hall i h1 (by omega)
  exact ⟨_, h, .inl rfl⟩

end Mythical.Escape
