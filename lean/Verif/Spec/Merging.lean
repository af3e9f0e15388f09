import Mathlib.Data.List.Basic

/-! # Specification vocabulary for the unit test in which two clusters are merged -/

namespace Mythical.MergingSpec

/-- The sites of a cluster: a pair between which the rates are fast, or both pairs. -/
def Paired (l : List Int) : Prop := l.Perm [6, 10] ∨ l.Perm [7, 11] ∨ l.Perm [6, 7, 10, 11]

/-- The clusters, as ids with lists of sites, are as announced (test_coarsegrainsystem2.cpp 29-37): none yet, one of the pairs or both of
them, or one cluster of both after the merge. -/
def Announced (cl : List (Int × List Int)) : Prop :=
  cl = [] ∨ (∃ a l, cl = [(a, l)] ∧ Paired l) ∨
    ∃ a l b l', cl = [(a, l), (b, l')] ∧ (l.Perm [6, 10] ∧ l'.Perm [7, 11] ∨ l.Perm [7, 11] ∧ l'.Perm [6, 10])

end Mythical.MergingSpec
