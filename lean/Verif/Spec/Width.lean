import Verif.Model.Correlated

/-! # Specification of the bins of energies (performance/test_crude_vs_coarsegrain_correlated.cpp) -/

namespace Mythical.WidthSpec
variable {K : Type} [Field K] [LinearOrder K]

/-- Bin `k` is the `k`th interval of length `inc` above `lo`, without its lower end but for bin 0. -/
def InBin (lo inc : K) (k : Nat) (e : K) : Prop := e ≤ lo + (k + 1) * inc ∧ (k = 0 ∨ lo + k * inc < e)

instance (lo inc : K) (k : Nat) (e : K) : Decidable (InBin lo inc k e) := by unfold InBin; infer_instance

/-- The number of energies in bin `k`. -/
def held (lo inc : K) (E : List K) (k : Nat) : Nat := E.countP fun e => InBin lo inc k e

/-- The least and the greatest energy. -/
def Range (E : List K) (lo hi : K) : Prop := (lo ∈ E ∧ ∀ e ∈ E, lo ≤ e) ∧ hi ∈ E ∧ ∀ e ∈ E, e ≤ hi

/-- The number in the bin below bin `i`, 0 if there is none. -/
def below (N : Nat → Nat) (i : Nat) : Nat := if i = 0 then 0 else N (i - 1)

/-- `m` is the greatest of the numbers `N 0`, ..., `N 19`; `i` is the first and `j` the last of which 20 times the number is greater. -/
structure Peak (N : Nat → Nat) (m i j : Nat) : Prop where
  attained : ∃ k, k < 20 ∧ N k = m
  greatest : ∀ k, k < 20 → N k ≤ m
  first : i < 20 ∧ m < 20 * N i ∧ ∀ k, k < i → 20 * N k ≤ m
  last : j < 20 ∧ m < 20 * N j ∧ ∀ k, j < k → k < 20 → 20 * N k ≤ m

end Mythical.WidthSpec
