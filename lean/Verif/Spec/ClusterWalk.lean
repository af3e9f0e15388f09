import Verif.Spec.Cluster
import Mathlib.Topology.Algebra.InfiniteSum.Real

/-! # A walker that hops with the rates

The process that a cluster stands for, hop by hop. -/

namespace Mythical.ClusterSpec
open Mythical
variable {K : Type} [Field K] [LinearOrder K]

/-- Probability that a walker, first on each site `n` of the cluster with probability `p n` and then hopping with the rates, is
on site `i` after `k` hops and has not left the cluster. -/
def inside (mem : Addr → K) (c : Cluster K) (p : Int → K) : Nat → Int → K
  | 0, i => p i
  | k + 1, i => ∑ n ∈ ids c, inside mem c p k n * hopProb mem c n i

/-- Probability that it leaves the cluster with hop `k + 1`, to `n`. -/
def leavesTo (mem : Addr → K) (c : Cluster K) (p : Int → K) (n : Int) (k : Nat) : K :=
  ∑ i ∈ ids c, inside mem c p k i * hopProb mem c i n

/-- The mean time that it spends on site `i` between hop `k` and hop `k + 1`. -/
def timeAt (mem : Addr → K) (c : Cluster K) (p : Int → K) (i : Int) (k : Nat) : K :=
  inside mem c p k i * siteTime mem c i

/-- The settings ask for at least `N` rounds or for a tolerance of at most `δ`. -/
def Asks (N : Int) (δ : K) (evs : List (Cluster.Event K)) : Prop :=
  ((settingsOf evs).method ≠ .tolerance ∧ N ≤ (settingsOf evs).rounds) ∨
    ((settingsOf evs).method = .tolerance ∧ 0 < (settingsOf evs).tolerance ∧ (settingsOf evs).tolerance ≤ δ)

/-- What a walker does that starts with the stationary distribution `p`: `exit n` is the probability that it leaves to `n`
sooner or later, and `time i` the mean of the whole time that it spends on site `i` before. -/
structure Walk (mem : Addr → ℝ) (c : Cluster ℝ) (p exit time : Int → ℝ) : Prop where
  start : Stationary mem c p
  exit : ∀ n ∈ exits c, HasSum (leavesTo mem c p n) (exit n)
  time : ∀ i ∈ ids c, HasSum (timeAt mem c p i) (time i)

end Mythical.ClusterSpec
