import Verif.Model.Crude
import Verif.Spec.Box

/-! # Specification vocabulary for the crude Monte Carlo simulation -/

namespace Mythical.CrudeSpec
open Cuboid (Pos)
open BoxSpec
variable {K : Type} [Field K] [LinearOrder K]

/-- The step from `p` to `q` is one for which the programs under src/tests have a rate. -/
def Step (d : Int) (p q : Pos) : Prop := InCube d p ∧ InCube d q ∧ Adjacent p q ∧ ¬ EntersFace p q

/-- The rates are those of a box: positive ones, one for each step. -/
def BoxRates (d : Int) (R : IMap (IMap K)) : Prop :=
  ∀ i p, At d i p → ∃ row, R.get? i = some row ∧ row.WF ∧ (∀ j, j ∈ row.keys ↔ ∃ q, At d j q ∧ Step d p q) ∧ ∀ jk ∈ row, 0 < jk.2

/-- The rate from `i` to `j`, 0 if there is none. -/
def rateOf (R : IMap (IMap K)) (i j : Int) : K := ((R.get? i).bind fun row => IMap.get? row j).getD 0

/-- The sum of the rates out of `i`. -/
def outRate (R : IMap (IMap K)) (i : Int) : K := (((R.get? i).getD []).map Prod.snd).sum

/-- The entries are met in the order of their values. -/
def Ascending (l : List (Int × K)) : Prop := l.Pairwise fun a b => a.2 ≤ b.2

/-- The greatest of the values of the entries, at least 0. -/
noncomputable def before (pre : List (Int × ℝ)) : ℝ := pre.foldr (fun x m => max x.2 m) 0

/-- `n` walkers with the numbers from 0 on different sites of the box; `occupied` are the sites they are on. -/
structure Seated (d : Int) (n : Nat) (occupied : List Int) (positions : IMap Pos) : Prop where
  walkers : ∀ k, (∃ p, positions.get? k = some p) ↔ 0 ≤ k ∧ k < n
  inside : ∀ k p, positions.get? k = some p → InCube d p
  apart : ∀ k k' p, positions.get? k = some p → positions.get? k' = some p → k = k'
  occupied : ∀ i, i ∈ occupied ↔ ∃ k p, positions.get? k = some p ∧ At d i p

/-- The walkers are seated, and each has one entry in the list of times, which is in order. -/
structure Sound (d : Int) (n : Nat) (s : Crude.State K) : Prop where
  seated : Seated d n s.occupied s.positions
  timed : (s.times.map Prod.fst).Perm ((List.range n).map fun k : Nat => (k : Int))
  sorted : s.times.Pairwise fun a b => a.2 ≤ b.2

/-- One round: the walker whose time is the least stays where it is or makes a step to a free site along a rate; to its time `e` times
the mean time of a stay on the site it is then on is added. All others keep place and time. -/
def Round (d : Int) (R : IMap (IMap K)) (e : K) (s s' : Crude.State K) : Prop :=
  ∃ k t, (k, t) ∈ s.times ∧ (∀ kt ∈ s.times, t ≤ kt.2) ∧ ∃ p q i j, s.positions.get? k = some p ∧ s'.positions.get? k = some q ∧
    At d i p ∧ At d j q ∧ (q = p ∨ Step d p q ∧ 0 < rateOf R i j ∧ ∀ k' p', s.positions.get? k' = some p' → p' ≠ q) ∧
    (∀ k', k' ≠ k → s'.positions.get? k' = s.positions.get? k') ∧
    s'.times.Perm ((k, t + e / outRate R j) :: s.times.erase (k, t))

/-- Rounds with the times `es`, made as long as there is a walker whose time is before the cutoff. -/
inductive Rounds (d : Int) (R : IMap (IMap K)) (cutoff : K) : List K → Crude.State K → Crude.State K → Prop
  | nil (s : Crude.State K) : Rounds d R cutoff [] s s
  | cons {e : K} {es : List K} {s s1 s' : Crude.State K} (h : ∃ kt ∈ s.times, kt.2 < cutoff) (h1 : Round d R e s s1)
      (h2 : Rounds d R cutoff es s1 s') : Rounds d R cutoff (e :: es) s s'

/-- The times at the beginning: `e k` times the mean time of a stay on the site of walker `k`. -/
def Begins (d : Int) (R : IMap (IMap K)) (n : Nat) (e : Nat → K) (s : Crude.State K) : Prop :=
  Sound d n s ∧ ∀ k : Nat, k < n → ∃ p i, s.positions.get? k = some p ∧ At d i p ∧ ((k : Int), e k / outRate R i) ∈ s.times

end Mythical.CrudeSpec
