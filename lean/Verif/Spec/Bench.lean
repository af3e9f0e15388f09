import Verif.Model.Bench
import Verif.Spec.Programs
import Verif.Spec.ToFEnds
import Verif.Spec.Crude

/-! # Specification vocabulary for the program that simulates with and without clusters -/

namespace Mythical.BenchSpec
open Mythical World SystemSpec ProgramSpec
variable {K : Type} [Field K] [LinearOrder K] [IsStrictOrderedRing K] [FloorRing K]

/-- A simulation: positive rates between sites, all of which have rates out of them; different sites for the walkers, of which there is
at least one and no more than an `int` can count; positive times; and possible random numbers. -/
structure Setting (mem : Addr → K) (m : IMap (IMap Addr)) (sites : List Int) (cutoff : K) (rate : Int) (luck : Bench.Luck K) : Prop where
  proper : ProgramSpec.Proper mem m
  closed : ∀ i, Mentions m i → i ≠ unassignedId ∧ ∃ row, (i, row) ∈ m
  apart : sites.Nodup
  inside : ∀ i ∈ sites, Mentions m i
  walkers : sites ≠ []
  fits : (sites.length : Int) ≤ INT_MAX
  cutoff : 0 < cutoff
  rate : 0 < rate
  first : ∀ k, SiteSpec.Draw (luck.first k).2 ∧ 0 < (luck.first k).1
  draw : ∀ evs h, SiteSpec.Draw (luck.draw evs h).u ∧ 0 < (luck.draw evs h).e

/-- What holds of a simulation of `n` walkers after any number of rounds. -/
structure Consistent (m : IMap (IMap Addr)) (n : Nat) (cutoff : K) (s : Bench.Sim K) : Prop where
  /-- each walker has one entry in the list -/
  ids : (s.times.map Prod.fst).Perm ((List.range n).map fun k : Nat => (k : Int))
  /-- the list is in order -/
  ordered : s.times.Pairwise fun a b => a.2 ≤ b.2
  /-- the time of a walker is the sum of the dwell times it got -/
  clock : ∀ e ∈ s.times, e.2 = (staysOf e.1 s.prog.calls).sum
  /-- all of them but the last ended before the cutoff -/
  before : ∀ k : Int, (staysOf k s.prog.calls).dropLast.sum < cutoff
  /-- each walker is on a site of the system -/
  placed : ∀ k : Nat, k < n → ∃ i, On s.prog.world k i ∧ Mentions m i
  /-- no two are on the same -/
  apart : ∀ k k' : Nat, k < n → k' < n → ∀ i, On s.prog.world k i → On s.prog.world k' i → k = k'

/-- The draws from the exponential distribution are at least `ε`. -/
def LuckAtLeast (ε : K) (luck : Bench.Luck K) : Prop := (∀ k, ε ≤ (luck.first k).1) ∧ ∀ evs h, ε ≤ (luck.draw evs h).e

end Mythical.BenchSpec
