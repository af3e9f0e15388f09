import Verif.Model.ToFMain
import Verif.Spec.Cuboid
import Verif.Spec.System

/-! # Specification vocabulary for the time-of-flight program -/

namespace Mythical.ToFSpec
open Mythical World CuboidSpec SystemSpec ToF
variable {K : Type} [Field K] [LinearOrder K] [IsStrictOrderedRing K] [FloorRing K]

/-- The world after a history of the program. -/
def worldAfter (evs : List (Event K)) : World K := (evs.getLast?.map fun ev => ev.post).getD (World.new 0)

/-- The random numbers are possible ones, and the graph library keeps its contract: the traversal times it returns in a hop cover
those of the basin that is searched. -/
structure Possible (c : Cuboid) (mem : Addr → K) (ch : Chances K) : Prop where
  picks : ∀ d ∈ ch.picks, (0 ≤ d.1 ∧ d.1 < c.width) ∧ 0 ≤ d.2 ∧ d.2 < c.height
  first : ∀ k, SiteSpec.Draw (ch.first k).2 ∧ 0 < (ch.first k).1
  draw : ∀ evs h, SiteSpec.Draw (ch.draw evs h).u ∧ 0 < (ch.draw evs h).e
  times : ∀ evs h v w, (worldAfter evs).hopMove h h (ch.draw evs h) = .ok (v, w) → CoversTimes mem w v (ch.draw evs h)

/-- The rates suit the lattice: they are positive rates between different sites of the lattice, in both directions, and every
site of the first plane has some. -/
structure Suits (c : Cuboid) (mem : Addr → K) (m : IMap (IMap Addr)) : Prop where
  maps : m.WF ∧ ∀ ir ∈ m, ir.2.WF
  rows : ∀ ir ∈ m, ir.2 ≠ [] ∧ ∀ na ∈ ir.2, 0 < mem na.2
  twoWay : TwoWay m
  sites : ∀ i, Mentions m i → ValidIndex c i
  plane : ∀ i a, SiteAt c i a → a.x = 0 → Mentions m i

/-- The constants of the program are sensible: there are charges, and the time between two samples is positive. -/
structure Sensible (cfg : Config K) : Prop where
  charges : 0 < cfg.charges
  fits : FitsInt cfg.charges
  dt : 0 < cfg.dt

/-- A run of the program: a lattice of at least two planes with suitable rates, sensible constants, possible random numbers, and
enough different ones to place all charges. -/
structure Setting (c : Cuboid) (mem : Addr → K) (m : IMap (IMap Addr)) (cfg : Config K) (ch : Chances K) : Prop where
  built : Built c
  length : 2 ≤ c.length
  suits : Suits c mem m
  sensible : Sensible cfg
  possible : Possible c mem ch
  enough : cfg.charges ≤ ch.picks.dedup.length

/-- The variables to which `m` refers hold the rates `R`. -/
def Holds (mem : Addr → K) (m : IMap (IMap Addr)) (R : IMap (IMap K)) : Prop :=
  m.map (fun ir => (ir.1, ir.2.map fun na => (na.1, mem na.2))) = R

/-- Charge `k` is at the plane `x` of the lattice. -/
def AtPlane (c : Cuboid) (w : World K) (k x : Int) : Prop := ∃ i a, On w k i ∧ SiteAt c i a ∧ a.x = x

/-- The sum of the rates out of site `i`. -/
def escapeRate (mem : Addr → K) (m : IMap (IMap Addr)) (i : Int) : K := (((m.get? i).getD []).map fun na => mem na.2).sum

/-- The result is a value, or a number has overflown: an `int`, or the number of visits converted to `int`. -/
def OnlyOverflow {α : Type} (r : Except Fault α) : Prop :=
  (∃ x, r = .ok x) ∨ r = .error (.ub .intOverflow) ∨ r = .error (.ub .floatToInt)

end Mythical.ToFSpec
