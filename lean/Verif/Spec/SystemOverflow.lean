import Verif.Spec.SystemStays

/-! # How far the counters can get

What the calls of a history can add to the counters, which are 32 bit integers: the numbers of walkers put on and taken off
sites, and the ids given to clusters. -/

namespace Mythical.SystemSpec
open Mythical World
variable {K : Type}

/-- How often a call can put a walker on a site. -/
def arrivals : Op K → Nat
  | .hop _ _ _ => 1
  | .initializeWalkers l => l.length
  | _ => 0

/-- How often a call can take a walker off a site. -/
def departures : Op K → Nat
  | .hop _ _ _ => 1
  | .removeWalker _ _ => 1
  | _ => 0

/-- How many ids of clusters a call can use up: two for each new cluster, of which a hop makes at most one. -/
def idsTaken : Op K → Nat
  | .hop _ _ _ => 2
  | .elsewhere k => k
  | _ => 0

/-- The sum of a number over the calls of a history and one further call. -/
def total (f : Op K → Nat) (evs : List (Event K)) (op : Op K) : Nat := (evs.map fun ev => f ev.op).sum + f op

/-- A rate map that is given to `initializeSystem` lists each neighbour of a site once and only positive rates. (Without that
the selection table of a site cannot be set up.) -/
def SensibleCall [Field K] [LinearOrder K] (mem : Addr → K) : Op K → Prop
  | .initializeSystem m => ∀ ir ∈ m, (ir.2.map Prod.fst).Nodup ∧ ∀ na ∈ ir.2, 0 < mem na.2
  | _ => True

/-- The counters have room for the history `evs` and the call `op` of a program whose first cluster gets the id `n`, if all
rates are at least `r` and the rates out of each site at most `R` together. -/
structure Fits [Field K] [LinearOrder K] (n : Nat) (r R : K) (evs : List (Event K)) (op : Op K) : Prop where
  /-- The visits of a cluster are passed on to its sites, up to `(R / r ^ 2 + 1) / 2` for each one. -/
  arrivals : (total arrivals evs op : K) * (R / (r * r) + 3) ≤ 2 * 2147483647
  departures : total departures evs op ≤ 2147483647
  ids : n + total idsTaken evs op ≤ 2147483647
  hops : hopsIn evs < 2 ^ 30

end Mythical.SystemSpec
