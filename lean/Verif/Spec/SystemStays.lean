import Verif.Spec.SystemWalk

/-! # How long the walkers stay

The dwell times that the walkers are given, and bounds on the numbers that the user supplies. -/

namespace Mythical.SystemSpec
open Mythical World
variable {K : Type}

/-- The dwell time that walker `h` has in the world, if there is such a walker. -/
def dwellOf (w : World K) (h : Int) : List K :=
  match w.walkers.get? h with
  | some x => [x.dwell]
  | none => []

/-- The dwell times that the walkers with the id `wid` got in a call. -/
def staysIn (wid : Int) (ev : Event K) : List K :=
  match ev.op, ev.res with
  | .initializeWalkers l, .ok _ => (l.filter fun a => a.wid = wid).flatMap fun a => dwellOf ev.post a.handle
  | .hop id h _, .ok _ => if id = wid then dwellOf ev.post h else []
  | _, _ => []

/-- All dwell times that the walkers with the id `wid` got, one after the other. -/
def staysOf (wid : Int) (evs : List (Event K)) : List K := evs.flatMap (staysIn wid)

/-- Every site has rates out of it, which are at least `r` each and at most `R` together. -/
def RatesWithin [Field K] [LinearOrder K] [IsStrictOrderedRing K] [FloorRing K] (mem : Addr → K) (r R : K) (w : World K) : Prop :=
  ∀ i, Known w i → ratesOf w i ≠ [] ∧ (∀ na ∈ ratesOf w i, r ≤ mem na.2) ∧ rateOut mem w i ≤ R

/-- The draws from the exponential distribution were at least `ε`. -/
def DrawsAtLeast [LE K] (ε : K) (evs : List (Event K)) : Prop :=
  ∀ ev ∈ evs, match ev.op with
    | .initializeWalkers l => ∀ a ∈ l, ε ≤ a.e
    | .hop _ _ a => ε ≤ a.e
    | _ => True

/-- The time resolutions that were set were at least `θ`. -/
def ResolutionsAtLeast [LE K] (θ : K) (evs : List (Event K)) : Prop :=
  ∀ ev ∈ evs, ∀ t n, ev.op = .setTimeResolution t → ev.res = .ok n → θ ≤ t

end Mythical.SystemSpec
