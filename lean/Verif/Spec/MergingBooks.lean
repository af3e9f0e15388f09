import Verif.Model.Merging
import Verif.Spec.Escape
import Verif.Spec.ToFMain

/-! # Specification vocabulary for the books of the unit test in which two clusters are merged -/

namespace Mythical.MergingSpec
open Mythical World EscapeSpec
variable {K : Type}

/-- The stays that begin with a hop: where the walker is after each hop and the dwell time it has. -/
def stays (evs : List (Event K)) : List (Int × K) :=
  evs.flatMap fun ev => match ev.op with
    | .hop _ h _ => seen ev.post h
    | _ => []

variable [Field K] [LinearOrder K]

/-- The stays on site `j`. -/
def onSite (l : List (Int × K)) (j : Int) : List (Int × K) := l.filter fun x => x.1 = j

/-- The counts are kept as their names say: the number of hops to each site, the number of hops and the time after them. -/
structure Counted (b : Merging.Books K) (l : List (Int × K)) : Prop where
  hops : b.hops = (List.range 16).map fun j : Nat => ((onSite l ((j : Int) + 1)).length : Int)
  count : b.count = l.length
  time : b.time = time l

/-- `time_spent_on_sites` is what its name says. -/
def TimesKept (b : Merging.Books K) (l : List (Int × K)) : Prop :=
  b.times = (List.range 16).map fun j : Nat => time (onSite l ((j : Int) + 1))

/-- It holds for each site the time of the last stay on it. -/
def TimesLast (b : Merging.Books K) (l : List (Int × K)) : Prop :=
  b.times = (List.range 16).map fun j : Nat => ((onSite l ((j : Int) + 1)).map Prod.snd).getLastD 0

/-- Possible random numbers. -/
def Lucky (luck : Merging.Luck K) : Prop :=
  (SiteSpec.Draw luck.first.2 ∧ 0 < luck.first.1) ∧ ∀ evs, SiteSpec.Draw (luck.draw evs).u ∧ 0 < (luck.draw evs).e

variable [IsStrictOrderedRing K] [FloorRing K]

/-- The times that the library finds when it searches a basin are those of paths in it (C70). -/
def Covering (mem : Addr → K) (luck : Merging.Luck K) : Prop :=
  ∀ evs v w, (ToFSpec.worldAfter evs).hopMove 1 0 (luck.draw evs) = .ok (v, w) → SystemSpec.CoversTimes mem w v (luck.draw evs)

end Mythical.MergingSpec
