import Verif.Model.Basin

/-! # Specification vocabulary for the basin search -/

namespace Mythical.BasinSpec
open Mythical
variable {K : Type}

/-- The rate from `i` to `j` that the user has given, if any. -/
def rate (mem : Addr → K) (sites : IMap (Site K)) (i j : Int) : Option K :=
  ((sites.get? i).bind fun s => s.neigh.get? j).map mem

/-- `j` can be reached from `v` by hops along existing rates through sites of `l`. -/
inductive Reach (mem : Addr → K) (sites : IMap (Site K)) (l : List Int) (v : Int) : Int → Prop where
  | start : Reach mem sites l v v
  | hop {i j : Int} (h : Reach mem sites l v i) (hj : j ∈ l) (r : K) (hr : rate mem sites i j = some r) :
    Reach mem sites l v j

/-- There is a way from `v` through sites of `l` which takes the time `t`, the sum of the mean times of its hops. -/
inductive PathTime [Field K] (mem : Addr → K) (sites : IMap (Site K)) (l : List Int) (v : Int) : Int → K → Prop where
  | start : PathTime mem sites l v v 0
  | hop {i j : Int} {t : K} (h : PathTime mem sites l v i t) (hj : j ∈ l) (r : K) (hr : rate mem sites i j = some r) :
    PathTime mem sites l v j (t + 1 / r)

/-- All rates in the container are positive, and site ids and neighbour ids are keys of maps. -/
structure Positive [Zero K] [LT K] (mem : Addr → K) (sites : IMap (Site K)) : Prop where
  neighWF : ∀ i s, sites.get? i = some s → s.neigh.WF
  pos : ∀ i j r, rate mem sites i j = some r → 0 < r

/-- The hops in `log` were accepted one after the other, starting with the slowest rate `s`: each rate is at least 0.9999
times the slowest so far. -/
def Accepted [Field K] [LinearOrder K] (mem : Addr → K) (sites : IMap (Site K)) : K → List (Int × Int) → Prop
  | _, [] => True
  | s, (i, j) :: log => ∃ r, rate mem sites i j = some r ∧ s * (9999 / 10000) ≤ r ∧ Accepted mem sites (min s r) log

/-- `r` is the largest rate out of site `i`. -/
def Fastest [LE K] (mem : Addr → K) (sites : IMap (Site K)) (i : Int) (r : K) : Prop :=
  (∃ j, rate mem sites i j = some r) ∧ ∀ j r', rate mem sites i j = some r' → r' ≤ r

end Mythical.BasinSpec
