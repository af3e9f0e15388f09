import Verif.Model.RoundedStay
import Verif.Spec.Cluster

/-! # Specification vocabulary for the stay of a walker in a cluster in rounded arithmetic -/

namespace Mythical.RoundSpec
open Mythical Rounded ClusterSpec
variable {K : Type} [Field K] [LinearOrder K] [IsStrictOrderedRing K] [FloorRing K]

/-- A call with its reply, and the cluster before and after it. -/
structure CallEvent (K : Type) where
  pre : Cluster K
  call : Call K
  reply : Reply K
  post : Cluster K

/-- A history of calls that return. -/
inductive Calls (fl : K → K) (c : Cluster K) : List (CallEvent K) → Cluster K → Prop
  | nil : Calls fl c [] c
  | snoc {evs c' o r c''} : Calls fl c evs c' → Rounded.call fl c' o = .ok (r, c'') → Calls fl c (evs ++ [⟨c', o, r, c''⟩]) c''

/-- Every number drawn for a dwell time is positive. -/
def PosDraws (evs : List (CallEvent K)) : Prop := ∀ ev ∈ evs, ∀ w e, ev.call = .dwell w e → 0 < e

/-- One line in the observer's book on walker `w`. The first dwell time handed out opens a stay (with the double drawn), every
further one is added to it, and a pick after which the cluster no longer knows the walker closes it. -/
def note (fl : K → K) (w : Int) (stay : Option (Stay K)) (ev : CallEvent K) : Option (Stay K) :=
  match ev.call, ev.reply with
  | .dwell w' e, .time t =>
    if w' = w then
      match stay with
      | none => some ⟨fl (e * ev.pre.tau.getD 0), t, 1⟩
      | some a => some ⟨a.drawn, a.given + t, a.calls + 1⟩
    else stay
  | .pick w' _, _ => if w' = w ∧ w ∉ ev.post.remaining.keys then none else stay
  | _, _ => stay

/-- The book after a history. -/
def notes (fl : K → K) (w : Int) (evs : List (CallEvent K)) : Option (Stay K) := evs.foldl (note fl w) none

/-- What the hops of walkers do with a cluster: for each entry, the walker is handed a time and then picks a site. -/
def hopRounds (fl : K → K) : Cluster K → List (Int × K × K) → Except Fault (Cluster K)
  | c, [] => .ok c
  | c, (w, e, u) :: l => do
    let (_, c) ← Rounded.call fl c (.dwell w e)
    let (_, c) ← Rounded.call fl c (.pick w u)
    hopRounds fl c l

end Mythical.RoundSpec
