import Verif.Model.System
import Verif.Spec.Basin
import Verif.Spec.Site

/-! # Specification vocabulary for the system -/

namespace Mythical.SystemSpec
open Mythical World
variable {K : Type}

/-- Walker `h` is on site `i`. -/
def On (w : World K) (h i : Int) : Prop := ∃ x, w.walkers.get? h = some x ∧ x.site = i ∧ i ≠ unassignedId

/-- The walkers in the system after one more call: `initializeWalkers` brings walkers in, `removeWalkerFromSystem` takes one
out. -/
def enter (act : List Int) (ev : Event K) : List Int :=
  match ev.op, ev.res with
  | .initializeWalkers l, .ok _ => act ++ l.map (·.handle)
  | .removeWalker _ h, .ok _ => act.filter fun k => k ≠ h
  | _, _ => act

/-- The walkers (handles) in the system after a history. -/
def active (evs : List (Event K)) : List Int := evs.foldl enter []

/-- Some hop has been made. -/
def Hopped (evs : List (Event K)) : Prop := ∃ ev ∈ evs, ∃ wid h a, ev.op = .hop wid h a

/-- The call is a proper one when `act` are the walkers in the system.
* `initializeWalkers` is called for walkers that are not yet in the system and are on sites which hold no other walker;
  either no hop has been made so far or these sites are in no cluster. It returns.
* `hop` and `removeWalkerFromSystem` are called for walkers in the system; the hop returns.
* Walkers in the system are not moved by other means. -/
def Proper (act : List Int) (hopped : Prop) (ev : Event K) : Prop :=
  match ev.op with
  | .initializeWalkers l =>
    (∃ n, ev.res = .ok n) ∧ (l.map (·.handle)).Nodup ∧ (∀ a ∈ l, a.handle ∉ act) ∧
    (∀ a ∈ l, ∀ b ∈ l, a.handle ≠ b.handle → ∀ i, On ev.pre a.handle i → ¬ On ev.pre b.handle i) ∧
    (∀ a ∈ l, ∀ h ∈ act, ∀ i, On ev.pre a.handle i → ¬ On ev.pre h i) ∧
    (¬ hopped ∨ ∀ a ∈ l, ∀ i, On ev.pre a.handle i → ev.pre.getClusterIdOfSite i = .ok unassignedId)
  | .hop _ h _ => h ∈ act ∧ ∃ n, ev.res = .ok n
  | .removeWalker _ h => h ∈ act
  | .newWalker h => h ∉ act
  | .walkerOccupy h _ => h ∉ act
  | _ => True

/-- Every call in the history is a proper one, and the rate maps given to `initializeSystem` are maps. -/
def Usage (evs : List (Event K)) : Prop :=
  ∀ before ev after, evs = before ++ ev :: after → Proper (active before) (Hopped before) ev

/-- The rates maps given to `initializeSystem` are maps. -/
def Maps (evs : List (Event K)) : Prop :=
  ∀ ev ∈ evs, ∀ m, ev.op = .initializeSystem m → m.WF ∧ ∀ ir ∈ m, ir.2.WF

/-- The dwell time `t` and the next site `n` that walker `wid` gets on site `k` with the draws `e` and `u`: from the site, or
from its cluster. -/
def HandsOut [Field K] [LinearOrder K] (w : World K) (k wid : Int) (e u t : K) (n : Int) : Prop :=
  ∃ s, w.sites.get? k = some s ∧
    ((s.clusterId = unassignedId ∧ t = s.getDwellTime e ∧ n = s.pickNewSiteId u) ∨
     (s.clusterId ≠ unassignedId ∧ ∃ x x1 x2, w.clusters.get? s.clusterId = some x ∧ x.getDwellTime wid e = .ok (t, x1) ∧
       x1.pickNewSiteId wid u = .ok (n, x2)))

/-- All hops in the history return. -/
def HopsReturn (evs : List (Event K)) : Prop := ∀ ev ∈ evs, ∀ wid h a, ev.op = .hop wid h a → ∃ n, ev.res = .ok n

/-- The call is a hop. -/
def isHop (op : Op K) : Bool :=
  match op with
  | .hop _ _ _ => true
  | _ => false

/-- The number of hops in a history. -/
def hopsIn (evs : List (Event K)) : Nat := evs.countP fun ev => isHop ev.op

/-- The number of walkers a call brings in. -/
def newWalkers (op : Op K) : Nat :=
  match op with
  | .initializeWalkers l => l.length
  | _ => 0

/-- The number of walkers brought in by a history. -/
def walkersIn (evs : List (Event K)) : Nat := (evs.map fun ev => newWalkers ev.op).sum

/-- All calls of `initializeWalkers` in the history return. -/
def InitsReturn (evs : List (Event K)) : Prop := ∀ ev ∈ evs, ∀ l, ev.op = .initializeWalkers l → ∃ n, ev.res = .ok n

/-- The call changed the cluster of some site. -/
def Regrouped (ev : Event K) : Prop := ∃ i, ev.pre.getClusterIdOfSite i ≠ ev.post.getClusterIdOfSite i

/-- The rates out of site `i`, as the user has given them: pairs of a neighbour and the address of the rate. -/
def ratesOf (w : World K) (i : Int) : List (Int × Addr) :=
  match w.sites.get? i with
  | none => []
  | some s => s.neigh

/-- Sum of the rates from the sites in `B` to sites not in `B`. -/
def exitRate [Field K] (mem : Addr → K) (w : World K) (B : List Int) : K :=
  (B.map fun i => (((ratesOf w i).filter fun na => na.1 ∉ B).map fun na => mem na.2).sum).sum

/-- The rates do not change during the history: every call sees the rates `mem`. -/
def RatesFixed (mem : Addr → K) (evs : List (Event K)) : Prop := ∀ ev ∈ evs, ev.mem = mem

/-- All rates given to `initializeSystem` are positive. -/
def RatesPositive [Field K] [LinearOrder K] (mem : Addr → K) (evs : List (Event K)) : Prop :=
  ∀ ev ∈ evs, ∀ m, ev.op = .initializeSystem m → ∀ ir ∈ m, ∀ na ∈ ir.2, 0 < mem na.2

/-- What is assumed of `maxMinimumDistanceBetweenEveryVertex` of the graph library (called in coarsegrainsystem.cpp 414-415):
for any two sites of the basin that was searched, the second of which can be reached from the first inside the basin, the times
it returns include one that is at least the time of some way from the first to the second. -/
def TimesCover [Field K] [LinearOrder K] [IsStrictOrderedRing K] [FloorRing K] (evs : List (Event K)) : Prop :=
  ∀ ev ∈ evs, ∀ wid h a v w1 B, ev.op = .hop wid h a → ev.pre.hopMove wid h a = .ok (v, w1) →
    Explorer.default.findBasin a.vis ev.mem w1.sites w1.clusters v = .ok B →
    ∀ x ∈ B, ∀ y ∈ B, x ≠ y → BasinSpec.Reach ev.mem w1.sites B x y →
      ∃ t ∈ a.times, ∃ t' ≤ t, BasinSpec.PathTime ev.mem w1.sites B x y t'

/-- The same for the attempt that the hop with the choices `a` would make from site `v` in the world `w`. -/
def CoversTimes [Field K] [LinearOrder K] [IsStrictOrderedRing K] [FloorRing K] (mem : Addr → K) (w : World K) (v : Int)
    (a : Choices K) : Prop :=
  ∀ B, Explorer.default.findBasin a.vis mem w.sites w.clusters v = .ok B →
    ∀ x ∈ B, ∀ y ∈ B, x ≠ y → BasinSpec.Reach mem w.sites B x y →
      ∃ t ∈ a.times, ∃ t' ≤ t, BasinSpec.PathTime mem w.sites B x y t'

/-- All rates in the rate map `m` are between different sites and go both ways: with a rate from `i` to `j` there is one from
`j` to `i`. -/
def TwoWay (m : IMap (IMap Addr)) : Prop :=
  ∀ ir ∈ m, ∀ na ∈ ir.2, na.1 ≠ ir.1 ∧ ∃ ir' ∈ m, ir'.1 = na.1 ∧ ∃ na' ∈ ir'.2, na'.1 = ir.1

/-- All rates given to `initializeSystem` are between different sites and go both ways. -/
def TwoWayRates (evs : List (Event K)) : Prop := ∀ ev ∈ evs, ∀ m, ev.op = .initializeSystem m → TwoWay m

/-- The performance ratio is never set below 1/2. (Its default is 1.) -/
def RatioHalf [Field K] [LinearOrder K] (evs : List (Event K)) : Prop :=
  ∀ ev ∈ evs, ∀ r, ev.op = .setPerformanceRatio r → 1 / 2 ≤ r

/-- Cluster `c` exists. -/
def Exists (w : World K) (c : Int) : Prop := c ∈ w.getClusters.keys

/-- Site `i` is known: it can be asked for its cluster. -/
def Known [Field K] [LinearOrder K] [IsStrictOrderedRing K] [FloorRing K] (w : World K) (i : Int) : Prop :=
  ∃ c, w.getClusterIdOfSite i = .ok c

/-- The rate map `m` mentions site `i`: it lists rates out of it or a rate to it. -/
def Mentions (m : IMap (IMap Addr)) (i : Int) : Prop := ∃ ir ∈ m, ir.1 = i ∨ ∃ na ∈ ir.2, na.1 = i

/-- Every call of `initializeSystem` in the history returns, and it is given no site whose id is the one that stands for
"no site" (`constants::unassignedId`). -/
def SystemsReturn (evs : List (Event K)) : Prop :=
  ∀ ev ∈ evs, ∀ m, ev.op = .initializeSystem m → (∃ n, ev.res = .ok n) ∧ ∀ i, Mentions m i → i ≠ unassignedId

/-- The draws of a call are possible ones: numbers of a uniform distribution are at least 0 and less than 1, those of an
exponential distribution are positive. -/
def DrawsOf [Field K] [LinearOrder K] (op : Op K) : Prop :=
  match op with
  | .initializeWalkers l => ∀ a ∈ l, SiteSpec.Draw a.u ∧ 0 < a.e
  | .hop _ _ a => SiteSpec.Draw a.u ∧ 0 < a.e
  | _ => True

/-- All draws in the history are possible ones. -/
def Draws [Field K] [LinearOrder K] (evs : List (Event K)) : Prop := ∀ ev ∈ evs, DrawsOf ev.op

/-- The user sends walkers to known sites only. -/
def SentToKnown [Field K] [LinearOrder K] [IsStrictOrderedRing K] [FloorRing K] (evs : List (Event K)) : Prop :=
  ∀ ev ∈ evs, ∀ h i, ev.op = .walkerSetPotential h i → Known ev.pre i

/-- Site `i` is a drain: it is known but has no rates out of it. -/
def Drain [Field K] [LinearOrder K] [IsStrictOrderedRing K] [FloorRing K] (w : World K) (i : Int) : Prop :=
  Known w i ∧ ratesOf w i = []

/-- Site `i` (`inl i`) has rates, or cluster `c` (`inr c`) exists: it has a stream of random numbers. -/
def Streams (w : World K) : Int ⊕ Int → Prop
  | .inl i => ratesOf w i ≠ []
  | .inr c => Exists w c

/-- The seed of the stream; `none` if it has been seeded from the clock. -/
def seedOf (w : World K) : Int ⊕ Int → Option Nat
  | .inl i => (w.sites.get? i).bind (·.seed)
  | .inr c => (w.clusters.get? c).bind (·.seed)

/-- A bound on the number of seeds a call uses: one for each site with rates, at most one cluster for each hop. -/
def seedsFor (op : Op K) : Nat :=
  match op with
  | .initializeSystem m => m.length
  | .hop _ _ _ => 1
  | _ => 0

/-- A bound on the number of seeds used in a history. -/
def seedings (evs : List (Event K)) : Nat := (evs.map fun ev => seedsFor ev.op).sum

/-- The pace of the attempts at coarse graining: the number of hops since the last attempt, the number of hops up to which no
attempt is due, and the value to which it is reset after a successful attempt. -/
structure Pace where
  since : Int
  thr : Int
  min : Int

/-- The next hop is followed by an attempt: with it, more hops than the threshold have been made. -/
def Pace.Due (p : Pace) : Prop := p.thr < p.since + 1 ∧ p.min ≠ infIterations

open Classical in
/-- The pace after one more call: a successful attempt, one that changes clusters, resets the threshold to the minimum, a
failed one doubles it. -/
noncomputable def Pace.after (p : Pace) (ev : Event K) : Pace :=
  match ev.op with
  | .setMinThreshold n => ⟨p.since, n, n⟩
  | .hop _ _ _ =>
    if p.since + 1 ≤ p.thr then ⟨p.since + 1, p.thr, p.min⟩
    else if p.min = infIterations then ⟨0, p.thr, p.min⟩
    else if Regrouped ev then ⟨0, p.min, p.min⟩
    else ⟨0, 2 * p.thr, p.min⟩
  | _ => p

/-- The pace after a history of a new system. -/
noncomputable def pace (evs : List (Event K)) : Pace := evs.foldl Pace.after ⟨0, 1000, 1000⟩

/-- The time resolution that a call sets. -/
def resolutionSet [Zero K] [LT K] [DecidableRel (α := K) (· < ·)] : Op K → Option K
  | .setTimeResolution t => if 0 < t then some t else none
  | _ => none

/-- The performance ratio that a call sets. -/
def ratioSet : Op K → Option K
  | .setPerformanceRatio r => some r
  | _ => none

/-- The last call in the history that sets a value (as told by `sets`) sets the value `a`. -/
def LastSet {α : Type} (sets : Op K → Option α) (evs : List (Event K)) (a : α) : Prop :=
  ∃ before ev after, evs = before ++ ev :: after ∧ sets ev.op = some a ∧ ∀ e ∈ after, sets e.op = none

end Mythical.SystemSpec
