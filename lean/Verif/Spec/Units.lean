import Verif.Model.System

/-!
# Specification vocabulary: the same system in another unit of time

`k` is the number of new units in an old one: times are multiplied by `k`, rates divided by it. Probabilities, numbers of
visits, ids and resolutions have no unit.
-/

namespace Mythical.Units
variable {K : Type} [Field K] [LinearOrder K] [IsStrictOrderedRing K] [FloorRing K]

/-- The rate variables in the new unit. -/
def rates (k : K) (mem : Addr → K) : Addr → K := fun a => mem a / k

/-- A table of times. -/
def times (k : K) (m : IMap K) : IMap K := m.mapVal fun _ t => k * t

/-- A table of rates. -/
def perTime (k : K) (m : IMap K) : IMap K := m.mapVal fun _ r => r / k

/-- A site in the new unit. -/
def site (k : K) (s : Site K) : Site K := { s with tau := k * s.tau }

/-- A cluster in the new unit, with other counts `sv` of the visits of its sites. -/
def cluster (k : K) (sv : IMap K) (c : Cluster K) : Cluster K :=
  { c with
    tau := c.tau.map (k * ·), internalTau := c.internalTau.map (k * ·), timeInc := c.timeInc.map (k * ·),
    remaining := times k c.remaining, sites := c.sites.mapVal fun _ => site k, sumEscape := perTime k c.sumEscape,
    sumInternal := perTime k c.sumInternal, internalDwell := times k c.internalDwell, siteVisits := sv }

/-- `c'` is `c` in the new unit, except for the counts of the visits of its sites (which are kept for the same sites). -/
def SameCluster (k : K) (c c' : Cluster K) : Prop := ∃ sv, sv.keys = c.siteVisits.keys ∧ c' = cluster k sv c

/-- The walker is on the same site, is to hop to the same site, and its dwell time is the same one in the new unit (or has never
been set, walker.cpp 12-16). -/
def SameWalker (k : K) (x x' : Walker K) : Prop :=
  x'.site = x.site ∧ x'.pot = x.pot ∧ (x'.dwell = k * x.dwell ∨ x.dwell = -1 ∧ x'.dwell = -1)

/-- Two maps have the same keys in the same order, with values in the relation `P`. -/
def SameMap {V W : Type} (P : V → W → Prop) (m : IMap V) (m' : IMap W) : Prop :=
  List.Forall₂ (fun a b => a.1 = b.1 ∧ P a.2 b.2) m m'

/-- `w'` is `w` in the new unit, except for the counts of the visits in the clusters. -/
structure Same (k : K) (w w' : World K) : Prop where
  perfRatio : w'.perfRatio = w.perfRatio
  seed : w'.seed = w.seed
  timeRes : w'.timeRes = w.timeRes.map (k * ·)
  iteration : w'.iteration = w.iteration
  threshold : w'.threshold = w.threshold
  thresholdMin : w'.thresholdMin = w.thresholdMin
  feats : w'.feats = w.feats
  sites : w'.sites = w.sites.mapVal fun _ => site k
  clusters : SameMap (SameCluster k) w.clusters w'.clusters
  nextId : w'.nextId = w.nextId
  walkers : SameMap (SameWalker k) w.walkers w'.walkers

/-- The choices of a hop in the new unit: the draws have no unit, the traversal times are times. -/
def choices (k : K) (a : Choices K) : Choices K := { a with times := a.times.map (k * ·) }

/-- A call in the new unit. -/
def op (k : K) : World.Op K → World.Op K
  | .setTimeResolution t => .setTimeResolution (k * t)
  | .walkerSetDwell h t => .walkerSetDwell h (k * t)
  | .hop wid h a => .hop wid h (choices k a)
  | o => o

/-- The answer of a call is the same, or it is the number of visits of a site that is in a cluster. -/
def SameAnswer (w : World K) (o : World.Op K) (r r' : Except Fault Int) : Prop :=
  r' = r ∨ ∃ i s n n', o = .getVisitFrequencyOfSite i ∧ w.sites.get? i = some s ∧ -1 < s.clusterId ∧ r = .ok n ∧ r' = .ok n'

/-- A number of visits does not fit into an `int`: its conversion, or (in the query) its sum with the visits before the site was
put into the cluster, is undefined. -/
def CountLost (o : World.Op K) (r : Except Fault Int) : Prop :=
  r = .error (.ub .floatToInt) ∨ (∃ i, o = .getVisitFrequencyOfSite i) ∧ r = .error (.ub .intOverflow)

/-- A call of a history, and the same call in the new unit. -/
def SameCall (k : K) (e e' : World.Event K) : Prop := e'.mem = rates k e.mem ∧ e'.op = op k e.op

/-- The same call, with the same answer (except for the visits in clusters) and the same world before and after it. -/
def SameEvent (k : K) (e e' : World.Event K) : Prop :=
  SameCall k e e' ∧ Same k e.pre e'.pre ∧ SameAnswer e.pre e.op e.res e'.res ∧ Same k e.post e'.post

end Mythical.Units
