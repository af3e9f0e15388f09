# Formal model of MythiCaL in Lean 4 — design

Source modelled: `/repo/CoarseGrainSites` (paths below are relative to
`CoarseGrainSites/src/libmythical` unless said otherwise).

## 1. Trusted base

* Lean 4.33.0's kernel. Each property theorem depends on at most the axioms
  `propext`, `Classical.choice`, `Quot.sound` (checked with `#print axioms`;
  `lean/Verif/Audit.lean` lists them). No axioms are added, no `sorry`, no
  `native_decide`, no `bv_decide`.
* The faithfulness of the hand-written model to the C++ text. Each definition
  cites file and lines. The code was read, not run.
* The conventions of section 2 and the contracts of external code in section 3.

## 2. Modelling conventions

* **Faults.** `Fault` has one constructor per way a call can fail:
  C++ exceptions (`invalidArgument`, `runtimeError`, `outOfRange`,
  `lengthError`), `assertFail` (a failing `assert`; the library is modelled as
  compiled with asserts on), `ub why` (undefined behaviour: null or dangling
  pointer, pop of an empty deque, signed overflow, division by zero, out of
  range float-to-int conversion, invalid distribution), and `outOfFuel`
  (a loop that has not stopped). A call returns `Except Fault α`, or for
  stateful objects a pair with the state left behind, so partially performed
  updates after a throw are visible.
* **Numbers.** `double` is modelled by exact arithmetic: an arbitrary
  `K` with `[Field K] [LinearOrder K] [IsStrictOrderedRing K] [FloorRing K]`, or `ℝ`
  where `sqrt`, `exp`, `log` are needed. Overflow to infinity, underflow and NaN
  are not modelled. Rounding is left out, except in `Verif/Model/Rounded.lean`, which follows the
  operations of `Site` and of the update of `Cluster` once more with a rounding after each (C90-C92, C97), and `RoundedStay.lean`, `RoundedLoop.lean`, `RoundedCuboid.lean`, `RoundedMarcus.lean` and `RoundedToF.lean`, which do so for the handing out of dwell times (C93), the loops of the time-of-flight example (C94), the neighbour queries of `Cuboid` (C95), Marcus rates (C98) and the rates of the time-of-flight example (C99). The bounds of `double` on the exponents are left out there, except in C98_counterexample and in C100, which shows that they make no difference for numbers of moderate size. Witnesses use `ℚ`.
  `int` is `Int` with every arithmetic result checked: a result outside
  [-2^31, 2^31) is the outcome `ub intOverflow` (lattice indices, occupation and
  visit counters, hop counter and threshold, cluster ids). Conversions from
  `double` to `int` outside that range are `ub floatToInt`. Products that the
  code computes as `long` (iterations times sites) and the unsigned seed are not
  bounded. Division of a `double` by zero is the outcome `nonFinite` where the
  result would be stored.
* **Containers.** `unordered_map<int,V>` is an association list `IMap V`
  (`List (Int × V)`), iteration order = list order. The maps that the user hands
  in may be in any order. The maps that the library builds are iterated in the order
  of insertion in the model, while the C++ order is unspecified and may change with a
  rehash. For a `Cluster` C89 shows that this makes no difference: for all orders,
  changing before every call, all successful calls have the same results, and the picks
  the same law. For a `Site` C104 shows the same, picks included. The basin search does depend on the order (C101).
  For the other classes nothing is proved about this; there theorems about
  single functions hold for every list with distinct keys. `std::sort` is a parameter with the contract "sorted
  permutation".
* **Pointers.** `double*` into the user's rate map is an address
  `(site, neighbour)`; a heap gives its current value, and the user may change
  it. `topology_features_` maps a site to "site object s" or "cluster object c";
  dereferencing a missing (null) entry or an erased cluster is `ub`.
* **Randomness.** Every draw is an explicit input quantified over its whole
  range: `u ∈ [0,1)` for picks, `e = -log u > 0` for dwell times, ints within
  the distribution for lattice sites. (`u = 0` exactly, which makes the dwell
  time infinite, is excluded.)

## 3. External code (not in the repository) and its contract

`UGLY` (graph library) is an empty submodule here.
* `GraphVisitorLargestKnownValue` (`Visitor` in `Model/Basin.lean`): a set of
  explored vertices and a list of added, unexplored edges. `getNextEdge` may
  return any of them; the edges out of a vertex are offered in any order; the
  result is listed in any order. Theorems hold for every such choice.
  `edgeCanBeAdded` allows only edges whose terminal vertex is unexplored and that
  were not added before.
* `maxMinimumDistanceBetweenEveryVertex`: the returned times are an arbitrary
  input `Choices.times` of a hop. Where a theorem needs more, it assumes
  `TimesCover` (`Spec/System.lean`): for any two sites of the basin, the second of
  which can be reached from the first inside the basin, some returned time is at
  least the time of some way between them. C70_covers derives it from a contract
  on the graph alone (`Distances`, `Spec/GraphAdapter.lean`): some returned
  distance is at least the length of some way in the graph between any two
  connected vertices, and every returned distance is a shortest one. Only
  C70_traversal uses the second half.
* The iteration order of `unordered_set<int>` of cluster ids in a merge is the
  arbitrary permutation `Choices.order`.

## 4. What is modelled

| C++ | Lean |
|---|---|
| `queue.cpp`, `queue.hpp` (all) | `Verif/Model/Queue.lean` |
| `charge_transport/cuboid_lattice.cpp` (all but getters) | `Verif/Model/Cuboid.lean` |
| `charge_transport/marcus.cpp` (all) | `Verif/Model/Marcus.lean` |
| `rate_container.cpp` (all) | `Verif/Model/RateContainer.lean` |
| `topologyfeatures/topology_feature.{hpp,cpp}`, `site.cpp` | `Verif/Model/Site.lean` |
| `topologyfeatures/cluster.{hpp,cpp}` | `Verif/Model/Cluster.lean` |
| `site_container.cpp`, `cluster_container.cpp` | `Verif/Model/Containers.lean` |
| `graph_library_adapter.{hpp,cpp}`, graph of `getInternalTimeLimit_` | `Verif/Model/GraphAdapter.lean` |
| `basin_explorer.cpp` | `Verif/Model/Basin.lean` |
| `walker.cpp`, `coarsegrainsystem.cpp` | `Verif/Model/System.lean` |
| event loop of `examples/ToF/ToF_example.cpp` | `Verif/Model/EventLoop.lean` |
| `calculateRates` of `examples/ToF/ToF_example.cpp` | `Verif/Model/ToF.lean` |
| `main`, `populateLattice`, `createQueue` of `examples/ToF/ToF_example.cpp` | `Verif/Model/ToFMain.lean` |
| `generateSiteEnergies`, `printTransientCurrent` and `main` from the constants to the file | `Verif/Model/ToFOutput.lean` |
| box of sites and rates in the programs under `src/tests` (`Converter`, rates) | `Verif/Model/Box.lean` |
| crude Monte Carlo simulation of `performance/test_crude_vs_coarsegrain*.cpp` | `Verif/Model/Crude.lean` |
| `performance/test_coarsegrain_cluster_vs_nocluster_toy.cpp`, `regression/test_ToF.cpp` up to its loops, `regression/test_1Dsystem.cpp` (its loops with arbitrary results of the hops) | `Verif/Model/Programs.lean` |
| the two simulations of `performance/test_coarsegrain_cluster_vs_nocluster.cpp` (lines 191-340) | `Verif/Model/Bench.lean` |
| the coarse-grained simulation of `performance/test_crude_vs_coarsegrain*.cpp` after the crude one | `Verif/Model/Versus.lean` |
| `performance/test_kmc_coarsegrainsystem.cpp` without its clock | `Verif/Model/Escape.lean` |
| `unit/test_coarsegrainsystem2.cpp` without the sums 202-211, which are not used | `Verif/Model/Merging.lean` |
| the energies of `performance/test_crude_vs_coarsegrain_correlated.cpp` (lines 104-379: correlation, bins and widths) | `Verif/Model/Correlated.lean` |
| `site.cpp`, `initializeWalkers` and the update of `cluster.cpp` (lines 89-95) in rounded arithmetic | `Verif/Model/Rounded.lean` |
| `getDwellTime` and `setResolution` of `cluster.cpp` in rounded arithmetic | `Verif/Model/RoundedStay.lean` |
| the loops and the times in the file of `examples/ToF/ToF_example.cpp` in rounded arithmetic, with arbitrary results of the hops | `Verif/Model/RoundedLoop.lean` |
| `Cuboid::getNeighbors` and `getNeighborDistances(index, cutoff)` in rounded arithmetic | `Verif/Model/RoundedCuboid.lean` |
| `marcus.cpp` in rounded arithmetic, with any exponential, square and root of bounded relative error | `Verif/Model/RoundedMarcus.lean` |
| `calculateRates` of `ToF_example.cpp` and the search of the whole lattice it calls in rounded arithmetic | `Verif/Model/RoundedToF.lean` |
| rounding to `double` with gradual underflow | `Verif/Model/Range.lean` |

Not modelled: `operator<<` output, logging, how a stream formats the numbers in the
file of the time-of-flight example, `examples/version`, the parts of the programs under `src/tests` not listed above, the
Mersenne twister itself (only its seed), memory exhaustion, floating-point
rounding outside `Rounded.lean`, `RoundedStay.lean`, `RoundedLoop.lean`, `RoundedCuboid.lean`, `RoundedMarcus.lean` and `RoundedToF.lean`, threads (the library has none).

## 5. Per-property plan

Status words refer to what the code allows; see MANIFEST.json for the final
status and theorem names.

* C01–C06 queue: invariant by induction over operation lists; `std::sort` is any
  sorted-permutation function. C05 composes the queue with an arbitrary source
  of dwell times.
* C07–C11 index arithmetic with checked `int` operations. C10 holds only for
  coordinates ≥ -dim and C11 only for `index ≥ 0` in `getPosition/getX/getY/getZ`:
  negations with witnesses plus `_partial` theorems.
* C12: the bound check uses `&&` and the XY plane draws y from the z
  distribution: negation plus `_partial`.
* C13–C17: set-level characterisation of the triple loop over ℝ. Periodic axes
  need cutoff/spacing ≤ dim (the code wraps only one period); C16 needs
  2·cutoff/spacing < dim on periodic axes: negation plus `_partial`.
* C18: the whole-lattice query scans only one octant: negation plus `_partial`.
* C19: exact for Fixed boundaries, wrong for Periodic: negation plus `_partial`.
* C20, C21: exact no-overflow domain; zero or overflowing dimensions pass the
  constructor's checks: negation plus `_partial`.
* C22–C24: real analysis on the Marcus formula.
* C25–C29: map reasoning; C26, C27, C29 are false of the code (operator[]
  inserts; addRates is not atomic): negations plus `_partial`.
* C30–C34: the `std::set` with the lossy comparator is modelled literally and
  shown to be a permutation of the neighbour list. C34 is false (cached
  probabilities): negation plus `_partial`.
* C35–C36: protocol of getDwellTime/pickNewSiteId as a state machine, induction
  on the number of steps.
* C37, C38, C47: algebra of the iteration as finite sums.
* C39, C40: true after the first update, false after the second because the
  cumulative arrays are never cleared: negation plus `_partial`.
* C41: the closed form the code computes; it differs from the intended one
  because the normalisation loop of calculateProbabilityHopBetweenInternalSite_
  divides the wrong map; both are stated.
* C42, C43: false (removeWalkerCluster_ is never installed; occupyCluster_ does
  not count): negations plus `_partial`.
* C44: map reasoning. C45: the cluster-level parts are map reasoning; the system
  level follows the favoured cluster through the merge and needs that every
  cluster keeps a count for each of its sites (invariant `Counted`).
* C46: convergence of the averaged power iteration for symmetric adjacency.
* C48: arithmetic on createCluster_.
* C49, C50: invariant over the exploration loop with an arbitrary visitor oracle.
* C51–C65: a transition system over all API calls with arbitrary draws; one
  consistency invariant, from which exclusion, occupancy, partition and
  definedness follow. C56 uses the equilibrium test itself: for performance
  ratio ≥ 1/2 an accepted basin cannot partially overlap an accepted cluster.
  C57, C58, C60, C61 are false at the edges (int overflow of the counters,
  drains, late initialisation): negations plus `_partial`.

* C66: the formula against its documentation in `marcus.hpp`; the documented
  exponent has another denominator: negation plus `_partial`.
* C67: the rounds of the iteration against a recursive specification (`rounds`).
* C68: over the reals. The growth bound of C46 increases to a limit, so by
  compactness every limit point is a positive eigenvector, which is unique on a
  connected cluster.
* C69: every part of a hop settles: from some number of rounds on its result no
  longer depends on that number and is a success or an overflow (`Settles`). A
  merge first adds lone sites to the favoured cluster and updates it before the
  other cluster is moved in; as a basin has at most 5 sites there is at most one
  other cluster and one lone site, so the intermediate cluster is a connected
  core plus at most one detached site.
* C70: the edges are listed explicitly; a way in the graph cannot pass through a
  vertex outside the basin, as such a vertex has no edges out of it.
* C71: the loops keep the invariant that every entry is the closed form of the
  rate of a listed pair; the closed form of (j, i) computed from the side of i is
  the one computed from the side of j.
* C73, C74: the program as a transition system on top of the model of the system;
  its calls form a history to which the theorems about the system apply (`Story`).
  The calls before the loops are followed one by one (`start_spec`), the loops by
  an invariant (`Inv`, `Moved`). The contract of the graph library is a condition
  on the choices after every history (`Possible.times`), which can be met for every
  history (`exists_times`). C74 is false of the last sample: negation plus
  `_partial`.
* C75: what each call does to the settings, by induction on histories.
* C76: the process hop by hop (`inside`, `leavesTo`, `timeAt`) from the stationary
  distribution is geometric, so its infinite sums have closed forms, which are the
  limits of what the cluster computes (C68). `C76_entry`: a walker that enters a
  cluster at a given site does not leave it with these probabilities.
* C77: a hop without clusters maps a pair of uniform numbers to a landing site, a
  next site and a dwell time; the set of pairs with a given next site and a longer
  dwell time is a box, so the set of draws for `N` hops is a product of boxes. The
  process it is compared with (`landing`, `placesAfter`) is defined by itself.
* C78: the escape time constant is a quotient of sums over the sites of the cluster,
  which are bounded by the rates; the resolution is fixed when the cluster is made. A
  dwell time below the bound uses up a remaining time that the cluster holds for the
  walker, and such a remaining time is only made together with a long dwell time, so
  the number of clusters that hold one is a potential (`holders`).
* C79: the dwell times of a charge (C78) against the times in the queue: all
  hops happen before the last sample is due, so C78 bounds their number; the
  steps of the loops are hops, samples and entries into the inner loop.
* C80: the hops of a charge are read off the history of calls, each at the sum of the
  dwell times before it. The invariant `Told` ties the samples and the running sum in
  the inner loop to those hops. `main` is C73_rates, C79 and the file; the addresses of
  the rates are laid out in the order in which `initializeSystem` meets them.
* C81: the functions of the model are gone through for calls of `chk` (`Calm`: any other
  outcome); the invariant `Small` bounds the counters by the numbers of arrivals, departures
  and ids. The visits of a cluster not yet passed on count `κ = (R/r^2+1)/2` each, which
  bounds what one visit can add to a site (`Shares`), by the bound on time constants of C78.
* C82: the calls of the time-of-flight program are counted step by step (`Tally`), so that C81 applies
  to each of them; with C79 and C73 the only other end of the program is the `assert`.
* C83: `Timeless` (no walker recorded, time constant unassigned or still 0) is kept by every call but
  update and merge; these first read the visit counts and stop there.
* C84-C86: the box of sites that four of the programs under `src/tests` build. The rates stored by the
  loops are characterised by one statement (`Stored`): a value for a pair of sites is there exactly
  if the step is one the loops make.
* C87: the table of a site is a list of increasing values up to 1; the probability of an entry is the
  length of the interval of random numbers that reach it, for any order of the list.
* C88: `Sound` (walkers on different sites, the set of occupied sites is the set of these, the list of
  times is in order) is kept by every round; the rounds made are recorded (`Rounds`).
* C89: two clusters are related if their members are equal up to the order of maps and tables (`Same`).
  Every call keeps this relation; a loop over a map commutes with a change of its order because the
  steps commute up to `Reordered` (`foldlM_perm'`). A call that throws in the middle of such a loop (a
  site without a dwell time, `out_of_range`) leaves a state that does depend on the order; C89 is
  about calls that succeed.
* C90: a rounding is a monotone idempotent function of relative error `ε`; that of `double` is one (`binary64`).
  Rounded sums of positive numbers are within `(1±ε)^n`, thresholds are sums, and the interval of an
  entry is the difference of two thresholds.
* C91: two numbers are related if they are equal up to `m` factors `1-ε` (`Rel ε m`); sums, products and quotients of numbers
  that are not negative keep the relation. The computation with rounding is followed in step with the one
  without, function by function.
* C92: one round subtracts numbers, so the relation is not kept; instead the temporary probability of a site is within a multiple
  of `ε` times (its old probability + the inflow) of the inflow (`AErr`, `iterSite_near`). The inflows add up to at least
  `φ` times the old total, so the total is not 0 and the mean with the old probability is positive.
* C93: the remaining time never grows (the rounding is monotone and idempotent) and the errors of the subtractions add up;
  while `2 ε drawn ≤ dt` every handout takes away at least `dt / 2`.
* C94: an invariant of the loops with the record of all hops; the sample times of the loops and of the file are sums formed in
  the same order. The number of steps is bounded by the growth of the clocks as in C79; the condition is that a dwell time is
  not lost in the rounding of the clock.
* C95: the scan of C13 with any distance function; the number of steps and the distance are monotone in what is rounded, so
  at whole steps nothing is lost and the relation stays symmetric.
* C96: a relation between worlds in two units (`Spec/Units.lean`): times in maps multiplied by `k`, rates divided, the visits kept
  for sites of clusters arbitrary. Every function of the model maps related worlds to related worlds, or one of the two loses a count
  in a conversion to `int`; then induction over the history.
* C97: for rates inside that are at least the part `theta` of the rates of a site, the subtraction of `iterate_` loses at most a
  factor `1/theta`; one round then keeps the occupation probabilities within `2 k + 4` factors `1 - η` of the exact ones if they
  were within `k`, `η` being 180 (4 d + N + 3) eps / theta (`Lemmas/RoundedAcc.lean`). With the tables and time constants of the
  sites as in C90, this gives the weights of the two tables, and C91 gives the draws.
* C98: relative errors of the factors multiply; the error of the exponent is absolute, because `lambda + E_j - E_i` can lose all
  digits, and enters as a factor `exp(±x)`. The order of two rates needs monotone operations only.
* C99: C95 for the search, C98 for the rates. The energy of one site of a pair is taken as it is and the other is shifted by the
  potential, so what the two directions of visiting a pair write are two roundings of one exact rate; both are compared with it.
* C100: every intermediate result of the computation is shown to be zero or to lie between two powers of two, so that an arithmetic
  which is that of `double` on normal numbers (`Ieee`) gives the same as `binary64`. Differences of energies may cancel; that a
  result of at least 2^a in modulus is a multiple of 2^(a-52), and that rounding keeps multiples of a power of two, bounds them below.
  The theorems of C90, C95, C98 and C99 then carry over. Library functions are extended by exact ones where they may fail.
* C101: the fastest rate off a site bounds each rate off it, so the number compared with the threshold is at most 0; the search state
  is then equal step by step. The limits are read off the loop: it gives up only in a state with more explored sites than the limit,
  and explored sites are known neighbours. Two concrete orders for the last sentence.
* C102: a frame lemma for every function of the system that does not write to the table of walkers, then one step per call and
  induction over the history.
* C103: the neighbour table of a site is the fold of the calls (lemma of C30), and each query is read off the table.
* C104: the comparator is a strict order on entries with different ids, so the set is the one sorted list of its elements; sums and
  maxima do not depend on the order. One step preserves "equal but for the order of the map", then induction over the calls.
* C105: the law of a path (C77) is a product of rates and of factors that belong to one site each; detailed balance moves the
  weight along the path, and reading the product backwards gives the reversed path. For the example, C71 gives the balance for the
  table of rates, and the sites of the system hold that table at every step (the history of the program, C73).
* C106: the walker handed over is new at the call of `initializeWalkers` (the settings and `initializeSystem` do not write to
  walkers), so the call throws at its first entry; `initializeSystem` itself returns for proper maps (C43).
* C107: as C84-C86, on a line.
* C108: an invariant at the head of the outer loop gives the number of entries written, their sum and the windows; a round is only
  begun while the time is below the cutoff, which bounds the index. The sampling time is carried from repetition to repetition.
* C109: the loops over half-integers are those over cells; one round multiplies one energy, so a seed multiplies each energy once and
  the seeds commute.
* C110: the bins as counts of intervals; the scans stop at the first and last bin above a twentieth of the maximum; the lines are
  intersected. Scaling follows from the value.
* C111: an invariant of the loop ties the list to the history of the calls (as C73 for the example), so that the statements on systems
  (C53, C78) apply. With the threshold that stands for no coarse graining an invariant of the world (no clusters, bounded counts of
  visits) makes every hop return. The box and the positions are those of C84 and C88.
* C112: C88 says that the crude simulation leaves the walkers on different sites, which is all that C111 needs.
* C116: C69 (hops return) and C81 (no overflow) along the loop, with the invariant of C111; the limit on the rounds of the library's loop
  is taken large enough for all hops so far. The counterexample is a run of the model in a box of 27 sites.
* C117: the basins of the escape test. C49 and C50 say which sites belong to a basin that was accepted; for the rates of this program that
  leaves the sites 1 to 5 and the sites 2 and 4 when there is no cluster, and none when there is one of the sites 1 to 5. The sites 2 and 4
  fail the test of the escape time. The rest is an invariant of all histories with these rates, by the case distinction of C63.
* C118: as C117, for the 16 sites of the unit test. The rates leave five kinds of accepted basins; the invariant says which clusters exist
  beside each other. No assumption on the times is needed. The ids are bounded below by the counter at the start.
* C119: an invariant of the loop ties the vectors to the stays in the history of the calls, as for C113.
* C120: the hops are total by the totality of `hop` for worlds with a history; the bound on the number of hops is that of C78 for rates
  between 1 and 10102.
* C121: C120 for both blocks, with C118 for the clusters at their ends.
* C113, C115: an invariant ties the three vectors and the running total to the history of the calls. Without coarse graining the invariant
  of C111 (no clusters, bounded counts) is extended to walkers that come and go between hops.
* C114: the map is computed and compared with the picture.
* C72: as C60, with the pointer of every known site leading to a live object.

## 6. Structure of the development

* `Verif/Model`: the functions of the code. `Verif/Spec`: predicates in which the
  theorems are stated (histories, reachability, rates, partitions), not using the
  model's helpers where the public calls suffice. `Verif/Lemmas`: proofs.
  `Verif/Props`: the property theorems, each with examples that meet its
  hypotheses. `Verif/Audit.lean` prints the axioms of every theorem named in
  MANIFEST.json.
* `Verif/Tests`: the repository's unit tests repeated on the model, to compare the
  model with what the authors expect of the code. They are tests; no property rests on
  them. The tests of containers, sites, queues and lattice indices are `example`s; those
  of clusters and whole systems are `#guard`s, which the interpreter evaluates, with a
  pseudo-random generator and a shortest-path search in the place of the random engine
  and the graph library. All assertions that were repeated hold, among them the
  clusters found in the tests of hop and mergeCluster and the portions of time in
  "hop 2". Left out: distances and neighbours on the lattice (the model's distances
  are real numbers), printed output, and the comparisons of frequencies with and
  without clusters, which need more walkers than the interpreter can follow.
* A history of an object is `Trace`: a list of events (state before, rates at the
  time, call, result, state after) linked from the initial state. An exception
  leaves the state that the code leaves; undefined behaviour, aborts and loops
  that do not stop end the history (`GoesOn`).
* The rates are a heap `mem : Addr → K` that the user may change between calls.
  `RatesFixed` says that they do not; without it cached values are stale (C34).
* `Usage` (`Spec/System.lean`) lists what is required of the user: walkers are
  initialised once, before the first hop or on sites outside clusters, on different
  sites; hops and removals are for walkers in the system; hops return.

## 7. Bugs and disagreements found

Each is a theorem (name in brackets) unless marked "read". Line numbers are of
the file named.

Lattice (`cuboid_lattice.cpp`)
* Periodic wrap fails below -dim [C10_counterexample]. Negative indices are
  accepted by getPosition and getX/Y/Z [C11_counterexample].
* The XY plane draws y from the range of z [C12_XY_throws, C12_XY_misses].
* Neighbours are listed twice when the cutoff exceeds half a periodic box
  [C16_counterexample]; the query for the whole lattice looks into some octants
  only [C18_counterexample]; the smallest distance with periodic boundaries uses
  absolute coordinates [C19_counterexample].
* Zero dimensions are accepted; the product of the dimensions overflows before
  the check [C21_zero_dimension, C21_overflow_before_check].

Marcus rates: the documented denominator is not the one used
[C66_counterexample].

Rate container (`rate_container.cpp`): getRate inserts null pointers and returns
them [C26_counterexample, C26_second_call_returns_null]; outgoingRateCount inserts
empty rows, which then count as sources [C27_counterexample, C28_counterexample];
addRates is not atomic [C29_counterexample].

Site (`site.cpp`): probabilities and time constant are cached and go stale when the
user changes a rate [C34_counterexample]. A site without rates (a drain) picks the
id -1, which may also be the id of a real site; a walker there crashes at its
next hop [C60_drain_counterexample]. Removing a walker twice makes the occupation
count -1 (read).

Cluster (`cluster.cpp`)
* The cumulative tables are appended to and never cleared, so walkers are placed
  by the table of the first update for ever [C39_counterexample, C40_frozen,
  C40_counterexample].
* Line 513 normalises the wrong map; the time constant is therefore not the mean
  residence time [C41_counterexample].
* removeWalkerCluster_ is never installed, so a removed walker leaves its
  remaining dwell time to the next walker with the same id [C42_negation].
* occupyCluster_ does not count; isOccupied() of a cluster is never true, and
  vacate makes the count negative, which after 2^31 hops overflows [C43_negation].
* One-way rates inside a cluster abort the update (assert; without asserts a
  past-the-end iterator is dereferenced) [C69_oneway_counterexample]. A site whose
  fastest rate is to itself becomes a cluster of one site, whose update aborts
  [C69_self_counterexample].
* A cluster without exits divides by zero: its hop-off probabilities are NaN, but
  nothing reads them (the model leaves that map empty), and its time constant is
  the "unassigned" value, so that every later call that needs it aborts
  [C83_closed]. The unit tests do update such clusters (test_cluster.cpp).
  buildCluster is the one place where the model stops earlier than the code: a
  basin without exits (possible only with a negative performance ratio) is
  reported as nonFinite there, while the code goes on until the first
  getDwellTime aborts.
* vacate(siteId) of an unknown site inserts a default site;
  migrateSitesFrom drops the remaining dwell times of the source; an exception in
  the flush of visits counts some visits twice (read; the model shows each).
* The visits that getVisitFrequency passes on to the sites (lines 244-254) are multiplied
  by the escape time constant and so depend on the unit of time, and nothing else does: one
  and the same history counts 2 visits in one unit and 101 in hundredths of it
  [C96_counterexample, C96_share]; with slow rates the count does not fit into an int after
  two hops [C81_slow_counterexample].
* With rates 1e-4 apart the intermediate clusters of a merge may be disconnected;
  their update still returns (read).

Containers: getSmallestClusterId inserts unknown sites
[Containers.C65_smallest_inserts].

Basin explorer: the ratio test in rateFastEnough_ never decides anything, since
every rate it would reject is rejected or accepted before; from a cluster whose
fastest exit is not its fastest rate the search need not follow it
[Basin.C50_counterexample]. A single-site basin (possible with a self-rate) that
passes the test aborts in the update (read).

System (`coarsegrainsystem.cpp`)
* For performance ratios below 1/2 a basin can overlap a cluster partly; a merge
  then leaves sites that belong to no listed cluster, and a hop through a pointer
  to an erased cluster [C55_counterexample, C56_counterexample], and its visit
  count can no longer be asked for [C45_counterexample].
* After a merge the time increment of a cluster may exceed the time resolution
  [C48_merge_counterexample].
* With coarse graining switched off the hop counter is never reset and overflows
  [C57_counterexample]; at default settings the doubled threshold overflows after
  4194303021 hops [C58_counterexample].
* A walker initialised on a site of a cluster does not occupy it
  [C61_counterexample].
* A negative performance ratio lets basins without exits pass the test, so C63
  assumes it is not negative. A site with id INT_MIN is taken for "no site".
  initializeSystem that throws half-way leaves sites behind; empty rate rows and
  zero rates abort. A fault inside a merge leaves site pointers and clusters
  inconsistent. Drains get no seed, and the copies of sites in a cluster share
  the seed of the site. getMinCoarseGrainIterationThreshold is declared but not
  defined (read).

Time-of-flight example (`examples/ToF/ToF_example.cpp`)
* It includes `cubic_lattice.hpp` and uses `myct::Cubic`, neither of which exists at
  this commit (the class is `Cuboid`), so it does not compile as it stands (read).
* Its rates lack the pairs that the whole-lattice search misses [C71_missing].
* populateLattice does not end for more charges than sites on the plane [C73_crowd].
* createQueue asserts that some charge hops before the cutoff time, which depends on
  the random draws; with asserts on, the program aborts otherwise [C73_start].
* When the last charge arrives within a sampling interval, the current of that interval
  is 0 * (x / 0), not a number, and the distance covered in it is lost
  [C74_counterexample, C74_last].

Rounding
* The thresholds of `Site::pickNewSiteId` and of both tables of `Cluster::pickNewSiteId` may stay below 1, and
  a draw above the last of them picks -1: the `assert` meant for this case has a string literal as its
  condition (site.cpp 104, cluster.cpp 441 and 454). With six equal rates the draw 1-2^-53 does
  [C90_counterexample]. The next hop of the walker reads `topology_features_[-1]`, which inserts a null
  pointer, and dereferences it [C90_undefined]. A cluster of two sites with three exits each does the same
  [C91_counterexample].
* `Cluster::iterate_` computes the inflow of a site as `P + inflow - P * (sum of its table)`. When the rates inside are below
  the rounding error of the rates to the exits, this is noise: the total may be 0 (all probabilities become NaN)
  [C92_zero] or a probability may become negative, whereupon a site and its exits are never picked again
  [C92_negative]. Above about 10^-12 of the rates of a site this cannot happen [C92_positive_partial].
* `Cluster::getDwellTime` subtracts the time increment from the remaining time. When the resolution is so fine that the
  increment is below the rounding error of the time drawn, the remaining time stays what it is and the walker
  never leaves [C93_counterexample]. `setResolution` accepts every number from 2 on, and the resolution that
  `CoarseGrainSystem` chooses is bounded only by the ratio of the time constant to the time resolution of the user.
* The clock of a charge in the time-of-flight example stands still when its dwell times are below the rounding error of the time
  reached, and the loops never end [C94_counterexample]. With the constants of the example this takes dwell times below
  10^-24 s.
* `Cuboid::getNeighbors` compares a rounded distance with the cutoff and scans `floor(cutoff/spacing)` steps, with no
  tolerance. With the literals `0.1` for the spacing and `0.3` for the cutoff the quotient is rounded below 3 and the third
  neighbours are missing [C95_decimal]; a cutoff not below the diagonal of a square can miss the site across it
  [C95_counterexample].
* `Marcus::getRate` returns exactly 0 for a pair with coupling when `(lambda + E_j - E_i)^2/(4 lambda k_B T)` exceeds 746, for
  example up 3 eV with `lambda = 0.1` eV at 300 K: `exp` underflows [C98_counterexample]. The rate 0
  then fails the assertion in `setRatesToNeighbors` (site.cpp 45).
* The rates of the time-of-flight example depend on the hash order in their last digits. Each pair is computed twice, once from
  each side, and the later one stays. From one side the potential is taken off the energy of the second site, from the other it is
  added to that of the first; in `double` arithmetic these round differently. Two sites of 4 eV with a step of 1/16 eV and three
  units in the last place suffice [C99_counterexample]. The difference stays within the part of C99_order_partial.
* `BasinExplorer::rateFastEnough_` (basin_explorer.cpp 110-116): `coef2` is `(rate - fastest rate off the site)/(that rate)`, never
  positive, so `setThreshold` has no effect for thresholds from 0 on, the default included [C101_threshold]. The other criterion
  lowers its bound by the factor .9999 with every edge accepted, so the basin depends on the order of the edges in the hash table
  (a comment in line 77 says as much) [C101_order_counterexample]. `setMaxExplorationCount` takes an `int` and stores a
  `size_t`: negative numbers mean no limit [C101_unlimited].

Programs under `src/tests` (line numbers of performance/test_crude_vs_coarsegrain.cpp)
* Lines 152-157: `if(xlow-1>0) --xlow` leaves out the step from coordinate 1 to 0, so that
  walkers leave the faces through the origin for good and the rates are not two-way, which the
  library needs [C85_oneway_counterexample, C85_faces_left, C85_not_twoWay]. Boxes of fewer than
  3 sites per axis fail the assertion in line 180 [C85_rates_partial].
* Line 174: the Marcus exponent has `reorganization_energy-deltaE` with deltaE the energy of the
  new site minus that of the old one, so that hops to higher energies are favoured
  [C86_uphill_counterexample]. In regression/test_ToF.cpp the sign of the field is also inverted, so
  that walkers are driven the intended way [C86_inverted].
* Line 133: `hbar = pow(6.582,-16)` is 8.1e-14, not 6.582e-16 (read).
* Lines 343-366: the cumulative probabilities are in an `unordered_map`, and the loop takes the first
  entry above the random number in the order of that map [C87_choice_partial]. If that is the
  reverse of the order of insertion the same neighbour is chosen for every random number
  [C87_reversed_counterexample].
* performance/test_coarsegrain_cluster_vs_nocluster_toy.cpp 117-120 and regression/test_ToF.cpp 259-262 put a local walker on the
  starting site and hand over a new one, so that both programs end with the exception in coarsegrainsystem.cpp 148-158 for all
  arguments with a walker [C106_toy, C106_flight]. Without walkers regression/test_ToF.cpp 292 dereferences `begin()` of an empty list
  [C106_flight_outcome].
* regression/test_1Dsystem.cpp 111: site 1 has no rate to site 0, and a line of 1 or 2 sites fails the assertion in 130
  [C107_start_counterexample, C107_short]. Line 126: the exponent as in line 174 above, so that the traps repel
  [C107_traps_counterexample].
* regression/test_1Dsystem.cpp 149, 212: `sample_time` is not set back between repetitions, so that the currents of all but the first
  are sampled in the wrong windows, in the end all in one [C108_windows_counterexample, C108_lumped]. The mean is not affected
  [C108_mean], the standard deviation is.
* performance/test_crude_vs_coarsegrain_correlated.cpp 256-272: the loops around a seed run over half-integers (`max_correlation` is 4.5),
  which are cut off to the site below. Distances are those to the middle of the cell above the site, and a seed acts on sites from 5
  below to 3 above it on every axis [C109_energies, C109_counterexample].
* performance/test_crude_vs_coarsegrain_correlated.cpp 167, 185, 216, 218 (and 316, 334, 365, 367): the half maximum is the maximum
  divided by the number of bins; `(bin_edge+bin_increment)/2` is not the middle of a bin; `upper_max_half` is computed from itself. The
  widths printed depend on the zero of energy and may be negative or not a number [C110_value, C110_counterexample].
* performance/test_crude_vs_coarsegrain.cpp 360 and 396 (test_crude_vs_coarsegrain_correlated.cpp likewise): the crude simulation moves
  the walkers in `walker_positions`, and the coarse-grained one, which is to be compared with it, begins with what is left there. The
  two do not begin with the walkers on the same sites [C112_versus_partial, C112_counterexample].
* performance/test_kmc_coarsegrainsystem.cpp 80-85 and 97 (237-242, 254): two rates are listed for neighbour 10, which is next to the sites
  3 and 4, but `numberOfNeighbors` says one. The rates after it are shifted: 12 leads to 4 and 14 to 5, with which they are not
  connected, and the last rate is not used [C114_counterexample]. The comment in 49 says that no such rates are included (read).
* performance/test_kmc_coarsegrainsystem.cpp 168-176 (323-331): `totalTimeOnCluster`, stored as the escape time, leaves out the first stay
  and includes the stay on the site outside, which is 400 on average [C115_escape_partial, C115_counterexample].
* The programs with a box (performance/test_coarsegrain_cluster_vs_nocluster.cpp, test_crude_vs_coarsegrain.cpp and its correlated
  variant) hand the library rates that do not go both ways (C85), which it relies on: if a basin contains a face of the box
  and a site above it, `getProbabilityOfHoppingToNeighboringSite` fails its assertion, or reads past the end of a map without
  assertions [C116_counterexample].
* performance/test_kmc_coarsegrainsystem.cpp 183: the check for one cluster does not look at its sites. It is the intended one if the times of
  the graph library are right [C117_both]; with times that are too short the sites 2 and 4 become a cluster [C117_short_times].
* unit/test_coarsegrainsystem2.cpp 260: `clusters.at(0)` asks for the id 0, but ids come from a counter that is static in cluster.cpp (21,
  53-54) and not reset between tests. All unit tests are linked into one program; run as a whole, the test throws `std::out_of_range` if
  an earlier test made a cluster [C118_counterexample]. It speaks of 12 sites where there are 16 (read).
* unit/test_coarsegrainsystem2.cpp 191, 246: `time_spent_on_sites` is assigned instead of added to, so that only the last stay on each site
  counts [C119_counterexample].
* regression/test_1Dsystem.cpp 69, test_ToF.cpp 119: V/cm are converted to V/nm with `10E-7`, which is 1e-6, not 1e-7 (read).
* With 0 walkers line 334 dereferences `begin()` of an empty list [C88_no_walkers]; with more walkers
  than sites the loop in line 194 does not end [C88_crowded].
