{
 "C01": {
  "status": "proved",
  "theorems": [
   "Mythical.C01_isSorted_sound",
   "Mythical.C01_isSorted_after_sort",
   "Mythical.C01_only_add_clears"
  ],
  "note": "all histories, std::sort any sorted permutation"
 },
 "C02": {
  "status": "proved",
  "theorems": [
   "Mythical.C02_conservation"
  ],
  "note": "multiset conservation and size over all histories"
 },
 "C03": {
  "status": "proved",
  "theorems": [
   "Mythical.C03_pop_min",
   "Mythical.C03_drain_sorted"
  ],
  "note": ""
 },
 "C04": {
  "status": "proved",
  "theorems": [
   "Mythical.C04_sortedAdd_stable",
   "Mythical.C04_fifo"
  ],
  "note": ""
 },
 "C05": {
  "status": "proved",
  "theorems": [
   "Mythical.C05_time_monotone",
   "Mythical.C05_needs_nonneg"
  ],
  "note": "second theorem: a negative dwell time does break monotonicity"
 },
 "C06": {
  "status": "proved",
  "theorems": [
   "Mythical.C06_only_empty_pop_fails",
   "Mythical.C06_at_range"
  ],
  "note": ""
 },
 "C07": {
  "status": "proved",
  "theorems": [
   "Mythical.C07_position_roundtrip",
   "Mythical.C07_index_roundtrip",
   "Mythical.C07_layout",
   "Mythical.C07_vector_overload"
  ],
  "note": "any lattice with positive dimensions whose site count fits in int"
 },
 "C08": {
  "status": "proved",
  "theorems": [
   "Mythical.C08_components"
  ],
  "note": ""
 },
 "C09": {
  "status": "proved",
  "theorems": [
   "Mythical.C09_fixed_enforced"
  ],
  "note": ""
 },
 "C10": {
  "status": "partial",
  "theorems": [
   "Mythical.C10_periodic_wrap_partial",
   "Mythical.C10_wrong_below_minus_dim",
   "Mythical.C10_counterexample"
  ],
  "note": "holds for coordinates >= -dim; the full claim is false below -dim (negation proved)"
 },
 "C11": {
  "status": "partial",
  "theorems": [
   "Mythical.C11_rejected_partial",
   "Mythical.C11_negative_accepted",
   "Mythical.C11_counterexample"
  ],
  "note": "indices >= total are rejected; negative indices are not (negation proved)"
 },
 "C12": {
  "status": "partial",
  "theorems": [
   "Mythical.C12_YZ",
   "Mythical.C12_XZ",
   "Mythical.C12_XY_partial",
   "Mythical.C12_XY_throws",
   "Mythical.C12_XY_misses",
   "Mythical.C12_out_of_range_throws"
  ],
  "note": "YZ and XZ planes: full claim; XY plane draws y from the z range (negation proved)"
 },
 "C13": {
  "status": "proved",
  "theorems": [
   "Mythical.C13_exact_ball"
  ],
  "note": "whenever the call returns; C20_getNeighbors_returns_iff says exactly when it does"
 },
 "C14": {
  "status": "proved",
  "theorems": [
   "Mythical.C14_well_formed"
  ],
  "note": ""
 },
 "C15": {
  "status": "proved",
  "theorems": [
   "Mythical.C15_symmetric"
  ],
  "note": "whenever both calls return"
 },
 "C16": {
  "status": "partial",
  "theorems": [
   "Mythical.C16_no_duplicates_partial",
   "Mythical.C16_counterexample"
  ],
  "note": "holds without wrap-around; duplicates appear when the cutoff exceeds half a periodic box (negation proved)"
 },
 "C17": {
  "status": "proved",
  "theorems": [
   "Mythical.C17_same_sites",
   "Mythical.C17_distances",
   "Mythical.C17_minimum_reported"
  ],
  "note": ""
 },
 "C18": {
  "status": "partial",
  "theorems": [
   "Mythical.C18_octants_partial",
   "Mythical.C18_small_cutoff",
   "Mythical.C18_counterexample"
  ],
  "note": "the whole-lattice query only looks into some octants (negation proved)"
 },
 "C19": {
  "status": "partial",
  "theorems": [
   "Mythical.C19_metric_partial",
   "Mythical.C19_from_origin_partial",
   "Mythical.C19_self_distance_wrong",
   "Mythical.C19_counterexample"
  ],
  "note": "metric with Fixed boundaries; with Periodic boundaries the code uses absolute coordinates of j (negation proved)"
 },
 "C20": {
  "status": "proved",
  "theorems": [
   "Mythical.C20_construct",
   "Mythical.C20_position_defined",
   "Mythical.C20_getIndex_defined",
   "Mythical.C20_getNeighbors_returns_iff",
   "Mythical.C20_getAll_returns",
   "Mythical.C20_smallestDistance_fixed_iff",
   "Mythical.C20_smallestDistance_returns"
  ],
  "note": ""
 },
 "C21": {
  "status": "partial",
  "theorems": [
   "Mythical.C21_negative_rejected_partial",
   "Mythical.C21_zero_dimension",
   "Mythical.C21_overflow_before_check"
  ],
  "note": "zero dimensions are accepted and the size product may overflow before the check (negations proved)"
 },
 "C22": {
  "status": "proved",
  "theorems": [
   "Mythical.C22_nonneg",
   "Mythical.C22_quadratic"
  ],
  "note": "real arithmetic, lambda > 0 and T > 0"
 },
 "C23": {
  "status": "proved",
  "theorems": [
   "Mythical.C23_detailed_balance"
  ],
  "note": ""
 },
 "C24": {
  "status": "proved",
  "theorems": [
   "Mythical.C24_shift",
   "Mythical.C24_maximum",
   "Mythical.C24_normal_region",
   "Mythical.C24_inverted_region"
  ],
  "note": ""
 },
 "C66": {
  "status": "partial",
  "theorems": [
   "Mythical.C66_documented_partial",
   "Mythical.C66_counterexample"
  ],
  "note": "agrees to 1e-9 with the documented formula except that the exponent is over 4 lambda k_B T, not the documented 4 pi k_B T (negation proved)"
 },
 "C25": {
  "status": "proved",
  "theorems": [
   "Mythical.C25_addRate"
  ],
  "note": "every container"
 },
 "C26": {
  "status": "partial",
  "theorems": [
   "Mythical.C26_stored_partial",
   "Mythical.C26_returned_was_given_partial",
   "Mythical.C26_untouched_throws_partial",
   "Mythical.C26_counterexample",
   "Mythical.C26_second_call_returns_null"
  ],
  "note": "false when the source site has another rate or was asked for before (null pointer returned and stored; negations proved)"
 },
 "C27": {
  "status": "partial",
  "theorems": [
   "Mythical.C27_queries_partial",
   "Mythical.C27_outgoingRateCount_partial",
   "Mythical.C27_counterexample"
  ],
  "note": "outgoingRateCount inserts an empty row for sites without outgoing rates (negation proved)"
 },
 "C28": {
  "status": "partial",
  "theorems": [
   "Mythical.C28_counts_and_rates",
   "Mythical.C28_sources_sinks_partial",
   "Mythical.C28_counterexample"
  ],
  "note": "counts and rate lists: full claim over all histories; sources/sinks only while no empty row was inserted (negation proved)"
 },
 "C29": {
  "status": "partial",
  "theorems": [
   "Mythical.C29_no_clash_partial",
   "Mythical.C29_clash_throws_partial",
   "Mythical.C29_counterexample"
  ],
  "note": "a throwing addRates may leave part of its argument behind (negation proved)"
 },
 "C30": {
  "status": "proved",
  "theorems": [
   "Mythical.C30_probabilities",
   "Mythical.C30_accepts"
  ],
  "note": "after every history of rate updates, with the rate variables changing between calls"
 },
 "C31": {
  "status": "proved",
  "theorems": [
   "Mythical.C31_pick_is_neighbour"
  ],
  "note": ""
 },
 "C32": {
  "status": "proved",
  "theorems": [
   "Mythical.C32_pick_interval",
   "Mythical.C32_pick_probability"
  ],
  "note": "as an interval over any ordered field, and as Lebesgue measure over the reals"
 },
 "C33": {
  "status": "proved",
  "theorems": [
   "Mythical.C33_dwell_law"
  ],
  "note": "Lebesgue measure of the draws in (0,1)"
 },
 "C34": {
  "status": "partial",
  "theorems": [
   "Mythical.C34_partial",
   "Mythical.C34_counterexample"
  ],
  "note": "hop probabilities and time constant are cached and stay old until the next rate-setting call (negation proved)"
 },
 "C35": {
  "status": "proved",
  "theorems": [
   "Mythical.C35_conserved",
   "Mythical.no_time_before_update"
  ],
  "note": "between the first update of a cluster and any later call, with any interleaving of walkers; exact arithmetic"
 },
 "C36": {
  "status": "proved",
  "theorems": [
   "Mythical.C36_bounded",
   "Mythical.C36_count"
  ],
  "note": "at most one increment per call; number of calls of a stay bounded by drawn time over increment"
 },
 "C37": {
  "status": "proved",
  "theorems": [
   "Mythical.C37_occupation",
   "Mythical.C37_update_succeeds"
  ],
  "note": "sound cluster (positive rates, mutual internal links); every update"
 },
 "C38": {
  "status": "proved",
  "theorems": [
   "Mythical.C38_exits"
  ],
  "note": "the site tables the code builds at an update give the spec probabilities; for clusters with an exit (without one: C83)"
 },
 "C39": {
  "status": "partial",
  "theorems": [
   "Mythical.C39_partial",
   "Mythical.C39_counterexample"
  ],
  "note": "proved for the first update; after a later update the cumulative arrays are not cleared and walkers are sent to sites inside the cluster (negation proved)"
 },
 "C40": {
  "status": "partial",
  "theorems": [
   "Mythical.C40_partial",
   "Mythical.C40_frozen",
   "Mythical.C40_counterexample"
  ],
  "note": "proved for the first update; later updates leave the old table in force (proved for every history, with a concrete wrong choice)"
 },
 "C41": {
  "status": "partial",
  "theorems": [
   "Mythical.C41_partial",
   "Mythical.C41_counterexample"
  ],
  "note": "the code's time constant is proved equal to its own mixture of dwell times; the mean residence time differs (negation proved)"
 },
 "C42": {
  "status": "partial",
  "theorems": [
   "Mythical.C42_partial",
   "Mythical.C42_negation",
   "Mythical.C42_counterexample"
  ],
  "note": "fresh draw only for walkers released before; a walker removed during its stay leaves its remaining time to the next one (negation proved)"
 },
 "C43": {
  "status": "partial",
  "theorems": [
   "Mythical.C43_partial",
   "Mythical.C43_negation",
   "Mythical.C43_counterexample"
  ],
  "note": "per-site occupancy proved for every history; isOccupied() of the cluster is proved always false under occupy(site)"
 },
 "C44": {
  "status": "proved",
  "theorems": [
   "Mythical.C44_merge",
   "Mythical.C44_nothing_lost"
  ],
  "note": "every pair of disjoint clusters; also no loss if the merge fails"
 },
 "C45": {
  "status": "partial",
  "theorems": [
   "Mythical.C45_partial",
   "Mythical.C45_agree_partial",
   "Mythical.C45_counterexample",
   "Mythical.C45_update_partial",
   "Mythical.C45_addSites_partial",
   "Mythical.C45_merge_partial"
  ],
  "note": "System level: proved for every history with constant positive rates and performance ratios of at least 1/2, assuming that the traversal times of the graph library cover the basin (C45_partial). For all ratios a hop never changes a count to another one (C45_agree_partial), but for small ratios a merge can make the count of a site unavailable (C45_counterexample). The update, addSites and merge theorems are the cluster-level parts."
 },
 "C46": {
  "status": "proved",
  "theorems": [
   "Mythical.C46_terminates",
   "Mythical.solveProb_terminates"
  ],
  "note": "the loop with a tolerance > 0 needs only finitely many rounds, exact arithmetic"
 },
 "C47": {
  "status": "proved",
  "theorems": [
   "Mythical.C47_fixed_point",
   "Mythical.C47_accuracy"
  ],
  "note": "fixed points of the iteration are the stationary distributions of the cluster's own hopping; last change at most the tolerance"
 },
 "C65": {
  "status": "partial",
  "theorems": [
   "Mythical.Containers.C65_cluster_container",
   "Mythical.Containers.C65_cluster_lookups",
   "Mythical.Containers.C65_partial",
   "Mythical.Containers.C65_site_lookups",
   "Mythical.Containers.C65_getSites",
   "Mythical.Containers.C65_smallest_inserts"
  ],
  "note": "both containers are maps, for every sequence of calls, except that Site_Container::getSmallestClusterId inserts a default site when asked about an unknown id instead of throwing (negation proved)"
 },
 "C49": {
  "status": "proved",
  "theorems": [
   "Mythical.Basin.C49_basin",
   "Mythical.Basin.C49_terminates",
   "Mythical.Basin.C49_total"
  ],
  "note": "for every graph visitor; the limit must be at least 1"
 },
 "C50": {
  "status": "partial",
  "theorems": [
   "Mythical.Basin.C50_accepted",
   "Mythical.Basin.C50_partial",
   "Mythical.Basin.C50_counterexample"
  ],
  "note": "the acceptance rule and maximality of the basin are proved; that the fastest rate out of the start is followed is proved for lone sites and for clusters without a faster exit, and is false otherwise (witness)"
 },
 "C53": {
  "status": "proved",
  "theorems": [
   "Mythical.C53"
  ],
  "note": "for every history of proper calls (SystemSpec.Usage), whatever rates, draws and graph library results"
 },
 "C54": {
  "status": "proved",
  "theorems": [
   "Mythical.C54",
   "Mythical.C54_removed"
  ],
  "note": "for every history of proper calls (SystemSpec.Usage)"
 },
 "C62": {
  "status": "proved",
  "theorems": [
   "Mythical.C62"
  ],
  "note": "for every hop of a history of proper calls (SystemSpec.Usage)"
 },
 "C57": {
  "status": "partial",
  "theorems": [
   "Mythical.C57_partial",
   "Mythical.C57_counterexample"
  ],
  "note": "no hop changes a cluster; hops do not fail because of the iteration counter for the first 2^31-1 hops. False after that: the counter is never reset and overflows (C57_counterexample)"
 },
 "C58": {
  "status": "partial",
  "theorems": [
   "Mythical.C58_partial",
   "Mythical.C58_fits_partial",
   "Mythical.C58_counterexample"
  ],
  "note": "attempts, doubling and reset follow the stated pace in every history whose hops return; no overflow within 2^30 hops. The last clause is false: at default settings the doubling overflows after 4194303021 hops (C58_counterexample)"
 },
 "C63": {
  "status": "proved",
  "theorems": [
   "Mythical.C63",
   "Mythical.C63_merge"
  ],
  "note": "The performance ratio must not be negative: with a negative ratio the code accepts every basin."
 },
 "C64": {
  "status": "proved",
  "theorems": [
   "Mythical.C64_smallest",
   "Mythical.C64_fresh"
  ],
  "note": ""
 },
 "C51": {
  "status": "proved",
  "theorems": [
   "Mythical.C51"
  ],
  "note": "An empty inner rate map or a zero rate makes initializeSystem abort on an assertion; a throwing call may leave some sites added. Both are outcomes in the model."
 },
 "C52": {
  "status": "proved",
  "theorems": [
   "Mythical.C52",
   "Mythical.C52_values"
  ],
  "note": "Holds for up to 2^32 seeds; drains (sites without rates) have no stream of random numbers."
 },
 "C59": {
  "status": "proved",
  "theorems": [
   "Mythical.C59"
  ],
  "note": "Histories in which hops and initialisations return."
 },
 "C61": {
  "status": "partial",
  "theorems": [
   "Mythical.C61_partial",
   "Mythical.C61_counterexample"
  ],
  "note": "Proved for sites in no cluster. False for sites in a cluster: occupyCluster_ does not set the occupation of the site, so a walker initialised there does not block it, and a second walker can hop onto it."
 },
 "C48": {
  "status": "proved",
  "theorems": [
   "Mythical.C48",
   "Mythical.C48_always",
   "Mythical.C48_merge_counterexample"
  ],
  "note": "For every history whose hops return, with positive rates that do not change. C48 gives the exact increment: the smaller of half the escape time constant and the time resolution. C48_always: resolution at least 2 and increment = tau/resolution at all later times. C48_merge_counterexample: the bound by the time resolution is lost when the cluster is merged."
 },
 "C55": {
  "status": "partial",
  "theorems": [
   "Mythical.C55_partial",
   "Mythical.C55_disjoint",
   "Mythical.C55_coarsen",
   "Mythical.C55_counterexample"
  ],
  "note": "Disjointness, known sites and that clusters are never split hold for every history whose hops return. That ids and lists agree and that a cluster has 2 to 5 sites is proved for constant positive rates and performance ratios of at least 1/2, assuming that the traversal times of the graph library cover the basin; for small ratios it is false (C55_counterexample, ratio 1/20)."
 },
 "C56": {
  "status": "partial",
  "theorems": [
   "Mythical.C56_partial",
   "Mythical.C56_basin_partial",
   "Mythical.C56_counterexample"
  ],
  "note": "Proved for every history with constant positive rates and performance ratios of at least 1/2, assuming that the traversal times of the graph library cover the basin. False for smaller ratios: C56_counterexample ends in a hop through a dangling cluster pointer."
 },
 "C60": {
  "status": "partial",
  "theorems": [
   "Mythical.C60_known",
   "Mythical.C60_move_partial",
   "Mythical.C60_drain_counterexample"
  ],
  "note": "Proved for all histories with proper calls, fixed positive rates and any settings: every walker in the system is on a known site and its next site is known unless it is on a drain. With ratio at least 1/2 and covering traversal times the move of a walker that is not on a drain can only fail by overflow of an int counter. False for walkers on drains (next site -1, null dereference at the next hop): C60_drain_counterexample; false for small ratios: C56_counterexample."
 },
 "C67": {
  "status": "proved",
  "theorems": [
   "Mythical.C67"
  ],
  "note": "all three methods"
 },
 "C68": {
  "status": "proved",
  "theorems": [
   "Mythical.C68"
  ],
  "note": "over the reals; clusters of at least two sites with mutual links"
 },
 "C69": {
  "status": "proved",
  "theorems": [
   "Mythical.C69_hop_returns",
   "Mythical.C69_oneway_counterexample",
   "Mythical.C69_self_counterexample"
  ],
  "note": "With enough rounds for the convergence loop the hop returns, except for overflow of an int counter or of the conversion of a visit count to int. Needs traversal times that cover the basin (contract of the graph library). Does not extend to one-way rates or rates of a site to itself: the two counterexamples."
 },
 "C70": {
  "status": "proved",
  "theorems": [
   "Mythical.C70_graph",
   "Mythical.C70_walks",
   "Mythical.C70_traversal",
   "Mythical.C70_covers",
   "Mythical.C70_condition"
  ],
  "note": "Graph contents and the ways in it without assumptions; the traversal time from the contract of maxMinimumDistanceBetweenEveryVertex on that graph (Distances). C70_covers derives the assumption TimesCover of C45, C55, C56, C60 and C69 from that contract."
 },
 "C71": {
  "status": "proved",
  "theorems": [
   "Mythical.C71_rates",
   "Mythical.C71_balance",
   "Mythical.C71_order",
   "Mythical.C71_missing"
  ],
  "note": "Real arithmetic; the example's class Cubic is read as Cuboid. C71_missing: the pairs within the cutoff that the neighbour search misses (C18) get no rates."
 },
 "C72": {
  "status": "proved",
  "theorems": [
   "Mythical.C72_initializeWalkers",
   "Mythical.C72_removeWalker",
   "Mythical.C72_visitFrequency"
  ],
  "note": "Needs traversal times that cover the basins (contract of the graph library) and performance ratios of at least 1/2."
 },
 "C73": {
  "status": "proved",
  "theorems": [
   "Mythical.C73_start",
   "Mythical.C73_crowd",
   "Mythical.C73_returns",
   "Mythical.C73_state",
   "Mythical.C73_hop",
   "Mythical.C73_time",
   "Mythical.C73_rates"
  ],
  "note": "Needs traversal times that cover the basins (contract of the graph library). A counter that exceeds the range of int is a possible outcome. The coordinates, rates and times are exact numbers."
 },
 "C74": {
  "status": "partial",
  "theorems": [
   "Mythical.C74_partial",
   "Mythical.C74_last",
   "Mythical.C74_counterexample"
  ],
  "note": "False of the code: when the last charge has arrived, the current is computed as 0 * (x / 0). The identity holds as long as all currents are numbers."
 },
 "C75": {
  "status": "proved",
  "theorems": [
   "Mythical.C75_resolution",
   "Mythical.C75_ratio",
   "Mythical.C75_checks"
  ],
  "note": "Histories in which every hop returns."
 },
 "C76": {
  "status": "proved",
  "theorems": [
   "Mythical.C76_walk",
   "Mythical.C76_exits",
   "Mythical.C76_picks",
   "Mythical.C76_time",
   "Mythical.C76_entry"
  ],
  "note": "Over the reals. The time constant that the code computes is not the mean time to leave (C41); C76_time shows that the value C41 asks for is."
 },
 "C77": {
  "status": "proved",
  "theorems": [
   "Mythical.C77_returns",
   "Mythical.C77_law",
   "Mythical.C77_walk"
  ],
  "note": "Over the reals, with ideal independent uniform draws (the Mersenne twister is not modelled); the volume of the set of draws is their probability. Every site must have a rate out of it: a walker on a drain gets the next site -1 and its next hop dereferences null (C60)."
 },
 "C78": {
  "status": "proved",
  "theorems": [
   "Mythical.C78",
   "Mythical.C78_constants",
   "Mythical.C78_short_counterexample"
  ],
  "note": "C78_constants: the escape time constants of all clusters are between 1/R and R/r^2 at any time. C78_short_counterexample: not every single dwell time is at least d (the remainder of a stay in a cluster can be shorter), so 'every second' cannot be improved to 'every'. Sites without rates (drains) are excluded: a walker that reaches one gets the dwell time 0."
 },
 "C79": {
  "status": "proved",
  "theorems": [
   "Mythical.C79_clocks",
   "Mythical.C79_hops",
   "Mythical.C79_steps",
   "Mythical.C79_ends"
  ],
  "note": "C79_clocks holds without bounds on the draws. C79_ends combines the bound with C73_returns: after that many steps the loops are over with no charge due before the cutoff time, or the program has been ended by the assert in createQueue or by the overflow of a counter."
 },
 "C80": {
  "status": "proved",
  "theorems": [
   "Mythical.C80_file",
   "Mythical.C80_main"
  ],
  "note": "C80_file: rows against the hops in the history of calls (leaps, covered, stillThere in Spec/ToFOutput.lean). C80_main: main from the constants on, with the step bound of C79. A current is `none` (not a finite number) exactly if no charge is left or the volume is 0, see C74. How the stream formats numbers is not modelled."
 },
 "C81": {
  "status": "proved",
  "theorems": [
   "Mythical.C81",
   "Mythical.C81_hop",
   "Mythical.C81_initializeWalkers",
   "Mythical.C81_removeWalker",
   "Mythical.C81_visitFrequency",
   "Mythical.C81_slow_counterexample"
  ],
  "note": "C81: the next call, whatever it is, does not end with one of the two kinds of overflow. C81_hop etc. join it with C69 and C72, which leave overflow as the only other outcome. C81_slow_counterexample: without the bound on the rates, 2 hops suffice."
 },
 "C82": {
  "status": "proved",
  "theorems": [
   "Mythical.C82",
   "Mythical.C82_ends",
   "Mythical.C82_main"
  ],
  "note": "C82 and C82_ends: joins C73, C79 and C81 (the calls of the program are counted step by step). C82_main: the same for main with the rates it calculates. The example has a billion steps on two sites."
 },
 "C83": {
  "status": "proved",
  "theorems": [
   "Mythical.C83_update_succeeds",
   "Mythical.C83_closed"
  ],
  "note": "availability for convergence by number of iterations; the second part for every update that returns and every history after it. The example is a closed pair."
 },
 "C84": {
  "status": "proved",
  "theorems": [
   "Mythical.C84_converter",
   "Mythical.C84_overflow",
   "Mythical.C84_negative"
  ],
  "note": "Energies beyond the number of sites are no part of it."
 },
 "C85": {
  "status": "partial",
  "theorems": [
   "Mythical.C85_neighbors_partial",
   "Mythical.C85_oneway_counterexample",
   "Mythical.C85_rates_partial",
   "Mythical.C85_faces_left",
   "Mythical.C85_not_twoWay"
  ],
  "note": "False of the code: `if(xlow-1>0) --xlow` never goes from coordinate 1 to 0, so there are no rates into the three faces through the origin. Proved: all other neighbours are found once and have positive rates; which rates exist; the rates are not two-way; boxes of 1 or 2 sites per axis fail the assertion."
 },
 "C86": {
  "status": "partial",
  "theorems": [
   "Mythical.C86_balance_partial",
   "Mythical.C86_inverted",
   "Mythical.C86_uphill_counterexample"
  ],
  "note": "False of the code: the exponent has lambda - deltaE instead of lambda + deltaE. Proved: balance holds exactly between sites of equal energy; the rates balance for the opposite energies; the uphill rate is the larger one."
 },
 "C87": {
  "status": "partial",
  "theorems": [
   "Mythical.C87_choice_partial",
   "Mythical.C87_any_order",
   "Mythical.C87_choice_neighbor",
   "Mythical.C87_reversed_counterexample",
   "Mythical.C87_rates"
  ],
  "note": "False of the code: the cumulative values are kept in a hash map and tested in its order. Proved: the law for every order; it is the right one exactly if the entries come in the order of their values; a rate to the site chosen always exists; in the reverse order the choice is not random at all."
 },
 "C88": {
  "status": "proved",
  "theorems": [
   "Mythical.C88_simulation",
   "Mythical.C88_clock",
   "Mythical.C88_no_walkers",
   "Mythical.C88_crowded"
  ],
  "note": "For rates of a box (C87_rates: those of the program are)."
 },
 "C89": {
  "status": "proved",
  "theorems": [
   "Mythical.C89_call",
   "Mythical.C89_history",
   "Mythical.C89_canonical",
   "Mythical.C89_law",
   "Mythical.C89_tie_counterexample"
  ],
  "note": "For successful calls of a Cluster (a call that throws in the middle of a flush leaves a state that depends on the order). C89_law for clusters with an exit. C89_tie_counterexample shows that the condition on ties is needed."
 },
 "C90": {
  "status": "partial",
  "theorems": [
   "Mythical.C90_law_partial",
   "Mythical.C90_probability",
   "Mythical.C90_tau",
   "Mythical.C90_accepts",
   "Mythical.C90_binary64",
   "Mythical.C90_exact",
   "Mythical.C90_counterexample",
   "Mythical.C90_null",
   "Mythical.C90_undefined"
  ],
  "note": "What is false: not every draw picks a neighbour. The draws from the last threshold on (which may lie below 1 by rounding) get -1, C90_counterexample: six equal rates and the largest double below 1; the walker's next hop then dereferences a null pointer (C90_undefined). Exponents are not bounded in the model; C100_site and C100_law show that for rates between 2^-500 and 2^500 this makes no difference."
 },
 "C91": {
  "status": "partial",
  "theorems": [
   "Mythical.C91_inside_partial",
   "Mythical.C91_exits_partial",
   "Mythical.C91_times_partial",
   "Mythical.C91_exact",
   "Mythical.C91_counterexample"
  ],
  "note": "What is false: not every draw picks a site. The draws from the last threshold on get -1 (C91_counterexample: a pair of sites with three exits each, updated in doubles, and the largest double below 1). The errors of the occupation probabilities themselves (which the iteration computes with a subtraction) are the subject of C92 and C97; C97 puts both together. Exponents are not bounded in the model."
 },
 "C92": {
  "status": "partial",
  "theorems": [
   "Mythical.C92_positive_partial",
   "Mythical.C92_zero",
   "Mythical.C92_negative"
  ],
  "note": "Proved if the rates to sites of the cluster are at least the part 128 (4 d + N + 3) eps of the rates of each site (d neighbours at most, N sites; in doubles about 10^-11 for 100 sites). Without that bound the property is false: in doubles, rates inside of 1 against 2^60 to the exits give NaN for every number of rounds (C92_zero), or a negative probability, after which a site and its exits are never picked (C92_negative). How far the probabilities are from those without rounding is C97."
 },
 "C93": {
  "status": "partial",
  "theorems": [
   "Mythical.C93_conserved",
   "Mythical.C93_ends_partial",
   "Mythical.C93_resolution",
   "Mythical.C93_accepts",
   "Mythical.C93_exact",
   "Mythical.C93_counterexample"
  ],
  "note": "Handouts, conservation and availability hold in full. That a stay ends is proved if 2 eps drawn is at most the time increment (in doubles: draw times resolution at most 2^51). It is false else: with resolution 2^60 the subtraction does not change the remaining time and the walker never leaves (C93_counterexample)."
 },
 "C94": {
  "status": "partial",
  "theorems": [
   "Mythical.Rounded.C94_monotone",
   "Mythical.Rounded.C94_clocks",
   "Mythical.Rounded.C94_file",
   "Mythical.Rounded.C94_ends_partial",
   "Mythical.Rounded.C94_exact",
   "Mythical.Rounded.C94_counterexample"
  ],
  "note": "Everything but the end of the loops holds in full. The end is proved if of two successive dwell times of a charge one is at least d, and 4 eps T is at most d and at most the sample increment, T being cutoff time plus increment (for the constants of the example: d at least 10^-23 s). It is false else: with dwell times of 2^-54 of the current time the clock stands still and the loops never end (C94_counterexample)."
 },
 "C95": {
  "status": "proved",
  "theorems": [
   "Mythical.Rounded.C95_listed",
   "Mythical.Rounded.C95_sound",
   "Mythical.Rounded.C95_complete",
   "Mythical.Rounded.C95_whole",
   "Mythical.Rounded.C95_whole_double",
   "Mythical.Rounded.C95_symmetric",
   "Mythical.Rounded.C95_returns_iff",
   "Mythical.Rounded.C95_exact",
   "Mythical.Rounded.C95_counterexample",
   "Mythical.Rounded.C95_decimal"
  ],
  "note": "The margins cannot be dropped: on a 2x2 lattice with spacing 657 there is a double not below the diagonal with which the site across the diagonal is not listed (C95_counterexample); with spacing 0.1 and cutoff 0.3 the third neighbours are not listed (C95_decimal). The whole-lattice query is in C99; getSmallestDistance is not in this model. Bounds on the exponents make no difference for spacing and cutoff between 2^-500 and 2^500 (C100_lattice)."
 },
 "C96": {
  "status": "partial",
  "theorems": [
   "Mythical.Units.C96_new",
   "Mythical.Units.C96_step_partial",
   "Mythical.Units.C96_history_partial",
   "Mythical.Units.C96_exists_partial",
   "Mythical.Units.C96_share",
   "Mythical.Units.C96_counterexample"
  ],
  "note": "False for the answers of getVisitFrequencyOfSite about sites in clusters: getVisitFrequency multiplies the visits by the escape time constant, a time, so the counts depend on the unit (C96_counterexample: two visits in one unit, 101 in hundredths of it, for one and the same history; C96_share: the counts are proportional to the number of units, before they are rounded). Everything else is proved for all histories: the same places, picks, clusters, probabilities and answers, and the times multiplied by k (C96_step_partial, C96_history_partial). Where a count does not fit into an int on one side only, the behaviour is undefined there and not on the other side; C96_exists_partial names the call."
 },
 "C97": {
  "status": "proved",
  "theorems": [
   "Mythical.C97_occupation",
   "Mythical.C97_picks"
  ],
  "note": "From the rates to the draws, with every operation of setNeighRateConstants, iterate_ and the two tables rounded. The factor 2^n is an upper bound of the growth of errors over the rounds; with the 6 rounds of the default settings the bound is below 10^-9 for the cluster of the example. The time constants of the cluster are compared with those computed without rounding from the rounded probabilities only (C91_times_partial). The solver with a tolerance is not covered."
 },
 "C98": {
  "status": "partial",
  "theorems": [
   "Mythical.C98_rate_partial",
   "Mythical.C98_balance_partial",
   "Mythical.C98_order",
   "Mythical.C98_counterexample"
  ],
  "note": "Partial: accuracy, balance and 'zero only without coupling' are proved for a rounding without a least exponent. With the least exponents of double the claim is false: C98_counterexample shows a hop with coupling whose rate is exactly zero, in every rounding, because exp gives zero below exp(-746). C100_marcus and C100_balance show the claim with the bounds of double on the exponents for energies of moderate size."
 },
 "C99": {
  "status": "partial",
  "theorems": [
   "Mythical.C99_exact",
   "Mythical.C99_search_returns",
   "Mythical.C99_pairs",
   "Mythical.C99_rates_partial",
   "Mythical.C99_balance_partial",
   "Mythical.C99_order_partial",
   "Mythical.C99_counterexample"
  ],
  "note": "Partial: proved for a rounding without a least exponent, as C98; with the least exponents of double a rate can be zero (C98_counterexample). C99_counterexample: in double arithmetic two orders of the maps do give different rates on a lattice of two sites, whatever the mathematical library, so the bound between orders cannot be replaced by equality (which C71_order proves without rounding). C100_rates, C100_tof_balance and C100_tof_order show the claim with the bounds of double on the exponents for constants of moderate size."
 },
 "C100": {
  "status": "proved",
  "theorems": [
   "Mythical.C100_double",
   "Mythical.C100_site",
   "Mythical.C100_law",
   "Mythical.C100_lattice",
   "Mythical.C100_marcus",
   "Mythical.C100_balance",
   "Mythical.C100_rates",
   "Mythical.C100_tof_balance",
   "Mythical.C100_tof_order"
  ],
  "note": "Numbers are reals: results that overflow are unspecified values here, not infinities, and the ranges are such that none occurs. The root of the library is taken to be accurate on all numbers, as the root of a double is never too small or too large. C98_counterexample shows that a bound on the exponents is needed."
 },
 "C101": {
  "status": "proved",
  "theorems": [
   "Mythical.Basin.C101_threshold",
   "Mythical.Basin.C101_count",
   "Mythical.Basin.C101_unlimited",
   "Mythical.Basin.C101_order_counterexample"
  ],
  "note": "C101_order_counterexample is the last sentence: it is also a finding about the code, since which sites are merged then depends on the standard library."
 },
 "C102": {
  "status": "proved",
  "theorems": [
   "Mythical.World.C102_site",
   "Mythical.World.C102_aim",
   "Mythical.World.C102_dwell",
   "Mythical.World.C102_new"
  ],
  "note": "Walkers are reached through handles; a handle that was never created is undefined behaviour in the model and ends the history."
 },
 "C103": {
  "status": "proved",
  "theorems": [
   "Mythical.C103_queries"
  ],
  "note": ""
 },
 "C104": {
  "status": "proved",
  "theorems": [
   "Mythical.C104_order"
  ],
  "note": "In exact arithmetic; C90 bounds the error of rounded arithmetic for every order."
 },
 "C105": {
  "status": "proved",
  "theorems": [
   "Mythical.C105_reversal",
   "Mythical.C105_loop",
   "Mythical.C105_tof"
  ],
  "note": "The probabilities are those of C77 (Lebesgue measure of the uniform draws). Once sites are coarse grained the steps inside a cluster are not drawn one by one, so the claim stops there."
 },
 "C106": {
  "status": "proved",
  "theorems": [
   "Mythical.C106_toy",
   "Mythical.C106_toy_outcome",
   "Mythical.C106_flight",
   "Mythical.C106_flight_outcome"
  ],
  "note": "A slip in both programs, which stops them for all arguments with a walker. The intended first simulation of the toy program, with the walker placed, is shown to end in an example."
 },
 "C107": {
  "status": "partial",
  "theorems": [
   "Mythical.C107_rates_partial",
   "Mythical.C107_start_counterexample",
   "Mythical.C107_short",
   "Mythical.C107_inverted",
   "Mythical.C107_balance_partial",
   "Mythical.C107_traps_counterexample"
  ],
  "note": "False of the code: the step from site 1 to site 0 is missing and the exponent has lambda - deltaE. Proved: all other steps are there; the rates balance for the inverse weights; Boltzmann's law holds exactly between sites of equal energy; the rate out of a trap is greater than the one into it."
 },
 "C108": {
  "status": "partial",
  "theorems": [
   "Mythical.C108_in_range",
   "Mythical.C108_sum",
   "Mythical.C108_mean",
   "Mythical.C108_windows",
   "Mythical.C108_first_partial",
   "Mythical.C108_windows_counterexample",
   "Mythical.C108_lumped"
  ],
  "note": "The last part is false of the code: the sampling time is not set back between repetitions. Proved: the rest; the windows for the first repetition; which windows the entries of the others stand for; from which repetition on all displacement is in the first entry. The library's results for the hops are arbitrary."
 },
 "C109": {
  "status": "partial",
  "theorems": [
   "Mythical.C109_energies",
   "Mythical.C109_shrinks",
   "Mythical.C109_order",
   "Mythical.C109_decay_partial",
   "Mythical.C109_counterexample"
  ],
  "note": "The last part is false of the code: the loops run over half-integers that are cut off afterwards, so that the distances are off by half a cell and the range is from 5 below to 3 above the seed. Proved: the rest; the exact energies; that the part taken is right up to a factor exp(sqrt(3)/6)."
 },
 "C110": {
  "status": "partial",
  "theorems": [
   "Mythical.C110_bins",
   "Mythical.C110_value",
   "Mythical.C110_units_partial",
   "Mythical.C110_counterexample"
  ],
  "note": "False of the code: the half maximum is a twentieth, the middles of the bins are half of their upper or lower ends, and one of them is computed from itself. Proved: the bins; the value computed, and exactly when it is not a number; that it scales with the unit. C110_counterexample: shifted energies have a negative width or none."
 },
 "C111": {
  "status": "proved",
  "theorems": [
   "Mythical.C111_run",
   "Mythical.C111_first",
   "Mythical.C111_rounds",
   "Mythical.C111_ends",
   "Mythical.C111_both",
   "Mythical.C111_main"
  ],
  "note": "C111_run: the list, the clocks and the sites in either run. C111_first: the run without coarse graining does not fail after its assertion and has no clusters, as long as rounds and walkers together do not exceed the largest int, which bounds the visits counted at a site. C111_rounds, C111_ends: a bound on the rounds for rates and exponential draws bounded from below. C111_both: the second run starts like the first. C111_main: the box, the random positions and the walkers meet the hypotheses. That the hops of the run with coarse graining return is not claimed: C69 asks for rates both ways, and the box has sites that can be left but not entered."
 },
 "C112": {
  "status": "partial",
  "theorems": [
   "Mythical.C112_versus_partial",
   "Mythical.C112_counterexample"
  ],
  "note": "False of the code: the crude simulation moves the entries of walker_positions, and the coarse-grained one begins where the crude one ended (C112_counterexample). Proved: all the rest, and that the coarse-grained simulation begins with the last sites of the crude one."
 },
 "C113": {
  "status": "proved",
  "theorems": [
   "Mythical.C113_books",
   "Mythical.C113_sites",
   "Mythical.C113_both",
   "Mythical.C113_main"
  ],
  "note": "C113_books: the stays of the electrons and the three vectors, in any block that returns. C113_sites: the block without coarse graining fails only if an electron is not out within the given number of hops; electrons times (hops + 2) must fit an int, which bounds the visits counted at a site. C113_both, C113_main: both blocks one after the other, with the check of the number of clusters in between. That the hops of the block with coarse graining return is not claimed: electrons are put on sites of a cluster between hops, which C69 does not cover."
 },
 "C114": {
  "status": "partial",
  "theorems": [
   "Mythical.C114_inner_partial",
   "Mythical.C114_counterexample"
  ],
  "note": "False of the code: site 10 is given one rate instead of two, so that the rates listed after it belong to the wrong sites and the last one is not used (C114_counterexample). Proved: the rates from the sites 1 to 5 are those of the picture, and each other site has one rate, to one of the sites 1 to 5."
 },
 "C115": {
  "status": "partial",
  "theorems": [
   "Mythical.C115_escape_partial",
   "Mythical.C115_counterexample"
  ],
  "note": "False of the code: the stay on the first site is left out, and the stay on the site outside the five is included (C115_counterexample). Proved: the stored time is the time on the five sites less the first stay plus the last."
 },
 "C116": {
  "status": "partial",
  "theorems": [
   "Mythical.C116_returns_partial",
   "Mythical.C116_moderate_partial",
   "Mythical.C116_ends_partial",
   "Mythical.C116_both_partial",
   "Mythical.C116_counterexample"
  ],
  "note": "False of the rates that the programs use: there is none back into the faces of the box through the origin (C85), and with such rates the first hop can fail an assertion of the library (C116_counterexample, a box of 27 sites). Proved: all of it for rates that go both ways."
 },
 "C117": {
  "status": "proved",
  "theorems": [
   "Mythical.C117_cluster",
   "Mythical.C117_both",
   "Mythical.C117_assertion",
   "Mythical.C117_short_times"
  ],
  "note": "C117_cluster: after each call, for blocks with any performance ratio of at least 1/5. C117_both: the cluster that is found when both blocks return. C117_assertion: the exception is thrown if there is no cluster, and the number of clusters is 1 otherwise. The assumption on the times is the one that C70 derives from the contract of the graph library; C117_short_times shows that it is needed (with shorter times the sites 2 and 4 become a cluster). That the hops of this block return is not claimed."
 },
 "C118": {
  "status": "partial",
  "theorems": [
   "Mythical.C118_clusters",
   "Mythical.C118_ids",
   "Mythical.C118_without",
   "Mythical.C118_checks",
   "Mythical.C118_partial",
   "Mythical.C118_counterexample"
  ],
  "note": "The last part is false of the code: the test asks for the cluster with the id 0, and the ids come from a counter that is never reset in a process, so that with any cluster made before in the same process the test cannot pass, although the clusters were merged (C118_counterexample). Proved: which clusters there are after each call (C118_clusters, C118_without), that the checks on the sites cannot fail (C118_checks), and that a test that passes has merged the clusters and is the first to make any (C118_partial). That the clusters end up merged in all runs is not claimed; it depends on the draws."
 },
 "C119": {
  "status": "partial",
  "theorems": [
   "Mythical.C119_books_partial",
   "Mythical.C119_ends",
   "Mythical.C119_times_partial",
   "Mythical.C119_counterexample"
  ],
  "note": "The last part is false of the code: time_spent_on_sites is assigned, not added to, so that it holds the last stay only (C119_counterexample: a run in which site 2 is visited twice). Proved: the other numbers and when the loop ends (C119_books_partial, C119_ends), what time_spent_on_sites holds (TimesLast), and that it is right if no site is visited twice (C119_times_partial)."
 },
 "C120": {
  "status": "proved",
  "theorems": [
   "Mythical.C120_returns",
   "Mythical.C120_ends"
  ],
  "note": "Up to the overflow of a counter, which is a possible outcome of its own (OnlyOverflow), and given that the times that the graph library returns cover those of the basin (C70). The checks at the end of the blocks are the subject of C118."
 },
 "C121": {
  "status": "proved",
  "theorems": [
   "Mythical.C121_outcome"
  ],
  "note": "Given that the times that the graph library returns cover those of the basin (C70)."
 }
}