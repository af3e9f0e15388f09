import Verif.Props.Basin
import Verif.Props.BasinSettings
import Verif.Props.Bench
import Verif.Props.BenchTotal
import Verif.Props.Box
import Verif.Props.ClusterClosed
import Verif.Props.ClusterLimit
import Verif.Props.ClusterMerge
import Verif.Props.ClusterOrder
import Verif.Props.ClusterPick
import Verif.Props.ClusterProb
import Verif.Props.ClusterRounds
import Verif.Props.ClusterTime
import Verif.Props.ClusterWalk
import Verif.Props.Containers
import Verif.Props.Correlated
import Verif.Props.Crude
import Verif.Props.CrudeRun
import Verif.Props.CuboidAll
import Verif.Props.CuboidDup
import Verif.Props.CuboidIndex
import Verif.Props.CuboidMetric
import Verif.Props.CuboidNeighbors
import Verif.Props.Escape
import Verif.Props.EscapeCluster
import Verif.Props.GraphAdapter
import Verif.Props.Line
import Verif.Props.LineLoops
import Verif.Props.Marcus
import Verif.Props.Merging
import Verif.Props.MergingBooks
import Verif.Props.MergingTest
import Verif.Props.MergingTotal
import Verif.Props.Programs
import Verif.Props.Queue
import Verif.Props.Range
import Verif.Props.RateContainer
import Verif.Props.Rounded
import Verif.Props.RoundedAcc
import Verif.Props.RoundedCluster
import Verif.Props.RoundedCuboid
import Verif.Props.RoundedIter
import Verif.Props.RoundedLoop
import Verif.Props.RoundedMarcus
import Verif.Props.RoundedStay
import Verif.Props.RoundedToF
import Verif.Props.Site
import Verif.Props.SiteOrder
import Verif.Props.SiteQueries
import Verif.Props.SystemCalls
import Verif.Props.SystemCounts
import Verif.Props.SystemGrain
import Verif.Props.SystemHopSafe
import Verif.Props.SystemInit
import Verif.Props.SystemOverflow
import Verif.Props.SystemPace
import Verif.Props.SystemPartition
import Verif.Props.SystemReverse
import Verif.Props.SystemSettings
import Verif.Props.SystemStays
import Verif.Props.SystemTime
import Verif.Props.SystemTotal
import Verif.Props.SystemVisits
import Verif.Props.SystemWalk
import Verif.Props.SystemWalkers
import Verif.Props.ToF
import Verif.Props.ToFEnds
import Verif.Props.ToFMain
import Verif.Props.ToFOutput
import Verif.Props.ToFOverflow
import Verif.Props.Units
import Verif.Props.Versus
import Verif.Props.Walker
import Verif.Props.Width

/-! # Axioms each property theorem depends on (generated by tools/manifest.py) -/

#print axioms Mythical.C01_isSorted_sound
#print axioms Mythical.C01_isSorted_after_sort
#print axioms Mythical.C01_only_add_clears
#print axioms Mythical.C02_conservation
#print axioms Mythical.C03_pop_min
#print axioms Mythical.C03_drain_sorted
#print axioms Mythical.C04_sortedAdd_stable
#print axioms Mythical.C04_fifo
#print axioms Mythical.C05_time_monotone
#print axioms Mythical.C05_needs_nonneg
#print axioms Mythical.C06_only_empty_pop_fails
#print axioms Mythical.C06_at_range
#print axioms Mythical.C07_position_roundtrip
#print axioms Mythical.C07_index_roundtrip
#print axioms Mythical.C07_layout
#print axioms Mythical.C07_vector_overload
#print axioms Mythical.C08_components
#print axioms Mythical.C09_fixed_enforced
#print axioms Mythical.C10_periodic_wrap_partial
#print axioms Mythical.C10_wrong_below_minus_dim
#print axioms Mythical.C10_counterexample
#print axioms Mythical.C100_double
#print axioms Mythical.C100_site
#print axioms Mythical.C100_law
#print axioms Mythical.C100_lattice
#print axioms Mythical.C100_marcus
#print axioms Mythical.C100_balance
#print axioms Mythical.C100_rates
#print axioms Mythical.C100_tof_balance
#print axioms Mythical.C100_tof_order
#print axioms Mythical.Basin.C101_threshold
#print axioms Mythical.Basin.C101_count
#print axioms Mythical.Basin.C101_unlimited
#print axioms Mythical.Basin.C101_order_counterexample
#print axioms Mythical.World.C102_site
#print axioms Mythical.World.C102_aim
#print axioms Mythical.World.C102_dwell
#print axioms Mythical.World.C102_new
#print axioms Mythical.C103_queries
#print axioms Mythical.C104_order
#print axioms Mythical.C105_reversal
#print axioms Mythical.C105_loop
#print axioms Mythical.C105_tof
#print axioms Mythical.C106_toy
#print axioms Mythical.C106_toy_outcome
#print axioms Mythical.C106_flight
#print axioms Mythical.C106_flight_outcome
#print axioms Mythical.C107_rates_partial
#print axioms Mythical.C107_start_counterexample
#print axioms Mythical.C107_short
#print axioms Mythical.C107_inverted
#print axioms Mythical.C107_balance_partial
#print axioms Mythical.C107_traps_counterexample
#print axioms Mythical.C108_in_range
#print axioms Mythical.C108_sum
#print axioms Mythical.C108_mean
#print axioms Mythical.C108_windows
#print axioms Mythical.C108_first_partial
#print axioms Mythical.C108_windows_counterexample
#print axioms Mythical.C108_lumped
#print axioms Mythical.C109_energies
#print axioms Mythical.C109_shrinks
#print axioms Mythical.C109_order
#print axioms Mythical.C109_decay_partial
#print axioms Mythical.C109_counterexample
#print axioms Mythical.C11_rejected_partial
#print axioms Mythical.C11_negative_accepted
#print axioms Mythical.C11_counterexample
#print axioms Mythical.C110_bins
#print axioms Mythical.C110_value
#print axioms Mythical.C110_units_partial
#print axioms Mythical.C110_counterexample
#print axioms Mythical.C111_run
#print axioms Mythical.C111_first
#print axioms Mythical.C111_rounds
#print axioms Mythical.C111_ends
#print axioms Mythical.C111_both
#print axioms Mythical.C111_main
#print axioms Mythical.C112_versus_partial
#print axioms Mythical.C112_counterexample
#print axioms Mythical.C113_books
#print axioms Mythical.C113_sites
#print axioms Mythical.C113_both
#print axioms Mythical.C113_main
#print axioms Mythical.C114_inner_partial
#print axioms Mythical.C114_counterexample
#print axioms Mythical.C115_escape_partial
#print axioms Mythical.C115_counterexample
#print axioms Mythical.C116_returns_partial
#print axioms Mythical.C116_moderate_partial
#print axioms Mythical.C116_ends_partial
#print axioms Mythical.C116_both_partial
#print axioms Mythical.C116_counterexample
#print axioms Mythical.C117_cluster
#print axioms Mythical.C117_both
#print axioms Mythical.C117_assertion
#print axioms Mythical.C117_short_times
#print axioms Mythical.C118_clusters
#print axioms Mythical.C118_ids
#print axioms Mythical.C118_without
#print axioms Mythical.C118_checks
#print axioms Mythical.C118_partial
#print axioms Mythical.C118_counterexample
#print axioms Mythical.C119_books_partial
#print axioms Mythical.C119_ends
#print axioms Mythical.C119_times_partial
#print axioms Mythical.C119_counterexample
#print axioms Mythical.C12_YZ
#print axioms Mythical.C12_XZ
#print axioms Mythical.C12_XY_partial
#print axioms Mythical.C12_XY_throws
#print axioms Mythical.C12_XY_misses
#print axioms Mythical.C12_out_of_range_throws
#print axioms Mythical.C120_returns
#print axioms Mythical.C120_ends
#print axioms Mythical.C121_outcome
#print axioms Mythical.C13_exact_ball
#print axioms Mythical.C14_well_formed
#print axioms Mythical.C15_symmetric
#print axioms Mythical.C16_no_duplicates_partial
#print axioms Mythical.C16_counterexample
#print axioms Mythical.C17_same_sites
#print axioms Mythical.C17_distances
#print axioms Mythical.C17_minimum_reported
#print axioms Mythical.C18_octants_partial
#print axioms Mythical.C18_small_cutoff
#print axioms Mythical.C18_counterexample
#print axioms Mythical.C19_metric_partial
#print axioms Mythical.C19_from_origin_partial
#print axioms Mythical.C19_self_distance_wrong
#print axioms Mythical.C19_counterexample
#print axioms Mythical.C20_construct
#print axioms Mythical.C20_position_defined
#print axioms Mythical.C20_getIndex_defined
#print axioms Mythical.C20_getNeighbors_returns_iff
#print axioms Mythical.C20_getAll_returns
#print axioms Mythical.C20_smallestDistance_fixed_iff
#print axioms Mythical.C20_smallestDistance_returns
#print axioms Mythical.C21_negative_rejected_partial
#print axioms Mythical.C21_zero_dimension
#print axioms Mythical.C21_overflow_before_check
#print axioms Mythical.C22_nonneg
#print axioms Mythical.C22_quadratic
#print axioms Mythical.C23_detailed_balance
#print axioms Mythical.C24_shift
#print axioms Mythical.C24_maximum
#print axioms Mythical.C24_normal_region
#print axioms Mythical.C24_inverted_region
#print axioms Mythical.C25_addRate
#print axioms Mythical.C26_stored_partial
#print axioms Mythical.C26_returned_was_given_partial
#print axioms Mythical.C26_untouched_throws_partial
#print axioms Mythical.C26_counterexample
#print axioms Mythical.C26_second_call_returns_null
#print axioms Mythical.C27_queries_partial
#print axioms Mythical.C27_outgoingRateCount_partial
#print axioms Mythical.C27_counterexample
#print axioms Mythical.C28_counts_and_rates
#print axioms Mythical.C28_sources_sinks_partial
#print axioms Mythical.C28_counterexample
#print axioms Mythical.C29_no_clash_partial
#print axioms Mythical.C29_clash_throws_partial
#print axioms Mythical.C29_counterexample
#print axioms Mythical.C30_probabilities
#print axioms Mythical.C30_accepts
#print axioms Mythical.C31_pick_is_neighbour
#print axioms Mythical.C32_pick_interval
#print axioms Mythical.C32_pick_probability
#print axioms Mythical.C33_dwell_law
#print axioms Mythical.C34_partial
#print axioms Mythical.C34_counterexample
#print axioms Mythical.C35_conserved
#print axioms Mythical.no_time_before_update
#print axioms Mythical.C36_bounded
#print axioms Mythical.C36_count
#print axioms Mythical.C37_occupation
#print axioms Mythical.C37_update_succeeds
#print axioms Mythical.C38_exits
#print axioms Mythical.C39_partial
#print axioms Mythical.C39_counterexample
#print axioms Mythical.C40_partial
#print axioms Mythical.C40_frozen
#print axioms Mythical.C40_counterexample
#print axioms Mythical.C41_partial
#print axioms Mythical.C41_counterexample
#print axioms Mythical.C42_partial
#print axioms Mythical.C42_negation
#print axioms Mythical.C42_counterexample
#print axioms Mythical.C43_partial
#print axioms Mythical.C43_negation
#print axioms Mythical.C43_counterexample
#print axioms Mythical.C44_merge
#print axioms Mythical.C44_nothing_lost
#print axioms Mythical.C45_partial
#print axioms Mythical.C45_agree_partial
#print axioms Mythical.C45_counterexample
#print axioms Mythical.C45_update_partial
#print axioms Mythical.C45_addSites_partial
#print axioms Mythical.C45_merge_partial
#print axioms Mythical.C46_terminates
#print axioms Mythical.solveProb_terminates
#print axioms Mythical.C47_fixed_point
#print axioms Mythical.C47_accuracy
#print axioms Mythical.C48
#print axioms Mythical.C48_always
#print axioms Mythical.C48_merge_counterexample
#print axioms Mythical.Basin.C49_basin
#print axioms Mythical.Basin.C49_terminates
#print axioms Mythical.Basin.C49_total
#print axioms Mythical.Basin.C50_accepted
#print axioms Mythical.Basin.C50_partial
#print axioms Mythical.Basin.C50_counterexample
#print axioms Mythical.C51
#print axioms Mythical.C52
#print axioms Mythical.C52_values
#print axioms Mythical.C53
#print axioms Mythical.C54
#print axioms Mythical.C54_removed
#print axioms Mythical.C55_partial
#print axioms Mythical.C55_disjoint
#print axioms Mythical.C55_coarsen
#print axioms Mythical.C55_counterexample
#print axioms Mythical.C56_partial
#print axioms Mythical.C56_basin_partial
#print axioms Mythical.C56_counterexample
#print axioms Mythical.C57_partial
#print axioms Mythical.C57_counterexample
#print axioms Mythical.C58_partial
#print axioms Mythical.C58_fits_partial
#print axioms Mythical.C58_counterexample
#print axioms Mythical.C59
#print axioms Mythical.C60_known
#print axioms Mythical.C60_move_partial
#print axioms Mythical.C60_drain_counterexample
#print axioms Mythical.C61_partial
#print axioms Mythical.C61_counterexample
#print axioms Mythical.C62
#print axioms Mythical.C63
#print axioms Mythical.C63_merge
#print axioms Mythical.C64_smallest
#print axioms Mythical.C64_fresh
#print axioms Mythical.Containers.C65_cluster_container
#print axioms Mythical.Containers.C65_cluster_lookups
#print axioms Mythical.Containers.C65_partial
#print axioms Mythical.Containers.C65_site_lookups
#print axioms Mythical.Containers.C65_getSites
#print axioms Mythical.Containers.C65_smallest_inserts
#print axioms Mythical.C66_documented_partial
#print axioms Mythical.C66_counterexample
#print axioms Mythical.C67
#print axioms Mythical.C68
#print axioms Mythical.C69_hop_returns
#print axioms Mythical.C69_oneway_counterexample
#print axioms Mythical.C69_self_counterexample
#print axioms Mythical.C70_graph
#print axioms Mythical.C70_walks
#print axioms Mythical.C70_traversal
#print axioms Mythical.C70_covers
#print axioms Mythical.C70_condition
#print axioms Mythical.C71_rates
#print axioms Mythical.C71_balance
#print axioms Mythical.C71_order
#print axioms Mythical.C71_missing
#print axioms Mythical.C72_initializeWalkers
#print axioms Mythical.C72_removeWalker
#print axioms Mythical.C72_visitFrequency
#print axioms Mythical.C73_start
#print axioms Mythical.C73_crowd
#print axioms Mythical.C73_returns
#print axioms Mythical.C73_state
#print axioms Mythical.C73_hop
#print axioms Mythical.C73_time
#print axioms Mythical.C73_rates
#print axioms Mythical.C74_partial
#print axioms Mythical.C74_last
#print axioms Mythical.C74_counterexample
#print axioms Mythical.C75_resolution
#print axioms Mythical.C75_ratio
#print axioms Mythical.C75_checks
#print axioms Mythical.C76_walk
#print axioms Mythical.C76_exits
#print axioms Mythical.C76_picks
#print axioms Mythical.C76_time
#print axioms Mythical.C76_entry
#print axioms Mythical.C77_returns
#print axioms Mythical.C77_law
#print axioms Mythical.C77_walk
#print axioms Mythical.C78
#print axioms Mythical.C78_constants
#print axioms Mythical.C78_short_counterexample
#print axioms Mythical.C79_clocks
#print axioms Mythical.C79_hops
#print axioms Mythical.C79_steps
#print axioms Mythical.C79_ends
#print axioms Mythical.C80_file
#print axioms Mythical.C80_main
#print axioms Mythical.C81
#print axioms Mythical.C81_hop
#print axioms Mythical.C81_initializeWalkers
#print axioms Mythical.C81_removeWalker
#print axioms Mythical.C81_visitFrequency
#print axioms Mythical.C81_slow_counterexample
#print axioms Mythical.C82
#print axioms Mythical.C82_ends
#print axioms Mythical.C82_main
#print axioms Mythical.C83_update_succeeds
#print axioms Mythical.C83_closed
#print axioms Mythical.C84_converter
#print axioms Mythical.C84_overflow
#print axioms Mythical.C84_negative
#print axioms Mythical.C85_neighbors_partial
#print axioms Mythical.C85_oneway_counterexample
#print axioms Mythical.C85_rates_partial
#print axioms Mythical.C85_faces_left
#print axioms Mythical.C85_not_twoWay
#print axioms Mythical.C86_balance_partial
#print axioms Mythical.C86_inverted
#print axioms Mythical.C86_uphill_counterexample
#print axioms Mythical.C87_choice_partial
#print axioms Mythical.C87_any_order
#print axioms Mythical.C87_choice_neighbor
#print axioms Mythical.C87_reversed_counterexample
#print axioms Mythical.C87_rates
#print axioms Mythical.C88_simulation
#print axioms Mythical.C88_clock
#print axioms Mythical.C88_no_walkers
#print axioms Mythical.C88_crowded
#print axioms Mythical.C89_call
#print axioms Mythical.C89_history
#print axioms Mythical.C89_canonical
#print axioms Mythical.C89_law
#print axioms Mythical.C89_tie_counterexample
#print axioms Mythical.C90_law_partial
#print axioms Mythical.C90_probability
#print axioms Mythical.C90_tau
#print axioms Mythical.C90_accepts
#print axioms Mythical.C90_binary64
#print axioms Mythical.C90_exact
#print axioms Mythical.C90_counterexample
#print axioms Mythical.C90_null
#print axioms Mythical.C90_undefined
#print axioms Mythical.C91_inside_partial
#print axioms Mythical.C91_exits_partial
#print axioms Mythical.C91_times_partial
#print axioms Mythical.C91_exact
#print axioms Mythical.C91_counterexample
#print axioms Mythical.C92_positive_partial
#print axioms Mythical.C92_zero
#print axioms Mythical.C92_negative
#print axioms Mythical.C93_conserved
#print axioms Mythical.C93_ends_partial
#print axioms Mythical.C93_resolution
#print axioms Mythical.C93_accepts
#print axioms Mythical.C93_exact
#print axioms Mythical.C93_counterexample
#print axioms Mythical.Rounded.C94_monotone
#print axioms Mythical.Rounded.C94_clocks
#print axioms Mythical.Rounded.C94_file
#print axioms Mythical.Rounded.C94_ends_partial
#print axioms Mythical.Rounded.C94_exact
#print axioms Mythical.Rounded.C94_counterexample
#print axioms Mythical.Rounded.C95_listed
#print axioms Mythical.Rounded.C95_sound
#print axioms Mythical.Rounded.C95_complete
#print axioms Mythical.Rounded.C95_whole
#print axioms Mythical.Rounded.C95_whole_double
#print axioms Mythical.Rounded.C95_symmetric
#print axioms Mythical.Rounded.C95_returns_iff
#print axioms Mythical.Rounded.C95_exact
#print axioms Mythical.Rounded.C95_counterexample
#print axioms Mythical.Rounded.C95_decimal
#print axioms Mythical.Units.C96_new
#print axioms Mythical.Units.C96_step_partial
#print axioms Mythical.Units.C96_history_partial
#print axioms Mythical.Units.C96_exists_partial
#print axioms Mythical.Units.C96_share
#print axioms Mythical.Units.C96_counterexample
#print axioms Mythical.C97_occupation
#print axioms Mythical.C97_picks
#print axioms Mythical.C98_rate_partial
#print axioms Mythical.C98_balance_partial
#print axioms Mythical.C98_order
#print axioms Mythical.C98_counterexample
#print axioms Mythical.C99_exact
#print axioms Mythical.C99_search_returns
#print axioms Mythical.C99_pairs
#print axioms Mythical.C99_rates_partial
#print axioms Mythical.C99_balance_partial
#print axioms Mythical.C99_order_partial
#print axioms Mythical.C99_counterexample
