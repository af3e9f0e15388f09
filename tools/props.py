#!/usr/bin/env python3
"""Source of /verif/properties.jsonl (one JSON object per line). Run: python3 tools/props.py"""
import json, os
P = []
def add(id, title, statement, quantifier, why, anchors):
    P.append(dict(id=id, title=title, statement=statement, quantifier=quantifier, why_tests_cant=why, anchors=anchors))

Q="CoarseGrainSites/src/libmythical/queue.cpp"
CU="CoarseGrainSites/src/libmythical/charge_transport/cuboid_lattice.cpp"
MA="CoarseGrainSites/src/libmythical/charge_transport/marcus.cpp"
RC="CoarseGrainSites/src/libmythical/rate_container.cpp"
SI="CoarseGrainSites/src/libmythical/topologyfeatures/site.cpp"
TF="CoarseGrainSites/src/libmythical/topologyfeatures/topology_feature.cpp"
CL="CoarseGrainSites/src/libmythical/topologyfeatures/cluster.cpp"
CH="CoarseGrainSites/src/libmythical/topologyfeatures/cluster.hpp"
SY="CoarseGrainSites/src/libmythical/coarsegrainsystem.cpp"
BA="CoarseGrainSites/src/libmythical/basin_explorer.cpp"
SC="CoarseGrainSites/src/libmythical/site_container.cpp"
CC="CoarseGrainSites/src/libmythical/cluster_container.cpp"
WA="CoarseGrainSites/src/libmythical/walker.cpp"

add("C01","Queue: isSorted() never lies",
 "After any sequence of add, sortedAdd, sort and pop_current calls on a fresh Queue, whenever isSorted() returns true the entries at(0), at(1), ... are in non-decreasing order of time.",
 "every finite sequence of queue operations, every walker id and time, every tie-breaking choice std::sort may make",
 "The flag is maintained separately from the data; tests only look at a few fixed sequences of three elements.",
 [Q+":Queue::add",Q+":Queue::sortedAdd",Q+":Queue::sort",Q+":Queue::pop_current",Q+":Queue::isSorted"])
add("C02","Queue: no walker is lost, duplicated or altered",
 "After any sequence of queue operations, the entries popped so far together with the entries still in the queue are, as a multiset, exactly the entries that were added, and size() is the number added minus the number popped.",
 "every finite sequence of queue operations and every implementation of std::sort that permutes its input",
 "Conservation has to hold over all histories; a test samples a handful.",
 [Q+":Queue::add",Q+":Queue::sortedAdd",Q+":Queue::sort",Q+":Queue::pop_current",Q+":Queue::size"])
add("C03","Queue: pop_current returns the earliest event",
 "If isSorted() is true and the queue is not empty, pop_current returns an entry whose time is not larger than the time of any entry left in the queue; popping a sorted queue until it is empty returns all entries in non-decreasing time order.",
 "every reachable sorted queue of every size",
 "Requires every queue length and every time assignment.",
 [Q+":Queue::pop_current",Q+":Queue::sort"])
add("C04","Queue: sortedAdd is stable",
 "On a sorted queue, sortedAdd places the new entry after every entry with a time less than or equal to its own and before every entry with a strictly larger time, and leaves the relative order of the old entries unchanged; so among equal times walkers are served first-in-first-out.",
 "every sorted queue and every new entry",
 "Tie behaviour depends on all prefixes of the queue.",
 [Q+":Queue::sortedAdd",Q+":Comparator"])
add("C05","Event loop: simulated time never runs backwards",
 "In the KMC loop of the documentation (pop_current the earliest walker, hop it, re-insert it with sortedAdd at popped time plus its new non-negative dwell time, or drop it) started from a sorted queue, the sequence of popped times is non-decreasing, the queue stays sorted, and every walker that is never dropped stays in the queue exactly once.",
 "every initial queue, every sequence of non-negative dwell times and drop decisions, every number of iterations",
 "Time monotonicity is a property of unbounded executions.",
 [Q+":Queue","examples/ToF/ToF_example.cpp:main"])
add("C06","Queue: out-of-contract accesses",
 "pop_current on an empty queue is undefined behaviour (no check is made) and is the only queue operation that can be undefined; at(i) returns the i-th entry exactly for 0 <= i < size() and throws std::out_of_range for every other int, including negative ones.",
 "every queue and every int index",
 "All ints, all sizes.",
 [Q+":Queue::pop_current",Q+":Queue::at"])
add("C07","Cuboid: index and position are inverse bijections",
 "For every lattice whose site count fits in int, getIndex and getPosition are inverse bijections between in-bounds positions and indices 0..total-1: getPosition(getIndex(x,y,z)) = (x,y,z) and getIndex(getPosition(i)) = i, whatever the boundary settings.",
 "every lattice size, boundary setting, in-bounds position and index",
 "Integer division identities for all dimensions; tests use two lattices.",
 [CU+":Cuboid::getIndex",CU+":Cuboid::getPosition",CU+":Cuboid::getIndex_",CU+":Cuboid::getPos_"])
add("C08","Cuboid: getX/getY/getZ agree with getPosition",
 "For every int index, getX, getY and getZ return exactly the three components of getPosition(index), and throw exactly when getPosition throws.",
 "every lattice and every int index, valid or not",
 "All ints.",
 [CU+":Cuboid::getX",CU+":Cuboid::getY",CU+":Cuboid::getZ"])
add("C09","Cuboid: Fixed boundaries are enforced by getIndex",
 "With all boundaries Fixed, getIndex(x,y,z) throws std::invalid_argument exactly when some coordinate is outside [0,dim), and otherwise returns a value in [0,total).",
 "every lattice, every triple of ints",
 "All ints.",
 [CU+":Cuboid::getIndex",CU+":Cuboid::checkPosX_",CU+":Cuboid::checkPosY_",CU+":Cuboid::checkPosZ_"])
add("C10","Cuboid: Periodic getIndex wraps coordinates",
 "With Periodic boundaries getIndex(x,y,z) equals getIndex of the coordinates reduced modulo the dimensions, for every int coordinate; in particular the result is always in [0,total).",
 "every periodic lattice, every triple of ints",
 "All ints; the wrap-around of very negative coordinates is never tested.",
 [CU+":Cuboid::getIndex",CU+":Cuboid::getXPeriodic_",CU+":Cuboid::getYPeriodic_",CU+":Cuboid::getZPeriodic_"])
add("C11","Cuboid: invalid indices are rejected",
 "getPosition, getX, getY, getZ, getNeighbors and getSmallestDistance throw std::invalid_argument for every index outside [0,total).",
 "every lattice and every int index",
 "All ints.",
 [CU+":Cuboid::getPosition",CU+":Cuboid::checkIndex_"])
add("C12","Cuboid: getRandomSite stays on the requested plane",
 "For every plane and every in-range plane index, getRandomSite never throws and returns a valid index whose coordinate along the plane normal is plane_index, and every site of that plane can be returned; for an out-of-range plane index with Fixed boundaries it throws.",
 "every lattice, plane, plane index and random draw allowed by the distributions",
 "Depends on all draws and on the relation of the three dimensions.",
 [CU+":Cuboid::getRandomSite",CU+":Cuboid::setDistributions_"])
add("C13","Cuboid: getNeighbors is exactly the cutoff ball",
 "Whenever getNeighbors(i,cutoff) returns, it lists exactly the sites j != i that have a periodic image (images only along Periodic axes) within Euclidean distance cutoff of i.",
 "every lattice, spacing > 0, cutoff >= 0, valid index, boundary setting",
 "Quantifies over all lattices and cutoffs; involves real arithmetic (floor, sqrt).",
 [CU+":Cuboid::getNeighbors",CU+":Cuboid::getDistance_"])
add("C14","Cuboid: neighbour lists are well formed",
 "Every index returned by getNeighbors, getNeighborDistances(index) and getNeighborDistances(position) is in [0,total) and different from the queried site, for every boundary setting and cutoff for which the call returns.",
 "every lattice, index, cutoff, boundary setting",
 "All sizes.",
 [CU+":Cuboid::getNeighbors",CU+":Cuboid::getNeighborDistances_"])
add("C15","Cuboid: neighbourhood is symmetric",
 "Whenever both calls return, j is in getNeighbors(i,c) if and only if i is in getNeighbors(j,c).",
 "every lattice, boundary setting, cutoff and pair of sites",
 "All pairs in all lattices.",
 [CU+":Cuboid::getNeighbors"])
add("C16","Cuboid: no duplicate neighbours",
 "getNeighbors(i,c) lists no site twice.",
 "every lattice, boundary setting, cutoff and site",
 "Periodic images of the same site must be merged for every size/cutoff ratio.",
 [CU+":Cuboid::getNeighbors"])
add("C17","Cuboid: getNeighborDistances agrees with getNeighbors and reports true distances",
 "The ids listed by getNeighborDistances(i,c) are, in order, those listed by getNeighbors(i,c); each reported distance is the distance from i to an image of that neighbour and is at most c; with Fixed boundaries it is the Euclidean distance; querying by position and by index gives the same answer.",
 "every lattice, index, cutoff",
 "All lattices.",
 [CU+":Cuboid::getNeighborDistances_",CU+":Cuboid::getNeighborDistances",CU+":Cuboid::getNeighbors"])
add("C18","Cuboid: whole-lattice getNeighborDistances agrees with the per-site query",
 "getNeighborDistances(cutoff)[i][j] exists exactly when j is in getNeighbors(i,cutoff), it is symmetric in i and j, and holds the distance between them.",
 "every lattice, cutoff and pair of sites",
 "All pairs; diagonal pairs are never tested.",
 [CU+":Cuboid::getNeighborDistances"])
add("C19","Cuboid: getSmallestDistance is the minimum-image metric",
 "getSmallestDistance(i,j) is zero exactly when i = j, symmetric, satisfies the triangle inequality and equals the smallest distance between i and any periodic image of j.",
 "every lattice, boundary setting and pair (triple) of sites",
 "All triples in all lattices.",
 [CU+":Cuboid::getSmallestDistance"])
add("C20","Cuboid: no undefined behaviour inside the documented domain",
 "If the site count fits in int and every dimension is positive, then construction, getIndex (coordinates above -dim), getPosition, getX/Y/Z on any non-negative int perform no signed overflow, division by zero or invalid distribution; the exact cutoff/spacing limit for getNeighbors and the exact distance limit for getSmallestDistance are stated.",
 "every lattice and argument in range",
 "Overflow needs huge lattices, out of reach of tests.",
 [CU])
add("C21","Cuboid: construction validates dimensions",
 "The constructor throws std::invalid_argument exactly when some dimension is negative, and every constructed lattice can be queried without undefined behaviour.",
 "every triple of ints",
 "All ints, including zero and products that overflow.",
 [CU+":Cuboid::Cuboid",CU+":Cuboid::checkBounds_",CU+":Cuboid::setDistributions_"])
add("C22","Marcus: rates are finite, non-negative, and zero only without coupling",
 "For reorganisation energy > 0 and temperature > 0, getRate is >= 0 for all energies and couplings and is 0 exactly when the coupling is 0; it is even and quadratic in the coupling.",
 "all real energies, couplings, lambda > 0, T > 0",
 "Continuum of inputs.",
 [MA+":Marcus::getRate",MA+":Marcus::Marcus"])
add("C23","Marcus: detailed balance",
 "For all energies, getRate(E_i,E_j,H) / getRate(E_j,E_i,H) = exp(-(E_j-E_i)/(k_B T)), so simulations relax to the Boltzmann distribution.",
 "all real energies, couplings H != 0, lambda > 0, T > 0",
 "Continuum of inputs.",
 [MA+":Marcus::getRate"])
add("C24","Marcus: depends only on the energy difference and peaks at E_i - E_j = lambda",
 "getRate is invariant under shifting both energies, is maximal exactly when E_i - E_j = lambda, strictly increases with driving force up to lambda (normal region) and strictly decreases beyond (inverted region).",
 "all real energies, couplings H != 0, lambda > 0, T > 0",
 "Continuum of inputs.",
 [MA+":Marcus::getRate"])
add("C25","Rate_Container: addRate never overwrites",
 "addRate throws std::invalid_argument exactly when a rate for that ordered pair is already stored, leaving the container unchanged; otherwise afterwards exactly that one pair has been added and getRate returns the given pointer.",
 "every container state and every (site, neighbour, pointer)",
 "All histories.",
 [RC+":Rate_Container::addRate",RC+":Rate_Container::getRate"])
add("C26","Rate_Container: getRate throws for rates that were never added",
 "getRate(i,j) throws std::invalid_argument whenever no rate from i to j has been added, and never changes what other queries report.",
 "every container history and every pair",
 "The wrong answer appears only for sites that already have other rates or after an earlier failed query.",
 [RC+":Rate_Container::getRate"])
add("C27","Rate_Container: queries do not change the container",
 "incomingRateCount, outgoingRateCount, getIncomingRates, getOutgoingRates, getSourceSiteIds and getSinkSiteIds leave every later answer unchanged.",
 "every container history and interleaving of queries",
 "Needs all interleavings; tests call each query once.",
 [RC+":Rate_Container::outgoingRateCount",RC+":Rate_Container::getSinkSiteIds"])
add("C28","Rate_Container: sources, sinks and counts mean what they say",
 "getSourceSiteIds lists exactly the sites with an outgoing but no incoming rate, getSinkSiteIds exactly those with an incoming but no outgoing rate, without repetition; incomingRateCount(i)/outgoingRateCount(i) are the numbers of stored rates into/out of i; getIncomingRates/getOutgoingRates return exactly those rates.",
 "every container built by addRate calls",
 "All graphs.",
 [RC+":Rate_Container::getSourceSiteIds",RC+":Rate_Container::getSinkSiteIds",RC+":Rate_Container::incomingRateCount",RC+":Rate_Container::getIncomingRates"])
add("C29","Rate_Container: addRates is all-or-nothing",
 "addRates either adds every rate of its argument or throws and leaves the container unchanged.",
 "every container and every argument map",
 "Failure atomicity for every position of the duplicate.",
 [RC+":Rate_Container::addRates"])
add("C30","Site: hop probabilities are the normalised rates",
 "After any sequence of setRatesToNeighbors, addNeighRate and resetNeighRate that leaves all rates positive, the site's hop probabilities list every neighbour exactly once, each equal to rate/(sum of rates), all in (0,1], summing to 1.",
 "every sequence of rate updates, every number of neighbours, all positive rates",
 "The probabilities pass through a std::set with a lossy comparator; every set of rates matters.",
 [SI+":Site::calculateProbabilityHopToNeighbors_",SI+":CustomComparitor",SI+":Site::getProbabilityOfHoppingToNeighboringSite"])
add("C31","Site: pickNewSiteId always returns a neighbour",
 "For every draw in [0,1), pickNewSiteId on a site with at least one neighbour and positive rates returns the id of one of its neighbours, never -1.",
 "every site with positive rates and every random draw",
 "All draws including those arbitrarily near 1.",
 [SI+":Site::pickNewSiteId"])
add("C32","Site: a neighbour is chosen with probability proportional to its rate",
 "The set of draws in [0,1) for which pickNewSiteId returns j is an interval of length rate(j)/(sum of rates).",
 "every site with positive rates and every neighbour",
 "Statistical tests sample; this is the exact law.",
 [SI+":Site::pickNewSiteId"])
add("C33","Site: dwell times are exponentially distributed with the total escape rate",
 "For a site with positive rates the dwell time is positive for every draw in (0,1), and the probability that it exceeds t is exp(-t * sum of rates).",
 "every site, every t >= 0, every draw",
 "Exact law over a continuum of draws.",
 [TF+":TopologyFeature::getDwellTime",SI+":Site::calculateDwellTimeConstant_"])
add("C34","Site: changing a rate in place is seen consistently",
 "Rates are held by pointer so that the user may change them in place: after the user changes a rate, the site's reported rates, hop probabilities and time constant all reflect the new value.",
 "every site and every in-place change of a rate",
 "Needs all interleavings of updates and reads.",
 [SI+":Site::getRateToNeighbor",SI+":Site::getProbabilityOfHoppingToNeighboringSite"])
add("C35","Cluster: the time a walker spends in a cluster is conserved",
 "The dwell times handed out by successive getDwellTime/pickNewSiteId pairs for one walker, from its arrival in a cluster until pickNewSiteId releases it to an outside site, add up exactly to the single dwell time drawn on arrival.",
 "every drawn dwell time > 0, every time increment > 0, any interleaving with other walkers",
 "The number of steps is unbounded.",
 [CL+":Cluster::getDwellTime",CL+":Cluster::pickNewSiteId",CL+":Cluster::hopWithinCluster_"])
add("C36","Cluster: every increment is positive and bounded, and residence ends",
 "Each dwell time handed out by a cluster is positive and at most the cluster's time increment; the walker is released after exactly ceil(drawn dwell time / time increment) calls.",
 "every drawn dwell time > 0 and every time increment > 0",
 "Unbounded number of steps.",
 [CL+":Cluster::getDwellTime",CL+":Cluster::hopWithinCluster_"])
add("C37","Cluster: occupation probabilities are a probability distribution",
 "After updateProbabilitiesAndTimeConstant on a cluster of two or more sites with positive rates and mutual internal links, the occupation probabilities of its sites are positive and sum to 1, whatever convergence method is configured.",
 "every such cluster, every number of iterations",
 "All sizes and any iteration count.",
 [CL+":Cluster::iterate_",CL+":Cluster::solveMasterEquation_",CL+":Cluster::getProbabilityOfOccupyingInternalSite"])
add("C38","Cluster: exit probabilities are a distribution over exactly the outside neighbours",
 "After the first update the ids reported by getSiteIdsNeighboringCluster are exactly the sites outside the cluster that some cluster site has a rate to, without repetition, and their hop probabilities are positive and sum to 1.",
 "every cluster with at least one exit",
 "All graphs.",
 [CL+":Cluster::calculateProbabilityHopToNeighbors_",CL+":Cluster::getSiteIdsNeighboringCluster"])
add("C39","Cluster: pickNewSiteId keeps the walker inside until its dwell time is used up, then releases it to a neighbour",
 "pickNewSiteId returns a site of the cluster when the walker's remaining dwell time is positive and a site outside the cluster, adjacent to it, otherwise; for every draw in [0,1).",
 "every cluster, every draw, every remaining time, every history of site additions and merges",
 "The distributions are rebuilt on every merge; tests check one cluster built once.",
 [CL+":Cluster::pickNewSiteId",CL+":Cluster::pickInternalSite_",CL+":Cluster::pickClusterNeighbor_"])
add("C40","Cluster: newly merged sites take part in sampling",
 "After sites are added to a cluster and its probabilities are updated, the sampled sites follow the updated probabilities: every site of the cluster can be picked, and no former neighbour that is now inside is picked as an exit.",
 "every cluster that is updated more than once",
 "Only visible after a second update.",
 [CL+":Cluster::calculateProbabilityHopToInternalSite_",CL+":Cluster::calculateProbabilityHopToNeighbors_"])
add("C41","Cluster: escape time constant",
 "The cluster's escape time constant is the mean time to leave: (sum over sites of p_i tau_i) divided by the per-hop probability of leaving, where p is the occupation probability and tau_i the site dwell time.",
 "every cluster with an exit",
 "Closed form for all clusters.",
 [CL+":Cluster::calculateEscapeTimeConstant_",CL+":Cluster::calculateProbabilityHopBetweenInternalSite_",CL+":Cluster::calculateProbabilityHopOffInternalSite_"])
add("C42","Cluster: removing a walker forgets it",
 "After a walker is removed, the cluster holds no dwell-time record for it, so a later walker with the same id starts with a freshly drawn dwell time.",
 "every history",
 "Requires removal in the middle of a cluster residence and re-use of the id.",
 [CL+":removeWalkerCluster_",CL+":Cluster::Cluster",TF+":removeWalker_"])
add("C43","Cluster: isOccupied() reflects occupancy",
 "A cluster reports isOccupied() exactly while at least one walker is on one of its sites.",
 "every sequence of occupy(site)/vacate(site) calls",
 "All histories.",
 [CL+":occupyCluster_",CL+":vacateCluster_",CC+":Cluster_Container::isOccupied"])
add("C44","Cluster: merging loses no site and no occupancy",
 "migrateSitesFrom moves every site of the source cluster, with its occupancy, into the target; afterwards the source is empty and the target holds exactly the union.",
 "every pair of disjoint clusters",
 "All sizes.",
 [CL+":Cluster::migrateSitesFrom",CL+":Cluster::addSites"])
add("C45","Coarse graining does not change reported visit counts",
 "Creating a cluster, adding sites to it, or merging two clusters leaves getVisitFrequencyOfSite of every site unchanged at that moment.",
 "every system state and every merge",
 "All histories.",
 [CL+":Cluster::getVisitFrequency",CL+":Cluster::setVisitFrequency",CL+":Cluster::migrateSitesFrom",SY+":CoarseGrainSystem::getVisitFrequencyOfSite"])
add("C46","Cluster: the master-equation iteration terminates",
 "With convergence by tolerance (tolerance > 0), updateProbabilitiesAndTimeConstant terminates on every connected cluster with positive rates and mutual internal links.",
 "every such cluster and every tolerance > 0",
 "Termination over all rate matrices.",
 [CL+":Cluster::solveMasterEquation_",CL+":Cluster::iterate_"])
add("C47","Cluster: occupation probabilities solve the master equation",
 "A distribution is left unchanged by the cluster's iteration exactly when it is the (quasi-)stationary distribution of hopping inside the cluster; on exit of the tolerance loop the last change is at most the tolerance.",
 "every cluster and distribution",
 "All matrices.",
 [CL+":Cluster::iterate_",CL+":Cluster::solveMasterEquation_"])
add("C48","Cluster creation: resolution and time increment limits",
 "When a cluster is created its resolution is at least 2 and its time increment is positive, at most half its escape time constant and at most the system's time resolution.",
 "every site set that passes the equilibrium test, every time resolution",
 "All parameter values.",
 [SY+":CoarseGrainSystem::createCluster_",SY+":CoarseGrainSystem::sitesSatisfyEquilibriumCondition_",CH+":Cluster::setResolution"])
add("C49","Basin search: result is a bounded connected set containing the start",
 "findBasin returns either the empty list or a duplicate-free list of at most the exploration limit of sites, containing the start site, each reachable from it through sites of the basin along existing rates; and it terminates.",
 "every rate graph, start site and order in which the graph visitor offers edges",
 "All graphs, all exploration orders.",
 [BA+":BasinExplorer::findBasin",BA+":BasinExplorer::addEdges_"])
add("C50","Basin search follows only fast enough rates",
 "Every site of the basin other than the start is entered through a rate that is at least 0.9999 times the slowest rate accepted before it (or passes the 0.95 ratio test), and the fastest rate out of the start site is always followed.",
 "every rate graph and start site",
 "All graphs.",
 [BA+":BasinExplorer::rateFastEnough_",BA+":BasinExplorer::addEdges_"])
add("C51","System: initialisation makes every mentioned site known",
 "initializeSystem throws unless the time resolution is set; otherwise afterwards the known sites are exactly the keys of the rate map and every neighbour it mentions, each unoccupied, unvisited and in no cluster.",
 "every rate map",
 "All graphs including drains.",
 [SY+":CoarseGrainSystem::initializeSystem"])
add("C52","System: random streams get distinct seeds",
 "When a seed is set, all sites with rates and all clusters created later are seeded with pairwise distinct values, determined by the seed.",
 "every rate map and every history",
 "All histories.",
 [SY+":CoarseGrainSystem::initializeSystem",SY+":CoarseGrainSystem::createCluster_",SY+":CoarseGrainSystem::setRandomSeed"])
add("C53","System: exclusion - no two walkers ever share a site",
 "If walkers are initialised on distinct sites before any hop, then after any sequence of hops and removals, with coarse graining on, no two walkers in the system are on the same site.",
 "every rate map, every history of hops/removals, every random draw, every coarse-graining decision",
 "Exclusion must survive every interleaving of hops with cluster creation and merging.",
 [SY+":CoarseGrainSystem::hop",SY+":CoarseGrainSystem::createCluster_",SY+":CoarseGrainSystem::mergeSitesAndClusters_",CL+":occupyCluster_",CL+":vacateCluster_"])
add("C54","System: a site is reported occupied exactly while a walker is on it",
 "In every reachable state, the occupancy flag consulted by hop for a site is set exactly when some walker in the system is on that site; a removed walker frees its site.",
 "every history",
 "All histories.",
 [SY+":CoarseGrainSystem::hop",SY+":CoarseGrainSystem::removeWalkerFromSystem",SY+":CoarseGrainSystem::initializeWalkers"])
add("C55","System: clusters partition the coarse-grained sites",
 "In every reachable state getClusters() lists disjoint clusters of at least two known sites each, and getClusterIdOfSite(s) = c exactly when s is listed in cluster c.",
 "every history",
 "All histories of creation and merging.",
 [SY+":CoarseGrainSystem::getClusters",SY+":CoarseGrainSystem::getClusterIdOfSite",SY+":CoarseGrainSystem::mergeSitesAndClusters_"])
add("C56","System: merging never strands a site",
 "Coarse graining never leaves a site attached to a cluster that no longer exists (no dangling cluster pointer), because a basin that passes the equilibrium test either contains a whole existing cluster or none of it (or lies inside one).",
 "every history with constant rates, every performance ratio",
 "Needs a partially overlapping basin, a property of all rate landscapes.",
 [SY+":CoarseGrainSystem::mergeSitesAndClusters_",SY+":CoarseGrainSystem::sitesSatisfyEquilibriumCondition_",SY+":CoarseGrainSystem::coarseGrain_"])
add("C57","System: coarse graining can be switched off",
 "After setMinCoarseGrainIterationThreshold(inf_iterations), no hop ever creates or changes a cluster, and hop never fails because of the iteration counter.",
 "every number of hops",
 "2^31 hops are out of reach of tests.",
 [SY+":CoarseGrainSystem::hop",SY+":CoarseGrainSystem::setMinCoarseGrainIterationThreshold"])
add("C58","System: coarse-graining attempts back off exponentially",
 "An attempt is made exactly when more hops than the current threshold have happened since the last attempt; a failed attempt doubles the threshold and a successful one resets it to the minimum; the doubling never overflows.",
 "every history and every threshold",
 "Long histories.",
 [SY+":CoarseGrainSystem::hop"])
add("C59","System: without clusters, visit counts add up",
 "While no cluster exists the sum over all sites of getVisitFrequencyOfSite equals the number of walkers initialised plus the number of hops performed.",
 "every history without coarse graining",
 "All histories.",
 [SY+":CoarseGrainSystem::hop",SY+":CoarseGrainSystem::getVisitFrequencyOfSite",TF+":occupyTopology_"])
add("C60","System: hop never has undefined behaviour on an initialised walker",
 "For a system with positive rates whose walkers were initialised by initializeWalkers, hop is well defined: the walker's next site is always a known site.",
 "every history, every draw",
 "All histories; drains are the corner case.",
 [SY+":CoarseGrainSystem::hop",SI+":Site::pickNewSiteId"])
add("C61","System: walkers may be initialised at any time",
 "initializeWalkers on a site that already belongs to a cluster marks that site occupied just as it does for a lone site.",
 "every system state",
 "Requires late initialisation after coarse graining.",
 [SY+":CoarseGrainSystem::initializeWalkers",TF+":occupyTopology_"])
add("C62","System: a blocked hop leaves the walker where it is and a free hop moves it to its potential site",
 "hop moves the walker to its potential site exactly when that site is not occupied, otherwise it stays; in both cases it receives a new dwell time and a new potential site, every other walker and every other site's occupancy is unchanged.",
 "every reachable state",
 "All states.",
 [SY+":CoarseGrainSystem::hop"])
add("C63","System: only sets of sites with an exit are coarse grained",
 "A cluster is only ever created from sites that have at least one rate leaving the set, and only if the escape time exceeds twice the internal traversal time times the performance ratio, and twice the traversal time is below the time resolution.",
 "every system state and basin",
 "All rate landscapes.",
 [SY+":CoarseGrainSystem::sitesSatisfyEquilibriumCondition_",SY+":CoarseGrainSystem::getTimeConstantFromSitesToNeighbors_",SY+":CoarseGrainSystem::coarseGrain_"])
add("C64","System: clusters are merged into the smallest cluster id",
 "When a basin touches existing clusters, the surviving cluster is the one with the smallest id among them, and cluster ids are never reused.",
 "every system state",
 "All maps and iteration orders.",
 [SY+":getFavoredClusterId",SC+":Site_Container::getSmallestClusterId",CL+":clusterIdCounter"])
add("C65","Site_Container / Cluster_Container behave like maps",
 "Any sequence of container operations behaves like a finite map from id to feature: adding an existing id throws and changes nothing, lookups of missing ids throw, updates touch only the named entry.",
 "every sequence of operations",
 "All histories.",
 [SC,CC])
add("C66","Marcus: the rate is the documented formula",
 "getRate returns 2 pi/h_bar * 1/sqrt(4 pi k_B T) * H^2 * exp(-(lambda + E_j - E_i)^2/(4 pi k_B T)), as the class documentation says, up to a relative error of 1e-9.",
 "every positive lambda and T, all energies and couplings",
 "Needs all real parameters, and the rounded constants have to be compared with the true ones.",
 [MA+":Marcus::getRate","CoarseGrainSites/include/mythical/charge_transport/marcus.hpp"])
add("C67","Cluster: the master equation is iterated as configured",
 "After an update the occupation probabilities are those of the averaged hopping iteration started from the uniform distribution: after exactly the configured number of rounds (times the number of sites, for the method per site), or after the first round whose change is at most the configured tolerance. The configuration is the last one set, or the documented default.",
 "every history of a cluster, all settings and rates",
 "The number of rounds shows only as a small numerical difference; all settings histories have to be considered.",
 [CL+":Cluster::solveMasterEquation_",CL+":Cluster::iterate_",CL+":Cluster::setConvergenceIterations",CL+":Cluster::setConvergenceTolerance"])
add("C68","Cluster: the occupation probabilities converge to the quasi-stationary distribution",
 "A connected cluster has exactly one distribution over its sites that is unchanged by a hop that stays inside; the occupation probabilities after an update come as close to it as desired with enough iterations or a small enough tolerance.",
 "every connected cluster with mutual positive rates, every accuracy",
 "A limit statement; no finite number of runs settles it.",
 [CL+":Cluster::solveMasterEquation_",CL+":Cluster::iterate_"])
add("C69","System: a hop returns",
 "In a system with positive rates that go both ways, a hop of a walker in the system returns: nothing is thrown, no assertion fails, no invalid pointer is followed and the convergence loop ends; the only exception is a counter that exceeds the range of int.",
 "every history of calls as documented, all draws, rates and coarse-graining decisions (performance ratio at least 1/2)",
 "Whether a call that has not returned yet will return, and whether some reachable state makes it fail, are not settled by finitely many runs.",
 [SY+":CoarseGrainSystem::hop",SY+":CoarseGrainSystem::coarseGrain_",SY+":createCluster_",SY+":mergeSitesAndClusters_",CL+":Cluster::solveMasterEquation_",CL+":Cluster::migrateSitesFrom"])
add("C70","Graph adapter: the traversal time is the longest shortest path inside the basin",
 "The graph handed to the graph library has one node per site and one edge per outgoing rate, weighted with the rate (search) or its inverse (traversal times); edges that leave the basin do not shorten any way between its sites; so the time used in the equilibrium condition is the longest of the shortest traversal times between two sites of the basin.",
 "every container, every list of sites, every history",
 "Needs all paths of all graphs, including those through edges that leave the basin.",
 ["CoarseGrainSites/src/libmythical/graph_library_adapter.hpp","CoarseGrainSites/src/libmythical/graph_library_adapter.cpp",SY+":getInternalTimeLimit_"])
TO="examples/ToF/ToF_example.cpp"
add("C71","Time-of-flight example: the rates are consistent Marcus rates",
 "calculateRates gives a positive rate in both directions for every pair of sites that the neighbour search lists and for no other, never from a site to itself; each is the Marcus rate for the distance and the energies in the field; the two directions obey detailed balance for the energies in the field; although every rate is written twice the result does not depend on the order in which the hash maps are gone through.",
 "every lattice, all site energies and constants, every iteration order",
 "All energies are real numbers, and the iteration order of hash maps is not under the control of a test.",
 [TO+":calculateRates",CU+":getNeighborDistances",MA+":Marcus::getRate"])
add("C72","System: the calls around the hops return",
 "In a system with positive rates, initializeWalkers returns exactly for walkers on known sites, removeWalkerFromSystem returns for every walker in the system, getVisitFrequencyOfSite returns for every known site and throws invalid_argument for any other, also after coarse graining; the only exception is a number that exceeds the range of int.",
 "every history of calls as documented, all draws and coarse-graining decisions (performance ratio at least 1/2)",
 "All reachable groupings of the sites into clusters.",
 [SY+":CoarseGrainSystem::initializeWalkers",SY+":CoarseGrainSystem::removeWalkerFromSystem",SY+":CoarseGrainSystem::getVisitFrequencyOfSite"])
add("C73","Time-of-flight example: the simulation runs and keeps its books",
 "The charges start on different sites of the first plane and the loops are entered exactly if some first dwell time is before the cutoff (else the assert ends the program; with more charges than sites in the plane it never gets there). From then on nothing is thrown and no call hangs. The queue holds exactly the charges that have not reached the last plane, ordered by time, charges_remain is their number, the others are in the last plane and out of the system; each hop is one of a charge with the earliest time and lies in the current sampling interval; time does not run backwards; samples are taken at the multiples of the interval; at the end no charge hops before the cutoff.",
 "every lattice, all rates that suit it (as calculateRates produces), all numbers of charges and constants, all random draws, every number of loop steps",
 "Long runs with all interleavings of hops, removals and coarse graining; whether a call returns.",
 [TO+":main",TO+":populateLattice",TO+":createQueue",SY+":CoarseGrainSystem::hop","CoarseGrainSites/src/libmythical/queue.cpp"])
add("C74","Time-of-flight example: the transient current accounts for the motion of the charges",
 "Every current recorded is a number, and at the end of each sampling interval the sum of the currents times interval and volume equals the charge times the distance that all charges have covered in the direction of the field.",
 "every lattice, all suitable rates, all constants and random draws, every number of samples",
 "An accounting identity over arbitrarily long runs.",
 [TO+":main"])
add("C75","System: settings are checked and stay in force",
 "setTimeResolution accepts exactly positive values and setRandomSeed exactly calls before any site is known; a refused call throws and changes nothing; getTimeResolution always returns the last accepted value and throws if there is none; the performance ratio in use is the last one given, 1 by default.",
 "every history of calls",
 "The settings have to survive every sequence of hops, coarse graining, merges and failed calls.",
 [SY+":CoarseGrainSystem::setTimeResolution",SY+":CoarseGrainSystem::getTimeResolution",SY+":CoarseGrainSystem::setRandomSeed"])
add("C76","Cluster: a converged cluster stands for the hopping inside it",
 "A walker that hops with the rates of the sites, starting with the stationary distribution of the cluster, leaves it with probability one after a finite mean time. The probabilities of hopping to a neighbour that a cluster reports, and after the first update the draws that it answers with a neighbour or a site, come as close as desired to the probabilities with which this walker leaves to the neighbour and to the share of the site in the time it spends in the cluster. This is so for this start only: for a walker that enters at a given site the probabilities are others.",
 "every connected cluster with mutual positive rates and an exit, every accuracy",
 "It compares the cluster with an infinite random process, in the limit.",
 [CL+":Cluster::calculateProbabilityHopToNeighbors_",CL+":Cluster::calculateProbabilityHopToInternalSite_",CL+":Cluster::pickNewSiteId"])
add("C77","System: without clusters the walkers perform the exclusion process given by the rates",
 "As long as no cluster exists and no attempt at coarse graining is due (or coarse graining is switched off), the hops of the walkers return and, for independent uniform draws, the sites and dwell times they produce have exactly the law of random walkers in continuous time with the rates of the user that block each other: the next site is drawn with the share of its rate, the dwell time is exponential with the sum of the rates out of the site, and a walker whose next site is taken stays where it is.",
 "every history of calls as documented that leads to such a state, every sequence of hops of any walkers in the system, every number of hops below 2^31",
 "It is a statement about the joint distribution of infinitely many possible runs.",
 [SY+":CoarseGrainSystem::hop",SI+":Site::pickNewSiteId","CoarseGrainSites/src/libmythical/topologyfeatures/topology_feature.cpp:getDwellTime"])
add("C78","System: the clock of every walker advances",
 "If every site has rates out of it that are at least r each and at most R together, the time resolutions set are at least T and the exponential draws at least e, then all dwell times handed out are positive and at least every second dwell time handed out for a walker id so far is at least d = min(e/R, (1/R)/max(2, R/(r*r*T))). So after n dwell times the clock of the walker has advanced by at least n*d/2, however the sites are coarse grained: the simulation cannot come to a standstill in time.",
 "every history of calls as documented with fixed positive rates, every walker id, every number of hops, sites, walkers and clusters",
 "A cluster hands out the remainder of a stay, which can be arbitrarily short, and merges change escape times and keep resolutions; tests see a few dwell times of a few clusters.",
 [CL+":Cluster::getDwellTime",CL+":calculateEscapeTimeConstant_",SY+":CoarseGrainSystem::hop",SY+":createCluster_"])
add("C79","Time-of-flight example: the simulation ends",
 "The time of a charge in the queue is always the sum of all dwell times it got. If the rates are at least r each and at most R together for each site and the exponential draws at least e, every charge makes at most 2(cutoff+dt)/d+1 hops, d = min(e/R, (1/R)/max(2, R/(r*r*dt))), and the loops are over after charges*(2(cutoff+dt)/d+1) + 2(cutoff/dt+1) + 1 steps, however the sites are coarse grained, unless a counter overflows.",
 "every lattice, all suitable rates, all constants and random draws with these bounds",
 "Termination for all inputs: a test sees a run that ended; the dwell times handed out by clusters can be arbitrarily short.",
 [TO+":main",TO+":createQueue",CL+":Cluster::getDwellTime"])
add("C80","Time-of-flight example: main ends with a file that tells what happened",
 "For constants that make sense and any site energies, main computes lattice and rates, runs and ends. The file has one row per sample: row i has the time dt*(i+1), the current made by the hops of all charges between dt*i and dt*(i+1), and the number of charges that had not arrived at the last plane before dt*(i+1); all hops lie before the time in the last row, and no charge is due before the cutoff time at the end. If the file cannot be opened main ends with runtime_error. (Other ends: the assert in createQueue, a counter that overflows.)",
 "all constants that make sense (among them those of the example), all site energies, all iteration orders of the maps, all draws bounded away from 0",
 "Relates the numbers in the file to the whole history of hops for every run; a test can only look at a few files.",
 [TO+":main",TO+":generateSiteEnergies",TO+":printTransientCurrent"])
add("C81","System: the counters do not overflow in histories of moderate length",
 "If every rate out of a site is at least r, the rates out of each site at most R together, thresholds are not negative, and with S arrivals of walkers on sites S*(R/r^2+3) <= 2*(2^31-1), at most 2^31-1 departures and cluster ids (two per hop) and fewer than 2^30 hops, then no call overflows an int or converts a number to int that does not fit. So hop, initializeWalkers and removeWalkerFromSystem return for proper arguments, and getVisitFrequencyOfSite returns for every known site. The dependence on the rates is real: the visits that a cluster passes on to its sites are multiplied by its time constant, so that in slow units of time two hops suffice to make getVisitFrequencyOfSite undefined.",
 "every history of calls with fixed positive rates and that many calls, every next call, every number of sites, walkers and clusters",
 "Overflow needs histories of up to 2^31 calls, and depends on how visits are distributed by all clusters ever created and merged.",
 [CL+":Cluster::getVisitFrequency",CL+":Cluster::migrateSitesFrom",SY+":CoarseGrainSystem::hop",SY+":createCluster_","CoarseGrainSites/src/libmythical/topologyfeatures/topology_feature.cpp:occupy"])
add("C82","Time-of-flight example: no counter overflows in runs of moderate length",
 "If every rate is at least r and the rates out of each site at most R together, the first n steps in the loops of main are made without overflow as long as (charges+n)*(R/r^2+3) <= 2*(2^31-1) and n < 2^30; with the step bound of C79 in place of n the program ends, with no charge due before the cutoff time, or by the assert in createQueue.",
 "all lattices, rates, constants and draws of C73 and C79, every such number of steps; for main all constants that make sense and all site energies",
 "Overflow shows only after up to 2^31 visits; the bound must follow the counters of all sites and clusters through every merge in every run.",
 [TO+":main",SY+":CoarseGrainSystem::hop",CL+":Cluster::migrateSitesFrom"])
add("C83","Cluster: a cluster without exits is out of service after its first update",
 "The first update of a cluster of two or more sites with mutual internal links succeeds even if no site of it has a rate to a site outside. Then it has no neighbours, its occupation probabilities are as in C37, and from then on, whatever is done with it and however the rates change, getDwellTime, pickNewSiteId, getVisitFrequency, setVisitFrequency and every further update fail an assertion, and no other cluster can be merged into it.",
 "every cluster without exits with positive rates and mutual internal links, every history after the first update",
 "The unit tests update two closed clusters and read their probabilities; no test makes a call that needs the time constant.",
 [CL+":calculateEscapeTimeConstant_",CL+":calculateProbabilityHopOffInternalSite_",CL+":Cluster::getDwellTime",CL+":Cluster::updateProbabilitiesAndTimeConstant"])
TE="CoarseGrainSites/src/tests/"
CR=TE+"performance/test_crude_vs_coarsegrain.cpp"
add("C84","Test programs: the numbering of the sites of a box is a bijection",
 "In the box of d*d*d sites of the programs under src/tests, Converter::to1D (both versions) gives every position a number below d^3 of its own and to3D (and x) is its inverse, without overflow, for 1 <= d <= 1290. From 1291 sites per axis on the program overflows an int before the first rate is computed. to1D does not notice negative coordinates: (-1,1,0) has the number of (d-1,0,0).",
 "every box size and every position and index",
 "No test calls the converter on its own; the programs use one box size.",
 [CR+":Converter::to1D",CR+":Converter::to3D",TE+"regression/test_ToF.cpp:Converter::x"])
add("C85","Test programs: the sites of a box are neighbours of each other",
 "The loops over the surroundings of a site find each site next to it (along axes and diagonals) once, and with each rate there is one for the way back.",
 "every box size up to 1290, every site, all energies and fields",
 "The comparisons of the programs use the same wrong loops on both sides, so that they agree.",
 [CR+":main (lines 139-181)",TE+"performance/test_crude_vs_coarsegrain_correlated.cpp:main",TE+"performance/test_coarsegrain_cluster_vs_nocluster.cpp:main",TE+"regression/test_ToF.cpp:main"])
add("C86","Test programs: the rates of a box obey detailed balance",
 "The rates of the two directions between neighbouring sites have the ratio of the Boltzmann factors of the energies of the sites in the field.",
 "every box size, all energies and fields, all pairs of sites with rates in both directions",
 "It is an equation between real numbers for all energies; the programs compare run times only.",
 [CR+":main (lines 120-184)",TE+"regression/test_ToF.cpp:main"])
add("C87","Crude Monte Carlo: the next site is chosen with the share of its rate",
 "The crude simulation that the performance programs compare the library with chooses the next site of a walker with the probability rate/sum of the rates out of the site.",
 "every box of 3 to 1290 sites per axis, all positive rates, every site, every order in which the hash map lists its entries",
 "The order of a hash map is not specified and differs between libraries; the programs compare run times only.",
 [CR+":main (lines 220-307, 343-366)",TE+"performance/test_crude_vs_coarsegrain_correlated.cpp:main"])
add("C88","Crude Monte Carlo: walkers exclude each other and are moved in the order of their times",
 "If enough different positions are drawn, every walker gets a site of its own. Then the simulation runs without exception or undefined behaviour for all random numbers (unless no walker is due before the cutoff, when an assertion fails): siteOccupied is always the set of the sites of the walkers, no two walkers share a site, in each round only the walker with the least time moves, to a free site along a rate, or stays, and its time grows by the time drawn for the site it is on then; no walker goes back in time. With no walkers the program has undefined behaviour; with more walkers than sites it does not end.",
 "every box of 3 to 1290 sites per axis, all positive rates, every number of walkers, all draws, every order of the entries of the hash map, every number of rounds",
 "Invariants of all reachable states of all runs.",
 [CR+":main (lines 186-212, 310-369)",TE+"performance/test_crude_vs_coarsegrain_correlated.cpp:main"])
add("C89","Cluster: the order of the hash maps and of ties in the sorts does not matter",
 "The iteration order of unordered_map is unspecified, and so is the order in which std::sort leaves equal elements. Let the hash maps of a cluster be put into any order before every public call, and let every call sort ties in its own way. Then a call succeeds in one such history if and only if it succeeds in the other, all results except the picked sites are the same, and so are the data members at the end, up to the order of maps and tables. The picked sites have the same law: for every site the draws that pick it are an interval of the same length in both. If ties are broken independently of the input order, the picked sites are the same too; with a stable sort they need not be.",
 "every cluster, every history of successful calls, every reordering of the maps before every call, every sort",
 "An implementation has one iteration order and one sort; no test can show that the results do not depend on them.",
 [CL+":updateProbabilitiesAndTimeConstant",CL+":solveMasterEquation_",CL+":calculateProbabilityHopToNeighbors_",CL+":calculateProbabilityHopToInternalSite_",CL+":migrateSitesFrom"])
add("C90","Site in double arithmetic: picks follow the rates up to rounding, and always name a neighbour",
 "If every operation is rounded with a relative error of at most eps (2^-53 for double), then after any history of rate updates with N positive rates pickNewSiteId returns a neighbour for every draw in [0,1), the draws that pick a given neighbour form an interval whose length is within 2(N+2)eps of the share of its rate, and the time constant is within a relative error 2(N+1)eps of the inverse sum of the rates.",
 "every rounding that is monotone, idempotent and of relative error eps, every history, every draw",
 "The unit tests compare a few picks with wide tolerances; no test draws a number next to 1.",
 [SI+":Site::pickNewSiteId",SI+":calculateProbabilityHopToNeighbors_",SI+":getSumOfRates_",SI+":calculateDwellTimeConstant_",SY+":initializeWalkers",SY+":hop"])
add("C91","Cluster in double arithmetic: picks and time constants follow the occupation probabilities up to rounding, and a pick always names a site",
 "If every operation is rounded with a relative error of at most eps, then on the first update, from the occupation probabilities on, the draws that pick a site inside (or a neighbour) form an interval whose length is within a multiple of eps of the share computed without rounding, every draw in [0,1) picks a site, and the escape time constant, the time increment and the internal time constant have a relative error of a multiple of eps; the multiples are linear in the numbers of sites and links.",
 "every rounding that is monotone, idempotent and of relative error eps, every cluster with rates and probabilities that are not negative, every draw",
 "The unit tests compare a few values of small clusters with wide tolerances; no test draws a number next to 1.",
 [CL+":calculateProbabilityHopToInternalSite_",CL+":calculateProbabilityHopToNeighbors_",CL+":calculateProbabilityHopOffInternalSite_",CL+":calculateProbabilityHopBetweenInternalSite_",CL+":calculateEscapeTimeConstant_",CL+":calculateInternalTimeConstant_",CL+":pickInternalSite_",CL+":pickClusterNeighbor_"])
add("C92","Cluster in double arithmetic: the iteration of the master equation never divides by zero and its occupation probabilities are positive and add up to 1 up to rounding",
 "If every operation is rounded with a relative error of at most eps, then for every cluster whose sites have positive rates, links both ways inside and at least one link inside each, every number of rounds of the iteration is defined, gives every site a positive occupation probability, and these add up to 1 up to a multiple of eps that is linear in the number of sites.",
 "every rounding that is monotone, idempotent and of relative error eps, every cluster of sites made by sequences of settings of positive rates, every number of rounds",
 "The unit tests use clusters whose rates are of similar size; the loss of digits in the subtraction shows for rates inside that are small against the rates to the exits.",
 [CL+":iterate_",CL+":initializeProbabilityOnSites_",CL+":solveMasterEquation_"])
add("C93","Cluster in double arithmetic: every stay of a walker ends, with the time drawn up to rounding",
 "If every operation is rounded with a relative error of at most eps, then in every history of handouts and picks of any walkers: every time handed out is positive and at most the time increment; a walker is released when the times handed out add up to the time drawn, up to the part n eps for n handouts; no assertion fails; and every stay ends.",
 "every rounding that is monotone, idempotent and of relative error eps, every cluster with a positive time constant and increment, every history of calls about any walkers with positive draws",
 "The unit tests follow single walkers through a few handouts and compare with exact sums; the resolution is small there.",
 [CL+":getDwellTime",CL+":pickNewSiteId",CL+":hopWithinCluster_",TF+":getDwellTime"])
add("C94","Time-of-flight example in double arithmetic: clocks, samples, file and end of the loops",
 "If every operation is rounded with a relative error of at most eps, then: the loops never fail, the times popped never go down and every charge is in the queue or left, once; the time of a charge is its first time and the dwell times of its k hops added up, up to the part 2(k+1) eps; the time in row i of the file is to the last bit the end of the interval over which sample i was taken, and dt(i+1) up to the part 2(i+1) eps; the current in the row is that of the hops in the interval and of the charges still there, up to the part 12 eps; and the loops end.",
 "every rounding that is monotone, idempotent and of relative error eps, every queue in order, all results of all hops with dwell times that are not negative, every number of steps",
 "The example is a program without assertions on its output; it is run with one seed, one sample increment and one cutoff time.",
 [TO+":main",TO+":printTransientCurrent"])
add("C95","Cuboid in double arithmetic: neighbour lists are right up to rounding, symmetric, and exact at whole steps",
 "If every operation and the square root are rounded with a relative error of at most eps, then: getNeighbors returns under the conditions of C20 on the computed number of steps; every site it lists has an image within cutoff/(1-2eps), and the listed distance is right up to the part 4 eps; every other site with an image within cutoff/(1+4eps) is listed; j is listed for i exactly when i is listed for j; and in double arithmetic with a correctly rounded root a site at a whole number k of steps is listed whenever k times the spacing, taken exactly, is at most the cutoff.",
 "every lattice, site and cutoff, every rounding that is monotone, idempotent and of relative error eps, every increasing square root of that error",
 "The unit tests use spacing 1 and cutoffs at which all distances are exact.",
 [CU+":Cuboid::getNeighbors",CU+":Cuboid::getNeighborDistances_",CU+":Cuboid::getDistance_"])
add("C96","System: the unit of time does not matter",
 "Two histories of the same calls, the second with all rates divided by k and all times and dwell times multiplied by k (for any k > 0), go through the same states: the same walkers are on the same sites and pick the same sites to hop to, the same clusters are formed and merged, all probabilities are the same, every dwell time of the second is k times that of the first, and every call gives the same answer.",
 "every k > 0, every history of calls with any rates, walkers, seeds and draws",
 "The tests fix the unit of each rate once; no test runs a simulation twice in two units and compares.",
 [SY+":hop",SY+":coarseGrainSiteIfNeeded_",SY+":getVisitFrequencyOfSite",CL+":getVisitFrequency",CL+":calculateEscapeTimeConstant_"])
add("C97","Cluster in double arithmetic: the occupation probabilities and the shares of the draws are those of the rates, up to rounding",
 "If every operation is rounded with a relative error of at most eps, then for every cluster of N sites with at most d neighbours each, made from positive rates of which the part theta at least leads to sites of the cluster: after n rounds every occupation probability differs from that of n rounds without rounding, on the rates themselves, by at most the part 1800 2^n (4d+N+3) eps/theta of it (as long as this is at most 1); the update as a whole is defined; and the draws that send a walker to a site inside, or to an exit when it leaves, form an interval whose length differs from the share computed from the rates without rounding by at most 3600 2^n (4d+N+3) eps/theta and a multiple of eps linear in the number of links.",
 "every rounding that is monotone, idempotent and of relative error eps, every cluster of sites made by sequences of settings of positive rates, links both ways inside, every number of rounds within the bound",
 "The unit tests compare occupation probabilities of two or three clusters of a few sites with a tolerance.",
 [CL+":iterate_",CL+":initializeProbabilityOnSites_",CL+":calculateProbabilityHopToInternalSite_",CL+":calculateProbabilityHopToNeighbors_",CL+":updateProbabilitiesAndTimeConstant",CL+":pickNewSiteId"])
add("C98","Marcus in double arithmetic: rates and detailed balance are right up to rounding, and in order",
 "If every operation and constant is rounded with a relative error of at most eps and exp, pow(x,2) and pow(x,0.5) of the library have a relative error of at most eps, then for every positive reorganisation energy and temperature the rate differs from the Marcus rate by at most the part 2(16+21 M^2/(4 lambda k_B T)) eps of it, where M is the sum of the moduli of the three energies; the ratio of the rates of the two directions differs from the Boltzmann factor by at most twice that part; the rate is not negative and is zero only if the coupling is; and in the normal region a higher target or a lower start never has the larger rate.",
 "every rounding that is monotone, idempotent and of relative error eps, all real energies and couplings, every positive temperature and reorganisation energy (as long as the part is at most 1)",
 "The unit test of Marcus compares a few rates with each other.",
 [MA+":Marcus::Marcus",MA+":Marcus::getRate"])
add("C99","Time-of-flight rates in double arithmetic: the right pairs, right up to rounding, balanced, and alike in every order",
 "With rounding after every operation, calculateRates of the time-of-flight example returns whenever the search of the lattice does, in whatever order the hash maps are gone through. The search is symmetric, lists no pair of a site with itself, lists every pair found by the exact search with the cutoff less two roundings and none beyond the cutoff plus two roundings. There is a positive rate exactly for the listed pairs. Each rate differs from the Marcus rate for the distance of the sites and the change of the energy of the charge in the field by at most the part 2t of it, where t = (20 + 14|alpha|r + 34 M^2/(4 lambda k_B T)) eps and M is the sum of the moduli of lambda, the two site energies and the step of the potential; the ratio of the rates of the two directions differs from the Boltzmann factor by at most the part 4t; and the rates of two orders differ by at most the part 4t, though they need not be equal.",
 "every rounding that is monotone, idempotent and of relative error eps <= 1/100, every exponential, square and root of relative error eps, all lattices, energies and parameters with positive lambda and temperature and coupling not zero, every order of the hash maps (as long as the part is at most 1)",
 "The example is not tested; its result depends on the hash order only in the last digits, which no comparison of outputs explains.",
 [TO+":calculateRates",CU+":Cuboid::getNeighborDistances",MA+":Marcus::getRate"])
add("C100","The range of double does not matter for rates, distances and energies of moderate size",
 "Take any arithmetic that rounds like double where results are normal numbers and does anything on results that are too small or too large, and library functions that are accurate where their results are normal numbers. If the rates named in calls on a site lie between 2^-500 and 2^500 and are at most 2^20, the site ends in the same state as without bounds on the exponents and picks the same sites with the same dwell times, so the probabilities and time constant are right up to rounding. The neighbour searches of Cuboid return the same if spacing and cutoff lie between 2^-500 and 2^500. Marcus rates with exponents of at most 600 are right up to the part 25232 eps, vanish only without coupling, and are in detailed balance up to the part 50464 eps. The rates of the time-of-flight example, with constants and energies of moderate size and exponents of at most 590, are defined exactly for the pairs found, positive, right up to the part 40720 eps, in detailed balance up to 81440 eps, and the same in every order of the maps up to 81440 eps.",
 "every arithmetic that agrees with rounding to 53 bits on results between 2^-1022 and 2^1023, every exponential, square and root of relative error eps (2^-53 <= eps <= 10^-5) there, every history of calls on a site, every lattice, all energies and parameters within the ranges stated",
 "Whether some intermediate result of the computation underflows depends on all inputs together; tests use a few inputs of ordinary size.",
 [SI+":setRatesToNeighbors",SI+":calculateProbabilitiesHopToNeighbors_",SI+":pickNewSiteId",CU+":Cuboid::getDistance_",CU+":Cuboid::getNeighborDistances",MA+":Marcus::getRate",TO+":calculateRates"])
add("C101","Basin search: the threshold is without effect, the count is the limit, and the order of the edges shows",
 "If all rates are positive, the basin found is the same for all values given to BasinExplorer::setThreshold from 0 on. After setMaxExplorationCount(n) with n at least 0 a basin has at most n sites (one if n is 0), and an empty result means that more than n sites can be reached along rates. After a negative n the result always contains the start site, as long as the sites have fewer than 2^63 - 1 neighbours together. With the same sites and rates, two orders of the edges in the hash table can give two different basins that are both non-empty.",
 "all thresholds >= 0, all int counts, all sites and rates, every order of edges, every start site; for the last sentence two concrete orders",
 "The unit tests of the explorer never call the setters with different values on the same sites, and each standard library fixes one order.",
 [BA+":setThreshold",BA+":setMaxExplorationCount",BA+":rateFastEnough_",BA+":findBasin"])
add("C102","Walkers say what they were told last",
 "After occupySite(i) on a walker, getIdOfSiteCurrentlyOccupying returns i until the walker is told another site, hops or is created anew; the same holds for setPotentialSite and getPotentialSite and for setDwellTime and getDwellTime, until the walker is initialised as well. Asking throws exactly if i is the number kept for unassigned ids. A new walker throws when asked for its site or its aim and has the dwell time -1. No call for another walker, no coarse graining, no initialisation of the system and no removal changes this.",
 "every history of calls on a system and its walkers, with any rates, draws and coarse-graining decisions, from any state",
 "Tests of Walker set and read back at once; that nothing in the system writes to a walker in between quantifies over all histories.",
 ["CoarseGrainSites/include/mythical/walker.hpp:occupySite","CoarseGrainSites/include/mythical/walker.hpp:setPotentialSite","CoarseGrainSites/include/mythical/walker.hpp:setDwellTime",WA+":getIdOfSiteCurrentlyOccupying",WA+":getPotentialSite"])
add("C103","Site: what it reports about its neighbours is what it was given",
 "After any calls of setRatesToNeighbors, addNeighRate and resetNeighRate on a new site that return, and whatever the rate variables hold by then: getNeighborSiteIds lists each site for which a rate was given once and no other; isNeighbor is true for exactly these; getRateToNeighbor returns the current value of the variable given last for the neighbour and fails its assertion for any other site, as does getProbabilityOfHoppingToNeighboringSite; getRateToNeighbors lists the current values in the order of getNeighborSiteIds; getFastestRate is an upper bound for them, at least 0, and one of them if it is positive.",
 "every sequence of calls that returns, every content of the rate variables at each call and at the query, every site id",
 "The unit tests query a site after one call with the rates unchanged; agreement of all queries after any history is a statement about infinitely many inputs.",
 ["CoarseGrainSites/src/libmythical/topologyfeatures/site.cpp:getRateToNeighbors","CoarseGrainSites/src/libmythical/topologyfeatures/site.cpp:getRateToNeighbor","CoarseGrainSites/src/libmythical/topologyfeatures/site.cpp:getFastestRate","CoarseGrainSites/src/libmythical/topologyfeatures/site.cpp:getNeighborSiteIds","CoarseGrainSites/src/libmythical/topologyfeatures/site.hpp:isNeighbor"])
add("C104","Site: the order of the hash map makes no difference",
 "Two executions of the same calls of setRatesToNeighbors, addNeighRate and resetNeighRate on a new site, with any orders of iteration of the map of neighbours and of the maps given, changing before every call, lead to sites that report the same time constant, the same dwell time and the same choice for equal draws, the same probabilities, rates and fastest rate, and the same neighbours up to order. A further call succeeds on both or fails on both in the same way. (The comparator of the set of probabilities orders them by id, so that the table walked through by pickNewSiteId does not depend on the order of insertion.)",
 "every sequence of calls, every content of the rate variables at each call, every pair of orders before every call, all draws",
 "A standard library fixes one order; that no order can be observed quantifies over all of them.",
 [SI+":setRatesToNeighbors",SI+":calculateProbabilityHopToNeighbors_",SI+":pickNewSiteId",SI+":CustomComparitor"])
add("C105","System: without clusters a walker alone goes round loops as often one way as the other",
 "Suppose the rates are in detailed balance for some weights of the sites, one walker is in the system, no cluster exists and no coarse graining becomes due. Then for independent uniform draws the probability of hopping along a path (with dwell times longer than given ones on the sites) and that of hopping along it backwards differ only by the weights of the two ends and the mean stays on them; along a closed path both directions are equally probable. In the time-of-flight example the rates of the sites in the system are at every moment in detailed balance for the Boltzmann weights of the energies in the field.",
 "every system and history up to the first coarse graining, all weights, all paths of all lengths, all dwell times, all draws; every lattice, every energies and parameters, every run and number of steps of the example",
 "A statement about probabilities of all paths; a run follows one path.",
 [SY+":hop",SI+":pickNewSiteId",SI+":getDwellTime",TO+":calculateRates",MA+":getRate"])
add("C106","Test programs: two of them place another walker than the one they hand over",
 "The toy program that compares runs with and without clusters (performance/test_coarsegrain_cluster_vs_nocluster_toy.cpp) and the time-of-flight simulation among the regression tests (regression/test_ToF.cpp) put a local walker on the starting site and hand a new, unplaced walker to the system. So with at least one walker neither reaches its hops, whatever the arguments and the draws: for proper arguments initializeWalkers throws at the first walker. Without walkers the toy program ends without a cluster, and the other one reads the first entry of an empty list.",
 "all arguments, all orders of the hash maps, all draws, every number of walkers; all box sizes and energies",
 "The programs are themselves tests; that they end with an uncaught exception for every argument is not something another test checks.",
 [TE+"performance/test_coarsegrain_cluster_vs_nocluster_toy.cpp:main",TE+"regression/test_ToF.cpp:main",SY+":initializeWalkers",WA+":getIdOfSiteCurrentlyOccupying"])
add("C107","Test programs: the rates on the line are between neighbours and follow Boltzmann's law",
 "In regression/test_1Dsystem.cpp every site of the line should have positive rates to the sites next to it and to no others, and the rates there and back should be in the ratio that Boltzmann's law gives for the energies in the field, so that the electron stays longer in the traps.",
 "all lengths of the line that fit an int, all fields, all pairs of sites",
 "The program computes the rates for one length and one field and never compares them with anything.",
 [TE+"regression/test_1Dsystem.cpp:main"])
add("C108","Test programs: the sampled current on the line is the displacement in the sampling interval",
 "In the loops of regression/test_1Dsystem.cpp no entry outside of the vector of currents is written, the entries of a repetition add up to the distance travelled, the mean printed is the distance travelled by all per cutoff time and repetition, and entry k of each repetition is the displacement by the hops in its sampling interval k.",
 "all hops and dwell times, all cutoff times, sampling rates and lengths, every number of repetitions",
 "The program prints a mean and a deviation of one run and compares them with nothing.",
 [TE+"regression/test_1Dsystem.cpp:main"])
add("C109","Test programs: correlated energies fade towards the seeds with the distance",
 "The correlation of the energies in performance/test_crude_vs_coarsegrain_correlated.cpp stays inside the vector of energies, sets the energies of the seeds to zero, lets no energy grow or change its sign, does not depend on the order of the seeds, and takes from a site at distance r of a seed the part exp(-r/3) of its energy, for r up to 4.5.",
 "all boxes that fit into int, all energies, all seeds",
 "The program runs one random landscape and prints only two widths; no test looks at a single energy.",
 [TE+"performance/test_crude_vs_coarsegrain_correlated.cpp:main"])
add("C110","Test programs: the width of the distribution of energies is one",
 "The bins that performance/test_crude_vs_coarsegrain_correlated.cpp sorts the energies into hold each energy once, and the width computed from them is a number of the same unit that no shift of all energies changes, never negative, and is taken at half of the maximum.",
 "all lists of energies",
 "The width is printed before and after the correlation and compared with nothing.",
 [TE+"performance/test_crude_vs_coarsegrain_correlated.cpp:main"])
add("C111","Test programs: the run without coarse graining makes no clusters, and both runs keep time",
 "performance/test_coarsegrain_cluster_vs_nocluster.cpp simulates walkers in a box first without and then with coarse graining. In both runs the list of walkers always has one entry for each walker and is in order, the time of a walker is the sum of the dwell times it got, all but the last of which ended before the cutoff, no two walkers are on the same site, and the loop ends with every time past the cutoff, after a number of rounds bounded by the rates, the draws and the cutoff. The first run fails its assertion exactly if no walker leaves its first site before the cutoff; otherwise it makes no cluster, so that its exception is never thrown, and the second starts as the first did.",
 "all box sizes from 3 that fit an int, all energies, all random positions, all draws and choices in the hops, all thresholds, cutoffs and sampling rates, every number of rounds",
 "The program looks at one random run; that no run can make a cluster without coarse graining, and that the loops end, are statements about all of them.",
 [TE+"performance/test_coarsegrain_cluster_vs_nocluster.cpp:main",SY+":hop",SY+":setMinCoarseGrainIterationThreshold",SY+":initializeWalkers"])
add("C112","Test programs: the crude and the coarse-grained simulation are comparable",
 "The crude and the coarse-grained simulation of performance/test_crude_vs_coarsegrain.cpp and test_crude_vs_coarsegrain_correlated.cpp begin with the walkers on the same sites. Both end with the walkers on different sites of the box and none of them due before the cutoff, and in the coarse-grained one the time of a walker is the sum of the dwell times it got.",
 "all box sizes from 3 that fit an int, all positive rates, all random positions, all draws and choices in the hops, all thresholds and cutoffs, every number of rounds",
 "The programs measure the times that the simulations take and compare nothing else.",
 [TE+"performance/test_crude_vs_coarsegrain.cpp:main",TE+"performance/test_crude_vs_coarsegrain_correlated.cpp:main"])
add("C113","Escape test: every electron escapes and the books are right",
 "In both blocks of performance/test_kmc_coarsegrainsystem.cpp that return, each electron starts on one of the sites 1 to 5, in turn, and stops as soon as it is on one of the sites 6 to 14; hopsToSites, timeOnSites and escapeTimes hold the numbers of hops to each site, the dwell times after these hops, and the sum of these dwell times for each electron. The block without coarse graining does not fail, and it ends without clusters and without electrons in the system.",
 "all orders of the maps of rates, all draws and choices in the hops, all performance ratios, thresholds, numbers of electrons and of hops; the block without coarse graining for numbers of calls that fit an int",
 "The program writes to the three vectors and never reads them; it runs with one seed.",
 [TE+"performance/test_kmc_coarsegrainsystem.cpp:main"])
add("C114","Escape test: rates go both ways along the connections",
 "In the map of rates of performance/test_kmc_coarsegrainsystem.cpp each of the sites 1 to 5 has rates to and from exactly the sites with which the picture in the comments connects it, and all rates listed are used.",
 "all pairs of sites",
 "Nothing checks the map; a rate to a wrong site changes the results only.",
 [TE+"performance/test_kmc_coarsegrainsystem.cpp:main"])
add("C115","Escape test: the escape time is the time on the five sites",
 "escapeTimes in performance/test_kmc_coarsegrainsystem.cpp holds for each electron the time it spent on the sites 1 to 5 (the escape time from the cluster).",
 "all maps of rates, all draws and choices in the hops, all electrons, both blocks",
 "The times are stored and never read.",
 [TE+"performance/test_kmc_coarsegrainsystem.cpp:main"])
add("C116","Test programs: the simulation with coarse graining runs through",
 "The simulation with coarse graining of performance/test_coarsegrain_cluster_vs_nocluster.cpp, which is also that of test_crude_vs_coarsegrain.cpp and test_crude_vs_coarsegrain_correlated.cpp, makes any number of rounds without an exception, a failed assertion of the library, undefined behaviour or a call that goes on for ever, and it ends, unless no walker hops before the cutoff or a counter overflows. No counter overflows in runs of moderate length.",
 "all positive rates on all sets of sites, all walkers on different sites, all draws and choices in the hops, all seeds, thresholds, cutoffs and sampling rates, every number of rounds",
 "Each program is run with one seed and one set of parameters, which are given on the command line.",
 [TE+"performance/test_coarsegrain_cluster_vs_nocluster.cpp:main",TE+"performance/test_crude_vs_coarsegrain.cpp:main",SY+":hop"])
add("C117","Escape test: the one cluster has the five sites",
 "In the block with coarse graining of performance/test_kmc_coarsegrainsystem.cpp (performance ratio 0.2) there is after each call either no cluster or just one, whose sites are 1 to 5, the sites that the program counts as the cluster; so the exception \"no clusters were identified\", which is thrown if the number of clusters is not 1, is thrown just if there is no cluster, and otherwise the cluster is the intended one.",
 "all orders of the maps of rates, all draws and choices in the hops, all thresholds, numbers of electrons and of hops, and all performance ratios of 0.2 and more, if the times from the graph library cover those of ways in the basins",
 "The program checks the number of clusters only, not their sites, after one run with one seed; the rates in it have basins of 2 and of 5 sites, and which one is searched depends on the draws.",
 [TE+"performance/test_kmc_coarsegrainsystem.cpp:main",BA+":findBasin",SY+":coarseGrain_"])
add("C118","Merging test: the two clusters are found and merged",
 "In unit/test_coarsegrainsystem2.cpp no clusters are made in the block without coarse graining, and in the block with it the clusters are after each call none, the sites 6 and 10, the sites 7 and 11, both pairs, or one cluster of the four sites (\"Two clusters should be found they should then be merged\"); whenever they end up merged, the checks at the end of the test pass.",
 "all orders of the maps of rates, all draws and choices in the hops, all times from the graph library, all thresholds, all numbers of hops, all numbers of clusters made before in the process",
 "The test runs once with one seed; when all unit tests are run as one program, the ids of its clusters depend on the tests that ran before.",
 [TE+"unit/test_coarsegrainsystem2.cpp:TEST_CASE",SY+":mergeSitesAndClusters_",SY+":coarseGrain_",CL+":Cluster"])
add("C119","Merging test: the books of the electron",
 "When a block of unit/test_coarsegrainsystem2.cpp is over, hops_made_to_sites holds the number of hops to each site, hop_count the number of hops, time the sum of the dwell times after them, which has just reached the limit of 1000, and time_spent_on_sites the time spent on each site after a hop to it.",
 "all maps of rates, all draws and choices in the hops, all times from the graph library, all thresholds, all numbers of hops",
 "The sums over these vectors are formed but nothing is checked of them.",
 [TE+"unit/test_coarsegrainsystem2.cpp:TEST_CASE"])
add("C120","Merging test: a block runs through",
 "A block of unit/test_coarsegrainsystem2.cpp makes its hops without an exception, an index out of range, a failed assertion of the library, an endless call or undefined behaviour other than the overflow of a counter, and if the exponential draws are bounded below its loop reaches the limit of 1000 in a number of hops that depends on the bound only.",
 "all orders of the entries of the maps of rates, all draws and choices in the hops, all times from the graph library that are those of paths in the basin, all thresholds, all values of the id counter, all numbers of hops",
 "A run of the test has one sequence of random numbers per block.",
 [TE+"unit/test_coarsegrainsystem2.cpp:TEST_CASE"])
add("C121","Merging test: what it can fail by",
 "If the exponential draws are bounded below, unit/test_coarsegrainsystem2.cpp comes to an end. Unless a counter overflows it passes if its second block ends with one cluster of four sites with the id 0, throws from clusters.at(0) if that cluster has another id, and fails by an assertion if there is no single cluster of four sites; it fails in no other way, in particular not in the block without coarse graining.",
 "all orders of the entries of the maps of rates in both blocks, all draws and choices in the hops, all times from the graph library that are those of paths in the basin, all thresholds of the second block, all values of the id counter at the start",
 "The test has one outcome per run; which other outcomes it could have had is not seen from it.",
 [TE+"unit/test_coarsegrainsystem2.cpp:TEST_CASE"])
if __name__=="__main__":
    out=os.path.join(os.path.dirname(os.path.dirname(os.path.abspath(__file__))),"properties.jsonl")
    with open(out,"w") as f:
        for p in P: f.write(json.dumps(p,ensure_ascii=False)+"\n")
    print(len(P))
