{"id": "C01", "title": "Queue: isSorted() never lies", "statement": "After any sequence of add, sortedAdd, sort and pop_current calls on a fresh Queue, whenever isSorted() returns true the entries at(0), at(1), ... are in non-decreasing order of time.", "quantifier": "every finite sequence of queue operations, every walker id and time, every tie-breaking choice std::sort may make", "why_tests_cant": "The flag is maintained separately from the data; tests only look at a few fixed sequences of three elements.", "anchors": ["CoarseGrainSites/src/libmythical/queue.cpp:Queue::add", "CoarseGrainSites/src/libmythical/queue.cpp:Queue::sortedAdd", "CoarseGrainSites/src/libmythical/queue.cpp:Queue::sort", "CoarseGrainSites/src/libmythical/queue.cpp:Queue::pop_current", "CoarseGrainSites/src/libmythical/queue.cpp:Queue::isSorted"]}
{"id": "C02", "title": "Queue: no walker is lost, duplicated or altered", "statement": "After any sequence of queue operations, the entries popped so far together with the entries still in the queue are, as a multiset, exactly the entries that were added, and size() is the number added minus the number popped.", "quantifier": "every finite sequence of queue operations and every implementation of std::sort that permutes its input", "why_tests_cant": "Conservation has to hold over all histories; a test samples a handful.", "anchors": ["CoarseGrainSites/src/libmythical/queue.cpp:Queue::add", "CoarseGrainSites/src/libmythical/queue.cpp:Queue::sortedAdd", "CoarseGrainSites/src/libmythical/queue.cpp:Queue::sort", "CoarseGrainSites/src/libmythical/queue.cpp:Queue::pop_current", "CoarseGrainSites/src/libmythical/queue.cpp:Queue::size"]}
{"id": "C03", "title": "Queue: pop_current returns the earliest event", "statement": "If isSorted() is true and the queue is not empty, pop_current returns an entry whose time is not larger than the time of any entry left in the queue; popping a sorted queue until it is empty returns all entries in non-decreasing time order.", "quantifier": "every reachable sorted queue of every size", "why_tests_cant": "Requires every queue length and every time assignment.", "anchors": ["CoarseGrainSites/src/libmythical/queue.cpp:Queue::pop_current", "CoarseGrainSites/src/libmythical/queue.cpp:Queue::sort"]}
{"id": "C04", "title": "Queue: sortedAdd is stable", "statement": "On a sorted queue, sortedAdd places the new entry after every entry with a time less than or equal to its own and before every entry with a strictly larger time, and leaves the relative order of the old entries unchanged; so among equal times walkers are served first-in-first-out.", "quantifier": "every sorted queue and every new entry", "why_tests_cant": "Tie behaviour depends on all prefixes of the queue.", "anchors": ["CoarseGrainSites/src/libmythical/queue.cpp:Queue::sortedAdd", "CoarseGrainSites/src/libmythical/queue.cpp:Comparator"]}
{"id": "C05", "title": "Event loop: simulated time never runs backwards", "statement": "In the KMC loop of the documentation (pop_current the earliest walker, hop it, re-insert it with sortedAdd at popped time plus its new non-negative dwell time, or drop it) started from a sorted queue, the sequence of popped times is non-decreasing, the queue stays sorted, and every walker that is never dropped stays in the queue exactly once.", "quantifier": "every initial queue, every sequence of non-negative dwell times and drop decisions, every number of iterations", "why_tests_cant": "Time monotonicity is a property of unbounded executions.", "anchors": ["CoarseGrainSites/src/libmythical/queue.cpp:Queue", "examples/ToF/ToF_example.cpp:main"]}
{"id": "C06", "title": "Queue: out-of-contract accesses", "statement": "pop_current on an empty queue is undefined behaviour (no check is made) and is the only queue operation that can be undefined; at(i) returns the i-th entry exactly for 0 <= i < size() and throws std::out_of_range for every other int, including negative ones.", "quantifier": "every queue and every int index", "why_tests_cant": "All ints, all sizes.", "anchors": ["CoarseGrainSites/src/libmythical/queue.cpp:Queue::pop_current", "CoarseGrainSites/src/libmythical/queue.cpp:Queue::at"]}
{"id": "C07", "title": "Cuboid: index and position are inverse bijections", "statement": "For every lattice whose site count fits in int, getIndex and getPosition are inverse bijections between in-bounds positions and indices 0..total-1: getPosition(getIndex(x,y,z)) = (x,y,z) and getIndex(getPosition(i)) = i, whatever the boundary settings.", "quantifier": "every lattice size, boundary setting, in-bounds position and index", "why_tests_cant": "Integer division identities for all dimensions; tests use two lattices.", "anchors": ["CoarseGrainSites/src/libmythical/charge_transport/cuboid_lattice.cpp:Cuboid::getIndex", "CoarseGrainSites/src/libmythical/charge_transport/cuboid_lattice.cpp:Cuboid::getPosition", "CoarseGrainSites/src/libmythical/charge_transport/cuboid_lattice.cpp:Cuboid::getIndex_", "CoarseGrainSites/src/libmythical/charge_transport/cuboid_lattice.cpp:Cuboid::getPos_"]}
{"id": "C08", "title": "Cuboid: getX/getY/getZ agree with getPosition", "statement": "For every int index, getX, getY and getZ return exactly the three components of getPosition(index), and throw exactly when getPosition throws.", "quantifier": "every lattice and every int index, valid or not", "why_tests_cant": "All ints.", "anchors": ["CoarseGrainSites/src/libmythical/charge_transport/cuboid_lattice.cpp:Cuboid::getX", "CoarseGrainSites/src/libmythical/charge_transport/cuboid_lattice.cpp:Cuboid::getY", "CoarseGrainSites/src/libmythical/charge_transport/cuboid_lattice.cpp:Cuboid::getZ"]}
{"id": "C09", "title": "Cuboid: Fixed boundaries are enforced by getIndex", "statement": "With all boundaries Fixed, getIndex(x,y,z) throws std::invalid_argument exactly when some coordinate is outside [0,dim), and otherwise returns a value in [0,total).", "quantifier": "every lattice, every triple of ints", "why_tests_cant": "All ints.", "anchors": ["CoarseGrainSites/src/libmythical/charge_transport/cuboid_lattice.cpp:Cuboid::getIndex", "CoarseGrainSites/src/libmythical/charge_transport/cuboid_lattice.cpp:Cuboid::checkPosX_", "CoarseGrainSites/src/libmythical/charge_transport/cuboid_lattice.cpp:Cuboid::checkPosY_", "CoarseGrainSites/src/libmythical/charge_transport/cuboid_lattice.cpp:Cuboid::checkPosZ_"]}
{"id": "C10", "title": "Cuboid: Periodic getIndex wraps coordinates", "statement": "With Periodic boundaries getIndex(x,y,z) equals getIndex of the coordinates reduced modulo the dimensions, for every int coordinate; in particular the result is always in [0,total).", "quantifier": "every periodic lattice, every triple of ints", "why_tests_cant": "All ints; the wrap-around of very negative coordinates is never tested.", "anchors": ["CoarseGrainSites/src/libmythical/charge_transport/cuboid_lattice.cpp:Cuboid::getIndex", "CoarseGrainSites/src/libmythical/charge_transport/cuboid_lattice.cpp:Cuboid::getXPeriodic_", "CoarseGrainSites/src/libmythical/charge_transport/cuboid_lattice.cpp:Cuboid::getYPeriodic_", "CoarseGrainSites/src/libmythical/charge_transport/cuboid_lattice.cpp:Cuboid::getZPeriodic_"]}
{"id": "C11", "title": "Cuboid: invalid indices are rejected", "statement": "getPosition, getX, getY, getZ, getNeighbors and getSmallestDistance throw std::invalid_argument for every index outside [0,total).", "quantifier": "every lattice and every int index", "why_tests_cant": "All ints.", "anchors": ["CoarseGrainSites/src/libmythical/charge_transport/cuboid_lattice.cpp:Cuboid::getPosition", "CoarseGrainSites/src/libmythical/charge_transport/cuboid_lattice.cpp:Cuboid::checkIndex_"]}
{"id": "C12", "title": "Cuboid: getRandomSite stays on the requested plane", "statement": "For every plane and every in-range plane index, getRandomSite never throws and returns a valid index whose coordinate along the plane normal is plane_index, and every site of that plane can be returned; for an out-of-range plane index with Fixed boundaries it throws.", "quantifier": "every lattice, plane, plane index and random draw allowed by the distributions", "why_tests_cant": "Depends on all draws and on the relation of the three dimensions.", "anchors": ["CoarseGrainSites/src/libmythical/charge_transport/cuboid_lattice.cpp:Cuboid::getRandomSite", "CoarseGrainSites/src/libmythical/charge_transport/cuboid_lattice.cpp:Cuboid::setDistributions_"]}
{"id": "C13", "title": "Cuboid: getNeighbors is exactly the cutoff ball", "statement": "Whenever getNeighbors(i,cutoff) returns, it lists exactly the sites j != i that have a periodic image (images only along Periodic axes) within Euclidean distance cutoff of i.", "quantifier": "every lattice, spacing > 0, cutoff >= 0, valid index, boundary setting", "why_tests_cant": "Quantifies over all lattices and cutoffs; involves real arithmetic (floor, sqrt).", "anchors": ["CoarseGrainSites/src/libmythical/charge_transport/cuboid_lattice.cpp:Cuboid::getNeighbors", "CoarseGrainSites/src/libmythical/charge_transport/cuboid_lattice.cpp:Cuboid::getDistance_"]}
{"id": "C14", "title": "Cuboid: neighbour lists are well formed", "statement": "Every index returned by getNeighbors, getNeighborDistances(index) and getNeighborDistances(position) is in [0,total) and different from the queried site, for every boundary setting and cutoff for which the call returns.", "quantifier": "every lattice, index, cutoff, boundary setting", "why_tests_cant": "All sizes.", "anchors": ["CoarseGrainSites/src/libmythical/charge_transport/cuboid_lattice.cpp:Cuboid::getNeighbors", "CoarseGrainSites/src/libmythical/charge_transport/cuboid_lattice.cpp:Cuboid::getNeighborDistances_"]}
{"id": "C15", "title": "Cuboid: neighbourhood is symmetric", "statement": "Whenever both calls return, j is in getNeighbors(i,c) if and only if i is in getNeighbors(j,c).", "quantifier": "every lattice, boundary setting, cutoff and pair of sites", "why_tests_cant": "All pairs in all lattices.", "anchors": ["CoarseGrainSites/src/libmythical/charge_transport/cuboid_lattice.cpp:Cuboid::getNeighbors"]}
{"id": "C16", "title": "Cuboid: no duplicate neighbours", "statement": "getNeighbors(i,c) lists no site twice.", "quantifier": "every lattice, boundary setting, cutoff and site", "why_tests_cant": "Periodic images of the same site must be merged for every size/cutoff ratio.", "anchors": ["CoarseGrainSites/src/libmythical/charge_transport/cuboid_lattice.cpp:Cuboid::getNeighbors"]}
{"id": "C17", "title": "Cuboid: getNeighborDistances agrees with getNeighbors and reports true distances", "statement": "The ids listed by getNeighborDistances(i,c) are, in order, those listed by getNeighbors(i,c); each reported distance is the distance from i to an image of that neighbour and is at most c; with Fixed boundaries it is the Euclidean distance; querying by position and by index gives the same answer.", "quantifier": "every lattice, index, cutoff", "why_tests_cant": "All lattices.", "anchors": ["CoarseGrainSites/src/libmythical/charge_transport/cuboid_lattice.cpp:Cuboid::getNeighborDistances_", "CoarseGrainSites/src/libmythical/charge_transport/cuboid_lattice.cpp:Cuboid::getNeighborDistances", "CoarseGrainSites/src/libmythical/charge_transport/cuboid_lattice.cpp:Cuboid::getNeighbors"]}
{"id": "C18", "title": "Cuboid: whole-lattice getNeighborDistances agrees with the per-site query", "statement": "getNeighborDistances(cutoff)[i][j] exists exactly when j is in getNeighbors(i,cutoff), it is symmetric in i and j, and holds the distance between them.", "quantifier": "every lattice, cutoff and pair of sites", "why_tests_cant": "All pairs; diagonal pairs are never tested.", "anchors": ["CoarseGrainSites/src/libmythical/charge_transport/cuboid_lattice.cpp:Cuboid::getNeighborDistances"]}
{"id": "C19", "title": "Cuboid: getSmallestDistance is the minimum-image metric", "statement": "getSmallestDistance(i,j) is zero exactly when i = j, symmetric, satisfies the triangle inequality and equals the smallest distance between i and any periodic image of j.", "quantifier": "every lattice, boundary setting and pair (triple) of sites", "why_tests_cant": "All triples in all lattices.", "anchors": ["CoarseGrainSites/src/libmythical/charge_transport/cuboid_lattice.cpp:Cuboid::getSmallestDistance"]}
{"id": "C20", "title": "Cuboid: no undefined behaviour inside the documented domain", "statement": "If the site count fits in int and every dimension is positive, then construction, getIndex (coordinates above -dim), getPosition, getX/Y/Z on any non-negative int perform no signed overflow, division by zero or invalid distribution; the exact cutoff/spacing limit for getNeighbors and the exact distance limit for getSmallestDistance are stated.", "quantifier": "every lattice and argument in range", "why_tests_cant": "Overflow needs huge lattices, out of reach of tests.", "anchors": ["CoarseGrainSites/src/libmythical/charge_transport/cuboid_lattice.cpp"]}
{"id": "C21", "title": "Cuboid: construction validates dimensions", "statement": "The constructor throws std::invalid_argument exactly when some dimension is negative, and every constructed lattice can be queried without undefined behaviour.", "quantifier": "every triple of ints", "why_tests_cant": "All ints, including zero and products that overflow.", "anchors": ["CoarseGrainSites/src/libmythical/charge_transport/cuboid_lattice.cpp:Cuboid::Cuboid", "CoarseGrainSites/src/libmythical/charge_transport/cuboid_lattice.cpp:Cuboid::checkBounds_", "CoarseGrainSites/src/libmythical/charge_transport/cuboid_lattice.cpp:Cuboid::setDistributions_"]}
{"id": "C22", "title": "Marcus: rates are finite, non-negative, and zero only without coupling", "statement": "For reorganisation energy > 0 and temperature > 0, getRate is >= 0 for all energies and couplings and is 0 exactly when the coupling is 0; it is even and quadratic in the coupling.", "quantifier": "all real energies, couplings, lambda > 0, T > 0", "why_tests_cant": "Continuum of inputs.", "anchors": ["CoarseGrainSites/src/libmythical/charge_transport/marcus.cpp:Marcus::getRate", "CoarseGrainSites/src/libmythical/charge_transport/marcus.cpp:Marcus::Marcus"]}
{"id": "C23", "title": "Marcus: detailed balance", "statement": "For all energies, getRate(E_i,E_j,H) / getRate(E_j,E_i,H) = exp(-(E_j-E_i)/(k_B T)), so simulations relax to the Boltzmann distribution.", "quantifier": "all real energies, couplings H != 0, lambda > 0, T > 0", "why_tests_cant": "Continuum of inputs.", "anchors": ["CoarseGrainSites/src/libmythical/charge_transport/marcus.cpp:Marcus::getRate"]}
{"id": "C24", "title": "Marcus: depends only on the energy difference and peaks at E_i - E_j = lambda", "statement": "getRate is invariant under shifting both energies, is maximal exactly when E_i - E_j = lambda, strictly increases with driving force up to lambda (normal region) and strictly decreases beyond (inverted region).", "quantifier": "all real energies, couplings H != 0, lambda > 0, T > 0", "why_tests_cant": "Continuum of inputs.", "anchors": ["CoarseGrainSites/src/libmythical/charge_transport/marcus.cpp:Marcus::getRate"]}
{"id": "C25", "title": "Rate_Container: addRate never overwrites", "statement": "addRate throws std::invalid_argument exactly when a rate for that ordered pair is already stored, leaving the container unchanged; otherwise afterwards exactly that one pair has been added and getRate returns the given pointer.", "quantifier": "every container state and every (site, neighbour, pointer)", "why_tests_cant": "All histories.", "anchors": ["CoarseGrainSites/src/libmythical/rate_container.cpp:Rate_Container::addRate", "CoarseGrainSites/src/libmythical/rate_container.cpp:Rate_Container::getRate"]}
{"id": "C26", "title": "Rate_Container: getRate throws for rates that were never added", "statement": "getRate(i,j) throws std::invalid_argument whenever no rate from i to j has been added, and never changes what other queries report.", "quantifier": "every container history and every pair", "why_tests_cant": "The wrong answer appears only for sites that already have other rates or after an earlier failed query.", "anchors": ["CoarseGrainSites/src/libmythical/rate_container.cpp:Rate_Container::getRate"]}
{"id": "C27", "title": "Rate_Container: queries do not change the container", "statement": "incomingRateCount, outgoingRateCount, getIncomingRates, getOutgoingRates, getSourceSiteIds and getSinkSiteIds leave every later answer unchanged.", "quantifier": "every container history and interleaving of queries", "why_tests_cant": "Needs all interleavings; tests call each query once.", "anchors": ["CoarseGrainSites/src/libmythical/rate_container.cpp:Rate_Container::outgoingRateCount", "CoarseGrainSites/src/libmythical/rate_container.cpp:Rate_Container::getSinkSiteIds"]}
{"id": "C28", "title": "Rate_Container: sources, sinks and counts mean what they say", "statement": "getSourceSiteIds lists exactly the sites with an outgoing but no incoming rate, getSinkSiteIds exactly those with an incoming but no outgoing rate, without repetition; incomingRateCount(i)/outgoingRateCount(i) are the numbers of stored rates into/out of i; getIncomingRates/getOutgoingRates return exactly those rates.", "quantifier": "every container built by addRate calls", "why_tests_cant": "All graphs.", "anchors": ["CoarseGrainSites/src/libmythical/rate_container.cpp:Rate_Container::getSourceSiteIds", "CoarseGrainSites/src/libmythical/rate_container.cpp:Rate_Container::getSinkSiteIds", "CoarseGrainSites/src/libmythical/rate_container.cpp:Rate_Container::incomingRateCount", "CoarseGrainSites/src/libmythical/rate_container.cpp:Rate_Container::getIncomingRates"]}
{"id": "C29", "title": "Rate_Container: addRates is all-or-nothing", "statement": "addRates either adds every rate of its argument or throws and leaves the container unchanged.", "quantifier": "every container and every argument map", "why_tests_cant": "Failure atomicity for every position of the duplicate.", "anchors": ["CoarseGrainSites/src/libmythical/rate_container.cpp:Rate_Container::addRates"]}
{"id": "C30", "title": "Site: hop probabilities are the normalised rates", "statement": "After any sequence of setRatesToNeighbors, addNeighRate and resetNeighRate that leaves all rates positive, the site's hop probabilities list every neighbour exactly once, each equal to rate/(sum of rates), all in (0,1], summing to 1.", "quantifier": "every sequence of rate updates, every number of neighbours, all positive rates", "why_tests_cant": "The probabilities pass through a std::set with a lossy comparator; every set of rates matters.", "anchors": ["CoarseGrainSites/src/libmythical/topologyfeatures/site.cpp:Site::calculateProbabilityHopToNeighbors_", "CoarseGrainSites/src/libmythical/topologyfeatures/site.cpp:CustomComparitor", "CoarseGrainSites/src/libmythical/topologyfeatures/site.cpp:Site::getProbabilityOfHoppingToNeighboringSite"]}
{"id": "C31", "title": "Site: pickNewSiteId always returns a neighbour", "statement": "For every draw in [0,1), pickNewSiteId on a site with at least one neighbour and positive rates returns the id of one of its neighbours, never -1.", "quantifier": "every site with positive rates and every random draw", "why_tests_cant": "All draws including those arbitrarily near 1.", "anchors": ["CoarseGrainSites/src/libmythical/topologyfeatures/site.cpp:Site::pickNewSiteId"]}
{"id": "C32", "title": "Site: a neighbour is chosen with probability proportional to its rate", "statement": "The set of draws in [0,1) for which pickNewSiteId returns j is an interval of length rate(j)/(sum of rates).", "quantifier": "every site with positive rates and every neighbour", "why_tests_cant": "Statistical tests sample; this is the exact law.", "anchors": ["CoarseGrainSites/src/libmythical/topologyfeatures/site.cpp:Site::pickNewSiteId"]}
{"id": "C33", "title": "Site: dwell times are exponentially distributed with the total escape rate", "statement": "For a site with positive rates the dwell time is positive for every draw in (0,1), and the probability that it exceeds t is exp(-t * sum of rates).", "quantifier": "every site, every t >= 0, every draw", "why_tests_cant": "Exact law over a continuum of draws.", "anchors": ["CoarseGrainSites/src/libmythical/topologyfeatures/topology_feature.cpp:TopologyFeature::getDwellTime", "CoarseGrainSites/src/libmythical/topologyfeatures/site.cpp:Site::calculateDwellTimeConstant_"]}
{"id": "C34", "title": "Site: changing a rate in place is seen consistently", "statement": "Rates are held by pointer so that the user may change them in place: after the user changes a rate, the site's reported rates, hop probabilities and time constant all reflect the new value.", "quantifier": "every site and every in-place change of a rate", "why_tests_cant": "Needs all interleavings of updates and reads.", "anchors": ["CoarseGrainSites/src/libmythical/topologyfeatures/site.cpp:Site::getRateToNeighbor", "CoarseGrainSites/src/libmythical/topologyfeatures/site.cpp:Site::getProbabilityOfHoppingToNeighboringSite"]}
{"id": "C35", "title": "Cluster: the time a walker spends in a cluster is conserved", "statement": "The dwell times handed out by successive getDwellTime/pickNewSiteId pairs for one walker, from its arrival in a cluster until pickNewSiteId releases it to an outside site, add up exactly to the single dwell time drawn on arrival.", "quantifier": "every drawn dwell time > 0, every time increment > 0, any interleaving with other walkers", "why_tests_cant": "The number of steps is unbounded.", "anchors": ["CoarseGrainSites/src/libmythical/topologyfeatures/cluster.cpp:Cluster::getDwellTime", "CoarseGrainSites/src/libmythical/topologyfeatures/cluster.cpp:Cluster::pickNewSiteId", "CoarseGrainSites/src/libmythical/topologyfeatures/cluster.cpp:Cluster::hopWithinCluster_"]}
{"id": "C36", "title": "Cluster: every increment is positive and bounded, and residence ends", "statement": "Each dwell time handed out by a cluster is positive and at most the cluster's time increment; the walker is released after exactly ceil(drawn dwell time / time increment) calls.", "quantifier": "every drawn dwell time > 0 and every time increment > 0", "why_tests_cant": "Unbounded number of steps.", "anchors": ["CoarseGrainSites/src/libmythical/topologyfeatures/cluster.cpp:Cluster::getDwellTime", "CoarseGrainSites/src/libmythical/topologyfeatures/cluster.cpp:Cluster::hopWithinCluster_"]}
{"id": "C37", "title": "Cluster: occupation probabilities are a probability distribution", "statement": "After updateProbabilitiesAndTimeConstant on a cluster of two or more sites with positive rates and mutual internal links, the occupation probabilities of its sites are positive and sum to 1, whatever convergence method is configured.", "quantifier": "every such cluster, every number of iterations", "why_tests_cant": "All sizes and any iteration count.", "anchors": ["CoarseGrainSites/src/libmythical/topologyfeatures/cluster.cpp:Cluster::iterate_", "CoarseGrainSites/src/libmythical/topologyfeatures/cluster.cpp:Cluster::solveMasterEquation_", "CoarseGrainSites/src/libmythical/topologyfeatures/cluster.cpp:Cluster::getProbabilityOfOccupyingInternalSite"]}
{"id": "C38", "title": "Cluster: exit probabilities are a distribution over exactly the outside neighbours", "statement": "After the first update the ids reported by getSiteIdsNeighboringCluster are exactly the sites outside the cluster that some cluster site has a rate to, without repetition, and their hop probabilities are positive and sum to 1.", "quantifier": "every cluster with at least one exit", "why_tests_cant": "All graphs.", "anchors": ["CoarseGrainSites/src/libmythical/topologyfeatures/cluster.cpp:Cluster::calculateProbabilityHopToNeighbors_", "CoarseGrainSites/src/libmythical/topologyfeatures/cluster.cpp:Cluster::getSiteIdsNeighboringCluster"]}
{"id": "C39", "title": "Cluster: pickNewSiteId keeps the walker inside until its dwell time is used up, then releases it to a neighbour", "statement": "pickNewSiteId returns a site of the cluster when the walker's remaining dwell time is positive and a site outside the cluster, adjacent to it, otherwise; for every draw in [0,1).", "quantifier": "every cluster, every draw, every remaining time, every history of site additions and merges", "why_tests_cant": "The distributions are rebuilt on every merge; tests check one cluster built once.", "anchors": ["CoarseGrainSites/src/libmythical/topologyfeatures/cluster.cpp:Cluster::pickNewSiteId", "CoarseGrainSites/src/libmythical/topologyfeatures/cluster.cpp:Cluster::pickInternalSite_", "CoarseGrainSites/src/libmythical/topologyfeatures/cluster.cpp:Cluster::pickClusterNeighbor_"]}
{"id": "C40", "title": "Cluster: newly merged sites take part in sampling", "statement": "After sites are added to a cluster and its probabilities are updated, the sampled sites follow the updated probabilities: every site of the cluster can be picked, and no former neighbour that is now inside is picked as an exit.", "quantifier": "every cluster that is updated more than once", "why_tests_cant": "Only visible after a second update.", "anchors": ["CoarseGrainSites/src/libmythical/topologyfeatures/cluster.cpp:Cluster::calculateProbabilityHopToInternalSite_", "CoarseGrainSites/src/libmythical/topologyfeatures/cluster.cpp:Cluster::calculateProbabilityHopToNeighbors_"]}
{"id": "C41", "title": "Cluster: escape time constant", "statement": "The cluster's escape time constant is the mean time to leave: (sum over sites of p_i tau_i) divided by the per-hop probability of leaving, where p is the occupation probability and tau_i the site dwell time.", "quantifier": "every cluster with an exit", "why_tests_cant": "Closed form for all clusters.", "anchors": ["CoarseGrainSites/src/libmythical/topologyfeatures/cluster.cpp:Cluster::calculateEscapeTimeConstant_", "CoarseGrainSites/src/libmythical/topologyfeatures/cluster.cpp:Cluster::calculateProbabilityHopBetweenInternalSite_", "CoarseGrainSites/src/libmythical/topologyfeatures/cluster.cpp:Cluster::calculateProbabilityHopOffInternalSite_"]}
{"id": "C42", "title": "Cluster: removing a walker forgets it", "statement": "After a walker is removed, the cluster holds no dwell-time record for it, so a later walker with the same id starts with a freshly drawn dwell time.", "quantifier": "every history", "why_tests_cant": "Requires removal in the middle of a cluster residence and re-use of the id.", "anchors": ["CoarseGrainSites/src/libmythical/topologyfeatures/cluster.cpp:removeWalkerCluster_", "CoarseGrainSites/src/libmythical/topologyfeatures/cluster.cpp:Cluster::Cluster", "CoarseGrainSites/src/libmythical/topologyfeatures/topology_feature.cpp:removeWalker_"]}
{"id": "C43", "title": "Cluster: isOccupied() reflects occupancy", "statement": "A cluster reports isOccupied() exactly while at least one walker is on one of its sites.", "quantifier": "every sequence of occupy(site)/vacate(site) calls", "why_tests_cant": "All histories.", "anchors": ["CoarseGrainSites/src/libmythical/topologyfeatures/cluster.cpp:occupyCluster_", "CoarseGrainSites/src/libmythical/topologyfeatures/cluster.cpp:vacateCluster_", "CoarseGrainSites/src/libmythical/cluster_container.cpp:Cluster_Container::isOccupied"]}
{"id": "C44", "title": "Cluster: merging loses no site and no occupancy", "statement": "migrateSitesFrom moves every site of the source cluster, with its occupancy, into the target; afterwards the source is empty and the target holds exactly the union.", "quantifier": "every pair of disjoint clusters", "why_tests_cant": "All sizes.", "anchors": ["CoarseGrainSites/src/libmythical/topologyfeatures/cluster.cpp:Cluster::migrateSitesFrom", "CoarseGrainSites/src/libmythical/topologyfeatures/cluster.cpp:Cluster::addSites"]}
{"id": "C45", "title": "Coarse graining does not change reported visit counts", "statement": "Creating a cluster, adding sites to it, or merging two clusters leaves getVisitFrequencyOfSite of every site unchanged at that moment.", "quantifier": "every system state and every merge", "why_tests_cant": "All histories.", "anchors": ["CoarseGrainSites/src/libmythical/topologyfeatures/cluster.cpp:Cluster::getVisitFrequency", "CoarseGrainSites/src/libmythical/topologyfeatures/cluster.cpp:Cluster::setVisitFrequency", "CoarseGrainSites/src/libmythical/topologyfeatures/cluster.cpp:Cluster::migrateSitesFrom", "CoarseGrainSites/src/libmythical/coarsegrainsystem.cpp:CoarseGrainSystem::getVisitFrequencyOfSite"]}
{"id": "C46", "title": "Cluster: the master-equation iteration terminates", "statement": "With convergence by tolerance (tolerance > 0), updateProbabilitiesAndTimeConstant terminates on every connected cluster with positive rates and mutual internal links.", "quantifier": "every such cluster and every tolerance > 0", "why_tests_cant": "Termination over all rate matrices.", "anchors": ["CoarseGrainSites/src/libmythical/topologyfeatures/cluster.cpp:Cluster::solveMasterEquation_", "CoarseGrainSites/src/libmythical/topologyfeatures/cluster.cpp:Cluster::iterate_"]}
{"id": "C47", "title": "Cluster: occupation probabilities solve the master equation", "statement": "A distribution is left unchanged by the cluster's iteration exactly when it is the (quasi-)stationary distribution of hopping inside the cluster; on exit of the tolerance loop the last change is at most the tolerance.", "quantifier": "every cluster and distribution", "why_tests_cant": "All matrices.", "anchors": ["CoarseGrainSites/src/libmythical/topologyfeatures/cluster.cpp:Cluster::iterate_", "CoarseGrainSites/src/libmythical/topologyfeatures/cluster.cpp:Cluster::solveMasterEquation_"]}
{"id": "C48", "title": "Cluster creation: resolution and time increment limits", "statement": "When a cluster is created its resolution is at least 2 and its time increment is positive, at most half its escape time constant and at most the system's time resolution.", "quantifier": "every site set that passes the equilibrium test, every time resolution", "why_tests_cant": "All parameter values.", "anchors": ["CoarseGrainSites/src/libmythical/coarsegrainsystem.cpp:CoarseGrainSystem::createCluster_", "CoarseGrainSites/src/libmythical/coarsegrainsystem.cpp:CoarseGrainSystem::sitesSatisfyEquilibriumCondition_", "CoarseGrainSites/src/libmythical/topologyfeatures/cluster.hpp:Cluster::setResolution"]}
{"id": "C49", "title": "Basin search: result is a bounded connected set containing the start", "statement": "findBasin returns either the empty list or a duplicate-free list of at most the exploration limit of sites, containing the start site, each reachable from it through sites of the basin along existing rates; and it terminates.", "quantifier": "every rate graph, start site and order in which the graph visitor offers edges", "why_tests_cant": "All graphs, all exploration orders.", "anchors": ["CoarseGrainSites/src/libmythical/basin_explorer.cpp:BasinExplorer::findBasin", "CoarseGrainSites/src/libmythical/basin_explorer.cpp:BasinExplorer::addEdges_"]}
{"id": "C50", "title": "Basin search follows only fast enough rates", "statement": "Every site of the basin other than the start is entered through a rate that is at least 0.9999 times the slowest rate accepted before it (or passes the 0.95 ratio test), and the fastest rate out of the start site is always followed.", "quantifier": "every rate graph and start site", "why_tests_cant": "All graphs.", "anchors": ["CoarseGrainSites/src/libmythical/basin_explorer.cpp:BasinExplorer::rateFastEnough_", "CoarseGrainSites/src/libmythical/basin_explorer.cpp:BasinExplorer::addEdges_"]}
{"id": "C51", "title": "System: initialisation makes every mentioned site known", "statement": "initializeSystem throws unless the time resolution is set; otherwise afterwards the known sites are exactly the keys of the rate map and every neighbour it mentions, each unoccupied, unvisited and in no cluster.", "quantifier": "every rate map", "why_tests_cant": "All graphs including drains.", "anchors": ["CoarseGrainSites/src/libmythical/coarsegrainsystem.cpp:CoarseGrainSystem::initializeSystem"]}
{"id": "C52", "title": "System: random streams get distinct seeds", "statement": "When a seed is set, all sites with rates and all clusters created later are seeded with pairwise distinct values, determined by the seed.", "quantifier": "every rate map and every history", "why_tests_cant": "All histories.", "anchors": ["CoarseGrainSites/src/libmythical/coarsegrainsystem.cpp:CoarseGrainSystem::initializeSystem", "CoarseGrainSites/src/libmythical/coarsegrainsystem.cpp:CoarseGrainSystem::createCluster_", "CoarseGrainSites/src/libmythical/coarsegrainsystem.cpp:CoarseGrainSystem::setRandomSeed"]}
{"id": "C53", "title": "System: exclusion - no two walkers ever share a site", "statement": "If walkers are initialised on distinct sites before any hop, then after any sequence of hops and removals, with coarse graining on, no two walkers in the system are on the same site.", "quantifier": "every rate map, every history of hops/removals, every random draw, every coarse-graining decision", "why_tests_cant": "Exclusion must survive every interleaving of hops with cluster creation and merging.", "anchors": ["CoarseGrainSites/src/libmythical/coarsegrainsystem.cpp:CoarseGrainSystem::hop", "CoarseGrainSites/src/libmythical/coarsegrainsystem.cpp:CoarseGrainSystem::createCluster_", "CoarseGrainSites/src/libmythical/coarsegrainsystem.cpp:CoarseGrainSystem::mergeSitesAndClusters_", "CoarseGrainSites/src/libmythical/topologyfeatures/cluster.cpp:occupyCluster_", "CoarseGrainSites/src/libmythical/topologyfeatures/cluster.cpp:vacateCluster_"]}
{"id": "C54", "title": "System: a site is reported occupied exactly while a walker is on it", "statement": "In every reachable state, the occupancy flag consulted by hop for a site is set exactly when some walker in the system is on that site; a removed walker frees its site.", "quantifier": "every history", "why_tests_cant": "All histories.", "anchors": ["CoarseGrainSites/src/libmythical/coarsegrainsystem.cpp:CoarseGrainSystem::hop", "CoarseGrainSites/src/libmythical/coarsegrainsystem.cpp:CoarseGrainSystem::removeWalkerFromSystem", "CoarseGrainSites/src/libmythical/coarsegrainsystem.cpp:CoarseGrainSystem::initializeWalkers"]}
{"id": "C55", "title": "System: clusters partition the coarse-grained sites", "statement": "In every reachable state getClusters() lists disjoint clusters of at least two known sites each, and getClusterIdOfSite(s) = c exactly when s is listed in cluster c.", "quantifier": "every history", "why_tests_cant": "All histories of creation and merging.", "anchors": ["CoarseGrainSites/src/libmythical/coarsegrainsystem.cpp:CoarseGrainSystem::getClusters", "CoarseGrainSites/src/libmythical/coarsegrainsystem.cpp:CoarseGrainSystem::getClusterIdOfSite", "CoarseGrainSites/src/libmythical/coarsegrainsystem.cpp:CoarseGrainSystem::mergeSitesAndClusters_"]}
{"id": "C56", "title": "System: merging never strands a site", "statement": "Coarse graining never leaves a site attached to a cluster that no longer exists (no dangling cluster pointer), because a basin that passes the equilibrium test either contains a whole existing cluster or none of it (or lies inside one).", "quantifier": "every history with constant rates, every performance ratio", "why_tests_cant": "Needs a partially overlapping basin, a property of all rate landscapes.", "anchors": ["CoarseGrainSites/src/libmythical/coarsegrainsystem.cpp:CoarseGrainSystem::mergeSitesAndClusters_", "CoarseGrainSites/src/libmythical/coarsegrainsystem.cpp:CoarseGrainSystem::sitesSatisfyEquilibriumCondition_", "CoarseGrainSites/src/libmythical/coarsegrainsystem.cpp:CoarseGrainSystem::coarseGrain_"]}
{"id": "C57", "title": "System: coarse graining can be switched off", "statement": "After setMinCoarseGrainIterationThreshold(inf_iterations), no hop ever creates or changes a cluster, and hop never fails because of the iteration counter.", "quantifier": "every number of hops", "why_tests_cant": "2^31 hops are out of reach of tests.", "anchors": ["CoarseGrainSites/src/libmythical/coarsegrainsystem.cpp:CoarseGrainSystem::hop", "CoarseGrainSites/src/libmythical/coarsegrainsystem.cpp:CoarseGrainSystem::setMinCoarseGrainIterationThreshold"]}
{"id": "C58", "title": "System: coarse-graining attempts back off exponentially", "statement": "An attempt is made exactly when more hops than the current threshold have happened since the last attempt; a failed attempt doubles the threshold and a successful one resets it to the minimum; the doubling never overflows.", "quantifier": "every history and every threshold", "why_tests_cant": "Long histories.", "anchors": ["CoarseGrainSites/src/libmythical/coarsegrainsystem.cpp:CoarseGrainSystem::hop"]}
{"id": "C59", "title": "System: without clusters, visit counts add up", "statement": "While no cluster exists the sum over all sites of getVisitFrequencyOfSite equals the number of walkers initialised plus the number of hops performed.", "quantifier": "every history without coarse graining", "why_tests_cant": "All histories.", "anchors": ["CoarseGrainSites/src/libmythical/coarsegrainsystem.cpp:CoarseGrainSystem::hop", "CoarseGrainSites/src/libmythical/coarsegrainsystem.cpp:CoarseGrainSystem::getVisitFrequencyOfSite", "CoarseGrainSites/src/libmythical/topologyfeatures/topology_feature.cpp:occupyTopology_"]}
{"id": "C60", "title": "System: hop never has undefined behaviour on an initialised walker", "statement": "For a system with positive rates whose walkers were initialised by initializeWalkers, hop is well defined: the walker's next site is always a known site.", "quantifier": "every history, every draw", "why_tests_cant": "All histories; drains are the corner case.", "anchors": ["CoarseGrainSites/src/libmythical/coarsegrainsystem.cpp:CoarseGrainSystem::hop", "CoarseGrainSites/src/libmythical/topologyfeatures/site.cpp:Site::pickNewSiteId"]}
{"id": "C61", "title": "System: walkers may be initialised at any time", "statement": "initializeWalkers on a site that already belongs to a cluster marks that site occupied just as it does for a lone site.", "quantifier": "every system state", "why_tests_cant": "Requires late initialisation after coarse graining.", "anchors": ["CoarseGrainSites/src/libmythical/coarsegrainsystem.cpp:CoarseGrainSystem::initializeWalkers", "CoarseGrainSites/src/libmythical/topologyfeatures/topology_feature.cpp:occupyTopology_"]}
{"id": "C62", "title": "System: a blocked hop leaves the walker where it is and a free hop moves it to its potential site", "statement": "hop moves the walker to its potential site exactly when that site is not occupied, otherwise it stays; in both cases it receives a new dwell time and a new potential site, every other walker and every other site's occupancy is unchanged.", "quantifier": "every reachable state", "why_tests_cant": "All states.", "anchors": ["CoarseGrainSites/src/libmythical/coarsegrainsystem.cpp:CoarseGrainSystem::hop"]}
{"id": "C63", "title": "System: only sets of sites with an exit are coarse grained", "statement": "A cluster is only ever created from sites that have at least one rate leaving the set, and only if the escape time exceeds twice the internal traversal time times the performance ratio, and twice the traversal time is below the time resolution.", "quantifier": "every system state and basin", "why_tests_cant": "All rate landscapes.", "anchors": ["CoarseGrainSites/src/libmythical/coarsegrainsystem.cpp:CoarseGrainSystem::sitesSatisfyEquilibriumCondition_", "CoarseGrainSites/src/libmythical/coarsegrainsystem.cpp:CoarseGrainSystem::getTimeConstantFromSitesToNeighbors_", "CoarseGrainSites/src/libmythical/coarsegrainsystem.cpp:CoarseGrainSystem::coarseGrain_"]}
{"id": "C64", "title": "System: clusters are merged into the smallest cluster id", "statement": "When a basin touches existing clusters, the surviving cluster is the one with the smallest id among them, and cluster ids are never reused.", "quantifier": "every system state", "why_tests_cant": "All maps and iteration orders.", "anchors": ["CoarseGrainSites/src/libmythical/coarsegrainsystem.cpp:getFavoredClusterId", "CoarseGrainSites/src/libmythical/site_container.cpp:Site_Container::getSmallestClusterId", "CoarseGrainSites/src/libmythical/topologyfeatures/cluster.cpp:clusterIdCounter"]}
{"id": "C65", "title": "Site_Container / Cluster_Container behave like maps", "statement": "Any sequence of container operations behaves like a finite map from id to feature: adding an existing id throws and changes nothing, lookups of missing ids throw, updates touch only the named entry.", "quantifier": "every sequence of operations", "why_tests_cant": "All histories.", "anchors": ["CoarseGrainSites/src/libmythical/site_container.cpp", "CoarseGrainSites/src/libmythical/cluster_container.cpp"]}
{"id": "C66", "title": "Marcus: the rate is the documented formula", "statement": "getRate returns 2 pi/h_bar * 1/sqrt(4 pi k_B T) * H^2 * exp(-(lambda + E_j - E_i)^2/(4 pi k_B T)), as the class documentation says, up to a relative error of 1e-9.", "quantifier": "every positive lambda and T, all energies and couplings", "why_tests_cant": "Needs all real parameters, and the rounded constants have to be compared with the true ones.", "anchors": ["CoarseGrainSites/src/libmythical/charge_transport/marcus.cpp:Marcus::getRate", "CoarseGrainSites/include/mythical/charge_transport/marcus.hpp"]}
{"id": "C67", "title": "Cluster: the master equation is iterated as configured", "statement": "After an update the occupation probabilities are those of the averaged hopping iteration started from the uniform distribution: after exactly the configured number of rounds (times the number of sites, for the method per site), or after the first round whose change is at most the configured tolerance. The configuration is the last one set, or the documented default.", "quantifier": "every history of a cluster, all settings and rates", "why_tests_cant": "The number of rounds shows only as a small numerical difference; all settings histories have to be considered.", "anchors": ["CoarseGrainSites/src/libmythical/topologyfeatures/cluster.cpp:Cluster::solveMasterEquation_", "CoarseGrainSites/src/libmythical/topologyfeatures/cluster.cpp:Cluster::iterate_", "CoarseGrainSites/src/libmythical/topologyfeatures/cluster.cpp:Cluster::setConvergenceIterations", "CoarseGrainSites/src/libmythical/topologyfeatures/cluster.cpp:Cluster::setConvergenceTolerance"]}
{"id": "C68", "title": "Cluster: the occupation probabilities converge to the quasi-stationary distribution", "statement": "A connected cluster has exactly one distribution over its sites that is unchanged by a hop that stays inside; the occupation probabilities after an update come as close to it as desired with enough iterations or a small enough tolerance.", "quantifier": "every connected cluster with mutual positive rates, every accuracy", "why_tests_cant": "A limit statement; no finite number of runs settles it.", "anchors": ["CoarseGrainSites/src/libmythical/topologyfeatures/cluster.cpp:Cluster::solveMasterEquation_", "CoarseGrainSites/src/libmythical/topologyfeatures/cluster.cpp:Cluster::iterate_"]}
{"id": "C69", "title": "System: a hop returns", "statement": "In a system with positive rates that go both ways, a hop of a walker in the system returns: nothing is thrown, no assertion fails, no invalid pointer is followed and the convergence loop ends; the only exception is a counter that exceeds the range of int.", "quantifier": "every history of calls as documented, all draws, rates and coarse-graining decisions (performance ratio at least 1/2)", "why_tests_cant": "Whether a call that has not returned yet will return, and whether some reachable state makes it fail, are not settled by finitely many runs.", "anchors": ["CoarseGrainSites/src/libmythical/coarsegrainsystem.cpp:CoarseGrainSystem::hop", "CoarseGrainSites/src/libmythical/coarsegrainsystem.cpp:CoarseGrainSystem::coarseGrain_", "CoarseGrainSites/src/libmythical/coarsegrainsystem.cpp:createCluster_", "CoarseGrainSites/src/libmythical/coarsegrainsystem.cpp:mergeSitesAndClusters_", "CoarseGrainSites/src/libmythical/topologyfeatures/cluster.cpp:Cluster::solveMasterEquation_", "CoarseGrainSites/src/libmythical/topologyfeatures/cluster.cpp:Cluster::migrateSitesFrom"]}
{"id": "C70", "title": "Graph adapter: the traversal time is the longest shortest path inside the basin", "statement": "The graph handed to the graph library has one node per site and one edge per outgoing rate, weighted with the rate (search) or its inverse (traversal times); edges that leave the basin do not shorten any way between its sites; so the time used in the equilibrium condition is the longest of the shortest traversal times between two sites of the basin.", "quantifier": "every container, every list of sites, every history", "why_tests_cant": "Needs all paths of all graphs, including those through edges that leave the basin.", "anchors": ["CoarseGrainSites/src/libmythical/graph_library_adapter.hpp", "CoarseGrainSites/src/libmythical/graph_library_adapter.cpp", "CoarseGrainSites/src/libmythical/coarsegrainsystem.cpp:getInternalTimeLimit_"]}
{"id": "C71", "title": "Time-of-flight example: the rates are consistent Marcus rates", "statement": "calculateRates gives a positive rate in both directions for every pair of sites that the neighbour search lists and for no other, never from a site to itself; each is the Marcus rate for the distance and the energies in the field; the two directions obey detailed balance for the energies in the field; although every rate is written twice the result does not depend on the order in which the hash maps are gone through.", "quantifier": "every lattice, all site energies and constants, every iteration order", "why_tests_cant": "All energies are real numbers, and the iteration order of hash maps is not under the control of a test.", "anchors": ["examples/ToF/ToF_example.cpp:calculateRates", "CoarseGrainSites/src/libmythical/charge_transport/cuboid_lattice.cpp:getNeighborDistances", "CoarseGrainSites/src/libmythical/charge_transport/marcus.cpp:Marcus::getRate"]}
{"id": "C72", "title": "System: the calls around the hops return", "statement": "In a system with positive rates, initializeWalkers returns exactly for walkers on known sites, removeWalkerFromSystem returns for every walker in the system, getVisitFrequencyOfSite returns for every known site and throws invalid_argument for any other, also after coarse graining; the only exception is a number that exceeds the range of int.", "quantifier": "every history of calls as documented, all draws and coarse-graining decisions (performance ratio at least 1/2)", "why_tests_cant": "All reachable groupings of the sites into clusters.", "anchors": ["CoarseGrainSites/src/libmythical/coarsegrainsystem.cpp:CoarseGrainSystem::initializeWalkers", "CoarseGrainSites/src/libmythical/coarsegrainsystem.cpp:CoarseGrainSystem::removeWalkerFromSystem", "CoarseGrainSites/src/libmythical/coarsegrainsystem.cpp:CoarseGrainSystem::getVisitFrequencyOfSite"]}
{"id": "C73", "title": "Time-of-flight example: the simulation runs and keeps its books", "statement": "The charges start on different sites of the first plane and the loops are entered exactly if some first dwell time is before the cutoff (else the assert ends the program; with more charges than sites in the plane it never gets there). From then on nothing is thrown and no call hangs. The queue holds exactly the charges that have not reached the last plane, ordered by time, charges_remain is their number, the others are in the last plane and out of the system; each hop is one of a charge with the earliest time and lies in the current sampling interval; time does not run backwards; samples are taken at the multiples of the interval; at the end no charge hops before the cutoff.", "quantifier": "every lattice, all rates that suit it (as calculateRates produces), all numbers of charges and constants, all random draws, every number of loop steps", "why_tests_cant": "Long runs with all interleavings of hops, removals and coarse graining; whether a call returns.", "anchors": ["examples/ToF/ToF_example.cpp:main", "examples/ToF/ToF_example.cpp:populateLattice", "examples/ToF/ToF_example.cpp:createQueue", "CoarseGrainSites/src/libmythical/coarsegrainsystem.cpp:CoarseGrainSystem::hop", "CoarseGrainSites/src/libmythical/queue.cpp"]}
{"id": "C74", "title": "Time-of-flight example: the transient current accounts for the motion of the charges", "statement": "Every current recorded is a number, and at the end of each sampling interval the sum of the currents times interval and volume equals the charge times the distance that all charges have covered in the direction of the field.", "quantifier": "every lattice, all suitable rates, all constants and random draws, every number of samples", "why_tests_cant": "An accounting identity over arbitrarily long runs.", "anchors": ["examples/ToF/ToF_example.cpp:main"]}
{"id": "C75", "title": "System: settings are checked and stay in force", "statement": "setTimeResolution accepts exactly positive values and setRandomSeed exactly calls before any site is known; a refused call throws and changes nothing; getTimeResolution always returns the last accepted value and throws if there is none; the performance ratio in use is the last one given, 1 by default.", "quantifier": "every history of calls", "why_tests_cant": "The settings have to survive every sequence of hops, coarse graining, merges and failed calls.", "anchors": ["CoarseGrainSites/src/libmythical/coarsegrainsystem.cpp:CoarseGrainSystem::setTimeResolution", "CoarseGrainSites/src/libmythical/coarsegrainsystem.cpp:CoarseGrainSystem::getTimeResolution", "CoarseGrainSites/src/libmythical/coarsegrainsystem.cpp:CoarseGrainSystem::setRandomSeed"]}
{"id": "C76", "title": "Cluster: a converged cluster stands for the hopping inside it", "statement": "A walker that hops with the rates of the sites, starting with the stationary distribution of the cluster, leaves it with probability one after a finite mean time. The probabilities of hopping to a neighbour that a cluster reports, and after the first update the draws that it answers with a neighbour or a site, come as close as desired to the probabilities with which this walker leaves to the neighbour and to the share of the site in the time it spends in the cluster. This is so for this start only: for a walker that enters at a given site the probabilities are others.", "quantifier": "every connected cluster with mutual positive rates and an exit, every accuracy", "why_tests_cant": "It compares the cluster with an infinite random process, in the limit.", "anchors": ["CoarseGrainSites/src/libmythical/topologyfeatures/cluster.cpp:Cluster::calculateProbabilityHopToNeighbors_", "CoarseGrainSites/src/libmythical/topologyfeatures/cluster.cpp:Cluster::calculateProbabilityHopToInternalSite_", "CoarseGrainSites/src/libmythical/topologyfeatures/cluster.cpp:Cluster::pickNewSiteId"]}
{"id": "C77", "title": "System: without clusters the walkers perform the exclusion process given by the rates", "statement": "As long as no cluster exists and no attempt at coarse graining is due (or coarse graining is switched off), the hops of the walkers return and, for independent uniform draws, the sites and dwell times they produce have exactly the law of random walkers in continuous time with the rates of the user that block each other: the next site is drawn with the share of its rate, the dwell time is exponential with the sum of the rates out of the site, and a walker whose next site is taken stays where it is.", "quantifier": "every history of calls as documented that leads to such a state, every sequence of hops of any walkers in the system, every number of hops below 2^31", "why_tests_cant": "It is a statement about the joint distribution of infinitely many possible runs.", "anchors": ["CoarseGrainSites/src/libmythical/coarsegrainsystem.cpp:CoarseGrainSystem::hop", "CoarseGrainSites/src/libmythical/topologyfeatures/site.cpp:Site::pickNewSiteId", "CoarseGrainSites/src/libmythical/topologyfeatures/topology_feature.cpp:getDwellTime"]}
{"id": "C78", "title": "System: the clock of every walker advances", "statement": "If every site has rates out of it that are at least r each and at most R together, the time resolutions set are at least T and the exponential draws at least e, then all dwell times handed out are positive and at least every second dwell time handed out for a walker id so far is at least d = min(e/R, (1/R)/max(2, R/(r*r*T))). So after n dwell times the clock of the walker has advanced by at least n*d/2, however the sites are coarse grained: the simulation cannot come to a standstill in time.", "quantifier": "every history of calls as documented with fixed positive rates, every walker id, every number of hops, sites, walkers and clusters", "why_tests_cant": "A cluster hands out the remainder of a stay, which can be arbitrarily short, and merges change escape times and keep resolutions; tests see a few dwell times of a few clusters.", "anchors": ["CoarseGrainSites/src/libmythical/topologyfeatures/cluster.cpp:Cluster::getDwellTime", "CoarseGrainSites/src/libmythical/topologyfeatures/cluster.cpp:calculateEscapeTimeConstant_", "CoarseGrainSites/src/libmythical/coarsegrainsystem.cpp:CoarseGrainSystem::hop", "CoarseGrainSites/src/libmythical/coarsegrainsystem.cpp:createCluster_"]}
{"id": "C79", "title": "Time-of-flight example: the simulation ends", "statement": "The time of a charge in the queue is always the sum of all dwell times it got. If the rates are at least r each and at most R together for each site and the exponential draws at least e, every charge makes at most 2(cutoff+dt)/d+1 hops, d = min(e/R, (1/R)/max(2, R/(r*r*dt))), and the loops are over after charges*(2(cutoff+dt)/d+1) + 2(cutoff/dt+1) + 1 steps, however the sites are coarse grained, unless a counter overflows.", "quantifier": "every lattice, all suitable rates, all constants and random draws with these bounds", "why_tests_cant": "Termination for all inputs: a test sees a run that ended; the dwell times handed out by clusters can be arbitrarily short.", "anchors": ["examples/ToF/ToF_example.cpp:main", "examples/ToF/ToF_example.cpp:createQueue", "CoarseGrainSites/src/libmythical/topologyfeatures/cluster.cpp:Cluster::getDwellTime"]}
{"id": "C80", "title": "Time-of-flight example: main ends with a file that tells what happened", "statement": "For constants that make sense and any site energies, main computes lattice and rates, runs and ends. The file has one row per sample: row i has the time dt*(i+1), the current made by the hops of all charges between dt*i and dt*(i+1), and the number of charges that had not arrived at the last plane before dt*(i+1); all hops lie before the time in the last row, and no charge is due before the cutoff time at the end. If the file cannot be opened main ends with runtime_error. (Other ends: the assert in createQueue, a counter that overflows.)", "quantifier": "all constants that make sense (among them those of the example), all site energies, all iteration orders of the maps, all draws bounded away from 0", "why_tests_cant": "Relates the numbers in the file to the whole history of hops for every run; a test can only look at a few files.", "anchors": ["examples/ToF/ToF_example.cpp:main", "examples/ToF/ToF_example.cpp:generateSiteEnergies", "examples/ToF/ToF_example.cpp:printTransientCurrent"]}
{"id": "C81", "title": "System: the counters do not overflow in histories of moderate length", "statement": "If every rate out of a site is at least r, the rates out of each site at most R together, thresholds are not negative, and with S arrivals of walkers on sites S*(R/r^2+3) <= 2*(2^31-1), at most 2^31-1 departures and cluster ids (two per hop) and fewer than 2^30 hops, then no call overflows an int or converts a number to int that does not fit. So hop, initializeWalkers and removeWalkerFromSystem return for proper arguments, and getVisitFrequencyOfSite returns for every known site. The dependence on the rates is real: the visits that a cluster passes on to its sites are multiplied by its time constant, so that in slow units of time two hops suffice to make getVisitFrequencyOfSite undefined.", "quantifier": "every history of calls with fixed positive rates and that many calls, every next call, every number of sites, walkers and clusters", "why_tests_cant": "Overflow needs histories of up to 2^31 calls, and depends on how visits are distributed by all clusters ever created and merged.", "anchors": ["CoarseGrainSites/src/libmythical/topologyfeatures/cluster.cpp:Cluster::getVisitFrequency", "CoarseGrainSites/src/libmythical/topologyfeatures/cluster.cpp:Cluster::migrateSitesFrom", "CoarseGrainSites/src/libmythical/coarsegrainsystem.cpp:CoarseGrainSystem::hop", "CoarseGrainSites/src/libmythical/coarsegrainsystem.cpp:createCluster_", "CoarseGrainSites/src/libmythical/topologyfeatures/topology_feature.cpp:occupy"]}
{"id": "C82", "title": "Time-of-flight example: no counter overflows in runs of moderate length", "statement": "If every rate is at least r and the rates out of each site at most R together, the first n steps in the loops of main are made without overflow as long as (charges+n)*(R/r^2+3) <= 2*(2^31-1) and n < 2^30; with the step bound of C79 in place of n the program ends, with no charge due before the cutoff time, or by the assert in createQueue.", "quantifier": "all lattices, rates, constants and draws of C73 and C79, every such number of steps; for main all constants that make sense and all site energies", "why_tests_cant": "Overflow shows only after up to 2^31 visits; the bound must follow the counters of all sites and clusters through every merge in every run.", "anchors": ["examples/ToF/ToF_example.cpp:main", "CoarseGrainSites/src/libmythical/coarsegrainsystem.cpp:CoarseGrainSystem::hop", "CoarseGrainSites/src/libmythical/topologyfeatures/cluster.cpp:Cluster::migrateSitesFrom"]}
{"id": "C83", "title": "Cluster: a cluster without exits is out of service after its first update", "statement": "The first update of a cluster of two or more sites with mutual internal links succeeds even if no site of it has a rate to a site outside. Then it has no neighbours, its occupation probabilities are as in C37, and from then on, whatever is done with it and however the rates change, getDwellTime, pickNewSiteId, getVisitFrequency, setVisitFrequency and every further update fail an assertion, and no other cluster can be merged into it.", "quantifier": "every cluster without exits with positive rates and mutual internal links, every history after the first update", "why_tests_cant": "The unit tests update two closed clusters and read their probabilities; no test makes a call that needs the time constant.", "anchors": ["CoarseGrainSites/src/libmythical/topologyfeatures/cluster.cpp:calculateEscapeTimeConstant_", "CoarseGrainSites/src/libmythical/topologyfeatures/cluster.cpp:calculateProbabilityHopOffInternalSite_", "CoarseGrainSites/src/libmythical/topologyfeatures/cluster.cpp:Cluster::getDwellTime", "CoarseGrainSites/src/libmythical/topologyfeatures/cluster.cpp:Cluster::updateProbabilitiesAndTimeConstant"]}
{"id": "C84", "title": "Test programs: the numbering of the sites of a box is a bijection", "statement": "In the box of d*d*d sites of the programs under src/tests, Converter::to1D (both versions) gives every position a number below d^3 of its own and to3D (and x) is its inverse, without overflow, for 1 <= d <= 1290. From 1291 sites per axis on the program overflows an int before the first rate is computed. to1D does not notice negative coordinates: (-1,1,0) has the number of (d-1,0,0).", "quantifier": "every box size and every position and index", "why_tests_cant": "No test calls the converter on its own; the programs use one box size.", "anchors": ["CoarseGrainSites/src/tests/performance/test_crude_vs_coarsegrain.cpp:Converter::to1D", "CoarseGrainSites/src/tests/performance/test_crude_vs_coarsegrain.cpp:Converter::to3D", "CoarseGrainSites/src/tests/regression/test_ToF.cpp:Converter::x"]}
{"id": "C85", "title": "Test programs: the sites of a box are neighbours of each other", "statement": "The loops over the surroundings of a site find each site next to it (along axes and diagonals) once, and with each rate there is one for the way back.", "quantifier": "every box size up to 1290, every site, all energies and fields", "why_tests_cant": "The comparisons of the programs use the same wrong loops on both sides, so that they agree.", "anchors": ["CoarseGrainSites/src/tests/performance/test_crude_vs_coarsegrain.cpp:main (lines 139-181)", "CoarseGrainSites/src/tests/performance/test_crude_vs_coarsegrain_correlated.cpp:main", "CoarseGrainSites/src/tests/performance/test_coarsegrain_cluster_vs_nocluster.cpp:main", "CoarseGrainSites/src/tests/regression/test_ToF.cpp:main"]}
{"id": "C86", "title": "Test programs: the rates of a box obey detailed balance", "statement": "The rates of the two directions between neighbouring sites have the ratio of the Boltzmann factors of the energies of the sites in the field.", "quantifier": "every box size, all energies and fields, all pairs of sites with rates in both directions", "why_tests_cant": "It is an equation between real numbers for all energies; the programs compare run times only.", "anchors": ["CoarseGrainSites/src/tests/performance/test_crude_vs_coarsegrain.cpp:main (lines 120-184)", "CoarseGrainSites/src/tests/regression/test_ToF.cpp:main"]}
{"id": "C87", "title": "Crude Monte Carlo: the next site is chosen with the share of its rate", "statement": "The crude simulation that the performance programs compare the library with chooses the next site of a walker with the probability rate/sum of the rates out of the site.", "quantifier": "every box of 3 to 1290 sites per axis, all positive rates, every site, every order in which the hash map lists its entries", "why_tests_cant": "The order of a hash map is not specified and differs between libraries; the programs compare run times only.", "anchors": ["CoarseGrainSites/src/tests/performance/test_crude_vs_coarsegrain.cpp:main (lines 220-307, 343-366)", "CoarseGrainSites/src/tests/performance/test_crude_vs_coarsegrain_correlated.cpp:main"]}
{"id": "C88", "title": "Crude Monte Carlo: walkers exclude each other and are moved in the order of their times", "statement": "If enough different positions are drawn, every walker gets a site of its own. Then the simulation runs without exception or undefined behaviour for all random numbers (unless no walker is due before the cutoff, when an assertion fails): siteOccupied is always the set of the sites of the walkers, no two walkers share a site, in each round only the walker with the least time moves, to a free site along a rate, or stays, and its time grows by the time drawn for the site it is on then; no walker goes back in time. With no walkers the program has undefined behaviour; with more walkers than sites it does not end.", "quantifier": "every box of 3 to 1290 sites per axis, all positive rates, every number of walkers, all draws, every order of the entries of the hash map, every number of rounds", "why_tests_cant": "Invariants of all reachable states of all runs.", "anchors": ["CoarseGrainSites/src/tests/performance/test_crude_vs_coarsegrain.cpp:main (lines 186-212, 310-369)", "CoarseGrainSites/src/tests/performance/test_crude_vs_coarsegrain_correlated.cpp:main"]}
{"id": "C89", "title": "Cluster: the order of the hash maps and of ties in the sorts does not matter", "statement": "The iteration order of unordered_map is unspecified, and so is the order in which std::sort leaves equal elements. Let the hash maps of a cluster be put into any order before every public call, and let every call sort ties in its own way. Then a call succeeds in one such history if and only if it succeeds in the other, all results except the picked sites are the same, and so are the data members at the end, up to the order of maps and tables. The picked sites have the same law: for every site the draws that pick it are an interval of the same length in both. If ties are broken independently of the input order, the picked sites are the same too; with a stable sort they need not be.", "quantifier": "every cluster, every history of successful calls, every reordering of the maps before every call, every sort", "why_tests_cant": "An implementation has one iteration order and one sort; no test can show that the results do not depend on them.", "anchors": ["CoarseGrainSites/src/libmythical/topologyfeatures/cluster.cpp:updateProbabilitiesAndTimeConstant", "CoarseGrainSites/src/libmythical/topologyfeatures/cluster.cpp:solveMasterEquation_", "CoarseGrainSites/src/libmythical/topologyfeatures/cluster.cpp:calculateProbabilityHopToNeighbors_", "CoarseGrainSites/src/libmythical/topologyfeatures/cluster.cpp:calculateProbabilityHopToInternalSite_", "CoarseGrainSites/src/libmythical/topologyfeatures/cluster.cpp:migrateSitesFrom"]}
{"id": "C90", "title": "Site in double arithmetic: picks follow the rates up to rounding, and always name a neighbour", "statement": "If every operation is rounded with a relative error of at most eps (2^-53 for double), then after any history of rate updates with N positive rates pickNewSiteId returns a neighbour for every draw in [0,1), the draws that pick a given neighbour form an interval whose length is within 2(N+2)eps of the share of its rate, and the time constant is within a relative error 2(N+1)eps of the inverse sum of the rates.", "quantifier": "every rounding that is monotone, idempotent and of relative error eps, every history, every draw", "why_tests_cant": "The unit tests compare a few picks with wide tolerances; no test draws a number next to 1.", "anchors": ["CoarseGrainSites/src/libmythical/topologyfeatures/site.cpp:Site::pickNewSiteId", "CoarseGrainSites/src/libmythical/topologyfeatures/site.cpp:calculateProbabilityHopToNeighbors_", "CoarseGrainSites/src/libmythical/topologyfeatures/site.cpp:getSumOfRates_", "CoarseGrainSites/src/libmythical/topologyfeatures/site.cpp:calculateDwellTimeConstant_", "CoarseGrainSites/src/libmythical/coarsegrainsystem.cpp:initializeWalkers", "CoarseGrainSites/src/libmythical/coarsegrainsystem.cpp:hop"]}
{"id": "C91", "title": "Cluster in double arithmetic: picks and time constants follow the occupation probabilities up to rounding, and a pick always names a site", "statement": "If every operation is rounded with a relative error of at most eps, then on the first update, from the occupation probabilities on, the draws that pick a site inside (or a neighbour) form an interval whose length is within a multiple of eps of the share computed without rounding, every draw in [0,1) picks a site, and the escape time constant, the time increment and the internal time constant have a relative error of a multiple of eps; the multiples are linear in the numbers of sites and links.", "quantifier": "every rounding that is monotone, idempotent and of relative error eps, every cluster with rates and probabilities that are not negative, every draw", "why_tests_cant": "The unit tests compare a few values of small clusters with wide tolerances; no test draws a number next to 1.", "anchors": ["CoarseGrainSites/src/libmythical/topologyfeatures/cluster.cpp:calculateProbabilityHopToInternalSite_", "CoarseGrainSites/src/libmythical/topologyfeatures/cluster.cpp:calculateProbabilityHopToNeighbors_", "CoarseGrainSites/src/libmythical/topologyfeatures/cluster.cpp:calculateProbabilityHopOffInternalSite_", "CoarseGrainSites/src/libmythical/topologyfeatures/cluster.cpp:calculateProbabilityHopBetweenInternalSite_", "CoarseGrainSites/src/libmythical/topologyfeatures/cluster.cpp:calculateEscapeTimeConstant_", "CoarseGrainSites/src/libmythical/topologyfeatures/cluster.cpp:calculateInternalTimeConstant_", "CoarseGrainSites/src/libmythical/topologyfeatures/cluster.cpp:pickInternalSite_", "CoarseGrainSites/src/libmythical/topologyfeatures/cluster.cpp:pickClusterNeighbor_"]}
{"id": "C92", "title": "Cluster in double arithmetic: the iteration of the master equation never divides by zero and its occupation probabilities are positive and add up to 1 up to rounding", "statement": "If every operation is rounded with a relative error of at most eps, then for every cluster whose sites have positive rates, links both ways inside and at least one link inside each, every number of rounds of the iteration is defined, gives every site a positive occupation probability, and these add up to 1 up to a multiple of eps that is linear in the number of sites.", "quantifier": "every rounding that is monotone, idempotent and of relative error eps, every cluster of sites made by sequences of settings of positive rates, every number of rounds", "why_tests_cant": "The unit tests use clusters whose rates are of similar size; the loss of digits in the subtraction shows for rates inside that are small against the rates to the exits.", "anchors": ["CoarseGrainSites/src/libmythical/topologyfeatures/cluster.cpp:iterate_", "CoarseGrainSites/src/libmythical/topologyfeatures/cluster.cpp:initializeProbabilityOnSites_", "CoarseGrainSites/src/libmythical/topologyfeatures/cluster.cpp:solveMasterEquation_"]}
{"id": "C93", "title": "Cluster in double arithmetic: every stay of a walker ends, with the time drawn up to rounding", "statement": "If every operation is rounded with a relative error of at most eps, then in every history of handouts and picks of any walkers: every time handed out is positive and at most the time increment; a walker is released when the times handed out add up to the time drawn, up to the part n eps for n handouts; no assertion fails; and every stay ends.", "quantifier": "every rounding that is monotone, idempotent and of relative error eps, every cluster with a positive time constant and increment, every history of calls about any walkers with positive draws", "why_tests_cant": "The unit tests follow single walkers through a few handouts and compare with exact sums; the resolution is small there.", "anchors": ["CoarseGrainSites/src/libmythical/topologyfeatures/cluster.cpp:getDwellTime", "CoarseGrainSites/src/libmythical/topologyfeatures/cluster.cpp:pickNewSiteId", "CoarseGrainSites/src/libmythical/topologyfeatures/cluster.cpp:hopWithinCluster_", "CoarseGrainSites/src/libmythical/topologyfeatures/topology_feature.cpp:getDwellTime"]}
{"id": "C94", "title": "Time-of-flight example in double arithmetic: clocks, samples, file and end of the loops", "statement": "If every operation is rounded with a relative error of at most eps, then: the loops never fail, the times popped never go down and every charge is in the queue or left, once; the time of a charge is its first time and the dwell times of its k hops added up, up to the part 2(k+1) eps; the time in row i of the file is to the last bit the end of the interval over which sample i was taken, and dt(i+1) up to the part 2(i+1) eps; the current in the row is that of the hops in the interval and of the charges still there, up to the part 12 eps; and the loops end.", "quantifier": "every rounding that is monotone, idempotent and of relative error eps, every queue in order, all results of all hops with dwell times that are not negative, every number of steps", "why_tests_cant": "The example is a program without assertions on its output; it is run with one seed, one sample increment and one cutoff time.", "anchors": ["examples/ToF/ToF_example.cpp:main", "examples/ToF/ToF_example.cpp:printTransientCurrent"]}
{"id": "C95", "title": "Cuboid in double arithmetic: neighbour lists are right up to rounding, symmetric, and exact at whole steps", "statement": "If every operation and the square root are rounded with a relative error of at most eps, then: getNeighbors returns under the conditions of C20 on the computed number of steps; every site it lists has an image within cutoff/(1-2eps), and the listed distance is right up to the part 4 eps; every other site with an image within cutoff/(1+4eps) is listed; j is listed for i exactly when i is listed for j; and in double arithmetic with a correctly rounded root a site at a whole number k of steps is listed whenever k times the spacing, taken exactly, is at most the cutoff.", "quantifier": "every lattice, site and cutoff, every rounding that is monotone, idempotent and of relative error eps, every increasing square root of that error", "why_tests_cant": "The unit tests use spacing 1 and cutoffs at which all distances are exact.", "anchors": ["CoarseGrainSites/src/libmythical/charge_transport/cuboid_lattice.cpp:Cuboid::getNeighbors", "CoarseGrainSites/src/libmythical/charge_transport/cuboid_lattice.cpp:Cuboid::getNeighborDistances_", "CoarseGrainSites/src/libmythical/charge_transport/cuboid_lattice.cpp:Cuboid::getDistance_"]}
{"id": "C96", "title": "System: the unit of time does not matter", "statement": "Two histories of the same calls, the second with all rates divided by k and all times and dwell times multiplied by k (for any k > 0), go through the same states: the same walkers are on the same sites and pick the same sites to hop to, the same clusters are formed and merged, all probabilities are the same, every dwell time of the second is k times that of the first, and every call gives the same answer.", "quantifier": "every k > 0, every history of calls with any rates, walkers, seeds and draws", "why_tests_cant": "The tests fix the unit of each rate once; no test runs a simulation twice in two units and compares.", "anchors": ["CoarseGrainSites/src/libmythical/coarsegrainsystem.cpp:hop", "CoarseGrainSites/src/libmythical/coarsegrainsystem.cpp:coarseGrainSiteIfNeeded_", "CoarseGrainSites/src/libmythical/coarsegrainsystem.cpp:getVisitFrequencyOfSite", "CoarseGrainSites/src/libmythical/topologyfeatures/cluster.cpp:getVisitFrequency", "CoarseGrainSites/src/libmythical/topologyfeatures/cluster.cpp:calculateEscapeTimeConstant_"]}
{"id": "C97", "title": "Cluster in double arithmetic: the occupation probabilities and the shares of the draws are those of the rates, up to rounding", "statement": "If every operation is rounded with a relative error of at most eps, then for every cluster of N sites with at most d neighbours each, made from positive rates of which the part theta at least leads to sites of the cluster: after n rounds every occupation probability differs from that of n rounds without rounding, on the rates themselves, by at most the part 1800 2^n (4d+N+3) eps/theta of it (as long as this is at most 1); the update as a whole is defined; and the draws that send a walker to a site inside, or to an exit when it leaves, form an interval whose length differs from the share computed from the rates without rounding by at most 3600 2^n (4d+N+3) eps/theta and a multiple of eps linear in the number of links.", "quantifier": "every rounding that is monotone, idempotent and of relative error eps, every cluster of sites made by sequences of settings of positive rates, links both ways inside, every number of rounds within the bound", "why_tests_cant": "The unit tests compare occupation probabilities of two or three clusters of a few sites with a tolerance.", "anchors": ["CoarseGrainSites/src/libmythical/topologyfeatures/cluster.cpp:iterate_", "CoarseGrainSites/src/libmythical/topologyfeatures/cluster.cpp:initializeProbabilityOnSites_", "CoarseGrainSites/src/libmythical/topologyfeatures/cluster.cpp:calculateProbabilityHopToInternalSite_", "CoarseGrainSites/src/libmythical/topologyfeatures/cluster.cpp:calculateProbabilityHopToNeighbors_", "CoarseGrainSites/src/libmythical/topologyfeatures/cluster.cpp:updateProbabilitiesAndTimeConstant", "CoarseGrainSites/src/libmythical/topologyfeatures/cluster.cpp:pickNewSiteId"]}
{"id": "C98", "title": "Marcus in double arithmetic: rates and detailed balance are right up to rounding, and in order", "statement": "If every operation and constant is rounded with a relative error of at most eps and exp, pow(x,2) and pow(x,0.5) of the library have a relative error of at most eps, then for every positive reorganisation energy and temperature the rate differs from the Marcus rate by at most the part 2(16+21 M^2/(4 lambda k_B T)) eps of it, where M is the sum of the moduli of the three energies; the ratio of the rates of the two directions differs from the Boltzmann factor by at most twice that part; the rate is not negative and is zero only if the coupling is; and in the normal region a higher target or a lower start never has the larger rate.", "quantifier": "every rounding that is monotone, idempotent and of relative error eps, all real energies and couplings, every positive temperature and reorganisation energy (as long as the part is at most 1)", "why_tests_cant": "The unit test of Marcus compares a few rates with each other.", "anchors": ["CoarseGrainSites/src/libmythical/charge_transport/marcus.cpp:Marcus::Marcus", "CoarseGrainSites/src/libmythical/charge_transport/marcus.cpp:Marcus::getRate"]}
{"id": "C99", "title": "Time-of-flight rates in double arithmetic: the right pairs, right up to rounding, balanced, and alike in every order", "statement": "With rounding after every operation, calculateRates of the time-of-flight example returns whenever the search of the lattice does, in whatever order the hash maps are gone through. The search is symmetric, lists no pair of a site with itself, lists every pair found by the exact search with the cutoff less two roundings and none beyond the cutoff plus two roundings. There is a positive rate exactly for the listed pairs. Each rate differs from the Marcus rate for the distance of the sites and the change of the energy of the charge in the field by at most the part 2t of it, where t = (20 + 14|alpha|r + 34 M^2/(4 lambda k_B T)) eps and M is the sum of the moduli of lambda, the two site energies and the step of the potential; the ratio of the rates of the two directions differs from the Boltzmann factor by at most the part 4t; and the rates of two orders differ by at most the part 4t, though they need not be equal.", "quantifier": "every rounding that is monotone, idempotent and of relative error eps <= 1/100, every exponential, square and root of relative error eps, all lattices, energies and parameters with positive lambda and temperature and coupling not zero, every order of the hash maps (as long as the part is at most 1)", "why_tests_cant": "The example is not tested; its result depends on the hash order only in the last digits, which no comparison of outputs explains.", "anchors": ["examples/ToF/ToF_example.cpp:calculateRates", "CoarseGrainSites/src/libmythical/charge_transport/cuboid_lattice.cpp:Cuboid::getNeighborDistances", "CoarseGrainSites/src/libmythical/charge_transport/marcus.cpp:Marcus::getRate"]}
{"id": "C100", "title": "The range of double does not matter for rates, distances and energies of moderate size", "statement": "Take any arithmetic that rounds like double where results are normal numbers and does anything on results that are too small or too large, and library functions that are accurate where their results are normal numbers. If the rates named in calls on a site lie between 2^-500 and 2^500 and are at most 2^20, the site ends in the same state as without bounds on the exponents and picks the same sites with the same dwell times, so the probabilities and time constant are right up to rounding. The neighbour searches of Cuboid return the same if spacing and cutoff lie between 2^-500 and 2^500. Marcus rates with exponents of at most 600 are right up to the part 25232 eps, vanish only without coupling, and are in detailed balance up to the part 50464 eps. The rates of the time-of-flight example, with constants and energies of moderate size and exponents of at most 590, are defined exactly for the pairs found, positive, right up to the part 40720 eps, in detailed balance up to 81440 eps, and the same in every order of the maps up to 81440 eps.", "quantifier": "every arithmetic that agrees with rounding to 53 bits on results between 2^-1022 and 2^1023, every exponential, square and root of relative error eps (2^-53 <= eps <= 10^-5) there, every history of calls on a site, every lattice, all energies and parameters within the ranges stated", "why_tests_cant": "Whether some intermediate result of the computation underflows depends on all inputs together; tests use a few inputs of ordinary size.", "anchors": ["CoarseGrainSites/src/libmythical/topologyfeatures/site.cpp:setRatesToNeighbors", "CoarseGrainSites/src/libmythical/topologyfeatures/site.cpp:calculateProbabilitiesHopToNeighbors_", "CoarseGrainSites/src/libmythical/topologyfeatures/site.cpp:pickNewSiteId", "CoarseGrainSites/src/libmythical/charge_transport/cuboid_lattice.cpp:Cuboid::getDistance_", "CoarseGrainSites/src/libmythical/charge_transport/cuboid_lattice.cpp:Cuboid::getNeighborDistances", "CoarseGrainSites/src/libmythical/charge_transport/marcus.cpp:Marcus::getRate", "examples/ToF/ToF_example.cpp:calculateRates"]}
{"id": "C101", "title": "Basin search: the threshold is without effect, the count is the limit, and the order of the edges shows", "statement": "If all rates are positive, the basin found is the same for all values given to BasinExplorer::setThreshold from 0 on. After setMaxExplorationCount(n) with n at least 0 a basin has at most n sites (one if n is 0), and an empty result means that more than n sites can be reached along rates. After a negative n the result always contains the start site, as long as the sites have fewer than 2^63 - 1 neighbours together. With the same sites and rates, two orders of the edges in the hash table can give two different basins that are both non-empty.", "quantifier": "all thresholds >= 0, all int counts, all sites and rates, every order of edges, every start site; for the last sentence two concrete orders", "why_tests_cant": "The unit tests of the explorer never call the setters with different values on the same sites, and each standard library fixes one order.", "anchors": ["CoarseGrainSites/src/libmythical/basin_explorer.cpp:setThreshold", "CoarseGrainSites/src/libmythical/basin_explorer.cpp:setMaxExplorationCount", "CoarseGrainSites/src/libmythical/basin_explorer.cpp:rateFastEnough_", "CoarseGrainSites/src/libmythical/basin_explorer.cpp:findBasin"]}
{"id": "C102", "title": "Walkers say what they were told last", "statement": "After occupySite(i) on a walker, getIdOfSiteCurrentlyOccupying returns i until the walker is told another site, hops or is created anew; the same holds for setPotentialSite and getPotentialSite and for setDwellTime and getDwellTime, until the walker is initialised as well. Asking throws exactly if i is the number kept for unassigned ids. A new walker throws when asked for its site or its aim and has the dwell time -1. No call for another walker, no coarse graining, no initialisation of the system and no removal changes this.", "quantifier": "every history of calls on a system and its walkers, with any rates, draws and coarse-graining decisions, from any state", "why_tests_cant": "Tests of Walker set and read back at once; that nothing in the system writes to a walker in between quantifies over all histories.", "anchors": ["CoarseGrainSites/include/mythical/walker.hpp:occupySite", "CoarseGrainSites/include/mythical/walker.hpp:setPotentialSite", "CoarseGrainSites/include/mythical/walker.hpp:setDwellTime", "CoarseGrainSites/src/libmythical/walker.cpp:getIdOfSiteCurrentlyOccupying", "CoarseGrainSites/src/libmythical/walker.cpp:getPotentialSite"]}
{"id": "C103", "title": "Site: what it reports about its neighbours is what it was given", "statement": "After any calls of setRatesToNeighbors, addNeighRate and resetNeighRate on a new site that return, and whatever the rate variables hold by then: getNeighborSiteIds lists each site for which a rate was given once and no other; isNeighbor is true for exactly these; getRateToNeighbor returns the current value of the variable given last for the neighbour and fails its assertion for any other site, as does getProbabilityOfHoppingToNeighboringSite; getRateToNeighbors lists the current values in the order of getNeighborSiteIds; getFastestRate is an upper bound for them, at least 0, and one of them if it is positive.", "quantifier": "every sequence of calls that returns, every content of the rate variables at each call and at the query, every site id", "why_tests_cant": "The unit tests query a site after one call with the rates unchanged; agreement of all queries after any history is a statement about infinitely many inputs.", "anchors": ["CoarseGrainSites/src/libmythical/topologyfeatures/site.cpp:getRateToNeighbors", "CoarseGrainSites/src/libmythical/topologyfeatures/site.cpp:getRateToNeighbor", "CoarseGrainSites/src/libmythical/topologyfeatures/site.cpp:getFastestRate", "CoarseGrainSites/src/libmythical/topologyfeatures/site.cpp:getNeighborSiteIds", "CoarseGrainSites/src/libmythical/topologyfeatures/site.hpp:isNeighbor"]}
{"id": "C104", "title": "Site: the order of the hash map makes no difference", "statement": "Two executions of the same calls of setRatesToNeighbors, addNeighRate and resetNeighRate on a new site, with any orders of iteration of the map of neighbours and of the maps given, changing before every call, lead to sites that report the same time constant, the same dwell time and the same choice for equal draws, the same probabilities, rates and fastest rate, and the same neighbours up to order. A further call succeeds on both or fails on both in the same way. (The comparator of the set of probabilities orders them by id, so that the table walked through by pickNewSiteId does not depend on the order of insertion.)", "quantifier": "every sequence of calls, every content of the rate variables at each call, every pair of orders before every call, all draws", "why_tests_cant": "A standard library fixes one order; that no order can be observed quantifies over all of them.", "anchors": ["CoarseGrainSites/src/libmythical/topologyfeatures/site.cpp:setRatesToNeighbors", "CoarseGrainSites/src/libmythical/topologyfeatures/site.cpp:calculateProbabilityHopToNeighbors_", "CoarseGrainSites/src/libmythical/topologyfeatures/site.cpp:pickNewSiteId", "CoarseGrainSites/src/libmythical/topologyfeatures/site.cpp:CustomComparitor"]}
{"id": "C105", "title": "System: without clusters a walker alone goes round loops as often one way as the other", "statement": "Suppose the rates are in detailed balance for some weights of the sites, one walker is in the system, no cluster exists and no coarse graining becomes due. Then for independent uniform draws the probability of hopping along a path (with dwell times longer than given ones on the sites) and that of hopping along it backwards differ only by the weights of the two ends and the mean stays on them; along a closed path both directions are equally probable. In the time-of-flight example the rates of the sites in the system are at every moment in detailed balance for the Boltzmann weights of the energies in the field.", "quantifier": "every system and history up to the first coarse graining, all weights, all paths of all lengths, all dwell times, all draws; every lattice, every energies and parameters, every run and number of steps of the example", "why_tests_cant": "A statement about probabilities of all paths; a run follows one path.", "anchors": ["CoarseGrainSites/src/libmythical/coarsegrainsystem.cpp:hop", "CoarseGrainSites/src/libmythical/topologyfeatures/site.cpp:pickNewSiteId", "CoarseGrainSites/src/libmythical/topologyfeatures/site.cpp:getDwellTime", "examples/ToF/ToF_example.cpp:calculateRates", "CoarseGrainSites/src/libmythical/charge_transport/marcus.cpp:getRate"]}
{"id": "C106", "title": "Test programs: two of them place another walker than the one they hand over", "statement": "The toy program that compares runs with and without clusters (performance/test_coarsegrain_cluster_vs_nocluster_toy.cpp) and the time-of-flight simulation among the regression tests (regression/test_ToF.cpp) put a local walker on the starting site and hand a new, unplaced walker to the system. So with at least one walker neither reaches its hops, whatever the arguments and the draws: for proper arguments initializeWalkers throws at the first walker. Without walkers the toy program ends without a cluster, and the other one reads the first entry of an empty list.", "quantifier": "all arguments, all orders of the hash maps, all draws, every number of walkers; all box sizes and energies", "why_tests_cant": "The programs are themselves tests; that they end with an uncaught exception for every argument is not something another test checks.", "anchors": ["CoarseGrainSites/src/tests/performance/test_coarsegrain_cluster_vs_nocluster_toy.cpp:main", "CoarseGrainSites/src/tests/regression/test_ToF.cpp:main", "CoarseGrainSites/src/libmythical/coarsegrainsystem.cpp:initializeWalkers", "CoarseGrainSites/src/libmythical/walker.cpp:getIdOfSiteCurrentlyOccupying"]}
{"id": "C107", "title": "Test programs: the rates on the line are between neighbours and follow Boltzmann's law", "statement": "In regression/test_1Dsystem.cpp every site of the line should have positive rates to the sites next to it and to no others, and the rates there and back should be in the ratio that Boltzmann's law gives for the energies in the field, so that the electron stays longer in the traps.", "quantifier": "all lengths of the line that fit an int, all fields, all pairs of sites", "why_tests_cant": "The program computes the rates for one length and one field and never compares them with anything.", "anchors": ["CoarseGrainSites/src/tests/regression/test_1Dsystem.cpp:main"]}
{"id": "C108", "title": "Test programs: the sampled current on the line is the displacement in the sampling interval", "statement": "In the loops of regression/test_1Dsystem.cpp no entry outside of the vector of currents is written, the entries of a repetition add up to the distance travelled, the mean printed is the distance travelled by all per cutoff time and repetition, and entry k of each repetition is the displacement by the hops in its sampling interval k.", "quantifier": "all hops and dwell times, all cutoff times, sampling rates and lengths, every number of repetitions", "why_tests_cant": "The program prints a mean and a deviation of one run and compares them with nothing.", "anchors": ["CoarseGrainSites/src/tests/regression/test_1Dsystem.cpp:main"]}
{"id": "C109", "title": "Test programs: correlated energies fade towards the seeds with the distance", "statement": "The correlation of the energies in performance/test_crude_vs_coarsegrain_correlated.cpp stays inside the vector of energies, sets the energies of the seeds to zero, lets no energy grow or change its sign, does not depend on the order of the seeds, and takes from a site at distance r of a seed the part exp(-r/3) of its energy, for r up to 4.5.", "quantifier": "all boxes that fit into int, all energies, all seeds", "why_tests_cant": "The program runs one random landscape and prints only two widths; no test looks at a single energy.", "anchors": ["CoarseGrainSites/src/tests/performance/test_crude_vs_coarsegrain_correlated.cpp:main"]}
{"id": "C110", "title": "Test programs: the width of the distribution of energies is one", "statement": "The bins that performance/test_crude_vs_coarsegrain_correlated.cpp sorts the energies into hold each energy once, and the width computed from them is a number of the same unit that no shift of all energies changes, never negative, and is taken at half of the maximum.", "quantifier": "all lists of energies", "why_tests_cant": "The width is printed before and after the correlation and compared with nothing.", "anchors": ["CoarseGrainSites/src/tests/performance/test_crude_vs_coarsegrain_correlated.cpp:main"]}
{"id": "C111", "title": "Test programs: the run without coarse graining makes no clusters, and both runs keep time", "statement": "performance/test_coarsegrain_cluster_vs_nocluster.cpp simulates walkers in a box first without and then with coarse graining. In both runs the list of walkers always has one entry for each walker and is in order, the time of a walker is the sum of the dwell times it got, all but the last of which ended before the cutoff, no two walkers are on the same site, and the loop ends with every time past the cutoff, after a number of rounds bounded by the rates, the draws and the cutoff. The first run fails its assertion exactly if no walker leaves its first site before the cutoff; otherwise it makes no cluster, so that its exception is never thrown, and the second starts as the first did.", "quantifier": "all box sizes from 3 that fit an int, all energies, all random positions, all draws and choices in the hops, all thresholds, cutoffs and sampling rates, every number of rounds", "why_tests_cant": "The program looks at one random run; that no run can make a cluster without coarse graining, and that the loops end, are statements about all of them.", "anchors": ["CoarseGrainSites/src/tests/performance/test_coarsegrain_cluster_vs_nocluster.cpp:main", "CoarseGrainSites/src/libmythical/coarsegrainsystem.cpp:hop", "CoarseGrainSites/src/libmythical/coarsegrainsystem.cpp:setMinCoarseGrainIterationThreshold", "CoarseGrainSites/src/libmythical/coarsegrainsystem.cpp:initializeWalkers"]}
{"id": "C112", "title": "Test programs: the crude and the coarse-grained simulation are comparable", "statement": "The crude and the coarse-grained simulation of performance/test_crude_vs_coarsegrain.cpp and test_crude_vs_coarsegrain_correlated.cpp begin with the walkers on the same sites. Both end with the walkers on different sites of the box and none of them due before the cutoff, and in the coarse-grained one the time of a walker is the sum of the dwell times it got.", "quantifier": "all box sizes from 3 that fit an int, all positive rates, all random positions, all draws and choices in the hops, all thresholds and cutoffs, every number of rounds", "why_tests_cant": "The programs measure the times that the simulations take and compare nothing else.", "anchors": ["CoarseGrainSites/src/tests/performance/test_crude_vs_coarsegrain.cpp:main", "CoarseGrainSites/src/tests/performance/test_crude_vs_coarsegrain_correlated.cpp:main"]}
{"id": "C113", "title": "Escape test: every electron escapes and the books are right", "statement": "In both blocks of performance/test_kmc_coarsegrainsystem.cpp that return, each electron starts on one of the sites 1 to 5, in turn, and stops as soon as it is on one of the sites 6 to 14; hopsToSites, timeOnSites and escapeTimes hold the numbers of hops to each site, the dwell times after these hops, and the sum of these dwell times for each electron. The block without coarse graining does not fail, and it ends without clusters and without electrons in the system.", "quantifier": "all orders of the maps of rates, all draws and choices in the hops, all performance ratios, thresholds, numbers of electrons and of hops; the block without coarse graining for numbers of calls that fit an int", "why_tests_cant": "The program writes to the three vectors and never reads them; it runs with one seed.", "anchors": ["CoarseGrainSites/src/tests/performance/test_kmc_coarsegrainsystem.cpp:main"]}
{"id": "C114", "title": "Escape test: rates go both ways along the connections", "statement": "In the map of rates of performance/test_kmc_coarsegrainsystem.cpp each of the sites 1 to 5 has rates to and from exactly the sites with which the picture in the comments connects it, and all rates listed are used.", "quantifier": "all pairs of sites", "why_tests_cant": "Nothing checks the map; a rate to a wrong site changes the results only.", "anchors": ["CoarseGrainSites/src/tests/performance/test_kmc_coarsegrainsystem.cpp:main"]}
{"id": "C115", "title": "Escape test: the escape time is the time on the five sites", "statement": "escapeTimes in performance/test_kmc_coarsegrainsystem.cpp holds for each electron the time it spent on the sites 1 to 5 (the escape time from the cluster).", "quantifier": "all maps of rates, all draws and choices in the hops, all electrons, both blocks", "why_tests_cant": "The times are stored and never read.", "anchors": ["CoarseGrainSites/src/tests/performance/test_kmc_coarsegrainsystem.cpp:main"]}
{"id": "C116", "title": "Test programs: the simulation with coarse graining runs through", "statement": "The simulation with coarse graining of performance/test_coarsegrain_cluster_vs_nocluster.cpp, which is also that of test_crude_vs_coarsegrain.cpp and test_crude_vs_coarsegrain_correlated.cpp, makes any number of rounds without an exception, a failed assertion of the library, undefined behaviour or a call that goes on for ever, and it ends, unless no walker hops before the cutoff or a counter overflows. No counter overflows in runs of moderate length.", "quantifier": "all positive rates on all sets of sites, all walkers on different sites, all draws and choices in the hops, all seeds, thresholds, cutoffs and sampling rates, every number of rounds", "why_tests_cant": "Each program is run with one seed and one set of parameters, which are given on the command line.", "anchors": ["CoarseGrainSites/src/tests/performance/test_coarsegrain_cluster_vs_nocluster.cpp:main", "CoarseGrainSites/src/tests/performance/test_crude_vs_coarsegrain.cpp:main", "CoarseGrainSites/src/libmythical/coarsegrainsystem.cpp:hop"]}
{"id": "C117", "title": "Escape test: the one cluster has the five sites", "statement": "In the block with coarse graining of performance/test_kmc_coarsegrainsystem.cpp (performance ratio 0.2) there is after each call either no cluster or just one, whose sites are 1 to 5, the sites that the program counts as the cluster; so the exception \"no clusters were identified\", which is thrown if the number of clusters is not 1, is thrown just if there is no cluster, and otherwise the cluster is the intended one.", "quantifier": "all orders of the maps of rates, all draws and choices in the hops, all thresholds, numbers of electrons and of hops, and all performance ratios of 0.2 and more, if the times from the graph library cover those of ways in the basins", "why_tests_cant": "The program checks the number of clusters only, not their sites, after one run with one seed; the rates in it have basins of 2 and of 5 sites, and which one is searched depends on the draws.", "anchors": ["CoarseGrainSites/src/tests/performance/test_kmc_coarsegrainsystem.cpp:main", "CoarseGrainSites/src/libmythical/basin_explorer.cpp:findBasin", "CoarseGrainSites/src/libmythical/coarsegrainsystem.cpp:coarseGrain_"]}
{"id": "C118", "title": "Merging test: the two clusters are found and merged", "statement": "In unit/test_coarsegrainsystem2.cpp no clusters are made in the block without coarse graining, and in the block with it the clusters are after each call none, the sites 6 and 10, the sites 7 and 11, both pairs, or one cluster of the four sites (\"Two clusters should be found they should then be merged\"); whenever they end up merged, the checks at the end of the test pass.", "quantifier": "all orders of the maps of rates, all draws and choices in the hops, all times from the graph library, all thresholds, all numbers of hops, all numbers of clusters made before in the process", "why_tests_cant": "The test runs once with one seed; when all unit tests are run as one program, the ids of its clusters depend on the tests that ran before.", "anchors": ["CoarseGrainSites/src/tests/unit/test_coarsegrainsystem2.cpp:TEST_CASE", "CoarseGrainSites/src/libmythical/coarsegrainsystem.cpp:mergeSitesAndClusters_", "CoarseGrainSites/src/libmythical/coarsegrainsystem.cpp:coarseGrain_", "CoarseGrainSites/src/libmythical/topologyfeatures/cluster.cpp:Cluster"]}
{"id": "C119", "title": "Merging test: the books of the electron", "statement": "When a block of unit/test_coarsegrainsystem2.cpp is over, hops_made_to_sites holds the number of hops to each site, hop_count the number of hops, time the sum of the dwell times after them, which has just reached the limit of 1000, and time_spent_on_sites the time spent on each site after a hop to it.", "quantifier": "all maps of rates, all draws and choices in the hops, all times from the graph library, all thresholds, all numbers of hops", "why_tests_cant": "The sums over these vectors are formed but nothing is checked of them.", "anchors": ["CoarseGrainSites/src/tests/unit/test_coarsegrainsystem2.cpp:TEST_CASE"]}
{"id": "C120", "title": "Merging test: a block runs through", "statement": "A block of unit/test_coarsegrainsystem2.cpp makes its hops without an exception, an index out of range, a failed assertion of the library, an endless call or undefined behaviour other than the overflow of a counter, and if the exponential draws are bounded below its loop reaches the limit of 1000 in a number of hops that depends on the bound only.", "quantifier": "all orders of the entries of the maps of rates, all draws and choices in the hops, all times from the graph library that are those of paths in the basin, all thresholds, all values of the id counter, all numbers of hops", "why_tests_cant": "A run of the test has one sequence of random numbers per block.", "anchors": ["CoarseGrainSites/src/tests/unit/test_coarsegrainsystem2.cpp:TEST_CASE"]}
{"id": "C121", "title": "Merging test: what it can fail by", "statement": "If the exponential draws are bounded below, unit/test_coarsegrainsystem2.cpp comes to an end. Unless a counter overflows it passes if its second block ends with one cluster of four sites with the id 0, throws from clusters.at(0) if that cluster has another id, and fails by an assertion if there is no single cluster of four sites; it fails in no other way, in particular not in the block without coarse graining.", "quantifier": "all orders of the entries of the maps of rates in both blocks, all draws and choices in the hops, all times from the graph library that are those of paths in the basin, all thresholds of the second block, all values of the id counter at the start", "why_tests_cant": "The test has one outcome per run; which other outcomes it could have had is not seen from it.", "anchors": ["CoarseGrainSites/src/tests/unit/test_coarsegrainsystem2.cpp:TEST_CASE"]}
