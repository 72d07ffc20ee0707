{"id": "C01", "title": "Next-hop list keeps the cheapest offer per face", "statement": "After any sequence of addNextHop calls on an empty NexthopList, the list contains exactly one next hop for every face URI that was offered and none for any other URI, and the cost of that hop is the smallest cost ever offered for that URI. The URI-to-cost content does not depend on the order of the calls.", "quantifier": "every finite sequence of (URI, cost, hyperbolic flag) offers, and every permutation of it", "why_tests_cant": "A test fixes a few hops in a few orders; the claim is over all sequences and permutations, including equal adjusted costs and fractional costs.", "anchors": ["src/route/nexthop-list.hpp: NexthopListT::addNextHop", "src/route/nexthop.hpp: NextHop"]}
{"id": "C02", "title": "Next-hop list is ordered cheapest first", "statement": "Iterating a NexthopList built by any sequence of adds and removes yields hops in strictly increasing (adjusted integer cost, URI) order, so the first k hops are k hops of least adjusted integer cost: no hop left out is cheaper than a hop kept.", "quantifier": "every sequence of add/remove operations and every k", "why_tests_cant": "Ordering invariants must survive replace-on-lower-cost for all histories, not the handful in tests.", "anchors": ["src/route/nexthop-list.hpp: NexthopListT", "src/route/nexthop.hpp: operator<, getRouteCostAsAdjustedInteger"]}
{"id": "C03", "title": "Router numbering is a bijection", "statement": "For any list of names given to a NameMap, every name given has exactly one number, numbers are exactly 0..n-1 for n distinct names, looking a name's number up returns the name, numbers already given never change, and the set of known names after building from an LSDB is exactly the originators plus (for adjacency LSAs) their advertised neighbours.", "quantifier": "every sequence of names / every set of LSAs", "why_tests_cant": "A matrix index out of range or a collision needs one particular repetition pattern; only a proof covers all.", "anchors": ["src/route/name-map.hpp: NameMap", "src/route/name-map.cpp: addEntry, createFromAdjLsdb, createFromCoordinateLsdb"]}
{"id": "C04", "title": "Both ends must agree on a link and the larger cost wins", "statement": "For every pair of routers, the link between them is usable in the route computation iff each of the two routers' adjacency LSAs lists the other with a cost that is non-negative after rounding up; its cost is then the larger of the two advertised costs rounded up, the same in both directions.", "quantifier": "every set of adjacency LSAs (one per router), every pair of routers", "why_tests_cant": "Disagreement patterns (one-way links, different costs, negative or NaN costs) are combinatorial.", "anchors": ["src/route/routing-calculator-link-state.cpp: makeAdjMatrix", "src/route/routing-calculator-link-state.cpp: AdjMatrix"]}
{"id": "C05", "title": "Single-path routing installs exactly the shortest-path costs", "statement": "With one face per prefix, after a link-state computation the routing table has an entry for destination d iff d is another known router reachable from this router over usable links with total cost below 2147483647, and the cost of the entry's hop equals the minimum total link cost over all paths from this router to d.", "quantifier": "every topology (any number of routers), every assignment of link costs, every destination", "why_tests_cant": "Shortest-path optimality quantifies over all graphs and all paths; tests use 3-4 node graphs.", "anchors": ["src/route/routing-calculator-link-state.cpp: calculateDijkstraPath, calculateLinkStateRoutingPath, addNextHopsToRoutingTable"]}
{"id": "C06", "title": "The chosen next hop is a direct neighbour on a shortest path", "statement": "In single-path mode, the face installed for destination d is the face of a router n that is directly linked to this router, and link cost to n plus the shortest distance from n to d equals the installed cost.", "quantifier": "every topology, every destination with a route", "why_tests_cant": "Parent-pointer walks go wrong only for particular relaxation orders.", "anchors": ["src/route/routing-calculator-link-state.cpp: getNextHop, calculateDijkstraPath"]}
{"id": "C07", "title": "Multi-path routing offers every usable neighbour at its true cost", "statement": "With more than one face per prefix, for each destination d and each directly linked neighbour n, n's face is offered for d iff d is reachable from n without going through this router (total below 2147483647), and the offered cost is the link cost to n plus the cheapest such path; the least offered cost equals the overall shortest-path cost.", "quantifier": "every topology, every neighbour, every destination", "why_tests_cant": "Requires reasoning about all graphs with one node's links removed, for each neighbour in turn.", "anchors": ["src/route/routing-calculator-link-state.cpp: gatherLinks, simulateOneNeighbor, calculateLinkStateRoutingPath"]}
{"id": "C08", "title": "Link-state computation always terminates without out-of-range access", "statement": "For every LSDB content, the computation finishes, every matrix/array index it uses is in range, and it never installs a route to this router itself.", "quantifier": "every LSDB content, including an empty one, isolated routers and routers known only as neighbours", "why_tests_cant": "Memory safety and termination for all inputs cannot be sampled.", "anchors": ["src/route/routing-calculator-link-state.cpp: calculateDijkstraPath, getNextHop, sortQueueByDistance, isNotExplored"]}
{"id": "C09", "title": "Hostile link costs never create a route", "statement": "Whatever cost values (negative, NaN, infinite, huge) other routers advertise, a route is only computed over links whose agreed cost is a finite non-negative number, and every installed cost is a finite non-negative integer below 2147483647.", "quantifier": "every set of received adjacency LSAs with arbitrary IEEE double costs", "why_tests_cant": "The decoder accepts any double; the space of bit patterns cannot be enumerated in tests.", "anchors": ["src/route/routing-calculator-link-state.cpp: makeAdjMatrix, calculateDijkstraPath", "src/adjacent.cpp: wireDecode"]}
{"id": "C10", "title": "Link-state costs do not depend on LSDB storage order", "statement": "Two LSDBs with the same adjacency LSAs in a different internal (hash) order give the same set of reachable destinations and the same route cost for every destination.", "quantifier": "every permutation of every LSA set", "why_tests_cant": "The iteration order of the unordered container is outside the control of a unit test.", "anchors": ["src/route/routing-calculator-link-state.cpp: calculateLinkStateRoutingPath", "src/route/name-map.cpp: createFromAdjLsdb", "src/lsdb.hpp: LsaContainer"]}
{"id": "C11", "title": "Hyperbolic computation offers exactly the computable neighbour routes", "statement": "In hyperbolic computation a face of neighbour n is offered for destination d iff n is a configured neighbour that is not inactive, and either d = n (cost 0) or this router and n are known, d is another known router, both n's and d's coordinates are known and their distance is defined; the cost is that distance; a router never gets a route to itself.", "quantifier": "every LSDB of coordinate LSAs, every neighbour list and status assignment, every distance function", "why_tests_cant": "All combinations of missing coordinates, inactive neighbours and undefined distances.", "anchors": ["src/route/routing-calculator-hyperbolic.cpp: calculatePath, getHyperbolicDistance, addNextHop"]}
{"id": "C12", "title": "Malformed hyperbolic coordinates give no route", "statement": "A coordinate pair is only used for a distance if both angle vectors have the same non-zero length, every angle but the last lies in [0, pi], and the last lies in [0, 2*pi); otherwise the distance is undefined and nothing faults.", "quantifier": "every pair of angle vectors and radii", "why_tests_cant": "Needs all vectors, including empty and out-of-range ones received from the network.", "anchors": ["src/route/routing-calculator-hyperbolic.cpp: calculateAngularDistance, calculateHyperbolicDistance"]}
{"id": "C13", "title": "Routing table has one entry per destination with merged hops", "statement": "After any sequence of next-hop additions to a cleared routing table there is exactly one entry per destination added, and its hops are the cheapest per face among those added for that destination.", "quantifier": "every sequence of (destination, hop) additions", "why_tests_cant": "Sequences are unbounded.", "anchors": ["src/route/routing-table.cpp: addNextHop, addNextHopToDryTable, findRoutingTableEntry, clearRoutingTable"]}
{"id": "C14", "title": "Routing recalculation is coalesced and never lost", "statement": "At most one routing calculation is pending at any time; whenever the routing inputs have changed since the last completed calculation, a calculation is pending or a build that will trigger one is pending, so the table eventually reflects the LSDB.", "quantifier": "every interleaving of LSDB changes, neighbour flaps, adjacency-LSA builds and timer firings", "why_tests_cant": "Depends on the interleaving of independent timers.", "anchors": ["src/route/routing-table.cpp: scheduleRoutingTableCalculation, calculate, calculateLsRoutingTable", "src/lsdb.cpp: scheduleAdjLsaBuild, buildAdjLsa"]}
{"id": "C15", "title": "Routing-table dataset round-trips", "statement": "Decoding the published routing-table dataset gives back the same link-state table and the same dry-run table.", "quantifier": "every routing table and dry-run table", "why_tests_cant": "All tables, including destinations present in only one of the two tables.", "anchors": ["src/route/routing-table.cpp: RoutingTableStatus::wireEncode, wireDecode", "src/route/routing-table-entry.cpp"]}
{"id": "C16", "title": "Name-prefix table tracks exactly who advertises what", "statement": "After any history of LSDB modification signals, the table has an entry for prefix p with advertiser r iff r is another router currently advertising p (by its Name LSA) or p is r's own prefix and r is present.", "quantifier": "every history of installs, updates and removals of LSAs, interleaved with routing changes", "why_tests_cant": "Histories are unbounded and several routers may share a prefix.", "anchors": ["src/route/name-prefix-table.cpp: updateFromLsdb, addEntry, removeEntry"]}
{"id": "C17", "title": "Every prefix entry's next hops are the merge of its advertisers' current routes", "statement": "After any history, the next hops recorded for prefix p are the cheapest-per-face merge of the routing-table hops to each current advertiser of p, with the latest routing table.", "quantifier": "every history of LSDB signals and routing-table changes", "why_tests_cant": "Stale hops appear only in particular interleavings.", "anchors": ["src/route/name-prefix-table.cpp: updateWithNewRoute, addEntry, removeEntry", "src/route/name-prefix-table-entry.cpp: generateNhlfromRteList"]}
{"id": "C18", "title": "Name-prefix table updates never fault", "statement": "No history of LSDB signals and routing changes makes the table erase an end iterator or dereference an expired weak pointer.", "quantifier": "every history of LSDB operations as produced by the LSDB", "why_tests_cant": "Undefined behaviour only shows on the one bad history.", "anchors": ["src/route/name-prefix-table.cpp: updateFromLsdb (m_nexthopCost.erase), updateWithNewRoute (weak_ptr lock)"]}
{"id": "C19", "title": "Destination pool reference counts are exact", "statement": "A destination is in the routing pool iff some prefix entry refers to it; its use count equals the number of prefix entries referring to it; its back-references are exactly those entries.", "quantifier": "every history of entry additions/removals", "why_tests_cant": "Leaks and premature frees need specific add/remove orders.", "anchors": ["src/route/name-prefix-table.cpp: addRtpeToPool, deleteRtpeFromPool", "src/route/routing-table-pool-entry.hpp", "src/route/name-prefix-table-entry.cpp: addRoutingTableEntry, removeRoutingTableEntry"]}
{"id": "C20", "title": "A router's own prefix stays while any of its LSAs remains", "statement": "The route to router r's own prefix is present as long as at least one LSA originated by r is in the LSDB.", "quantifier": "every history of LSA installs and removals for r", "why_tests_cant": "Needs histories mixing the three LSA types of one router.", "anchors": ["src/route/name-prefix-table.cpp: updateFromLsdb"]}
{"id": "C21", "title": "A prefix's registered cost is route cost plus the advertiser's prefix cost", "statement": "For each face registered for prefix p, the registered cost is the least over advertisers r reachable by that face of (route cost to r by that face) + (cost r advertised for p).", "quantifier": "every set of advertisers, prefix costs, routing tables and histories", "why_tests_cant": "Multi-homed prefixes with different costs and partial withdrawals.", "anchors": ["src/route/name-prefix-table.cpp: adjustNexthopCosts, addEntry, removeEntry", "src/lsa/name-lsa.cpp: update"]}
{"id": "C22", "title": "FIB update reaches exactly the target face set with minimal commands", "statement": "After update(name, hops) for a non-neighbour name, the faces recorded for name are exactly the first max-faces hops of the given list; unregister commands are sent exactly for faces recorded before and not wanted now; wanted faces are (re)registered with the given cost.", "quantifier": "every prior FIB state, every hop list, every max-faces setting", "why_tests_cant": "Set-difference logic over arbitrary previous states.", "anchors": ["src/route/fib.cpp: update, addNextHopsToFibEntryAndNfd, remove, getNumberOfFacesForName"]}
{"id": "C23", "title": "NFD's routes equal the FIB after any history", "statement": "If every command to NFD takes effect, then after any sequence of FIB updates and removals the set of (name, face) routes held in NFD for non-neighbour names with known faces equals the set recorded in the FIB.", "quantifier": "every history of update/remove/refresh calls", "why_tests_cant": "Accumulated drift shows only over histories.", "anchors": ["src/route/fib.cpp: update, remove, unregisterPrefix, registerPrefix, refreshEntry"]}
{"id": "C24", "title": "FIB never withdraws or installs routes for direct neighbours' own names", "statement": "No sequence of FIB updates/removals sends a register or unregister command for a name that is a configured neighbour.", "quantifier": "every history", "why_tests_cant": "Universal over histories and names.", "anchors": ["src/route/fib.cpp: isNotNeighbor, remove, update, addNextHopsToFibEntryAndNfd"]}
{"id": "C25", "title": "FIB refresh re-registers the current cost", "statement": "When a FIB entry is refreshed, each face is re-registered with the cost given by the most recent update for that prefix.", "quantifier": "every sequence of updates followed by a refresh", "why_tests_cant": "Only visible after a cost increase and then a refresh timer.", "anchors": ["src/route/fib.cpp: refreshEntry, addNextHopsToFibEntryAndNfd", "src/route/nexthop-list.hpp: addNextHop"]}
{"id": "C26", "title": "Registration and strategy attempts are bounded", "statement": "For any pattern of failures reported by NFD, one registerPrefix (or setStrategy) request causes at most four commands, a success stops the attempts, and each retry uses the same name and face.", "quantifier": "every sequence of failure/success replies", "why_tests_cant": "Retry counters over all reply sequences.", "anchors": ["src/route/fib.cpp: registerPrefix, onRegistrationFailure, setStrategy, onSetStrategyFailure"]}
{"id": "C27", "title": "The LSDB holds one LSA per router and type, and only replaces it by a newer one", "statement": "At all times at most one LSA is stored for each (router, type); while an LSA stays stored, its sequence number never decreases, and an install with a sequence number not greater than the stored one changes nothing and emits nothing.", "quantifier": "every history of installs, removals, expirations and refreshes", "why_tests_cant": "Unbounded histories.", "anchors": ["src/lsdb.cpp: installLsa, removeLsa, expireOrRefreshLsa", "src/lsdb.hpp: isLsaNew"]}
{"id": "C28", "title": "After accepting a newer LSA the stored content equals the received content", "statement": "When an LSA with a higher sequence number is installed, the stored LSA's advertised content (adjacencies and costs; names and costs; coordinates) equals that of the received LSA.", "quantifier": "every stored LSA and every newer LSA", "why_tests_cant": "All pairs of contents; tests compare only name additions/removals.", "anchors": ["src/lsdb.cpp: installLsa", "src/lsa/name-lsa.cpp: NameLsa::update", "src/lsa/adj-lsa.cpp: AdjLsa::update", "src/lsa/coordinate-lsa.cpp: CoordinateLsa::update"]}
{"id": "C29", "title": "LSDB modification signals are a complete change log", "statement": "A listener that starts empty and applies every emitted signal (install: content; update: names to add/remove or replace; remove) always holds exactly the LSDB's current set of LSAs and contents.", "quantifier": "every history of LSDB operations", "why_tests_cant": "Listeners (routing table, prefix table) rely on it for all histories.", "anchors": ["src/lsdb.cpp: installLsa, removeLsa, onLsdbModified", "src/lsa/name-lsa.cpp: update"]}
{"id": "C30", "title": "LSAs of other routers live exactly until their latest expiration", "statement": "Another router's LSA is removed only by the timer set at its latest accepted update, and a timer from an earlier version never removes or refreshes a later version.", "quantifier": "every interleaving of updates and timer firings", "why_tests_cant": "Timer/update races.", "anchors": ["src/lsdb.cpp: scheduleLsaExpiration, expireOrRefreshLsa, installLsa"]}
{"id": "C31", "title": "Own LSAs are refreshed, not expired, with strictly increasing sequence numbers", "statement": "When the timer of this router's own LSA fires it stays in the LSDB with sequence number increased by one, expiration pushed forward, the number persisted and then published.", "quantifier": "every history", "why_tests_cant": "All orders of build, refresh and sync events.", "anchors": ["src/lsdb.cpp: expireOrRefreshLsa, buildAndInstallOwnNameLsa, buildAndInstallOwnAdjLsa, buildAndInstallOwnCoordinateLsa"]}
{"id": "C32", "title": "Outdated LSA fetches are discarded", "statement": "The highest sequence number known per LSA name never decreases, interests are only expressed for a number at least that high, retries stop once a higher number is known or the deadline has passed, and fetched data for a lower number than the highest known is never installed.", "quantifier": "every interleaving of sync updates, fetch completions, errors and retries", "why_tests_cant": "Interleavings of several concurrent fetchers.", "anchors": ["src/lsdb.cpp: expressInterest, onFetchLsaError, afterFetchLsa"]}
{"id": "C33", "title": "LSA interests are answered only with the exact requested version", "statement": "An LSA interest is answered iff the LSDB holds an LSA of that router and type whose sequence number equals the requested one; the answer is its current encoding.", "quantifier": "every LSDB state and every interest", "why_tests_cant": "All states and names.", "anchors": ["src/lsdb.cpp: processInterest, processInterestForLsa"]}
{"id": "C34", "title": "Malformed LSA interests cannot stop the router", "statement": "No interest name under the LSA prefix makes the daemon throw out of its event loop.", "quantifier": "every interest name", "why_tests_cant": "All malformed names.", "anchors": ["src/lsdb.cpp: processInterest"]}
{"id": "C35", "title": "A router adopts a higher own sequence number seen in the network", "statement": "If sync reports a sequence number for this router's own LSA that is higher than what it has stored, the LSA it publishes next has a strictly higher number than the one reported.", "quantifier": "every state and every reported number, each LSA type and hyperbolic mode", "why_tests_cant": "All states/modes.", "anchors": ["src/lsdb.cpp: processUpdateFromSync"]}
{"id": "C36", "title": "Own sequence numbers never go backwards within a run", "statement": "During one run the numbers published for each own LSA type strictly increase, whatever sync reports.", "quantifier": "every history of local builds, refreshes and sync reports", "why_tests_cant": "Requires a particular interleaving of removal of the own adjacency LSA and a sync report.", "anchors": ["src/lsdb.cpp: processUpdateFromSync, buildAdjLsa, removeLsa", "src/sequencing-manager.hpp"]}
{"id": "C37", "title": "Adjacency-LSA builds are coalesced and list only active neighbours", "statement": "At most one adjacency-LSA build is pending; every adjacency LSA built lists exactly the configured neighbours that are active at build time with their configured costs; with no active neighbour the own adjacency LSA is removed instead.", "quantifier": "every history of neighbour status changes and timers", "why_tests_cant": "Histories.", "anchors": ["src/lsdb.cpp: scheduleAdjLsaBuild, buildAdjLsa, buildAndInstallOwnAdjLsa", "src/lsa/adj-lsa.cpp: AdjLsa::AdjLsa"]}
{"id": "C38", "title": "An LSA that has already expired is not given a new life", "statement": "When an LSA from another router whose expiration time has passed is installed, it does not stay in the LSDB longer than the grace period.", "quantifier": "every expiration time point and current time", "why_tests_cant": "All clock relations.", "anchors": ["src/lsdb.cpp: installLsa"]}
{"id": "C39", "title": "Sequence numbers are never reused across crashes", "statement": "For any crash point (between any two steps of increment, temp-file write, rename, publish) followed by restart, every sequence number published after the restart is strictly greater than every one published before it, for each LSA type in use in the configured hyperbolic mode.", "quantifier": "every history, every crash point, any number of crashes and restarts", "why_tests_cant": "Crash points and repeated restarts.", "anchors": ["src/sequencing-manager.cpp: writeSeqNoToFile, initiateSeqNoFromFile", "src/lsdb.cpp: buildAndInstallOwn*, expireOrRefreshLsa"]}
{"id": "C40", "title": "A sequence number is on disk before it is announced", "statement": "Whenever an own LSA's sequence number is announced to sync, the state file already contains a number at least as large for that type.", "quantifier": "every history of builds and refreshes", "why_tests_cant": "Ordering claim over all histories.", "anchors": ["src/lsdb.cpp: buildAndInstallOwnNameLsa, expireOrRefreshLsa", "src/sequencing-manager.cpp: writeSeqNoToFile"]}
{"id": "C41", "title": "A neighbour is declared down only after enough consecutive timeouts", "statement": "By the hello protocol a neighbour goes from active to inactive only when at least hello-retries timeouts have been counted since its last validated reply; fewer timeouts never change its status.", "quantifier": "every interleaving of timeouts, nacks and validated replies for any set of neighbours", "why_tests_cant": "Interleavings.", "anchors": ["src/hello-protocol.cpp: processInterestTimedOut, onContentValidated", "src/adjacency-list.cpp"]}
{"id": "C42", "title": "A neighbour comes up only by a validated hello reply", "statement": "Status becomes active only on a validated hello data from that neighbour; it resets its timeout count to 0; other neighbours are unaffected; unknown neighbours have no effect.", "quantifier": "every history", "why_tests_cant": "Histories.", "anchors": ["src/hello-protocol.cpp: onContentValidated"]}
{"id": "C43", "title": "Status changes trigger exactly one rebuild request, non-changes none", "statement": "A hello event schedules an adjacency-LSA build (or a route calculation in hyperbolic-on mode) iff it changes some neighbour's status.", "quantifier": "every event in every state", "why_tests_cant": "All states/events.", "anchors": ["src/hello-protocol.cpp: processInterestTimedOut, onContentValidated"]}
{"id": "C44", "title": "Hello interests are answered only for configured neighbours", "statement": "A hello interest is answered iff its name has the form <neighbour>/nlsr/INFO/<router-name> and the router name carried in it is a configured neighbour.", "quantifier": "every interest name and neighbour list", "why_tests_cant": "All names.", "anchors": ["src/hello-protocol.cpp: processInterest, sendHelloInterest"]}
{"id": "C45", "title": "Adjacency list never holds two neighbours with one name", "statement": "After any sequence of operations, names in the adjacency list are distinct; insert succeeds iff the name is new; status/timeouts updates affect only the named neighbour.", "quantifier": "every operation sequence", "why_tests_cant": "Sequences.", "anchors": ["src/adjacency-list.cpp"]}
{"id": "C46", "title": "Adjacency content equality is reflexive and symmetric", "statement": "Comparing an adjacency list with itself gives equal, and the comparison is symmetric, so an unchanged adjacency LSA is recognised as unchanged.", "quantifier": "every adjacency list", "why_tests_cant": "Fails only for fractional costs, which tests do not use.", "anchors": ["src/adjacent.cpp: operator==, operator<", "src/adjacency-list.cpp: operator==", "src/adjacent.hpp: getLinkCost"]}
{"id": "C47", "title": "Adjacency LSA is built only when every neighbour's state is known", "statement": "A build is allowed iff every neighbour is active or has timed out at least hello-retries times.", "quantifier": "every neighbour list", "why_tests_cant": "All combinations of statuses and counts.", "anchors": ["src/adjacency-list.cpp: isAdjLsaBuildable"]}
{"id": "C48", "title": "Advertised prefix list is a map from name to sources and cost", "statement": "After any sequence of inserts and erases, a name is advertised iff some source inserted it and has not erased it since; its cost is that of the latest insert; insert/erase report whether the set of sources changed; listing is sorted and duplicate-free.", "quantifier": "every sequence of insert/erase with any names, sources, costs", "why_tests_cant": "Sequences.", "anchors": ["src/name-prefix-list.cpp"]}
{"id": "C49", "title": "Advertise/withdraw commands publish a Name LSA iff the advertised set changed and answer accordingly", "statement": "A command publishes exactly one new own Name LSA iff it adds (removes) a name not advertised (advertised) before; reply codes are 200/205/204/500 as documented; running the same command twice has no further effect on the advertised set.", "quantifier": "every command sequence and flag combination", "why_tests_cant": "Sequences.", "anchors": ["src/update/command-processor.cpp"]}
{"id": "C50", "title": "Re-advertising with a new cost takes effect or is refused", "statement": "If an advertise command is answered with 'already advertised' (204) then what the router advertises is unchanged by it; otherwise the new cost is advertised.", "quantifier": "every command sequence", "why_tests_cant": "Needs two advertise commands with different costs.", "anchors": ["src/update/command-processor.cpp: advertiseAndInsertPrefix", "src/name-prefix-list.cpp: insert", "src/lsa/name-lsa.cpp: update"]}
{"id": "C51", "title": "Saved prefixes can be deleted and survive restart", "statement": "After 'advertise p cost c save' the saved configuration contains p with cost c; after 'withdraw p delete' it no longer contains p; other prefixes are untouched.", "quantifier": "every prefix name, cost and prior configuration", "why_tests_cant": "All names (including ones with dots) and costs.", "anchors": ["src/update/prefix-update-processor.cpp: addOrDeletePrefix", "src/utility/boost-info-editor.cpp: put, remove"]}
{"id": "C52", "title": "Accepted configurations have all parameters in range", "statement": "Whenever configuration loading succeeds, every interval/count parameter is within its documented range and router-dead-interval exceeds lsa-refresh-time, for any combination/order/repetition of sections.", "quantifier": "every configuration tree", "why_tests_cant": "All configurations.", "anchors": ["src/conf-file-processor.cpp: processConfSection*", "src/conf-parameter.hpp"]}
{"id": "C53", "title": "Hyperbolic mode is never enabled without coordinates", "statement": "If configuration loading succeeds with hyperbolic state on or dry-run, then radius and at least one angle were configured.", "quantifier": "every configuration tree", "why_tests_cant": "All spellings and missing fields.", "anchors": ["src/conf-file-processor.cpp: processConfSectionHyperbolic"]}
{"id": "C54", "title": "TLV primitives round-trip and decoding is total", "statement": "Decoding the encoding of any TLV number, non-negative integer, name, or block followed by any bytes returns the value and exactly those bytes; decoding any byte string either fails or consumes a prefix.", "quantifier": "every value and every byte string", "why_tests_cant": "All byte strings.", "anchors": ["src/lsa/lsa.cpp", "src/lsa/adj-lsa.cpp", "src/lsa/name-lsa.cpp", "src/lsa/coordinate-lsa.cpp", "src/adjacent.cpp", "src/name-prefix-list.cpp"]}
{"id": "C55", "title": "LSAs round-trip through the wire", "statement": "For every adjacency, name and coordinate LSA, decoding its wire encoding yields an LSA with the same router, sequence number, expiration and content.", "quantifier": "every LSA value", "why_tests_cant": "All values.", "anchors": ["src/lsa/lsa.cpp: wireEncode, wireDecode", "src/lsa/adj-lsa.cpp", "src/lsa/name-lsa.cpp", "src/lsa/coordinate-lsa.cpp"]}
{"id": "C56", "title": "LSA decoding never accepts ambiguous input", "statement": "Any block accepted by an LSA decoder re-encodes to an LSA equal to the decoded one; different LSAs have different encodings; a block of another LSA type is rejected.", "quantifier": "every block", "why_tests_cant": "All blocks.", "anchors": ["src/lsa/*.cpp: wireDecode"]}
{"id": "C57", "title": "Sync update names identify the originating router", "statement": "For every router with network, site and router names, the origin derived from the sync update name that router publishes is exactly its router prefix.", "quantifier": "every network/site/router name", "why_tests_cant": "All names, including names containing the reserved components.", "anchors": ["src/communication/sync-logic-handler.cpp: processUpdate", "src/conf-parameter.hpp: buildRouterAndSyncUserPrefix", "src/utility/name-helper.hpp"]}
{"id": "C58", "title": "LSA interest and data names identify the originating router", "statement": "For every router, type and sequence number, the origin, type and number derived from the LSA interest name that a peer expresses are exactly those of the LSA asked for.", "quantifier": "every router name, type, number", "why_tests_cant": "All names.", "anchors": ["src/lsdb.cpp: processInterest, expressInterest, afterFetchLsa"]}
{"id": "C59", "title": "Face dataset fetching retries are bounded and always continue later", "statement": "For any pattern of failures, one dataset fetch round makes at most tries+1 requests and ends by scheduling exactly one next round.", "quantifier": "every failure pattern", "why_tests_cant": "All patterns.", "anchors": ["src/nlsr.cpp: onFaceDatasetFetchTimeout, scheduleDatasetFetch, processFaceDataset"]}
{"id": "C60", "title": "Neighbour face ids follow face events", "statement": "After any sequence of face created/destroyed events and datasets, a neighbour's face id is 0 or an id reported for its URI; destruction of an active neighbour's face marks it inactive and requests one rebuild, and no other event changes a status.", "quantifier": "every event sequence", "why_tests_cant": "Sequences.", "anchors": ["src/nlsr.cpp: onFaceEventNotification, processFaceDataset"]}
{"id": "C61", "title": "Certificate strategies are set once per router", "statement": "For any sequence of new-LSA notifications, strategy commands for a router's certificates are issued exactly once per distinct router.", "quantifier": "every sequence", "why_tests_cant": "Sequences.", "anchors": ["src/nlsr.cpp: registerStrategyForCerts"]}
{"id": "C62", "title": "Certificate store serves exactly what was inserted, and chain publishing terminates", "statement": "A key-name lookup returns the last certificate inserted for the key; a certificate-name lookup returns it only if the full name matches; publishing a certificate chain from the cache terminates.", "quantifier": "every insertion sequence, every cache content", "why_tests_cant": "All chains, including cyclic ones.", "anchors": ["src/security/certificate-store.cpp"]}
{"id": "C63", "title": "nlsrc parses costs faithfully", "statement": "An accepted 'advertise name cost c' command requests exactly the non-negative cost c typed by the user; anything else is refused.", "quantifier": "every command line", "why_tests_cant": "All strings.", "anchors": ["tools/nlsrc.cpp: dispatch, advertiseName, sendNamePrefixUpdate"]}
{"id": "C64", "title": "Packet statistics count every packet", "statement": "After any sequence of increments and resets, each counter equals the number of its increments since the last reset.", "quantifier": "every sequence", "why_tests_cant": "Sequences.", "anchors": ["src/statistics.cpp", "src/stats-collector.cpp"]}
{"id": "C65", "title": "Installed routes do not lapse in NFD", "statement": "As long as refresh timers fire less than the ten-second grace period late and no command fails, every route the FIB records for a non-neighbour name is alive (unexpired) in NFD at every moment.", "quantifier": "every history of updates, removals, refreshes, answers and clock steps", "why_tests_cant": "Expiry against refresh depends on the interleaving of updates and timers over unbounded time.", "anchors": ["src/route/fib.cpp: registerPrefix, scheduleEntryRefresh, refreshEntry, update", "src/route/fib.hpp: GRACE_PERIOD"]}
{"id": "C66", "title": "A withdrawn route stays withdrawn", "statement": "After a name is removed from the FIB, NFD holds no route for it until the name is updated again, whatever NFD answers to earlier commands.", "quantifier": "every history and every order of NFD's answers", "why_tests_cant": "Needs a failure answer that arrives after the removal.", "anchors": ["src/route/fib.cpp: remove, registerPrefix, onRegistrationFailure"]}
{"id": "C67", "title": "Refresh keeps the flags of the latest update", "statement": "When a FIB entry is refreshed, each face is re-registered with the route flags given by the most recent update for that prefix.", "quantifier": "every sequence of updates followed by a refresh", "why_tests_cant": "Only visible after the flags changed and a refresh timer fired.", "anchors": ["src/route/fib.cpp: update, scheduleEntryRefresh, refreshEntry"]}
{"id": "C68", "title": "Malformed hello interests do not stop the daemon", "statement": "Whatever name an arriving hello interest has, the daemon keeps running: an interest it cannot interpret is dropped without any effect.", "quantifier": "every interest name under the hello prefix, every state", "why_tests_cant": "Interest names are unbounded and chosen by others.", "anchors": ["src/hello-protocol.cpp: processInterest", "src/main.cpp"]}
{"id": "C69", "title": "Hello exchange round trip", "statement": "When two routers list each other as neighbours, the hello interest one sends is recognised by the other as coming from it and answered, and the answer, once validated, makes the first consider the second active.", "quantifier": "every pair of router names and neighbour lists", "why_tests_cant": "Name encodings are unbounded.", "anchors": ["src/hello-protocol.cpp: sendHelloInterest, processInterest, onContentValidated"]}
{"id": "C70", "title": "Operator certificates get the best-route strategy", "statement": "For each router whose LSA is received, a strategy command is issued for the site's operator certificates, whose names continue with the component %C1.Operator.", "quantifier": "every sequence of new-LSA notifications", "why_tests_cant": "Name component contents.", "anchors": ["src/nlsr.cpp: registerStrategyForCerts"]}
{"id": "C71", "title": "One hello per neighbour and interval", "statement": "At any time there is at most one scheduled hello per neighbour, so that a neighbour is sent at most one periodic hello per hello interval.", "quantifier": "every event sequence", "why_tests_cant": "Unbounded sequences of registrations.", "anchors": ["src/hello-protocol.cpp: sendHelloInterest", "src/nlsr.cpp: onPrefixRegistrationSuccess"]}
{"id": "C72", "title": "Configured numbers are used as written", "statement": "If the configuration is accepted, every numeric parameter that the file sets has exactly the value written there; a value that is not a number of the right kind is refused.", "quantifier": "every configuration tree, every parameter, every text of a value", "why_tests_cant": "All texts of all values.", "anchors": ["src/conf-file-processor.cpp: processConfSectionGeneral", "src/conf-file-processor.cpp: ConfigurationVariable::parseFromConfigSection"]}
{"id": "C73", "title": "Router, LSA and sync prefixes come from the configured names", "statement": "If the configuration is accepted, network, site and router names are not empty, and the router prefix, LSA prefix, sync prefix and sync user prefix are built from exactly those names.", "quantifier": "every configuration tree", "why_tests_cant": "All numbers and orders of sections.", "anchors": ["src/conf-file-processor.cpp: processConfSectionGeneral", "src/conf-parameter.hpp: setNetwork", "src/conf-parameter.cpp: buildRouterAndSyncUserPrefix"]}
{"id": "C74", "title": "Configured neighbours are well formed", "statement": "If the configuration is accepted, its neighbours have different and non-empty names, start inactive with no face and no timed out hello, and have link costs that are not negative.", "quantifier": "every configuration tree", "why_tests_cant": "All lists of neighbours, all cost texts.", "anchors": ["src/conf-file-processor.cpp: processConfSectionNeighbors", "src/adjacent.cpp: setLinkCost"]}
{"id": "C75", "title": "Hello statistics are exact", "statement": "The statistics of hello packets equal the number of hello interests sent, hello data sent, hello interests received and hello data that passed validation.", "quantifier": "every run of the daemon", "why_tests_cant": "All orders of timers, interests, data, timeouts and face events.", "anchors": ["src/hello-protocol.cpp", "src/stats-collector.cpp"]}
{"id": "C76", "title": "LSA statistics are exact", "statement": "The statistics of LSA packets equal the number of LSA interests sent and received and of LSA data sent and received, and the counts per LSA type add up to the totals.", "quantifier": "every run of the daemon", "why_tests_cant": "All orders of sync updates, fetches, interests and timers.", "anchors": ["src/lsdb.cpp: expressInterest, processInterest, processInterestForLsa, afterFetchLsa", "src/lsdb.hpp: incrementInterestSentStats", "src/stats-collector.cpp"]}
{"id": "C77", "title": "A configured certificate is served for as long as the daemon runs", "statement": "A certificate loaded from the configuration is found by its name, and sent in answer to interests for it, at every later moment, whatever LSA segments are received and whatever the validator has cached.", "quantifier": "every set of configured certificates, every cache content, every sequence of interests and validated segments", "why_tests_cant": "All chains of signers an unverified cache can hold, at all moments.", "anchors": ["src/security/certificate-store.cpp: CertificateStore, insert, publishCertFromCache, onKeyInterest"]}
{"id": "C78", "title": "nlsrc's exit status tells whether the update took effect", "statement": "nlsrc ends with status 0 after an advertise or withdraw command line exactly if the prefix is afterwards advertised, withdrawn, saved or deleted as asked for.", "quantifier": "every command line, every state of the daemon, every answer", "why_tests_cant": "All command lines, all daemon states and files, all answers.", "anchors": ["tools/nlsrc.cpp: dispatch, onControlResponse, onTimeout, main", "src/update/command-processor.cpp", "src/update/prefix-update-processor.cpp"]}
{"id": "C79", "title": "nlsrc shows exactly what is in the LSDB", "statement": "The LSAs that nlsrc records from the published LSDB data sets are exactly those in the daemon's LSDB, each under its origin router.", "quantifier": "every content of the LSDB", "why_tests_cant": "All sets of LSAs and all encodings received.", "anchors": ["src/publisher/dataset-interest-handler.cpp: publishLsaStatus", "tools/nlsrc.cpp: onFetchSuccess, recordLsa"]}
{"id": "C80", "title": "Cached encodings are never stale", "statement": "The block that an LSA, a neighbour, a next hop, a table entry or the routing table is encoded to stands for its contents at that moment, whatever methods were called before.", "quantifier": "every sequence of method calls", "why_tests_cant": "All orders of encodings and changes.", "anchors": ["src/lsa/lsa.hpp", "src/lsa/adj-lsa.cpp", "src/lsa/name-lsa.cpp", "src/lsa/coordinate-lsa.cpp: update", "src/route/routing-table.cpp", "src/lsdb.cpp: installLsa, expireOrRefreshLsa", "src/adjacent.hpp", "src/route/nexthop.hpp", "src/route/routing-table-entry.hpp", "src/lsa/name-lsa.hpp"]}
{"id": "C81", "title": "A converged network forwards without loops", "statement": "When every router holds the same Adjacency LSAs and has computed its routing table from them, forwarding a packet towards a router to the first next hop of the routing table at each hop brings it to that router, along a path of least cost, without visiting any router twice.", "quantifier": "every network topology, every link costs, every pair of routers", "why_tests_cant": "All topologies; a loop arises only from the interplay of the tables of several routers.", "anchors": ["src/route/routing-calculator-link-state.cpp", "src/route/routing-table.cpp: calculateLsRoutingTable", "src/route/nexthop-list.cpp", "src/conf-file-processor.cpp: link-cost"]}
{"id": "C82", "title": "Each prefix is forwarded over the best faces", "statement": "Whenever the router is at rest, the FIB entry of a prefix lists the faces by which the routing table reaches the routers advertising it: no face twice, no face by which none of them is reached, no cheaper face left out in favour of a dearer one, and none left out at all unless max-faces-per-prefix is reached.", "quantifier": "every history of hellos, face events, sync updates, fetched LSAs, timers and NFD answers; every prefix", "why_tests_cant": "The claim spans the hello protocol, LSDB, routing table, name prefix table and FIB, and all orders of events among them.", "anchors": ["src/nlsr.cpp", "src/route/name-prefix-table.cpp: updateWithNewRoute, adjustNexthopCosts", "src/route/fib.cpp: update, getNumberOfFacesForName", "src/route/routing-table.cpp"]}
{"id": "C83", "title": "NFD has the routes the FIB lists, while faces come and go", "statement": "For every prefix that is not a neighbour's name or one of NLSR's own, NFD has a route on a face exactly when the FIB lists for the prefix a neighbour that has this face; in link-state routing these are the cheapest faces by which the prefix can be reached. Routes do not lapse as long as refreshes are less than ten seconds late.", "quantifier": "every run of a router and NFD: any order of face events, face data sets, answers of NFD, hellos, LSAs, route calculations and refreshes", "why_tests_cant": "All interleavings of faces that go and come back with updates and refreshes of all prefixes.", "anchors": ["src/route/fib.cpp: update, remove, registerPrefix, unregisterPrefix, onRegistrationSuccess, refreshEntry", "src/nlsr.cpp: onFaceEventNotification, processFaceDataset, registerAdjacencyPrefixes", "src/route/name-prefix-table.cpp"]}
{"id": "C84", "title": "A router claims exactly the links it has", "statement": "Unless a build of the Adjacency LSA is pending, the router's own Adjacency LSA lists exactly the neighbours that are ACTIVE, each with its configured face URI and link cost (and there is none if none is ACTIVE). A pending build is due within a bounded time.", "quantifier": "every history of hellos, face events, sync updates, fetched LSAs and timers", "why_tests_cant": "All interleavings of status changes, builds, put-off builds, refreshes and adopted sequence numbers.", "anchors": ["src/lsdb.cpp: buildAdjLsa, scheduleAdjLsaBuild, afterFetchLsa, installLsa", "src/hello-protocol.cpp: onContentValidated, processInterestTimedOut", "src/nlsr.cpp: onFaceEventNotification", "src/lsa/adj-lsa.cpp: update"]}
{"id": "C85", "title": "All routers say the same about each other", "statement": "In a network of routers that exchange LSAs and may be stopped at any time, also in the middle of an event or of a start, and restarted, any two LSAs with the same origin, type and sequence number, wherever stored and whenever sent, have the same content. Every LSA stored anywhere was announced by its origin under that number, and no router has a newer one than the origin itself.", "quantifier": "any number of routers, every history of events at the routers, deliveries (late, reordered, repeated, lost) and stops and restarts at any point", "why_tests_cant": "All interleavings of builds, refreshes, restarts, adopted sequence numbers and deliveries across any number of routers.", "anchors": ["src/lsdb.cpp: processUpdateFromSync, afterFetchLsa, installLsa, buildAndInstallOwn*, processInterestForLsa", "src/sequencing-manager.cpp: initiateSeqNoFromFile, writeSeqNoToFile", "src/lsa/*.cpp: update"]}
{"id": "C86", "title": "A settled network forwards along shortest paths of the links that are up", "statement": "In a network of routers with link-state routing in which no Adjacency LSA build is pending, every router has the Adjacency LSAs that the others have of themselves and every table was computed from its router's LSDB: the first next hop for a destination is one router; no packet returns to a router it has left; a router with an entry for a destination delivers packets there over links that both ends have as ACTIVE, at the least total cost; there is an entry for every router that can be reached over such links below the cost limit and for no other.", "quantifier": "any number of routers, every history of hello exchanges, face events, deliveries (late, reordered, repeated, lost), builds, calculations and restarts that ends in a settled state; every source and destination", "why_tests_cant": "Depends on the neighbours' status, the LSAs and the tables of all routers at once, over all topologies and histories.", "anchors": ["src/hello-protocol.cpp: onContentValidated, processInterestTimedOut", "src/lsdb.cpp: buildAdjLsa, installLsa, processUpdateFromSync", "src/route/routing-table.cpp: calculateLsRoutingTable", "src/route/routing-calculator-link-state.cpp"]}
{"id": "C87", "title": "A newer LSA that is reported is asked for until it comes", "statement": "When sync reports an LSA of another router, of a type that routing uses, with a number higher than that of the LSA stored, the LSA is asked for with this number. The request stays, or waits to be sent again, until it is answered, a higher number is reported, or two hours are over. An answer that is the LSA asked for and is still newer is installed; an answer that is not newer, is no LSA, or is an LSA of another type changes nothing. Numbers that are not newer and types that routing does not use are not asked for.", "quantifier": "every reachable LSDB, every router of the network, every type, every number, every sequence of events", "why_tests_cant": "All interleavings of reports, failures, retries and answers of several requests.", "anchors": ["src/lsdb.cpp: processUpdateFromSync, isLsaNew, expressInterest, onFetchLsaError, afterFetchLsa"]}
{"id": "C88", "title": "Routes to routers capture, routes to advertised prefixes do not", "statement": "Routes to the name of another router are handed to the FIB with the capture flag, routes to advertised prefixes with the child-inherit flag. The capture flag is not taken back while there are next hops.", "quantifier": "every sequence of LSDB changes, timers and routing calculations", "why_tests_cant": "The flag depends on the order in which LSAs, calculations and withdrawals come.", "anchors": ["src/route/name-prefix-table.cpp: addEntry, removeEntry, updateFromLsdb, updateWithNewRoute"]}
{"id": "C89", "title": "Packets for an advertised prefix reach a nearest router that advertises it", "statement": "In a network whose routers have exchanged their Adjacency and Name LSAs and computed their routes, a packet for a prefix, at any router from which some router that advertises the prefix can be reached over links that are up, is handed on by the faces listed in the FIBs until it comes to a router that advertises the prefix; the links it takes add up to the least distance to any such router, and no packet goes round. A face is listed for a prefix only if it leads to such a router.", "quantifier": "all networks, link costs, prefixes, numbers of faces per prefix, sets of advertising routers and histories of events, restarts and lost or late messages", "why_tests_cant": "It joins hello protocol, LSDB, route calculation, name prefix table and FIB of many routers; a test runs one daemon, and the loop found needs a cost that was raised and a refresh an hour later.", "anchors": ["src/route/name-prefix-table.cpp", "src/route/fib.cpp:85-155", "src/route/fib.cpp:308-335", "src/route/nexthop-list.hpp:56-70", "src/route/routing-calculator-link-state.cpp", "src/lsdb.cpp"]}
{"id": "C90", "title": "A neighbour that falls silent is marked down in bounded time", "statement": "If nothing more is heard of a neighbour, then within one hello interval plus the time of the configured number of retries it is no longer ACTIVE, whatever else happens meanwhile: other neighbours, face events, nacks, data sets.", "quantifier": "every reachable state, every neighbour, every later sequence of events in which the event loop does not lag", "why_tests_cant": "All interleavings of timers, losses, nacks, face events and other neighbours' traffic.", "anchors": ["src/hello-protocol.cpp: sendHelloInterest", "src/hello-protocol.cpp: processInterestTimedOut", "src/hello-protocol.cpp: expressInterest", "src/hello-protocol.cpp: onContentValidated", "src/nlsr.cpp: onFaceEventNotification"]}
{"id": "C91", "title": "What a router announces is what the sync library tells the others", "statement": "With each of the three sync libraries (ChronoSync, PSync, SVS) and in each mode of routing: after any run, the number a router's sync library has for each of its LSA types is the last number the router announced for that type, no announcement is made under a name the library was not told of, and when the library of another router reports that entry, the other router asks for exactly the LSA announced last (unless it has it, or does not use the type).", "quantifier": "all runs of the LSDB from any start, all three sync protocols, all modes of routing, all library behaviours that replace a node's number by a higher one, all states of the router that gets the report", "why_tests_cant": "The tests check single publications and single reports with PSync; that every announcement of every run goes to a registered node and arrives under the right name is a property of the whole history.", "anchors": ["src/communication/sync-protocol-adapter.cpp:33-168", "src/communication/sync-logic-handler.cpp:32-90", "src/lsdb.cpp:87-171", "src/lsdb.cpp:399-457"]}
{"id": "C92", "title": "When nothing is outstanding, every router has every LSA", "statement": "Take a network of routers that run the daemon, with sync, the forwarders and the network doing to them what they may (reports late, repeated or lost, Data late or lost, restarts of routers). If sync has reported to a running router the last number that another router announced for an LSA of a type that routing uses, if since then the router was not restarted, lost no LSA of that origin and type, got for its requests under that number no Data but the LSA asked for, and had no such request fail after its two hours, and if no request for it is left, then the router stores exactly that LSA. Consequently, when this holds for all pairs of routers, all routers store the same Adjacency LSAs and Name LSAs, those that their origins store of themselves, and, with routing tables computed since, packets for a prefix reach a nearest router that advertises it.", "quantifier": "all networks of any number of routers with different names in one network, all reachable states, all runs from the report on, all LSA types, all numbers below 2^63", "why_tests_cant": "The statement is about every interleaving of reports, requests, timeouts, retries, answers, refreshes and restarts at several daemons at once; unit tests of the LSDB use one daemon with canned packets and a fixed order of events.", "anchors": ["src/lsdb.cpp:87-142", "src/lsdb.cpp:482-614", "src/communication/sync-logic-handler.cpp:53-86", "src/lsdb.cpp:356-396"]}
{"id": "C93", "title": "Where packets for a prefix go is decided by the configuration files and the commands", "statement": "Take a network of routers that run the daemon, in which prefixes are configured at each start and advertised and withdrawn by commands. The Name LSA a running router stores of itself lists exactly the prefixes that were configured at its last start or advertised by a command since and not withdrawn after that. When the routers have exchanged their LSAs and computed their tables, a packet for such a prefix comes to a nearest router at which it is advertised, over links of least total cost; and a prefix advertised at no router is forwarded by none.", "quantifier": "all networks of any number of routers with different names, all reachable states, all histories of commands, events and restarts in any interleaving, all prefixes that are not names the daemons use themselves", "why_tests_cant": "The claim relates the history of commands at one router to the forwarding at all others, over every interleaving; the unit tests check the effect of single commands on one router's list of prefixes.", "anchors": ["src/update/command-processor.cpp:31-108", "src/name-prefix-list.cpp:38-90", "src/lsdb.cpp:145-171", "src/route/fib.cpp:93-176"]}
{"id": "C94", "title": "A neighbour that has a face has the routes NLSR needs for itself", "statement": "In every state of a running router, a neighbour that has a face has in NFD the routes of its own name and of the LSA prefix over that face, and while it is up also that of the sync prefix; each route has the link's cost rounded up, the capture flag and no expiry. A neighbour that is up has a face. What happens to other prefixes, LSAs, routes and neighbours does not disturb these routes.", "quantifier": "all runs of the whole router with NFD's RIB: all interleavings of face events, data sets, hellos, timeouts, LSAs, route calculations, refreshes, registrations and their answers; all neighbour lists and link costs that uint64_t holds", "why_tests_cant": "Every component (hello protocol, face code, FIB, name prefix table) sends commands about the same RIB; that none of them ever removes or replaces a route another one needs is a property of all their interleavings.", "anchors": ["src/nlsr.cpp:55-68", "src/nlsr.cpp:173-319", "src/hello-protocol.cpp:233-250", "src/route/fib.cpp:47-212"]}
{"id": "C95", "title": "A neighbour that has a face is greeted in every hello interval", "statement": "In every state of a running router, for each neighbour that has a face the registration of its name is under way or exactly one next hello is scheduled, at most one hello interval ahead; when NFD answers the registration a hello is sent at once, when the scheduled hello is due it is sent, and in both cases the next one is scheduled one hello interval later.", "quantifier": "all runs of the whole router, all neighbours, all orders of face events, registration answers and timers", "why_tests_cant": "The greeting is a chain of callbacks (registration answered, timer, timer, ...) that any lost link ends for good; tests exercise single links of it.", "anchors": ["src/nlsr.cpp:55-58", "src/nlsr.cpp:228-319", "src/hello-protocol.cpp:87-108", "src/route/fib.cpp:165-232"]}
{"id": "C96", "title": "The state file survives crashes: what a start reads is what the last complete write recorded", "statement": "Reading the state file gives back exactly the three sequence numbers that were written to it. A file that is cut anywhere never yields a number above the one written, and keeps every number that lies wholly before the cut. A daemon killed at any step of writing the file leaves either the old numbers or the new ones; when a sequence number is announced, a restart would read that very number; and over any series of lives each killed at any step the announced numbers strictly increase.", "quantifier": "all triples of 64-bit sequence numbers, all cut positions, all kill points in the writing of the file (each character written is a step), all runs of the LSDB in each life, any number of lives", "why_tests_cant": "A test writes and reads a few numbers on a healthy disk; whether a label, a separator or a digit string of some other number is misread, and what every one of the intermediate states of the two files leads to after a restart, ranges over all numbers and all kill points.", "anchors": ["src/sequencing-manager.cpp:43-95", "src/sequencing-manager.hpp:39-145"]}
{"id": "C97", "title": "nlsrc asks the router it is told to and believes only what passes the rules", "statement": "nlsrc's options may be given in any of the usual ways and places; the router and the configuration file named last count. Data sets are asked for under the names that router serves. What a router other than the local one answers is used only if it passes the rules of that file, unless -k is given; if the rules cannot be loaded nothing is asked. Status 0 means that everything asked for has been received and shown.", "quantifier": "all command lines, all configuration files and load results, all answers genuine or forged, complete or cut", "why_tests_cant": "All command lines (letters joined, arguments attached or separate, options between words, --), all combinations of answers to the data set requests.", "anchors": ["tools/nlsrc.cpp:57-160", "tools/nlsrc.cpp:231-478", "tools/nlsrc.cpp:486-549", "docs/manpages/nlsrc.rst"]}
{"id": "C98", "title": "The certificates named in the security section are published and trusted, and a wrong section is refused", "statement": "A security section is accepted only if it holds the rules for routing data, then, if wanted, the rules for prefix updates, and names of certificate files; every certificate named is then published and is an anchor of both validators, and no other is. Everything else, and a file without a certificate, is refused with a message.", "quantifier": "all sections (any entries in any order), all results of loading the rules and the files", "why_tests_cant": "All sequences of entries, including misspelled, repeated and misplaced ones; the tests load one complete section.", "anchors": ["src/conf-file-processor.cpp:633-674", "src/conf-parameter.cpp:113-119", "src/conf-parameter.hpp:440-470", "docs/SECURITY-CONFIG.rst:52-67"]}
{"id": "C99", "title": "Under the shipped rules, data from another router counts only if that router signed it", "statement": "With the rules of the configuration file NLSR ships, hello data of a neighbour, LSA data of a router and a router's data sets are accepted exactly if they are signed with a key of that neighbour's or router's NLSR (of the router itself for data sets), so that a neighbour comes up, and an LSA of a router is installed, only on that router's word. No other data is accepted.", "quantifier": "all names, all key locators, all reachable states of the hello protocol, all data offered in reply", "why_tests_cant": "All names against patterns with repetition, groups and negated sets, with the order of the rules deciding; the tests try a few names.", "anchors": ["nlsr.conf:132-269", "src/hello-protocol.cpp:203-250", "src/lsdb.cpp:553-614", "docs/SECURITY-CONFIG.rst"]}
{"id": "C100", "title": "Only names above a router and operators of its site can vouch for it", "statement": "Under the shipped rules, every certificate in the chain that makes a router's data acceptable belongs to the router's NLSR, to a name above it, or to an operator of the router's own site; no other router and no operator of another site can take part. A router's own certificate is accepted from operators of its site only. The documented hierarchy (root, site, operator, router, NLSR) is accepted.", "quantifier": "all router names, all chains of any length, all sets of anchors, all certificates offered", "why_tests_cant": "Chains of any length made of arbitrary names; an attacker chooses the certificates.", "anchors": ["nlsr.conf:221-269", "docs/SECURITY-CONFIG.rst:1-50"]}
{"id": "C101", "title": "Under the shipped rules only operators of the site change a router's prefixes", "statement": "With the rules of the configuration file NLSR ships, an advertise or withdraw command is accepted exactly if it is of the form nlsrc sends and is signed with a key of an operator; with the site's certificate as anchor, of an operator of that site. nlsrc can change the prefixes of the local router and, with -R, of another one.", "quantifier": "all interest names, all key locators, all chains of certificates", "why_tests_cant": "All names and chains of any length.", "anchors": ["nlsr.conf:271-318", "tools/nlsrc.cpp:262-300", "src/update/prefix-update-processor.cpp"]}
{"id": "C102", "title": "What a router set up as documented signs is accepted by the others", "statement": "If a router's identity is in its key chain with a certificate by an operator of its site, the operator's is by the site and the site's by the root, then after any start every router with the shipped rules and the root as anchor accepts its hello answers, its LSAs and its data sets, and can get the certificate of its NLSR from it for as long as it runs. Without the identity nobody accepts its hello answers or LSAs.", "quantifier": "all names of the hierarchy, all key chains, all key ids, both forms of key locators, all states of both routers, all later histories of the certificate store", "why_tests_cant": "Unit tests disable validation or use one identity; the claim combines key creation, data naming, five rules and certificate chains for all names.", "anchors": ["src/conf-parameter.cpp:121-167", "src/main.cpp:44-96", "src/hello-protocol.cpp:129-141", "src/lsdb.cpp:50-75", "src/nlsr.cpp:67", "src/nlsr.cpp:152-163", "nlsr.conf:132-318", "docs/SECURITY-CONFIG.rst"]}
{"id": "C103", "title": "Only an operator changes the prefixes a router advertises", "statement": "Whatever interests arrive, a prefix that comes to be advertised or stops being advertised was named in a command that an operator of the router's site had signed and sent on the host itself. Other commands are answered with 403 and change nothing; the operator's are carried out.", "quantifier": "all sequences of interests with any names, parameters and signatures, all router names, all states, all ways of reading parameters", "why_tests_cant": "Tests send well-signed commands on the localhost prefix through a dummy face; the claim is about every interest anyone could send, to either of the two prefixes and all four commands.", "anchors": ["src/update/prefix-update-processor.cpp:52-98", "src/update/nfd-rib-command-processor.cpp:28-42", "src/update/prefix-update-commands.hpp:24-31", "src/update/prefix-update-commands.cpp:26-44", "src/update/command-processor.cpp:42-130", "src/nlsr.cpp:93-95", "src/nlsr.cpp:152-163", "nlsr.conf:272-318"]}
{"id": "C104", "title": "Outsiders cannot put words into a router's mouth", "statement": "Whatever those who do not belong to the network send (sync reports of any name and number, interests, commands, answers to hellos, old or repeated Data), every LSA a router stores in another router's name was signed by the router of that name under that number, and says the same.", "quantifier": "all networks, all sequences of events at all routers including restarts, all packets with any names, keys and signers", "why_tests_cant": "A test can send some forged packets; the claim is about all packets in all orders, and about the way sync, fetching, the validator's rules and installation fit together.", "anchors": ["src/lsdb.cpp:87-142", "src/lsdb.cpp:459-614", "src/communication/sync-logic-handler.cpp:47-72", "src/publisher/dataset-interest-handler.cpp:57-80", "nlsr.conf:132-269"]}
{"id": "C105", "title": "An LSA of any size arrives whole", "statement": "Whoever fetches an LSA of a router gets, segment by segment, exactly the encoding of the LSA the router published under that number: never a mixture of two LSAs or versions, whatever packets are lost, repeated or reordered, whoever else fetches at the same time, and also if the router changes or restarts meanwhile. A fetch whose interests are answered in time succeeds, however large the LSA is.", "quantifier": "all networks and histories, all LSAs of any number of segments, all orders and multiplicities of packets, all interests in between", "why_tests_cant": "Tests fetch one LSA of a few segments from an idle router; mixtures of versions, evictions from the store of 100 segments and restarts need histories with many fetchers.", "anchors": ["src/lsdb.cpp:213-302", "src/lsdb.cpp:487-523", "src/lsdb.cpp:57"]}
{"id": "C106", "title": "LSAs of others are handed on whole, and no old ones", "statement": "A router that has fetched an LSA of another router keeps its segments and hands them on to whoever asks, whole, until they are half an hour old or a newer LSA has been fetched. A third router that fetches from it gets the whole LSA; LSAs that have been replaced are no longer handed out.", "quantifier": "all states, all interests, all histories of completed and failed fetches of any versions", "why_tests_cant": "Which stored segment an interest gets depends on all versions kept, among them those of fetches that failed in the middle; tests store one version.", "anchors": ["src/lsdb.cpp:213-267", "src/lsdb.cpp:495-523"]}
{"id": "C107", "title": "A configuration file means what it says", "statement": "If a configuration file is accepted, the sync protocol, the hyperbolic state and coordinates, the neighbours with their faces and costs, and the advertised prefixes with their costs are exactly those written in it; what cannot be understood is refused.", "quantifier": "all files: any sections in any order and number, any texts as values", "why_tests_cant": "Tests load a handful of files; what is silently dropped or replaced only shows when the result is compared with everything a file may say.", "anchors": ["src/conf-file-processor.cpp:164-211", "src/conf-file-processor.cpp:216-248", "src/conf-file-processor.cpp:465-572", "src/conf-file-processor.cpp:605-631"]}
{"id": "C108", "title": "Hyperbolic routing hands packets to the closest neighbour, and they arrive", "statement": "When all routers have computed their routes from the same Coordinate LSAs, a router hands packets for a destination to a neighbour that is up and none of whose rivals is closer to the destination, to the thousandth; the packets arrive and none comes back to a router it has left.", "quantifier": "all networks, coordinates, distance formulas with non-negative results, neighbour lists and destinations", "why_tests_cant": "Tests compute the table of one router of three; where packets go is a matter of the tables of all routers of any network.", "anchors": ["src/route/routing-calculator-hyperbolic.cpp:47-199", "src/route/routing-table.cpp:40-130"]}
{"id": "C109", "title": "A network of daemons with hyperbolic routing forwards by the configured coordinates", "statement": "In a network of routers with hyperbolic routing on, whatever happened before, what a router stores of another's coordinates is what that one was configured with; once told of all Coordinate LSAs and with nothing left to fetch or compute, every router has the coordinates of all and hands packets to an ACTIVE neighbour closest to the destination; where every router has an ACTIVE neighbour closer than itself, packets arrive.", "quantifier": "all networks of any size, all executions (hellos, face events, sync reports, fetches, restarts, timers)", "why_tests_cant": "It ranges over all interleavings of hello protocol, LSA exchange, expiry and route calculation on all routers; tests start one daemon.", "anchors": ["src/lsdb.cpp:85-147", "src/lsa/coordinate-lsa.cpp:28-55", "src/hello-protocol.cpp:65-277", "src/route/routing-calculator-hyperbolic.cpp:47-199", "src/route/routing-table.cpp:40-130"]}
{"id": "C110", "title": "What nlsrc prints tells what the daemon has", "statement": "From the text printed by nlsrc lsdb, routing and status everything the daemon has sent can be told: which routers have which LSAs, their numbers, times, links, coordinates and prefixes, and the destinations and next hops of both tables. Two daemons with different contents never look the same; costs and coordinates are shown exactly up to six digits.", "quantifier": "all data sets and tables of any size, all names, URIs, costs and times", "why_tests_cant": "That a text can be read in one way only is a statement about all pairs of data sets; tests compare one printed text with an expected one.", "anchors": ["tools/nlsrc.cpp:367-383", "tools/nlsrc.cpp:431-478", "src/lsa/lsa.cpp:100-131", "src/lsa/adj-lsa.cpp:115-127", "src/lsa/coordinate-lsa.cpp:121-129", "src/lsa/name-lsa.cpp:116-125", "src/route/routing-table.cpp:312-328", "src/route/routing-table-entry.cpp:97-102", "src/route/nexthop.cpp:101-106"]}
{"id": "C111", "title": "How the daemon starts from its command line and what it leaves behind if it does not", "statement": "nlsr uses the configuration file named last by -f, nlsr.conf in the current directory if none is named; -h and -V end with status 0 and do nothing; a command line it does not understand, or a file that cannot be read, parsed or accepted, ends it with a message and status 2 and changes no file; when it runs, it runs with what the file says, and the state directory holds a copy of the file.", "quantifier": "all argument lists of any length, all files and directories, all configuration trees", "why_tests_cant": "It ranges over all orders and clusterings of options and all contents of the disk; the main function is not covered by tests at all.", "anchors": ["src/main.cpp:24-96", "src/conf-file-processor.cpp:147-391", "docs/manpages/nlsr.rst"]}
{"id": "C112", "title": "An LSA is asked for first where it was reported, then everywhere", "statement": "With PSync and SVS, a newer LSA that is reported over a face is at once asked for over that face. If that fails before the time is over, it is asked for again over any face: at once if there was no answer, after the lifetime of an interest if the answer was refused. No interest is tied to a face other than by a report over it, and each report leads to at most one.", "quantifier": "all executions of reports, failures, timers and other events; all three sync protocols", "why_tests_cant": "It ranges over all histories of reports over any faces and of failures; tests check the tag of a single interest.", "anchors": ["src/lsdb.cpp:87-142", "src/lsdb.cpp:459-551", "src/communication/sync-protocol-adapter.cpp:133-168", "src/communication/sync-logic-handler.cpp:53-72"]}
{"id": "C113", "title": "Rounding does not change routes", "statement": "Costs are doubles, yet the routes and costs that are installed are those of exact arithmetic: the link-state computation gives the same routes whatever costs the LSAs carry; the cost registered for a prefix is the route cost plus the prefix cost, rounded down; a face with a higher cost never gets a lower number than one with a lower cost, and different costs stay different.", "quantifier": "all sets of adjacency LSAs with any costs, one path or several; all reachable states in link-state mode; all prefix costs; all non-negative hyperbolic costs", "why_tests_cant": "Rounding errors show up for particular combinations of magnitudes (around 2^53, or fractions whose sum lies next to a whole number); a test uses small whole costs, for which nothing is rounded.", "anchors": ["src/route/routing-calculator-link-state.cpp:264-309", "src/route/name-prefix-table.cpp:121-131", "src/route/nexthop.hpp:77-89"]}
{"id": "C114", "title": "Every interest goes to the part of the daemon that can answer it, and interests other than commands change nothing", "statement": "The daemon answers five kinds of interests: for LSAs, greetings of neighbours, prefix commands, datasets, and certificates; sync interests go to the sync library. An interest of one of these kinds is handed to the part that answers it, once, and to no other part, however many certificates the daemon has begun to serve in the meantime; a greeting of another router is not handed to the hello protocol. A command that is authorized and in order has exactly the effect of the command on the list of prefixes, the LSDB, the file and the reply. Any number of other interests, in any order and with any content, leaves the neighbours, LSAs, sequence numbers, timers, routing tables, routes, prefixes, the file and the certificates as they were, and has nothing published or written to disk: only answers are sent.", "quantifier": "for all configurations with ordinary names (and refuted without that), all reachable states of the daemon, all interests and all sequences of interests", "why_tests_cant": "The unit tests create the parts of the daemon separately and give each of them only its own interests; which filters overlap depends on all names in the configuration and on the certificates fetched so far, and that no interest changes the state is a statement about all names and all states.", "anchors": ["src/nlsr.cpp:93-95", "src/nlsr.cpp:153-163", "src/lsdb.cpp:61-71", "src/hello-protocol.cpp:43-63", "src/hello-protocol.cpp:110-160", "src/security/certificate-store.cpp:95-153", "src/publisher/dataset-interest-handler.cpp:32-55", "src/update/command-processor.cpp:42-130"]}
{"id": "C115", "title": "A running daemon answers the interests it should, with what its configuration and the commands it accepted say", "statement": "From its start, through any sequence of interests, LSAs, timers, answers of NFD and validated segments, a daemon that has not ended advertises exactly the prefixes of its configuration and of the commands it was ordered, without those withdrawn since: unsigned, unauthorized or unreadable commands and everything else that happens change nothing. Whoever asks for the router's Name LSA with the current sequence number gets an LSA with exactly these prefixes and their costs, and whoever asks for another number gets nothing; an LSA of the router is sent if and only if the LSDB has it with the number asked for. A greeting is answered if and only if it names a configured neighbour. A request for a data set is answered with that data set; a command that is not allowed is refused with 403, one with wrong parameters with 400. A certificate the daemon was started with is sent to whoever asks for it by its name or its key's.", "quantifier": "for all configurations with ordinary names (and refuted without that), all sequences of events of any length, and all interests", "why_tests_cant": "The unit tests drive each part with its own interests from its initial state; the property connects the commands received at any time with the content of LSAs served later, over all histories of the whole daemon.", "anchors": ["src/nlsr.cpp:93-95", "src/nlsr.cpp:153-163", "src/lsdb.cpp:224-300", "src/lsdb.cpp:85-120", "src/hello-protocol.cpp:110-160", "src/update/command-processor.cpp:42-130", "src/security/certificate-store.cpp:95-170", "src/publisher/dataset-interest-handler.cpp:32-55"]}
{"id": "C116", "title": "What ends a running daemon", "statement": "Nothing that others send ends a daemon that runs. (It fails; what is proved is the exact list of what does: from any reachable state, an event ends the daemon if and only if it is an interest for one of its own LSAs whose sequence number cannot be read, a hello interest that carries no name, an authorized command to advertise and save a prefix with a cost of 2^64 - 1024 or more, or a validated LSA segment signed with a certificate that is not in the store and heads a chain in the validator's cache that is too long, has no end or contains a certificate without key locator.  No timer, face event, answer of NFD, sync update, LSA, dataset request, certificate request or other command does.)", "quantifier": "every plain configuration, every history of events, every event", "why_tests_cant": "That no other interest, packet or timer ends the daemon, in any state, is a statement about all of them.", "anchors": ["src/main.cpp:85-91", "src/lsdb.cpp:197-264", "src/hello-protocol.cpp:105-171", "src/security/certificate-store.cpp:47-60", "src/security/certificate-store.cpp:167-188", "src/update/prefix-update-processor.cpp:154-158"]}
{"id": "C117", "title": "Packets for a name go to the router that advertises its longest prefix", "statement": "In a network whose routers know all LSAs, have computed their routes and have told NFD, a packet for a name that lies under several advertised prefixes comes to a router that advertises the longest of them, to a nearest one, over links that add up to the least possible cost; no packet is sent to a neighbour from which no router that advertises a prefix of the name can be reached.", "quantifier": "all networks and histories of NLSR's state, all names, all sets of advertised prefixes, all choices between equally cheap faces; NFD's rules for inherited routes and its best-route strategy are taken as documented", "why_tests_cant": "NLSR's tests look at one prefix at one router. What happens to a packet follows from the flags NLSR gives to the routes of several prefixes at several routers, and from NFD's inheritance between them.", "anchors": ["src/route/name-prefix-table.cpp:76-97", "src/route/name-prefix-table.cpp:175", "src/route/name-prefix-table.hpp:81", "src/route/fib.cpp:47-212"]}
{"id": "C118", "title": "What NLSR itself sends goes to the neighbours it is meant for", "statement": "While a neighbour has a face, every hello interest for it is sent over this face and no other; LSA interests are sent to exactly the neighbours that have faces, and sync interests to every neighbour that is up and to nobody but neighbours, at the costs of the links. This holds whatever prefixes other routers advertise and whatever other routes NFD has.", "quantifier": "all histories of a daemon in surroundings that answer promptly and in order, all neighbours and names of packets, all further routes in NFD; NFD's rules for inherited routes are taken as documented", "why_tests_cant": "Tests look at single registrations. Where a packet goes follows from all routes of all its prefixes, which come from other routers' LSAs and other applications too.", "anchors": ["src/nlsr.cpp:55-68", "src/nlsr.cpp:305-320", "src/hello-protocol.cpp:86-104", "src/route/fib.cpp:47-212", "src/route/name-prefix-table.cpp:76-97"]}
{"id": "C119", "title": "Decoding into an object in use replaces what it held", "statement": "wireDecode of a block on any LSA, neighbour, prefix, next hop, routing table entry or RoutingTableStatus object, whatever it held and whatever encoding it had cached, leaves it as the constructor makes it from that block, and throws exactly if the constructor would. If it throws, the object is as it was.", "quantifier": "all objects of these classes in all states (with or without a cached encoding), all blocks, decodable or not", "why_tests_cant": "The tests decode into new objects. What is left of the old contents, and how far a refused block gets before the exception, depends on the object's state and on the place of the fault in the block.", "anchors": ["src/lsa/lsa.cpp:64-98", "src/lsa/adj-lsa.cpp:82-113", "src/lsa/name-lsa.cpp:82-114", "src/lsa/coordinate-lsa.cpp:81-120", "src/adjacent.cpp:117-157", "src/name-prefix-list.cpp:159-187", "src/route/nexthop.cpp:63-99", "src/route/routing-table-entry.cpp:65-95", "src/route/routing-table.cpp:282-312"]}
{"id": "C120", "title": "A router that falls silent is forgotten, and not before", "statement": "If no LSA of a router arrives any more, then at the latest ten seconds after the lifetime of its last LSAs none of them is stored, the router is listed for no prefix, prefixes that only it announced have been removed from the FIB, and the routing table has no route to it or through it. Until then its LSAs stay.", "quantifier": "all histories before the silence, all other events during it, all routers, all lifetimes; routing modes without hyperbolic calculation for the routes", "why_tests_cant": "Tests let one LSA expire. That nothing else keeps a silent router alive (sync updates, refreshes, other routers' LSAs, failed fetches), and what is left of it in the tables, depends on the whole history.", "anchors": ["src/lsdb.cpp:304-355", "src/lsdb.cpp:416-457", "src/route/routing-table.cpp:44-82", "src/route/name-prefix-table.cpp:48-160"]}
{"id": "C121", "title": "The prefixes the daemon answers under are registered with NFD, or the daemon ends", "statement": "At any time every prefix the daemon answers under (LSAs, hellos, commands and datasets, its certificates and those it has published) is registered with NFD or being registered, once, and nothing else is. A refusal ends the daemon. Once NFD has accepted them all, interests under these prefixes reach the daemon, which treats them as C114-C116 say.", "quantifier": "all configurations, all histories of events, all orders of NFD's answers, all routes of NFD beside the daemon's own", "why_tests_cant": "Tests use a dummy face on which every registration succeeds at once. Answers come in any order with events between them, new prefixes are asked for at any time, and where NFD sends an interest depends on all routes for shorter and longer names.", "anchors": ["src/lsdb.cpp:61-71", "src/hello-protocol.cpp:45-63", "src/nlsr.cpp:152-177", "src/security/certificate-store.cpp:95-188", "src/main.cpp:76-91"]}
{"id": "C122", "title": "The decoders accept the documented formats and no others", "statement": "An Adjacency, Name or Coordinate LSA, or the dataset of the routing table, is read from a byte string iff the string has the format documented in the headers: the types and order of the elements, numbers, names and doubles as the NDN packet format writes them. What is read is what the elements say: of a neighbour given twice the first, of a name given twice the last cost, all angles in order.", "quantifier": "every byte string, every LSA, all ways to write TLV numbers, any number of elements", "why_tests_cant": "Tests decode the encodings of a few LSAs and a few truncated ones. That no other byte string is taken for an LSA is a claim about all of them.", "anchors": ["src/lsa/lsa.cpp:64-98", "src/lsa/adj-lsa.cpp:82-113", "src/lsa/name-lsa.cpp:82-114", "src/lsa/coordinate-lsa.cpp:81-120", "src/adjacent.cpp:117-157", "src/name-prefix-list.cpp:159-187", "src/route/nexthop.cpp:63-99", "src/route/routing-table-entry.cpp:65-95", "src/route/routing-table.cpp:282-312"]}
{"id": "C123", "title": "Every configuration within the documented bounds is accepted, and no other", "statement": "The daemon accepts a configuration file iff in every general, neighbors, hyperbolic, fib, advertising and security section the words are among those documented, the required names are given and not empty, each number (or its default where none can be read) is within its bounds, bounds included, the router dead interval exceeds the refresh time, neighbours have a name, a face URI and no negative cost, and advertised prefixes have a name and a cost. Order and number of the sections make no difference.", "quantifier": "every configuration tree, every environment", "why_tests_cant": "Tests try a few values per parameter. That no combination of sections and values within the bounds is refused, and none outside accepted, is a claim about all files.", "anchors": ["src/conf-file-processor.cpp:44-139", "src/conf-file-processor.cpp:147-631", "src/conf-parameter.hpp:43-116"]}
{"id": "C124", "title": "A neighbour that answers hellos is marked ACTIVE in bounded time and stays so", "statement": "If a neighbour that has a face and a scheduled hello answers the hellos sent to it (they neither expire nor are nacked, the data that comes is the reply format of the protocol, it is not found invalid, and the face is not destroyed) and the event loop does not lag, then after one hello interval and one hello timeout the neighbour is ACTIVE, or a reply of it is still being validated; when that validation succeeds it is ACTIVE with no losses counted. Once ACTIVE it stays so as long as it answers, however late the event loop is and whatever other neighbours, faces and datasets do. All this holds for the whole router, whatever LSAs, sync updates, commands, calculations and answers of NFD come in between; and in link-state routing, unless a build is pending, the router then announces the link in its Adjacency LSA (as C84 has it, if nobody hands over Adjacency LSAs in this router's name).", "quantifier": "every reachable state, every neighbour with a face and a scheduled hello, every continuation of any length", "why_tests_cant": "Tests play one reply to one hello. Here arbitrary hellos, losses of other neighbours, face events, datasets and registrations may come in between, and nothing of that may delay the status beyond the bound or take it back.", "anchors": ["src/hello-protocol.cpp:65-108", "src/hello-protocol.cpp:162-250", "src/nlsr.cpp:184-258", "src/adjacency-list.cpp:60-139"]}
{"id": "C125", "title": "A link that goes down is withdrawn from the router's own Adjacency LSA in bounded time", "statement": "In link-state routing, when a neighbour has gone down, the next build of the router's own Adjacency LSA that comes due is made, or put off only a bounded number of times; after that build the router claims exactly its ACTIVE neighbours, and claims nothing if there are none. So a dead link is announced for a bounded time only, whatever the other configured neighbours do.", "quantifier": "every reachable state, every set of configured neighbours, every run of any length", "why_tests_cant": "Tests build the LSA once with one set of neighbours. That a build put off is made in the end is a claim about runs of any length; here it is refuted with a run for every bound, in which the LSA with the dead link is kept and refreshed.", "anchors": ["src/lsdb.cpp:357-397", "src/adjacency-list.cpp:133-148", "src/lsdb.cpp:423-457", "src/hello-protocol.cpp:65-108"]}
