{
 "claims": [
  {
   "property": "C01",
   "status": "proved",
   "theorems": [
    "Nlsr.C01_cheapest_per_face",
    "Nlsr.C01_order_independent"
   ],
   "note": "Costs are exact rationals (double rounding and NaN not modelled)."
  },
  {
   "property": "C02",
   "status": "proved",
   "theorems": [
    "Nlsr.C02_cheapest_first",
    "Nlsr.C02_cheapest_first_exact",
    "Nlsr.C02_remove"
   ],
   "note": "Costs are exact rationals."
  },
  {
   "property": "C03",
   "status": "proved",
   "theorems": [
    "Nlsr.C03_numbering",
    "Nlsr.C03_known_routers"
   ],
   "note": "Whole property."
  },
  {
   "property": "C04",
   "status": "proved",
   "theorems": [
    "Nlsr.C04_agreed_cost"
   ],
   "note": "'Non-negative' means non-negative after rounding up, as in the code (getLinkCost is ceil). Assumes one LSA per router and no neighbour listed twice in an LSA (see C27, C45)."
  },
  {
   "property": "C05",
   "status": "proved",
   "theorems": [
    "Nlsr.C05_shortest_paths"
   ],
   "note": "Assumes one LSA per router and no neighbour listed twice in an LSA (see C27, C45)."
  },
  {
   "property": "C06",
   "status": "proved",
   "theorems": [
    "Nlsr.C06_next_hop_on_shortest_path"
   ],
   "note": "Same assumptions as C05; the face lookup is an arbitrary function."
  },
  {
   "property": "C07",
   "status": "proved",
   "theorems": [
    "Nlsr.C07_multipath_offers",
    "Nlsr.C07_best_offer_is_shortest"
   ],
   "note": "Same assumptions as C05. Any maxFaces other than 1."
  },
  {
   "property": "C08",
   "status": "proved",
   "theorems": [
    "Nlsr.C08_no_fault"
   ],
   "note": "No assumption on the LSDB content."
  },
  {
   "property": "C09",
   "status": "proved",
   "theorems": [
    "Nlsr.C09_costs_bounded",
    "Nlsr.C09_only_agreed_links"
   ],
   "note": "Cost bounds need no assumption; the path part assumes a well-formed LSDB."
  },
  {
   "property": "C10",
   "status": "proved",
   "theorems": [
    "Nlsr.C10_order_independent"
   ],
   "note": "In multi-path mode even the set of offers is equal."
  },
  {
   "property": "C11",
   "status": "proved",
   "theorems": [
    "Nlsr.C11_offers",
    "Nlsr.C11_no_route_to_self",
    "Nlsr.C11_no_fault"
   ],
   "note": "Assumes one coordinate LSA per router; the distance function is arbitrary. No fault provided no LSA has an empty angle vector."
  },
  {
   "property": "C12",
   "status": "partial",
   "theorems": [
    "Nlsr.C12_checked_partial",
    "Nlsr.C12_violated_range",
    "Nlsr.C12_violated_last",
    "Nlsr.C12_violated_nan",
    "Nlsr.C12_violated_fault"
   ],
   "note": "What the code checks is proved; the documented ranges are refuted: C12_violated_range, C12_violated_last (second vector's last angle), C12_violated_nan, C12_violated_fault (empty vectors)."
  },
  {
   "property": "C13",
   "status": "proved",
   "theorems": [
    "Nlsr.C13_one_entry_per_destination"
   ],
   "note": "Whole property, over every sequence of additions to a cleared table."
  },
  {
   "property": "C14",
   "status": "partial",
   "theorems": [
    "Nlsr.C14_at_most_one",
    "Nlsr.C14_stays_pending",
    "Nlsr.C14_change_pending",
    "Nlsr.C14_runs_partial",
    "Nlsr.C14_runs_hyperbolic",
    "Nlsr.C14_violated_lost",
    "Nlsr.C14_violated_expiry"
   ],
   "note": "Coalescing, persistence of a pending calculation, and that a calculation that runs makes the table the one of the current LSDB are proved for all executions. 'Never lost' is false: a calculation due while an Adjacency LSA build is scheduled is dropped (C14_violated_lost), and expiry of another router's LSA schedules nothing (C14_violated_expiry)."
  },
  {
   "property": "C15",
   "status": "partial",
   "theorems": [
    "Nlsr.C15_round_trip_partial",
    "Nlsr.C15_link_state_exact",
    "Nlsr.C15_violated_dry_only"
   ],
   "note": "Refuted for dry-run destinations without a link-state route (C15_violated_dry_only). Proved when every dry-run destination has one, and exactly for link-state tables. URI and double text codecs enter as laws on the hops encoded; encodings are below 2^64 octets."
  },
  {
   "property": "C16",
   "status": "partial",
   "theorems": [
    "Nlsr.C16_advertisers",
    "Nlsr.C16_not_own",
    "Nlsr.C16_own_prefix_partial",
    "Nlsr.C16_no_idle_entry"
   ],
   "note": "Advertised prefixes: exact iff. Own prefix: only the direction 'listed -> some LSA stored'; the converse is false in the code, see C20_violated."
  },
  {
   "property": "C17",
   "status": "partial",
   "theorems": [
    "Nlsr.C17_link_state_partial",
    "Nlsr.C17_adjusted_partial",
    "Nlsr.C17_violated_hyperbolic"
   ],
   "note": "Exact in the link-state modes; in every mode up to the resolution of the costs sent to the forwarder. The exact claim is false in hyperbolic mode (C17_violated_hyperbolic): pool lists are compared by adjusted cost."
  },
  {
   "property": "C18",
   "status": "proved",
   "theorems": [
    "Nlsr.C18_no_fault"
   ],
   "note": "In every reachable state of LSDB + routing table + name prefix table."
  },
  {
   "property": "C19",
   "status": "proved",
   "theorems": [
    "Nlsr.C19_pool_exact"
   ],
   "note": "Over every execution of LSDB, routing table and name prefix table."
  },
  {
   "property": "C20",
   "status": "partial",
   "theorems": [
    "Nlsr.C20_history_partial",
    "Nlsr.C20_no_removal_partial",
    "Nlsr.C20_violated"
   ],
   "note": "False as stated (C20_violated): the removal of one LSA of a router removes the entry although another LSA remains. Proved: exact history characterisation, and the claim when no LSA of the router has been removed."
  },
  {
   "property": "C21",
   "status": "partial",
   "theorems": [
    "Nlsr.C21_one_advertiser_partial",
    "Nlsr.C21_one_advertiser_price_partial",
    "Nlsr.C21_zero_cost_partial",
    "Nlsr.C21_zero_cost_price_partial",
    "Nlsr.C21_violated_two_advertisers",
    "Nlsr.C21_violated_withdrawal",
    "Nlsr.C21_violated_hyperbolic",
    "Nlsr.C21_some_cost_partial",
    "Nlsr.C21_same_cost_partial"
   ],
   "note": "False as stated: with two advertisers the cost of the last-heard one is applied to all faces, a withdrawal drops the remaining advertisers' cost, hyperbolic marks are dropped. Proved for any history and any number of advertisers: one cost is charged on all faces and it is a cost some router announces for the prefix now, or 0 if somebody has withdrawn it (C21_some_cost_partial). The full claim is proved in link-state mode for prefixes with one advertiser over their history, for prefixes only advertised with cost 0, and for any number of advertisers that ask for the same cost while nobody has withdrawn. Missing: what is false (different costs, cost after a withdrawal, hyperbolic marks), and prefixes that are names of routers."
  },
  {
   "property": "C22",
   "status": "proved",
   "theorems": [
    "Nlsr.C22_update"
   ],
   "note": "Recorded faces, registrations (with the given cost) and unregistrations of one update, from every reachable state, for names that are no neighbour's; faces without a known id get no command. Precondition: the hops given name distinct faces (C01)."
  },
  {
   "property": "C23",
   "status": "proved",
   "theorems": [
    "Nlsr.C23_routes"
   ],
   "note": "NFD's routes as a fold of all commands sent; for histories in which no command fails and no face id changes, over names not registered from outside."
  },
  {
   "property": "C24",
   "status": "proved",
   "theorems": [
    "Nlsr.C24_neighbors"
   ],
   "note": "All histories, including failures and face changes; a direct call of registerPrefix for the neighbour's own name (made by Nlsr at start-up) is excluded by hypothesis."
  },
  {
   "property": "C25",
   "status": "partial",
   "theorems": [
    "Nlsr.C25_refresh_partial",
    "Nlsr.C25_violated_raised"
   ],
   "note": "Holds for every history as long as the latest update raises no cost; C25_violated_raised shows that after a cost increase the refresh registers the old, lower cost (addNextHop keeps the cheaper hop)."
  },
  {
   "property": "C26",
   "status": "proved",
   "theorems": [
    "Nlsr.C26_at_most_four",
    "Nlsr.C26_same_request",
    "Nlsr.C26_success_stops",
    "Nlsr.C26_success_stops_strategy",
    "Nlsr.C26_retries"
   ],
   "note": "Commands are grouped by the call that caused them; at most four, all alike, none after a success, and a retry exactly while fewer than four were sent and the face is known."
  },
  {
   "property": "C27",
   "status": "partial",
   "theorems": [
    "Nlsr.C27_one_per_key",
    "Nlsr.C27_old_ignored",
    "Nlsr.C27_newer_only_partial",
    "Nlsr.C27_violated_wrap"
   ],
   "note": "One LSA per (router, type) and rejection of old numbers hold in every reachable state. The number of a stored LSA never decreases except when an own LSA numbered 2^64-1 is refreshed (it wraps to 0); the witness is C27_violated_wrap."
  },
  {
   "property": "C28",
   "status": "partial",
   "theorems": [
    "Nlsr.C28_names_partial",
    "Nlsr.C28_adjacencies_partial",
    "Nlsr.C28_coordinates_partial",
    "Nlsr.C28_violated_name_cost",
    "Nlsr.C28_violated_link_cost",
    "Nlsr.C28_violated_coordinates"
   ],
   "note": "Installing keeps the map of names, the adjacency list and the coordinates of the newest LSA up to the code's own equality; fails for name costs, link costs and coordinates closer than that equality can tell (C28_violated_*)."
  },
  {
   "property": "C29",
   "status": "proved",
   "theorems": [
    "Nlsr.C29_signals_complete"
   ],
   "note": "Full property: replaying every emitted signal yields exactly the LSDB's keys and contents in every reachable state."
  },
  {
   "property": "C30",
   "status": "partial",
   "theorems": [
    "Nlsr.C30_one_timer",
    "Nlsr.C30_other_step",
    "Nlsr.C30_first_timer",
    "Nlsr.C30_expires",
    "Nlsr.C30_violated_stale_timer"
   ],
   "note": "One timer per stored LSA, other routers' LSAs are removed exactly by their timer. Fails for a stale timer of a removed own adjacency LSA (C30_violated_stale_timer)."
  },
  {
   "property": "C31",
   "status": "partial",
   "theorems": [
    "Nlsr.C31_refresh_partial",
    "Nlsr.C31_own_stays",
    "Nlsr.C31_violated_wrap"
   ],
   "note": "Every timer of an own LSA raises its number, publishes it and sets the timer again, except that the number wraps at 2^64 (C31_violated_wrap)."
  },
  {
   "property": "C32",
   "status": "proved",
   "theorems": [
    "Nlsr.C32_highest_monotone",
    "Nlsr.C32_interests_ordered",
    "Nlsr.C32_retry",
    "Nlsr.C32_retry_fires",
    "Nlsr.C32_outdated_data"
   ],
   "note": "Over every execution of the LSDB model."
  },
  {
   "property": "C33",
   "status": "partial",
   "theorems": [
    "Nlsr.C33_own_interest",
    "Nlsr.C33_exact_version",
    "Nlsr.C33_stored_prefix",
    "Nlsr.C33_violated_segment"
   ],
   "note": "Own-LSA interests are answered iff the number is the stored one; all data sent carries the named version. Segment interests whose segment is no longer kept get data under another name (C33_violated_segment)."
  },
  {
   "property": "C34",
   "status": "partial",
   "theorems": [
    "Nlsr.Router.C34_violated_daemon",
    "Nlsr.C34_fault_exact_partial",
    "Nlsr.C34_violated"
   ],
   "note": "No exception unless the name is recognised as own and its last component is no number; such names do stop the daemon (C34_violated)."
  },
  {
   "property": "C35",
   "status": "partial",
   "theorems": [
    "Nlsr.C35_adopt_partial",
    "Nlsr.C35_not_newer",
    "Nlsr.C35_violated_dry_run",
    "Nlsr.C35_violated_max"
   ],
   "note": "Proved for name, adjacency (mode off) and coordinate (mode on) LSAs: the number published next exceeds the reported one, for numbers below 2^64-1. Violated in hyperbolic dry-run (coordinate or adjacency counters not adopted) and at 2^64-1: C35_violated_dry_run, C35_violated_max."
  },
  {
   "property": "C36",
   "status": "partial",
   "theorems": [
    "Nlsr.C36_name_coordinate_partial",
    "Nlsr.C36_adjacency_partial",
    "Nlsr.C36_violated_stale_report"
   ],
   "note": "Proved for name and coordinate LSAs in every history without wrap-around; for adjacency LSAs in histories where sync reports of own adjacency numbers are not stale. Violated by a stale report after the own adjacency LSA was removed: C36_violated_stale_report."
  },
  {
   "property": "C37",
   "status": "proved",
   "theorems": [
    "Nlsr.C37_pending",
    "Nlsr.C37_coalesced",
    "Nlsr.C37_built_lists",
    "Nlsr.C37_put_off",
    "Nlsr.C37_none_active",
    "Nlsr.C37_builds_active"
   ],
   "note": "Proved over every reachable state: at most one build is pending and the flag agrees with it; k requests coalesce into one; a due build that is not possible is put off; with no active neighbour the own adjacency LSA is removed and nothing announced; otherwise the LSA built lists exactly the active neighbours and their configured costs. C37_builds_active additionally says what is then stored, for integral costs and a new sequence number (the cost comparison tolerance is C46's finding)."
  },
  {
   "property": "C38",
   "status": "partial",
   "theorems": [
    "Nlsr.C38_lifetime_partial",
    "Nlsr.C38_violated"
   ],
   "note": "Lifetime of a first-seen LSA is the remaining one; negative or very large remaining times are not handled (C38_violated)."
  },
  {
   "property": "C39",
   "status": "partial",
   "theorems": [
    "Nlsr.C39_no_reuse_partial",
    "Nlsr.C39_adjacency_partial",
    "Nlsr.C39_violated_dry_run",
    "Nlsr.C39_violated_stale_report"
   ],
   "note": "Proved over any number of sessions with a crash between any two outputs, for types whose counter is persisted in the configured mode. Violated in dry-run mode (adjacency or coordinate number not restored) and by a stale report: C39_violated_dry_run, C39_violated_stale_report."
  },
  {
   "property": "C40",
   "status": "proved",
   "theorems": [
    "Nlsr.C40_disk_first"
   ],
   "note": "Every publish output in every history is preceded by a persist output carrying at least that number for that type."
  },
  {
   "property": "C41",
   "status": "proved",
   "theorems": [
    "Nlsr.C41_down",
    "Nlsr.C41_inactive",
    "Nlsr.C41_nack",
    "Nlsr.C41_timeout",
    "Nlsr.C41_losses"
   ],
   "note": "over all reachable states of the neighbour model; the history of losses is tied to interests sent by C41_losses. Retry counts below 2^32 (the code's counter type)."
  },
  {
   "property": "C42",
   "status": "proved",
   "theorems": [
    "Nlsr.C42_up",
    "Nlsr.C42_valid",
    "Nlsr.C42_sender"
   ],
   "note": "C42_up (only by a validated reply), C42_valid (exact effect on every neighbour), C42_sender (the reply answers an interest that was sent)."
  },
  {
   "property": "C43",
   "status": "proved",
   "theorems": [
    "Nlsr.C43_rebuild"
   ],
   "note": "stated for every step: one rebuild request iff some status changes."
  },
  {
   "property": "C44",
   "status": "partial",
   "theorems": [
    "Nlsr.C44_answered_partial",
    "Nlsr.C44_violated_longer"
   ],
   "note": "C44_violated_longer: names with INFO again further on are answered too; C44_answered_partial gives the exact condition. Answering also requires the carried name to be a neighbour, proved in both directions."
  },
  {
   "property": "C45",
   "status": "proved",
   "theorems": [
    "Nlsr.C45_names_distinct",
    "Nlsr.C45_insert",
    "Nlsr.C45_updates_local"
   ],
   "note": "Whole property, over every sequence of list operations."
  },
  {
   "property": "C46",
   "status": "partial",
   "theorems": [
    "Nlsr.C46_equality_partial",
    "Nlsr.C46_not_reflexive",
    "Nlsr.C46_not_symmetric"
   ],
   "note": "Proved for lists with distinct names and whole-number costs. Fractional costs refute it: C46_not_reflexive, C46_not_symmetric."
  },
  {
   "property": "C47",
   "status": "partial",
   "theorems": [
    "Nlsr.C47_buildable_partial",
    "Nlsr.C47_violated"
   ],
   "note": "The rule the code implements is proved exactly; the documented rule fails because one active neighbour suffices (C47_violated)."
  },
  {
   "property": "C48",
   "status": "proved",
   "theorems": [
    "Nlsr.C48_advertised",
    "Nlsr.C48_sorted",
    "Nlsr.C48_report"
   ],
   "note": "For every sequence of inserts and erases: advertised iff a source inserted it and did not erase it since, cost of the latest insert, reports of change, listing sorted and duplicate-free."
  },
  {
   "property": "C49",
   "status": "proved",
   "theorems": [
    "Nlsr.C49_names",
    "Nlsr.C49_no_duplicates",
    "Nlsr.C49_publish",
    "Nlsr.C49_idempotent",
    "Nlsr.C49_code",
    "Nlsr.C49_lsa"
   ],
   "note": "For any sequence of commands and other LSDB events the advertised set equals the abstract set of the commands' history, has no duplicates, is published in the own Name LSA (C49_lsa, under the hypotheses that nobody forges the own Name LSA and the sequence file works), repeated commands change nothing, and the reply code is as documented."
  },
  {
   "property": "C50",
   "status": "partial",
   "theorems": [
    "Nlsr.C50_refused",
    "Nlsr.C50_new_cost_partial",
    "Nlsr.C50_violated_saved"
   ],
   "note": "A re-advertisement that is refused changes nothing; an accepted one carries the requested cost (C50_new_cost_partial, costs below 2^53). C50_violated_saved: re-advertising with another cost and the save flag is answered 205 while the old cost stays advertised."
  },
  {
   "property": "C51",
   "status": "partial",
   "theorems": [
    "Nlsr.C51_saved_partial",
    "Nlsr.C51_deleted_partial",
    "Nlsr.C51_restart_partial",
    "Nlsr.C51_restart_deleted_partial",
    "Nlsr.C51_save_delete_partial",
    "Nlsr.C51_violated_delete",
    "Nlsr.C51_violated_period",
    "Nlsr.C51_violated_cost",
    "Nlsr.C51_violated_undefined"
   ],
   "note": "Saving, deleting and the restart that follows are proved for URIs without a period, costs below 2^53 and (deleting) saved cost 0. C51_violated_delete, C51_violated_period, C51_violated_cost, C51_violated_undefined: the other cases fail in the code."
  },
  {
   "property": "C52",
   "status": "partial",
   "theorems": [
    "Nlsr.C52_in_range_partial",
    "Nlsr.C52_fetch_tries",
    "Nlsr.C52_violated_fetch_tries"
   ],
   "note": "Every accepted configuration has its parameters in range, except that the number of face dataset fetches is left uninitialised when there is no neighbors section (C52_violated_fetch_tries)."
  },
  {
   "property": "C53",
   "status": "partial",
   "theorems": [
    "Nlsr.C53_coordinates_partial",
    "Nlsr.C53_violated_spelling",
    "Nlsr.C53_violated_angle"
   ],
   "note": "Radius and angle were read when hyperbolic routing is on, for the spellings the code recognises. Violated: an unrecognised spelling and an angle list that does not parse (C53_violated_spelling, C53_violated_angle)."
  },
  {
   "property": "C54",
   "status": "proved",
   "theorems": [
    "Nlsr.C54_round_trip",
    "Nlsr.C54_consumes_prefix",
    "Nlsr.C54_format"
   ],
   "note": "The primitives belong to ndn-cxx and are modelled from its documented format."
  },
  {
   "property": "C55",
   "status": "proved",
   "theorems": [
    "Nlsr.C55_round_trip",
    "Nlsr.C55_types"
   ],
   "note": "The time and URI text codecs are parameters with their round-trip law as hypothesis; doubles are 64-bit patterns; encodings are at most 2^64 octets."
  },
  {
   "property": "C56",
   "status": "proved",
   "theorems": [
    "Nlsr.C56_accepted_reencodes",
    "Nlsr.C56_accepted_wellformed",
    "Nlsr.C56_injective",
    "Nlsr.C56_wrong_type_rejected",
    "Nlsr.C56_trailing_rejected"
   ],
   "note": "Same parameters as C55. 'Equal' is equality of the decoded values; the octets accepted need not be the canonical ones."
  },
  {
   "property": "C57",
   "status": "partial",
   "theorems": [
    "Nlsr.C57_sync_origin_partial",
    "Nlsr.C57_violated",
    "Nlsr.C57_distinct_partial"
   ],
   "note": "The origin is recovered exactly when the network name contains neither an nlsr nor an LSA component (router and site names are unrestricted). C57_violated: a network name containing such a component makes the update attributed to the wrong router or dropped."
  },
  {
   "property": "C58",
   "status": "partial",
   "theorems": [
    "Nlsr.C58_interest_names_partial",
    "Nlsr.C58_violated",
    "Nlsr.C58_injective_partial"
   ],
   "note": "Interest names identify router, type and number when the network name contains no LSA component. C58_violated is the counterexample otherwise."
  },
  {
   "property": "C59",
   "status": "proved",
   "theorems": [
    "Nlsr.C59_fetch",
    "Nlsr.C59_next"
   ],
   "note": "for every pattern of failures and replies."
  },
  {
   "property": "C60",
   "status": "partial",
   "theorems": [
    "Nlsr.C60_ids",
    "Nlsr.C60_no_status",
    "Nlsr.C60_created",
    "Nlsr.C60_dataset",
    "Nlsr.C60_destroyed_partial",
    "Nlsr.C60_violated_shared",
    "Nlsr.C60_destroyed_first"
   ],
   "note": "C60_violated_shared: of two neighbours behind one face only the first goes down when it is destroyed. Ids, creation, datasets and absence of other status changes are proved in full. C60_destroyed_first gives the exact effect of a destruction, also with shared faces; the promised effect (C60_destroyed_partial) needs that no other neighbour has the face."
  },
  {
   "property": "C61",
   "status": "proved",
   "theorems": [
    "Nlsr.C61_once",
    "Nlsr.C61_which"
   ],
   "note": "the full list of strategy commands as a function of the notifications, while the daemon runs."
  },
  {
   "property": "C62",
   "status": "partial",
   "theorems": [
    "Nlsr.C62_history",
    "Nlsr.C62_segment",
    "Nlsr.C62_published",
    "Nlsr.C62_find_key_partial",
    "Nlsr.C62_find_cert",
    "Nlsr.C62_publish",
    "Nlsr.C62_publish_ends_iff",
    "Nlsr.C62_interest",
    "Nlsr.C62_sent",
    "Nlsr.C62_interest_run",
    "Nlsr.C62_violated_loop",
    "Nlsr.C62_violated_self",
    "Nlsr.C62_violated_locator",
    "Nlsr.C62_violated_key_name"
   ],
   "note": "Lookups return the last certificate inserted for the key (key names that do not themselves look like certificate names) and certificate-name lookups need the full name; publishing ends iff no name is visited twice, and then stores and listens for exactly the chain (C62_segment says when it starts), and every certificate of the chain, last of its key, is sent to those who ask (C62_published). C62_history: contents and answers after any history. Violated: signers that form a loop (or a certificate that names itself as signer) never end, a missing key locator name throws, and a key name of the shape of a certificate name is never found."
  },
  {
   "property": "C63",
   "status": "partial",
   "theorems": [
    "Nlsr.C63_lines",
    "Nlsr.C63_cost_partial",
    "Nlsr.C63_listed",
    "Nlsr.C63_announced",
    "Nlsr.C63_violated_negative",
    "Nlsr.C63_violated_rest"
   ],
   "note": "Exactly which command lines send an update and what each sends, for all argument lists; plain costs below 2^31 are requested, listed and announced exactly, greater ones and texts without a number are refused. Violated: negative numbers are accepted and become 2^64-n, and text behind a number is ignored."
  },
  {
   "property": "C64",
   "status": "partial",
   "theorems": [
    "Nlsr.C64_counts_partial",
    "Nlsr.C64_increments",
    "Nlsr.C64_violated_overflow"
   ],
   "note": "Holds while every counter stays below 2^31; the counters are int, and the 2^31st increment overflows (C64_violated_overflow)."
  },
  {
   "property": "C65",
   "status": "proved",
   "theorems": [
    "Nlsr.C65_no_lapse"
   ],
   "note": "Same histories as C23; a route recorded is unexpired while no refresh is ten or more seconds overdue."
  },
  {
   "property": "C66",
   "status": "partial",
   "theorems": [
    "Nlsr.C66_withdrawn_partial",
    "Nlsr.C66_violated_retry"
   ],
   "note": "Holds if nothing fails; C66_violated_retry shows that a failure answer arriving after the removal makes the retry re-install the route."
  },
  {
   "property": "C67",
   "status": "partial",
   "theorems": [
    "Nlsr.C67_flags_partial",
    "Nlsr.C67_violated_flags"
   ],
   "note": "Holds while all updates of the prefix carry the same flags; C67_violated_flags shows that the refresh keeps the flags of the first update."
  },
  {
   "property": "C68",
   "status": "partial",
   "theorems": [
    "Nlsr.C68_malformed_partial",
    "Nlsr.C68_violated"
   ],
   "note": "C68_violated: any interest /<router>/nlsr/INFO/<x> with x not a TLV name raises an exception nothing catches before main. C68_malformed_partial characterises the interests that do."
  },
  {
   "property": "C69",
   "status": "proved",
   "theorems": [
    "Nlsr.C69_round_trip",
    "Nlsr.C69_hello_back"
   ],
   "note": "two independent routers; hypotheses are the size limits of TLV names and packets."
  },
  {
   "property": "C70",
   "status": "partial",
   "theorems": [
    "Nlsr.C70_operator_partial",
    "Nlsr.C70_violated_plain_name"
   ],
   "note": "Proved for routers whose name contains the component %C1.Router (C70_operator_partial). Violated for other router names: the site cannot be told from the router then, and the command is for another name (C70_violated_plain_name)."
  },
  {
   "property": "C71",
   "status": "partial",
   "theorems": [
    "Nlsr.C71_loops_partial",
    "Nlsr.C71_violated"
   ],
   "note": "C71_violated: each successful registration of the neighbour's prefix starts another loop; C71_loops_partial counts them."
  },
  {
   "property": "C72",
   "status": "partial",
   "theorems": [
    "Nlsr.C72_minus_partial",
    "Nlsr.C72_as_written_partial",
    "Nlsr.C72_default_partial",
    "Nlsr.C72_large_partial",
    "Nlsr.C72_violated_unit",
    "Nlsr.C72_violated_negative",
    "Nlsr.NumText.C72_every_text_partial"
   ],
   "note": "Which value every text has, for all parameters: C72_every_text_partial, against the grammar of numbers in Spec/NumText. Exact for decimal digits: below 2^32, or 2^31 where the code reads an int; larger numbers are replaced by the default without a word (C72_large_partial). What becomes of numbers with a minus sign: C72_minus_partial. Violated: a value with a unit is silently replaced by the default, a negative one wraps around."
  },
  {
   "property": "C73",
   "status": "partial",
   "theorems": [
    "Nlsr.C73_prefixes_partial",
    "Nlsr.C73_violated_twice",
    "Nlsr.C73_violated_none"
   ],
   "note": "Proved for files with exactly one general section. Violated: without such a section the router has the empty name; with two the network appears twice in the LSA prefix."
  },
  {
   "property": "C74",
   "status": "partial",
   "theorems": [
    "Nlsr.C74_neighbors_partial",
    "Nlsr.C74_cost_checked",
    "Nlsr.C74_violated_special_cost"
   ],
   "note": "Names, status, face and cost proved, except that the cost -12345 is let through (C74_violated_special_cost)."
  },
  {
   "property": "C75",
   "status": "proved",
   "theorems": [
    "Nlsr.C75_hello"
   ],
   "note": "For runs in which no counter overflows (C64)."
  },
  {
   "property": "C76",
   "status": "partial",
   "theorems": [
    "Nlsr.C76_sent_interests_partial",
    "Nlsr.C76_received_data_partial",
    "Nlsr.C76_violated_not_sent",
    "Nlsr.C76_violated_kept",
    "Nlsr.C76_violated_no_segment",
    "Nlsr.C76_violated_stored",
    "Nlsr.C76_own_reply_partial",
    "Nlsr.C76_fetched_partial",
    "Nlsr.C76_sums_partial"
   ],
   "note": "Interests sent per type are exact, the total is an upper bound, received data balances with interests sent; interests for own LSAs and LSAs fetched count once per type and in total; the counters per type add up to the total of data sent and to at most the other totals. The rest fails: C76_violated_*."
  },
  {
   "property": "C77",
   "status": "partial",
   "theorems": [
    "Nlsr.C77_served_partial",
    "Nlsr.C77_violated_elsewhere",
    "Nlsr.C77_configured_stays_partial",
    "Nlsr.C77_violated_replaced"
   ],
   "note": "Found by its name, and sent in answer to every interest for its name or key, when no cache holds another certificate of the same key and the certificate is the daemon's, the router's, the site's or an operator's. Violated otherwise: the chain walk replaces the configured certificate by the one in the unverified cache, and certificates of other entities are stored without an interest filter."
  },
  {
   "property": "C78",
   "status": "partial",
   "theorems": [
    "Nlsr.C78_exit",
    "Nlsr.C78_not_sent",
    "Nlsr.C78_daemon_partial",
    "Nlsr.C78_violated_nack",
    "Nlsr.C78_violated_applied",
    "Nlsr.C78_violated_saved",
    "Nlsr.C78_refused"
   ],
   "note": "Status 0 iff the answer is 200, 204, 205 or content type Nack; without save/delete the daemon's answer gives 0 and the prefix set is as asked; commands that start nothing: status 1 and 2 exactly. Violated: a Nack answer gives 0; a failed save gives 1 although the prefix is announced; saving what is saved already gives 1."
  },
  {
   "property": "C79",
   "status": "proved",
   "theorems": [
    "Nlsr.C79_unreadable",
    "Nlsr.C79_last",
    "Nlsr.C79_lsdb"
   ],
   "note": "For all three types, also for data that are no data set to their end and for several LSAs of one origin; the transport of segments is ndn-cxx's and not modelled."
  },
  {
   "property": "C80",
   "status": "partial",
   "theorems": [
    "Nlsr.C80_lsdb_partial",
    "Nlsr.C80_objects",
    "Nlsr.C80_routing_table",
    "Nlsr.C80_violated_coordinates",
    "Nlsr.C80_methods_partial",
    "Nlsr.C80_neighbour_partial",
    "Nlsr.C80_violated_link_cost",
    "Nlsr.C80_violated_next_hop",
    "Nlsr.C80_violated_entry",
    "Nlsr.C80_violated_name_list",
    "Nlsr.C80_content"
   ],
   "note": "All call orders for adjacency LSAs and the routing table; for name LSAs all but changes through getNpl(); for coordinate LSAs the call orders of the LSDB and all orders of the setters; for neighbours all but setLinkCost. The rest is refuted: CoordinateLsa::update, NameLsa::getNpl(), Adjacent::setLinkCost, the setters of NextHop and RoutingTableEntry::getNexthopList() leave the cached block."
  },
  {
   "property": "C81",
   "status": "partial",
   "theorems": [
    "Nlsr.C81_loop_free_partial",
    "Nlsr.C81_violated_zero"
   ],
   "note": "Proved for networks all of whose usable links have a positive cost: C81_loop_free_partial (next hop unique up to ties, no forwarding loop, delivery along a path of least cost with distinct routers). Refuted for links of cost zero, which the configuration accepts: C81_violated_zero exhibits a converged seven router network in which two routers are each other's next hop."
  },
  {
   "property": "C82",
   "status": "partial",
   "theorems": [
    "Nlsr.C82_best_faces_partial",
    "Nlsr.C82_violated_hyperbolic"
   ],
   "note": "Proved for link-state routing (hyperbolic-routing off or dry) and prefixes that are neither a router name nor a neighbour name, while no cost handed to the FIB was out of range. Refuted in hyperbolic mode: C82_violated_hyperbolic."
  },
  {
   "property": "C83",
   "status": "partial",
   "theorems": [
    "Nlsr.C83_no_stray_partial",
    "Nlsr.C83_routes_partial",
    "Nlsr.C83_best_partial",
    "Nlsr.C83_no_lapse",
    "Nlsr.C83_refreshed",
    "Nlsr.C83_violated_new_face"
   ],
   "note": "Proved for every run in which NFD accepts and promptly answers registrations and a neighbour is given a face only when it has none: NFD has no route that the FIB does not list on the faces the neighbours have; exactly those routes as long as no listed neighbour gets a face back; routes do not lapse; a refresh restores missing ones. The converse direction is refuted for a neighbour whose face is lost and comes back with another id: its routes stay missing until the refresh (up to twice lsa-refresh-time)."
  },
  {
   "property": "C84",
   "status": "partial",
   "theorems": [
    "Nlsr.C84_as_started",
    "Nlsr.C84_links_partial",
    "Nlsr.C84_configured",
    "Nlsr.C84_soon",
    "Nlsr.C84_violated_forged"
   ],
   "note": "Proved for link-state routing while no other router hands over an Adjacency LSA in this router's name and the sequence number has not wrapped. Forged origin refuted: C84_violated_forged."
  },
  {
   "property": "C85",
   "status": "partial",
   "theorems": [
    "Nlsr.Net.C85_agree_partial",
    "Nlsr.Net.C85_source",
    "Nlsr.Net.C85_not_ahead",
    "Nlsr.Net.C85_violated_prefix_cost",
    "Nlsr.Net.C85_violated_own_report",
    "Nlsr.Net.C85_violated_dry_run",
    "Nlsr.Net.C85_violated_fraction"
   ],
   "note": "proved for all runs of networks of any size, with stops at any point; missing: prefix costs, reports to a router of numbers before its last one, restarts in dry-run mode, fractional link costs (all refuted by witness)"
  },
  {
   "property": "C86",
   "status": "partial",
   "theorems": [
    "Nlsr.Net.C86_forwarding_partial",
    "Nlsr.Net.C86_violated_loop"
   ],
   "note": "C86_forwarding_partial covers all of the statement for links that cost at least 1 and whole numbers, and distinct face URIs of a router's neighbours. That tables are computed from the current LSDB is assumed: C86_violated_loop shows a reachable network with nothing pending in which packets go round for ever."
  },
  {
   "property": "C87",
   "status": "partial",
   "theorems": [
    "Nlsr.C87_asked",
    "Nlsr.C87_kept",
    "Nlsr.C87_until",
    "Nlsr.C87_installed",
    "Nlsr.C87_not_newer",
    "Nlsr.C87_other_type",
    "Nlsr.C87_violated_restart"
   ],
   "note": "Missing: a report is not acted on if a higher number of that LSA was reported at any time before, even if no LSA of that router is stored any more (C87_violated_restart). Names are as in C57 (the network name has no component nlsr or LSA)."
  },
  {
   "property": "C88",
   "status": "partial",
   "theorems": [
    "Nlsr.C88_flags",
    "Nlsr.C88_not_downgraded",
    "Nlsr.C88_told",
    "Nlsr.C88_capture_partial",
    "Nlsr.C88_violated"
   ],
   "note": "Missing: routes to a router get the capture flag only if one of its LSAs is installed when its name is in the table without next hops (C88_capture_partial); otherwise they keep the child-inherit flag (C88_violated)."
  },
  {
   "property": "C89",
   "status": "partial",
   "theorems": [
    "Nlsr.Net.C89_delivered_partial",
    "Nlsr.Net.C89_listed",
    "Nlsr.Net.C89_single",
    "Nlsr.Net.C89_violated_loop"
   ],
   "note": "Proved for the faces the FIB lists, whichever of the cheapest is taken; and for one face per prefix outright. Refuted (C89_violated_loop): with several faces NFD is told outdated costs after a cost was raised, and packets go round. Excluded: prefixes that are router names, links that cost nothing."
  },
  {
   "property": "C90",
   "status": "partial",
   "theorems": [
    "Nlsr.C90_router_down_partial",
    "Nlsr.C90_withdrawn_partial",
    "Nlsr.C90_down_partial",
    "Nlsr.C90_down_timeouts_partial",
    "Nlsr.C90_violated_late",
    "Nlsr.C90_violated_unregistered",
    "Nlsr.C90_violated_invalid"
   ],
   "note": "Bound proved for a neighbour with a face and a hello timer when no data comes for its hellos: interval + timeout * retries without nacks, interval + 3 * timeout * retries with; also in runs of the whole router (C90_router_down_partial), where the link then is not in the own Adjacency LSA unless a build is pending (C90_withdrawn_partial, by C84_links_partial). Refuted otherwise: a reply validated after the face went down, a neighbour whose prefix was never registered, and data that fails validation each leave the neighbour ACTIVE for ever."
  },
  {
   "property": "C91",
   "status": "partial",
   "theorems": [
    "Nlsr.C91_offered_partial",
    "Nlsr.C91_told_partial",
    "Nlsr.C91_end_to_end_partial",
    "Nlsr.C91_violated_lower"
   ],
   "note": "Library table equals the last announced numbers, for all runs, protocols and modes; reports make the other router ask for exactly that LSA. Not covered, and false: a stale report of the own adjacency number (witness). Assumed: no fetched LSA carries the router's own name, numbers do not wrap, network names without nlsr/LSA components."
  },
  {
   "property": "C92",
   "status": "partial",
   "theorems": [
    "Nlsr.Net.C92_obtained",
    "Nlsr.Net.C92_same",
    "Nlsr.Net.C92_exchanged",
    "Nlsr.Net.C92_delivered_partial",
    "Nlsr.Net.C92_violated_links_gone"
   ],
   "note": "Proved for every pair of routers and all interleavings (C92_obtained), for all routers together (C92_same, C92_exchanged) and down to forwarding (C92_delivered_partial, which leaves out what C89 leaves out). A router that loses its last link announces nothing, so the others keep its Adjacency LSA until it expires: refuted in C92_violated_links_gone; the theorems assume that a router that has announced links still has one."
  },
  {
   "property": "C93",
   "status": "partial",
   "theorems": [
    "Nlsr.Net.C93_lists",
    "Nlsr.Net.C93_delivered_partial",
    "Nlsr.Net.C93_gone"
   ],
   "note": "The own Name LSA lists exactly what the configuration and the commands say (C93_lists), for all histories at all routers; forwarding to a nearest advertiser (C93_delivered_partial) and to nobody when all have withdrawn (C93_gone), in networks with nothing left to exchange or compute (C92 says when that is). C93_delivered_partial leaves out what C89 leaves out (violated there)."
  },
  {
   "property": "C94",
   "status": "partial",
   "theorems": [
    "Nlsr.C94_routes_partial",
    "Nlsr.C94_up_partial",
    "Nlsr.C94_violated_late_reply",
    "Nlsr.C94_violated_late_answer",
    "Nlsr.C94_violated_advertised"
   ],
   "note": "Proved for runs in which NFD accepts registrations, answers while the neighbour has the face the request was for, and hello replies are validated while their sender has a face, and for LSA and sync prefixes no other router advertised. Refuted outside: a reply validated after the face is gone (no sync route ever), an answer after the face is gone (stale face id), another router advertising the prefix."
  },
  {
   "property": "C95",
   "status": "partial",
   "theorems": [
    "Nlsr.C95_scheduled_partial",
    "Nlsr.C95_sent",
    "Nlsr.C95_answered",
    "Nlsr.C95_violated_refused",
    "Nlsr.C95_violated_twice"
   ],
   "note": "Proved that the registration is under way or a hello is scheduled at most one interval ahead, in runs as for C94; the two steps without such assumptions. Refuted: a refused registration ends the greeting; a face that comes back leads to several hellos per interval."
  },
  {
   "property": "C96",
   "status": "partial",
   "theorems": [
    "Nlsr.SeqFile.C96_round_trip",
    "Nlsr.SeqFile.C96_cut_lower",
    "Nlsr.SeqFile.C96_cut_keeps",
    "Nlsr.SeqFile.C96_crash",
    "Nlsr.SeqFile.C96_no_reuse_partial",
    "Nlsr.SeqFile.C96_on_disk",
    "Nlsr.SeqFile.C96_violated_disk_full",
    "Nlsr.SeqFile.C96_violated_damaged",
    "Nlsr.SeqFile.C96_adjacency_partial"
   ],
   "note": "Text, cuts, kill points and the refinement of the restart history are proved, for ADJACENCY numbers (C96_adjacency_partial) with the freshness assumption of C39 and hyperbolic routing off. A full disk is refuted (failed writes are not noticed and the shorter file replaces the good one), and so is a damaged file. Power loss without fsync is not modelled."
  },
  {
   "property": "C97",
   "status": "partial",
   "theorems": [
    "Nlsr.Nlsrc.C97_exit",
    "Nlsr.Nlsrc.C97_help",
    "Nlsr.Nlsrc.C97_options",
    "Nlsr.Nlsrc.C97_verified",
    "Nlsr.Nlsrc.C97_shows",
    "Nlsr.Nlsrc.C97_status",
    "Nlsr.Nlsrc.C97_asks",
    "Nlsr.Nlsrc.C97_negative",
    "Nlsr.Nlsrc.C97_violated_unverified",
    "Nlsr.Nlsrc.C97_violated_abort",
    "Nlsr.Nlsrc.C97_violated_cut"
   ],
   "note": "Command lines: exact in both directions, with the exit statuses of those that start nothing. Verification: status information of other routers is shown only if all packets pass. Violated: answers to advertise/withdraw sent to another router are not verified; -R with a text that is no name aborts; a data set that breaks off is shown with status 0."
  },
  {
   "property": "C98",
   "status": "partial",
   "theorems": [
    "Nlsr.C98_accepted_partial",
    "Nlsr.C98_published",
    "Nlsr.C98_refused",
    "Nlsr.C98_violated_documented",
    "Nlsr.C98_violated_ignored",
    "Nlsr.C98_violated_missing"
   ],
   "note": "Exact characterisation of the accepted sections and what they set; every certificate named after the two validators is published and trusted, and no other. Fails for entries right after the validator (silently ignored, as in the documented example) and for missing files (uncaught exception): C98_violated_*."
  },
  {
   "property": "C99",
   "status": "partial",
   "theorems": [
    "Nlsr.Schema.C99_hello",
    "Nlsr.Schema.C99_lsa",
    "Nlsr.Schema.C99_dataset",
    "Nlsr.Schema.C99_only",
    "Nlsr.Schema.C99_up",
    "Nlsr.Schema.C99_violated_origin",
    "Nlsr.Schema.C99_violated_unversioned"
   ],
   "note": "Acceptance of hello data, LSA data and data sets characterised exactly, nothing else passes, and a neighbour comes up only on its own key. Fails in what follows: the LSA inside the data is not compared with its name (C99_violated_origin), and LSA data without a version passes with another key (C99_violated_unversioned)."
  },
  {
   "property": "C100",
   "status": "proved",
   "theorems": [
    "Nlsr.Schema.C100_lsa",
    "Nlsr.Schema.C100_hello",
    "Nlsr.Schema.C100_dataset",
    "Nlsr.Schema.C100_not_router",
    "Nlsr.Schema.C100_operator",
    "Nlsr.Schema.C100_genuine"
   ],
   "note": "For chains of any length and all names (the router's name does not begin with localhop; the network name is without nlsr and LSA). The documented hierarchy is accepted."
  },
  {
   "property": "C101",
   "status": "partial",
   "theorems": [
    "Nlsr.Schema.C101_command",
    "Nlsr.Schema.C101_site",
    "Nlsr.Schema.C101_violated_remote"
   ],
   "note": "Commands characterised exactly; the sender is an operator below the anchor's owner. Commands to a remote router (nlsrc -R) never pass: C101_violated_remote."
  },
  {
   "property": "C102",
   "status": "partial",
   "theorems": [
    "Nlsr.Start.C102_start",
    "Nlsr.Start.C102_hello",
    "Nlsr.Start.C102_lsa",
    "Nlsr.Start.C102_served",
    "Nlsr.Start.C102_dataset_partial",
    "Nlsr.Start.C102_without",
    "Nlsr.Start.C102_violated_dataset",
    "Nlsr.Start.C102_violated_no_default"
   ],
   "note": "Proved for hello answers (down to the neighbour being up), LSAs and the serving of the certificate, for all key chains with the router identity; data sets are accepted exactly if the router identity is the default one of the key chain (C102_dataset_partial), because the dispatcher is not given the signing information: C102_violated_dataset, C102_violated_no_default. Signatures and validity periods are not modelled."
  },
  {
   "property": "C103",
   "status": "partial",
   "theorems": [
    "Nlsr.Access.C103_changes_partial",
    "Nlsr.Access.C103_refused",
    "Nlsr.Access.C103_obeyed",
    "Nlsr.Access.C103_forbidden",
    "Nlsr.Access.C103_violated_anyone",
    "Nlsr.Access.C103_violated_withdrawn"
   ],
   "note": "Proved for the prefix-update commands (C103_changes_partial names the RIB commands as the only other way). Refuted for the RIB commands, which are accepted unsigned under the router's own name (C103_violated_anyone, C103_violated_withdrawn)."
  },
  {
   "property": "C104",
   "status": "partial",
   "theorems": [
    "Nlsr.Net.C104_authentic_partial",
    "Nlsr.Net.C104_members",
    "Nlsr.Net.C104_own",
    "Nlsr.C104_violated_silenced",
    "Nlsr.Net.C104_violated_certificate"
   ],
   "note": "Proved for all events and packets as long as no stranger has a key with a chain to the anchor (C104_authentic_partial, C104_members, C104_own). Missing: costs of names (C85), fractional link costs (C46). Refuted: any certificate below the anchor is enough to forge LSAs (C104_violated_certificate); an unsigned report of the highest number stops all later LSAs of a router (C104_violated_silenced)."
  },
  {
   "property": "C105",
   "status": "partial",
   "theorems": [
    "Nlsr.Lsdb.C105_kept",
    "Nlsr.Segments.C105_not_segment",
    "Nlsr.Segments.C105_octets",
    "Nlsr.Segments.C105_fetched_partial",
    "Nlsr.Segments.C105_violated_large",
    "Nlsr.Segments.C105_violated_pushed_out",
    "Nlsr.Segments.C105_violated_crowd"
   ],
   "note": "Proved for all histories of the network: a fetch that ends yields exactly the encoding of the one LSA published under that type and number, whatever packets come; and a router serves the segments of a version as long as its store of 100 has room, in which case the fetch ends. Refuted in full generality: an LSA of more than 101 segments can never be fetched; 51 fetches of a two-segment LSA push the first one out of the store, and its second segment is then answered under a name the fetcher does not take."
  },
  {
   "property": "C106",
   "status": "partial",
   "theorems": [
    "Nlsr.Segments.C106_kept",
    "Nlsr.Segments.C106_current",
    "Nlsr.Segments.C106_handed_on_partial",
    "Nlsr.Segments.C106_violated_leftover",
    "Nlsr.Segments.C106_violated_old"
   ],
   "note": "Proved: only the timer or a completed fetch of the next number takes a stored segment away, and never the segments just fetched; if every version kept is complete, whoever asks gets the whole. Refuted in full generality: the rest of a failed fetch with a smaller version is handed out first, and the interest for its missing segments gets no answer; when a number is skipped, the LSA before it is still handed out."
  },
  {
   "property": "C107",
   "status": "partial",
   "theorems": [
    "Nlsr.C107_protocol",
    "Nlsr.C107_state",
    "Nlsr.C107_coordinates_partial",
    "Nlsr.C107_neighbors_partial",
    "Nlsr.C107_prefixes",
    "Nlsr.C107_violated_angles",
    "Nlsr.C107_violated_neighbor",
    "Nlsr.C107_violated_cost",
    "Nlsr.C107_violated_negative",
    "Nlsr.C107_violated_section",
    "Nlsr.C107_names",
    "Nlsr.NumText.C107_costs_partial",
    "Nlsr.NumText.C107_radius_partial",
    "Nlsr.NumText.C107_angles_partial",
    "Nlsr.NumText.C107_prefix_costs"
   ],
   "note": "Protocol, hyperbolic state and prefixes hold for all accepted files. Coordinates hold for decimals with commas, neighbours for files without repeated or empty names. For every text of a link cost, a radius, angles and a prefix cost: C107_costs_partial, C107_radius_partial, C107_angles_partial, C107_prefix_costs. Refuted: C107_violated_angles, _neighbor, _cost, _negative, _section."
  },
  {
   "property": "C108",
   "status": "partial",
   "theorems": [
    "Nlsr.C108_closest",
    "Nlsr.C108_greedy_partial",
    "Nlsr.C108_violated_loop",
    "Nlsr.C108_violated_direction"
   ],
   "note": "C108_closest in full; delivery proved where every router has a neighbour closer to the destination than itself (C108_greedy_partial); elsewhere refuted (C108_violated_loop), and routers in the same direction have no distance (C108_violated_direction)."
  },
  {
   "property": "C109",
   "status": "partial",
   "theorems": [
    "Nlsr.Net.C109_coordinates",
    "Nlsr.Net.C109_closest",
    "Nlsr.Net.C109_delivered_partial",
    "Nlsr.Net.C109_known",
    "Nlsr.Net.C109_violated_loop"
   ],
   "note": "Coordinates, exchange and choice of the neighbour in full; delivery under the condition of C108_greedy_partial; elsewhere refuted (C109_violated_loop)."
  },
  {
   "property": "C110",
   "status": "partial",
   "theorems": [
    "Nlsr.C110_time",
    "Nlsr.Print.C110_bits",
    "Nlsr.Print.C110_unit",
    "Nlsr.Print.C110_special",
    "Nlsr.Print.C110_sign",
    "Nlsr.Print.C110_ties",
    "Nlsr.Print.C110_screens",
    "Nlsr.Print.C110_lsdb",
    "Nlsr.Print.C110_routing",
    "Nlsr.Print.C110_status",
    "Nlsr.Print.C110_told",
    "Nlsr.Print.C110_whole",
    "Nlsr.Print.C110_precise",
    "Nlsr.Print.C110_violated_digits",
    "Nlsr.Print.C110_violated_notYet",
    "Nlsr.Print.C110_violated_forged"
   ],
   "note": "Proved for names of ordinary types and URIs without commas and line ends: what is printed determines, and is determined by, everything but digits of costs and coordinates after the sixth, for lsdb, routing and status, and from one daemon to another end to end; whole costs below a million are shown exactly, every other number to within one part in 200000. Not so (proved): costs from a million on look the same; a URI with line ends in it is printed as further links; the text for a table not calculated yet is never printed."
  },
  {
   "property": "C111",
   "status": "partial",
   "theorems": [
    "Nlsr.Boot.C111_options",
    "Nlsr.Boot.C111_runs",
    "Nlsr.Boot.C111_status_partial",
    "Nlsr.Boot.C111_files",
    "Nlsr.Boot.C111_copy",
    "Nlsr.Boot.C111_violated_words",
    "Nlsr.Boot.C111_violated_aborted",
    "Nlsr.Boot.C111_violated_saved"
   ],
   "note": "Options: exact; the daemon runs iff the last-named file is read, parsed and accepted, with what it says; no other file is changed than nlsr.conf and test.seq in the state directory, which holds a copy when the daemon runs. Violated: words that are no options are ignored, a missing certificate file ends in an uncaught exception, a refused file has already replaced the saved copy."
  },
  {
   "property": "C112",
   "status": "proved",
   "theorems": [
    "Nlsr.Directed.C112_sent",
    "Nlsr.Directed.C112_first",
    "Nlsr.Directed.C112_again"
   ],
   "note": "All LSA interests are accounted for (C112_sent), the first goes to the reporting face, later ones to any."
  },
  {
   "property": "C113",
   "status": "partial",
   "theorems": [
    "Nlsr.LS.C113_link_state",
    "Nlsr.Npt.C113_whole",
    "Nlsr.Npt.C113_registered_partial",
    "Nlsr.Npt.C113_hyperbolic",
    "Nlsr.Npt.C113_error",
    "Nlsr.Npt.C113_violated_up",
    "Nlsr.Npt.C113_violated_large"
   ],
   "note": "Link-state routes are exact for all LSAs; sums with whole prefix costs up to 2^53-2^31 are exact; otherwise the registered cost is the sum rounded down or one more, and the order of costs is respected. Refuted: fractional prefix costs may be rounded up, and with prefix costs above 2^53 different route costs become equal."
  },
  {
   "property": "C114",
   "status": "partial",
   "theorems": [
    "Nlsr.Daemon.C114_readonly",
    "Nlsr.Daemon.C114_one_part_partial",
    "Nlsr.Daemon.C114_lsa_partial",
    "Nlsr.Daemon.C114_hello_partial",
    "Nlsr.Daemon.C114_hello_elsewhere",
    "Nlsr.Daemon.C114_dispatcher_partial",
    "Nlsr.Daemon.C114_keys_partial",
    "Nlsr.Daemon.C114_command_partial",
    "Nlsr.Daemon.C114_violated_local",
    "Nlsr.Daemon.C114_violated_parts"
   ],
   "note": "Proved for ordinary names (network not /localhop or /localhost, no KEY in the router name, certificates named like keys): one part per interest, each kind of interest reaches its part exactly once, commands have the effect of the command model; interests other than commands are read-only in every reachable state without conditions on names. Refuted for names under /localhost/nlsr (the dispatcher refuses its second prefix and only logs it) and for a router named like the LSA prefix."
  },
  {
   "property": "C115",
   "status": "partial",
   "theorems": [
    "Nlsr.Daemon.C115_ended",
    "Nlsr.Daemon.C115_prefixes_partial",
    "Nlsr.Daemon.C115_lsa_partial",
    "Nlsr.Daemon.C115_names_partial",
    "Nlsr.Daemon.C115_hello_partial",
    "Nlsr.Daemon.C115_dataset_partial",
    "Nlsr.Daemon.C115_refused_partial",
    "Nlsr.Daemon.C115_certificate_partial",
    "Nlsr.Daemon.C115_violated_silenced",
    "Nlsr.Daemon.C115_violated_local"
   ],
   "note": "Proved for all runs of a daemon with ordinary names (Plain) that has not ended. Not true in general: an interest under /<router>/nlsr/INFO whose last component carries no name ends every daemon (C115_violated_silenced), and a router called below /localhost/nlsr answers nothing there (C115_violated_local). The content of the data sets is in C38 and C100."
  },
  {
   "property": "C116",
   "status": "partial",
   "theorems": [
    "Nlsr.Daemon.C116_exact_partial",
    "Nlsr.Daemon.C116_histories_partial",
    "Nlsr.Daemon.C116_violated_anyone"
   ],
   "note": "exact list of what ends a daemon, over all histories, for plain configurations (C114) with certificates named as ndn-cxx demands; the claim that nothing does is refuted (C116_violated_anyone). A conversion of a double without defined result counts as an end. With refused registrations of NFD: C121_ends."
  },
  {
   "property": "C117",
   "status": "partial",
   "theorems": [
    "Nlsr.Net.C117_longest_partial",
    "Nlsr.Net.C117_not_astray",
    "Nlsr.Net.C117_single_partial",
    "Nlsr.Net.C117_both_partial",
    "Nlsr.Net.C117_around_partial",
    "Nlsr.Net.C117_violated_loop"
   ],
   "note": "Proved where every face listed for a shorter advertised prefix is also listed for the longest (and under three conditions on prefixes or topology that imply this), and that no packet is sent astray. Refuted in general: NLSR registers prefixes with CHILD_INHERIT, and NFD then mixes the routes of nested prefixes so that packets can go round among three routers (C117_violated_loop)."
  },
  {
   "property": "C118",
   "status": "partial",
   "theorems": [
    "Nlsr.Nfd.C118_capture",
    "Nlsr.C118_hello_partial",
    "Nlsr.C118_lsa_partial",
    "Nlsr.C118_sync_partial",
    "Nlsr.C118_violated_longer"
   ],
   "note": "Proved for packets none of whose prefixes longer than the neighbour's name (LSA prefix, sync prefix) has routes, in surroundings that answer promptly and when no other router advertises the LSA or sync prefix; shorter prefixes may have any routes. Refuted in general: a router that advertises a name below a neighbour's draws its hellos (C118_violated_longer)."
  },
  {
   "property": "C119",
   "status": "partial",
   "theorems": [
    "Nlsr.C119_lsas",
    "Nlsr.C119_small_partial",
    "Nlsr.C119_tables_partial",
    "Nlsr.C119_refused_partial",
    "Nlsr.C119_violated_dry",
    "Nlsr.C119_violated_kept",
    "Nlsr.C119_violated_refused"
   ],
   "note": "LSAs, prefixes and routing table entries become what the constructor makes of the block (C119_lsas, C119_small_partial, C119_tables_partial). Refuted: the dry-run table is appended to (C119_violated_dry), status, face and hyperbolic flag survive (C119_violated_kept), and a refused block stays as the encoding, with origin and number overwritten (C119_violated_refused); the lists of an LSA do stay (C119_refused_partial)."
  },
  {
   "property": "C120",
   "status": "partial",
   "theorems": [
    "Nlsr.C120_forgotten",
    "Nlsr.C120_kept",
    "Nlsr.C120_routes_partial",
    "Nlsr.C120_hyperbolic_partial",
    "Nlsr.C120_violated_stale_route"
   ],
   "note": "LSAs and prefixes of a silent router go in time, after any history (C120_forgotten) and not earlier (C120_kept). Refuted for the routing table (C120_violated_stale_route): nothing is calculated when LSAs of other routers expire, so routes to and through the router stay until something else asks for a calculation; when one runs they go (C120_routes_partial for link state, C120_hyperbolic_partial for hyperbolic routing, where a neighbour that still answers hellos keeps its route)."
  },
  {
   "property": "C121",
   "status": "partial",
   "theorems": [
    "Nlsr.RegDaemon.C121_asked",
    "Nlsr.RegDaemon.C121_refused",
    "Nlsr.RegDaemon.C121_served",
    "Nlsr.RegDaemon.C121_early",
    "Nlsr.RegDaemon.C121_ends",
    "Nlsr.RegDaemon.C121_delivered_partial",
    "Nlsr.RegDaemon.C121_violated_taken",
    "Nlsr.RegDaemon.C121_violated_later"
   ],
   "note": "Every prefix in use is registered or asked for, once, with the right flag (C121_asked); a refusal ends the daemon for good (C121_refused), and besides refusals exactly what C116 lists does (C121_ends); nothing is answered under a prefix before NFD has accepted it (C121_early); when all is accepted interests are treated as by the daemon of C114-C116 (C121_served) and NFD sends them to it unless a longer name has routes, or for commands and datasets routes that capture (C121_delivered_partial). Refuted: a name that another router advertises below the hello prefix takes the hellos away (C121_violated_taken); a refusal of a later registration, which another router caused by its certificate, ends the running daemon (C121_violated_later). Registrations of the sync library are external."
  },
  {
   "property": "C122",
   "status": "partial",
   "theorems": [
    "Nlsr.C122_adjacency_partial",
    "Nlsr.C122_name_partial",
    "Nlsr.C122_coordinate_partial",
    "Nlsr.C122_dataset_partial",
    "Nlsr.C122_violated_more",
    "Nlsr.C122_violated_angles"
   ],
   "note": "Equivalence between each decoder and the format of the headers, for all byte strings (C122_adjacency_partial, C122_name_partial, C122_coordinate_partial, C122_dataset_partial); partial because the decoders accept more than the headers say: further elements inside Lsa, Adjacency, PrefixInfo and NextHop (C122_violated_more), Coordinate LSAs without angles (C122_violated_angles), Name LSAs without names and doubles of single precision. Text of times and URIs is external (Codec)."
  },
  {
   "property": "C123",
   "status": "proved",
   "theorems": [
    "Nlsr.C123_accepted"
   ],
   "note": "C123_accepted, an equivalence for all trees. What the bounds do not catch (numbers that cannot be read, missing sections, capital letters in the hyperbolic state, the cost -12345) is part of the description; see C53, C72, C73, C107 for what follows from it. State directory, face URIs and the security section are tested by external code (ConfEnv). The readers of numbers it mentions are characterised by parseUnsigned_iff, parseSigned_iff and parseDouble_iff in Props/NumText."
  },
  {
   "property": "C124",
   "status": "proved",
   "theorems": [
    "Nlsr.C124_router_up",
    "Nlsr.C124_router_stays",
    "Nlsr.C124_announced",
    "Nlsr.C124_up",
    "Nlsr.C124_stays",
    "Nlsr.C124_reply"
   ],
   "note": "C124_up: the bound, for a neighbour with a face and a scheduled hello (C95 says which neighbours have one); C124_reply: what a validated reply does; C124_stays: no punctuality needed; C124_router_up and C124_router_stays: the same in runs of the whole router, whose effect on the hello protocol is shown to be a run of it (Router.project); C124_announced: the link is in the own Adjacency LSA, by C84_links_partial. That a reply passes validation is the validator's decision and not bounded in time here, hence the second alternative of C124_up. Answers, Punctual and RealFaces are hypotheses on each operation in the state it meets; the examples beside the theorems meet them and pass the bound."
  },
  {
   "property": "C125",
   "status": "partial",
   "theorems": [
    "Nlsr.C125_violated_kept",
    "Nlsr.C125_violated_for_ever",
    "Nlsr.C125_made_partial",
    "Nlsr.C125_bounded_partial",
    "Nlsr.C125_answering_partial"
   ],
   "note": "Violated: if no neighbour is ACTIVE and some configured neighbour has not missed hello-retries hellos (one that never got a face is sent none), every build is put off and the own Adjacency LSA keeps its dead links, is refreshed, and so lasts for ever (C125_violated_kept, C125_violated_for_ever). Proved: a build that comes due while some neighbour is ACTIVE or all have missed that many hellos is made at once, and then exactly the ACTIVE neighbours are claimed (C125_made_partial); so within adj-lsa-build-interval, or hello-retries times hello-timeout if longer, after the last change of status the claims are right, in all runs of the whole router (C125_bounded_partial), for instance while one ACTIVE neighbour answers its hellos (C125_answering_partial), if nobody hands over Adjacency LSAs in this router's name and the sequence number has not returned to zero. Missing: a bound while statuses keep changing, since each change starts the interval anew."
  }
 ]
}
