import Verif.Props.Access
import Verif.Props.Adjacency
import Verif.Props.Boot
import Verif.Props.Calc
import Verif.Props.Capture
import Verif.Props.CertHistory
import Verif.Props.CertServe
import Verif.Props.CertStore
import Verif.Props.Cmd
import Verif.Props.CmdFile
import Verif.Props.Conf
import Verif.Props.ConfMinus
import Verif.Props.ConfNames
import Verif.Props.ConfOk
import Verif.Props.ConfWords
import Verif.Props.Converged
import Verif.Props.Costs
import Verif.Props.Daemon
import Verif.Props.DecodeInto
import Verif.Props.Details
import Verif.Props.Details2
import Verif.Props.Directed
import Verif.Props.Ends
import Verif.Props.Faces
import Verif.Props.FacesFirst
import Verif.Props.Fib
import Verif.Props.FibHist
import Verif.Props.FibRetry
import Verif.Props.Grammar
import Verif.Props.Greet
import Verif.Props.Handed
import Verif.Props.Hello
import Verif.Props.HelloAnnounced
import Verif.Props.HelloDown
import Verif.Props.HelloLedger
import Verif.Props.HelloName
import Verif.Props.HelloUp
import Verif.Props.HypForward
import Verif.Props.Hyperbolic
import Verif.Props.LinkState
import Verif.Props.LsaStats
import Verif.Props.LsaStats2
import Verif.Props.Lsdb
import Verif.Props.LsdbAsk
import Verif.Props.LsdbBuild
import Verif.Props.LsdbContent
import Verif.Props.LsdbFetch
import Verif.Props.LsdbInterest
import Verif.Props.LsdbSeqs
import Verif.Props.LsdbTimers
import Verif.Props.Names
import Verif.Props.Nest
import Verif.Props.Net
import Verif.Props.NetCmd
import Verif.Props.NetForward
import Verif.Props.NetGaps
import Verif.Props.NetHyp
import Verif.Props.NetPrefix
import Verif.Props.NetSettles
import Verif.Props.NexthopList
import Verif.Props.Nlsrc
import Verif.Props.NlsrcData
import Verif.Props.NlsrcExit
import Verif.Props.NlsrcMain
import Verif.Props.NplList
import Verif.Props.Npt
import Verif.Props.NptFlags
import Verif.Props.NptSome
import Verif.Props.NumText
import Verif.Props.Outsider
import Verif.Props.Print
import Verif.Props.PutOff
import Verif.Props.Register
import Verif.Props.Round
import Verif.Props.Router
import Verif.Props.RouterLinks
import Verif.Props.RoutingTable
import Verif.Props.Schema
import Verif.Props.Security
import Verif.Props.Segments
import Verif.Props.SeqFile
import Verif.Props.SeqFileAdj
import Verif.Props.Serve
import Verif.Props.Silent
import Verif.Props.Start
import Verif.Props.Stats
import Verif.Props.Survive
import Verif.Props.Sync
import Verif.Props.Tlv
import Verif.Props.Trust
import Verif.Props.WireCache
import Verif.Props.WireCache2
import Verif.Props.WireCache3
import Verif.Props.Withdrawn
import Verif.Props.World
/- Prints the axioms every property theorem depends on (build output). -/
#print axioms Nlsr.Access.C103_changes_partial
#print axioms Nlsr.Access.C103_refused
#print axioms Nlsr.Access.C103_obeyed
#print axioms Nlsr.Access.C103_forbidden
#print axioms Nlsr.Access.C103_violated_anyone
#print axioms Nlsr.Access.C103_violated_withdrawn
#print axioms Nlsr.C45_names_distinct
#print axioms Nlsr.C45_insert
#print axioms Nlsr.C45_updates_local
#print axioms Nlsr.C46_equality_partial
#print axioms Nlsr.C46_not_reflexive
#print axioms Nlsr.C46_not_symmetric
#print axioms Nlsr.C47_buildable_partial
#print axioms Nlsr.C47_violated
#print axioms Nlsr.Boot.C111_options
#print axioms Nlsr.Boot.C111_runs
#print axioms Nlsr.Boot.C111_status_partial
#print axioms Nlsr.Boot.C111_files
#print axioms Nlsr.Boot.C111_copy
#print axioms Nlsr.Boot.C111_violated_words
#print axioms Nlsr.Boot.C111_violated_aborted
#print axioms Nlsr.Boot.C111_violated_saved
#print axioms Nlsr.C14_at_most_one
#print axioms Nlsr.C14_stays_pending
#print axioms Nlsr.C14_change_pending
#print axioms Nlsr.C14_runs_partial
#print axioms Nlsr.C14_runs_hyperbolic
#print axioms Nlsr.C14_violated_lost
#print axioms Nlsr.C14_violated_expiry
#print axioms Nlsr.Nfd.C118_capture
#print axioms Nlsr.C118_hello_partial
#print axioms Nlsr.C118_lsa_partial
#print axioms Nlsr.C118_sync_partial
#print axioms Nlsr.C118_violated_longer
#print axioms Nlsr.C62_history
#print axioms Nlsr.C77_served_partial
#print axioms Nlsr.C77_violated_elsewhere
#print axioms Nlsr.C62_segment
#print axioms Nlsr.C62_published
#print axioms Nlsr.C62_find_key_partial
#print axioms Nlsr.C62_find_cert
#print axioms Nlsr.C62_publish
#print axioms Nlsr.C62_publish_ends_iff
#print axioms Nlsr.C62_interest
#print axioms Nlsr.C62_sent
#print axioms Nlsr.C62_interest_run
#print axioms Nlsr.C77_configured_stays_partial
#print axioms Nlsr.C77_violated_replaced
#print axioms Nlsr.C62_violated_loop
#print axioms Nlsr.C62_violated_self
#print axioms Nlsr.C62_violated_locator
#print axioms Nlsr.C62_violated_key_name
#print axioms Nlsr.C49_names
#print axioms Nlsr.C49_no_duplicates
#print axioms Nlsr.C49_publish
#print axioms Nlsr.C49_idempotent
#print axioms Nlsr.C49_code
#print axioms Nlsr.C49_lsa
#print axioms Nlsr.C50_refused
#print axioms Nlsr.C50_new_cost_partial
#print axioms Nlsr.C50_violated_saved
#print axioms Nlsr.C51_saved_partial
#print axioms Nlsr.C51_deleted_partial
#print axioms Nlsr.C51_restart_partial
#print axioms Nlsr.C51_restart_deleted_partial
#print axioms Nlsr.C51_save_delete_partial
#print axioms Nlsr.C51_violated_delete
#print axioms Nlsr.C51_violated_period
#print axioms Nlsr.C51_violated_cost
#print axioms Nlsr.C51_violated_undefined
#print axioms Nlsr.C52_in_range_partial
#print axioms Nlsr.C52_fetch_tries
#print axioms Nlsr.C52_violated_fetch_tries
#print axioms Nlsr.C53_coordinates_partial
#print axioms Nlsr.C53_violated_spelling
#print axioms Nlsr.C53_violated_angle
#print axioms Nlsr.C72_minus_partial
#print axioms Nlsr.C72_as_written_partial
#print axioms Nlsr.C72_default_partial
#print axioms Nlsr.C72_large_partial
#print axioms Nlsr.C72_violated_unit
#print axioms Nlsr.C72_violated_negative
#print axioms Nlsr.C73_prefixes_partial
#print axioms Nlsr.C73_violated_twice
#print axioms Nlsr.C73_violated_none
#print axioms Nlsr.C74_neighbors_partial
#print axioms Nlsr.C74_cost_checked
#print axioms Nlsr.C74_violated_special_cost
#print axioms Nlsr.C123_accepted
#print axioms Nlsr.C107_protocol
#print axioms Nlsr.C107_state
#print axioms Nlsr.C107_coordinates_partial
#print axioms Nlsr.C107_neighbors_partial
#print axioms Nlsr.C107_prefixes
#print axioms Nlsr.C107_violated_angles
#print axioms Nlsr.C107_violated_neighbor
#print axioms Nlsr.C107_violated_cost
#print axioms Nlsr.C107_violated_negative
#print axioms Nlsr.C107_violated_section
#print axioms Nlsr.C81_loop_free_partial
#print axioms Nlsr.C81_violated_zero
#print axioms Nlsr.C84_as_started
#print axioms Nlsr.Daemon.C114_readonly
#print axioms Nlsr.Daemon.C114_one_part_partial
#print axioms Nlsr.Daemon.C114_lsa_partial
#print axioms Nlsr.Daemon.C114_hello_partial
#print axioms Nlsr.Daemon.C114_hello_elsewhere
#print axioms Nlsr.Daemon.C114_dispatcher_partial
#print axioms Nlsr.Daemon.C114_keys_partial
#print axioms Nlsr.Daemon.C114_command_partial
#print axioms Nlsr.Daemon.C114_violated_local
#print axioms Nlsr.Daemon.C114_violated_parts
#print axioms Nlsr.C119_lsas
#print axioms Nlsr.C119_small_partial
#print axioms Nlsr.C119_tables_partial
#print axioms Nlsr.C119_refused_partial
#print axioms Nlsr.C119_violated_dry
#print axioms Nlsr.C119_violated_kept
#print axioms Nlsr.C119_violated_refused
#print axioms Nlsr.Lsdb.C105_kept
#print axioms Nlsr.C107_names
#print axioms Nlsr.C110_time
#print axioms Nlsr.Segments.C105_not_segment
#print axioms Nlsr.Print.C110_bits
#print axioms Nlsr.Print.C110_unit
#print axioms Nlsr.Print.C110_special
#print axioms Nlsr.Print.C110_sign
#print axioms Nlsr.Print.C110_ties
#print axioms Nlsr.Print.C110_screens
#print axioms Nlsr.Directed.C112_sent
#print axioms Nlsr.Directed.C112_first
#print axioms Nlsr.Directed.C112_again
#print axioms Nlsr.Router.C34_violated_daemon
#print axioms Nlsr.C59_fetch
#print axioms Nlsr.C59_next
#print axioms Nlsr.C60_ids
#print axioms Nlsr.C60_no_status
#print axioms Nlsr.C60_created
#print axioms Nlsr.C60_dataset
#print axioms Nlsr.C60_destroyed_partial
#print axioms Nlsr.C60_violated_shared
#print axioms Nlsr.C61_once
#print axioms Nlsr.C61_which
#print axioms Nlsr.C70_operator_partial
#print axioms Nlsr.C70_violated_plain_name
#print axioms Nlsr.C60_destroyed_first
#print axioms Nlsr.C22_update
#print axioms Nlsr.C23_routes
#print axioms Nlsr.C65_no_lapse
#print axioms Nlsr.C24_neighbors
#print axioms Nlsr.C25_refresh_partial
#print axioms Nlsr.C25_violated_raised
#print axioms Nlsr.C66_withdrawn_partial
#print axioms Nlsr.C66_violated_retry
#print axioms Nlsr.C67_flags_partial
#print axioms Nlsr.C67_violated_flags
#print axioms Nlsr.C26_at_most_four
#print axioms Nlsr.C26_same_request
#print axioms Nlsr.C26_success_stops
#print axioms Nlsr.C26_success_stops_strategy
#print axioms Nlsr.C26_retries
#print axioms Nlsr.C122_adjacency_partial
#print axioms Nlsr.C122_name_partial
#print axioms Nlsr.C122_coordinate_partial
#print axioms Nlsr.C122_dataset_partial
#print axioms Nlsr.C122_violated_more
#print axioms Nlsr.C122_violated_angles
#print axioms Nlsr.C94_routes_partial
#print axioms Nlsr.C94_up_partial
#print axioms Nlsr.C95_scheduled_partial
#print axioms Nlsr.C95_sent
#print axioms Nlsr.C95_answered
#print axioms Nlsr.C94_violated_late_reply
#print axioms Nlsr.C94_violated_late_answer
#print axioms Nlsr.C94_violated_advertised
#print axioms Nlsr.C95_violated_refused
#print axioms Nlsr.C95_violated_twice
#print axioms Nlsr.Segments.C106_kept
#print axioms Nlsr.Segments.C106_current
#print axioms Nlsr.Segments.C106_handed_on_partial
#print axioms Nlsr.Segments.C106_violated_leftover
#print axioms Nlsr.Segments.C106_violated_old
#print axioms Nlsr.C41_down
#print axioms Nlsr.C41_inactive
#print axioms Nlsr.C42_up
#print axioms Nlsr.C42_valid
#print axioms Nlsr.C43_rebuild
#print axioms Nlsr.C124_router_up
#print axioms Nlsr.C124_router_stays
#print axioms Nlsr.C124_announced
#print axioms Nlsr.C90_router_down_partial
#print axioms Nlsr.C90_withdrawn_partial
#print axioms Nlsr.C41_nack
#print axioms Nlsr.C41_timeout
#print axioms Nlsr.C90_down_partial
#print axioms Nlsr.C90_down_timeouts_partial
#print axioms Nlsr.C90_violated_late
#print axioms Nlsr.C90_violated_unregistered
#print axioms Nlsr.C90_violated_invalid
#print axioms Nlsr.C41_losses
#print axioms Nlsr.C42_sender
#print axioms Nlsr.C44_answered_partial
#print axioms Nlsr.C44_violated_longer
#print axioms Nlsr.C68_malformed_partial
#print axioms Nlsr.C68_violated
#print axioms Nlsr.C69_round_trip
#print axioms Nlsr.C69_hello_back
#print axioms Nlsr.C71_loops_partial
#print axioms Nlsr.C71_violated
#print axioms Nlsr.C124_up
#print axioms Nlsr.C124_stays
#print axioms Nlsr.C124_reply
#print axioms Nlsr.C108_closest
#print axioms Nlsr.C108_greedy_partial
#print axioms Nlsr.C108_violated_loop
#print axioms Nlsr.C108_violated_direction
#print axioms Nlsr.C11_offers
#print axioms Nlsr.C11_no_route_to_self
#print axioms Nlsr.C11_no_fault
#print axioms Nlsr.C12_checked_partial
#print axioms Nlsr.C12_violated_range
#print axioms Nlsr.C12_violated_last
#print axioms Nlsr.C12_violated_nan
#print axioms Nlsr.C12_violated_fault
#print axioms Nlsr.C03_numbering
#print axioms Nlsr.C03_known_routers
#print axioms Nlsr.C04_agreed_cost
#print axioms Nlsr.C05_shortest_paths
#print axioms Nlsr.C06_next_hop_on_shortest_path
#print axioms Nlsr.C07_multipath_offers
#print axioms Nlsr.C07_best_offer_is_shortest
#print axioms Nlsr.C08_no_fault
#print axioms Nlsr.C09_costs_bounded
#print axioms Nlsr.C09_only_agreed_links
#print axioms Nlsr.C10_order_independent
#print axioms Nlsr.C76_sent_interests_partial
#print axioms Nlsr.C76_received_data_partial
#print axioms Nlsr.C76_violated_not_sent
#print axioms Nlsr.C76_violated_kept
#print axioms Nlsr.C76_violated_no_segment
#print axioms Nlsr.C76_violated_stored
#print axioms Nlsr.C76_own_reply_partial
#print axioms Nlsr.C76_fetched_partial
#print axioms Nlsr.C76_sums_partial
#print axioms Nlsr.C27_one_per_key
#print axioms Nlsr.C27_old_ignored
#print axioms Nlsr.C27_newer_only_partial
#print axioms Nlsr.C27_violated_wrap
#print axioms Nlsr.C29_signals_complete
#print axioms Nlsr.C87_asked
#print axioms Nlsr.C87_kept
#print axioms Nlsr.C87_until
#print axioms Nlsr.C87_installed
#print axioms Nlsr.C87_not_newer
#print axioms Nlsr.C87_other_type
#print axioms Nlsr.C87_violated_restart
#print axioms Nlsr.C37_pending
#print axioms Nlsr.C37_coalesced
#print axioms Nlsr.C37_built_lists
#print axioms Nlsr.C37_put_off
#print axioms Nlsr.C37_none_active
#print axioms Nlsr.C37_builds_active
#print axioms Nlsr.C28_names_partial
#print axioms Nlsr.C28_adjacencies_partial
#print axioms Nlsr.C28_coordinates_partial
#print axioms Nlsr.C28_violated_name_cost
#print axioms Nlsr.C28_violated_link_cost
#print axioms Nlsr.C28_violated_coordinates
#print axioms Nlsr.C32_highest_monotone
#print axioms Nlsr.C32_interests_ordered
#print axioms Nlsr.C32_retry
#print axioms Nlsr.C32_retry_fires
#print axioms Nlsr.C32_outdated_data
#print axioms Nlsr.C33_own_interest
#print axioms Nlsr.C33_exact_version
#print axioms Nlsr.C33_stored_prefix
#print axioms Nlsr.C33_violated_segment
#print axioms Nlsr.C34_fault_exact_partial
#print axioms Nlsr.C34_violated
#print axioms Nlsr.C35_adopt_partial
#print axioms Nlsr.C35_not_newer
#print axioms Nlsr.C35_violated_dry_run
#print axioms Nlsr.C35_violated_max
#print axioms Nlsr.C40_disk_first
#print axioms Nlsr.C36_name_coordinate_partial
#print axioms Nlsr.C36_adjacency_partial
#print axioms Nlsr.C36_violated_stale_report
#print axioms Nlsr.C39_no_reuse_partial
#print axioms Nlsr.C39_adjacency_partial
#print axioms Nlsr.C39_violated_dry_run
#print axioms Nlsr.C39_violated_stale_report
#print axioms Nlsr.C30_one_timer
#print axioms Nlsr.C30_other_step
#print axioms Nlsr.C30_first_timer
#print axioms Nlsr.C30_expires
#print axioms Nlsr.C31_refresh_partial
#print axioms Nlsr.C31_own_stays
#print axioms Nlsr.C31_violated_wrap
#print axioms Nlsr.C30_violated_stale_timer
#print axioms Nlsr.C38_lifetime_partial
#print axioms Nlsr.C38_violated
#print axioms Nlsr.C57_sync_origin_partial
#print axioms Nlsr.C57_violated
#print axioms Nlsr.C57_distinct_partial
#print axioms Nlsr.C58_interest_names_partial
#print axioms Nlsr.C58_violated
#print axioms Nlsr.C58_injective_partial
#print axioms Nlsr.Net.C117_longest_partial
#print axioms Nlsr.Net.C117_not_astray
#print axioms Nlsr.Net.C117_single_partial
#print axioms Nlsr.Net.C117_both_partial
#print axioms Nlsr.Net.C117_around_partial
#print axioms Nlsr.Net.C117_violated_loop
#print axioms Nlsr.Net.C85_agree_partial
#print axioms Nlsr.Net.C85_source
#print axioms Nlsr.Net.C85_not_ahead
#print axioms Nlsr.Net.C85_violated_prefix_cost
#print axioms Nlsr.Net.C85_violated_own_report
#print axioms Nlsr.Net.C93_lists
#print axioms Nlsr.Net.C93_delivered_partial
#print axioms Nlsr.Net.C93_gone
#print axioms Nlsr.Net.C86_forwarding_partial
#print axioms Nlsr.Net.C86_violated_loop
#print axioms Nlsr.Net.C85_violated_dry_run
#print axioms Nlsr.Net.C85_violated_fraction
#print axioms Nlsr.Net.C109_coordinates
#print axioms Nlsr.Net.C109_closest
#print axioms Nlsr.Net.C109_delivered_partial
#print axioms Nlsr.Net.C109_known
#print axioms Nlsr.Net.C109_violated_loop
#print axioms Nlsr.Net.C89_delivered_partial
#print axioms Nlsr.Net.C89_listed
#print axioms Nlsr.Net.C89_single
#print axioms Nlsr.Net.C89_violated_loop
#print axioms Nlsr.Net.C92_obtained
#print axioms Nlsr.Net.C92_same
#print axioms Nlsr.Net.C92_exchanged
#print axioms Nlsr.Net.C92_delivered_partial
#print axioms Nlsr.Net.C92_violated_links_gone
#print axioms Nlsr.C01_cheapest_per_face
#print axioms Nlsr.C01_order_independent
#print axioms Nlsr.C02_cheapest_first
#print axioms Nlsr.C02_cheapest_first_exact
#print axioms Nlsr.C02_remove
#print axioms Nlsr.C63_lines
#print axioms Nlsr.C63_cost_partial
#print axioms Nlsr.C63_listed
#print axioms Nlsr.C63_announced
#print axioms Nlsr.C63_violated_negative
#print axioms Nlsr.C63_violated_rest
#print axioms Nlsr.C78_exit
#print axioms Nlsr.C78_not_sent
#print axioms Nlsr.C78_daemon_partial
#print axioms Nlsr.C78_violated_nack
#print axioms Nlsr.C78_violated_applied
#print axioms Nlsr.C78_violated_saved
#print axioms Nlsr.C79_unreadable
#print axioms Nlsr.C79_last
#print axioms Nlsr.C78_refused
#print axioms Nlsr.Nlsrc.C97_exit
#print axioms Nlsr.Nlsrc.C97_help
#print axioms Nlsr.Nlsrc.C97_options
#print axioms Nlsr.Nlsrc.C97_verified
#print axioms Nlsr.Nlsrc.C97_shows
#print axioms Nlsr.Nlsrc.C97_status
#print axioms Nlsr.Nlsrc.C97_asks
#print axioms Nlsr.Nlsrc.C97_negative
#print axioms Nlsr.Nlsrc.C97_violated_unverified
#print axioms Nlsr.Nlsrc.C97_violated_abort
#print axioms Nlsr.Nlsrc.C97_violated_cut
#print axioms Nlsr.C48_advertised
#print axioms Nlsr.C48_sorted
#print axioms Nlsr.C48_report
#print axioms Nlsr.C16_advertisers
#print axioms Nlsr.C16_not_own
#print axioms Nlsr.C16_own_prefix_partial
#print axioms Nlsr.C16_no_idle_entry
#print axioms Nlsr.C17_link_state_partial
#print axioms Nlsr.C17_adjusted_partial
#print axioms Nlsr.C17_violated_hyperbolic
#print axioms Nlsr.C18_no_fault
#print axioms Nlsr.C19_pool_exact
#print axioms Nlsr.C20_history_partial
#print axioms Nlsr.C20_no_removal_partial
#print axioms Nlsr.C20_violated
#print axioms Nlsr.C21_one_advertiser_partial
#print axioms Nlsr.C21_one_advertiser_price_partial
#print axioms Nlsr.C21_zero_cost_partial
#print axioms Nlsr.C21_zero_cost_price_partial
#print axioms Nlsr.C21_violated_two_advertisers
#print axioms Nlsr.C21_violated_withdrawal
#print axioms Nlsr.C21_violated_hyperbolic
#print axioms Nlsr.C88_flags
#print axioms Nlsr.C88_not_downgraded
#print axioms Nlsr.C88_told
#print axioms Nlsr.C88_capture_partial
#print axioms Nlsr.C88_violated
#print axioms Nlsr.C21_some_cost_partial
#print axioms Nlsr.C21_same_cost_partial
#print axioms Nlsr.NumText.C72_every_text_partial
#print axioms Nlsr.NumText.C107_costs_partial
#print axioms Nlsr.NumText.C107_radius_partial
#print axioms Nlsr.NumText.C107_angles_partial
#print axioms Nlsr.NumText.C107_prefix_costs
#print axioms Nlsr.Net.C104_authentic_partial
#print axioms Nlsr.Net.C104_members
#print axioms Nlsr.Net.C104_own
#print axioms Nlsr.C104_violated_silenced
#print axioms Nlsr.Net.C104_violated_certificate
#print axioms Nlsr.Print.C110_lsdb
#print axioms Nlsr.Print.C110_routing
#print axioms Nlsr.Print.C110_status
#print axioms Nlsr.Print.C110_told
#print axioms Nlsr.Print.C110_whole
#print axioms Nlsr.Print.C110_precise
#print axioms Nlsr.Print.C110_violated_digits
#print axioms Nlsr.Print.C110_violated_notYet
#print axioms Nlsr.Print.C110_violated_forged
#print axioms Nlsr.C125_violated_kept
#print axioms Nlsr.C125_violated_for_ever
#print axioms Nlsr.C125_made_partial
#print axioms Nlsr.RegDaemon.C121_asked
#print axioms Nlsr.RegDaemon.C121_refused
#print axioms Nlsr.RegDaemon.C121_served
#print axioms Nlsr.RegDaemon.C121_early
#print axioms Nlsr.RegDaemon.C121_ends
#print axioms Nlsr.RegDaemon.C121_delivered_partial
#print axioms Nlsr.RegDaemon.C121_violated_taken
#print axioms Nlsr.RegDaemon.C121_violated_later
#print axioms Nlsr.LS.C113_link_state
#print axioms Nlsr.Npt.C113_whole
#print axioms Nlsr.Npt.C113_registered_partial
#print axioms Nlsr.Npt.C113_hyperbolic
#print axioms Nlsr.Npt.C113_error
#print axioms Nlsr.Npt.C113_violated_up
#print axioms Nlsr.Npt.C113_violated_large
#print axioms Nlsr.C82_best_faces_partial
#print axioms Nlsr.C82_violated_hyperbolic
#print axioms Nlsr.C84_links_partial
#print axioms Nlsr.C84_configured
#print axioms Nlsr.C84_soon
#print axioms Nlsr.C84_violated_forged
#print axioms Nlsr.C13_one_entry_per_destination
#print axioms Nlsr.Schema.C99_hello
#print axioms Nlsr.Schema.C99_lsa
#print axioms Nlsr.Schema.C99_dataset
#print axioms Nlsr.Schema.C99_only
#print axioms Nlsr.Schema.C99_up
#print axioms Nlsr.Schema.C99_violated_origin
#print axioms Nlsr.Schema.C99_violated_unversioned
#print axioms Nlsr.C98_accepted_partial
#print axioms Nlsr.C98_published
#print axioms Nlsr.C98_refused
#print axioms Nlsr.C98_violated_documented
#print axioms Nlsr.C98_violated_ignored
#print axioms Nlsr.C98_violated_missing
#print axioms Nlsr.Segments.C105_octets
#print axioms Nlsr.Segments.C105_fetched_partial
#print axioms Nlsr.Segments.C105_violated_large
#print axioms Nlsr.Segments.C105_violated_pushed_out
#print axioms Nlsr.Segments.C105_violated_crowd
#print axioms Nlsr.SeqFile.C96_round_trip
#print axioms Nlsr.SeqFile.C96_cut_lower
#print axioms Nlsr.SeqFile.C96_cut_keeps
#print axioms Nlsr.SeqFile.C96_crash
#print axioms Nlsr.SeqFile.C96_no_reuse_partial
#print axioms Nlsr.SeqFile.C96_on_disk
#print axioms Nlsr.SeqFile.C96_violated_disk_full
#print axioms Nlsr.SeqFile.C96_violated_damaged
#print axioms Nlsr.SeqFile.C96_adjacency_partial
#print axioms Nlsr.Daemon.C115_ended
#print axioms Nlsr.Daemon.C115_prefixes_partial
#print axioms Nlsr.Daemon.C115_lsa_partial
#print axioms Nlsr.Daemon.C115_names_partial
#print axioms Nlsr.Daemon.C115_hello_partial
#print axioms Nlsr.Daemon.C115_dataset_partial
#print axioms Nlsr.Daemon.C115_refused_partial
#print axioms Nlsr.Daemon.C115_certificate_partial
#print axioms Nlsr.Daemon.C115_violated_silenced
#print axioms Nlsr.Daemon.C115_violated_local
#print axioms Nlsr.C120_forgotten
#print axioms Nlsr.C120_kept
#print axioms Nlsr.C120_routes_partial
#print axioms Nlsr.C120_hyperbolic_partial
#print axioms Nlsr.C120_violated_stale_route
#print axioms Nlsr.Start.C102_start
#print axioms Nlsr.Start.C102_hello
#print axioms Nlsr.Start.C102_lsa
#print axioms Nlsr.Start.C102_served
#print axioms Nlsr.Start.C102_dataset_partial
#print axioms Nlsr.Start.C102_without
#print axioms Nlsr.Start.C102_violated_dataset
#print axioms Nlsr.Start.C102_violated_no_default
#print axioms Nlsr.C64_counts_partial
#print axioms Nlsr.C64_increments
#print axioms Nlsr.C64_violated_overflow
#print axioms Nlsr.C75_hello
#print axioms Nlsr.Daemon.C116_exact_partial
#print axioms Nlsr.Daemon.C116_histories_partial
#print axioms Nlsr.Daemon.C116_violated_anyone
#print axioms Nlsr.C91_offered_partial
#print axioms Nlsr.C91_told_partial
#print axioms Nlsr.C91_end_to_end_partial
#print axioms Nlsr.C91_violated_lower
#print axioms Nlsr.C54_round_trip
#print axioms Nlsr.C54_consumes_prefix
#print axioms Nlsr.C54_format
#print axioms Nlsr.C55_round_trip
#print axioms Nlsr.C55_types
#print axioms Nlsr.C56_accepted_reencodes
#print axioms Nlsr.C56_accepted_wellformed
#print axioms Nlsr.C56_injective
#print axioms Nlsr.C56_wrong_type_rejected
#print axioms Nlsr.C56_trailing_rejected
#print axioms Nlsr.C15_round_trip_partial
#print axioms Nlsr.C15_link_state_exact
#print axioms Nlsr.C15_violated_dry_only
#print axioms Nlsr.Schema.C100_lsa
#print axioms Nlsr.Schema.C100_hello
#print axioms Nlsr.Schema.C100_dataset
#print axioms Nlsr.Schema.C100_not_router
#print axioms Nlsr.Schema.C100_operator
#print axioms Nlsr.Schema.C100_genuine
#print axioms Nlsr.Schema.C101_command
#print axioms Nlsr.Schema.C101_site
#print axioms Nlsr.Schema.C101_violated_remote
#print axioms Nlsr.C80_lsdb_partial
#print axioms Nlsr.C80_objects
#print axioms Nlsr.C80_routing_table
#print axioms Nlsr.C80_violated_coordinates
#print axioms Nlsr.C79_lsdb
#print axioms Nlsr.C80_methods_partial
#print axioms Nlsr.C80_neighbour_partial
#print axioms Nlsr.C80_violated_link_cost
#print axioms Nlsr.C80_violated_next_hop
#print axioms Nlsr.C80_violated_entry
#print axioms Nlsr.C80_violated_name_list
#print axioms Nlsr.C80_content
#print axioms Nlsr.C125_bounded_partial
#print axioms Nlsr.C125_answering_partial
#print axioms Nlsr.C83_no_stray_partial
#print axioms Nlsr.C83_routes_partial
#print axioms Nlsr.C83_best_partial
#print axioms Nlsr.C83_no_lapse
#print axioms Nlsr.C83_refreshed
#print axioms Nlsr.C83_violated_new_face
